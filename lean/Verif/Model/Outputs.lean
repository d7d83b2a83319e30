import Verif.Model.NnlsChroma
import Verif.Model.Chordino
/-
The descriptions of their outputs that the chroma plug-in and the chord plug-in give to the host, and the outputs by
their numbers.

Simplifications: of a description the identifier, the number and the names of the bins, the extents, the step of
quantization, the kind of times and whether there are durations are kept; the texts for display and the rate of the
features are left out.  All outputs have a fixed number of bins.
-/

namespace JKD.Outputs

open JKD.Chroma

variable {D T : Type}

/-- A description of an output (vamp-sdk/Plugin.h). -/
structure Descriptor where
  identifier : String
  binCount : Nat
  binNames : List Str := []
  extents : Option (Rat × Rat) := none
  quantizeStep : Option Rat := none
  /-- `sampleType` is `FixedSampleRate`: one feature for every block -/
  fixedRate : Bool
  hasDuration : Bool := false

/-- `notenames` (NNLSChroma.cpp:71-73). -/
def notenames : List Str :=
  ["A  (bass)", "Bb (bass)", "B  (bass)", "C  (bass)", "C# (bass)", "D  (bass)", "Eb (bass)", "E  (bass)", "F  (bass)",
   "F# (bass)", "G  (bass)", "Ab (bass)",
   "A", "Bb", "B", "C", "C#", "D", "Eb", "E", "F", "F#", "G", "Ab"].map String.toList

/-- `chromanames` and `bothchromanames` (NNLSChroma.cpp:76-83). -/
def binNames : List Str × List Str :=
  (List.range 24).foldl (fun r iNote =>
    (if iNote < 12 then r.1 ++ [notenames.getD (iNote + 12) []] else r.1, r.2 ++ [notenames.getD iNote []])) ([], [])

/-- `NNLSChroma::getOutputDescriptors` (NNLSChroma.cpp:63-183). -/
def chromaOutputs : List Descriptor := [
  { identifier := "logfreqspec", binCount := nNote, fixedRate := true },
  { identifier := "tunedlogfreqspec", binCount := nNote, fixedRate := true },
  { identifier := "semitonespectrum", binCount := 84, fixedRate := true },
  { identifier := "chroma", binCount := 12, binNames := binNames.1, fixedRate := true },
  { identifier := "basschroma", binCount := 12, binNames := binNames.1, fixedRate := true },
  { identifier := "bothchroma", binCount := 24, binNames := binNames.2, fixedRate := true }]

/-- `NNLSChroma::process` (NNLSChroma.cpp:208-217): the feature of output 0. -/
def chromaProcess (F : Fns D) (fbuf : List D) (timestamp : T) (p : Base D T) : Run (Base D T × (T × List D)) := do
  let p ← baseProcess F fbuf timestamp p
  let f ← rd p.logSpectrum ((p.logSpectrum.length : Int) - 1)
  pure (p, f)

/-- The features of a run by the number of the output (NNLSChroma.cpp:103, 118, 133, 149, 165, 181 for the numbers,
215, 297, 471-474 for the features). -/
def chromaFeatures (logs : List (T × List D)) (f : Chroma.Features D T) : Nat → List (T × List D)
  | 0 => logs
  | 1 => f.tunedlogfreqspec
  | 2 => f.semitonespectrum
  | 3 => f.chroma
  | 4 => f.basschroma
  | 5 => f.bothchroma
  | _ => []

/-- A run of the chroma plug-in over the blocks of a recording, with all its outputs. -/
def runChroma (F : Fns D) (fs : Int) (blockSize : Nat) (params : Params D) (blocks : List (T × List D))
    (junk : Nat → Nnls.St D) : Run (Option (Nat → List (T × List D))) := do
  let r ← initialise F fs 1 blockSize (Base.new F params)
  if r.1 then do
    let s ← blocks.foldlM (fun (s : Base D T × List (T × List D)) bl => do
      let r ← chromaProcess F bl.2 bl.1 s.1
      pure (r.1, s.2 ++ [r.2])) (r.2, [])
    let f ← getRemainingFeatures F s.1 junk
    pure (some (chromaFeatures s.2 f))
  else pure none

/-- `Chordino::getOutputDescriptors` (Chordino.cpp:162-237). -/
def chordOutputs : List Descriptor := [
  { identifier := "simplechord", binCount := 0, fixedRate := false },
  { identifier := "chordnotes", binCount := 1, extents := some (0, 127), quantizeStep := some 1, fixedRate := false,
    hasDuration := true },
  { identifier := "harmonicchange", binCount := 1, fixedRate := true },
  { identifier := "loglikelihood", binCount := 1, fixedRate := true }]

/-- A feature of the chord plug-in. -/
structure Feature (D : Type) where
  timestamp : Int
  duration : Option Int := none
  values : List D
  label : Str := []

/-- The features of a run by the number of the output (Chordino.cpp:186, 204, 219, 234 for the numbers, 549-622 for
the features). -/
def chordFeatures (F : Fns D) (f : Chordino.Features D) : Nat → List (Feature D)
  | 0 => f.chords.map (fun c => { timestamp := c.1, values := [], label := c.2 })
  | 1 => f.notes.map (fun n => { timestamp := n.timestamp, duration := some n.duration, values := [F.lit n.pitch] })
  | 2 => f.change.map (fun c => { timestamp := c.1, values := [c.2] })
  | 3 => f.loglikelihood.map (fun c => { timestamp := c.1, values := [c.2] })
  | _ => []

end JKD.Outputs
