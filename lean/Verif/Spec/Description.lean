import Mathlib.Data.Rat.Defs
import Verif.Cpp
/-
The description of the plug-ins that is shipped for hosts to read (nnls-chroma-1.1/nnls-chroma.n3): a table of the
plug-ins with their parameters and outputs.  This is text, not code: nothing here is taken from the C++ files.
-/

namespace JKD.Description

/-- `vamp:Parameter` and `vamp:QuantizedParameter`: identifier, range, default and step. -/
structure Parameter where
  identifier : String
  minValue : ℚ
  maxValue : ℚ
  defaultValue : ℚ
  quantizeStep : Option ℚ

/-- `vamp:SparseOutput` and `vamp:DenseOutput`: identifier, number and names of the bins. -/
structure Output where
  identifier : String
  binCount : Nat
  binNames : List String
  /-- a dense output has a feature for every block -/
  dense : Bool

/-- `vamp:Plugin`. -/
structure Plugin where
  identifier : String
  parameters : List Parameter
  outputs : List Output

/-- nnls-chroma.n3:62-72, 178-188. -/
def useNNLS : Parameter := ⟨"useNNLS", 0, 1, 1, some 1⟩

/-- nnls-chroma.n3:73-83. -/
def useHMM : Parameter := ⟨"useHMM", 0, 1, 1, some 1⟩

/-- nnls-chroma.n3:84-94, 189-199, 317-327. -/
def rollon : Parameter := ⟨"rollon", 0, 5, 0, some (1 / 2)⟩

/-- nnls-chroma.n3:95-105, 200-210. -/
def tuningmode : Parameter := ⟨"tuningmode", 0, 1, 0, some 1⟩

/-- nnls-chroma.n3:106-115, 211-220. -/
def whitening : Parameter := ⟨"whitening", 0, 1, 1, none⟩

/-- nnls-chroma.n3:116-125, 221-230. -/
def spectralShape : Parameter := ⟨"s", 1 / 2, 9 / 10, 7 / 10, none⟩

/-- nnls-chroma.n3:231-241. -/
def chromanormalize : Parameter := ⟨"chromanormalize", 0, 3, 0, some 1⟩

/-- nnls-chroma.n3:276, 286. -/
def pitchNames : List String := ["A", "Bb", "B", "C", "C#", "D", "Eb", "E", "F", "F#", "G", "Ab"]

/-- nnls-chroma.n3:296. -/
def bassNames : List String :=
  ["A  (bass)", "Bb (bass)", "B  (bass)", "C  (bass)", "C# (bass)", "D  (bass)", "Eb (bass)", "E  (bass)", "F  (bass)",
   "F# (bass)", "G  (bass)", "Ab (bass)"]

/-- `plugbase:chordino` (nnls-chroma.n3:39-150). -/
def chordino : Plugin where
  identifier := "chordino"
  parameters := [useNNLS, useHMM, rollon, tuningmode, whitening, spectralShape]
  outputs := [⟨"simplechord", 0, [], false⟩, ⟨"harmonicchange", 1, [], true⟩]

/-- `plugbase:nnls-chroma` (nnls-chroma.n3:151-298). -/
def chroma : Plugin where
  identifier := "nnls-chroma"
  parameters := [useNNLS, rollon, tuningmode, whitening, spectralShape, chromanormalize]
  outputs := [⟨"logfreqspec", 256, [], true⟩, ⟨"tunedlogfreqspec", 256, [], true⟩, ⟨"semitonespectrum", 84, [], true⟩,
    ⟨"chroma", 12, pitchNames, true⟩, ⟨"basschroma", 12, pitchNames, true⟩,
    ⟨"bothchroma", 24, bassNames ++ pitchNames, true⟩]

/-- `plugbase:tuning` (nnls-chroma.n3:299-355). -/
def tuning : Plugin where
  identifier := "tuning"
  parameters := [rollon]
  outputs := [⟨"tuning", 0, [], false⟩, ⟨"localtuning", 1, [], true⟩]

/-- `:nnls-chroma` (nnls-chroma.n3:22-37). -/
def library : List Plugin := [chordino, chroma, tuning]

end JKD.Description
