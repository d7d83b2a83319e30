import Verif.Model.NnlsChroma
import Verif.Model.ChordViterbi
/-
Model of the chord plug-in that comes with the chroma plug-in (nnls-chroma-1.1/Chordino.cpp, and `chordDictionary`
of chromamethods.cpp).  It shares `NNLSBase` with the chroma plug-in, and the first half of
`Chordino::getRemainingFeatures` (Chordino.cpp:278-452) is the same code as in `NNLSChroma::getRemainingFeatures`,
so `normalisedTuning`, `tuneAll` and `notesOf` of the model of the latter are used for it.

Simplifications, on top of those of the model of the chroma plug-in:

* a dictionary read from a file `chord.dict` (chromamethods.cpp:372-437) is a parameter: its chord types and its
  numbers; `none` stands for no such file (Model/DictFile.lean has the reading of the file);
* the normalised chroma of Chordino.cpp:456-487 are stored in a list that nothing reads, and computing them cannot
  fail; they are left out, as is the message about clipping (Chordino.cpp:505-508) and the average `logscale`
  (Chordino.cpp:591-601), which is not used either;
* `Vamp::RealTime` is a whole number of nanoseconds;
* labels are lists of characters;
* the host has asked for the output descriptors before it asks for the features, which is what numbers the outputs
  (Chordino.cpp:165-237).
-/

namespace JKD.Chordino

open JKD.Chroma

variable {D : Type}

/-- `MIDI_basenote` (chromamethods.h:28). -/
def midiBasenote : Int := 45

/-- `staticChordnames` (chromamethods.cpp:272-312): the first half in the usual syntax, the second in that of
Harte. -/
def staticChordnames : List Str :=
  [[], [], ['m'], ['m'], ['m', '7', 'b', '5'], ['m', '7', 'b', '5'], ['6'], ['7'], ['m', 'a', 'j', '7'],
   ['m', '7'], ['m', '6'], [], [], ['d', 'i', 'm'], ['a', 'u', 'g'], [], [], ['7'], [], [], [':', 'm', 'i', 'n'],
   [':', 'm', 'i', 'n'], [':', 'h', 'd', 'i', 'm', '7'], [':', 'h', 'd', 'i', 'm', '7'], [':', 'm', 'a', 'j', '6'],
   [':', '7'], [':', 'm', 'a', 'j', '7'], [':', 'm', 'i', 'n', '7'], [':', 'm', 'i', 'n', '6'], [], [],
   [':', 'd', 'i', 'm'], [':', 'a', 'u', 'g'], [], [], [':', '7']]

/-- `staticChordvalues` (chromamethods.cpp:314-340): for every type, which of the twelve bass and of the twelve
treble pitch classes belong to it. -/
def staticChordvalues : List Nat :=
  [1, 0, 0, 0, 0, 0, 0, 0, 0, 0, 0, 0, 1, 0, 0, 0, 1, 0, 0, 1, 0, 0, 0, 0,
   0, 0, 0, 0, 0, 0, 0, 0, 0, 0, 0, 0, 1, 0, 0, 0, 1, 0, 0, 1, 0, 0, 0, 0,
   1, 0, 0, 0, 0, 0, 0, 0, 0, 0, 0, 0, 1, 0, 0, 1, 0, 0, 0, 1, 0, 0, 0, 0,
   0, 0, 0, 0, 0, 0, 0, 0, 0, 0, 0, 0, 1, 0, 0, 1, 0, 0, 0, 1, 0, 0, 0, 0,
   0, 0, 0, 0, 0, 0, 0, 0, 0, 0, 1, 0, 1, 0, 0, 1, 0, 0, 1, 0, 0, 0, 1, 0,
   1, 0, 0, 0, 0, 0, 0, 0, 0, 0, 0, 0, 1, 0, 0, 1, 0, 0, 1, 0, 0, 0, 1, 0,
   1, 0, 0, 0, 0, 0, 0, 0, 0, 0, 0, 0, 1, 0, 0, 0, 1, 0, 0, 1, 0, 1, 0, 0,
   1, 0, 0, 0, 0, 0, 0, 0, 0, 0, 0, 0, 1, 0, 0, 0, 1, 0, 0, 1, 0, 0, 1, 0,
   1, 0, 0, 0, 0, 0, 0, 0, 0, 0, 0, 0, 1, 0, 0, 0, 1, 0, 0, 1, 0, 0, 0, 1,
   1, 0, 0, 0, 0, 0, 0, 0, 0, 0, 0, 0, 1, 0, 0, 1, 0, 0, 0, 1, 0, 0, 1, 0,
   1, 0, 0, 0, 0, 0, 0, 0, 0, 0, 0, 0, 1, 0, 0, 1, 0, 0, 0, 1, 0, 1, 0, 0,
   0, 0, 0, 0, 1, 0, 0, 0, 0, 0, 0, 0, 1, 0, 0, 0, 1, 0, 0, 1, 0, 0, 0, 0,
   0, 0, 0, 0, 0, 0, 0, 1, 0, 0, 0, 0, 1, 0, 0, 0, 1, 0, 0, 1, 0, 0, 0, 0,
   1, 0, 0, 0, 0, 0, 0, 0, 0, 0, 0, 0, 1, 0, 0, 1, 0, 0, 1, 0, 0, 0, 0, 0,
   1, 0, 0, 0, 0, 0, 0, 0, 0, 0, 0, 0, 1, 0, 0, 0, 1, 0, 0, 0, 1, 0, 0, 0,
   0, 0, 1, 0, 0, 0, 0, 0, 0, 0, 0, 0, 1, 0, 0, 0, 1, 0, 0, 1, 0, 0, 0, 0,
   0, 0, 0, 0, 0, 0, 0, 0, 0, 0, 1, 0, 1, 0, 0, 0, 1, 0, 0, 1, 0, 0, 0, 0,
   0, 0, 0, 0, 1, 0, 0, 0, 0, 0, 0, 0, 1, 0, 0, 0, 1, 0, 0, 1, 0, 0, 1, 0]

/-- `notenames` (chromamethods.cpp:352-354). -/
def notenames : List Str :=
  [['A', ' ', ' ', '(', 'b', 'a', 's', 's', ')'], ['B', 'b', ' ', '(', 'b', 'a', 's', 's', ')'],
   ['B', ' ', ' ', '(', 'b', 'a', 's', 's', ')'], ['C', ' ', ' ', '(', 'b', 'a', 's', 's', ')'],
   ['C', '#', ' ', '(', 'b', 'a', 's', 's', ')'], ['D', ' ', ' ', '(', 'b', 'a', 's', 's', ')'],
   ['E', 'b', ' ', '(', 'b', 'a', 's', 's', ')'], ['E', ' ', ' ', '(', 'b', 'a', 's', 's', ')'],
   ['F', ' ', ' ', '(', 'b', 'a', 's', 's', ')'], ['F', '#', ' ', '(', 'b', 'a', 's', 's', ')'],
   ['G', ' ', ' ', '(', 'b', 'a', 's', 's', ')'], ['A', 'b', ' ', '(', 'b', 'a', 's', 's', ')'], ['A'], ['B', 'b'],
   ['B'], ['C'], ['C', '#'], ['D'], ['E', 'b'], ['E'], ['F'], ['F', '#'], ['G'], ['A', 'b']]

/-- `bassnames` (chromamethods.cpp:356-370). -/
def bassnames : List (List Str) :=
  [[['A'], [], ['B'], ['C'], ['C', '#'], ['D'], [], ['E'], [], ['F', '#'], ['G'], ['G', '#']],
   [['B', 'b'], [], ['C'], ['D', 'b'], ['D'], ['E', 'b'], [], ['F'], [], ['G'], ['A', 'b'], ['A']],
   [['B'], [], ['C', '#'], ['D'], ['D', '#'], ['E'], [], ['F', '#'], [], ['G', '#'], ['A'], ['A', '#']],
   [['C'], [], ['D'], ['E', 'b'], ['E'], ['F'], [], ['G'], [], ['A'], ['B', 'b'], ['B']],
   [['C', '#'], [], ['D', '#'], ['E'], ['E', '#'], ['F', '#'], [], ['G', '#'], [], ['A', '#'], ['B'], ['B', '#']],
   [['D'], [], ['E'], ['F'], ['F', '#'], ['G'], [], ['A'], [], ['B'], ['C'], ['C', '#']],
   [['E', 'b'], [], ['F'], ['G', 'b'], ['G'], ['A', 'b'], [], ['B', 'b'], [], ['C'], ['D', 'b'], ['D']],
   [['E'], [], ['F', '#'], ['G'], ['G', '#'], ['A'], [], ['B'], [], ['C', '#'], ['D'], ['D', '#']],
   [['F'], [], ['G'], ['A', 'b'], ['A'], ['B', 'b'], [], ['C'], [], ['D'], ['E', 'b'], ['E']],
   [['F', '#'], [], ['G', '#'], ['A'], ['A', '#'], ['B'], [], ['C', '#'], [], ['D', '#'], ['E'], ['E', '#']],
   [['G'], [], ['A'], ['B', 'b'], ['B'], ['C'], [], ['D'], [], ['E'], ['F'], ['F', '#']],
   [['A', 'b'], [], ['B', 'b'], ['C', 'b'], ['C'], ['D', 'b'], [], ['E', 'b'], [], ['F'], ['G', 'b'], ['G']],
   [['1'], [], ['2'], ['b', '3'], ['3'], ['4'], [], ['5'], [], ['6'], ['b', '7'], ['7']]]

/-- The slash notation of a chord (chromamethods.cpp:444-454). -/
def slashNotation (F : Fns D) (harte : D) (dict : List D) (iType iSemitone : Nat) : Run Str :=
  loop (fun t s => do
    let k := t + 1
    let x ← rd dict (24 * iType + k % 12 : Nat)
    if F.lt (F.lit 0.99) x then do
      let row ← rd bassnames (if F.eq harte (F.lit 0) then iSemitone else 12 : Nat)
      rd row k
    else pure s) 11 []

/-- The numbers and the notes of a chord (chromamethods.cpp:455-470); `bare` tells that there is no slash. -/
def chordEntry (F : Fns D) (bare : Bool) (dict : List D) (iType iSemitone : Nat) : Run (List D × List Int) := do
  let notes := if bare then [midiBasenote + ((iSemitone + 12) % 12 : Nat)] else []
  let r ← loop (fun k (r : List D × List Int) => do
    let x ← rd dict (24 * iType + (k + 12 - iSemitone) % 12 : Nat)
    if F.eq x (F.lit 1) then pure (r.1 ++ [F.lit 1], r.2 ++ [midiBasenote + ((k + 12) % 12 : Nat)])
    else do
      let y ← rd dict (24 * iType + (k + 12 - iSemitone) % 12 + 12 : Nat)
      pure (r.1 ++ [if F.eq y (F.lit 1) then F.lit 0.5 else F.lit 0], r.2)) 12 ([], notes)
  loop (fun k (r : List D × List Int) => do
    let x ← rd dict (24 * iType + (k + 12 - iSemitone) % 12 + 12 : Nat)
    pure (r.1 ++ [x],
      if F.lt (F.lit 0) x then r.2 ++ [midiBasenote + ((k + 12 + 6) % 12 : Nat) - 6 + 24] else r.2)) 12 r

/-- The label of a chord (chromamethods.cpp:471-478). -/
def chordLabel (slash type : Str) (iSemitone : Nat) : Run Str := do
  let n ← rd notenames (12 + iSemitone : Nat)
  pure (if slash = [] then n ++ type else n ++ type ++ ['/'] ++ slash)

/-- Names, numbers and notes of all chords but the last (chromamethods.cpp:440-486). -/
def allChords (F : Fns D) (harte : D) (names : List Str) (dict : List D) :
    Run (List Str × List D × List (List Int)) :=
  loop (fun iType r =>
    loop (fun iSemitone r => do
      let slash ← slashNotation F harte dict iType iSemitone
      let e ← chordEntry F (slash = []) dict iType iSemitone
      let type ← rd names iType
      let label ← chordLabel slash type iSemitone
      pure (r.1 ++ [label], r.2.1 ++ e.1, r.2.2 ++ [e.2])) 12 r) names.length ([], [], [])

/-- Division of every chord by its standard deviation about zero (chromamethods.cpp:495-517). -/
def normaliseChords (F : Fns D) (boostN : D) (loaded : List D) : Run (List D) :=
  let exponent := F.lit 2
  loop (fun iChord l => do
    let stand ← loop (fun iST s => do
      let x ← rd l (24 * iChord + iST : Nat)
      pure (F.add s (F.div (F.pow (F.abs x) exponent) (F.lit 24)))) 24 (F.lit 0)
    let root := F.pow stand (F.div (F.lit 1) exponent)
    let stand := if iChord + 1 < loaded.length / 24 then root else F.div root (F.add (F.lit 1) boostN)
    loop (fun iST l => do
      let x ← rd l (24 * iChord + iST : Nat)
      wr l (24 * iChord + iST : Nat) (F.div x stand)) 24 l) (loaded.length / 24) loaded

/-- `chordDictionary` (chromamethods.cpp:342-535): `mchorddict` and `m_chordnotes` are what the caller's vectors
contain before, new entries are added behind. -/
def chordDictionary (F : Fns D) (ext : Option (List Str × List D)) (mchorddict : List D)
    (mchordnotes : List (List Int)) (boostN harte : D) : Run (List Str × List D × List (List Int)) := do
  let names := if F.eq harte (F.lit 1) then staticChordnames.drop (staticChordnames.length / 2)
    else staticChordnames.take (staticChordnames.length / 2)
  let types := ext.getD (names, staticChordvalues.map (fun n => F.lit (n : Nat)))
  let r ← allChords F harte types.1 types.2
  let names := r.1 ++ [['N']]
  let loaded := r.2.1 ++ List.replicate 12 (F.lit 0.5) ++ List.replicate 12 (F.lit 1)
  let loaded ← normaliseChords F boostN loaded
  let out ← loop (fun i out => do
    let x ← rd loaded i
    pure (out ++ [x])) (names.length * 24) mchorddict
  pure (names, out, mchordnotes ++ r.2.2 ++ [[]])

/-- The state of the plug-in (NNLSBase.h:76-78, Chordino.h:52-54). -/
structure State (D : Type) where
  base : Base D Int
  boostN : D
  harte : D
  chorddict : List D
  chordnotes : List (List Int)
  chordnames : List Str

/-- The constructor (Chordino.cpp:32-39), with the parameters a host has set. -/
def State.new (F : Fns D) (params : Params D) (boostN harte : D) : State D where
  base := Base.new F params
  boostN := boostN
  harte := harte
  chorddict := []
  chordnotes := []
  chordnames := []

/-- `Chordino::initialise` (Chordino.cpp:239-251). -/
def initialise (F : Fns D) (ext : Option (List Str × List D)) (fs : Int) (channels blockSize : Nat) (c : State D) :
    Run (Bool × State D) := do
  let b ← Chroma.initialise F fs channels blockSize c.base
  if b.1 then do
    let d ← chordDictionary F ext c.chorddict c.chordnotes c.boostN c.harte
    pure (true, { c with base := b.2, chordnames := d.1, chorddict := d.2.1, chordnotes := d.2.2 })
  else pure (false, { c with base := b.2 })

/-- How well a chord fits the chroma (Chordino.cpp:494-511). -/
def chordValue (F : Fns D) (dict : List D) (nChord : Nat) (chroma : List D) (iChord : Nat) : Run D := do
  let v ← loop (fun iBin v => do
    let d ← rd dict (24 * iChord + iBin : Nat)
    let x ← rd chroma iBin
    pure (F.add v (F.mul d x))) 24 (F.lit 0)
  let v := if iChord + 1 = nChord then F.mul v (F.lit 0.7) else v
  let v := if F.lt v (F.lit 0) then F.lit 0 else v
  let v := if F.lt (F.lit 200) v then F.lit 200 else v
  pure (F.pow (F.lit 1.3) v)

/-- The local chord estimation (Chordino.cpp:489-522): one row of the chordogram. -/
def chordSalience (F : Fns D) (dict : List D) (nChord : Nat) (chroma : List D) : Run (List D) := do
  let r ← loop (fun iChord (r : List D × D) => do
    let v ← chordValue F dict nChord chroma iChord
    pure (r.1 ++ [v], F.add r.2 v)) nChord ([], F.lit 0)
  if F.lt (F.lit 0) r.2 then
    loop (fun iChord l => do
      let x ← rd l iChord
      wr l iChord (F.div x r.2)) nChord r.1
  else wr r.1 ((nChord : Int) - 1) (F.lit 1)

/-- The arithmetic of `ViterbiPath`. -/
def viterbiOps (F : Fns D) : ChordViterbi.Ops D where
  zero := F.lit 0
  ofNat n := F.lit n
  add := F.add
  mul := F.mul
  div := F.div
  gt a b := F.lt b a

/-- The outcome of `ViterbiPath` as an outcome here. -/
def ofRes {α : Type} : Res α → Run α
  | .ok a => .ok a
  | .ub => .ub
  | .throw _ => .abort

/-- The first probabilities (Chordino.cpp:535). -/
def initProb (F : Fns D) (nChord : Nat) : Run (List D) :=
  wr (List.replicate nChord (F.lit 0)) ((nChord : Int) - 1) (F.lit 1)

/-- The transition probabilities (Chordino.cpp:532, 540-545). -/
def transProb (F : Fns D) (nChord : Nat) : Run (List (List D)) :=
  loop (fun iChord m => do
    let row ← wr (List.replicate nChord
      (F.div (F.sub (F.lit 1) (F.lit 0.99)) (F.lit ((nChord : Rat) - 1)))) iChord (F.lit 0.99)
    pure (m ++ [row])) nChord []

/-- A note of a chord: when it starts, how long it lasts and which it is. -/
structure Note where
  timestamp : Int
  duration : Int
  pitch : Int
  deriving DecidableEq, Repr

/-- What `getRemainingFeatures` returns, by output. -/
structure Features (D : Type) where
  chords : List (Int × Str)
  notes : List Note
  change : List (Int × D)
  loglikelihood : List (Int × D)

/-- The variables of the loop over the frames. -/
structure Walk (D : Type) where
  chords : List (Int × Str)
  notes : List Note
  oldchord : Int
  oldnotes : List Note
  chordchange : List D

/-- Finish the duration of the notes that are sounding (Chordino.cpp:566-569, 608-611). -/
def finish (t : Int) (oldnotes : List Note) : List Note :=
  oldnotes.map (fun n => { n with duration := n.duration + t })

/-- One frame (Chordino.cpp:556-588). -/
def walkFrame (F : Fns D) (names : List Str) (chordnotes : List (List Int)) (timestamps : List Int)
    (path : List Int) (delta : List (List D)) (nChord iFrame : Nat) (w : Walk D) : Run (Walk D) := do
  let c ← rd path iFrame
  let w ← (if c ≠ w.oldchord then do
      let t ← rd timestamps iFrame
      let label ← rd names c
      let new ← rd chordnotes c
      pure { w with
        chords := w.chords ++ [(t, label)]
        oldchord := c
        notes := w.notes ++ finish t w.oldnotes
        oldnotes := new.map (fun p => { timestamp := t, duration := -t, pitch := p }) }
    else pure w)
  let change ← loop (fun iChord change => do
    let before ← rd delta ((iFrame : Int) - 1)
    let num ← rd before iChord
    let now ← rd delta iFrame
    let denom ← rd now iChord
    let eps := F.lit 0.0000001
    let denom := if F.lt denom eps then eps else denom
    let x ← rd change ((iFrame : Int) - 1)
    wr change ((iFrame : Int) - 1) (F.add x (F.mul num (F.log (F.add (F.div num denom) eps))))) nChord w.chordchange
  pure { w with chordchange := change }

/-- The chord estimates and what is derived from them (Chordino.cpp:549-622). -/
def report (F : Fns D) (names : List Str) (chordnotes : List (List Int)) (timestamps : List Int)
    (v : ChordViterbi.Result D) (nFrame : Nat) : Run (Features D) := do
  let nChord := names.length
  let t0 ← rd timestamps 0
  let c0 ← rd v.path 0
  let l0 ← rd names c0
  let change ← wr (List.replicate nFrame (F.lit 0)) 0 (F.lit 0)
  let w ← loop (fun t w => walkFrame F names chordnotes timestamps v.path v.delta nChord (t + 1) w)
    (v.path.length - 1)
    { chords := [(t0, l0)], notes := [], oldchord := (nChord : Int) - 1, oldnotes := [], chordchange := change }
  let ll ← loop (fun iFrame ll => do
    let s ← rd v.scale iFrame
    let t ← rd timestamps iFrame
    pure (ll ++ [(t, F.neg (F.log s))])) nFrame []
  let tn ← rd timestamps ((timestamps.length : Int) - 1)
  let ch ← loop (fun iFrame ch => do
    let t ← rd timestamps iFrame
    let x ← rd w.chordchange iFrame
    pure (ch ++ [(t, x)])) nFrame []
  pure {
    chords := w.chords ++ [(tn, ['N'])]
    notes := w.notes ++ finish tn w.oldnotes
    change := ch
    loglikelihood := ll }

/-- `getRemainingFeatures` (Chordino.cpp:270-629). -/
def getRemainingFeatures (F : Fns D) (c : State D) (junk : Nat → Nnls.St D) : Run (Features D) :=
  if c.base.logSpectrum.length = 0 then
    pure {
      chords := []
      notes := []
      change := []
      loglikelihood := [] }
  else do
    let nChord := c.chordnames.length
    let tuning ← normalisedTuning F c.base c.base.meanTunings
    let tuned ← tuneAll F c.base tuning
    let chordogram ← tuned.1.zipIdx.foldlM (fun g fr => do
      let n ← notesOf F c.base (junk fr.2) fr.1.2
      let row ← chordSalience F c.chorddict nChord (n.basschroma ++ n.chroma)
      pure (g ++ [row])) []
    let init ← initProb F nChord
    let trans ← transProb F nChord
    let v ← ofRes (ChordViterbi.viterbiPath (viterbiOps F) init trans chordogram)
    report F c.chordnames c.chordnotes (c.base.logSpectrum.map Prod.fst) v c.base.logSpectrum.length

/-- A run of the plug-in over the blocks of a recording (Chordino.cpp:239-271). -/
def runAll (F : Fns D) (ext : Option (List Str × List D)) (fs : Int) (blockSize : Nat) (params : Params D)
    (boostN harte : D) (blocks : List (Int × List D)) (junk : Nat → Nnls.St D) : Run (Option (Features D)) := do
  let r ← initialise F ext fs 1 blockSize (State.new F params boostN harte)
  if r.1 then do
    let b ← blocks.foldlM (fun p bl => baseProcess F bl.2 bl.1 p) r.2.base
    let f ← getRemainingFeatures F { r.2 with base := b } junk
    pure (some f)
  else pure none

end JKD.Chordino
