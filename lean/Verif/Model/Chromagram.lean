import Verif.Model.FPU
import Verif.Model.PitchClass
/-
Model of `Chromagram` (include/chromagram.h, src/chromagram.cc).

Outside the model: the file system (a file is `none` when it cannot be opened, else its content), libsndfile
and the NNLS-Chroma plug-in behind the Vamp host adapters (records `AudioFile` and `Plugin`), and the text
conversions `std::stof` and `operator<<(double)` (parameters `stof` and `sh`).
-/

namespace JKD

/-- `Status` constants of the chromagram (include/status.h:35-45). -/
def statusChromaUninitialized : Int := 0
def statusChromaInputfileError : Int := 1
def statusChromaNnlsError : Int := 2
def statusChromaOriginalReady : Int := 3
def statusChromaDiscreteReady : Int := 4

/-- `INT_MAX` and `INT_MIN` of a 32-bit `int`. -/
def intMax : Int := 2147483647
def intMin : Int := -2147483648

/-- `ChromagramMap` (include/chromagram.h:57-59): a `std::map<double, std::array<double, 12>>` as the list
of its entries in iteration order, which is increasing key order. -/
abbrev CMap (D : Type) := List (D × List D)

namespace CMap

variable {D : Type}

/-- A value-initialised `ChromagramVector`. -/
def zeros (F : FPU D) : List D := List.replicate 12 F.zero

/-- `f(m[t])` on a `std::map` ordered by `<`: keys neither less nor greater are the same key; a missing
entry is created with a zero vector. -/
def modify (F : FPU D) (m : CMap D) (t : D) (f : List D → List D) : CMap D :=
  match m with
  | [] => [(t, f (zeros F))]
  | (k, v) :: m =>
    if F.lt k t then (k, v) :: modify F m t f
    else if F.lt t k then (t, f (zeros F)) :: (k, v) :: m
    else (k, f v) :: m

/-- `m[t][i] = x`.  With a NaN key `<` is not a strict weak order, which the standard makes undefined; an
index out of the array is undefined. -/
def assign (F : FPU D) (m : CMap D) (t : D) (i : Nat) (x : D) : Res (CMap D) :=
  if F.eq t t && decide (i < 12) then .ok (m.modify F t (fun v => v.set i x)) else .ub

/-- `m.find(t)`. -/
def find? (F : FPU D) (m : CMap D) (t : D) : Option (List D) :=
  match m with
  | [] => none
  | (k, v) :: m => if F.lt k t || F.lt t k then find? F m t else some v

end CMap

/-- Reading a stream with `std::getline(stream, s, delim)` until it fails: the pieces between delimiters,
with no piece after a final delimiter. -/
def getlines (delim : Char) (s : Str) : List Str :=
  go s [] false
where
  /-- `cur` is the piece being read (reversed), `started` tells whether any character was extracted. -/
  go : Str → Str → Bool → List Str
    | [], cur, started => if started then [cur.reverse] else []
    | c :: s, cur, _ => if c = delim then cur.reverse :: go s [] false else go s (c :: cur) true

/-- A `Chromagram` object (include/chromagram.h:70-72). -/
structure Chromagram (D : Type) where
  status : Int
  original : CMap D
  discrete : CMap D

/-- `enFileType` (include/chromagram.h:60-63); `other` is any value that is neither enumerator. -/
inductive FileType where
  | csv
  | audio
  | other
  deriving DecidableEq, Repr

/-- What libsndfile gives for a file that opens (src/chromagram.cc:139-141, 181): the header fields used and
the sample frames, each with one value per channel. -/
structure AudioFile (S : Type) where
  /-- `sfinfo.frames` -/
  frames : Int
  /-- `sfinfo.channels` -/
  channels : Nat
  /-- the frames `sf_readf_float` delivers -/
  data : List (List S)

/-- One feature of the plug-in: `timestamp.toString()` and `values`. -/
structure Feature (D : Type) where
  timestamp : Str
  values : List D

/-- The NNLS-Chroma plug-in behind the two host adapters (src/chromagram.cc:145-172, 196, 207), as a state
machine.  `process` gets the block and its timestamp; features are indexed by output number. -/
structure Plugin (S D P T : Type) where
  /-- `getPreferredBlockSize()` -/
  blocksize : Nat
  /-- `initialise(1, blocksize, blocksize)` -/
  initialise : Bool
  /-- the identifiers of `getOutputDescriptors()` -/
  outputs : List String
  start : P
  process : P → List S → T → P × (Nat → List (Feature D))
  remaining : P → Nat → List (Feature D)
  /-- `RealTime::frame2RealTime(frame, samplerate)` -/
  frame2RealTime : Nat → T

/-- The `float` operations of the down-mix (src/chromagram.cc:184-188). -/
structure MixOps (S : Type) where
  zero : S
  add : S → S → S
  /-- division by the `int` number of channels -/
  divInt : S → Nat → S

namespace Chromagram

variable {D S P T : Type}

/-- The statements of `getChromagramFromCsv` for one line (src/chromagram.cc:115-131).  `t` is
`timeStamp`. -/
def csvTokens (F : FPU D) (stof : Str → Res D) (tokens : List Str) (i : Nat) (t : D) (m : CMap D) :
    Res (D × CMap D) :=
  match tokens with
  | [] => .ok (t, m)
  | token :: tokens =>
    if i = 0 then do
      let t ← stof token
      csvTokens F stof tokens (i + 1) t m
    else do
      let x ← stof token
      let m ← m.assign F t ((pcANatural + (i - 1)) % numPitchClasses) x
      csvTokens F stof tokens (i + 1) t m

/-- The loop over the lines (src/chromagram.cc:113-132). -/
def csvLines (F : FPU D) (stof : Str → Res D) (content : Str) : Res (CMap D) := do
  let (_, m) ← forM (getlines '\n' content) (F.zero, ([] : CMap D))
    (fun s line => csvTokens F stof (getlines ',' line) 0 s.1 s.2)
  return m

/-- `getChromagramFromCsv` (src/chromagram.cc:105-136). -/
def getChromagramFromCsv (F : FPU D) (stof : Str → Res D) (file : Option Str) (c : Chromagram D) :
    Res (Chromagram D) :=
  match file with
  | none => .ok { c with status := statusChromaInputfileError }
  | some content => do
    let m ← csvLines F stof content
    return { c with original := m, status := statusChromaOriginalReady }

/-- The output number of `"chroma"` (src/chromagram.cc:166-172): the last match, or none. -/
def chromaOutput (outputs : List String) : Option Nat :=
  (outputs.zipIdx).foldl (fun acc p => if p.1 = "chroma" then some p.2 else acc) none

/-- One sample of the down-mix (src/chromagram.cc:184-190). -/
def mixSample (M : MixOps S) (channels : Nat) (frame : List S) : S :=
  (List.range channels).foldl (fun acc c => M.add acc (M.divInt (frame.getD c M.zero) channels)) M.zero

/-- The block handed to the plug-in (src/chromagram.cc:183-191): the `count` frames read, then zeros. -/
def mixBlock (M : MixOps S) (channels blocksize : Nat) (chunk : List (List S)) : List S :=
  (List.range blocksize).map (fun i =>
    match chunk[i]? with
    | some fr => mixSample M channels fr
    | none => M.zero)

/-- The reading loop (src/chromagram.cc:178-203).  `fuel` bounds the number of iterations; each iteration
consumes at least one frame, so `data.length + 1` is enough.  `frame` is an `int`. -/
def readLoop (M : MixOps S) (pl : Plugin S D P T) (out : Nat) (f : AudioFile S) :
    Nat → List (List S) → Nat → P → List (Feature D) → Res (P × List (Feature D))
  | 0, _, _, p, acc => .ok (p, acc)
  | fuel + 1, data, frame, p, acc =>
    if (frame : Int) < f.frames then
      let chunk := data.take pl.blocksize
      if chunk.length = 0 then .ok (p, acc)
      else
        let r := pl.process p (mixBlock M f.channels pl.blocksize chunk) (pl.frame2RealTime frame)
        if ((frame + chunk.length : Nat) : Int) ≤ intMax then
          readLoop M pl out f fuel (data.drop pl.blocksize) (frame + chunk.length) r.1 (acc ++ r.2 out)
        else .ub
    else .ok (p, acc)

/-- The features put into the map (src/chromagram.cc:212-223). -/
def storeFeatures (F : FPU D) (stof : Str → Res D) (features : List (Feature D)) : Res (CMap D) :=
  forM features ([] : CMap D) (fun m ft => do
    let t ← stof ft.timestamp
    forM (ft.values.zipIdx) m (fun m p =>
      m.assign F t ((pcANatural + p.2) % numPitchClasses) p.1))

/-- `getChromagramFromAudio` (src/chromagram.cc:138-230). -/
def getChromagramFromAudio (F : FPU D) (M : MixOps S) (stof : Str → Res D) (pl : Plugin S D P T)
    (file : Option (AudioFile S)) (c : Chromagram D) : Res (Chromagram D) :=
  match file with
  | none => .ok { c with status := statusChromaInputfileError }
  | some f =>
    if !pl.initialise then .ok { c with status := statusChromaNnlsError }
    else
      match chromaOutput pl.outputs with
      | none => .ok { c with status := statusChromaNnlsError }
      | some out => do
        let (p, feats) ← readLoop M pl out f (f.data.length + 1) f.data 0 pl.start []
        let m ← storeFeatures F stof (feats ++ pl.remaining p out)
        return { c with original := m, status := statusChromaOriginalReady }

/-- `discretizeChromagram` (src/chromagram.cc:232-243). -/
def discretizeChromagram (F : FPU D) (c : Chromagram D) : Res (Chromagram D) := do
  let m ← forM c.original c.discrete (fun m fr =>
    forM (fr.2.zipIdx) m (fun m p => m.assign F fr.1 p.2 (F.floor p.1)))
  return { c with discrete := m, status := statusChromaDiscreteReady }

/-- The constructor (src/chromagram.cc:31-44).  `csv` and `audio` are what the file name denotes for the two
readers. -/
def construct (F : FPU D) (M : MixOps S) (stof : Str → Res D) (pl : Plugin S D P T)
    (csv : Option Str) (audio : Option (AudioFile S)) (fileType : FileType) : Res (Chromagram D) := do
  let c : Chromagram D := { status := statusChromaUninitialized, original := [], discrete := [] }
  let c ← match fileType with
    | .csv => getChromagramFromCsv F stof csv c
    | .audio => getChromagramFromAudio F M stof pl audio c
    | .other => .ok c
  if c.status = statusChromaOriginalReady then discretizeChromagram F c else .ok c

/-- `while (n) { push_back(PitchClass(pc)); n--; }` (src/chromagram.cc:57-60).  A negative `n` runs down to
`INT_MIN`, where `n--` overflows. -/
def pushLoop (pc : Int) (n : Int) (seq : List PitchClass) : Res (List PitchClass) :=
  if n = 0 then .ok seq
  else if n ≤ intMin then .ub
  else pushLoop pc (n - 1) (seq ++ [PitchClass.ofInt pc])
termination_by (n - intMin).toNat
decreasing_by simp only [intMin] at *; omega

/-- The body of the loop over pitch classes (src/chromagram.cc:55-60). -/
def pushPitchClass (F : FPU D) (pc : Nat) (x : D) (seq : List PitchClass) : Res (List PitchClass) :=
  match F.toInt x with
  | none => .ub
  | some n =>
    if n ≠ 0 then
      if n ≤ intMin then .ub else pushLoop pc (n - 1) seq
    else pushLoop pc n seq

/-- The loop over the pitch classes of one frame (src/chromagram.cc:54-61). -/
def pushFrame (F : FPU D) (v : List D) (seq : List PitchClass) : Res (List PitchClass) :=
  forM v.zipIdx seq (fun seq p => pushPitchClass F p.2 p.1 seq)

/-- `std::array::operator==` (src/chromagram.cc:50). -/
def sameVector (F : FPU D) (v w : List D) : Bool := (v.zip w).all (fun p => F.eq p.1 p.2)

/-- The loop of `getPitchClassSequence` over the frames (src/chromagram.cc:48-62).  `past` is what reading
`std::next(itChr)->second` yields at the last frame, where `std::next(itChr)` is `end()`: `none` is the
standard's answer (undefined), `some v` an implementation that reads whatever bytes `v` are there. -/
def framesLoop (F : FPU D) (past : Option (List D)) (frames : List (List D)) (seq : List PitchClass) :
    Res (List PitchClass) :=
  match frames with
  | [] => .ok seq
  | v :: rest => do
    let next ← match rest with
      | [] => Res.read past
      | w :: _ => .ok w
    if sameVector F v next then framesLoop F past rest seq
    else do
      let seq ← pushFrame F v seq
      framesLoop F past rest seq

/-- `getPitchClassSequence` (src/chromagram.cc:46-64). -/
def getPitchClassSequence (F : FPU D) (past : Option (List D)) (c : Chromagram D) :
    Res (List PitchClass) :=
  framesLoop F past (c.discrete.map Prod.snd) []

/-- One printed line: the timestamp, then `,value` for every value (src/chromagram.cc:75-80, 93-101). -/
def printLine (sh : D → Str) (t : D) (vs : List D) : Str :=
  sh t ++ (vs.flatMap (fun x => ',' :: sh x)) ++ ['\n']

/-- `printChromagram` (src/chromagram.cc:66-82): what goes to standard output. -/
def printChromagram (sh : D → Str) (c : Chromagram D) : Str :=
  if c.status ≠ statusChromaOriginalReady ∧ c.status ≠ statusChromaDiscreteReady then []
  else c.discrete.flatMap (fun fr => printLine sh fr.1 fr.2)

/-- `printOriginalChromagram` (src/chromagram.cc:84-103): what goes to standard output.  `chrVector[index]`
is in range for the arrays of 12 stored in the map. -/
def printOriginalChromagram (F : FPU D) (sh : D → Str) (startOnANatural : Bool) (c : Chromagram D) : Str :=
  if c.status ≠ statusChromaOriginalReady ∧ c.status ≠ statusChromaDiscreteReady then []
  else c.original.flatMap (fun fr => printLine sh fr.1
    ((List.range 12).map (fun i =>
      fr.2.getD (if startOnANatural then (pcANatural + i) % numPitchClasses else i) F.zero)))

/-- `getStatus` (src/chromagram.cc:245-247). -/
def getStatus (c : Chromagram D) : Int := c.status

end Chromagram
end JKD
