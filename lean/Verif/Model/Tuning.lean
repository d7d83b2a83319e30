import Verif.Model.NnlsChroma
import Verif.Cpp
/-
Model of the tuning plug-in of the audio front end (nnls-chroma-1.1/Tuning.cpp), which shares the block-by-block part
with the chroma plug-in.

Simplifications: as in NnlsChroma.lean.  `sprintf` with the format `%0.1f` is a parameter.  The numbers of the two
outputs, which `getOutputDescriptors` sets, are the two fields of the result: hosts call it before `process`.
-/

namespace JKD.Chroma

variable {D T : Type}

/-- The feature of the first output: time, duration, value and label. -/
structure Pitch (D T : Type) where
  timestamp : T
  duration : T
  value : D
  label : Str

/-- `440 * pow(2,normalisedtuning/12)` (Tuning.cpp:169-170). -/
def tuning440 (F : Fns D) (normalisedtuning : D) : D :=
  F.mul (F.lit 440) (F.pow (F.lit 2) (F.div normalisedtuning (F.lit 12)))

/-- `process` (Tuning.cpp:159-176): the local tuning at the block. -/
def tuningProcess (F : Fns D) (fbuf : List D) (timestamp : T) (p : Base D T) : Run (Base D T × (T × D)) := do
  let p ← baseProcess F fbuf timestamp p
  let normalisedtuning ← rd p.localTuning ((p.localTuning.length : Int) - 1)
  pure (p, (timestamp, tuning440 F normalisedtuning))

/-- `cumulativetuning` (Tuning.cpp:191-199): the angle is divided by 24 π at once. -/
def cumulativeTuning (F : Fns D) (p : Base D T) : Run D := do
  let r ← loop (fun i (r : D × D) => do
    let m ← rd p.meanTunings i
    let c ← rd p.cosvalues i
    let s ← rd p.sinvalues i
    pure (F.add r.1 (F.mul m c), F.add r.2 (F.mul m s))) nBPS (F.lit 0, F.lit 0)
  pure (F.mul (F.lit 440) (F.pow (F.lit 2) (F.div (F.atan2 r.2 r.1) (F.mul (F.lit 24) F.pi))))

/-- `sprintf(buffer0, "%0.1f Hz", x)` into 50 characters (Tuning.cpp:201-203); the text and a zero have to fit. -/
def pitchLabel (fixed1 : D → Str) (x : D) : Run Str :=
  let s := fixed1 x ++ [' ', 'H', 'z']
  if s.length < 50 then .ok s else .ub

/-- `getRemainingFeatures` (Tuning.cpp:178-217); `zero` is the time 0. -/
def tuningRemaining (F : Fns D) (fixed1 : D → Str) (zero : T) (p : Base D T) : Run (List (Pitch D T)) :=
  match p.logSpectrum.getLast? with
  | none => pure []
  | some last => do
    let value ← cumulativeTuning F p
    let label ← pitchLabel fixed1 value
    pure [{ timestamp := zero, duration := last.1, value := value, label := label }]

/-- A run of the plug-in over the blocks of a recording: the local tunings and the features at the end. -/
def runTuning (F : Fns D) (fixed1 : D → Str) (zero : T) (fs : Int) (blockSize : Nat) (params : Params D)
    (blocks : List (T × List D)) : Run (Option (List (T × D) × List (Pitch D T))) := do
  let r ← initialise F fs 1 blockSize (Base.new F params)
  if r.1 then do
    let s ← blocks.foldlM (fun (s : Base D T × List (T × D)) bl => do
      let r ← tuningProcess F bl.2 bl.1 s.1
      pure (r.1, s.2 ++ [r.2])) (r.2, [])
    let f ← tuningRemaining F fixed1 zero s.1
    pure (some (s.2, f))
  else pure none

end JKD.Chroma
