import Verif.Model.KeyProfile
import Verif.Model.KeyTransition
import Verif.Model.HMM
/-
Model of the key-detection part of `main` (src/justkeydding.cc:189-242): from a pitch-class sequence and
the chosen profiles and transitions to the global key.
-/

namespace JKD

/-- The variables of `main` that select profiles and transitions (src/justkeydding.cc:42-47).  The three
custom arrays are passed to the constructors whether or not they were filled in
(src/justkeydding.cc:202-211); their content when not filled in is arbitrary, so theorems quantify over
it.  Simplification: copying an unfilled array by value is taken to be harmless. -/
structure Config (D : Type) where
  keyTransition : String
  majorKeyProfile : String
  minorKeyProfile : String
  customKeyTransition : List D
  majorCustomKeyProfile : List D
  minorCustomKeyProfile : List D

/-- What the rest of `main` uses. -/
structure Detection (D : Type) where
  /-- `keySequence` after the first model (src/justkeydding.cc:227) -/
  localKeys : List Key
  /-- `keySequence` after the second model (src/justkeydding.cc:240) -/
  globalKeys : List Key
  /-- `probabilityVector` (src/justkeydding.cc:241) -/
  probabilities : List D
  /-- `mainKey` (src/justkeydding.cc:242) -/
  mainKey : Key

namespace Detect

variable {D : Type}

/-- The initial probabilities (src/justkeydding.cc:193-199). -/
def initialProbabilities (F : FPU D) : Res (IMap D) :=
  let symmetrical := ((KeyTransition.mk1 F "symmetrical").getArray F).1
  forM Key.all ([] : IMap D) (fun m k => do
    let n ← k.getInt
    let v ← Res.read symmetrical[n.toNat]?
    return m.set n v)

/-- The two-stage detection (src/justkeydding.cc:189-242).  `.error s` is the early `return status` of
line 225.  `iter₁`, `iter₂` are the hash-map iteration orders in the two runs. -/
def detect (F : FPU D) (iter₁ iter₂ : IMap (Node D) → List (Int × Node D)) (cfg : Config D)
    (pitchClassSequence : List PitchClass) : Res (Except Int (Detection D)) := do
  let keyVector := Key.all
  let initial ← initialProbabilities F
  let transitions ← ((KeyTransition.mk2 F cfg.keyTransition cfg.customKeyTransition).getMap F).1
  let (emissions, _) ← (KeyProfile.mk4 F cfg.majorKeyProfile cfg.minorKeyProfile
    cfg.majorCustomKeyProfile cfg.minorCustomKeyProfile).getMap F
  let hmm ← HMM.ofPitchClasses pitchClassSequence keyVector initial transitions emissions
  let hmm ← hmm.runViterbi F iter₁
  if hmm.getStatus ≠ statusHmmViterbiReady then
    return .error hmm.getStatus
  else
    let localKeys := hmm.getKeySequence
    let zeroTransitions ← ((KeyTransition.mk1 F "zero").getMap F).1
    let hmm2 ← HMM.ofKeys localKeys keyVector initial zeroTransitions transitions
    let hmm2 ← hmm2.runViterbi F iter₂
    let globalKeys := hmm2.getKeySequence
    match globalKeys with
    | [] => .ub  -- `front()` of an empty vector
    | k :: _ =>
      return .ok { localKeys := localKeys, globalKeys := globalKeys
                   probabilities := hmm2.getProbabilityVector, mainKey := k }

end Detect
end JKD
