import Verif.Model.FPU
/-
Specification of hidden Markov model path scores, independent of the algorithm that finds a best path.
-/

namespace JKD.Spec

variable {D : Type}

/-- A hidden Markov model as three functions. -/
structure Tables (D : Type) where
  init : Int → D
  trans : Int → Int → D
  emis : Int → Int → D

/-- Score of continuing a path from `prev` with accumulated score `acc`: for each further observation,
add the logarithm of transition times emission, from left to right. -/
def extend (F : FPU D) (T : Tables D) (acc : D) (prev : Int) : List Int → List Int → D
  | o :: os, k :: ks => extend F T (F.add acc (F.log10 (F.mul (T.trans prev k) (T.emis k o)))) k os ks
  | _, _ => acc

/-- Score of the state sequence `ks` for the observation sequence `os`:
log(init·emission) + Σ log(transition·emission), summed from left to right. -/
def score (F : FPU D) (T : Tables D) : List Int → List Int → D
  | o :: os, k :: ks => extend F T (F.log10 (F.mul (T.init k) (T.emis k o))) k os ks
  | _, _ => F.negInf

/-- `ks` is a state sequence for `os` over the given states: one state per observation. -/
def IsPath (states os ks : List Int) : Prop := ks.length = os.length ∧ ∀ k ∈ ks, k ∈ states

/-- The path is possible: its score is above minus infinity. -/
def Possible (F : FPU D) (T : Tables D) (os ks : List Int) : Prop :=
  F.lt F.negInf (score F T os ks) = true

end JKD.Spec
