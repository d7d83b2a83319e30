import Verif.Model.PyFiles
import Verif.Model.PyEnsemble
import Verif.Model.PyScaling
/-
Model of the main programs that prepare the training data and use the trained classifier:
/repo/dataset_creator.py:244-270 and /repo/justkeydding_ensemble.py:19-51.

Simplifications: the checks of the command line and of the existence of the classifier are passed; the classifier is a
function from a row of features to a label.  `Ensembler` keeps its members from the first call on; without mixed
profiles every call gives what a new object gives (`evaluate_again` in Props/WholeProps.lean), so a new one is used for
every file.
-/

namespace JKD.Py

variable {K : Type}

/-- The profiles of the data-set program (dataset_creator.py:252-262). -/
def creatorProfiles : List Str :=
  ["aarden_essen", "temperley", "krumhansl_kessler", "bellman_budge", "albrecht_shanahan1", "albrecht_shanahan2", "sapp",
   "simple_natural_minor", "simple_harmonic_minor", "simple_melodic_minor"].map String.toList

/-- The transitions of the data-set program (dataset_creator.py:263-266). -/
def creatorTransitions : List Str := ["ktg_exponential5", "ktg_exponential10", "ktg_exponential15"].map String.toList

/-- The profiles of the ensemble script (justkeydding_ensemble.py:28-38). -/
def scriptProfiles : List Str :=
  ["aarden_essen", "temperley", "krumhansl_kessler", "bellman_budge", "albrecht_shanahan1", "albrecht_shanahan2", "sapp",
   "simple_natural_minor", "simple_harmonic_minor", "simple_melodic_minor"].map String.toList

/-- The transitions of the ensemble script (justkeydding_ensemble.py:39-42). -/
def scriptTransitions : List Str := ["ktg_exponential5", "ktg_exponential10", "ktg_exponential15"].map String.toList

/-- `ens.evaluate(...)` and the flattening (dataset_creator.py:171-174, justkeydding_ensemble.py:44-46). -/
def evaluateFlat (R : Runner K) (kp : Store K) (e : Ensembler) (file : Str) (mixed : Bool) : PyRes (List K) := do
  let r ← e.evaluate R kp file mixed
  return flat r.1

/-- The files the data-set program writes for a folder (dataset_creator.py:244-270): the path of the folder, its name,
the listing of the features, the annotations and the splits. -/
def creatorMain (R : Runner K) (kp : Store K) (path name : Str) (listing : List Str)
    (annotations : Option (Str → Option Str)) (splits : AMap Str (List Str)) : PyRes (List (Str × Content K)) := do
  let c : Creator K ← Creator.new name listing annotations splits
  let c ← c.computeFeatures (fun f =>
    evaluateFlat R kp (Ensembler.new creatorProfiles creatorTransitions) (path ++ "/features/".toList ++ f) false)
  return c.write creatorProfiles creatorTransitions false

/-- What the ensemble script hands to the classifier (justkeydding_ensemble.py:43-48). -/
def scriptRow [Field K] [LinearOrder K] (R : Runner K) (tiny : K → Bool) (kp : Store K) (file : Str) :
    PyRes (List (List K)) := do
  let x ← evaluateFlat R kp (Ensembler.new scriptProfiles scriptTransitions) file false
  featureScaling tiny [x]

/-- What the ensemble script prints (justkeydding_ensemble.py:43-51). -/
def scriptMain [Field K] [LinearOrder K] (R : Runner K) (tiny : K → Bool) (kp : Store K) (predict : List K → Int)
    (file : Str) : PyRes Str := do
  let X ← scriptRow R tiny kp file
  return keyName (predict (X.headD []))

end JKD.Py
