import Verif.Model.PyScaling
import Verif.Model.PyFiles
/-
Model of the trainer (/repo/model_trainer.py:8-63) and the tester (/repo/model_tester.py:8-23) up to the classifier.

Simplifications: the classifier (scikit-learn) and its file are not modelled; the result is the matrix and the labels
handed to `clf.fit`.  An array is given by its rows; one without rows is one-dimensional, as `np.array([])` is.
`exit()` is the exception SystemExit.
-/

namespace JKD.Py

variable {K : Type}

/-- `np.concatenate((a, b))` of two matrices (model_trainer.py:38): raises unless both are two-dimensional with rows of
the same length, or both one-dimensional. -/
def concatRows (a b : List (List K)) : PyRes (List (List K)) :=
  if (a = [] ↔ b = []) ∧ (a.headD []).length = (b.headD []).length then .ok (a ++ b) else .raise "ValueError"

/-- `data.ensemble` -/
def Loaded.getEnsemble (l : Loaded K) : PyRes Ensemble :=
  match l.ensemble with
  | some e => .ok e
  | none => .raise "AttributeError"

/-- `data.X` -/
def Loaded.getX (l : Loaded K) : PyRes (List (List K)) :=
  match l.attrs ['X'] with
  | some (.rows x) => .ok x
  | _ => .raise "AttributeError"

/-- `data.y` -/
def Loaded.getY (l : Loaded K) : PyRes (List Int) :=
  match l.attrs ['y'] with
  | some (.labels y) => .ok y
  | _ => .raise "AttributeError"

/-- The loop over the data sets after the first (model_trainer.py:28-39). -/
def collectMore (e : Ensemble) (X : List (List K)) (y : List Int) : List (PyRes (Loaded K)) → PyRes (List (List K) × List Int)
  | [] => .ok (X, y)
  | d :: ds => do
    let data ← d
    let e' ← data.getEnsemble
    if e' ≠ e then .raise "SystemExit"
    else
      let X' ← data.getX
      let X ← concatRows X X'
      let y' ← data.getY
      collectMore e X (y ++ y') ds

/-- The loop (model_trainer.py:28-39); without data sets the variables used below it do not exist. -/
def collect : List (PyRes (Loaded K)) → PyRes (List (List K) × List Int)
  | [] => .raise "NameError"
  | d :: ds => do
    let data ← d
    let e ← data.getEnsemble
    let X ← data.getX
    let y ← data.getY
    collectMore e X y ds

/-- What is handed to `clf.fit` (model_trainer.py:28-59), for the data sets as `dataset.Dataset` loads them. -/
def trainingSet [Field K] [LinearOrder K] (tiny : K → Bool) (ds : List (PyRes (Loaded K))) :
    PyRes (List (List K) × List Int) := do
  let (X, y) ← collect ds
  let X ← featureScaling tiny X
  dataAugmentation X y

/-- What is handed to `clf.score` (model_tester.py:15-21). -/
def testSet [Field K] [LinearOrder K] (tiny : K → Bool) (d : PyRes (Loaded K)) : PyRes (List (List K) × List Int) := do
  let data ← d
  let X ← data.getX
  let X ← featureScaling tiny X
  let y ← data.getY
  return (X, y)

end JKD.Py
