import Mathlib.Analysis.SpecialFunctions.Log.Basic
import Mathlib.Algebra.BigOperators.Group.Finset.Basic
/-
Model of the classifier of the ensemble (/repo/model_trainer.py:41-60, /repo/justkeydding_ensemble.py:49-51).

The code calls scikit-learn's `LogisticRegression(penalty='l2', fit_intercept=False, C=0.7, solver='lbfgs',
multi_class='auto')`.  Trusted base: its documentation.  With this solver and more than two classes the model is the
multinomial one without intercept, `fit` minimises the objective below over all weights, and `predict` answers with the
class of the largest decision value, the first one if there are several (`np.argmax` over the sorted classes).

Simplifications: numbers are reals.  The solver stops early, so that its result is only taken to be within `ε` of the
smallest objective; `ε = 0` is the exact minimum.
-/

namespace JKD.Py

open Finset

/-- `clf.decision_function`: the weights of a class times the row (justkeydding_ensemble.py:50, as part of `predict`). -/
noncomputable def decision (d : Nat) (W : Int → Nat → ℝ) (k : Int) (x : List ℝ) : ℝ := ∑ i ∈ range d, W k i * x.getD i 0

/-- What a labelled row costs: minus the logarithm of the probability that the weights give to its label. -/
noncomputable def rowLoss (classes : Finset Int) (d : Nat) (W : Int → Nat → ℝ) (p : List ℝ × Int) : ℝ :=
  Real.log (∑ k ∈ classes, Real.exp (decision d W k p.1)) - decision d W p.2 p.1

/-- What `clf.fit` minimises (model_trainer.py:41-57): half the sum of the squared weights, plus `C` times the costs of the rows. -/
noncomputable def objective (C : ℝ) (classes : Finset Int) (d : Nat) (rows : List (List ℝ × Int)) (W : Int → Nat → ℝ) : ℝ :=
  (∑ k ∈ classes, ∑ i ∈ range d, W k i ^ 2) / 2 + C * (rows.map (rowLoss classes d W)).sum

/-- The weights are those of `clf.fit(X, y)` (model_trainer.py:57), up to `ε`; the classes are the labels that occur. -/
def Fitted (ε C : ℝ) (d : Nat) (X : List (List ℝ)) (y : List Int) (W : Int → Nat → ℝ) : Prop :=
  ∀ W', objective C y.toFinset d (X.zip y) W ≤ objective C y.toFinset d (X.zip y) W' + ε

/-- `k` is the answer of `clf.predict` for the row (justkeydding_ensemble.py:50). -/
def Answer (classes : Finset Int) (d : Nat) (W : Int → Nat → ℝ) (x : List ℝ) (k : Int) : Prop :=
  k ∈ classes ∧ ∀ j ∈ classes, decision d W j x ≤ decision d W k x ∧ (decision d W j x = decision d W k x → k ≤ j)

end JKD.Py
