import Verif.Model.PyDataset
import Mathlib.Algebra.Order.Field.Basic
/-
Model of `feature_scaling` (/repo/dataset.py:130-136).

Simplifications: floats are the elements of an ordered field `K` with exact arithmetic.  `MinMaxScaler` is the one of
scikit-learn (trusted base): with lo, hi the wanted range and m, M the smallest and largest value, x becomes
x·s + (lo − m·s), s = (hi − lo) / r with r = M − m, or r = 1 when M − m counts as zero.  What counts as zero changed
between versions (exactly 0, later less than ten times the machine epsilon), so it is a parameter `tiny`.
-/

namespace JKD.Py

variable {K : Type} [Field K] [LinearOrder K]

/-- The smallest entry; 0 for no entries. -/
def minOf : List K → K
  | [] => 0
  | x :: xs => xs.foldl min x

/-- The largest entry; 0 for no entries. -/
def maxOf : List K → K
  | [] => 0
  | x :: xs => xs.foldl max x

/-- `MinMaxScaler(feature_range=(lo, hi)).fit_transform(x.reshape(-1, 1))` -/
def minMaxScale (tiny : K → Bool) (lo hi : K) (x : List K) : List K :=
  let r := if tiny (maxOf x - minOf x) then 1 else maxOf x - minOf x
  let s := (hi - lo) / r
  x.map (fun v => v * s + (lo - minOf x * s))

/-- `reshape(-1, w)` of the numbers of an array in order: raises unless the size is a multiple of `w`. -/
def reshapeRows {α : Type} (w : Nat) (x : List α) : PyRes (List (List α)) :=
  if w ≠ 0 ∧ x.length % w = 0 then
    .ok ((List.range (x.length / w)).map (fun r => (x.drop (w * r)).take w))
  else .raise "ValueError"

/-- `feature_scaling` (dataset.py:130-136) with the default range; `X` is given by its rows.  `apply_along_axis`
raises on an empty array. -/
def featureScaling (tiny : K → Bool) (X : List (List K)) : PyRes (List (List K)) := do
  let originalLength := (X.headD []).length
  let Xp ← reshapeRows 24 X.flatten
  if Xp = [] then .raise "ValueError"
  else
    let Xp := Xp.map (minMaxScale tiny (-1) 1)
    reshapeRows originalLength Xp.flatten

end JKD.Py
