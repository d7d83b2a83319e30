import Verif.Cpp
/-
Model of the Python dataset code: dataset.py (transpose, compare_keys, weighted_score, data_augmentation)
and dataset_creator.py (label tables, parse_label).

Python integers are `Int`; `//` and `%` by a positive number are floor division and modulus, as Lean's.
Simplification: Python floats in the score are rationals.
-/

namespace JKD.Py

/-- Outcome of Python code: a value or an exception. -/
inductive PyRes (α : Type _) where
  | ok (a : α)
  | raise (name : String)
  deriving DecidableEq, Repr

namespace PyRes

protected def bind {α β : Type _} : PyRes α → (α → PyRes β) → PyRes β
  | .ok a, f => f a
  | .raise e, _ => .raise e

instance : Monad PyRes where
  pure := PyRes.ok
  bind := PyRes.bind

@[simp] theorem bind_ok {α β : Type _} (a : α) (f : α → PyRes β) : (PyRes.ok a >>= f) = f a := rfl
@[simp] theorem bind_raise {α β : Type _} (e : String) (f : α → PyRes β) :
    ((PyRes.raise e : PyRes α) >>= f) = PyRes.raise e := rfl
@[simp] theorem pure_eq {α : Type _} (a : α) : (pure a : PyRes α) = PyRes.ok a := rfl

theorem bind_eq_ok {α β : Type _} {x : PyRes α} {f : α → PyRes β} {b : β} :
    (x >>= f) = .ok b ↔ ∃ a, x = .ok a ∧ f a = .ok b := by
  cases x <;> simp

end PyRes

/-! ### dataset_creator.py -/

/-- `keys_single_letter` (dataset_creator.py:48-60). -/
def keysSingleLetter : List (Str × Int) :=
  [(['C'], 0), (['C', '#'], 1), (['D', 'b'], 1), (['D'], 2),
   (['D', '#'], 3), (['E', 'b'], 3), (['E'], 4), (['F'], 5),
   (['F', '#'], 6), (['G', 'b'], 6), (['G'], 7), (['G', '#'], 8),
   (['A', 'b'], 8), (['A'], 9), (['A', '#'], 10), (['B', 'b'], 10),
   (['B'], 11),
   (['c'], 12), (['c', '#'], 13), (['d', 'b'], 13), (['d'], 14),
   (['d', '#'], 15), (['e', 'b'], 15), (['e'], 16), (['f'], 17),
   (['f', '#'], 18), (['g', 'b'], 18), (['g'], 19), (['g', '#'], 20),
   (['a', 'b'], 20), (['a'], 21), (['a', '#'], 22), (['b', 'b'], 22),
   (['b'], 23)]

/-- The tonics of `keys_duple` with the value for `'major'` (dataset_creator.py:61-70). -/
def dupleMajor : List (Str × Int) :=
  [(['c'], 0), (['c', '#'], 1), (['d', 'b'], 1), (['d'], 2), (['d', '#'], 3), (['e', 'b'], 3), (['e'], 4),
   (['f'], 5), (['f', '#'], 6), (['g', 'b'], 6), (['g'], 7), (['g', '#'], 8), (['a', 'b'], 8), (['a'], 9),
   (['a', '#'], 10), (['b', 'b'], 10), (['b'], 11)]

/-- The tonics of `keys_duple` with the value for `'minor'` (dataset_creator.py:72-81). -/
def dupleMinor : List (Str × Int) :=
  [(['c'], 12), (['c', '#'], 13), (['d', 'b'], 13), (['d'], 14), (['d', '#'], 15), (['e', 'b'], 15),
   (['e'], 16), (['f'], 17), (['f', '#'], 18), (['g', 'b'], 18), (['g'], 19), (['g', '#'], 20),
   (['a', 'b'], 20), (['a'], 21), (['a', '#'], 22), (['b', 'b'], 22), (['b'], 23)]

/-- `keys_duple[key]` (dataset_creator.py:61-81). -/
def keysDuple (tonic mode : Str) : Option Int :=
  if mode = "major".toList then lookup dupleMajor tonic
  else if mode = "minor".toList then lookup dupleMinor tonic
  else none

/-- ASCII whitespace as `str.split()` sees it (blank, `\t`, `\n`, `\v`, `\f`, `\r`, `\x1c`-`\x1f`). -/
def isSpace (c : Char) : Bool := c = ' ' || (9 ≤ c.toNat && c.toNat ≤ 13) || (28 ≤ c.toNat && c.toNat ≤ 31)

/-- `s.split()`: the maximal pieces without whitespace. -/
def splitWs (s : Str) : List Str :=
  go s []
where
  go : Str → Str → List Str
    | [], cur => if cur = [] then [] else [cur.reverse]
    | c :: s, cur =>
      if isSpace c then (if cur = [] then go s [] else cur.reverse :: go s []) else go s (c :: cur)

/-- `s.strip()`. -/
def strip (s : Str) : Str := ((s.dropWhile isSpace).reverse.dropWhile isSpace).reverse

/-- `s.lower()` for ASCII text. -/
def lower (s : Str) : Str := s.map Char.toLower

/-- `DatasetCreator.parse_label` (dataset_creator.py:148-161). -/
def parseLabel (annotation : Str) : Int :=
  match splitWs (strip annotation) with
  | [key] => (lookup keysSingleLetter key).getD (-1)
  | [a, b] => (keysDuple (lower a) (lower b)).getD (-1)
  | _ => -1

/-! ### dataset.py -/

/-- The categories of `compare_keys` (dataset.py:77-99). -/
inductive Cat where
  | tonic
  | fifth
  | relative
  | parallel
  | other
  deriving DecidableEq, Repr

/-- `compare_keys` (dataset.py:77-99). -/
def compareKeys (k1 k2 : Int) : Cat :=
  if k2 = k1 then .tonic
  else
    let r :=
      if k1 < 12 then ((k1 + 7) % 12, (k1 + 5) % 12, (k1 + 9) % 12 + 12, k1 + 12)
      else ((k1 + 7) % 12 + 12, (k1 + 5) % 12 + 12, (k1 - 9) % 12, k1 - 12)
    if k2 = r.1 then .fifth
    else if k2 = r.2.1 then .fifth
    else if k2 = r.2.2.1 then .relative
    else if k2 = r.2.2.2 then .parallel
    else .other

/-- The six numbers `weighted_score` returns (dataset.py:114-116). -/
structure Scores where
  mirex : Rat
  tonics : Rat
  fifths : Rat
  relatives : Rat
  parallels : Rat
  others : Rat
  deriving DecidableEq, Repr

/-- `weighted_score` (dataset.py:101-116).  `none` is the bare `return`; dividing by a zero length raises. -/
def weightedScore (pred y : List Int) : PyRes (Option Scores) :=
  let length := pred.length
  if length ≠ y.length then .ok none
  else
    let keys := (List.range length).map (fun i => compareKeys (y.getD i 0) (pred.getD i 0))
    let tonics : Rat := (keys.count .tonic : Nat)
    let fifths : Rat := (keys.count .fifth : Nat)
    let relatives : Rat := (keys.count .relative : Nat)
    let parallels : Rat := (keys.count .parallel : Nat)
    let others : Rat := (keys.count .other : Nat)
    let mirex := tonics + 1 / 2 * fifths + 3 / 10 * relatives + 1 / 5 * parallels
    if length = 0 then .raise "ZeroDivisionError"
    else
      .ok (some { mirex := mirex / length, tonics := tonics / length, fifths := fifths / length
                  relatives := relatives / length, parallels := parallels / length
                  others := others / length })

/-- `Xi.reshape(-1, 12)` (dataset.py:67): raises unless the size is a multiple of 12. -/
def reshape12 {D : Type} (x : List D) : PyRes (List (List D)) :=
  if x.length % 12 = 0 then
    .ok ((List.range (x.length / 12)).map (fun r => (x.drop (12 * r)).take 12))
  else .raise "ValueError"

/-- `np.roll(row, t)` for `0 ≤ t < len(row)` (dataset.py:69): the last `t` entries come first. -/
def roll {D : Type} (row : List D) (t : Nat) : List D :=
  row.drop (row.length - t) ++ row.take (row.length - t)

/-- `transpose` (dataset.py:62-74): the 12 transposed feature vectors and labels. -/
def transpose {D : Type} (x : List D) (y : Int) : PyRes (List (List D) × List Int) := do
  let isMinor := y / 12
  let xip ← reshape12 x
  let feats := (List.range 12).map (fun t => (xip.map (fun row => roll row t)).flatten)
  let labels := (List.range 12).map (fun t : Nat => (y + t) % 12 + 12 * isMinor)
  return (feats, labels)

/-- `data_augmentation` (dataset.py:118-128), for a matrix `X` given as its rows; `y[i]` out of range
raises. -/
def dataAugmentation {D : Type} (X : List (List D)) (y : List Int) : PyRes (List (List D) × List Int) :=
  go X y
where
  go : List (List D) → List Int → PyRes (List (List D) × List Int)
    | [], _ => .ok ([], [])
    | _ :: _, [] => .raise "IndexError"
    | x :: X, l :: y => do
      let p ← transpose x l
      let q ← go X y
      return (p.1 ++ q.1, p.2 ++ q.2)

end JKD.Py
