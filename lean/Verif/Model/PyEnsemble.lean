import Verif.Model.PyDataset
/-
Model of the ensemble: /repo/optimizer/ensembler.py, the part of /repo/optimizer/key_profiles.py it uses
(`mix`), and the name printed by /repo/justkeydding_ensemble.py.

* Numbers: an arbitrary type `K`.
* The program that is run on a file, with the text of a profile and of a transition table, is a parameter: the
  words it prints.  A table that is not stored is handed over as the text `None`.
* `float` of a word is a parameter; `none` is ValueError.
* `ThreadPool.map` keeps the order of its input and the runs share nothing but the log, so it is a map; an
  exception in any run is the outcome of the whole call.
-/

namespace JKD.Py

/-- `itertools.product(a, b)`: the second moves fastest. -/
def product {α β : Type} (a : List α) (b : List β) : List (α × β) := a.flatMap (fun x => b.map (fun y => (x, y)))

/-- A module dictionary of tables (key_profiles.py:5, key_transitions.py:5). -/
abbrev Store (K : Type) := Str → Option (List K)

/-- `'{}_{}'.format(major_name, minor_name)` (key_profiles.py:138) -/
def mixName (major minor : Str) : Str := major ++ '_' :: minor

/-- `mix` (key_profiles.py:127-140): `None` if a name is not stored. -/
def mix {K : Type} (kp : Store K) (major minor : Str) : Option Str × Store K :=
  match kp major, kp minor with
  | some a, some b =>
    (some (mixName major minor), fun n => if n = mixName major minor then some (a.take 12 ++ b.drop 12) else kp n)
  | _, _ => (none, kp)

/-- `[key_profiles.mix(m[0], m[1]) for m in pairs]` (ensembler.py:35) -/
def mixAll {K : Type} (kp : Store K) : List (Str × Str) → List (Option Str) × Store K
  | [] => ([], kp)
  | p :: ps =>
    let r := mix kp p.1 p.2
    let rs := mixAll r.2 ps
    (r.1 :: rs.1, rs.2)

/-- A member: the name of a profile (or `None`) and of a transition table. -/
abbrev Member := Option Str × Str

/-- An `Ensembler` (ensembler.py:9-13); `ensemble` is an attribute that exists only after `get_ensemble`. -/
structure Ensembler where
  profiles : List Str
  transitions : List Str
  ensemble : Option (List Member)

/-- `Ensembler(profiles, transitions)` (ensembler.py:9-13) -/
def Ensembler.new (profiles transitions : List Str) : Ensembler := ⟨profiles, transitions, none⟩

/-- `get_ensemble` (ensembler.py:31-39) -/
def Ensembler.getEnsemble {K : Type} (e : Ensembler) (kp : Store K) (mixed : Bool) : Ensembler × Store K :=
  if mixed then
    let r := mixAll kp (product e.profiles e.profiles)
    ({ e with ensemble := some (product r.1 e.transitions) }, r.2)
  else ({ e with ensemble := some (product (e.profiles.map some) e.transitions) }, kp)

/-- What surrounds the ensembler. -/
structure Runner (K : Type) where
  /-- the words the program prints for a file, a profile and a transition table -/
  output : Str → Option (List K) → Option (List K) → List Str
  /-- `float(word)` -/
  toFloat : Str → Option K
  /-- `_kt` -/
  kt : Store K

/-- `[float(x) for x in features]` -/
def floats {K : Type} (toFloat : Str → Option K) : List Str → PyRes (List K)
  | [] => .ok []
  | w :: ws =>
    match toFloat w with
    | none => .raise "ValueError"
    | some x => do
      let xs ← floats toFloat ws
      return x :: xs

/-- `run_keydetection` (ensembler.py:51-73) -/
def runKeydetection {K : Type} (R : Runner K) (kp : Store K) (file : Str) (m : Member) : PyRes (List K) :=
  let words := R.output file (m.1.bind kp) (R.kt m.2)
  let words := if words.length ≠ 24 then List.replicate 24 "-1000000".toList else words
  floats R.toFloat words

/-- `p.map(f, l)` -/
def mapPy {α β : Type} (f : α → PyRes β) : List α → PyRes (List β)
  | [] => .ok []
  | a :: as => do
    let b ← f a
    let bs ← mapPy f as
    return b :: bs

/-- `evaluate` (ensembler.py:41-49): the features and what is left behind. -/
def Ensembler.evaluate {K : Type} (R : Runner K) (e : Ensembler) (kp : Store K) (file : Str) (mixed : Bool) :
    PyRes (List (List K) × Ensembler × Store K) := do
  let r := match e.ensemble with
    | some _ => (e, kp)
    | none => e.getEnsemble kp mixed
  let features ← mapPy (runKeydetection R r.2 file) (r.1.ensemble.getD [])
  return (features, r.1, r.2)

/-- `[f for l in features for f in l]` (dataset_creator.py:174, justkeydding_ensemble.py:46) -/
def flat {K : Type} (features : List (List K)) : List K := features.flatten

/-- `tonic_names` (justkeydding_ensemble.py:8-12) -/
def tonicNames : List Str :=
  [['C'], ['C', '#'], ['D'], ['E', 'b'], ['E'], ['F'], ['F', '#'], ['G'], ['A', 'b'], ['A'], ['B', 'b'], ['B']]

/-- `key_name` (justkeydding_ensemble.py:14-17); `%` of Python is never negative here. -/
def keyName (n : Int) : Str :=
  let mode := if n < 12 then "major".toList else "minor".toList
  let tonic := tonicNames.getD (n % 12).toNat []
  tonic ++ '\t' :: mode

end JKD.Py
