import Mathlib.Algebra.Order.Field.Basic
import Mathlib.Data.List.Sort
/-
Model of the genetic optimiser: /repo/optimizer/{generator,evolver,evaluator,key_profiles,key_transitions}.py
and /repo/ga.py.

* Numbers: Python floats are modelled by a linear ordered field `K` (exact arithmetic).
* Randomness: every call of the `random` module takes the next element of an arbitrary list of outcomes; the
  theorems quantify over all lists.  `while` loops take `fuel`; running out of outcomes or of fuel is the
  outcome `waiting` (the program is still in the loop).
* Exceptions are the outcome `raised`.
* Logging is left out, except for the warnings of `insert_new`.
* Names of tables: generated names are constructors instead of formatted strings (`Name.render` gives the
  string and is injective on them, see Props/NamesProps.lean); names given by the user are `Name.given`.
-/

namespace JKD.Opt

/-- Names of key profiles and transitions: 'kp{}' (generator.py:21), 'kpc{}' (evolver.py:49), 'kpm{}'
(evolver.py:64), 'ktg{}' (generator.py:82), 'kts{}' (generator.py:86), 'ktgm{}' (evolver.py:116), 'ktsm{}'
(evolver.py:127), or a name from the tables or the user. -/
inductive Name where
  | given (s : String)
  | kp (n : Nat)
  | kpc (n : Nat)
  | kpm (n : Nat)
  | ktg (n : Nat)
  | kts (n : Nat)
  | ktgm (n : Nat)
  | ktsm (n : Nat)
  deriving DecidableEq, Repr

/-- The string behind a name, as a list of characters. -/
def Name.render : Name → List Char
  | given s => s.toList
  | kp n => "kp".toList ++ Nat.toDigits 10 n
  | kpc n => "kpc".toList ++ Nat.toDigits 10 n
  | kpm n => "kpm".toList ++ Nat.toDigits 10 n
  | ktg n => "ktg".toList ++ Nat.toDigits 10 n
  | kts n => "kts".toList ++ Nat.toDigits 10 n
  | ktgm n => "ktgm".toList ++ Nat.toDigits 10 n
  | ktsm n => "ktsm".toList ++ Nat.toDigits 10 n

/-- `name.startswith('ktg')` (evolver.py:114). -/
def Name.isKtg (n : Name) : Bool := "ktg".toList.isPrefixOf n.render

/-- `name.startswith('kts')` (evolver.py:125). -/
def Name.isKts (n : Name) : Bool := "kts".toList.isPrefixOf n.render

inductive Exn where
  | index | type | key | value | zeroDivision
  deriving DecidableEq, Repr

inductive Out (α : Type) where
  | done (a : α)
  | raised (e : Exn)
  | waiting

/-- One outcome of the random module: used modulo the number of choices by `choice`, `randint` and
`randrange`, and as a number in [0, 1) by `random` and `uniform`. -/
structure Draw (K : Type) where
  nat : Nat
  unit : K

/-- A Python dictionary (insertion order matters only for the log). -/
abbrev Dict (V : Type) := Name → Option V

def Dict.put {V : Type} (d : Dict V) (n : Name) (v : V) : Dict V := fun m => if m = n then some v else d m

/-- Everything that outlives a call: the module dictionaries `_kp` (key_profiles.py:5), `_kt`
(key_transitions.py:5), `_ratios` (key_transitions.py:96), the counters of Generator (generator.py:11-12) and
Evolver (evolver.py:12-13), the warnings so far and the random outcomes to come. -/
structure St (K : Type) where
  kp : Dict (List K)
  kt : Dict (List K)
  ratio : Dict K
  genKp : Nat
  genKt : Nat
  evoKp : Nat
  evoKt : Nat
  warns : List (Name × K)
  rng : List (Draw K)

def Py (K α : Type) := St K → Out (α × St K)

variable {K α β : Type}

def Py.pure (a : α) : Py K α := fun s => .done (a, s)

def Py.bind (m : Py K α) (f : α → Py K β) : Py K β := fun s =>
  match m s with
  | .done (a, s') => f a s'
  | .raised e => .raised e
  | .waiting => .waiting

instance : Monad (Py K) where
  pure := Py.pure
  bind := Py.bind

def raise (e : Exn) : Py K α := fun _ => .raised e
def wait : Py K α := fun _ => .waiting
def get : Py K (St K) := fun s => .done (s, s)
def modify (f : St K → St K) : Py K Unit := fun s => .done ((), f s)

/-- `while cond: body`, at most `fuel` times. -/
def whileM : Nat → (β → Bool) → (β → Py K β) → β → Py K β
  | fuel, cond, body, b =>
    if cond b then
      match fuel with
      | 0 => wait
      | fuel + 1 => do
        let b' ← body b
        whileM fuel cond body b'
    else pure b

def draw : Py K (Draw K) := fun s =>
  match s.rng with
  | [] => .waiting
  | d :: r => .done (d, { s with rng := r })

/-- `random.choice(l)`: IndexError on an empty list. -/
def choice (l : List α) : Py K α :=
  match l with
  | [] => raise .index
  | a :: _ => do
    let d ← draw
    return (l.getD (d.nat % l.length) a)

/-- `random.random()` -/
def random : Py K K := do
  let d ← draw
  return d.unit

/-- `random.randint(a, b)` for a ≤ b. -/
def randint (a b : Nat) : Py K Nat := do
  let d ← draw
  return a + d.nat % (b - a + 1)

/-- `random.randrange(m)`: ValueError if m is 0. -/
def randrange (m : Nat) : Py K Nat :=
  if m = 0 then raise .value
  else do
    let d ← draw
    return d.nat % m

section
variable [Field K] [LinearOrder K]

/-! ### key_profiles.py, key_transitions.py -/

/-- `1.0 - abs(x) > 0.01` (key_profiles.py:145, 147, key_transitions.py:103). -/
def suspicious (x : K) : Bool := decide (1 / 100 < 1 - |x|)

/-- `insert_new` of key_profiles.py:142-150. -/
def insertProfile (name : Name) (kp : List K) : Py K Unit := do
  let major := (kp.take 12).sum
  let minor := (kp.drop 12).sum
  if suspicious major then modify (fun s => { s with warns := s.warns ++ [(name, major)] })
  if suspicious minor then modify (fun s => { s with warns := s.warns ++ [(name, minor)] })
  modify (fun s => { s with kp := s.kp.put name kp })

/-- `insert_new` of key_transitions.py:101-106. -/
def insertTransition (name : Name) (kt : List K) : Py K Unit := do
  let total := kt.sum
  if suspicious total then modify (fun s => { s with warns := s.warns ++ [(name, total)] })
  modify (fun s => { s with kt := s.kt.put name kt })

/-- `store_ratio` (key_transitions.py:108-110). -/
def storeRatio (name : Name) (r : K) : Py K Unit := modify (fun s => { s with ratio := s.ratio.put name r })

/-- `[d.pop(n) for n in names]`: KeyError if a name is missing. -/
def popAll {V : Type} (d : Dict V) : List Name → Option (Dict V)
  | [] => some d
  | n :: ns => if (d n).isSome then popAll (fun m => if m = n then none else d m) ns else none

/-- `flush_key_profiles` (key_profiles.py:152-154). -/
def flushProfiles (names : List Name) : Py K Unit := do
  let s ← get
  match popAll s.kp names with
  | some d => modify (fun s => { s with kp := d })
  | none => raise .key

/-- `flush_key_transitions` (key_transitions.py:112-115). -/
def flushTransitions (names : List Name) : Py K Unit := do
  let s ← get
  match popAll s.kt names with
  | some d => modify (fun s => { s with kt := d, ratio := fun m => if m ∈ names then none else s.ratio m })
  | none => raise .key

/-- `keep_key_profiles` (key_profiles.py:156-158). -/
def keepProfiles (names : List Name) : Py K Unit :=
  modify (fun s => { s with kp := fun m => if m ∈ names then s.kp m else none })

/-- `keep_key_transitions` (key_transitions.py:117-120). -/
def keepTransitions (names : List Name) : Py K Unit :=
  modify (fun s => { s with
    kt := fun m => if m ∈ names then s.kt m else none
    ratio := fun m => if m ∈ names then s.ratio m else none })

/-! ### generator.py -/

/-- The double loop over groups and indices: `table[idx] = random.randrange(int(max / 2**hierarchy))`
(generator.py:40-44, 65-69, 139-143).  `int(max / 2**h)` is exact for the int `max`. -/
def fillGroup (max h : Nat) (table : List Nat) : List Nat → Py K (List Nat)
  | [] => pure table
  | i :: is => do
    let r ← randrange (max / 2 ^ h)
    fillGroup max h (table.set i r) is

def fillGroups (max : Nat) (table : List Nat) : List (List Nat × Nat) → Py K (List Nat)
  | [] => pure table
  | (g, h) :: gs => do
    let t ← fillGroup max h table g
    fillGroups max t gs

/-- `s = sum(t); t = [x/s for x in t]` (generator.py:45-46, 70-71, 116-117, 144-145): ZeroDivisionError if
the sum is 0. -/
def normalise (t : List K) : Py K (List K) :=
  if t.sum = 0 then raise .zeroDivision else pure (t.map (fun x => x / t.sum))

/-- generator.py:32-39 -/
def majorGroups : List (List Nat × Nat) := [([0, 7], 0), ([2, 4, 5, 9, 11], 1), ([1, 3, 6, 8, 10], 2)]

/-- generator.py:55-64 -/
def minorGroups : List (List Nat × Nat) := [([0, 7], 0), ([2, 3, 5, 8, 11], 1), ([9, 10], 2), ([1, 4, 6], 3)]

/-- `generate_major_key_profile` (generator.py:27-48) -/
def generateMajor (kpMax : Nat) : Py K (List K) := do
  let t ← fillGroups kpMax (List.replicate 12 0) majorGroups
  normalise (t.map (fun (x : Nat) => (x : K)))

/-- `generate_minor_key_profile` (generator.py:50-73) -/
def generateMinor (kpMax : Nat) : Py K (List K) := do
  let t ← fillGroups kpMax (List.replicate 12 0) minorGroups
  normalise (t.map (fun (x : Nat) => (x : K)))

/-- `generate_key_profile` (generator.py:15-25) -/
def generateProfile (kpMax : Nat) : Py K Name := do
  let major ← generateMajor kpMax
  let minor ← generateMinor kpMax
  let s ← get
  let name := Name.kp s.genKp
  modify (fun s => { s with genKp := s.genKp + 1 })
  insertProfile name (major ++ minor)
  return name

/-- The groups of keys (generator.py:99-109, 128-138). -/
def keyGroups : List (List Nat) :=
  [[0], [5, 7, 12, 21], [14, 16, 17, 19], [2, 3, 9, 10], [4, 8, 22, 23], [1, 11], [15, 18], [13, 20], [6]]

/-- The double loop of `generate_geometric_key_transition` (generator.py:110-115), from group `id` on. -/
def geometricFill (ratio : K) (table : List K) (id : Nat) : List (List Nat) → List K
  | [] => table
  | keys :: gs =>
    geometricFill ratio (keys.foldl (fun t k => t.set k (ratio ^ (8 - id))) table) (id + 1) gs

/-- `generate_geometric_key_transition` (generator.py:93-119) -/
def generateGeometric (ratio : K) : Py K (List K) :=
  normalise (geometricFill ratio (List.replicate 24 0) 0 keyGroups)

/-- `generate_stochastic_key_transition` (generator.py:122-147) -/
def generateStochastic (ktMax : Nat) : Py K (List K) := do
  let t ← fillGroups ktMax (List.replicate 24 0) keyGroups.zipIdx
  normalise (t.map (fun (x : Nat) => (x : K)))

/-- `generate_key_transition` (generator.py:75-90): nine times out of ten geometric. -/
def generateTransition (ktMax : Nat) : Py K Name := do
  let geometric ← choice [true, true, true, true, true, true, true, true, true, false]
  if geometric then
    let u ← random
    let ratio : K := u * 48 + 2
    let kt ← generateGeometric ratio
    let s ← get
    let name := Name.ktg s.genKt
    storeRatio name ratio
    modify (fun s => { s with genKt := s.genKt + 1 })
    insertTransition name kt
    return name
  else
    let kt ← generateStochastic ktMax
    let s ← get
    let name := Name.kts s.genKt
    modify (fun s => { s with genKt := s.genKt + 1 })
    insertTransition name kt
    return name

/-! ### evolver.py -/

/-- `int(n * 0.2)` (evolver.py:19, 22, 94, 97).  The double 0.2 is a little more than 1/5 and the product is
rounded to nearest, so for any list that fits in memory this is ⌊n/5⌋. -/
def fifth (n : Nat) : Nat := n / 5

/-- `int(n * 0.3)` (evolver.py:26): ⌊3n/10⌋; the double 0.3 is less than 3/10 by less than a quarter of an
ulp, so multiples of ten round back up. -/
def threeTenths (n : Nat) : Nat := 3 * n / 10

/-- Selecting random old members (evolver.py:33-38, 104-109). -/
def retainRandom (fuel : Nat) (pool kept : List Name) (n : Nat) : Py K (List Name) :=
  whileM fuel (fun old => decide (old.length < n)) (fun old => do
    let k ← choice pool
    if k ∉ old ∧ k ∉ kept then return old ++ [k] else return old) []

/-- Crossover (evolver.py:42-56).  `get` of a missing name is `None`, whose slice is a TypeError. -/
def crossover (fuel : Nat) (parents : List Name) (n : Nat) : Py K (List Name) :=
  whileM fuel (fun children => decide (children.length < n)) (fun children => do
    let major ← choice parents
    let minor ← choice parents
    if major ≠ minor then
      let s ← get
      let name := Name.kpc s.evoKp
      modify (fun s => { s with evoKp := s.evoKp + 1 })
      match s.kp major, s.kp minor with
      | some a, some b =>
        insertProfile name (a.take 12 ++ b.drop 12)
        return children ++ [name]
      | _, _ => raise .type
    else return children) []

/-- Two different indices in a range (evolver.py:69-73, 131-135). -/
def twoIndices (fuel a b : Nat) : Py K (Nat × Nat) :=
  whileM fuel (fun p => decide (p.1 = p.2)) (fun _ => do
    let i ← randint a b
    let j ← randint a b
    return (i, j)) (0, 0)

/-- Moving a tenth of one entry to another (evolver.py:74-78, 136-140): IndexError if the table is short. -/
def shift (t : List K) (i j : Nat) : Py K (List K) :=
  match t[i]?, t[j]? with
  | some x, some _ =>
    let delta := x * (1 / 10)
    let t1 := t.set i (x - delta)
    match t1[j]? with
    | some y => pure (t1.set j (y + delta))
    | none => raise .index
  | _, _ => raise .index

/-- One turn of the mutation loop (evolver.py:62-80), `mutation_prob` 0.5, `mutation_ratio` 0.1; the loop
replaces the visited element only, so it is a map over the list. -/
def mutateProfile (fuel : Nat) (name : Name) : Py K Name := do
  let u ← random
  if u < 1 / 2 then
    let s ← get
    let new := Name.kpm s.evoKp
    modify (fun s => { s with evoKp := s.evoKp + 1 })
    let range ← choice [(0, 11), (12, 23)]
    let (i, j) ← twoIndices fuel range.1 range.2
    match s.kp name with
    | none => raise .type
    | some t =>
      let t' ← shift t i j
      insertProfile new t'
      return new
  else return name

def mapMPy (f : α → Py K β) : List α → Py K (List β)
  | [] => pure []
  | a :: as => do
    let b ← f a
    let bs ← mapMPy f as
    return b :: bs

/-- Filling up with new members (evolver.py:83-85, 145-147). -/
def fillUp (gen : Py K Name) : Nat → List Name → Py K (List Name)
  | 0, l => pure l
  | n + 1, l => do
    let k ← gen
    fillUp gen n (l ++ [k])

/-- `evolve_key_profiles` (evolver.py:15-87) with its default parameters. -/
def evolveProfiles (fuel kpMax : Nat) (kps : List Name) : Py K (List Name) := do
  let retain := fifth kps.length
  let kept := kps.take retain
  let old ← retainRandom fuel (kps.drop retain) kept (fifth kps.length)
  let parents := kept ++ old
  let children ← crossover fuel parents (threeTenths kps.length)
  let family := parents ++ children
  let mutated ← mapMPy (mutateProfile fuel) family
  fillUp (generateProfile kpMax) (kps.length - mutated.length) mutated

/-- One turn of the mutation loop for transitions (evolver.py:113-142); `mutation_prob` is 1. -/
def mutateTransition (fuel : Nat) (name : Name) : Py K Name := do
  if name.isKtg then
    let u ← random
    if u < 1 then
      let s ← get
      let new := Name.ktgm s.evoKt
      modify (fun s => { s with evoKt := s.evoKt + 1 })
      match s.ratio name with
      | none => raise .type
      | some ratio =>
        let v ← random
        let lo := ratio - ratio * (1 / 10)
        let hi := ratio + ratio * (1 / 10)
        let newRatio := lo + (hi - lo) * v
        let kt ← generateGeometric newRatio
        storeRatio new newRatio
        insertTransition new kt
        return new
    else return name
  else if name.isKts then
    let u ← random
    if u < 1 then
      let s ← get
      let new := Name.ktsm s.evoKt
      modify (fun s => { s with evoKt := s.evoKt + 1 })
      let (i, j) ← twoIndices fuel 0 23
      match s.kt name with
      | none => raise .type
      | some t =>
        let t' ← shift t i j
        insertTransition new t'
        return new
    else return name
  else return name

/-- `evolve_key_transitions` (evolver.py:89-149) with its default parameters. -/
def evolveTransitions (fuel ktMax : Nat) (kts : List Name) : Py K (List Name) := do
  let retain := fifth kts.length
  let kept := kts.take retain
  let old ← retainRandom fuel (kts.drop retain) kept (fifth kts.length)
  let mutated ← mapMPy (mutateTransition fuel) (kept ++ old)
  fillUp (generateTransition ktMax) (kts.length - mutated.length) mutated

/-! ### evaluator.py -/

/-- What the program is run on: the files of the data set and the number it prints for a file, a profile and
a transition table (0 if it prints no number, evaluator.py:58-62).  A name that is in no dictionary becomes
the text `None`. -/
structure Bench (K : Type) where
  File : Type
  files : List File
  score : File → Option (List K) → Option (List K) → K

/-- `evaluate` (evaluator.py:33-42) with `run_keydetection` (44-65): the sum of `1 - score**2`. -/
def Bench.error (B : Bench K) (kp kt : Option (List K)) : K :=
  (B.files.map (fun f => 1 - B.score f kp kt ^ 2)).sum

/-- A graded pair: error, profile, transition. -/
structure Grade (K : Type) where
  err : K
  kp : Name
  kt : Name

/-- `sorted(grading, key=lambda score: score[0])`: stable, as is insertion sort. -/
def sortGrades (l : List (Grade K)) : List (Grade K) := l.insertionSort (fun a b => a.err ≤ b.err)

/-- `grade_key_profiles` (evaluator.py:17-23) -/
def gradeProfiles (B : Bench K) (kps : List Name) (kt : Name) : Py K (List (Grade K)) := do
  let s ← get
  return sortGrades (kps.map (fun n => ⟨B.error (s.kp n) (s.kt kt), n, kt⟩))

/-- `grade_key_transitions` (evaluator.py:25-31) -/
def gradeTransitions (B : Bench K) (kp : Name) (kts : List Name) : Py K (List (Grade K)) := do
  let s ← get
  return sortGrades (kts.map (fun n => ⟨B.error (s.kp kp) (s.kt n), kp, n⟩))

/-! ### ga.py -/

/-- The variables of `ga_runner`; `lowest` is `none` for `float("inf")`. -/
structure Ga (K : Type) where
  bestKp : Name
  bestKt : Name
  lowest : Option K
  scores : List K
  kps : List Name
  kts : List Name
  bad : Nat
  evolvingProfiles : Bool

/-- `x < lowest_error` -/
def below (x : K) : Option K → Bool
  | none => true
  | some l => decide (x < l)

/-- The loop over the initial transitions (ga.py:79-92). -/
def firstPass (B : Bench K) : List Name → Ga K → List (K × Name) → Py K (Ga K × List (K × Name))
  | [], g, graded => pure (g, graded)
  | kt :: kts, g, graded => do
    let grading ← gradeProfiles B g.kps kt
    match grading with
    | [] => raise .index
    | best :: _ =>
      let graded := graded ++ [(best.err, kt)]
      if below best.err g.lowest then
        let g := { g with
          lowest := some best.err, bestKp := best.kp, bestKt := kt
          scores := grading.map (·.err), kps := grading.map (·.kp) }
        if best.err = 0 then return (g, graded)
        else firstPass B kts g graded
      else firstPass B kts g graded

/-- `ga_runner` up to the main loop (ga.py:52-106). -/
def start (B : Bench K) (kps kts : List Name) : Py K (Ga K) := do
  let g0 : Ga K := ⟨.given "", .given "", none, [], kps, kts, 0, true⟩
  let (g, graded) ← firstPass B kts g0 []
  return { g with kts := (graded.insertionSort (fun a b => a.1 ≤ b.1)).map (·.2) }

/-- `new_lowest_error < lowest_error`, or equal and no greater sum (ga.py:116, 124, 148, 156). -/
def accept (new : K) (newScores : List K) (g : Ga K) : Bool :=
  below new g.lowest || (decide (some new = g.lowest) && decide (newScores.sum ≤ g.scores.sum))

/-- A generation of profiles (ga.py:109-140). -/
def stepProfiles (B : Bench K) (fuel kpMax threshold : Nat) (g : Ga K) : Py K (Ga K) := do
  let new ← evolveProfiles fuel kpMax g.kps
  let grading ← gradeProfiles B new g.bestKt
  match grading with
  | [] => raise .index
  | best :: _ =>
    if accept best.err (grading.map (·.err)) g then
      let kps := grading.map (·.kp)
      keepProfiles kps
      return { g with
        lowest := some best.err, bestKp := best.kp, scores := grading.map (·.err), kps := kps, bad := 0 }
    else
      flushProfiles (new.filter (fun n => n ∉ g.kps))
      if threshold < g.bad + 1 then return { g with bad := 0, evolvingProfiles := false }
      else return { g with bad := g.bad + 1 }

/-- A generation of transitions (ga.py:141-172). -/
def stepTransitions (B : Bench K) (fuel ktMax threshold : Nat) (g : Ga K) : Py K (Ga K) := do
  let new ← evolveTransitions fuel ktMax g.kts
  let grading ← gradeTransitions B g.bestKp new
  match grading with
  | [] => raise .index
  | best :: _ =>
    if accept best.err (grading.map (·.err)) g then
      let kts := grading.map (·.kt)
      keepTransitions kts
      return { g with
        lowest := some best.err, bestKt := best.kt, scores := grading.map (·.err), kts := kts, bad := 0 }
    else
      flushTransitions (new.filter (fun n => n ∉ g.kts))
      if threshold < g.bad + 1 then return { g with bad := 0, evolvingProfiles := true }
      else return { g with bad := g.bad + 1 }

/-- The parameters of `ga_runner` (ga.py:45). -/
structure Params where
  fuel : Nat
  kpMax : Nat
  ktMax : Nat
  threshold : Nat

/-- One turn of the main loop (ga.py:107-173). -/
def step (B : Bench K) (P : Params) (g : Ga K) : Py K (Ga K) :=
  if g.evolvingProfiles then stepProfiles B P.fuel P.kpMax P.threshold g
  else stepTransitions B P.fuel P.ktMax P.threshold g

/-- `lowest_error > 0` (ga.py:107). -/
def running (g : Ga K) : Bool :=
  match g.lowest with
  | none => true
  | some l => decide (0 < l)

/-- The main loop, at most `fuel` generations. -/
def mainLoop (B : Bench K) (P : Params) (generations : Nat) (g : Ga K) : Py K (Ga K) :=
  whileM generations running (step B P) g

end

end JKD.Opt
