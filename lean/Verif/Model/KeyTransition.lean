import Verif.Model.FPU
import Verif.Model.Key
/-
Model of `KeyTransition` (include/keytransition.h, src/keytransition.cc).
-/

namespace JKD

/-- A `KeyTransition` object (include/keytransition.h): `m_keyTransition` (default-constructed `""`)
and the name-indexed arrays `m_keyTransitions`.  A `std::array<double, 24>` is a list; its length is
tracked by theorems.  `std::map<std::string, _>` is only ever looked up by name here, so its order
plays no role. -/
structure KeyTransition (D : Type) where
  name : String
  tables : AMap String (List D)

namespace KeyTransition

variable {D : Type}

/-- "linear" (src/keytransition.cc:53-58): numerators over 132. -/
def linear : List Rat :=
  [9, 4, 6, 6, 5, 8, 1, 8, 5, 6, 6, 4,
   8, 2, 7, 3, 7, 7, 3, 7, 2, 8, 5, 5].map (· / (132 : Rat))

/-- "exponential2" (src/keytransition.cc:59-64): numerators over 1245. -/
def exponential2 : List Rat :=
  [256, 8, 32, 32, 16, 128, 1, 128, 16, 32, 32, 8,
   128, 2, 64, 4, 64, 64, 4, 64, 2, 128, 16, 16].map (· / (1245 : Rat))

/-- "exponential10" (src/keytransition.cc:65-74): numerators over 144442221. -/
def exponential10 : List Rat :=
  [100000000, 1000, 100000, 100000, 10000, 10000000, 1, 10000000, 10000, 100000, 100000, 1000,
   10000000, 10, 1000000, 100, 1000000, 1000000, 100, 1000000, 10, 10000000, 10000, 10000].map
    (· / (144442221 : Rat))

/-- "zero" (src/keytransition.cc:75-78). -/
def zeroTable : List Rat :=
  [1, 0, 0, 0, 0, 0, 0, 0, 0, 0, 0, 0, 0, 0, 0, 0, 0, 0, 0, 0, 0, 0, 0, 0]

/-- "symmetrical" (src/keytransition.cc:79-84). -/
def symmetrical : List Rat := List.replicate 24 (1 / 24 : Rat)

/-- "heatmap" (src/keytransition.cc:85-88). -/
def heatmap : List Rat :=
  [1, 6, 4, 4, 5, 2, 9, 2, 5, 4, 4, 6, 2, 8, 3, 7, 3, 3, 7, 3, 8, 2, 5, 5]

/-- The names and exact values of the built-in arrays (src/keytransition.cc:52-89). -/
def builtins : List (String × List Rat) :=
  [("linear", linear), ("exponential2", exponential2), ("exponential10", exponential10),
   ("zero", zeroTable), ("symmetrical", symmetrical), ("heatmap", heatmap)]

/-- `initKeyTransitionArrays` (src/keytransition.cc:52-89). -/
def initTables (F : FPU D) : AMap String (List D) :=
  builtins.map (fun p => (p.1, p.2.map F.ofRat))

/-- `isValidKeyTransition` (src/keytransition.cc:91-93). -/
def isValid (kt : KeyTransition D) (s : String) : Bool := (kt.tables.get? s).isSome

/-- `KeyTransition(std::string, KeyTransitionArray)` (src/keytransition.cc:41-50). -/
def mk2 (F : FPU D) (s : String) (custom : List D) : KeyTransition D :=
  let t := initTables F
  let t := if s = "custom" then t.set s custom else t
  let kt : KeyTransition D := { name := "", tables := t }
  if kt.isValid s then { kt with name := s } else kt

/-- `KeyTransition(std::string)` (src/keytransition.cc:34-38). -/
def mk1 (F : FPU D) (s : String) : KeyTransition D := mk2 F s (List.replicate 24 F.zero)

/-- `KeyTransition()` (src/keytransition.cc:31-32). -/
def mk0 (F : FPU D) : KeyTransition D := mk1 F "exponential10"

/-- `whichKeyTransition` (src/keytransition.cc:95-97). -/
def which (kt : KeyTransition D) : String := kt.name

/-- `getKeyTransitionArray` (src/keytransition.cc:99-101).  `operator[]` on a missing name inserts a
value-initialised (all-zero) array: the object changes. -/
def getArray (F : FPU D) (kt : KeyTransition D) : List D × KeyTransition D :=
  match kt.tables.get? kt.name with
  | some a => (a, kt)
  | none =>
    let z := List.replicate 24 F.zero
    (z, { kt with tables := kt.tables.set kt.name z })

/-- The `tonic` and `relative` arrays for a key (src/keytransition.cc:112-135).  If the key were
neither major nor minor they would stay uninitialised, hence `ub`. -/
def tonicRelative (kt : List D) (k : Key) : Res (List D × List D) := do
  if ← k.isMajor then
    return (kt.take 12, (kt.drop 12).take 12)
  else if ← k.isMinor then
    return (rotate ((kt.drop 12).take 12) 9, kt.take 12)
  else
    .ub

/-- One row of the map: the body of the outer loop (src/keytransition.cc:108-164), with the values
written for the 24 target keys in order. -/
def mapRow (kt : List D) (kv : List Key) (k : Key) : Res (IMap D) := do
  let n ← k.getInt
  let fromKey := n.tmod 12
  let rotation := 12 - fromKey
  let (tonic, relative) ← tonicRelative kt k
  let tonic := rotate tonic rotation.toNat
  let relative := rotate relative rotation.toNat
  let rotated := tonic ++ relative
  forM kv ([] : IMap D) (fun row k' => do
    let toKey ← k'.getInt
    let v ← Res.read rotated[toKey.toNat]?
    return row.set toKey v)

/-- `getKeyTransitionMap` (src/keytransition.cc:103-166), as a function of the selected array.
A `std::map<Key, _>` is represented by the numbers of its keys, since `Key`'s `operator<` and every
later reader of the map only use the number.  Rows are built one at a time, so
`keyTransitionMap[from][to] = v` is collected per row. -/
def mapOf (kt : List D) : Res (IMap (IMap D)) :=
  forM Key.all ([] : IMap (IMap D)) (fun m k => do
    let row ← mapRow kt Key.all k
    let n ← k.getInt
    return m.set n row)

/-- `getKeyTransitionMap` on an object (src/keytransition.cc:103-104). -/
def getMap (F : FPU D) (kt : KeyTransition D) : Res (IMap (IMap D)) × KeyTransition D :=
  let (a, kt') := kt.getArray F
  (mapOf a, kt')

end KeyTransition
end JKD
