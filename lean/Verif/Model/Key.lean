import Verif.Cpp
/-
Model of `Key` (include/key.h, src/key.cc).
-/

namespace JKD

/-- `Key::NUMBER_OF_KEYS` (include/key.h:88). -/
def numKeys : Nat := 24

/-- `static_cast<unsigned int>(n)` for a 32-bit `int`. -/
def toU32 (n : Int) : Int := n % 2 ^ 32

/-- The values of a 32-bit `int`. -/
def IsI32 (n : Int) : Prop := -2 ^ 31 ≤ n ∧ n < 2 ^ 31

instance (n : Int) : Decidable (IsI32 n) := inferInstanceAs (Decidable (_ ∧ _))

/-- A `Key` object (include/key.h:92-93): `m_key` (`none` = left uninitialised by the constructor) and
`m_keyString`.  The constant tables `m_stringToIntMap`, `m_allKeyStrings` are definitions below.
`operator=` (src/key.cc:130-134) copies both fields and is modelled by Lean's own copying. -/
structure Key where
  int : Option Int
  str : Str
  deriving DecidableEq, Repr

namespace Key

/-- `initStringToIntMap` (src/key.cc:55-98) with the enumerator values of include/key.h:58-89. -/
def stringToInt : List (Str × Int) :=
  [(['B', '#'], 0), (['C'], 0), (['C', '#'], 1), (['D', 'b'], 1), (['D'], 2), (['D', '#'], 3),
   (['E', 'b'], 3), (['E'], 4), (['F', 'b'], 4), (['E', '#'], 5), (['F'], 5), (['F', '#'], 6),
   (['G', 'b'], 6), (['G'], 7), (['G', '#'], 8), (['A', 'b'], 8), (['A'], 9), (['A', '#'], 10),
   (['B', 'b'], 10), (['B'], 11), (['C', 'b'], 11),
   (['b', '#'], 12), (['c'], 12), (['c', '#'], 13), (['d', 'b'], 13), (['d'], 14), (['d', '#'], 15),
   (['e', 'b'], 15), (['e'], 16), (['f', 'b'], 16), (['e', '#'], 17), (['f'], 17), (['f', '#'], 18),
   (['g', 'b'], 18), (['g'], 19), (['g', '#'], 20), (['a', 'b'], 20), (['a'], 21), (['a', '#'], 22),
   (['b', 'b'], 22), (['b'], 23), (['c', 'b'], 23)]

/-- `m_allKeyStrings` (include/key.h:95-100). -/
def allStrings : List Str :=
  [['C'], ['D', 'b'], ['D'], ['E', 'b'], ['E'], ['F'], ['F', '#'], ['G'], ['A', 'b'], ['A'],
   ['B', 'b'], ['B'],
   ['c'], ['c', '#'], ['d'], ['e', 'b'], ['e'], ['f'], ['f', '#'], ['g'], ['a', 'b'], ['a'],
   ['b', 'b'], ['b']]

/-- `m_allKeyStrings[i]`; the only call site (src/key.cc:43) has `0 ≤ i < 24`. -/
def stringOf (i : Int) : Str := allStrings.getD i.toNat []

/-- `Key::Key(std::string)` (src/key.cc:31-37): case-sensitive, keeps the spelling. -/
def ofString (s : Str) : Key :=
  match lookup stringToInt s with
  | some i => { int := some i, str := s }
  | none => { int := none, str := [] }

/-- `Key::Key(int)` (src/key.cc:39-45). -/
def ofInt (k : Int) : Key :=
  if toU32 k < 24 then { int := some k, str := stringOf k } else { int := none, str := [] }

/-- `Key::getAllKeysVector` (src/key.cc:47-53). -/
def all : List Key := (List.range 24).map (fun i : Nat => ofInt (i : Int))

/-- `Key::getInt` (src/key.cc:100-102). -/
def getInt (k : Key) : Res Int := Res.read k.int

/-- `Key::getString` (src/key.cc:104-106). -/
def getString (k : Key) : Str := k.str

/-- `Key::isMajorKey` (src/key.cc:108-111). -/
def isMajor (k : Key) : Res Bool := do
  let n ← k.getInt
  return decide (0 ≤ n ∧ n ≤ 11)

/-- `Key::isMinorKey` (src/key.cc:113-116). -/
def isMinor (k : Key) : Res Bool := do
  let n ← k.getInt
  return decide (12 ≤ n ∧ n ≤ 23)

/-- `operator==` (src/key.cc:118-120). -/
def eq (p q : Key) : Res Bool := do
  let a ← p.getInt
  let b ← q.getInt
  return a == b

/-- `operator!=` (src/key.cc:122-124). -/
def ne (p q : Key) : Res Bool := do
  let a ← p.getInt
  let b ← q.getInt
  return a != b

/-- `operator<` (src/key.cc:126-128). -/
def lt (p q : Key) : Res Bool := do
  let a ← p.getInt
  let b ← q.getInt
  return decide (a < b)

/-- `Key::getRelativeKey` (src/key.cc:136-144); `%` is C's remainder. -/
def relative (k : Key) : Res Key := do
  let n ← k.getInt
  if ← k.isMajor then
    return ofInt ((n + 9).tmod 12 + 12)
  else
    return ofInt ((n - 9).tmod 12)

/-- `Key::getParallelKey` (src/key.cc:146-154). -/
def parallel (k : Key) : Res Key := do
  let n ← k.getInt
  if ← k.isMajor then
    return ofInt (n + 12)
  else
    return ofInt (n - 12)

/-- `Key::getDominantKey` (src/key.cc:156-160). -/
def dominant (k : Key) : Res Key := do
  let n ← k.getInt
  let m ← k.isMinor
  return ofInt ((n + 7).tmod 12 + (if m then 12 else 0))

/-- `Key::getSubDominantKey` (src/key.cc:162-166). -/
def subdominant (k : Key) : Res Key := do
  let n ← k.getInt
  let m ← k.isMinor
  return ofInt ((n + 5).tmod 12 + (if m then 12 else 0))

end Key
end JKD
