import Verif.Cpp
/-
Model of `PitchClass` (include/pitchclass.h, src/pitchclass.cc).
-/

namespace JKD

/-- `PitchClass::NUMBER_OF_PITCHCLASSES` (include/pitchclass.h:64). -/
def numPitchClasses : Nat := 12

/-- `PitchClass::PITCHCLASS_A_NATURAL` (include/pitchclass.h:61). -/
def pcANatural : Nat := 9

/-- A `PitchClass` object (include/pitchclass.h:68-69): `m_pitchClass` (`none` = the constructor left it
uninitialised, an indeterminate value) and `m_pitchClassString`.  The two constant lookup tables
`m_stringToIntMap` and `m_allPitchClassStrings` are the same in every object, so they are the
definitions below rather than fields. -/
structure PitchClass where
  int : Option Int
  str : Str
  deriving DecidableEq, Repr

namespace PitchClass

/-- `initStringToIntMap` (src/pitchclass.cc:59-81) with the enumerator values of
include/pitchclass.h:51-65. -/
def stringToInt : List (Str × Int) :=
  [(['b', '#'], 0), (['c'], 0), (['c', '#'], 1), (['d', 'b'], 1), (['d'], 2), (['d', '#'], 3),
   (['e', 'b'], 3), (['e'], 4), (['f', 'b'], 4), (['e', '#'], 5), (['f'], 5), (['f', '#'], 6),
   (['g', 'b'], 6), (['g'], 7), (['g', '#'], 8), (['a', 'b'], 8), (['a'], 9), (['a', '#'], 10),
   (['b', 'b'], 10), (['b'], 11), (['c', 'b'], 11)]

/-- `m_allPitchClassStrings` (include/pitchclass.h:71-75). -/
def allStrings : List Str :=
  [['c'], ['c', '#'], ['d'], ['e', 'b'], ['e'], ['f'], ['f', '#'], ['g'], ['a', 'b'], ['a'],
   ['b', 'b'], ['b']]

/-- `m_allPitchClassStrings[i]`.  Out of range would be undefined behaviour; both call sites
(src/pitchclass.cc:38, 46) index with a value in range, see `allStrings_length`. -/
def stringOf (i : Int) : Str := allStrings.getD i.toNat []

/-- `PitchClass::PitchClass(std::string)` (src/pitchclass.cc:31-40). -/
def ofString (s : Str) : PitchClass :=
  let s := s.map tolowerC
  match lookup stringToInt s with
  | some i => { int := some i, str := stringOf i }
  | none => { int := none, str := [] }

/-- `PitchClass::PitchClass(int)` (src/pitchclass.cc:42-48). -/
def ofInt (n : Int) : PitchClass :=
  if 0 ≤ n ∧ n < 12 then { int := some n, str := stringOf n } else { int := none, str := [] }

/-- `PitchClass::getInt` (src/pitchclass.cc:83-85); reading an indeterminate `int` is undefined. -/
def getInt (p : PitchClass) : Res Int := Res.read p.int

/-- `PitchClass::getString` (src/pitchclass.cc:87-89). -/
def getString (p : PitchClass) : Str := p.str

/-- `PitchClass::getAllPitchClassesVector` (src/pitchclass.cc:50-57). -/
def all : List PitchClass := (List.range 12).map (fun i : Nat => ofInt (i : Int))

/-- `operator==` (src/pitchclass.cc:91-93). -/
def eq (p q : PitchClass) : Res Bool := do
  let a ← p.getInt
  let b ← q.getInt
  return a == b

/-- `operator!=` (src/pitchclass.cc:95-97). -/
def ne (p q : PitchClass) : Res Bool := do
  let a ← p.getInt
  let b ← q.getInt
  return a != b

/-- `operator<` (src/pitchclass.cc:99-101). -/
def lt (p q : PitchClass) : Res Bool := do
  let a ← p.getInt
  let b ← q.getInt
  return decide (a < b)

end PitchClass
end JKD
