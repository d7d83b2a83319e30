/-
Elementary music theory, written without looking at the code's tables or helper functions.
This is the independent specification the pitch-class and key theorems are stated against.
-/

namespace JKD.Spec

/-- Semitones above C of the seven note letters. -/
def letter : Char → Option Int
  | 'c' => some 0
  | 'd' => some 2
  | 'e' => some 4
  | 'f' => some 5
  | 'g' => some 7
  | 'a' => some 9
  | 'b' => some 11
  | _ => none

/-- An optional single accidental: nothing, a sharp (+1) or a flat (-1). -/
def accidental : List Char → Option Int
  | [] => some 0
  | ['#'] => some 1
  | ['b'] => some (-1)
  | _ => none

/-- The pitch class named by a lower-case note name, as semitones above C modulo 12. -/
def noteName : List Char → Option Int
  | [] => none
  | l :: acc =>
    match letter l, accidental acc with
    | some a, some b => some ((a + b) % 12)
    | _, _ => none

/-- Pitch-class names are case-insensitive note names. -/
def pitchClassName (s : List Char) : Option Int := noteName (s.map Char.toLower)

/-- Key names: an upper-case letter is a major key (0..11), a lower-case letter is a minor key
(12..23); the accidental is always written `#` or lower-case `b`. -/
def keyName : List Char → Option Int
  | [] => none
  | l :: acc =>
    if l.isUpper then noteName (l.toLower :: acc)
    else (noteName (l :: acc)).map (· + 12)

/-- A key number denotes a key. -/
def IsKey (n : Int) : Prop := 0 ≤ n ∧ n < 24

instance (n : Int) : Decidable (IsKey n) := inferInstanceAs (Decidable (_ ∧ _))

/-- `true` for major. -/
def isMajor (n : Int) : Bool := decide (n < 12)

/-- Tonic pitch class of a key. -/
def tonic (n : Int) : Int := n % 12

/-- Membership of a pitch class in the diatonic scale of the key
(major scale, respectively natural minor scale, on the tonic). -/
def inScale (n : Int) (pc : Int) : Bool :=
  if isMajor n then [0, 2, 4, 5, 7, 9, 11].contains ((pc - tonic n) % 12)
  else [0, 2, 3, 5, 7, 8, 10].contains ((pc - tonic n) % 12)

/-- The pitch classes. -/
def pcs : List Int := [0, 1, 2, 3, 4, 5, 6, 7, 8, 9, 10, 11]

/-- The key numbers. -/
def keys : List Int :=
  [0, 1, 2, 3, 4, 5, 6, 7, 8, 9, 10, 11, 12, 13, 14, 15, 16, 17, 18, 19, 20, 21, 22, 23]

/-- Two keys have the same key signature: the same diatonic pitch classes. -/
def sameScale (m n : Int) : Prop := ∀ pc ∈ pcs, inScale m pc = inScale n pc

instance (m n : Int) : Decidable (sameScale m n) := inferInstanceAs (Decidable (∀ pc ∈ pcs, _))

/-- Number of notes of key `m`'s scale that are not in key `n`'s scale. -/
def scaleDiff (m n : Int) : Nat := (pcs.filter (fun pc => inScale m pc && !inScale n pc)).length

/-- Transposing a pitch class. -/
def transposePc (t : Int) (pc : Int) : Int := (pc + t) % 12

/-- Transposing a key: the tonic moves by `t` semitones, the mode stays. -/
def transposeKey (t : Int) (n : Int) : Int :=
  if isMajor n then (tonic n + t) % 12 else (tonic n + t) % 12 + 12

theorem mem_keys {n : Int} : n ∈ keys ↔ IsKey n := by
  simp only [keys, IsKey, List.mem_cons, List.not_mem_nil, or_false]
  omega

theorem mem_pcs {n : Int} : n ∈ pcs ↔ 0 ≤ n ∧ n < 12 := by
  simp only [pcs, List.mem_cons, List.not_mem_nil, or_false]
  omega

end JKD.Spec
