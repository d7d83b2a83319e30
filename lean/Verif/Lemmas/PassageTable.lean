import Verif.Spec.Phrases
import Verif.Lemmas.PhraseTable
/-
How probable it is, compared with staying in the key of the phrases, to keep away from that key: a computation with integers
for the default profiles.  What it means is proved in Props/PassageProps.lean.
-/

namespace JKD.Phrases

open Spec

/-- Follows sequences of keys without `K` through notes; `c` times the result is at most `W`. -/
def freeWalk (maj min : List Nat) (K c : Nat) (W : List Nat) : List Nat → List Nat → Bool
  | V, [] => below ((V.set K 0).map (c * ·)) W
  | V, o :: os => force (100000000 * (play maj min o).getD K 0) (fun d => Nat.blt 0 d &&
      next 0 (V.set K 0) d goTable (play maj min o) (fun V' => freeWalk maj min K c W V' os))

/-- The first note: `V` bounds how much better it is to enter another key than `K`. -/
def enter (d : Nat) : List Nat → List Nat → (List Nat → Bool) → Bool
  | v :: vs, e :: es, cont => force ((v * e + (d - 1)) / d) (fun x => enter d vs es (fun l => cont (x :: l)))
  | _, _, cont => cont []

/-- The first phrase of a passage. -/
def enterOk (maj min : List Nat) (K : Nat) (W V : List Nat) : List Nat → Bool
  | [] => true
  | o :: os => force ((play maj min o).getD K 0) (fun d => Nat.blt 0 d &&
      enter d V (play maj min o) (fun V' => freeWalk maj min K 1 W V' os))

/-- Changing to another key than `K` is at most so much more probable than changing to `K`, in units of `10⁻⁹`. -/
def comeOk (K : Nat) (V : List Nat) : Bool :=
  (List.range 24).all (fun k => k == K || (List.range 24).all (fun j =>
    (1000000000 * (goTable.getD k []).getD j 0).ble (V.getD k 0 * (goTable.getD K []).getD j 0)))

/-- After 14 halvings the potentials are below those between two phrases. -/
def settledOk (K : Nat) (V U : List Nat) : Bool :=
  (List.range 24).all (fun k => k == K || (V.getD k 0).ble (U.getD k 0 * 1000000 * 2 ^ 14))

/-- After 14 halvings it is better by a tenth to go anywhere from `K`. -/
def leaveOk (K : Nat) (V : List Nat) : Bool :=
  (List.range 24).all (fun k => (List.range 24).all (fun j => j == K ||
    (10 * (V.getD j 0 * (goTable.getD k []).getD j 0)).ble (9 * 1000000000 * (goTable.getD k []).getD K 0 * 2 ^ 14)))

/-- Entering the passage. -/
def majorCome : List Nat :=
  [0, 10000000000000000, 10000000000000, 100000000000000, 1000000000000000, 1000000000000, 100000000000000000,
   1000000000000, 1000000000000000, 100000000000000, 10000000000000, 10000000000000000, 1000000000000,
   10000000000000000, 100000000000, 10000000000000000, 10000000000000, 10000000000000, 10000000000000000, 100000000000,
   10000000000000000, 1000000000000, 1000000000000000, 1000000000000000]

/-- Away since the beginning of the passage, after one phrase. -/
def majorIn1 : List Nat :=
  [0, 625000000000, 62500000000, 625000000000, 0, 2500000000000, 0, 1250000000000, 6250000000000, 0, 125000000000, 0,
   2500000000000, 1562500000000, 250000000000, 0, 12500000000000, 12500000000000, 0, 125000000000, 15625000000000,
   2500000000000, 625000000000, 625000000000]

/-- The same after two phrases; from there on every phrase halves it. -/
def majorIn2 : List Nat :=
  [0, 15625000000, 31250000000, 31250000000, 0, 1250000000000, 0, 625000000000, 156250000000, 0, 62500000000, 0,
   625000000000, 7812500000, 62500000000, 0, 3125000000000, 3125000000000, 0, 62500000000, 39062500000, 625000000000,
   156250000000, 312500000000]

/-- Away since some phrase, one phrase later. -/
def majorOff1 : List Nat :=
  [0, 955000, 20225000, 1910000, 0, 365500000, 0, 404500000, 9550000, 0, 18275000, 0, 38200000, 474375, 19950000, 0,
   189750000, 191000000, 0, 40450000, 955000, 199500000, 9550000, 18975000]

/-- Two phrases later. -/
def majorOff2 : List Nat :=
  [0, 238750, 10112500, 913750, 0, 182750000, 0, 202250000, 2387500, 0, 9137500, 0, 9550000, 118594, 9137500, 0,
   47437500, 47750000, 0, 20225000, 238750, 49875000, 2387500, 4743750]

/-- Entering the passage. -/
def minorCome : List Nat :=
  [1000000000000, 1000000000000000, 1000000000000000, 1000000000000, 10000000000000000, 100000000000, 10000000000000000,
   10000000000000, 10000000000000, 10000000000000000, 100000000000, 10000000000000000, 0, 10000000000000000,
   10000000000000, 100000000000000, 1000000000000000, 1000000000000, 100000000000000000, 1000000000000,
   1000000000000000, 100000000000000, 10000000000000, 10000000000000000]

/-- Away since the beginning of the passage, after one phrase. -/
def minorIn1 : List Nat :=
  [2500000000000, 2500000000000, 625000000000, 5000000000000, 0, 500000000000, 0, 12500000000000, 25000000000000, 0,
   1250000000000, 0, 0, 3125000000000, 250000000000, 0, 62500000000000, 5000000000000, 0, 5000000000000, 31250000000000,
   6250000000000, 1250000000000, 6250000000000]

/-- The same after two phrases; from there on every phrase halves it. -/
def minorIn2 : List Nat :=
  [156250000000, 625000000000, 39062500000, 1250000000000, 0, 125000000000, 0, 781250000000, 6250000000000, 0,
   156250000000, 0, 0, 31250000000, 125000000000, 0, 3906250000000, 1250000000000, 0, 2500000000000, 312500000000,
   390625000000, 62500000000, 390625000000]

/-- Away since some phrase, one phrase later. -/
def minorOff1 : List Nat :=
  [3675000, 14250000, 1837500, 187000000, 0, 13600000, 0, 36750000, 142500000, 0, 40125000, 0, 0, 712500, 18375000, 0,
   29812500, 136000000, 0, 367500000, 7125000, 2981250, 6800000, 2981250]

/-- Two phrases later. -/
def minorOff2 : List Nat :=
  [1837500, 3562500, 918750, 46750000, 0, 3400000, 0, 18375000, 35625000, 0, 9187500, 0, 0, 178125, 9187500, 0, 1863282,
   34000000, 0, 183750000, 1781250, 918750, 1700000, 186329]

/-- Between two phrases, in units of `10⁻⁹`. -/
def fine (U : List Nat) : List Nat := U.map (1000000 * ·)

set_option maxRecDepth 100000

theorem major_come : comeOk 0 majorCome = true := by decide +kernel
theorem major_settled : settledOk 0 majorIn2 majorPot = true := by decide +kernel
theorem major_leave : leaveOk 0 majorOff2 = true := by decide +kernel
theorem major_enter : majorPhrases.all (enterOk (majNat "sapp") (minNat "sapp") 0 majorIn1 majorCome) = true := by decide +kernel
theorem major_in1 : majorPhrases.all (freeWalk (majNat "sapp") (minNat "sapp") 0 1 majorIn2 majorIn1) = true := by decide +kernel
theorem major_in2 : majorPhrases.all (freeWalk (majNat "sapp") (minNat "sapp") 0 2 majorIn2 majorIn2) = true := by decide +kernel
theorem major_off0 : majorPhrases.all (freeWalk (majNat "sapp") (minNat "sapp") 0 1 majorOff1 (fine majorPot)) = true := by decide +kernel
theorem major_off1 : majorPhrases.all (freeWalk (majNat "sapp") (minNat "sapp") 0 1 majorOff2 majorOff1) = true := by decide +kernel
theorem major_off2 : majorPhrases.all (freeWalk (majNat "sapp") (minNat "sapp") 0 2 majorOff2 majorOff2) = true := by decide +kernel
theorem minor_come : comeOk 12 minorCome = true := by decide +kernel
theorem minor_settled : settledOk 12 minorIn2 minorPot = true := by decide +kernel
theorem minor_leave : leaveOk 12 minorOff2 = true := by decide +kernel
theorem minor_enter : minorPhrases.all (enterOk (majNat "sapp") (minNat "sapp") 12 minorIn1 minorCome) = true := by decide +kernel
theorem minor_in1 : minorPhrases.all (freeWalk (majNat "sapp") (minNat "sapp") 12 1 minorIn2 minorIn1) = true := by decide +kernel
theorem minor_in2 : minorPhrases.all (freeWalk (majNat "sapp") (minNat "sapp") 12 2 minorIn2 minorIn2) = true := by decide +kernel
theorem minor_off0 : minorPhrases.all (freeWalk (majNat "sapp") (minNat "sapp") 12 1 minorOff1 (fine minorPot)) = true := by decide +kernel
theorem minor_off1 : minorPhrases.all (freeWalk (majNat "sapp") (minNat "sapp") 12 1 minorOff2 minorOff1) = true := by decide +kernel
theorem minor_off2 : minorPhrases.all (freeWalk (majNat "sapp") (minNat "sapp") 12 2 minorOff2 minorOff2) = true := by decide +kernel

end JKD.Phrases
