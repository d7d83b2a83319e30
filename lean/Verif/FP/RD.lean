import Verif.Spec.FPLaws
import Mathlib.Data.Real.Basic
import Mathlib.Analysis.SpecialFunctions.Log.Base
import Mathlib.Algebra.Order.Floor.Ring
import Mathlib.Algebra.Order.Archimedean.Basic
/-
Doubles as extended reals with NaN, for an arbitrary rounding function.

`RD` identifies +0.0 and -0.0: no modelled operation except printing can tell them apart (they
compare equal, log10 of both is -inf, and no division occurs).
-/

namespace JKD

/-- Values of type `double`: NaN, the two infinities, and finite numbers. -/
inductive RD where
  | nan
  | ninf
  | fin (r : ℝ)
  | pinf

namespace RD

open Classical in
/-- `a < b`: false as soon as one side is NaN. -/
noncomputable def lt : RD → RD → Bool
  | ninf, fin _ => true
  | ninf, pinf => true
  | fin _, pinf => true
  | fin r, fin s => decide (r < s)
  | _, _ => false

open Classical in
/-- `a == b`. -/
noncomputable def eq : RD → RD → Bool
  | ninf, ninf => true
  | pinf, pinf => true
  | fin r, fin s => decide (r = s)
  | _, _ => false

@[simp] theorem lt_nan_left (a : RD) : lt nan a = false := by cases a <;> rfl
@[simp] theorem lt_nan_right (a : RD) : lt a nan = false := by cases a <;> rfl
@[simp] theorem lt_ninf_right (a : RD) : lt a ninf = false := by cases a <;> rfl
@[simp] theorem lt_pinf_left (a : RD) : lt pinf a = false := by cases a <;> rfl
@[simp] theorem lt_ninf_fin (r : ℝ) : lt ninf (fin r) = true := rfl
@[simp] theorem lt_ninf_pinf : lt ninf pinf = true := rfl
@[simp] theorem lt_fin_pinf (r : ℝ) : lt (fin r) pinf = true := rfl
theorem lt_fin_fin (r s : ℝ) : lt (fin r) (fin s) = true ↔ r < s := by simp [lt]
theorem not_lt_fin_fin (r s : ℝ) : lt (fin r) (fin s) = false ↔ s ≤ r := by simp [lt]

/-- A rounding: never NaN and monotone. -/
structure Rounding where
  rnd : ℝ → RD
  num : ∀ r, rnd r ≠ nan
  mono : ∀ r s, r ≤ s → lt (rnd s) (rnd r) = false

/-- IEEE-754 addition for a rounding. -/
noncomputable def add (R : Rounding) : RD → RD → RD
  | nan, _ => nan
  | _, nan => nan
  | ninf, pinf => nan
  | pinf, ninf => nan
  | ninf, _ => ninf
  | _, ninf => ninf
  | pinf, _ => pinf
  | _, pinf => pinf
  | fin r, fin s => R.rnd (r + s)

open Classical in
/-- An infinity times a finite number: NaN for zero, otherwise signed. -/
noncomputable def infMul (r : ℝ) : RD := if r = 0 then nan else if 0 < r then pinf else ninf

open Classical in
/-- The negated infinity times a finite number. -/
noncomputable def ninfMul (r : ℝ) : RD := if r = 0 then nan else if 0 < r then ninf else pinf

/-- IEEE-754 multiplication for a rounding. -/
noncomputable def mul (R : Rounding) : RD → RD → RD
  | nan, _ => nan
  | _, nan => nan
  | pinf, pinf => pinf
  | ninf, ninf => pinf
  | pinf, ninf => ninf
  | ninf, pinf => ninf
  | pinf, fin r => infMul r
  | fin r, pinf => infMul r
  | ninf, fin r => ninfMul r
  | fin r, ninf => ninfMul r
  | fin r, fin s => R.rnd (r * s)

open Classical in
/-- `std::log10`: NaN below zero, -inf at zero, `lg` above. -/
noncomputable def log10 (lg : ℝ → RD) : RD → RD
  | nan => nan
  | ninf => nan
  | pinf => pinf
  | fin r => if r < 0 then nan else if r = 0 then ninf else lg r

/-- `std::floor` (exact in IEEE-754). -/
noncomputable def floor : RD → RD
  | fin r => fin (⌊r⌋ : ℤ)
  | a => a

/-- Truncation towards zero. -/
noncomputable def trunc (r : ℝ) : ℤ := if 0 ≤ r then ⌊r⌋ else ⌈r⌉

open Classical in
/-- `static_cast<int>`: undefined (none) for NaN, infinities, and values out of range. -/
noncomputable def toInt : RD → Option ℤ
  | fin r => if -2147483648 ≤ trunc r ∧ trunc r ≤ 2147483647 then some (trunc r) else none
  | _ => none

/-- The arithmetic of doubles for a rounding and a base-10 logarithm on positive numbers. -/
noncomputable def fpu (R : Rounding) (lg : ℝ → RD) : FPU RD where
  ofRat q := R.rnd q
  add := add R
  mul := mul R
  lt := lt
  eq := eq
  log10 := log10 lg
  floor := floor
  toInt := toInt
  negInf := ninf

theorem rnd_cases (R : Rounding) (r : ℝ) : R.rnd r = ninf ∨ R.rnd r = pinf ∨ ∃ s, R.rnd r = fin s := by
  have := R.num r
  cases h : R.rnd r with
  | nan => exact absurd h this
  | ninf => simp
  | pinf => simp
  | fin s => exact Or.inr (Or.inr ⟨s, rfl⟩)

/-- **The laws hold for every rounding and every logarithm**, over all doubles. -/
theorem laws (R : Rounding) (lg : ℝ → RD) : FPLaws (fpu R lg) (fun a => a ≠ nan) where
  lt_num := by
    intro a b h
    constructor
    · rintro rfl; simp [fpu] at h
    · rintro rfl; simp [fpu] at h
  lt_irrefl := by
    intro a
    change lt a a = false
    cases a <;> simp [lt]
  lt_trans := by
    intro a b c
    change lt a b = true → lt b c = true → lt a c = true
    cases a <;> cases b <;> cases c <;> simp [lt]
    exact fun h1 h2 => lt_trans h1 h2
  lt_cotrans := by
    intro a b c hb
    change lt a c = true → lt a b = true ∨ lt b c = true
    cases a <;> cases b <;> cases c <;> simp [lt] at hb ⊢
    rename_i x y z
    intro h
    rcases lt_or_ge x y with h1 | h1
    · exact Or.inl h1
    · exact Or.inr (lt_of_le_of_lt h1 h)
  num_negInf := by simp [fpu]
  not_lt_negInf := fun a => lt_ninf_right a
  eq_negInf := by
    intro a ha
    change lt ninf a = false → a = ninf
    cases a <;> simp [lt] at ha ⊢
  add_negInf := by
    intro a w
    change lt ninf (add R a w) = true → lt ninf a = true
    cases a <;> cases w <;> simp [add, lt]
  add_mono := by
    intro a a' w ha' hle hpos
    change lt a' a = false at hle
    change lt ninf (add R a w) = true at hpos
    change add R a' w ≠ nan ∧ lt (add R a' w) (add R a w) = false
    cases a <;> cases a' <;> cases w <;> simp [add] at ha' hle hpos ⊢
    rename_i x y z
    rw [not_lt_fin_fin] at hle
    exact ⟨R.num _, R.mono _ _ (by linarith)⟩

/-- A zero factor kills a score, for every rounding that keeps zero. -/
theorem zeroKills (R : Rounding) (h0 : R.rnd 0 = fin 0) (lg : ℝ → RD) : ZeroKills (fpu R lg) := by
  intro a x
  have hz : (fpu R lg).zero = fin 0 := by
    change R.rnd ((0 : Rat) : ℝ) = fin 0
    rw [Rat.cast_zero, h0]
  rw [hz]
  change lt ninf (add R a (log10 lg (mul R (fin 0) x))) = false
  cases x <;> cases a <;> simp [mul, infMul, ninfMul, log10, h0, add]

/-- Exact arithmetic: no rounding at all. -/
noncomputable def exactRounding : Rounding where
  rnd := fin
  num := by intro r h; cases h
  mono := by intro r s h; rw [not_lt_fin_fin]; exact h

/-- Exact real arithmetic with the real base-10 logarithm. -/
noncomputable def exact : FPU RD := fpu exactRounding (fun r => fin (Real.logb 10 r))

end RD
end JKD
