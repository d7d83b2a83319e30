import Verif.Lemmas.ChromaRun
import Mathlib.Analysis.SpecialFunctions.Complex.Arg
import Mathlib.Analysis.SpecialFunctions.Log.Base
import Mathlib.Analysis.SpecialFunctions.Pow.Real
import Mathlib.Algebra.Order.Floor.Ring
import Mathlib.Tactic.NormNum
/-
The arithmetics the chroma plug-in is studied in: exact, and rounded after every operation.
-/

namespace JKD.Chroma

/-- Exact arithmetic. -/
noncomputable def exactFns : Fns ℝ where
  toOps := Nnls.exact
  lit q := (q : ℝ)
  pi := Real.pi
  sin := Real.sin
  cos := Real.cos
  log := Real.log
  log2 := Real.logb 2
  pow x y := x ^ y
  atan2 y x := Complex.arg ⟨x, y⟩
  floor x := ⌊x⌋

end JKD.Chroma

namespace JKD.Nnls.Rounding

variable (R : Rounding)

/-- Every operation and every function is evaluated exactly and then rounded. -/
noncomputable def fns : Chroma.Fns R.F where
  toOps := R.ops
  lit q := R.up (q : ℝ)
  pi := R.up Real.pi
  sin x := R.up (Real.sin x.1)
  cos x := R.up (Real.cos x.1)
  log x := R.up (Real.log x.1)
  log2 x := R.up (Real.logb 2 x.1)
  pow x y := R.up (x.1 ^ y.1)
  atan2 y x := R.up (Complex.arg ⟨x.1, y.1⟩)
  floor x := ⌊x.1⌋

/-- The few numbers that have to be representable for the tuning estimate to stay within half a semitone. -/
structure Halves : Prop where
  half : R.rnd (1 / 2) = 1 / 2
  three : R.rnd 3 = 3
  threeHalves : R.rnd (3 / 2) = 3 / 2
  twoPi : R.rnd (2 * R.rnd Real.pi) = 2 * R.rnd Real.pi

end JKD.Nnls.Rounding

namespace JKD.Chroma

open JKD.Nnls (Rounding)

@[simp] theorem ex_zero : exactFns.zero = 0 := rfl
@[simp] theorem ex_one : exactFns.one = 1 := rfl
@[simp] theorem ex_add (a b : ℝ) : exactFns.add a b = a + b := rfl
@[simp] theorem ex_sub (a b : ℝ) : exactFns.sub a b = a - b := rfl
@[simp] theorem ex_mul (a b : ℝ) : exactFns.mul a b = a * b := rfl
@[simp] theorem ex_div (a b : ℝ) : exactFns.div a b = a / b := rfl
@[simp] theorem ex_neg (a : ℝ) : exactFns.neg a = -a := rfl
@[simp] theorem ex_sqrt (a : ℝ) : exactFns.sqrt a = Real.sqrt a := rfl
@[simp] theorem ex_lt (a b : ℝ) : exactFns.lt a b = decide (a < b) := rfl
@[simp] theorem ex_le (a b : ℝ) : exactFns.le a b = decide (a ≤ b) := rfl
@[simp] theorem ex_eq (a b : ℝ) : exactFns.eq a b = decide (a = b) := rfl
@[simp] theorem ex_lit (q : Rat) : exactFns.lit q = (q : ℝ) := rfl
@[simp] theorem ex_pi : exactFns.pi = Real.pi := rfl
@[simp] theorem ex_sin (x : ℝ) : exactFns.sin x = Real.sin x := rfl
@[simp] theorem ex_cos (x : ℝ) : exactFns.cos x = Real.cos x := rfl
@[simp] theorem ex_log (x : ℝ) : exactFns.log x = Real.log x := rfl
@[simp] theorem ex_log2 (x : ℝ) : exactFns.log2 x = Real.logb 2 x := rfl
@[simp] theorem ex_pow (x y : ℝ) : exactFns.pow x y = x ^ y := rfl
@[simp] theorem ex_atan2 (y x : ℝ) : exactFns.atan2 y x = Complex.arg ⟨x, y⟩ := rfl
@[simp] theorem ex_floor (x : ℝ) : exactFns.floor x = ⌊x⌋ := rfl
@[simp] theorem ex_abs (x : ℝ) : exactFns.abs x = |x| := Nnls.exact_abs x

theorem exact_ordered : Nnls.Ordered exactFns.toOps where
  irrefl x := by simp [exactFns, Nnls.exact]
  trans x y z h1 h2 := by
    simp only [exactFns, Nnls.exact, decide_eq_true_eq] at h1 h2 ⊢
    exact h1.trans h2
  le_zero := by simp [exactFns, Nnls.exact]
  eq_two := by simp [exactFns, Nnls.exact]

theorem arg_bounds (x y : ℝ) : -(1 / 2) ≤ Complex.arg ⟨x, y⟩ / (2 * Real.pi) ∧
    Complex.arg ⟨x, y⟩ / (2 * Real.pi) ≤ 1 / 2 := by
  have hp := Real.pi_pos
  have h1 := Complex.neg_pi_lt_arg ⟨x, y⟩
  have h2 := Complex.arg_le_pi ⟨x, y⟩
  constructor
  · rw [le_div_iff₀ (by linarith)]
    linarith
  · rw [div_le_iff₀ (by linarith)]
    linarith

theorem exact_tunes : Tunes exactFns := by
  intro y x
  obtain ⟨h1, h2⟩ := arg_bounds x y
  change -2 ≤ ⌊Complex.arg ⟨x, y⟩ / (((2 : Rat) : ℝ) * Real.pi) * ((3 : Rat) : ℝ)⌋ ∧
    ⌊Complex.arg ⟨x, y⟩ / (((2 : Rat) : ℝ) * Real.pi) * ((3 : Rat) : ℝ)⌋ ≤ 1
  push_cast
  constructor
  · rw [Int.le_floor]
    push_cast
    linarith
  · rw [← Int.lt_add_one_iff, Int.floor_lt]
    push_cast
    linarith

theorem rounding_tunes {R : Rounding} (hR : R.Halves) : Tunes R.fns := by
  intro y x
  have hp : 2 ≤ R.rnd Real.pi := by
    rw [← R.two]
    exact R.mono _ _ Real.two_le_pi
  have b1 : R.rnd (Complex.arg ⟨x.1, y.1⟩) ≤ R.rnd Real.pi := R.mono _ _ (Complex.arg_le_pi _)
  have b2 : - R.rnd Real.pi ≤ R.rnd (Complex.arg ⟨x.1, y.1⟩) := by
    rw [← R.odd]
    exact R.mono _ _ (Complex.neg_pi_lt_arg _).le
  have e2 : R.rnd (R.rnd ((2 : Rat) : ℝ) * R.rnd Real.pi) = 2 * R.rnd Real.pi := by
    push_cast
    rw [R.two, hR.twoPi]
  have c1 : R.rnd (R.rnd (Complex.arg ⟨x.1, y.1⟩) / (2 * R.rnd Real.pi)) ≤ 1 / 2 := by
    rw [← hR.half]
    apply R.mono
    rw [div_le_iff₀ (by linarith)]
    linarith
  have c2 : -(1 / 2) ≤ R.rnd (R.rnd (Complex.arg ⟨x.1, y.1⟩) / (2 * R.rnd Real.pi)) := by
    rw [← hR.half, ← R.odd]
    apply R.mono
    rw [le_div_iff₀ (by linarith)]
    linarith
  have e3 : R.rnd ((3 : Rat) : ℝ) = 3 := by
    push_cast
    exact hR.three
  have d1 : R.rnd (R.rnd (R.rnd (Complex.arg ⟨x.1, y.1⟩) / (2 * R.rnd Real.pi)) * 3) ≤ 3 / 2 := by
    rw [← hR.threeHalves]
    apply R.mono
    linarith
  have d2 : -(3 / 2) ≤ R.rnd (R.rnd (R.rnd (Complex.arg ⟨x.1, y.1⟩) / (2 * R.rnd Real.pi)) * 3) := by
    rw [← hR.threeHalves, ← R.odd]
    apply R.mono
    linarith
  change -2 ≤ ⌊R.rnd (R.rnd (R.rnd (Complex.arg ⟨x.1, y.1⟩) / R.rnd (R.rnd ((2 : Rat) : ℝ) * R.rnd Real.pi)) *
      R.rnd ((3 : Rat) : ℝ))⌋ ∧
    ⌊R.rnd (R.rnd (R.rnd (Complex.arg ⟨x.1, y.1⟩) / R.rnd (R.rnd ((2 : Rat) : ℝ) * R.rnd Real.pi)) *
      R.rnd ((3 : Rat) : ℝ))⌋ ≤ 1
  rw [e2, e3]
  constructor
  · rw [Int.le_floor]
    push_cast
    linarith
  · rw [← Int.lt_add_one_iff, Int.floor_lt]
    push_cast
    linarith

theorem rnd_nonneg (R : Rounding) {x : ℝ} (h : 0 ≤ x) : 0 ≤ R.rnd x := by
  have := R.mono 0 x h
  rwa [R.zero] at this

theorem rounding_signed (R : Rounding) : Signed R.fns (fun x => 0 ≤ x.1) where
  lit q h := rnd_nonneg R (by exact_mod_cast h)
  add x y h1 h2 := rnd_nonneg R (by linarith)
  mul x y h1 h2 := rnd_nonneg R (mul_nonneg h1 h2)
  one x h := rnd_nonneg R (mul_nonneg zero_le_one h)
  sqrt x := rnd_nonneg R (Real.sqrt_nonneg _)
  pos x h := by
    have h' : (R.up ((0 : Rat) : ℝ)).1 < x.1 := by simpa [Rounding.fns, Rounding.ops] using h
    have h0 : (R.up ((0 : Rat) : ℝ)).1 = 0 := by
      change R.rnd ((0 : Rat) : ℝ) = 0
      rw [Rat.cast_zero, R.zero]
    linarith
  frac t h1 h2 := by
    generalize hx : (R.fns.mul t (R.fns.lit 3)).1 = x at *
    have e1 : (shiftOf R.fns t).1 = ⌊x⌋ := by
      rw [← hx]
      rfl
    have e2 : ((shiftOf R.fns t).2).1 = R.rnd (x - R.rnd ((((shiftOf R.fns t).1 : Int) : Rat) : ℝ)) := by
      rw [← hx]
      rfl
    have e3 : (R.fns.sub R.fns.one (shiftOf R.fns t).2).1 = R.rnd (1 - ((shiftOf R.fns t).2).1) := rfl
    rw [e1] at h1 h2 e2
    have e4 : R.rnd (((⌊x⌋ : Int) : Rat) : ℝ) = (⌊x⌋ : ℝ) := by
      push_cast
      have : ⌊x⌋ = -2 ∨ ⌊x⌋ = -1 ∨ ⌊x⌋ = 0 ∨ ⌊x⌋ = 1 := by omega
      rcases this with h | h | h | h <;> rw [h] <;> push_cast
      · rw [R.odd, R.two]
      · rw [R.odd, R.one]
      · exact R.zero
      · exact R.one
    rw [e4] at e2
    have f1 := Int.floor_le x
    have f2 := Int.lt_floor_add_one x
    have g1 : 0 ≤ ((shiftOf R.fns t).2).1 := by
      rw [e2]
      exact rnd_nonneg R (by linarith)
    have g2 : ((shiftOf R.fns t).2).1 ≤ 1 := by
      rw [e2, ← R.one]
      exact R.mono _ _ (by linarith)
    refine ⟨g1, ?_⟩
    beta_reduce
    rw [e3]
    exact rnd_nonneg R (by linarith)
  white d v w h1 h2 := by
    have h0 : (R.up ((0 : Rat) : ℝ)).1 = 0 := by
      change R.rnd ((0 : Rat) : ℝ) = 0
      rw [Rat.cast_zero, R.zero]
    have h1' : (R.up ((0 : Rat) : ℝ)).1 < d.1 := by simpa [Rounding.fns, Rounding.ops] using h1
    have h2' : (R.up ((0 : Rat) : ℝ)).1 < v.1 := by simpa [Rounding.fns, Rounding.ops] using h2
    apply rnd_nonneg R
    apply div_nonneg (by linarith)
    exact rnd_nonneg R (Real.rpow_nonneg (by linarith) _)
  weight i hi := by
    have e : ∀ q : Rat, (q = -1 ∨ q = 0 ∨ q = 1) →
        (R.fns.abs (R.fns.div (R.fns.mul (R.fns.lit q) R.fns.one) (R.fns.lit 2))).1 ≤ 1 := by
      intro q hq
      have e1 : (R.fns.div (R.fns.mul (R.fns.lit q) R.fns.one) (R.fns.lit 2)).1 = R.rnd ((q : ℝ) / 2) := by
        change R.rnd (R.rnd (R.rnd (q : ℝ) * 1) / R.rnd ((2 : Rat) : ℝ)) = _
        rw [mul_one, R.idem]
        push_cast
        rw [R.two]
        congr 2
        rcases hq with h | h | h <;> subst h <;> push_cast
        · rw [R.odd, R.one]
        · exact R.zero
        · exact R.one
      have e2 : R.rnd ((q : ℝ) / 2) ≤ 1 := by
        rw [← R.one]
        apply R.mono
        rcases hq with h | h | h <;> subst h <;> push_cast <;> norm_num
      have e3 : - R.rnd ((q : ℝ) / 2) ≤ 1 := by
        rw [← R.odd, ← R.one]
        apply R.mono
        rcases hq with h | h | h <;> subst h <;> push_cast <;> norm_num
      unfold Nnls.Ops.abs
      split_ifs
      · rw [e1]
        exact e2
      · change - _ ≤ (1 : ℝ)
        rw [e1]
        exact e3
    beta_reduce
    change 0 ≤ R.rnd (1 - (R.fns.abs (R.fns.div (R.fns.mul (R.fns.lit ((i : Rat) - 1)) R.fns.one) (R.fns.lit 2))).1)
    apply rnd_nonneg R
    have := e ((i : Rat) - 1) (by
      have : i = 0 ∨ i = 1 ∨ i = 2 := by omega
      rcases this with h | h | h <;> subst h <;> norm_num)
    linarith
  quot x n h1 h2 := by
    have h0 : (R.up ((0 : Rat) : ℝ)).1 = 0 := by
      change R.rnd ((0 : Rat) : ℝ) = 0
      rw [Rat.cast_zero, R.zero]
    have h2' : (R.up ((0 : Rat) : ℝ)).1 < n.1 := by simpa [Rounding.fns, Rounding.ops] using h2
    exact rnd_nonneg R (div_nonneg h1 (by linarith))
  nnls n s rn r h j h1 h2 := by
    obtain ⟨r', e, h'⟩ := Nnls.C65_nnls_nonnegative R nNote n (by decide) (by omega) s rn
    have h'' : Nnls.call R.ops (nNote : Nat) n s rn = .ok r := h
    rw [e] at h''
    cases h''
    exact h' j h1 h2

theorem rounding_notneg (R : Rounding) (x : R.F) (h : 0 ≤ x.1) : R.fns.lt x (R.fns.lit 0) = false := by
  have h0 : (R.fns.lit 0).1 = 0 := by
    change R.rnd ((0 : Rat) : ℝ) = 0
    rw [Rat.cast_zero, R.zero]
  simp only [Rounding.fns, Rounding.ops, decide_eq_false_iff_not, not_lt]
  change (R.fns.lit 0).1 ≤ x.1
  rw [h0]
  exact h

end JKD.Chroma
