import Mathlib.Analysis.Complex.Trigonometric
import Mathlib.Analysis.Real.Pi.Bounds
import Mathlib.Analysis.SpecialFunctions.Trigonometric.Bounds
import Mathlib.Tactic.Ring
import Mathlib.Tactic.Positivity
import Mathlib.Tactic.Linarith
import Mathlib.Tactic.NormNum
/-
Numerical values of the cosine, with proofs.
-/

namespace JKD.Numeric

open Finset

/-- The first terms of the series of the cosine. -/
def cosSeries (x : ℚ) : ℚ := 1 - x ^ 2 / 2 + x ^ 4 / 24 - x ^ 6 / 720 + x ^ 8 / 40320 - x ^ 10 / 3628800

theorem cos_series {x : ℝ} (hx : |x| ≤ 1) :
    |Real.cos x - (1 - x ^ 2 / 2 + x ^ 4 / 24 - x ^ 6 / 720 + x ^ 8 / 40320 - x ^ 10 / 3628800)| ≤ |x| ^ 12 * (13 / 5748019200) := by
  have h := Complex.exp_bound (x := x * Complex.I) (by simpa using hx) (n := 12) (by norm_num)
  have hre := (Complex.abs_re_le_norm _).trans h
  rw [Complex.sub_re, Complex.exp_ofReal_mul_I_re] at hre
  have hI : Complex.I ^ 2 = -1 := Complex.I_sq
  have hs : (∑ m ∈ range 12, (x * Complex.I) ^ m / (m.factorial : ℂ)) =
      ((1 - x ^ 2 / 2 + x ^ 4 / 24 - x ^ 6 / 720 + x ^ 8 / 40320 - x ^ 10 / 3628800 : ℝ) : ℂ) +
        ((x - x ^ 3 / 6 + x ^ 5 / 120 - x ^ 7 / 5040 + x ^ 9 / 362880 - x ^ 11 / 39916800 : ℝ) : ℂ) * Complex.I := by
    have e3 : Complex.I ^ 3 = -Complex.I := by rw [pow_succ, hI]; ring
    have e4 : Complex.I ^ 4 = 1 := by rw [show 4 = 2 * 2 from rfl, pow_mul, hI]; norm_num
    have e5 : Complex.I ^ 5 = Complex.I := by rw [pow_succ, e4]; ring
    have e6 : Complex.I ^ 6 = -1 := by rw [pow_succ, e5, ← sq, hI]
    have e7 : Complex.I ^ 7 = -Complex.I := by rw [pow_succ, e6]; ring
    have e8 : Complex.I ^ 8 = 1 := by rw [show 8 = 4 * 2 from rfl, pow_mul, e4]; norm_num
    have e9 : Complex.I ^ 9 = Complex.I := by rw [pow_succ, e8]; ring
    have e10 : Complex.I ^ 10 = -1 := by rw [pow_succ, e9, ← sq, hI]
    have e11 : Complex.I ^ 11 = -Complex.I := by rw [pow_succ, e10]; ring
    simp only [sum_range_succ, sum_range_zero, mul_pow, hI, e3, e4, e5, e6, e7, e8, e9, e10, e11, Nat.factorial]
    push_cast
    ring
  rw [hs] at hre
  have hr : ((((1 - x ^ 2 / 2 + x ^ 4 / 24 - x ^ 6 / 720 + x ^ 8 / 40320 - x ^ 10 / 3628800 : ℝ) : ℂ) +
        ((x - x ^ 3 / 6 + x ^ 5 / 120 - x ^ 7 / 5040 + x ^ 9 / 362880 - x ^ 11 / 39916800 : ℝ) : ℂ) * Complex.I)).re =
      1 - x ^ 2 / 2 + x ^ 4 / 24 - x ^ 6 / 720 + x ^ 8 / 40320 - x ^ 10 / 3628800 := by
    rw [Complex.add_re, Complex.ofReal_re, Complex.re_ofReal_mul, Complex.I_re, mul_zero, add_zero]
  rw [hr] at hre
  refine hre.trans (le_of_eq ?_)
  have : ‖(x : ℂ) * Complex.I‖ = |x| := by simp
  rw [this]
  norm_num [Nat.factorial]

/-- Doubling the angle at most multiplies the error by four and a bit. -/
theorem double_error {x a e : ℝ} (h : |Real.cos x - a| ≤ e) (ha : |a| ≤ 1) : |Real.cos (2 * x) - (2 * a ^ 2 - 1)| ≤ 4 * e := by
  rw [Real.cos_two_mul, show 2 * Real.cos x ^ 2 - 1 - (2 * a ^ 2 - 1) = 2 * (Real.cos x + a) * (Real.cos x - a) by ring,
    abs_mul, abs_mul]
  have h1 : |Real.cos x + a| ≤ 2 := (abs_add_le _ _).trans (by linarith [Real.abs_cos_le_one x])
  have h2 : |(2 : ℝ)| = 2 := by norm_num
  rw [h2]
  nlinarith [abs_nonneg (Real.cos x - a), abs_nonneg (Real.cos x + a)]

/-- An approximation of the cosine from 0 to 4: the series at a quarter of the angle, doubled twice. -/
def cosApprox (x : ℚ) : ℚ := 2 * (2 * cosSeries (x / 4) ^ 2 - 1) ^ 2 - 1

theorem cosApprox_spec {x : ℚ} (h0 : 0 ≤ x) (h1 : x ≤ 4) (hs : |cosSeries (x / 4)| ≤ 1) :
    |Real.cos x - cosApprox x| ≤ 4 * (4 * (((x / 4 : ℚ) : ℝ) ^ 12 * (13 / 5748019200))) := by
  have hx0 : (0 : ℝ) ≤ ((x / 4 : ℚ) : ℝ) := by
    have : (0 : ℚ) ≤ x / 4 := by linarith
    exact_mod_cast this
  have hx1 : ((x / 4 : ℚ) : ℝ) ≤ 1 := by
    have : x / 4 ≤ (1 : ℚ) := by linarith
    exact_mod_cast this
  have h := cos_series (x := ((x / 4 : ℚ) : ℝ)) (by rw [abs_of_nonneg hx0]; exact hx1)
  rw [abs_of_nonneg hx0] at h
  have ha : |((cosSeries (x / 4) : ℚ) : ℝ)| ≤ 1 := by exact_mod_cast hs
  have h' : |Real.cos ((x / 4 : ℚ) : ℝ) - ((cosSeries (x / 4) : ℚ) : ℝ)| ≤ (((x / 4 : ℚ) : ℝ) ^ 12 * (13 / 5748019200)) := by
    refine le_trans (le_of_eq ?_) h
    unfold cosSeries
    push_cast
    ring_nf
  have h2 := double_error h' ha
  have hb : |(2 * ((cosSeries (x / 4) : ℚ) : ℝ) ^ 2 - 1)| ≤ 1 := by
    have := (sq_le_one_iff_abs_le_one _).mpr ha
    rw [abs_le]
    constructor <;> nlinarith [sq_nonneg ((cosSeries (x / 4) : ℚ) : ℝ)]
  have h3 := double_error h2 hb
  have e1 : 2 * (2 * ((x / 4 : ℚ) : ℝ)) = (x : ℝ) := by
    push_cast
    ring
  rw [e1] at h3
  unfold cosApprox
  push_cast at h3 ⊢
  exact h3

/-- The sine squared of `π * r`, for a fraction `r` up to a half, to eight places. -/
theorem sin_sq_approx {r : ℚ} (h0 : 0 ≤ r) (h1 : r ≤ 1 / 2) (hs : |cosSeries (2 * r * 3.14159265 / 4)| ≤ 1) :
    |Real.sin (Real.pi * r) ^ 2 - ((1 - cosApprox (2 * r * 3.14159265) : ℚ) : ℝ) / 2| ≤ 0.00000003 := by
  have hq0 : (0 : ℚ) ≤ 2 * r * 3.14159265 := by positivity
  have hq1 : 2 * r * 3.14159265 ≤ (4 : ℚ) * 0.7853981625 := by linarith
  have h := cosApprox_spec hq0 (by linarith) hs
  have hpow : (((2 * r * 3.14159265) / 4 : ℚ) : ℝ) ^ 12 ≤ 1 := by
    have a : (0 : ℝ) ≤ (((2 * r * 3.14159265) / 4 : ℚ) : ℝ) := by
      have : (0 : ℚ) ≤ (2 * r * 3.14159265) / 4 := by positivity
      exact_mod_cast this
    have b : (((2 * r * 3.14159265) / 4 : ℚ) : ℝ) ≤ 1 := by
      have : (2 * r * 3.14159265) / 4 ≤ (1 : ℚ) := by linarith
      exact_mod_cast this
    exact pow_le_one₀ a b
  have hlip : |Real.cos (2 * (Real.pi * r)) - Real.cos ((2 * r * 3.14159265 : ℚ) : ℝ)| ≤ 0.000000005 := by
    refine (Real.abs_cos_sub_cos_le _ _).trans ?_
    have hr0 : (0 : ℝ) ≤ r := by exact_mod_cast h0
    have hr1 : (r : ℝ) ≤ 1 / 2 := by
      have := (Rat.cast_le (K := ℝ)).mpr h1
      push_cast at this
      exact this
    have e : 2 * (Real.pi * r) - ((2 * r * 3.14159265 : ℚ) : ℝ) = 2 * r * (Real.pi - 3.14159265) := by
      push_cast
      ring
    have p1 := Real.pi_gt_d20
    have p2 := Real.pi_lt_d20
    rw [e, abs_of_nonneg (by apply mul_nonneg; positivity; linarith)]
    nlinarith
  have hsin : Real.sin (Real.pi * r) ^ 2 = (1 - Real.cos (2 * (Real.pi * r))) / 2 := by
    rw [Real.cos_two_mul, ← Real.sin_sq_add_cos_sq (Real.pi * r)]
    ring
  rw [hsin]
  have h4 : |Real.cos ((2 * r * 3.14159265 : ℚ) : ℝ) - ((cosApprox (2 * r * 3.14159265) : ℚ) : ℝ)| ≤ 0.00000004 := by
    refine h.trans ?_
    nlinarith
  rw [abs_le] at hlip h4 ⊢
  push_cast at *
  constructor <;> linarith [hlip.1, hlip.2, h4.1, h4.2]

/-- The distance of `r` to the nearer end of the unit interval. -/
def fold (r : ℚ) : ℚ := if r ≤ 1 / 2 then r else 1 - r

/-- A rational approximation of the sine squared of `π * r`. -/
def sinSq (r : ℚ) : ℚ := (1 - cosApprox (2 * fold r * 3.14159265)) / 2

theorem sinSq_spec {r : ℚ} (h0 : 0 ≤ r) (h1 : r ≤ 1) (hs : |cosSeries (2 * fold r * 3.14159265 / 4)| ≤ 1) :
    |Real.sin (Real.pi * r) ^ 2 - (sinSq r : ℝ)| ≤ 0.00000003 := by
  unfold sinSq fold at *
  by_cases h : r ≤ 1 / 2
  · rw [if_pos h] at hs ⊢
    have := sin_sq_approx h0 h hs
    push_cast at this ⊢
    exact this
  · rw [if_neg h] at hs ⊢
    have := sin_sq_approx (r := 1 - r) (by linarith) (by linarith) hs
    have e : Real.sin (Real.pi * ((1 - r : ℚ) : ℝ)) = Real.sin (Real.pi * r) := by
      push_cast
      rw [mul_sub, mul_one, Real.sin_pi_sub]
    rw [e] at this
    push_cast at this ⊢
    exact this

/-- A decimal lies near the sine squared if it lies near its approximation. -/
theorem near_sinSq {r d : ℚ} (h0 : 0 ≤ r) (h1 : r ≤ 1) (hs : |cosSeries (2 * fold r * 3.14159265 / 4)| ≤ 1)
    (hd : |d - sinSq r| ≤ 0.00000055) : |(d : ℝ) - Real.sin (Real.pi * r) ^ 2| ≤ 0.0000006 := by
  have a := sinSq_spec h0 h1 hs
  have b : |(d : ℝ) - (sinSq r : ℝ)| ≤ 0.00000055 := by
    have := (Rat.cast_le (K := ℝ)).mpr hd
    push_cast at this
    exact this
  rw [abs_le] at a b ⊢
  constructor <;> linarith [a.1, a.2, b.1, b.2]

end JKD.Numeric
