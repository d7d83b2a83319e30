import Verif.FP.Tame
import Mathlib.Data.Real.Basic
import Mathlib.Analysis.SpecialFunctions.Log.Base
import Mathlib.Analysis.SpecialFunctions.Exp
import Mathlib.Analysis.Complex.ExponentialBounds
import Mathlib.Tactic.Positivity
import Mathlib.Tactic.NormNum
import Mathlib.Tactic.FieldSimp
/-
Rounding errors of binary64.
-/

namespace JKD.RD

/-- **Specification.**  `z` is `x` up to a relative error `ε`. -/
def Close (ε x z : ℝ) : Prop := (1 - ε) * x ≤ z ∧ z ≤ (1 + ε) * x

theorem rne_close (y : ℝ) : |(rne y : ℝ) - y| ≤ 1 / 2 := by
  have h1 : (⌊y⌋ : ℝ) + Int.fract y = y := Int.floor_add_fract y
  have h2 := Int.fract_nonneg y
  have h3 := Int.fract_lt_one y
  unfold rne
  rw [abs_le]
  split_ifs with a b c <;> push_cast <;> constructor <;> linarith

/-- Rounding is off by at most half a unit in the last place. -/
theorem rndPos_half (x : ℝ) : |rndPos x - x| ≤ 1 / 2 * 2 ^ ulpExp x := by
  have hE : (0 : ℝ) < 2 ^ ulpExp x := two_zpow_pos _
  have h1 := rne_close (x / 2 ^ ulpExp x)
  have : rndPos x - x = ((rne (x / 2 ^ ulpExp x) : ℝ) - x / 2 ^ ulpExp x) * 2 ^ ulpExp x := by
    unfold rndPos
    rw [sub_mul, div_mul_cancel₀ _ hE.ne']
  rw [this, abs_mul, abs_of_pos hE]
  exact mul_le_mul_of_nonneg_right h1 hE.le

/-- Rounding to binary64 has a relative error of at most `2⁻⁵³` for normal numbers. -/
theorem rndPos_close {x : ℝ} (h : (2 : ℝ) ^ (-1022 : ℤ) ≤ x) : Close ((2 : ℝ) ^ (-53 : ℤ)) x (rndPos x) := by
  have hx : 0 < x := (two_zpow_pos _).trans_le h
  have hlog : -1022 ≤ Int.log 2 x := (Int.zpow_le_iff_le_log (b := 2) (by norm_num) hx).1 (by exact_mod_cast h)
  have he : ulpExp x = Int.log 2 x - 52 := by unfold ulpExp; omega
  have h2 := rndPos_half x
  have h3 : (1 : ℝ) / 2 * 2 ^ ulpExp x ≤ 2 ^ (-53 : ℤ) * x := by
    have h4 := log_le hx
    have h5 : (1 : ℝ) / 2 * 2 ^ ulpExp x = 2 ^ (-53 : ℤ) * 2 ^ Int.log 2 x := by
      rw [he, ← zpow_add₀ (by norm_num : (2 : ℝ) ≠ 0), show (1 : ℝ) / 2 = 2 ^ (-1 : ℤ) by norm_num,
        ← zpow_add₀ (by norm_num : (2 : ℝ) ≠ 0)]
      congr 1
      omega
    rw [h5]
    exact mul_le_mul_of_nonneg_left h4 (two_zpow_pos _).le
  rw [abs_le] at h2
  generalize (2 : ℝ) ^ (-53 : ℤ) = ε at h3 ⊢
  constructor
  · rw [sub_mul, one_mul]; linarith [h2.1]
  · rw [add_mul, one_mul]; linarith [h2.2]

theorem rnd64_close {x : ℝ} (h : x = 0 ∨ (2 : ℝ) ^ (-1022 : ℤ) ≤ x) (h2 : x ≤ 2 ^ (1023 : ℤ)) :
    ∃ z, rnd64 x = fin z ∧ Close ((2 : ℝ) ^ (-53 : ℤ)) x z := by
  rcases h with rfl | h
  · refine ⟨0, ?_, by simp [Close]⟩
    unfold rnd64 rndMag
    rw [if_pos le_rfl, rndPos_zero, if_pos (by positivity)]
  · have hx : 0 ≤ x := (two_zpow_pos _).le.trans h
    have b : rndPos x ≤ 2 ^ (1023 : ℤ) := by
      have := rndPos_mono hx h2
      rwa [rndPos_zpow (by norm_num)] at this
    have c : (2 : ℝ) ^ (1023 : ℤ) < 2 ^ 1024 := by
      have : (2 : ℝ) ^ (1023 : ℤ) < 2 ^ (1024 : ℤ) := zpow_lt_zpow_right₀ (by norm_num) (by omega)
      exact_mod_cast this
    refine ⟨rndPos x, ?_, rndPos_close h⟩
    unfold rnd64
    rw [if_pos hx, rndMag_fin (b.trans_lt c)]

/-- The error of a rounded number of either sign, subnormal numbers included. -/
theorem rnd64_err {x : ℝ} (h : |x| ≤ 2 ^ (1023 : ℤ)) :
    ∃ t, rnd64 x = fin t ∧ |t - x| ≤ 2 ^ (-53 : ℤ) * |x| + 2 ^ (-1075 : ℤ) := by
  have hpos : ∀ y : ℝ, 0 ≤ y → y ≤ 2 ^ (1023 : ℤ) →
      rndMag y = fin (rndPos y) ∧ |rndPos y - y| ≤ 2 ^ (-53 : ℤ) * y + 2 ^ (-1075 : ℤ) := by
    intro y hy hy2
    have b : rndPos y ≤ 2 ^ (1023 : ℤ) := by
      have := rndPos_mono hy hy2
      rwa [rndPos_zpow (by norm_num)] at this
    have c : (2 : ℝ) ^ (1023 : ℤ) < 2 ^ 1024 := by
      have : (2 : ℝ) ^ (1023 : ℤ) < 2 ^ (1024 : ℤ) := zpow_lt_zpow_right₀ (by norm_num) (by omega)
      exact_mod_cast this
    refine ⟨rndMag_fin (b.trans_lt c), ?_⟩
    have hp1 : (0 : ℝ) < 2 ^ (-1075 : ℤ) := two_zpow_pos _
    have hp2 : (0 : ℝ) < 2 ^ (-53 : ℤ) := two_zpow_pos _
    rcases hy.eq_or_lt with h0 | h0
    · rw [← h0, rndPos_zero, sub_zero, abs_zero, mul_zero, zero_add]
      exact hp1.le
    · by_cases hn : (2 : ℝ) ^ (-1022 : ℤ) ≤ y
      · have hc := rndPos_close hn
        unfold Close at hc
        generalize (2 : ℝ) ^ (-53 : ℤ) = ε at hc hp2 ⊢
        rw [sub_mul, add_mul, one_mul] at hc
        rw [abs_le]
        constructor <;> linarith [hc.1, hc.2]
      · have hlog : Int.log 2 y < -1022 := by
          refine (Int.lt_zpow_iff_log_lt (b := 2) (by norm_num) h0).1 ?_
          exact_mod_cast not_le.1 hn
        have he : ulpExp y = -1074 := by unfold ulpExp; omega
        have h2 := rndPos_half y
        rw [he] at h2
        have h3 : (1 : ℝ) / 2 * 2 ^ (-1074 : ℤ) = 2 ^ (-1075 : ℤ) := by
          rw [show (1 : ℝ) / 2 = 2 ^ (-1 : ℤ) by norm_num, ← zpow_add₀ (by norm_num : (2 : ℝ) ≠ 0)]
          norm_num
        rw [h3] at h2
        have : 0 ≤ (2 : ℝ) ^ (-53 : ℤ) * y := mul_nonneg hp2.le hy
        linarith
  by_cases hx : 0 ≤ x
  · rw [abs_of_nonneg hx] at h ⊢
    obtain ⟨h1, h2⟩ := hpos x hx h
    exact ⟨_, by unfold rnd64; rw [if_pos hx, h1], h2⟩
  · have hx' := not_le.1 hx
    rw [abs_of_neg hx'] at h ⊢
    obtain ⟨h1, h2⟩ := hpos (-x) (by linarith) h
    refine ⟨-rndPos (-x), by unfold rnd64; rw [if_neg hx, h1]; rfl, ?_⟩
    rw [← abs_neg, show -(-rndPos (-x) - x) = rndPos (-x) - -x by ring]
    exact h2

/-- Small integers are doubles. -/
theorem rndPos_nat {k : Nat} (h : k ≤ 2 ^ 52) : rndPos (k : ℝ) = k := by
  rcases Nat.eq_zero_or_pos k with rfl | hk
  · rw [Nat.cast_zero, rndPos_zero]
  · have hk1 : (0 : ℝ) < k := by exact_mod_cast hk
    have hlog : Int.log 2 (k : ℝ) < 53 := by
      refine (Int.lt_zpow_iff_log_lt (b := 2) (by norm_num) hk1).1 ?_
      have : (k : ℝ) ≤ 2 ^ 52 := by exact_mod_cast h
      have e : ((2 : ℕ) : ℝ) ^ (53 : ℤ) = 2 * 2 ^ 52 := by norm_num
      rw [e]
      linarith
    have he : ulpExp (k : ℝ) ≤ 0 := by unfold ulpExp; omega
    obtain ⟨n, hn⟩ := zpow_mult he
    have e : (k : ℝ) = ((k * n : ℤ) : ℝ) * 2 ^ ulpExp (k : ℝ) := by
      push_cast
      rw [mul_assoc, ← hn]
      simp
    apply le_antisymm
    · have := rndPos_le_of_mult (x := (k : ℝ)) (n := k * n) e.le
      rwa [← e] at this
    · have := le_rndPos_of_mult (x := (k : ℝ)) (n := k * n) e.ge
      rwa [← e] at this

theorem two_le_log_ten : 2 ≤ Real.log 10 := by
  rw [Real.le_log_iff_exp_le (by norm_num)]
  have h := Real.exp_one_lt_d9
  have e : Real.exp 2 = Real.exp 1 * Real.exp 1 := by rw [← Real.exp_add]; norm_num
  rw [e]
  have h0 := Real.exp_pos 1
  nlinarith

/-- A relative error becomes an absolute error of the logarithm. -/
theorem logb_close {ε x z : ℝ} (hx : 0 < x) (hε : 0 ≤ ε) (hε2 : ε ≤ 1 / 2) (h : Close ε x z) :
    0 < z ∧ |Real.logb 10 z - Real.logb 10 x| ≤ ε := by
  have hz : 0 < z := lt_of_lt_of_le (mul_pos (by linarith) hx) h.1
  refine ⟨hz, ?_⟩
  have hl := two_le_log_ten
  have e : Real.logb 10 z - Real.logb 10 x = Real.log (z / x) / Real.log 10 := by
    unfold Real.logb
    rw [Real.log_div hz.ne' hx.ne', sub_div]
  have h1 : z / x ≤ 1 + ε := by rw [div_le_iff₀ hx]; exact h.2
  have h2 : 1 - ε ≤ z / x := by rw [le_div_iff₀ hx]; exact h.1
  have hp : 0 < z / x := div_pos hz hx
  have h3 : Real.log (z / x) ≤ 2 * ε := by
    have := Real.log_le_sub_one_of_pos hp
    linarith
  have h4 : -(2 * ε) ≤ Real.log (z / x) := by
    have h5 := Real.one_sub_inv_le_log_of_pos hp
    have h6 : (z / x)⁻¹ ≤ 1 + 2 * ε := by
      rw [inv_le_comm₀ hp (by linarith)]
      refine le_trans ?_ h2
      rw [inv_le_comm₀ (by linarith) (by linarith), ← one_div, div_le_iff₀ (by linarith)]
      nlinarith
    linarith
  rw [e, abs_div, abs_of_pos (by linarith : 0 < Real.log 10), div_le_iff₀ (by linarith)]
  have : |Real.log (z / x)| ≤ 2 * ε := abs_le.2 ⟨h4, h3⟩
  nlinarith

end JKD.RD
