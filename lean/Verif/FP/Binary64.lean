import Verif.FP.RD
import Mathlib.Data.Int.Log
import Mathlib.Tactic.Positivity
/-
IEEE-754 binary64, round to nearest, ties to even: a concrete rounding function, with the proof that
it is monotone (so that all laws of `FPLaws` hold for it).
-/

namespace JKD.RD

open Classical in
/-- Round to the nearest integer, ties to even. -/
noncomputable def rne (y : ℝ) : ℤ :=
  if Int.fract y < 1 / 2 then ⌊y⌋
  else if 1 / 2 < Int.fract y then ⌊y⌋ + 1
  else if Even ⌊y⌋ then ⌊y⌋ else ⌊y⌋ + 1

theorem rne_ge_floor (y : ℝ) : ⌊y⌋ ≤ rne y := by
  unfold rne; split_ifs <;> omega

theorem rne_le_floor_succ (y : ℝ) : rne y ≤ ⌊y⌋ + 1 := by
  unfold rne; split_ifs <;> omega

theorem rne_mono {x y : ℝ} (h : x ≤ y) : rne x ≤ rne y := by
  have hf : ⌊x⌋ ≤ ⌊y⌋ := Int.floor_le_floor h
  rcases lt_or_eq_of_le hf with h1 | h1
  · have := rne_le_floor_succ x
    have := rne_ge_floor y
    omega
  · have hfr : Int.fract x ≤ Int.fract y := by
      unfold Int.fract
      rw [h1]
      linarith
    unfold rne
    rw [h1]
    split_ifs <;> first | omega | linarith

theorem rne_intCast (n : ℤ) : rne (n : ℝ) = n := by
  unfold rne
  simp

theorem rne_le {x : ℝ} {n : ℤ} (h : x ≤ n) : rne x ≤ n := by
  have := rne_mono h
  rwa [rne_intCast] at this

theorem le_rne {x : ℝ} {n : ℤ} (h : (n : ℝ) ≤ x) : n ≤ rne x := by
  have := rne_mono h
  rwa [rne_intCast] at this

theorem rne_le_of_lt_half {x : ℝ} {n : ℤ} (h : x < n + 1 / 2) : rne x ≤ n := by
  by_cases hx : x < n
  · exact rne_le hx.le
  · have hfl : ⌊x⌋ = n := by
      rw [Int.floor_eq_iff]
      constructor
      · linarith
      · linarith
    have hfr : Int.fract x < 1 / 2 := by
      unfold Int.fract
      rw [hfl]
      linarith
    unfold rne
    rw [if_pos hfr, hfl]

/-- Exponent of the unit in the last place: 53 significant bits, at least `-1074`. -/
noncomputable def ulpExp (x : ℝ) : ℤ := max (Int.log 2 x - 52) (-1074)

/-- Round a non-negative number to 53 significant bits (no overflow yet). -/
noncomputable def rndPos (x : ℝ) : ℝ := (rne (x / 2 ^ ulpExp x) : ℝ) * 2 ^ ulpExp x

theorem two_zpow_pos (e : ℤ) : (0 : ℝ) < 2 ^ e := zpow_pos (by norm_num) e

theorem rndPos_nonneg {x : ℝ} (h : 0 ≤ x) : 0 ≤ rndPos x := by
  unfold rndPos
  apply mul_nonneg _ (two_zpow_pos _).le
  have : (0 : ℤ) ≤ rne (x / 2 ^ ulpExp x) := le_rne (by
    simp only [Int.cast_zero]
    exact div_nonneg h (two_zpow_pos _).le)
  exact_mod_cast this

theorem rndPos_zero : rndPos 0 = 0 := by
  unfold rndPos
  simp only [zero_div]
  have : rne 0 = 0 := by simpa using rne_intCast 0
  rw [this]
  simp

/-- A multiple of the unit in the last place bounds the rounded value from above. -/
theorem rndPos_le_of_mult {x : ℝ} {n : ℤ} (h : x ≤ n * 2 ^ ulpExp x) : rndPos x ≤ n * 2 ^ ulpExp x := by
  unfold rndPos
  apply mul_le_mul_of_nonneg_right _ (two_zpow_pos _).le
  have : x / 2 ^ ulpExp x ≤ n := by
    rw [div_le_iff₀ (two_zpow_pos _)]
    exact h
  exact_mod_cast rne_le this

theorem le_rndPos_of_mult {x : ℝ} {n : ℤ} (h : n * 2 ^ ulpExp x ≤ x) : n * 2 ^ ulpExp x ≤ rndPos x := by
  unfold rndPos
  apply mul_le_mul_of_nonneg_right _ (two_zpow_pos _).le
  have : (n : ℝ) ≤ x / 2 ^ ulpExp x := by
    rw [le_div_iff₀ (two_zpow_pos _)]
    exact h
  exact_mod_cast le_rne this

/-- A power of two not below the unit in the last place is a multiple of it. -/
theorem zpow_mult {e k : ℤ} (h : e ≤ k) : ∃ n : ℤ, (2 : ℝ) ^ k = n * 2 ^ e := by
  refine ⟨2 ^ (k - e).toNat, ?_⟩
  push_cast
  rw [← zpow_natCast, Int.toNat_of_nonneg (by omega), ← zpow_add₀ (by norm_num)]
  congr 1
  omega

theorem log_le {x : ℝ} (h : 0 < x) : (2 : ℝ) ^ Int.log 2 x ≤ x := by
  have := Int.zpow_log_le_self (b := 2) (by norm_num) h
  exact_mod_cast this

theorem lt_log {x : ℝ} : x < (2 : ℝ) ^ (Int.log 2 x + 1) := by
  have := Int.lt_zpow_succ_log_self (b := 2) (by norm_num) x
  exact_mod_cast this

theorem ulpExp_mono {x y : ℝ} (hx : 0 < x) (h : x ≤ y) : ulpExp x ≤ ulpExp y := by
  unfold ulpExp
  have := Int.log_mono_right (b := 2) hx h
  omega

/-- A power of two `2^k ≥ x` with `k` at least the ulp exponent bounds the rounding. -/
theorem rndPos_le_zpow {x : ℝ} {k : ℤ} (h : x ≤ 2 ^ k) (he : ulpExp x ≤ k) : rndPos x ≤ 2 ^ k := by
  obtain ⟨n, hn⟩ := zpow_mult he
  rw [hn] at h ⊢
  exact rndPos_le_of_mult h

theorem zpow_le_rndPos {x : ℝ} {k : ℤ} (h : 2 ^ k ≤ x) (he : ulpExp x ≤ k) : 2 ^ k ≤ rndPos x := by
  obtain ⟨n, hn⟩ := zpow_mult he
  rw [hn] at h ⊢
  exact le_rndPos_of_mult h

theorem rndPos_mono {x y : ℝ} (hx : 0 ≤ x) (h : x ≤ y) : rndPos x ≤ rndPos y := by
  rcases hx.eq_or_lt with rfl | hx
  · rw [rndPos_zero]; exact rndPos_nonneg h
  rcases lt_or_eq_of_le (ulpExp_mono hx h) with he | he
  · -- different binades: a power of two lies between
    have hlog : Int.log 2 x + 1 ≤ Int.log 2 y ∧ ulpExp y = Int.log 2 y - 52 ∧ ulpExp x < Int.log 2 y := by
      unfold ulpExp at *
      omega
    obtain ⟨h1, h2, h3⟩ := hlog
    have hxb : x ≤ 2 ^ Int.log 2 y := by
      refine (lt_log.le).trans ?_
      exact zpow_le_zpow_right₀ (by norm_num) h1
    have hyb : (2 : ℝ) ^ Int.log 2 y ≤ y := log_le (hx.trans_le h)
    exact (rndPos_le_zpow hxb h3.le).trans (zpow_le_rndPos hyb (by omega))
  · unfold rndPos
    rw [he]
    apply mul_le_mul_of_nonneg_right _ (two_zpow_pos _).le
    have : rne (x / 2 ^ ulpExp y) ≤ rne (y / 2 ^ ulpExp y) := by
      apply rne_mono
      exact div_le_div_of_nonneg_right h (two_zpow_pos _).le
    exact_mod_cast this

open Classical in
/-- Rounding of a non-negative number, with overflow to infinity. -/
noncomputable def rndMag (x : ℝ) : RD := if rndPos x < 2 ^ 1024 then fin (rndPos x) else pinf

/-- Negation (exact). -/
def neg : RD → RD
  | nan => nan
  | ninf => pinf
  | pinf => ninf
  | fin r => fin (-r)

open Classical in
/-- **binary64 rounding, to nearest, ties to even.** -/
noncomputable def rnd64 (x : ℝ) : RD := if 0 ≤ x then rndMag x else neg (rndMag (-x))

theorem rndMag_mono {x y : ℝ} (hx : 0 ≤ x) (h : x ≤ y) : lt (rndMag y) (rndMag x) = false := by
  have := rndPos_mono hx h
  unfold rndMag
  by_cases h1 : rndPos x < 2 ^ 1024
  · rw [if_pos h1]
    by_cases h2 : rndPos y < 2 ^ 1024
    · rw [if_pos h2, not_lt_fin_fin]; exact this
    · rw [if_neg h2]; simp
  · have h2 : ¬ rndPos y < 2 ^ 1024 := fun h2 => h1 (this.trans_lt h2)
    rw [if_neg h1, if_neg h2]; simp

theorem lt_neg (a b : RD) : lt (neg a) (neg b) = lt b a := by
  cases a <;> cases b <;> simp [neg, lt]

/-- The binary64 rounding is a monotone rounding. -/
noncomputable def binary64 : Rounding where
  rnd := rnd64
  num := by
    intro r
    unfold rnd64 rndMag
    split_ifs <;> simp [neg]
  mono := by
    intro r s h
    unfold rnd64
    by_cases hr : 0 ≤ r
    · rw [if_pos hr, if_pos (hr.trans h)]
      exact rndMag_mono hr h
    · by_cases hs : 0 ≤ s
      · rw [if_neg hr, if_pos hs]
        have h1 := rndPos_nonneg hs
        have h2 := rndPos_nonneg (x := -r) (by linarith)
        unfold rndMag
        split_ifs <;> simp [neg]
        rw [not_lt_fin_fin]
        linarith
      · rw [if_neg hr, if_neg hs, lt_neg]
        exact rndMag_mono (by linarith) (by linarith)

/-- Doubles with a given implementation of `log10` on positive numbers. -/
noncomputable def ieee (lg : ℝ → RD) : FPU RD := fpu binary64 lg

end JKD.RD
