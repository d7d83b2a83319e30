import Verif.FP.Binary64
import Mathlib.Analysis.SpecialFunctions.Log.Base
/-
Doubles that stay finite: sums of logarithms of moderate probabilities never overflow, however many are
added.  For binary64 this is because a large enough accumulator absorbs small terms.
-/

namespace JKD

/-- A description of well-behaved arithmetic on probabilities.  `Pos`: a moderate positive probability;
`Small`: a logarithm of a product of two of them; `Good`: a sum of such logarithms. -/
structure Tame {D : Type} (F : FPU D) (Pos Small Good : D → Prop) : Prop where
  log : ∀ p q, Pos p → Pos q → Small (F.log10 (F.mul p q))
  start : ∀ w, Small w → Good w
  add : ∀ a w, Good a → Small w → Good (F.add a w)
  above : ∀ a, Good a → F.lt F.negInf a = true

namespace RD

theorem log10_pos {lg : ℝ → RD} {r : ℝ} (h : 0 < r) : log10 lg (fin r) = lg r := by
  simp only [log10]
  rw [if_neg (not_lt.2 h.le), if_neg h.ne']

/-! ### Exact arithmetic -/

/-- In exact arithmetic any positive number will do. -/
theorem tame_exact : Tame exact (fun a => ∃ r, a = fin r ∧ 0 < r) (fun a => ∃ r, a = fin r)
    (fun a => ∃ r, a = fin r) where
  log := by
    rintro _ _ ⟨r, rfl, hr⟩ ⟨s, rfl, hs⟩
    refine ⟨Real.logb 10 (r * s), ?_⟩
    show log10 (fun r => fin (Real.logb 10 r)) (fin (r * s)) = _
    exact log10_pos (mul_pos hr hs)
  start := fun _ h => h
  add := by
    rintro _ _ ⟨r, rfl⟩ ⟨s, rfl⟩
    exact ⟨r + s, rfl⟩
  above := by
    rintro _ ⟨r, rfl⟩
    rfl

/-! ### binary64 -/

theorem log_eq {x : ℝ} {k : ℤ} (h1 : (2 : ℝ) ^ k ≤ x) (h2 : x < (2 : ℝ) ^ (k + 1)) : Int.log 2 x = k := by
  have hx : 0 < x := (two_zpow_pos k).trans_le h1
  have a : k ≤ Int.log 2 x := (Int.zpow_le_iff_le_log (b := 2) (by norm_num) hx).1 (by exact_mod_cast h1)
  have b : Int.log 2 x < k + 1 := (Int.lt_zpow_iff_log_lt (b := 2) (by norm_num) hx).1 (by exact_mod_cast h2)
  omega

/-- A power of two in range is a double. -/
theorem rndPos_zpow {k : ℤ} (hk : -1074 ≤ k) : rndPos ((2 : ℝ) ^ k) = 2 ^ k := by
  have hlog : Int.log 2 ((2 : ℝ) ^ k) = k :=
    log_eq le_rfl (zpow_lt_zpow_right₀ (by norm_num) (by omega))
  have he : ulpExp ((2 : ℝ) ^ k) ≤ k := by unfold ulpExp; rw [hlog]; omega
  exact le_antisymm (rndPos_le_zpow le_rfl he) (zpow_le_rndPos le_rfl he)

theorem rndMag_fin {x : ℝ} (h : rndPos x < 2 ^ 1024) : rndMag x = fin (rndPos x) := by
  unfold rndMag; rw [if_pos h]

/-- Rounding stays between powers of two. -/
theorem rnd64_between {x : ℝ} {j k : ℤ} (hj : -1074 ≤ j) (hk : k ≤ 1023) (h1 : (2 : ℝ) ^ j ≤ x)
    (h2 : x ≤ 2 ^ k) : ∃ t, rnd64 x = fin t ∧ (2 : ℝ) ^ j ≤ t ∧ t ≤ 2 ^ k := by
  have hx : 0 ≤ x := (two_zpow_pos j).le.trans h1
  have hjk : j ≤ k := by
    have := h1.trans h2
    exact (zpow_le_zpow_iff_right₀ (by norm_num : (1 : ℝ) < 2)).1 this
  have a : (2 : ℝ) ^ j ≤ rndPos x := by
    have := rndPos_mono (two_zpow_pos j).le h1
    rwa [rndPos_zpow hj] at this
  have b : rndPos x ≤ 2 ^ k := by
    have := rndPos_mono hx h2
    rwa [rndPos_zpow (by omega)] at this
  have c : (2 : ℝ) ^ k < 2 ^ 1024 := by
    have : (2 : ℝ) ^ k < 2 ^ (1024 : ℤ) := zpow_lt_zpow_right₀ (by norm_num) (by omega)
    exact_mod_cast this
  refine ⟨rndPos x, ?_, a, b⟩
  unfold rnd64
  rw [if_pos hx, rndMag_fin (b.trans_lt c)]

/-- Rounding of a number of moderate size. -/
theorem rnd64_abs {x : ℝ} {B : ℝ} (hB : rndPos B < 2 ^ 1024) (h : |x| ≤ B) :
    ∃ t, rnd64 x = fin t ∧ |t| ≤ rndPos B := by
  unfold rnd64
  by_cases hx : 0 ≤ x
  · rw [if_pos hx]
    have hb := rndPos_mono hx ((le_abs_self x).trans h)
    refine ⟨rndPos x, rndMag_fin (hb.trans_lt hB), ?_⟩
    rw [abs_of_nonneg (rndPos_nonneg hx)]
    exact hb
  · rw [if_neg hx]
    have hx' : 0 ≤ -x := by linarith
    have hb := rndPos_mono hx' ((neg_le_abs x).trans h)
    refine ⟨-rndPos (-x), by rw [rndMag_fin (hb.trans_lt hB)]; rfl, ?_⟩
    rw [abs_neg, abs_of_nonneg (rndPos_nonneg hx')]
    exact hb

/-- **Absorption.**  Adding up to 512 to `2^1000` changes nothing. -/
theorem absorb : rndPos ((2 : ℝ) ^ (1000 : ℤ) + 512) ≤ 2 ^ (1000 : ℤ) := by
  have h9 : (512 : ℝ) = 2 ^ (9 : ℤ) := by norm_num
  have hlog : Int.log 2 ((2 : ℝ) ^ (1000 : ℤ) + 512) = 1000 := by
    apply log_eq
    · linarith
    · have : (2 : ℝ) ^ ((1000 : ℤ) + 1) = 2 ^ (1000 : ℤ) + 2 ^ (1000 : ℤ) := by
        rw [zpow_add₀ (by norm_num)]; ring
      rw [this, h9]
      exact add_lt_add_of_le_of_lt le_rfl (zpow_lt_zpow_right₀ (by norm_num) (by norm_num))
  have he : ulpExp ((2 : ℝ) ^ (1000 : ℤ) + 512) = 948 := by unfold ulpExp; rw [hlog]; rfl
  unfold rndPos
  rw [he]
  have hdiv : ((2 : ℝ) ^ (1000 : ℤ) + 512) / 2 ^ (948 : ℤ) = 2 ^ (52 : ℤ) + 2 ^ (-939 : ℤ) := by
    rw [add_div, h9, ← zpow_sub₀ (by norm_num), ← zpow_sub₀ (by norm_num)]
    norm_num
  have hlt : (2 : ℝ) ^ (-939 : ℤ) < 1 / 2 := by
    have : (2 : ℝ) ^ (-939 : ℤ) < 2 ^ (-1 : ℤ) := zpow_lt_zpow_right₀ (by norm_num) (by norm_num)
    calc (2 : ℝ) ^ (-939 : ℤ) < 2 ^ (-1 : ℤ) := this
      _ = 1 / 2 := by norm_num
  have hr : rne (((2 : ℝ) ^ (1000 : ℤ) + 512) / 2 ^ (948 : ℤ)) ≤ 2 ^ 52 := by
    apply rne_le_of_lt_half
    rw [hdiv]
    push_cast
    have : (2 : ℝ) ^ (52 : ℤ) = 2 ^ 52 := by norm_cast
    rw [this]
    linarith
  have hr' : ((rne (((2 : ℝ) ^ (1000 : ℤ) + 512) / 2 ^ (948 : ℤ)) : ℤ) : ℝ) ≤ 2 ^ (52 : ℤ) := by
    have : ((rne (((2 : ℝ) ^ (1000 : ℤ) + 512) / 2 ^ (948 : ℤ)) : ℤ) : ℝ) ≤ ((2 ^ 52 : ℤ) : ℝ) := by
      exact_mod_cast hr
    refine this.trans (le_of_eq ?_)
    push_cast
    norm_cast
  calc _ ≤ (2 : ℝ) ^ (52 : ℤ) * 2 ^ (948 : ℤ) := mul_le_mul_of_nonneg_right hr' (two_zpow_pos _).le
    _ = 2 ^ (1000 : ℤ) := by rw [← zpow_add₀ (by norm_num)]; norm_num

theorem zpow1000_lt : (2 : ℝ) ^ (1000 : ℤ) < 2 ^ 1024 := by
  have : (2 : ℝ) ^ (1000 : ℤ) < 2 ^ (1024 : ℤ) := zpow_lt_zpow_right₀ (by norm_num) (by norm_num)
  exact_mod_cast this

/-- What is assumed of the C library's `log10`: on positive doubles it returns a finite number of
absolute value at most 512 (the true value is between -324 and 309). -/
def LogOk (lg : ℝ → RD) : Prop :=
  ∀ r : ℝ, (2 : ℝ) ^ (-1074 : ℤ) ≤ r → r ≤ (2 : ℝ) ^ (1024 : ℤ) → ∃ t, lg r = fin t ∧ |t| ≤ 512

/-- A moderate positive double. -/
def PosDouble (a : RD) : Prop := ∃ r, a = fin r ∧ (2 : ℝ) ^ (-500 : ℤ) ≤ r ∧ r ≤ (2 : ℝ) ^ (500 : ℤ)

theorem tame_ieee (lg : ℝ → RD) (hlg : LogOk lg) : Tame (ieee lg) PosDouble (fun a => ∃ r, a = fin r ∧ |r| ≤ 512)
    (fun a => ∃ r, a = fin r ∧ |r| ≤ (2 : ℝ) ^ (1000 : ℤ)) where
  log := by
    rintro _ _ ⟨r, rfl, hr1, hr2⟩ ⟨s, rfl, hs1, hs2⟩
    have h1 : (2 : ℝ) ^ (-1000 : ℤ) ≤ r * s := by
      calc (2 : ℝ) ^ (-1000 : ℤ) = 2 ^ (-500 : ℤ) * 2 ^ (-500 : ℤ) := by rw [← zpow_add₀ (by norm_num)]; norm_num
        _ ≤ r * s := mul_le_mul hr1 hs1 (two_zpow_pos _).le ((two_zpow_pos _).le.trans hr1)
    have h2 : r * s ≤ (2 : ℝ) ^ (1000 : ℤ) := by
      calc r * s ≤ 2 ^ (500 : ℤ) * 2 ^ (500 : ℤ) :=
            mul_le_mul hr2 hs2 ((two_zpow_pos _).le.trans hs1) (two_zpow_pos _).le
        _ = (2 : ℝ) ^ (1000 : ℤ) := by rw [← zpow_add₀ (by norm_num)]; norm_num
    obtain ⟨t, ht, ht1, ht2⟩ := rnd64_between (by norm_num) (by norm_num) h1 h2
    have hpos : 0 < t := (two_zpow_pos _).trans_le ht1
    obtain ⟨u, hu, hu'⟩ := hlg t
      (le_trans (zpow_le_zpow_right₀ (by norm_num) (by norm_num)) ht1)
      (le_trans ht2 (zpow_le_zpow_right₀ (by norm_num) (by norm_num)))
    refine ⟨u, ?_, hu'⟩
    show log10 lg (rnd64 (r * s)) = fin u
    rw [ht, log10_pos hpos, hu]
  start := by
    rintro w ⟨r, rfl, hr⟩
    refine ⟨r, rfl, hr.trans ?_⟩
    have : (512 : ℝ) = 2 ^ (9 : ℤ) := by norm_num
    rw [this]
    exact zpow_le_zpow_right₀ (by norm_num) (by norm_num)
  add := by
    rintro _ _ ⟨r, rfl, hr⟩ ⟨s, rfl, hs⟩
    obtain ⟨t, ht, ht'⟩ := rnd64_abs (x := r + s) (B := (2 : ℝ) ^ (1000 : ℤ) + 512)
      (absorb.trans_lt zpow1000_lt) ((abs_add_le r s).trans (add_le_add hr hs))
    exact ⟨t, ht, ht'.trans absorb⟩
  above := by
    rintro _ ⟨r, rfl, _⟩
    rfl

/-- The logarithm of a positive double. -/
theorem logb_abs {r : ℝ} (h1 : (2 : ℝ) ^ (-1074 : ℤ) ≤ r) (h2 : r ≤ (2 : ℝ) ^ (1024 : ℤ)) : |Real.logb 10 r| ≤ 512 := by
  have hr : 0 < r := (two_zpow_pos _).trans_le h1
  have h10 : (1 : ℝ) < 10 := by norm_num
  have hup : Real.logb 10 r ≤ 512 := by
    rw [Real.logb_le_iff_le_rpow h10 hr]
    refine h2.trans ?_
    have e : (10 : ℝ) ^ (512 : ℝ) = 10 ^ 512 := by
      have := Real.rpow_natCast (10 : ℝ) 512
      exact_mod_cast this
    rw [e]
    have e2 : (2 : ℝ) ^ (1024 : ℤ) = 2 ^ (2 * 512) := by
      rw [← zpow_natCast]
      rfl
    rw [e2, pow_mul]
    exact pow_le_pow_left₀ (by norm_num) (by norm_num) _
  have hlo : -512 ≤ Real.logb 10 r := by
    rw [Real.le_logb_iff_rpow_le h10 hr]
    refine le_trans ?_ h1
    have e : (10 : ℝ) ^ (-512 : ℝ) = (10 ^ 512)⁻¹ := by
      rw [Real.rpow_neg (by norm_num)]
      congr 1
      have := Real.rpow_natCast (10 : ℝ) 512
      exact_mod_cast this
    rw [e, zpow_neg]
    apply inv_anti₀ (two_zpow_pos _)
    have h8 : (2 : ℝ) ^ (1074 : ℤ) ≤ 2 ^ (3 * 512) := by
      have : (2 : ℝ) ^ (1074 : ℤ) ≤ 2 ^ (1536 : ℤ) := zpow_le_zpow_right₀ (by norm_num) (by norm_num)
      exact_mod_cast this
    refine h8.trans ?_
    rw [pow_mul]
    exact pow_le_pow_left₀ (by norm_num) (by norm_num) _
  exact abs_le.2 ⟨hlo, hup⟩

/-- The correctly rounded logarithm satisfies the assumption. -/
theorem logOk_rounded : LogOk (fun r => rnd64 (Real.logb 10 r)) := by
  intro r h1 h2
  have h9 : (512 : ℝ) = 2 ^ (9 : ℤ) := by norm_num
  have hB : rndPos 512 = 512 := by rw [h9]; exact rndPos_zpow (by norm_num)
  have hlt : rndPos 512 < 2 ^ 1024 := by
    rw [hB, h9]
    have : (2 : ℝ) ^ (9 : ℤ) < 2 ^ (1024 : ℤ) := zpow_lt_zpow_right₀ (by norm_num) (by norm_num)
    exact_mod_cast this
  obtain ⟨t, ht, ht'⟩ := rnd64_abs hlt (logb_abs h1 h2)
  exact ⟨t, ht, by rwa [hB] at ht'⟩

end RD
end JKD
