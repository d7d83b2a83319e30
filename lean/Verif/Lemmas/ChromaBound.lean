import Verif.Lemmas.ChromaTone
import Verif.Props.NnlsBallProps
import Mathlib.Algebra.Order.Floor.Semiring
/-
How large the numbers of the chroma plug-in can become, in exact arithmetic.
-/

namespace JKD.Chroma

open Finset

variable {T : Type}

/-! ### The mapping -/

theorem bump_le_one (y : ℝ) : bump y ≤ 1 := by
  unfold bump
  split_ifs
  · have := Real.cos_le_one (Real.pi * y)
    linarith
  · norm_num

/-- How many multiples of `h` there are between `lo` and `hi`. -/
theorem multiples_count {h lo hi : ℝ} (hh : 0 < h) (h0 : 0 ≤ lo) (hle : lo ≤ hi) (N : Nat) [DecidablePred fun k : Nat => lo ≤ k * h ∧ k * h ≤ hi] :
    (((range N).filter (fun k : Nat => lo ≤ k * h ∧ k * h ≤ hi)).card : ℝ) ≤ (hi - lo) / h + 1 := by
  have hsub : (range N).filter (fun k : Nat => lo ≤ k * h ∧ k * h ≤ hi) ⊆ Icc ⌈lo / h⌉₊ ⌊hi / h⌋₊ := by
    intro k hk
    rw [mem_filter] at hk
    rw [mem_Icc]
    constructor
    · rw [Nat.ceil_le, div_le_iff₀ hh]
      exact hk.2.1
    · apply Nat.le_floor
      rw [le_div_iff₀ hh]
      exact hk.2.2
  have hc : ((((range N).filter (fun k : Nat => lo ≤ k * h ∧ k * h ≤ hi)).card : Nat) : ℝ) ≤
      ((Icc ⌈lo / h⌉₊ ⌊hi / h⌋₊).card : Nat) := by exact_mod_cast card_le_card hsub
  refine hc.trans ?_
  rw [Nat.card_Icc]
  have h1 : lo / h ≤ (⌈lo / h⌉₊ : ℝ) := Nat.le_ceil _
  have h2 : (⌊hi / h⌋₊ : ℝ) ≤ hi / h := Nat.floor_le (div_nonneg (h0.trans hle) hh.le)
  have h3 : 0 ≤ (hi - lo) / h := div_nonneg (by linarith) hh.le
  rcases Nat.le_total ⌈lo / h⌉₊ (⌊hi / h⌋₊ + 1) with h4 | h4
  · rw [Nat.cast_sub h4]
    push_cast
    rw [sub_div]
    linarith
  · rw [Nat.sub_eq_zero_of_le h4]
    push_cast
    linarith

/-- Two thirty-sixths of an octave. -/
theorem third_ratio : (2 : ℝ) ^ ((1 : ℝ) / 36) ≤ 1.0195 := by
  have h1 : ((2 : ℝ) ^ ((1 : ℝ) / 36)) ^ 36 = 2 := by
    rw [← Real.rpow_natCast, ← Real.rpow_mul (by norm_num)]
    norm_num
  by_contra h
  have h2 : (1.0195 : ℝ) ^ 36 < ((2 : ℝ) ^ ((1 : ℝ) / 36)) ^ 36 :=
    pow_lt_pow_left₀ (not_le.mp h) (by norm_num) (by norm_num)
  rw [h1] at h2
  norm_num at h2

theorem binFreq_ge (l : Nat) : 25.58 ≤ binFreq l := by
  have h1 : (1 / 17.2 : ℝ) ≤ (2 : ℝ) ^ (-4.1 : ℝ) := by
    have h2 : ((2 : ℝ) ^ (4.1 : ℝ)) ^ 10 = 2 ^ 41 := by
      rw [← Real.rpow_natCast, ← Real.rpow_mul (by norm_num), ← Real.rpow_natCast]
      norm_num
    have h3 : (2 : ℝ) ^ (4.1 : ℝ) ≤ 17.2 := by
      by_contra h
      have h4 : (17.2 : ℝ) ^ 10 < ((2 : ℝ) ^ (4.1 : ℝ)) ^ 10 :=
        pow_lt_pow_left₀ (not_le.mp h) (by norm_num) (by norm_num)
      rw [h2] at h4
      norm_num at h4
    rw [Real.rpow_neg (by norm_num), one_div]
    exact inv_anti₀ (by positivity) h3
  have key : ∀ e : ℝ, -4.1 ≤ e → 25.58 ≤ 440 * (2 : ℝ) ^ e := by
    intro e he
    have := Real.rpow_le_rpow_of_exponent_le (x := 2) (by norm_num) he
    have h2 : (440 : ℝ) * (1 / 17.2) ≤ 440 * (2 : ℝ) ^ e := by linarith
    refine le_trans ?_ h2
    norm_num
  unfold binFreq
  split_ifs
  · apply key
    have : (0 : ℝ) ≤ l := Nat.cast_nonneg l
    norm_num
    linarith
  · apply key
    norm_num

/-- Where a bin listens, and how much it can take. -/
theorem pitchBump_le (x : ℝ) (l : Nat) :
    pitchBump x l ≤ if binFreq l / 1.0195 ≤ x ∧ x ≤ binFreq l * 1.0195 then 52 / (binFreq l / 1.0195) else 0 := by
  have hf := binFreq_ge l
  unfold pitchBump
  generalize binFreq l = f at hf
  have hf0 : 0 < f := by linarith
  have hl := Real.log_two_gt_d9
  have hr := third_ratio
  have hr0 : (0 : ℝ) < (2 : ℝ) ^ ((1 : ℝ) / 36) := by positivity
  by_cases hx : 0 < x
  · rw [if_pos hx]
    by_cases hy : |36 * (Real.logb 2 x - Real.logb 2 f)| ≤ 1
    · have hx1 : x ≤ f * (2 : ℝ) ^ ((1 : ℝ) / 36) := by
        rw [abs_le] at hy
        rw [← Real.logb_le_logb (b := 2) (by norm_num) hx (by positivity),
          Real.logb_mul hf0.ne' hr0.ne', Real.logb_rpow (by norm_num) (by norm_num)]
        linarith [hy.2]
      have hx2 : f ≤ x * (2 : ℝ) ^ ((1 : ℝ) / 36) := by
        rw [abs_le] at hy
        rw [← Real.logb_le_logb (b := 2) (by norm_num) hf0 (by positivity),
          Real.logb_mul hx.ne' hr0.ne', Real.logb_rpow (by norm_num) (by norm_num)]
        linarith [hy.1]
      have h1 : f / 1.0195 ≤ x := by
        rw [div_le_iff₀ (by norm_num)]
        exact hx2.trans (mul_le_mul_of_nonneg_left hr hx.le)
      have h2 : x ≤ f * 1.0195 := hx1.trans (mul_le_mul_of_nonneg_left hr hf0.le)
      rw [if_pos ⟨h1, h2⟩]
      have h3 : bump (36 * (Real.logb 2 x - Real.logb 2 f)) ≤ 1 := bump_le_one _
      have hlo : 0 < f / 1.0195 := by positivity
      rw [div_le_div_iff₀ (by positivity) hlo]
      generalize f / 1.0195 = lo at *
      have h4 : 1 ≤ 52 * (Real.log 2 / 36) := by
        norm_num at hl ⊢
        linarith
      have h5 : x ≤ 52 * (Real.log 2 / 36) * x := by nlinarith
      have h6 : bump (36 * (Real.logb 2 x - Real.logb 2 f)) * lo ≤ 1 * lo := mul_le_mul_of_nonneg_right h3 hlo.le
      linarith
    · have : bump (36 * (Real.logb 2 x - Real.logb 2 f)) = 0 := by
        unfold bump
        rw [if_neg hy]
      rw [this, zero_div]
      split_ifs
      · positivity
      · exact le_refl _
  · rw [if_neg hx]
    split_ifs
    · positivity
    · exact le_refl _

/-- All that a bin can take from the multiples of `h`. -/
theorem pitchBump_sum {h : ℝ} (hh : 0 < h) (l N : Nat) :
    ∑ k ∈ range N, pitchBump (k * h) l ≤ 2.05 / h + 2.1 := by
  classical
  have hf := binFreq_ge l
  have h1 : ∑ k ∈ range N, pitchBump (k * h) l ≤ ∑ k ∈ range N,
      if binFreq l / 1.0195 ≤ k * h ∧ k * h ≤ binFreq l * 1.0195 then 52 / (binFreq l / 1.0195) else 0 :=
    sum_le_sum (fun k _ => pitchBump_le _ _)
  refine h1.trans ?_
  rw [← sum_filter, sum_const, nsmul_eq_mul]
  have h2 := multiples_count (h := h) (lo := binFreq l / 1.0195) (hi := binFreq l * 1.0195) hh (by positivity) (by
    rw [div_le_iff₀ (by norm_num)]
    nlinarith) N
  generalize binFreq l = f at *
  have hf0 : 0 < f := by linarith
  have hpos : 0 ≤ 52 / (f / 1.0195) := by positivity
  refine (mul_le_mul_of_nonneg_right h2 hpos).trans ?_
  have e : ((f * 1.0195 - f / 1.0195) / h + 1) * (52 / (f / 1.0195)) =
      52 * (1.0195 ^ 2 - 1) / h + 52 * 1.0195 / f := by
    field_simp
  rw [e]
  apply add_le_add
  · apply div_le_div_of_nonneg_right _ hh.le
    norm_num
  · rw [div_le_iff₀ hf0]
    norm_num at hf ⊢
    linarith

/-- Sums over blocks of eighty. -/
theorem sum_blocks (g : Nat → ℝ) (N : Nat) :
    ∑ n ∈ range N, ∑ d ∈ range 80, g (80 * n + d) = ∑ k ∈ range (80 * N), g k := by
  induction N with
  | zero => simp
  | succ N ih => rw [sum_range_succ, ih, Nat.mul_succ, sum_range_add]

/-- All that a bin can get from the Fourier bins. -/
theorem spread_sum {fs : Int} (hfs : 0 < fs) {bs : Nat} (hb : 0 < bs) (l : Nat) :
    ∑ n ∈ range (bs / 2), spread fs bs n l ≤ 328 * bs / fs + 4.2 := by
  have hfs' : (0 : ℝ) < fs := by exact_mod_cast hfs
  have hbs' : (0 : ℝ) < bs := by exact_mod_cast hb
  have hh : (0 : ℝ) < fs / (80 * bs) := by positivity
  generalize hhd : (fs : ℝ) / (80 * bs) = h at hh
  have hx : ∀ n d : Nat, ((n + 1 : Nat) + (d : ℝ) / 80 - 1) * ((fs : ℝ) / bs) = ((80 * n + d : Nat) : ℝ) * h := by
    intro n d
    rw [← hhd]
    push_cast
    field_simp
    ring
  generalize hg : (fun k : Nat => pitchBump (k * h) l) = g
  have g0 : ∀ k, 0 ≤ g k := by
    intro k
    rw [← hg]
    exact pitchBump_nonneg _ _
  have h1 : ∀ n : Nat, spread fs bs (n + 1) l ≤
      ∑ d ∈ range 80, g (80 * n + d) + ∑ d ∈ range 80, g (80 * (n + 1) + d) := by
    intro n
    unfold spread
    rw [if_neg (by omega)]
    have h2 : ∑ d ∈ range 160, pitchBump (((n + 1 : Nat) + (d : ℝ) / 80 - 1) * ((fs : ℝ) / bs)) l * bump ((d : ℝ) / 80 - 1) ≤
        ∑ d ∈ range (80 + 80), g (80 * n + d) := by
      apply sum_le_sum
      intro d _
      rw [hx, ← hg]
      exact mul_le_of_le_one_right (pitchBump_nonneg _ _) (bump_le_one _)
    refine h2.trans ?_
    rw [sum_range_add]
    apply le_of_eq
    congr 1
  have h2 : ∑ n ∈ range (bs / 2), spread fs bs n l ≤ ∑ n ∈ range (bs / 2), spread fs bs (n + 1) l := by
    have h3 : ∑ n ∈ range (bs / 2), spread fs bs n l ≤ ∑ n ∈ range (bs / 2 + 1), spread fs bs n l :=
      sum_le_sum_of_subset_of_nonneg (range_subset_range.mpr (by omega)) (fun n _ _ => spread_nonneg _ _ _ _)
    rw [sum_range_succ'] at h3
    have h4 : spread fs bs 0 l = 0 := by
      unfold spread
      rw [if_pos rfl]
    rwa [h4, add_zero] at h3
  have h3 : ∑ n ∈ range (bs / 2), spread fs bs (n + 1) l ≤
      ∑ k ∈ range (80 * (bs / 2)), g k + ∑ k ∈ range (80 * (bs / 2 + 1)), g k := by
    refine (sum_le_sum (fun n _ => h1 n)).trans ?_
    rw [sum_add_distrib, sum_blocks]
    apply add_le_add_right
    rw [← sum_blocks, sum_range_succ' (n := bs / 2)]
    have : 0 ≤ ∑ d ∈ range 80, g (80 * 0 + d) := sum_nonneg (fun d _ => g0 _)
    linarith
  have h4 : ∀ N, ∑ k ∈ range N, g k ≤ 2.05 / h + 2.1 := by
    intro N
    rw [← hg]
    exact pitchBump_sum hh l N
  have h5 : 2.05 / h = 164 * bs / fs := by
    rw [← hhd]
    field_simp
    norm_num
  have h6 := h4 (80 * (bs / 2))
  have h7 := h4 (80 * (bs / 2 + 1))
  rw [h5] at h6 h7
  have h8 : (328 : ℝ) * bs / fs = 164 * bs / fs + 164 * bs / fs := by ring
  rw [h8]
  norm_num at h6 h7 ⊢
  linarith

/-- The largest value a log-frequency spectrum can have. -/
noncomputable def specMax (fs : Int) (bs : Nat) : ℝ := bs * (328 * bs / fs + 4.2)

theorem audible_bounds (rollon : ℝ) (bs : Nat) (buf : List ℝ) (n : Nat) :
    0 ≤ audible rollon bs buf n ∧ audible rollon bs buf n ≤ bs := by
  have h0 : (0 : ℝ) ≤ bs := Nat.cast_nonneg _
  have hm : 0 ≤ magn bs buf n ∧ magn bs buf n ≤ bs := by
    unfold magn
    exact ⟨le_min h0 (Real.sqrt_nonneg _), min_le_left _ _⟩
  unfold audible rolled
  split_ifs
  · exact ⟨le_refl _, h0⟩
  · exact hm
  · exact ⟨le_refl _, h0⟩

theorem logSpec_bounds {fs : Int} (hfs : 0 < fs) {bs : Nat} (hb : 0 < bs) (rollon : ℝ) (buf : List ℝ) (l : Nat) :
    0 ≤ logSpec fs bs rollon buf l ∧ logSpec fs bs rollon buf l ≤ specMax fs bs := by
  unfold logSpec specMax
  constructor
  · exact sum_nonneg (fun n _ => mul_nonneg (audible_bounds _ _ _ _).1 (spread_nonneg _ _ _ _))
  · have h1 : ∑ n ∈ range (bs / 2), audible rollon bs buf n * spread fs bs n l ≤
        ∑ n ∈ range (bs / 2), bs * spread fs bs n l :=
      sum_le_sum (fun n _ => mul_le_mul_of_nonneg_right (audible_bounds _ _ _ _).2 (spread_nonneg _ _ _ _))
    rw [← mul_sum] at h1
    exact h1.trans (mul_le_mul_of_nonneg_left (spread_sum hfs hb l) (Nat.cast_nonneg _))

/-! ### Tuning and whitening -/

theorem shifted_bounds {f : Nat → ℝ} {M : ℝ} (h : ∀ l, 0 ≤ f l ∧ f l ≤ M) (τ : ℝ) (l : Nat) :
    0 ≤ shifted τ f l ∧ shifted τ f l ≤ M := by
  refine ⟨shifted_nonneg (fun l => (h l).1) τ l, ?_⟩
  unfold shifted
  split_ifs
  · unfold lerp
    have h1 := Int.fract_nonneg ((l : ℝ) + 3 * τ)
    have h2 := (Int.fract_lt_one ((l : ℝ) + 3 * τ)).le
    have h3 := mul_le_mul_of_nonneg_left (h ⌊(l : ℝ) + 3 * τ⌋.toNat).2 (sub_nonneg.mpr h2)
    have h4 := mul_le_mul_of_nonneg_left (h (⌊(l : ℝ) + 3 * τ⌋ + 1).toNat).2 h1
    linarith
  · exact (h 0).1.trans (h 0).2

theorem weight_ge (i : Nat) : 1 / 256 ≤ weight i := by
  have h1 : ∀ j, window j ≤ 1 := by
    intro j
    unfold window
    have := Real.neg_one_le_cos (2 * Real.pi * j / 18)
    norm_num
    linarith
  have h2 : ∑ j ∈ range 19, window j ≤ 19 := by
    have := sum_le_sum (fun j (_ : j ∈ range 19) => h1 j)
    simpa using this
  have h3 : 0.08 ≤ window i := by
    unfold window
    have := Real.cos_le_one (2 * Real.pi * i / 18)
    norm_num
    linarith
  unfold weight
  rw [div_le_div_iff₀ (by norm_num) window_sum_pos]
  norm_num at h3
  linarith

/-- A value is at most sixteen standard deviations above the mean. -/
theorem deviation_ge (v : Nat → ℝ) {j : Nat} (hj : j < 256) : |v j - mean v j| ≤ 16 * deviation v j := by
  have h1 : (v j - mean v j) ^ 2 * (1 / 256) ≤ mean (fun l => (v l - mean v l) ^ 2) j := by
    have h2 : (v j - mean v j) ^ 2 * weight (max 9 (min j 246) + 9 - j) ≤ mean (fun l => (v l - mean v l) ^ 2) j := by
      have hmem : max 9 (min j 246) + 9 - j ∈ range 19 := by
        rw [mem_range]
        omega
      have := single_le_sum (f := fun m => (v (max 9 (min j 246) + 9 - m) - mean v (max 9 (min j 246) + 9 - m)) ^ 2 * weight m)
        (fun m _ => mul_nonneg (sq_nonneg _) (weight_pos m).le) hmem
      have e : max 9 (min j 246) + 9 - (max 9 (min j 246) + 9 - j) = j := by omega
      beta_reduce at this
      rw [e] at this
      exact this
    exact (mul_le_mul_of_nonneg_left (weight_ge _) (sq_nonneg _)).trans h2
  unfold deviation
  have h3 := Real.sqrt_le_sqrt h1
  have h4 : Real.sqrt ((v j - mean v j) ^ 2 * (1 / 256)) = |v j - mean v j| / 16 := by
    rw [show (v j - mean v j) ^ 2 * (1 / 256) = ((v j - mean v j) / 16) ^ 2 by ring, Real.sqrt_sq_eq_abs, abs_div]
    norm_num
  rw [h4] at h3
  linarith

theorem whitened_bounds {w : ℝ} (h0 : 0 ≤ w) (h1 : w ≤ 1) {v : Nat → ℝ} {M : ℝ} (h : ∀ l, 0 ≤ v l ∧ v l ≤ M) {j : Nat}
    (hj : j < 256) : 0 ≤ whitened w v j ∧ whitened w v j ≤ max M 16 := by
  have hm : 0 ≤ mean v j := mean_nonneg (fun l => (h l).1) j
  have hv := h j
  have hM : 0 ≤ M := hv.1.trans hv.2
  have hd := deviation_ge v hj
  unfold whitened
  split_ifs with hp
  · have hpw : 0 < deviation v j ^ w := Real.rpow_pos_of_pos hp w
    refine ⟨div_nonneg (le_max_left _ _) hpw.le, ?_⟩
    rw [div_le_iff₀ hpw]
    rcases le_total 1 (deviation v j) with h2 | h2
    · have h3 : 1 ≤ deviation v j ^ w := Real.one_le_rpow h2 h0
      have h4 : max 0 (v j - mean v j) ≤ M := max_le hM (by linarith)
      have h5 : M * 1 ≤ max M 16 * deviation v j ^ w :=
        mul_le_mul (le_max_left _ _) h3 (by norm_num) (hM.trans (le_max_left _ _))
      linarith
    · have h3 : deviation v j ≤ deviation v j ^ w := by
        have := Real.rpow_le_rpow_of_exponent_ge hp h2 h1
        rwa [Real.rpow_one] at this
      have h4 : max 0 (v j - mean v j) ≤ 16 * deviation v j :=
        max_le (by positivity) ((le_abs_self _).trans hd)
      have h5 : 16 * deviation v j ≤ max M 16 * deviation v j ^ w :=
        mul_le_mul (le_max_right _ _) h3 hp.le (hM.trans (le_max_left _ _))
      linarith
  · exact ⟨hv.1, hv.2.trans (le_max_left _ _)⟩

/-! ### Notes -/

theorem norm_bound {b : List ℝ} {B : ℝ} (h : ∀ l, l < 256 → 0 ≤ b.getD l 0 ∧ b.getD l 0 ≤ B) :
    ∑ l ∈ range 256, b.getD l 0 ^ 2 ≤ (16 * B) ^ 2 := by
  have h1 : ∀ l ∈ range 256, b.getD l 0 ^ 2 ≤ B ^ 2 := by
    intro l hl
    have := h l (mem_range.mp hl)
    exact pow_le_pow_left₀ this.1 this.2 2
  have h2 := sum_le_sum h1
  rw [sum_const, card_range, nsmul_eq_mul] at h2
  refine h2.trans (le_of_eq ?_)
  push_cast
  ring

/-- No note is stronger than the spectrum as a whole, whether the solver gives up or not. -/
theorem nnlsNotes_bound {s : ℝ} (hs : 0 ≤ s) {dict : List ℝ} (hd : dict.length = nNote * 84) (junk : Nnls.St ℝ)
    {b : List ℝ} (hb : b.length = nNote)
    (hP : ∀ t l, t < 84 → l < nNote → dict.getD (t * nNote + l) 0 = profile s t l) {B : ℝ} (hB : 0 ≤ B)
    (h : ∑ l ∈ range 256, b.getD l 0 ^ 2 ≤ B ^ 2) {r : Notes ℝ}
    (hr : nnlsNotes exactFns dict junk b
        { semitones := [], chroma := List.replicate 12 0, basschroma := List.replicate 12 0 } = .ok r) (t : Nat) :
    r.semitones.getD t 0 ≤ B := by
  obtain ⟨cd, ret, r', e1, p1, e2, e3, h1, h2, h3, h4⟩ := nnlsNotes_exact hd junk hb
  rw [hr] at e3
  cases e3
  have hn : nNote = 256 := rfl
  by_cases ht : t ∈ heard b
  · obtain ⟨j, hj, e⟩ := List.mem_iff_getElem.mp ht
    have hsj : (heard b)[j]? = some t := by rw [List.getElem?_eq_getElem hj, e]
    rw [h3 j t hsj]
    obtain ⟨ret', f1, f2, f3⟩ := Nnls.C100_coefficients nNote (heard b).length (by omega) (by omega)
      (problem exactFns cd b junk) junk.up (by
        intro l j g1 g2 g3 g4
        obtain ⟨t', ht'⟩ : ∃ s, (heard b)[j - 1]? = some s := getElem?_some_of_lt (by omega)
        have hs84 := ((mem_heard b t').mp (List.mem_of_getElem? ht')).1
        have := problem_a junk p1 ht' g1 g2
        rw [Nat.sub_add_cancel g3, hP t' (l - 1) hs84 (by omega)] at this
        rw [this]
        exact profile_nonneg hs _ _)
    rw [e2] at f1
    cases f1
    have h84 := ((mem_heard b t).mp ht).1
    have g1 := f3 (j + 1) (by omega) (by omega)
    have g2 : ((problem exactFns cd b junk).a (3 * (t + 1) + 1) (j + 1) * ret.x (j + 1)) ^ 2 ≤
        ∑ l ∈ Icc 1 nNote, ((problem exactFns cd b junk).a l (j + 1) * ret.x (j + 1)) ^ 2 :=
      single_le_sum (f := fun l => ((problem exactFns cd b junk).a l (j + 1) * ret.x (j + 1)) ^ 2)
        (fun l _ => sq_nonneg _) (by rw [mem_Icc]; omega)
    have ha := problem_a junk p1 hsj (l := 3 * (t + 1) + 1) (by omega) (by omega)
    rw [Nat.add_sub_cancel, hP t _ h84 (by omega)] at ha
    have hd1 := profile_diag hs t
    rw [ha] at g2
    have hb2 : ∑ l ∈ Icc 1 nNote, (problem exactFns cd b junk).b l ^ 2 = ∑ l ∈ range 256, b.getD l 0 ^ 2 := by
      symm
      apply sum_bij (fun l _ => l + 1)
      · intro l hl
        simp only [mem_range, mem_Icc] at *
        omega
      · intro i _ j _ e
        omega
      · intro l hl
        simp only [mem_Icc] at hl
        exact ⟨l - 1, by simp only [mem_range]; omega, by omega⟩
      · intro l _
        have hb : (problem exactFns cd b junk).b (l + 1) = b.getD l 0 := by
          change b.getD (l + 1 - 1) (exactFns.lit 0) = _
          rw [Nat.add_sub_cancel, ex_lit]
          push_cast
          rfl
        rw [hb]
    rw [hb2] at g1
    have hx0 := f2 (j + 1) (by omega) (by omega)
    have g3 : (profile s t (3 * (t + 1)) * ret.x (j + 1)) ^ 2 ≤ B ^ 2 := (g2.trans g1).trans h
    have g4 := abs_le_of_sq_le_sq g3 hB
    have g5 : 1 * ret.x (j + 1) ≤ profile s t (3 * (t + 1)) * ret.x (j + 1) := mul_le_mul_of_nonneg_right hd1 hx0
    linarith [le_abs_self (profile s t (3 * (t + 1)) * ret.x (j + 1))]
  · rw [h4 t ht]
    exact hB

theorem notesOf_bound {p : Base ℝ T} (hd : p.dict.length = nNote * 84) (hs : 0 ≤ p.params.s)
    (hP : ∀ t l, t < 84 → l < nNote → p.dict.getD (t * nNote + l) 0 = profile p.params.s t l) (junk : Nnls.St ℝ)
    {b : List ℝ} (hb : b.length = nNote) {B : ℝ} (hB : 0 ≤ B)
    (h : ∀ l, l < 256 → 0 ≤ b.getD l 0 ∧ b.getD l 0 ≤ B) {r : Notes ℝ} (hr : notesOf exactFns p junk b = .ok r)
    (t : Nat) : r.semitones.getD t 0 ≤ 16 * B := by
  unfold notesOf at hr
  rw [copy_eq exactFns hb, bind_ok] at hr
  simp only [ex_lit, Rat.cast_zero, ex_lt, ex_eq, decide_eq_true_eq] at hr
  by_cases hany : (b.any fun x => decide (0 < x)) = true
  · rw [if_pos hany] at hr
    by_cases hu : p.params.useNNLS = 0
    · rw [if_pos hu] at hr
      obtain ⟨r', e, h1, h2, h3⟩ := plainNotes_exact hb
      have e' := e.symm.trans hr
      cases e'
      by_cases ht : t < 84
      · rw [h3 t ht]
        have g1 := (h (3 * t + 2) (by omega)).2
        have g2 := (h (3 * t + 3) (by omega)).2
        have g3 := (h (3 * t + 4) (by omega)).2
        linarith
      · rw [getD_length _ (by omega)]
        linarith
    · rw [if_neg hu] at hr
      exact nnlsNotes_bound hs hd junk hb hP (by linarith) (norm_bound h) hr t
  · rw [if_neg hany] at hr
    cases hr
    refine (getD_replicate_zero 84 t).le.trans ?_
    linarith

/-- The windows weigh with numbers between zero and one. -/
theorem windows_unit : ∀ t : Nat, t < 84 → 0 ≤ treblewindow.getD t 0 ∧ treblewindow.getD t 0 ≤ 1 ∧
    0 ≤ basswindow.getD t 0 ∧ basswindow.getD t 0 ≤ 1 := by
  decide +kernel

theorem foldNotes_bound {w : List Rat} (hw : ∀ t, t < 84 → 0 ≤ w.getD t 0 ∧ w.getD t 0 ≤ 1) {sem : List ℝ} {B : ℝ}
    (h : ∀ t, 0 ≤ sem.getD t 0 ∧ sem.getD t 0 ≤ B) {c : Nat} (hc : c < 12) :
    0 ≤ foldNotes w sem c ∧ foldNotes w sem c ≤ 7 * B := by
  have hw' : ∀ t, t < 84 → (0 : ℝ) ≤ ((w.getD t 0 : Rat) : ℝ) ∧ ((w.getD t 0 : Rat) : ℝ) ≤ 1 := by
    intro t ht
    exact ⟨by exact_mod_cast (hw t ht).1, by exact_mod_cast (hw t ht).2⟩
  unfold foldNotes
  constructor
  · apply sum_nonneg
    intro t ht
    rw [mem_filter, mem_range] at ht
    exact mul_nonneg (h t).1 (hw' t ht.1).1
  · have h1 : ∑ t ∈ (range 84).filter (fun t => t % 12 = c), sem.getD t 0 * ((w.getD t 0 : Rat) : ℝ) ≤
        ∑ t ∈ (range 84).filter (fun t => t % 12 = c), B := by
      apply sum_le_sum
      intro t ht
      rw [mem_filter, mem_range] at ht
      exact (mul_le_of_le_one_right (h t).1 (hw' t ht.1).2).trans (h t).2
    rw [sum_const, nsmul_eq_mul] at h1
    have h2 : ((range 84).filter (fun t => t % 12 = c)).card = 7 := by
      have : ∀ c, c < 12 → ((range 84).filter (fun t => t % 12 = c)).card = 7 := by decide +kernel
      exact this c hc
    rw [h2] at h1
    exact_mod_cast h1

end JKD.Chroma
