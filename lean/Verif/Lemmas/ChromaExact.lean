import Verif.Lemmas.ChromaReal
import Mathlib.Algebra.BigOperators.Ring.Finset
import Mathlib.Tactic.Linarith
/-
The note dictionary, the chroma vectors and the approximate transcription in exact arithmetic.
-/

namespace JKD.Chroma

open Finset

/-! ### Loops that add -/

/-- The code adds `δ` to an array of `n` numbers. -/
def Adds (n : Nat) (δ : Nat → ℝ) (f : List ℝ → Run (List ℝ)) : Prop :=
  ∀ v : List ℝ, v.length = n → ∃ v', f v = .ok v' ∧ v'.length = n ∧ ∀ q, v'.getD q 0 = v.getD q 0 + δ q

theorem adds_loop {n k : Nat} {δ : Nat → Nat → ℝ} {body : Nat → List ℝ → Run (List ℝ)}
    (h : ∀ i, i < k → Adds n (δ i) (body i)) : Adds n (fun q => ∑ i ∈ range k, δ i q) (loop body k) := by
  intro v hv
  apply loop_inv (fun k (v' : List ℝ) => v'.length = n ∧ ∀ q, v'.getD q 0 = v.getD q 0 + ∑ i ∈ range k, δ i q)
    ⟨hv, by simp⟩
  rintro i hi w ⟨h1, h2⟩
  obtain ⟨w', e, h3, h4⟩ := h i hi w h1
  refine ⟨w', e, h3, ?_⟩
  intro q
  rw [h4, h2, sum_range_succ]
  ring

theorem getD_set {v : List ℝ} {i q : Nat} (hi : i < v.length) (x : ℝ) :
    (v.set i x).getD q 0 = if q = i then x else v.getD q 0 := by
  rw [List.getD_eq_getElem?_getD, getElem?_set' hi]
  split_ifs <;> rfl

theorem adds_one {n i : Nat} (hi : i < n) (c : ℝ) : Adds n (fun q => if q = i then c else 0)
    (fun v => do
      let o ← rd v (i : Int)
      wr v (i : Int) (o + c)) := by
  intro v hv
  beta_reduce
  rw [rd_nat' 0 (by omega), bind_ok]
  refine ⟨_, wr_nat _ (by omega), by simpa using hv, ?_⟩
  intro q
  rw [getD_set (by omega)]
  split_ifs with h
  · rw [h]
  · ring

theorem adds_pure (n : Nat) : Adds n (fun _ => 0) (fun v => pure v) :=
  fun v hv => ⟨v, rfl, hv, by simp⟩

/-! ### The note dictionary -/

/-- The raised cosine of width three. -/
noncomputable def pulse (d : ℝ) : ℝ := if |d| ≤ 3 / 2 then (1 + Real.cos (2 * Real.pi * d / 3)) / 2 else 0

/-- What note `t` (0 is MIDI note 21) sounds like at bin `l`: twenty harmonics with geometrically decreasing
amplitudes, each a raised cosine around its place. -/
noncomputable def profile (s : ℝ) (t l : Nat) : ℝ :=
  ∑ h ∈ range 20, pulse ((l : ℝ) - (3 * (t + 1) + 36 * Real.logb 2 (h + 1))) * s ^ (h : ℝ)

theorem cospuls_exact (x c : ℝ) : cospuls exactFns x c (exactFns.lit nBPS) = pulse (x - c) := by
  unfold cospuls pulse
  simp only [ex_div, ex_one, ex_lit, ex_sub, ex_mul, ex_pi, ex_cos, ex_add, ex_le, ex_abs, decide_eq_true_eq, nBPS]
  push_cast
  rw [show (1 / 2 * 3 : ℝ) = 3 / 2 by norm_num]
  split_ifs
  · rw [show (x - c) * 2 * Real.pi * (1 / 3) = 2 * Real.pi * (x - c) / 3 by ring]
    ring
  · rfl

theorem dictionaryMatrix_exact (s : ℝ) {dm : List ℝ} (hd : dm.length = nNote * 84) :
    ∃ out, dictionaryMatrix exactFns s dm = .ok out ∧ out.length = nNote * 84 ∧
      ∀ t l, t < 84 → l < nNote → out.getD (t * nNote + l) 0 = dm.getD (t * nNote + l) 0 + profile s t l := by
  have key : Adds (nNote * 84) (fun q => ∑ t ∈ range (12 * 7), ∑ h ∈ range 20, ∑ l ∈ range nNote,
      if q = l + nNote * t then pulse ((l : ℝ) - (3 * (t + 1) + 36 * Real.logb 2 (h + 1))) * s ^ (h : ℝ) else 0)
      (dictionaryMatrix exactFns s) := by
    unfold dictionaryMatrix
    apply adds_loop
    intro t ht
    apply adds_loop
    intro h hh
    apply adds_loop
    intro l hl
    have hq : l + nNote * t < nNote * 84 := by
      have h1 : nNote * (t + 1) ≤ nNote * 84 := Nat.mul_le_mul_left _ (by omega)
      have h2 : nNote * (t + 1) = nNote * t + nNote := by ring
      omega
    have ed : (exactFns.sub (exactFns.add (exactFns.lit (l : Nat)) exactFns.one)
        (exactFns.add (exactFns.lit ((t + 1) * nBPS + 1 : Nat)) (exactFns.mul (exactFns.lit (nBPS * 12 : Nat))
          (exactFns.log2 (exactFns.lit (h + 1 : Nat)))))) =
        (l : ℝ) - (3 * (t + 1) + 36 * Real.logb 2 (h + 1)) := by
      simp only [ex_sub, ex_add, ex_lit, ex_one, ex_mul, ex_log2, nBPS]
      push_cast
      ring
    rw [ed]
    split_ifs with hc
    · convert adds_one hq _ using 4
      rw [ex_add, ex_mul, cospuls_exact]
      congr 2
      simp only [ex_sub] at ed
      rw [ed]
      simp only [ex_pow, ex_lit]
      push_cast
      rfl
    · convert adds_pure (nNote * 84) using 2 with q
      split_ifs
      · simp only [ex_lt, ex_abs, ex_lit, decide_eq_true_eq, not_lt] at hc
        push_cast at hc
        unfold pulse
        rw [if_neg (by linarith), zero_mul]
      · rfl
  obtain ⟨out, e, hl, h⟩ := key dm hd
  refine ⟨out, e, hl, ?_⟩
  intro t l ht hl
  rw [h]
  refine congrArg (dm.getD (t * nNote + l) 0 + ·) ?_
  beta_reduce
  rw [sum_eq_single t]
  · unfold profile
    apply sum_congr rfl
    intro h _
    rw [sum_eq_single l]
    · rw [if_pos (by ring)]
    · intro b _ hb
      rw [if_neg (by rw [Nat.mul_comm]; omega)]
    · intro h
      exact absurd (mem_range.mpr hl) h
  · intro b hb hbt
    apply sum_eq_zero
    intro h _
    apply sum_eq_zero
    intro b' hb'
    rw [if_neg]
    rw [mem_range] at hb'
    intro he
    apply hbt
    have h1 : (t * nNote + l) / nNote = t := by
      rw [Nat.mul_comm, Nat.mul_add_div (by decide), Nat.div_eq_of_lt hl, Nat.add_zero]
    have h2 : (b' + nNote * b) / nNote = b := by
      rw [Nat.add_mul_div_left _ _ (by decide), Nat.div_eq_of_lt hb', Nat.zero_add]
    rw [he, h2] at h1
    exact h1
  · intro h
    exact absurd (mem_range.mpr (by omega)) h

theorem pulse_nonneg (d : ℝ) : 0 ≤ pulse d := by
  unfold pulse
  split_ifs
  · have := Real.neg_one_le_cos (2 * Real.pi * d / 3)
    linarith
  · exact le_refl 0

theorem pulse_zero : pulse 0 = 1 := by
  unfold pulse
  rw [if_pos (by norm_num)]
  norm_num

theorem profile_nonneg {s : ℝ} (hs : 0 ≤ s) (t l : Nat) : 0 ≤ profile s t l := by
  unfold profile
  apply sum_nonneg
  intro h _
  exact mul_nonneg (pulse_nonneg _) (Real.rpow_nonneg hs _)

theorem logb_nonneg' (h : Nat) : 0 ≤ Real.logb 2 ((h : ℝ) + 1) := by
  apply Real.logb_nonneg (by norm_num)
  have : (0 : ℝ) ≤ h := Nat.cast_nonneg h
  linarith

/-- A note is heard at its own place. -/
theorem profile_diag {s : ℝ} (hs : 0 ≤ s) (t : Nat) : 1 ≤ profile s t (3 * (t + 1)) := by
  unfold profile
  rw [sum_range_succ']
  have h0 : pulse (((3 * (t + 1) : Nat) : ℝ) - (3 * (t + 1) + 36 * Real.logb 2 (((0 : Nat) : ℝ) + 1))) *
      s ^ (((0 : Nat) : ℝ)) = 1 := by
    push_cast
    rw [zero_add, Real.logb_one, mul_zero, add_zero, sub_self, pulse_zero, Real.rpow_zero, one_mul]
  rw [h0]
  have := sum_nonneg (s := range 19) (f := fun k => pulse (((3 * (t + 1) : Nat) : ℝ) -
    (3 * (t + 1) + 36 * Real.logb 2 (((k + 1 : Nat) : ℝ) + 1))) * s ^ (((k + 1 : Nat) : ℝ)))
    (fun h _ => mul_nonneg (pulse_nonneg _) (Real.rpow_nonneg hs _))
  linarith

/-- A note is not heard below its own place. -/
theorem profile_below (s : ℝ) {t l : Nat} (h : l + 1 < 3 * (t + 1)) : profile s t l = 0 := by
  unfold profile
  apply sum_eq_zero
  intro k _
  have h1 := logb_nonneg' k
  have h2 : (l : ℝ) + 2 ≤ 3 * (t + 1) := by exact_mod_cast h
  unfold pulse
  rw [if_neg, zero_mul]
  rw [abs_of_nonpos (by linarith)]
  linarith

end JKD.Chroma
