import Verif.Lemmas.ChromaBlock
/-
The mapping from Fourier bins to log-frequency bins in exact arithmetic.
-/

namespace JKD.Chroma

open Finset

variable {T : Type}

/-! ### Specification -/

/-- The raised cosine that reaches from -1 to 1. -/
noncomputable def bump (y : ℝ) : ℝ := if |y| ≤ 1 then (1 + Real.cos (Real.pi * y)) / 2 else 0

/-- The frequency of log-frequency bin `l`: three bins to the semitone, from MIDI note 20. -/
noncomputable def binFreq (l : Nat) : ℝ :=
  if l < 255 then 440 * (2 : ℝ) ^ ((0.083333333333 : ℝ) * (20 + l / 3 - 69)) else 440 * (2 : ℝ) ^ ((0.083333 : ℝ) * 36)

/-- The share of frequency `x` that bin `l` gets: a raised cosine over the logarithm of frequency, a third of a
semitone to either side. -/
noncomputable def pitchBump (x : ℝ) (l : Nat) : ℝ :=
  if 0 < x then bump (36 * (Real.logb 2 x - Real.logb 2 (binFreq l))) / (Real.log 2 / 36 * x) else 0

/-- How much of Fourier bin `n` goes to log-frequency bin `l`: both are taken as raised cosines, and their product is
summed over 160 points of the Fourier bin.  Nothing of the constant part is used. -/
noncomputable def spread (fs : Int) (bs n l : Nat) : ℝ :=
  if n = 0 then 0 else
    ∑ d ∈ range 160, pitchBump ((n + d / 80 - 1) * (fs / bs)) l * bump (d / 80 - 1)

/-! ### The pieces -/

theorem cospuls_bump {w : ℝ} (hw : 0 < w) (x c : ℝ) : cospuls exactFns x c w = bump (2 * (x - c) / w) := by
  unfold cospuls bump
  simp only [ex_le, ex_abs, ex_sub, ex_mul, ex_lit, ex_div, ex_one, ex_cos, ex_pi, ex_add, decide_eq_true_eq]
  have h1 : |x - c| ≤ ((1 / 2 : Rat) : ℝ) * w ↔ |2 * (x - c) / w| ≤ 1 := by
    rw [abs_div, abs_mul, abs_of_pos hw, div_le_one hw]
    push_cast
    rw [abs_two]
    constructor <;> intro h <;> linarith
  by_cases h : |2 * (x - c) / w| ≤ 1
  · rw [if_pos (h1.mpr h), if_pos h]
    have h2 : (x - c) * ((2 : Rat) : ℝ) * Real.pi * (1 / w) = Real.pi * (2 * (x - c) / w) := by
      push_cast
      field_simp
    rw [h2]
    push_cast
    ring
  · rw [if_neg (fun h' => h (h1.mp h')), if_neg h]
    simp

theorem pitchCospuls_exact (x : ℝ) (l : Nat) :
    pitchCospuls exactFns x (binFreq l) (nBPS * 12) = pitchBump x l := by
  unfold pitchCospuls pitchBump
  simp only [ex_lt, ex_lit, ex_mul, ex_sub, ex_log2, ex_div, ex_log, decide_eq_true_eq, Rat.cast_zero]
  rw [cospuls_bump (by push_cast; norm_num)]
  have h1 : 2 * (((-((nBPS * 12 : Nat) : Rat) : Rat) : ℝ) * (Real.logb 2 (binFreq l) - Real.logb 2 x) - 0) / ((2 : Rat) : ℝ) =
      36 * (Real.logb 2 x - Real.logb 2 (binFreq l)) := by
    simp only [nBPS]
    push_cast
    ring
  rw [h1]
  simp only [nBPS]
  push_cast
  norm_num

theorem cqF_exact {l : Nat} (hl : l < 256) : (cqF exactFns)[l]? = some (binFreq l) := by
  unfold cqF binFreq
  by_cases h : l < 255
  · rw [List.getElem?_append_left (by simp [nBPS]; omega), List.getElem?_map, List.getElem?_range (by simp [nBPS]; omega),
      if_pos h]
    simp only [Option.map_some, ex_mul, ex_lit, ex_pow, ex_sub, ex_add, ex_div, ex_one, nBPS]
    have h2 : ((20 + l / 3 : Nat) : ℝ) + 1 / 3 * ((l % 3 : Nat) : ℝ) = 20 + (l : ℝ) / 3 := by
      have h3 : ((3 * (l / 3) + l % 3 : Nat) : ℝ) = (l : ℝ) := by rw [Nat.div_add_mod]
      push_cast at h3 ⊢
      linarith
    congr 2
    norm_num
    norm_num at h2
    rw [h2]
  · have : l = 255 := by omega
    subst this
    rw [List.getElem?_append_right (by simp [nBPS]), if_neg h]
    simp [nBPS]
    norm_num

theorem binFreq_pos (l : Nat) : 0 < binFreq l := by
  unfold binFreq
  split_ifs <;> positivity

theorem bump_nonneg (y : ℝ) : 0 ≤ bump y := by
  unfold bump
  split_ifs
  · have := Real.neg_one_le_cos (Real.pi * y)
    linarith
  · exact le_refl 0

theorem pitchBump_nonneg (x : ℝ) (l : Nat) : 0 ≤ pitchBump x l := by
  unfold pitchBump
  split_ifs with h
  · have : 0 < Real.log 2 := Real.log_pos (by norm_num)
    exact div_nonneg (bump_nonneg _) (by positivity)
  · exact le_refl 0

theorem spread_nonneg (fs : Int) (bs n l : Nat) : 0 ≤ spread fs bs n l := by
  unfold spread
  split_ifs
  · exact le_refl 0
  · exact sum_nonneg (fun d _ => mul_nonneg (pitchBump_nonneg _ _) (bump_nonneg _))

/-- Bins that fail the test for the generous neighbourhood get nothing anyway. -/
theorem far_zero {fs : Int} (hfs : 0 < fs) {bs : Nat} (hb : 0 < bs) {n l d : Nat} (hd : d < 160)
    (h : near exactFns (fftWidth exactFns fs bs) (binFreq l) (n * ((fs : ℝ) / bs)) = false) :
    pitchBump ((n + d / 80 - 1) * (fs / bs)) l = 0 := by
  have hc := binFreq_pos l
  have hδ : (0 : ℝ) < fs / bs := div_pos (by exact_mod_cast hfs) (by exact_mod_cast hb)
  have hw : fftWidth exactFns fs bs = 2 * ((fs : ℝ) / bs) := by
    unfold fftWidth
    simp only [ex_div, ex_mul, ex_lit]
    push_cast
    ring
  rw [hw] at h
  generalize (fs : ℝ) / bs = δ at *
  unfold near at h
  simp only [ex_lt, ex_add, ex_mul, ex_pow, ex_sub, ex_lit, ex_neg, Bool.and_eq_false_iff, decide_eq_false_iff_not,
    not_lt] at h
  push_cast at h
  unfold pitchBump
  by_cases hx : 0 < ((n : ℝ) + d / 80 - 1) * δ
  swap
  · rw [if_neg hx]
  rw [if_pos hx]
  have hd0 : (0 : ℝ) ≤ (d : ℝ) / 80 := by positivity
  have hd1 : (d : ℝ) / 80 < 2 := by
    have : (d : ℝ) < 160 := by exact_mod_cast hd
    linarith
  have hb0 : bump (36 * (Real.logb 2 (((n : ℝ) + d / 80 - 1) * δ) - Real.logb 2 (binFreq l))) = 0 := by
    unfold bump
    rw [if_neg]
    intro hy
    obtain ⟨hy1, hy2⟩ := abs_le.mp hy
    have hmul : ∀ e : ℝ, Real.logb 2 (binFreq l * (2 : ℝ) ^ e) = Real.logb 2 (binFreq l) + e := by
      intro e
      rw [Real.logb_mul hc.ne' (by positivity), Real.logb_rpow (by norm_num) (by norm_num)]
    rcases h with h | h
    · have h1 : binFreq l * (2 : ℝ) ^ (0.084 : ℝ) < ((n : ℝ) + d / 80 - 1) * δ := by
        norm_num at h ⊢
        nlinarith
      have h2 := Real.logb_lt_logb (b := 2) (by norm_num) (by positivity) h1
      rw [hmul] at h2
      norm_num at h2
      linarith
    · have h1 : ((n : ℝ) + d / 80 - 1) * δ < binFreq l * (2 : ℝ) ^ (-0.168 : ℝ) := by
        norm_num at h ⊢
        nlinarith
      have h2 := Real.logb_lt_logb (b := 2) (by norm_num) hx h1
      rw [hmul] at h2
      norm_num at h2
      linarith
  rw [hb0, zero_div]

theorem fftF_exact (fs : Int) {bs n : Nat} (hn : n < bs / 2) :
    (fftF exactFns fs bs)[n]? = some (n * ((fs : ℝ) / bs)) := by
  unfold fftF
  rw [List.getElem?_map, List.getElem?_range hn]
  simp

theorem oversampledF_exact (fs : Int) {bs i : Nat} (hi : i < 80 * bs / 2) :
    (oversampledF exactFns fs bs)[i]? = some ((i : ℝ) / 80 * ((fs : ℝ) / bs)) := by
  unfold oversampledF
  rw [List.getElem?_map, List.getElem?_range hi]
  simp
  ring

theorem fftActivation_exact {fs : Int} (hfs : 0 < fs) {bs : Nat} (hb : 4 ≤ bs) :
    ∃ act, fftActivation exactFns fs bs = .ok act ∧ ∀ d : Nat, d < 160 → act[d]? = some (bump ((d : ℝ) / 80 - 1)) := by
  have hδ : (0 : ℝ) < fs / bs := div_pos (by exact_mod_cast hfs) (by exact_mod_cast (by omega : 0 < bs))
  have hw : fftWidth exactFns fs bs = 2 * ((fs : ℝ) / bs) := by
    unfold fftWidth
    simp only [ex_div, ex_mul, ex_lit]
    push_cast
    ring
  unfold fftActivation
  obtain ⟨act, e, h⟩ := loop_inv (body := fun iOS acc => do
    let x ← rd (oversampledF exactFns fs bs) (iOS : Int)
    let f1 ← rd (fftF exactFns fs bs) 1
    pure (acc ++ [cospuls exactFns x f1 (fftWidth exactFns fs bs)])) (k := 2 * 80) (s := [])
    (fun i (acc : List ℝ) => acc = (List.range i).map (fun d : Nat => bump ((d : ℝ) / 80 - 1))) rfl (by
      rintro i hi acc rfl
      have h1 : rd (fftF exactFns fs bs) 1 = .ok (((1 : Nat) : ℝ) * ((fs : ℝ) / bs)) :=
        rd_nat (i := 1) (fftF_exact fs (by omega))
      rw [rd_nat (oversampledF_exact fs (by omega)), bind_ok, h1, bind_ok]
      refine ⟨_, rfl, ?_⟩
      rw [List.range_succ, List.map_append, cospuls_bump (by rw [hw]; linarith), hw]
      simp only [List.map_cons, List.map_nil]
      congr 3
      generalize (fs : ℝ) / bs = δ at *
      push_cast
      field_simp)
  refine ⟨act, e, ?_⟩
  intro d hd
  rw [h, List.getElem?_map, List.getElem?_range (by omega)]
  rfl

theorem index_unique {N n n' l l' : Nat} (hn : n < N) (hn' : n' < N) (h : n + N * l = n' + N * l') : n = n' ∧ l = l' := by
  have h1 : (n + N * l) / N = l := by
    rw [Nat.add_mul_div_left _ _ (by omega), Nat.div_eq_of_lt hn, Nat.zero_add]
  have h2 : (n' + N * l') / N = l' := by
    rw [Nat.add_mul_div_left _ _ (by omega), Nat.div_eq_of_lt hn', Nat.zero_add]
  have h3 : l = l' := by rw [← h1, h, h2]
  subst h3
  exact ⟨by omega, rfl⟩

theorem logFreqMatrix_exact {fs : Int} (hfs : 0 < fs) {bs size : Nat} (hb : 4 ≤ bs) (hs : nNote * (bs / 2) ≤ size) :
    ∃ out, logFreqMatrix exactFns fs bs size = .ok out ∧ out.length = size ∧
      ∀ n l, n < bs / 2 → l < 256 → out.getD (n + bs / 2 * l) 0 = spread fs bs n l := by
  obtain ⟨act, ea, ha⟩ := fftActivation_exact hfs hb
  unfold logFreqMatrix
  simp only [ea, bind_ok]
  rw [fftF_length, cqF_length]
  obtain ⟨o1, e1, l1, c1⟩ := loop_inv (body := fun i out => wr out (i : Int) (exactFns.lit 0))
    (k := bs / 2 * nNote) (s := List.replicate size (exactFns.lit 0))
    (fun _ (out : List ℝ) => out.length = size ∧ ∀ q, out.getD q 0 = 0) ⟨by simp, by
      intro q
      simp only [ex_lit, Rat.cast_zero]
      exact getD_replicate_zero _ _⟩ (by
      rintro i hi out ⟨hl, hc⟩
      have hi' : i < out.length := by rw [hl]; nlinarith
      refine ⟨_, wr_nat _ hi', by simpa using hl, ?_⟩
      intro q
      rw [getD_set hi', hc]
      simp)
  rw [e1, bind_ok]
  have hidx : ∀ t l, t < bs / 2 - 1 → l < nNote → t + 1 + bs / 2 * l < size := by
    intro t l ht hl
    have h6 : bs / 2 * (l + 1) ≤ bs / 2 * nNote := Nat.mul_le_mul_left _ hl
    have h7 : bs / 2 * nNote = nNote * (bs / 2) := by ring
    have h8 : bs / 2 * (l + 1) = bs / 2 * l + bs / 2 := by ring
    omega
  have key : Adds size (fun q => ∑ t ∈ range (bs / 2 - 1), ∑ l ∈ range nNote, ∑ d ∈ range 160,
      if q = t + 1 + bs / 2 * l then pitchBump ((((t + 1 : Nat) : ℝ) + d / 80 - 1) * (fs / bs)) l * bump (d / 80 - 1) else 0)
      (loop (fun t out =>
        loop (fun iCQ out => do
          let c ← rd (cqF exactFns) (iCQ : Int)
          let f ← rd (fftF exactFns fs bs) (t + 1 : Nat)
          if near exactFns (fftWidth exactFns fs bs) c f then
            loop (fun d out => do
              let x ← rd (oversampledF exactFns fs bs) (80 * (t + 1) - 80 + d : Nat)
              let a ← rd act (d : Int)
              let o ← rd out (t + 1 + bs / 2 * iCQ : Nat)
              wr out (t + 1 + bs / 2 * iCQ : Nat)
                (exactFns.add o (exactFns.mul (pitchCospuls exactFns x c (nBPS * 12)) a))) 160 out
          else pure out) nNote out) (bs / 2 - 1)) := by
    apply adds_loop
    intro t ht
    apply adds_loop
    intro l hl
    have hl' : l < 256 := hl
    simp only [rd_nat (cqF_exact hl'), bind_ok, rd_nat (fftF_exact fs (show t + 1 < bs / 2 by omega))]
    by_cases hn : near exactFns (fftWidth exactFns fs bs) (binFreq l) (((t + 1 : Nat) : ℝ) * ((fs : ℝ) / bs)) = true
    · simp only [if_pos hn]
      apply adds_loop
      intro d hd
      simp only [rd_nat (oversampledF_exact fs (show 80 * (t + 1) - 80 + d < 80 * bs / 2 by omega)), bind_ok]
      have hx : (((80 * (t + 1) - 80 + d : Nat) : ℝ)) / 80 * ((fs : ℝ) / bs) =
          (((t + 1 : Nat) : ℝ) + d / 80 - 1) * (fs / bs) := by
        rw [show 80 * (t + 1) - 80 + d = 80 * t + d by omega]
        push_cast
        ring
      rw [hx, pitchCospuls_exact]
      simp only [rd_nat (ha d hd), bind_ok]
      exact adds_one (hidx t l ht hl) _
    · have hn' := Bool.eq_false_iff.mpr hn
      simp only [if_neg hn]
      convert adds_pure size using 2 with q
      apply sum_eq_zero
      intro d hd
      rw [far_zero hfs (by omega) (mem_range.mp hd) hn', zero_mul, ite_self]
  obtain ⟨out, e, hl, h⟩ := key o1 l1
  refine ⟨out, e, hl, ?_⟩
  intro n l hn hl'
  rw [h, c1, zero_add]
  beta_reduce
  unfold spread
  by_cases h0 : n = 0
  · rw [if_pos h0]
    apply sum_eq_zero
    intro t ht
    apply sum_eq_zero
    intro l' _
    apply sum_eq_zero
    intro d _
    rw [if_neg]
    intro he
    have := (index_unique (by omega) (by have := mem_range.mp ht; omega) he).1
    omega
  · rw [if_neg h0, sum_eq_single (n - 1)]
    · rw [sum_eq_single l]
      · apply sum_congr rfl
        intro d _
        rw [show n - 1 + 1 = n by omega, if_pos rfl]
      · intro b _ hb
        apply sum_eq_zero
        intro d _
        rw [if_neg]
        intro he
        rw [show n - 1 + 1 = n by omega] at he
        exact hb (index_unique hn hn he).2.symm
      · intro h'
        exact absurd (mem_range.mpr hl') h'
    · intro t ht htn
      apply sum_eq_zero
      intro l' _
      apply sum_eq_zero
      intro d _
      rw [if_neg]
      intro he
      have := (index_unique hn (by have := mem_range.mp ht; omega) he).1
      omega
    · intro h'
      exact absurd (mem_range.mpr (by omega)) h'

end JKD.Chroma
