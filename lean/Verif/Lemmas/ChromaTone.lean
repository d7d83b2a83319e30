import Verif.Lemmas.ChromaScale
import Mathlib.Analysis.SpecialFunctions.Log.Base
import Mathlib.Analysis.SpecialFunctions.Trigonometric.Bounds
import Mathlib.Analysis.Complex.ExponentialBounds
/-
The pitches of the log-frequency bins, and the spectrum of a pure tone of 440 Hz.
-/

namespace JKD.Chroma

open Finset

variable {T : Type}

/-- The pitch of a frequency on the MIDI scale. -/
noncomputable def midi (x : ℝ) : ℝ := 69 + 12 * Real.logb 2 (x / 440)

theorem midi_sub {x y : ℝ} (hx : 0 < x) (hy : 0 < y) : midi x - midi y = 12 * (Real.logb 2 x - Real.logb 2 y) := by
  unfold midi
  rw [Real.logb_div hx.ne' (by norm_num), Real.logb_div hy.ne' (by norm_num)]
  ring

theorem midi_binFreq {l : Nat} (hl : l < 255) : midi (binFreq l) = 69 + 0.999999999996 * (l / 3 - 49) := by
  unfold midi binFreq
  rw [if_pos hl, mul_div_cancel_left₀ _ (by norm_num), Real.logb_rpow (by norm_num) (by norm_num)]
  ring

theorem midi_binFreq_top : midi (binFreq 255) = 69 + 35.999856 := by
  unfold midi binFreq
  rw [if_neg (by norm_num), mul_div_cancel_left₀ _ (by norm_num), Real.logb_rpow (by norm_num) (by norm_num)]
  norm_num

/-- The pitches of the bins are what they are meant to be, up to a fifth of a thousandth of a semitone. -/
theorem midi_bin {l : Nat} (hl : l < 256) : |midi (binFreq l) - (20 + l / 3)| ≤ 0.0002 := by
  by_cases h : l < 255
  · rw [midi_binFreq h]
    have h0 : (0 : ℝ) ≤ l := Nat.cast_nonneg l
    have h1 : (l : ℝ) ≤ 255 := by exact_mod_cast (by omega : l ≤ 255)
    rw [abs_le]
    constructor <;> linarith
  · have : l = 255 := by omega
    subst this
    rw [midi_binFreq_top]
    rw [abs_le]
    norm_num

theorem pitchBump_midi {x : ℝ} (hx : 0 < x) (l : Nat) :
    pitchBump x l = bump (3 * (midi x - midi (binFreq l))) / (Real.log 2 / 36 * x) := by
  unfold pitchBump
  rw [if_pos hx, midi_sub hx (binFreq_pos l)]
  congr 2
  ring

theorem bump_far {y : ℝ} (h : 1 ≤ |y|) : bump y = 0 := by
  unfold bump
  split_ifs with h1
  · have h2 : |y| = 1 := le_antisymm h1 h
    rcases abs_eq (by norm_num : (0 : ℝ) ≤ 1) |>.mp h2 with e | e <;> rw [e] <;> simp
  · rfl

theorem bump_anti {y z : ℝ} (h : |y| ≤ |z|) : bump z ≤ bump y := by
  by_cases hz : |z| ≤ 1
  · unfold bump
    rw [if_pos hz, if_pos (h.trans hz)]
    have hp := Real.pi_pos
    have h1 : Real.cos (Real.pi * z) ≤ Real.cos (Real.pi * y) := by
      rw [← Real.cos_abs (Real.pi * z), ← Real.cos_abs (Real.pi * y), abs_mul, abs_mul, abs_of_pos hp]
      apply Real.cos_le_cos_of_nonneg_of_le_pi
      · positivity
      · nlinarith
      · exact mul_le_mul_of_nonneg_left h hp.le
    linarith
  · rw [bump_far (le_of_not_ge hz)]
    exact bump_nonneg y

theorem bump_pos {y : ℝ} (h : |y| < 1) : 0 < bump y := by
  unfold bump
  rw [if_pos h.le]
  have hp := Real.pi_pos
  have h1 : Real.cos Real.pi < Real.cos |Real.pi * y| := by
    apply Real.cos_lt_cos_of_nonneg_of_le_pi (abs_nonneg _) le_rfl
    rw [abs_mul, abs_of_pos hp]
    nlinarith
  rw [Real.cos_abs, Real.cos_pi] at h1
  linarith

/-! ### Where a Fourier bin goes -/

/-- A Fourier bin reaches a log-frequency bin only by a frequency less than one Fourier bin away whose pitch is less
than a third of a semitone from that of the bin. -/
theorem spread_pos_near {fs : Int} {bs n l : Nat} (hfs : 0 < fs) (hb : 0 < bs) (h : 0 < spread fs bs n l) :
    ∃ x : ℝ, 0 < x ∧ |x - n * (fs / bs)| < fs / bs ∧ |midi x - midi (binFreq l)| < 1 / 3 := by
  have hδ : (0 : ℝ) < fs / bs := div_pos (by exact_mod_cast hfs) (by exact_mod_cast hb)
  unfold spread at h
  split_ifs at h with hn
  · exact absurd h (lt_irrefl _)
  · obtain ⟨d, hd, hpos⟩ := exists_lt_of_sum_lt (s := range 160) (f := fun _ => (0 : ℝ))
      (g := fun d : Nat => pitchBump ((n + d / 80 - 1) * (fs / bs)) l * bump (d / 80 - 1)) (by simpa using h)
    have hb1 : bump ((d : ℝ) / 80 - 1) ≠ 0 := fun e => by rw [e, mul_zero] at hpos; exact lt_irrefl _ hpos
    have hp1 : pitchBump ((n + d / 80 - 1) * (fs / bs)) l ≠ 0 := fun e => by
      rw [e, zero_mul] at hpos; exact lt_irrefl _ hpos
    have hx : 0 < ((n : ℝ) + d / 80 - 1) * (fs / bs) := by
      by_contra hx
      exact hp1 (by unfold pitchBump; rw [if_neg hx])
    refine ⟨_, hx, ?_, ?_⟩
    · have h1 : |(d : ℝ) / 80 - 1| < 1 := by
        by_contra h1
        exact hb1 (bump_far (le_of_not_gt h1))
      rw [show ((n : ℝ) + d / 80 - 1) * (fs / bs) - n * (fs / bs) = ((d : ℝ) / 80 - 1) * (fs / bs) by ring, abs_mul,
        abs_of_pos hδ]
      nlinarith
    · rw [pitchBump_midi hx] at hp1
      have h1 : |3 * (midi (((n : ℝ) + d / 80 - 1) * (fs / bs)) - midi (binFreq l))| < 1 := by
        by_contra h1
        exact hp1 (by rw [bump_far (le_of_not_gt h1), zero_div])
      rw [abs_mul, abs_of_pos (by norm_num : (0 : ℝ) < 3)] at h1
      linarith

/-- Every Fourier bin between the lowest and the highest log-frequency bin reaches one. -/
theorem spread_covers {fs : Int} {bs n : Nat} (hfs : 0 < fs) (hb : 0 < bs)
    (h1 : midi (binFreq 0) ≤ midi (n * (fs / bs))) (h2 : midi (n * (fs / bs)) ≤ midi (binFreq 255)) (hn : 0 < n) :
    ∃ l, l < 256 ∧ |midi (n * (fs / bs)) - midi (binFreq l)| < 1 / 4 ∧ 0 < spread fs bs n l := by
  have hδ : (0 : ℝ) < fs / bs := div_pos (by exact_mod_cast hfs) (by exact_mod_cast hb)
  have hn' : (0 : ℝ) < n := by exact_mod_cast hn
  have hx : (0 : ℝ) < n * (fs / bs) := mul_pos hn' hδ
  have key : ∃ l, l < 256 ∧ |midi (n * (fs / bs)) - midi (binFreq l)| < 1 / 4 := by
    generalize midi (n * (fs / bs)) = y at h1 h2
    have g1 := abs_le.mp (midi_bin (l := 0) (by omega))
    have g2 := abs_le.mp (midi_bin (l := 255) (by omega))
    norm_num at g1 g2
    have hz0 : 0 ≤ 3 * (y - 20) + 1 / 2 := by linarith
    have hz1 : 3 * (y - 20) + 1 / 2 < 256 := by linarith
    have hl : ⌊3 * (y - 20) + 1 / 2⌋₊ < 256 := (Nat.floor_lt hz0).mpr (by exact_mod_cast hz1)
    refine ⟨⌊3 * (y - 20) + 1 / 2⌋₊, hl, ?_⟩
    have g3 := abs_le.mp (midi_bin hl)
    have g4 := Nat.floor_le hz0
    have g5 := Nat.lt_floor_add_one (3 * (y - 20) + 1 / 2)
    rw [abs_lt]
    constructor <;> linarith
  obtain ⟨l, hl, hm⟩ := key
  refine ⟨l, hl, hm, ?_⟩
  unfold spread
  rw [if_neg (by omega)]
  apply sum_pos' (fun d _ => mul_nonneg (pitchBump_nonneg _ _) (bump_nonneg _))
  refine ⟨80, mem_range.mpr (by omega), ?_⟩
  have e : ((n : ℝ) + ((80 : Nat) : ℝ) / 80 - 1) * (fs / bs) = n * (fs / bs) := by norm_num
  rw [e, pitchBump_midi hx]
  apply mul_pos
  · apply div_pos
    · apply bump_pos
      rw [abs_mul, abs_of_pos (by norm_num : (0 : ℝ) < 3)]
      linarith
    · have : 0 < Real.log 2 := Real.log_pos (by norm_num)
      positivity
  · apply bump_pos
    norm_num

/-! ### Whitening and zeros -/

theorem mean_nonneg {v : Nat → ℝ} (h : ∀ l, 0 ≤ v l) (j : Nat) : 0 ≤ mean v j :=
  sum_nonneg (fun m _ => mul_nonneg (h _) (weight_pos m).le)

theorem mean_pos {v : Nat → ℝ} (h : ∀ l, 0 ≤ v l) {j q : Nat} (h1 : 9 ≤ q) (h2 : q ≤ 246) (h3 : j ≤ q + 9) (h4 : q ≤ j + 9)
    (hj : 0 < v j) : 0 < mean v q := by
  unfold mean
  apply sum_pos' (fun m _ => mul_nonneg (h _) (weight_pos m).le)
  refine ⟨q + 9 - j, mem_range.mpr (by omega), ?_⟩
  rw [show max 9 (min q 246) + 9 - (q + 9 - j) = j by omega]
  exact mul_pos hj (weight_pos _)

/-- The deviation is positive around a bin that is not zero but has a zero nine bins higher. -/
theorem deviation_pos {v : Nat → ℝ} (h : ∀ l, 0 ≤ v l) {j : Nat} (h1 : 9 ≤ j) (h2 : j ≤ 237) (hj : 0 < v j)
    (h0 : v (j + 9) = 0) : 0 < deviation v j := by
  unfold deviation
  apply Real.sqrt_pos.mpr
  apply mean_pos (j := j + 9) (fun l => sq_nonneg _) (by omega) (by omega) (by omega) (by omega)
  have h3 : 0 < mean v (j + 9) := mean_pos h (j := j) (by omega) (by omega) (by omega) (by omega) hj
  rw [h0]
  have : 0 - mean v (j + 9) ≠ 0 := by linarith
  positivity

theorem lerp_nonneg {f : Nat → ℝ} (h : ∀ l, 0 ≤ f l) (x : ℝ) : 0 ≤ lerp f x := by
  unfold lerp
  have h1 := Int.fract_nonneg x
  have h2 := Int.fract_lt_one x
  exact add_nonneg (mul_nonneg (by linarith) (h _)) (mul_nonneg h1 (h _))

theorem shifted_nonneg {f : Nat → ℝ} (h : ∀ l, 0 ≤ f l) (τ : ℝ) (l : Nat) : 0 ≤ shifted τ f l := by
  unfold shifted
  split_ifs
  · exact lerp_nonneg h _
  · exact le_rfl

/-- What a shifted spectrum has at a bin comes from within two bins. -/
theorem shifted_zero {τ : ℝ} (hτ : -2 ≤ ⌊3 * τ⌋ ∧ ⌊3 * τ⌋ ≤ 1) {f : Nat → ℝ} {l : Nat}
    (h : ∀ m, m ≤ l + 2 → l ≤ m + 2 → f m = 0) : shifted τ f l = 0 := by
  unfold shifted
  split_ifs with hl
  · unfold lerp
    have e : ⌊(l : ℝ) + 3 * τ⌋ = l + ⌊3 * τ⌋ := by
      rw [show ((l : ℝ) + 3 * τ) = ((l : ℤ) : ℝ) + 3 * τ by norm_num, Int.floor_intCast_add]
    rw [e, h _ (by omega) (by omega), h _ (by omega) (by omega)]
    ring
  · rfl

/-! ### A tone of 440 Hz -/

/-- The spectrum of a pure tone of 440 Hz at 1000 samples a second in blocks of 1000. -/
noncomputable def toneA (a : ℝ) : List ℝ := List.replicate 880 0 ++ a :: List.replicate 119 0

theorem toneA_length (a : ℝ) : (toneA a).length = 1000 := by
  unfold toneA
  rw [List.length_append, List.length_cons, List.length_replicate, List.length_replicate]

theorem toneA_get (a : ℝ) (i : Nat) : (toneA a).getD i 0 = if i = 880 then a else 0 := by
  unfold toneA
  rw [List.getD_eq_getElem?_getD]
  by_cases h : i < 880
  · rw [List.getElem?_append_left (by rw [List.length_replicate]; exact h), if_neg (by omega), List.getElem?_replicate]
    split_ifs <;> rfl
  · rw [List.getElem?_append_right (by rw [List.length_replicate]; omega), List.length_replicate]
    by_cases h' : i = 880
    · rw [if_pos h', h']
      rfl
    · rw [if_neg h', show i - 880 = i - 881 + 1 by omega, List.getElem?_cons_succ, List.getElem?_replicate]
      split_ifs
      · rfl
      · rfl

theorem toneA_raw {a : ℝ} (ha : 0 ≤ a) (n : Nat) : rawMagn (toneA a) n = if n = 440 then a else 0 := by
  unfold rawMagn
  rw [toneA_get, toneA_get, if_neg (show ¬ 2 * n + 1 = 880 by omega)]
  by_cases h : n = 440
  · rw [if_pos (by omega), if_pos h, zero_pow (by norm_num), add_zero, Real.sqrt_sq ha]
  · rw [if_neg (by omega), if_neg h]
    simp

theorem toneA_magn {a : ℝ} (ha : 0 ≤ a) (ha' : a ≤ 1000) (n : Nat) : magn 1000 (toneA a) n = if n = 440 then a else 0 := by
  change min ((1000 : Nat) : ℝ) (rawMagn (toneA a) n) = _
  rw [toneA_raw ha]
  split_ifs
  · exact min_eq_right (by exact_mod_cast ha')
  · exact min_eq_right (by norm_num)

theorem toneA_fits {a c : ℝ} (ha : 2 ≤ a) (ha' : a ≤ 1000) (h1 : 2 ≤ c * a) (h2 : c * a ≤ 1000) :
    Fits c 1000 (toneA a) where
  before := by
    intro n _
    rw [toneA_raw (by linarith)]
    split_ifs
    · exact_mod_cast ha'
    · norm_num
  after := by
    intro n _
    rw [toneA_raw (by linarith)]
    split_ifs
    · exact_mod_cast h2
    · norm_num
  silent := by
    constructor
    · intro _
      exact ⟨440, by norm_num, by rw [toneA_raw (by linarith), if_pos rfl]; exact h1⟩
    · intro _
      exact ⟨440, by norm_num, by rw [toneA_raw (by linarith), if_pos rfl]; exact ha⟩

theorem toneA_loud {a : ℝ} (ha : 2 ≤ a) (ha' : a ≤ 1000) : Loud 1000 (toneA a) :=
  ⟨440, by norm_num, by rw [toneA_magn (by linarith) ha', if_pos rfl]; exact ha⟩

theorem toneA_logSpec {a : ℝ} (ha : 2 ≤ a) (ha' : a ≤ 1000) (l : Nat) :
    logSpec 1000 1000 0 (toneA a) l = a * spread 1000 1000 440 l := by
  unfold logSpec
  rw [sum_eq_single 440]
  · unfold audible rolled
    rw [if_pos (toneA_loud ha ha'), if_neg (by norm_num), toneA_magn (by linarith) ha', if_pos rfl]
  · intro n _ hn
    unfold audible rolled
    rw [if_pos (toneA_loud ha ha'), if_neg (by norm_num), toneA_magn (by linarith) ha', if_neg hn, zero_mul]
  · intro h
    exact absurd (mem_range.mpr (by norm_num)) h

/-- Frequencies about 440 are within a twentieth of a semitone of A. -/
theorem midi_near {x : ℝ} (h1 : 439 ≤ x) (h2 : x ≤ 441) : |midi x - 69| ≤ 1 / 20 := by
  have hl2 := Real.log_two_gt_d9
  have hx : 0 < x / 440 := by positivity
  unfold midi
  rw [Real.logb, add_sub_cancel_left, abs_mul, abs_div, abs_of_pos (by norm_num : (0 : ℝ) < 12),
    abs_of_pos (by linarith : 0 < Real.log 2)]
  have h3 : Real.log (x / 440) ≤ 1 / 439 := by
    have := Real.log_le_sub_one_of_pos hx
    linarith
  have h4 : -(1 / 439) ≤ Real.log (x / 440) := by
    have := Real.one_sub_inv_le_log_of_pos hx
    rw [inv_div] at this
    have h5 : 440 / x ≤ 440 / 439 := div_le_div_of_nonneg_left (by norm_num) (by norm_num) h1
    linarith
  have h6 : |Real.log (x / 440)| ≤ 1 / 439 := abs_le.mpr ⟨h4, h3⟩
  rw [← mul_div_assoc, div_le_iff₀ (by linarith)]
  norm_num at hl2
  linarith

theorem tone_range {d : Nat} (hd : d < 160) :
    439 ≤ ((440 : Nat) + (d : ℝ) / 80 - 1) * ((1000 : Int) / (1000 : Nat)) ∧
      ((440 : Nat) + (d : ℝ) / 80 - 1) * ((1000 : Int) / (1000 : Nat)) ≤ 441 := by
  have h1 : (0 : ℝ) ≤ d := Nat.cast_nonneg d
  have h2 : (d : ℝ) < 160 := by exact_mod_cast hd
  norm_num
  constructor <;> linarith

theorem binA : midi (binFreq 147) = 69 := by
  rw [midi_binFreq (by norm_num)]
  norm_num

/-- The tone is heard in bin 147 and its neighbours only. -/
theorem tone_zero {l : Nat} (hl : l < 256) (h : l < 146 ∨ 148 < l) : spread 1000 1000 440 l = 0 := by
  by_contra hne
  have hpos := lt_of_le_of_ne (spread_nonneg 1000 1000 440 l) (Ne.symm hne)
  obtain ⟨x, hx, h1, h2⟩ := spread_pos_near (by norm_num) (by norm_num) hpos
  norm_num at h1
  have h1' := abs_lt.mp h1
  have h3 := abs_le.mp (midi_near (x := x) (by linarith) (by linarith))
  have h4 := abs_lt.mp h2
  have h5 := abs_le.mp (midi_bin hl)
  rcases h with h | h
  · have : (l : ℝ) ≤ 145 := by exact_mod_cast Nat.le_of_lt_succ h
    linarith
  · have : (149 : ℝ) ≤ l := by exact_mod_cast h
    linarith

theorem tone_pos : 0 < spread 1000 1000 440 147 := by
  unfold spread
  rw [if_neg (by norm_num)]
  apply sum_pos' (fun d _ => mul_nonneg (pitchBump_nonneg _ _) (bump_nonneg _))
  refine ⟨80, mem_range.mpr (by omega), ?_⟩
  obtain ⟨h1, h2⟩ := tone_range (d := 80) (by omega)
  rw [pitchBump_midi (by linarith), binA]
  apply mul_pos
  · apply div_pos
    · apply bump_pos
      rw [abs_mul, abs_of_pos (by norm_num : (0 : ℝ) < 3)]
      have := midi_near h1 h2
      linarith
    · have : 0 < Real.log 2 := Real.log_pos (by norm_num)
      have : 0 < ((440 : Nat) + ((80 : Nat) : ℝ) / 80 - 1) * ((1000 : Int) / (1000 : Nat)) := by linarith
      positivity
  · apply bump_pos
    norm_num

/-- More of it in bin 147 than in any other. -/
theorem tone_peak {l : Nat} (hl : l < 256) : spread 1000 1000 440 l ≤ spread 1000 1000 440 147 := by
  by_cases h : l = 147
  · rw [h]
  · unfold spread
    rw [if_neg (by norm_num), if_neg (by norm_num)]
    apply sum_le_sum
    intro d hd
    apply mul_le_mul_of_nonneg_right _ (bump_nonneg _)
    obtain ⟨h1, h2⟩ := tone_range (mem_range.mp hd)
    generalize ((440 : Nat) + (d : ℝ) / 80 - 1) * ((1000 : Int) / (1000 : Nat)) = x at h1 h2 ⊢
    have hx : 0 < x := by linarith
    rw [pitchBump_midi hx, pitchBump_midi hx]
    have hl2 : 0 < Real.log 2 := Real.log_pos (by norm_num)
    apply div_le_div_of_nonneg_right _ (by positivity)
    apply bump_anti
    have h3 := abs_le.mp (midi_near h1 h2)
    have h4 := abs_le.mp (midi_bin hl)
    rw [binA, abs_mul, abs_mul, abs_of_pos (by norm_num : (0 : ℝ) < 3)]
    apply mul_le_mul_of_nonneg_left _ (by norm_num)
    have h5 : |midi x - 69| ≤ 1 / 20 := midi_near h1 h2
    refine h5.trans ?_
    by_cases h6 : l < 147
    · have : (l : ℝ) ≤ 146 := by exact_mod_cast Nat.le_of_lt_succ h6
      rw [le_abs]
      left
      linarith
    · have : (148 : ℝ) ≤ l := by exact_mod_cast (by omega : 148 ≤ l)
      rw [le_abs]
      right
      linarith

end JKD.Chroma
