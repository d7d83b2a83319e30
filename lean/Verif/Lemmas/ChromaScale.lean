import Verif.Lemmas.ChromaWhole
/-
What a change of level does to the spectra of the chroma plug-in.
-/

namespace JKD.Chroma

open Finset

variable {T : Type}

/-- The block `c` times as loud. -/
noncomputable def louder (c : ℝ) (buf : List ℝ) : List ℝ := buf.map (fun x => c * x)

/-- The magnitude before it is limited. -/
noncomputable def rawMagn (buf : List ℝ) (n : Nat) : ℝ := Real.sqrt (buf.getD (2 * n) 0 ^ 2 + buf.getD (2 * n + 1) 0 ^ 2)

/-- Nothing is limited in a block, be it played at the old level or `c` times as loud, and it is silent in both or
in neither. -/
structure Fits (c : ℝ) (bs : Nat) (buf : List ℝ) : Prop where
  before : ∀ n, n < bs / 2 → rawMagn buf n ≤ bs
  after : ∀ n, n < bs / 2 → c * rawMagn buf n ≤ bs
  silent : (∃ n, n < bs / 2 ∧ 2 ≤ rawMagn buf n) ↔ ∃ n, n < bs / 2 ∧ 2 ≤ c * rawMagn buf n

theorem getD_louder (c : ℝ) (buf : List ℝ) (i : Nat) : (louder c buf).getD i 0 = c * buf.getD i 0 := by
  unfold louder
  rw [List.getD_eq_getElem?_getD, List.getElem?_map, List.getD_eq_getElem?_getD]
  cases buf[i]? <;> simp

theorem rawMagn_louder {c : ℝ} (hc : 0 < c) (buf : List ℝ) (n : Nat) : rawMagn (louder c buf) n = c * rawMagn buf n := by
  unfold rawMagn
  rw [getD_louder, getD_louder, mul_pow, mul_pow, ← mul_add, Real.sqrt_mul (by positivity), Real.sqrt_sq hc.le]

theorem magn_louder {c : ℝ} (hc : 0 < c) {bs : Nat} {buf : List ℝ} (h : Fits c bs buf) {n : Nat} (hn : n < bs / 2) :
    magn bs (louder c buf) n = c * magn bs buf n := by
  change min (bs : ℝ) (rawMagn (louder c buf) n) = c * min (bs : ℝ) (rawMagn buf n)
  rw [rawMagn_louder hc, min_eq_right (h.before n hn), min_eq_right (h.after n hn)]

theorem loud_louder {c : ℝ} (hc : 0 < c) {bs : Nat} {buf : List ℝ} (h : Fits c bs buf) :
    Loud bs (louder c buf) ↔ Loud bs buf := by
  have e1 : Loud bs buf ↔ ∃ n, n < bs / 2 ∧ 2 ≤ rawMagn buf n := by
    unfold Loud
    apply exists_congr
    intro n
    apply and_congr_right
    intro hn
    change 2 ≤ min (bs : ℝ) (rawMagn buf n) ↔ _
    rw [min_eq_right (h.before n hn)]
  have e2 : Loud bs (louder c buf) ↔ ∃ n, n < bs / 2 ∧ 2 ≤ c * rawMagn buf n := by
    unfold Loud
    apply exists_congr
    intro n
    apply and_congr_right
    intro hn
    change 2 ≤ min (bs : ℝ) (rawMagn (louder c buf) n) ↔ _
    rw [rawMagn_louder hc, min_eq_right (h.after n hn)]
  rw [e1, e2, h.silent]

theorem rolled_louder {c : ℝ} (hc : 0 < c) {bs : Nat} {buf : List ℝ} (h : Fits c bs buf) (rollon : ℝ) {n : Nat}
    (hn : n < bs / 2) : rolled rollon bs (louder c buf) n = c * rolled rollon bs buf n := by
  have h1 : energy bs (louder c buf) = c ^ 2 * energy bs buf := by
    unfold energy
    rw [mul_sum]
    apply sum_congr rfl
    intro j hj
    rw [magn_louder hc h (mem_range.mp hj), mul_pow]
  unfold rolled
  rw [magn_louder hc h hn, h1]
  by_cases h2 : n + 2 < bs / 2
  · have h3 : lowEnergy bs (louder c buf) (n + 2) = c ^ 2 * lowEnergy bs buf (n + 2) := by
      unfold lowEnergy
      rw [mul_sum]
      apply sum_congr rfl
      intro j hj
      rw [magn_louder hc h (by have := (mem_Ico.mp hj).2; omega), mul_pow]
    have h4 : c ^ 2 * lowEnergy bs buf (n + 2) < c ^ 2 * energy bs buf * rollon / 100 ↔
        lowEnergy bs buf (n + 2) < energy bs buf * rollon / 100 := by
      rw [show c ^ 2 * energy bs buf * rollon / 100 = c ^ 2 * (energy bs buf * rollon / 100) by ring]
      exact mul_lt_mul_iff_right₀ (by positivity)
    rw [h3]
    by_cases h5 : 0 < rollon ∧ n + 2 < bs / 2 ∧ lowEnergy bs buf (n + 2) < energy bs buf * rollon / 100
    · rw [if_pos h5, if_pos ⟨h5.1, h5.2.1, h4.mpr h5.2.2⟩, mul_zero]
    · rw [if_neg h5, if_neg (fun h' => h5 ⟨h'.1, h'.2.1, h4.mp h'.2.2⟩)]
  · rw [if_neg (fun h => h2 h.2.1), if_neg (fun h => h2 h.2.1)]

theorem logSpec_louder {c : ℝ} (hc : 0 < c) {bs : Nat} {buf : List ℝ} (h : Fits c bs buf) (fs : Int) (rollon : ℝ) :
    logSpec fs bs rollon (louder c buf) = fun l => c * logSpec fs bs rollon buf l := by
  funext l
  unfold logSpec
  rw [mul_sum]
  apply sum_congr rfl
  intro n hn
  unfold audible
  have h1 := loud_louder hc h
  by_cases h2 : Loud bs buf
  · rw [if_pos h2, if_pos (h1.mpr h2), rolled_louder hc h rollon (mem_range.mp hn), mul_assoc]
  · rw [if_neg h2, if_neg (fun h' => h2 (h1.mp h'))]
    ring

theorem third_scale (c : ℝ) (L : Nat → ℝ) (i : Nat) : third (fun l => c * L l) i = c * third L i := by
  unfold third
  rw [mul_sum]

theorem angle_scale {c : ℝ} (hc : 0 < c) (x : Nat → ℝ) : angle (fun i => c * x i) = angle x := by
  unfold angle
  have h : (⟨∑ i ∈ range 3, c * x i * Real.cos (2 * Real.pi * (i / 3)),
      ∑ i ∈ range 3, c * x i * Real.sin (2 * Real.pi * (i / 3))⟩ : ℂ) =
      (c : ℂ) * ⟨∑ i ∈ range 3, x i * Real.cos (2 * Real.pi * (i / 3)), ∑ i ∈ range 3, x i * Real.sin (2 * Real.pi * (i / 3))⟩ := by
    apply Complex.ext
    · rw [Complex.re_ofReal_mul]
      dsimp only
      rw [mul_sum]
      apply sum_congr rfl
      intro i _
      ring
    · rw [Complex.im_ofReal_mul]
      dsimp only
      rw [mul_sum]
      apply sum_congr rfl
      intro i _
      ring
  rw [h, Complex.arg_real_mul _ hc]

theorem foldl_scale {α : Type} (c : ℝ) (l : List α) (g : α → ℝ) (x : ℝ) :
    l.foldl (fun x t => x * 0.997 + c * g t * 0.003) (c * x) = c * l.foldl (fun x t => x * 0.997 + g t * 0.003) x := by
  induction l generalizing x with
  | nil => rfl
  | cons a l ih =>
    rw [List.foldl_cons, List.foldl_cons, ← ih]
    congr 1
    ring

theorem smoothed_scale (c : ℝ) (Ls : List (Nat → ℝ)) (i : Nat) :
    smoothed (Ls.map (fun L l => c * L l)) i = c * smoothed Ls i := by
  have key : ∀ x : ℝ, (Ls.map (fun L l => c * L l)).foldl (fun x L =>
      (List.range 54).foldl (fun x t => x * 0.997 + L (3 * t + i) * 0.003) x) (c * x) =
      c * Ls.foldl (fun x L => (List.range 54).foldl (fun x t => x * 0.997 + L (3 * t + i) * 0.003) x) x := by
    induction Ls with
    | nil => intro x; rfl
    | cons L Ls ih =>
      intro x
      rw [List.map_cons, List.foldl_cons, List.foldl_cons, ← ih, foldl_scale c (List.range 54) (fun t => L (3 * t + i))]
  have := key 0
  rw [mul_zero] at this
  exact this

theorem tuningAt_scale {c : ℝ} (hc : 0 < c) (tuneLocal : Bool) (Ls : List (Nat → ℝ)) (k : Nat) :
    tuningAt tuneLocal (Ls.map (fun L l => c * L l)) k = tuningAt tuneLocal Ls k := by
  unfold tuningAt
  congr 1
  · unfold localTuningAt
    rw [← List.map_take, ← angle_scale hc (smoothed (Ls.take (k + 1)))]
    apply angle_congr
    intro i _
    exact smoothed_scale c _ i
  · unfold globalTuning
    rw [← angle_scale hc (fun i => (Ls.map (fun L => third L i)).sum / Ls.length)]
    apply angle_congr
    intro i _
    rw [List.map_map, List.length_map]
    have : ((fun L => third L i) ∘ fun (L : Nat → ℝ) l => c * L l) = fun L => c * third L i := by
      funext L
      exact third_scale c L i
    rw [this, List.sum_map_mul_left]
    ring

theorem shifted_scale (c τ : ℝ) (f : Nat → ℝ) : shifted τ (fun l => c * f l) = fun l => c * shifted τ f l := by
  funext l
  unfold shifted lerp
  split_ifs
  · ring
  · rw [mul_zero]

theorem mean_scale (c : ℝ) (v : Nat → ℝ) (j : Nat) : mean (fun l => c * v l) j = c * mean v j := by
  unfold mean
  rw [mul_sum]
  apply sum_congr rfl
  intro m _
  ring

theorem deviation_scale {c : ℝ} (hc : 0 < c) (v : Nat → ℝ) (j : Nat) : deviation (fun l => c * v l) j = c * deviation v j := by
  unfold deviation
  have : (fun l => (c * v l - mean (fun l => c * v l) l) ^ 2) = fun l => c ^ 2 * (v l - mean v l) ^ 2 := by
    funext l
    rw [mean_scale]
    ring
  rw [this, mean_scale, Real.sqrt_mul (by positivity), Real.sqrt_sq hc.le]

/-- Whitening a spectrum `c` times as loud. -/
theorem whitened_scale {c : ℝ} (hc : 0 < c) (w : ℝ) (v : Nat → ℝ) (j : Nat) :
    whitened w (fun l => c * v l) j =
      if 0 < deviation v j then c ^ (1 - w) * whitened w v j else c * whitened w v j := by
  unfold whitened
  rw [deviation_scale hc, mean_scale]
  by_cases h : 0 < deviation v j
  · rw [if_pos h, if_pos h, if_pos (mul_pos hc h), Real.mul_rpow hc.le h.le, Real.rpow_sub hc, Real.rpow_one,
      ← mul_sub, ← mul_zero c, ← mul_max_of_nonneg _ _ hc.le, mul_zero]
    field_simp
  · rw [if_neg h, if_neg h, if_neg]
    intro h'
    exact h ((pos_iff_pos_of_mul_pos h').mp hc)

end JKD.Chroma
