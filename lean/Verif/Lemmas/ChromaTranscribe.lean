import Verif.Lemmas.ChromaNotes
/-
What the approximate transcription finds, in exact arithmetic.
-/

namespace JKD.Chroma

open Finset

/-- A sum over the notes heard, as a sum over all notes. -/
theorem heard_sum (b : List ℝ) (g : Nat → ℝ) (h : ∀ t, t < 84 → t ∉ heard b → g t = 0) :
    ∑ j ∈ Icc 1 (heard b).length, g ((heard b).getD (j - 1) 0) = ∑ t ∈ range 84, g t := by
  have h1 : ∑ j ∈ Icc 1 (heard b).length, g ((heard b).getD (j - 1) 0) =
      ∑ j ∈ range (heard b).length, g ((heard b).getD j 0) := by
    symm
    apply sum_bij (fun j _ => j + 1)
    · intro j hj
      simp only [mem_range, mem_Icc] at *
      omega
    · intro i _ j _ e
      omega
    · intro j hj
      simp only [mem_Icc] at hj
      exact ⟨j - 1, by simp only [mem_range]; omega, by omega⟩
    · intro j _
      rfl
  rw [h1]
  have h2 : ∑ j ∈ range (heard b).length, g ((heard b).getD j 0) = ∑ t ∈ (heard b).toFinset, g t := by
    apply sum_bij (fun j _ => (heard b).getD j 0)
    · intro j hj
      simp only [mem_range] at hj
      rw [List.mem_toFinset, List.getD_eq_getElem?_getD, List.getElem?_eq_getElem hj]
      exact List.getElem_mem hj
    · intro i hi j hj e
      simp only [mem_range] at hi hj
      simp only [List.getD_eq_getElem?_getD, List.getElem?_eq_getElem hi, List.getElem?_eq_getElem hj,
        Option.getD_some] at e
      exact (heard_nodup b).getElem_inj_iff.mp e
    · intro t ht
      obtain ⟨j, hj, e⟩ := List.mem_iff_getElem.mp (List.mem_toFinset.mp ht)
      exact ⟨j, mem_range.mpr hj, by rw [List.getD_eq_getElem?_getD, List.getElem?_eq_getElem hj]; exact e⟩
    · intro j _
      rfl
  rw [h2]
  apply sum_subset
  · intro t ht
    exact mem_range.mpr ((mem_heard b t).mp (List.mem_toFinset.mp ht)).1
  · intro t h3 h4
    exact h t (mem_range.mp h3) (fun hm => h4 (List.mem_toFinset.mpr hm))

/-- How far a mixture of notes in the amounts `y` is from the spectrum `b`: the sum of the squared differences. -/
noncomputable def Distance (P : Nat → Nat → ℝ) (b : List ℝ) (y : Nat → ℝ) : ℝ :=
  ∑ l ∈ range 256, (∑ t ∈ range 84, y t * P t l - b.getD l 0) ^ 2

theorem misfit_distance {P : Nat → Nat → ℝ} {dict b cd : List ℝ} (junk : Nnls.St ℝ)
    (hP : ∀ t l, t < 84 → l < nNote → dict.getD (t * nNote + l) 0 = P t l)
    (hcd : ∀ j s i, (heard b)[j]? = some s → i < nNote →
        cd[j * nNote + i]? = some (exactFns.mul exactFns.one (dict.getD (s * nNote + i) (exactFns.lit 0))))
    (y : Nat → ℝ) (hy : ∀ t, t < 84 → t ∉ heard b → y t = 0) :
    Nnls.Misfit nNote (heard b).length (problem exactFns cd b junk).a (problem exactFns cd b junk).b
      (fun j => y ((heard b).getD (j - 1) 0)) = Distance P b y := by
  unfold Nnls.Misfit Distance
  symm
  apply sum_bij (fun l _ => l + 1)
  · intro l hl
    have : nNote = 256 := rfl
    simp only [mem_range, mem_Icc] at *
    omega
  · intro i _ j _ e
    omega
  · intro l hl
    have : nNote = 256 := rfl
    simp only [mem_Icc] at hl
    exact ⟨l - 1, by simp only [mem_range]; omega, by omega⟩
  · intro l hl
    have hn : nNote = 256 := rfl
    simp only [mem_range] at hl
    congr 1
    have hb : (problem exactFns cd b junk).b (l + 1) = b.getD l 0 := by
      change b.getD (l + 1 - 1) (exactFns.lit 0) = _
      rw [Nat.add_sub_cancel, ex_lit]
      push_cast
      rfl
    rw [hb]
    congr 1
    rw [← heard_sum b (fun t => y t * P t l) (by intro t h1 h2; simp only [hy t h1 h2, zero_mul])]
    apply sum_congr rfl
    intro j hj
    simp only [mem_Icc] at hj
    obtain ⟨s, hs⟩ : ∃ s, (heard b)[j - 1]? = some s := getElem?_some_of_lt (by omega)
    have hs84 := ((mem_heard b s).mp (List.mem_of_getElem? hs)).1
    have h1 := problem_a junk hcd hs (l := l + 1) (by omega) (by omega)
    rw [Nat.sub_add_cancel hj.1, Nat.add_sub_cancel, hP s l hs84 (by omega)] at h1
    have h2 : (heard b).getD (j - 1) 0 = s := by
      rw [List.getD_eq_getElem?_getD, hs]
      rfl
    beta_reduce
    rw [h1, h2, mul_comm]

/-- The solver gives up on this frame: it reports that the iteration count was exceeded. -/
def GivesUp (dict b : List ℝ) (junk : Nnls.St ℝ) : Prop :=
  ∃ cd ret, currDict exactFns dict (heard b) = .ok cd ∧
    Nnls.call exactFns.toOps (nNote : Nat) (heard b).length (problem exactFns cd b junk) junk.up = .ok ret ∧
    ret.mode = 3

theorem nnlsNotes_optimal {P : Nat → Nat → ℝ} {dict : List ℝ} (hd : dict.length = nNote * 84) (junk : Nnls.St ℝ)
    {b : List ℝ} (hb : b.length = nNote)
    (hP : ∀ t l, t < 84 → l < nNote → dict.getD (t * nNote + l) 0 = P t l) :
    ∃ r, nnlsNotes exactFns dict junk b
        { semitones := [], chroma := List.replicate 12 0, basschroma := List.replicate 12 0 } = .ok r ∧
      Balanced r ∧ r.semitones.length = 84 ∧ (∀ t, 0 ≤ r.semitones.getD t 0) ∧
      (∀ t, t ∉ heard b → r.semitones.getD t 0 = 0) ∧
      (¬ GivesUp dict b junk → ∀ y : Nat → ℝ, (∀ t, 0 ≤ y t) → (∀ t, t < 84 → t ∉ heard b → y t = 0) →
        Distance P b (fun t => r.semitones.getD t 0) ≤ Distance P b y) := by
  obtain ⟨cd, ret, r, e1, p1, e2, e3, h1, h2, h3, h4⟩ := nnlsNotes_exact hd junk hb
  have hn : nNote = 256 := rfl
  have hx : ∀ j, 1 ≤ j → j ≤ (heard b).length → r.semitones.getD ((heard b).getD (j - 1) 0) 0 = ret.x j := by
    intro j g1 g2
    obtain ⟨s, hs⟩ : ∃ s, (heard b)[j - 1]? = some s := getElem?_some_of_lt (by omega)
    have := h3 _ _ hs
    rw [Nat.sub_add_cancel g1] at this
    rw [List.getD_eq_getElem?_getD (l := heard b), hs]
    exact this
  by_cases h0 : (heard b).length = 0
  · have h5 : ∀ t, r.semitones.getD t 0 = 0 := by
      intro t
      apply h4
      rw [List.eq_nil_of_length_eq_zero h0]
      simp
    refine ⟨r, e3, h1, h2, fun t => (h5 t).ge, h4, ?_⟩
    intro _ y _ hy
    apply le_of_eq
    unfold Distance
    apply sum_congr rfl
    intro l _
    congr 2
    apply sum_congr rfl
    intro t ht
    beta_reduce
    rw [h5, hy t (mem_range.mp ht) (by rw [List.eq_nil_of_length_eq_zero h0]; simp)]
  · obtain ⟨ret', f1, f2, f3⟩ := Nnls.C66_nnls_optimal nNote (heard b).length (by omega) (by omega)
      (problem exactFns cd b junk) junk.up
    rw [e2] at f1
    cases f1
    refine ⟨r, e3, h1, h2, ?_, h4, ?_⟩
    · intro t
      by_cases ht : t ∈ heard b
      · obtain ⟨j, hj, e⟩ := List.mem_iff_getElem.mp ht
        have hs : (heard b)[j]? = some t := by rw [List.getElem?_eq_getElem hj, e]
        rw [h3 j t hs]
        exact f2 (j + 1) (by omega) (by omega)
      · exact (h4 t ht).ge
    · intro hg y hy hy'
      obtain ⟨ret', k1, k2, -⟩ := Nnls.C64_nnls_returns exact_ordered (nNote : Nat) ((heard b).length : Nat)
        (problem exactFns cd b junk) junk.up
      have e2' : Nnls.call exactFns.toOps (nNote : Nat) (heard b).length (problem exactFns cd b junk) junk.up =
        .ok ret := e2
      rw [e2'] at k1
      cases k1
      have hm : ret.mode = 1 := by
        rcases k2 (by omega) (by omega) with h | h
        · exact h
        · exact absurd ⟨cd, ret, e1, e2', h⟩ hg
      have key := (f3 hm).2 (fun j => y ((heard b).getD (j - 1) 0)) (fun j _ _ => hy _)
      rw [misfit_distance junk hP p1 y hy'] at key
      rw [← misfit_distance junk hP p1 (fun t => r.semitones.getD t 0) (fun t _ h => h4 t h)]
      refine le_trans (le_of_eq ?_) key
      unfold Nnls.Misfit
      apply sum_congr rfl
      intro l _
      congr 2
      apply sum_congr rfl
      intro j hj
      simp only [mem_Icc] at hj
      beta_reduce
      rw [hx j hj.1 hj.2]

/-- The profiles are independent: different amounts of the notes give different spectra. -/
theorem profiles_independent {s : ℝ} (hs : 0 ≤ s) (z : Nat → ℝ)
    (h : ∀ l, l < 256 → ∑ t ∈ range 84, z t * profile s t l = 0) : ∀ t, t < 84 → z t = 0 := by
  intro t
  induction t using Nat.strong_induction_on with
  | _ t ih =>
    intro ht
    have h1 := h (3 * (t + 1)) (by omega)
    rw [sum_eq_single t] at h1
    · rcases mul_eq_zero.mp h1 with h2 | h2
      · exact h2
      · have := profile_diag hs t
        linarith
    · intro u hu hut
      rcases lt_or_gt_of_ne hut with h2 | h2
      · rw [ih u h2 (by omega), zero_mul]
      · rw [profile_below s (by omega), mul_zero]
    · intro hm
      exact absurd (mem_range.mpr ht) hm

/-- A spectrum that is a mixture of notes is taken apart. -/
theorem mixture_recovered {s : ℝ} (hs : 0 ≤ s) {b : List ℝ} {x z : Nat → ℝ}
    (hx : ∀ t, 0 ≤ x t) (hb : ∀ l, l < 256 → b.getD l 0 = ∑ t ∈ range 84, x t * profile s t l)
    (hz : ∀ y : Nat → ℝ, (∀ t, 0 ≤ y t) → (∀ t, t < 84 → t ∉ heard b → y t = 0) →
      Distance (profile s) b z ≤ Distance (profile s) b y) : ∀ t, t < 84 → z t = x t := by
  have hsup : ∀ t, t < 84 → t ∉ heard b → x t = 0 := by
    intro t ht hm
    rcases (hx t).lt_or_eq with h | h
    · exfalso
      apply hm
      rw [mem_heard]
      refine ⟨ht, ?_⟩
      have hnn : ∀ l, l < 256 → 0 ≤ b.getD l 0 := by
        intro l hl
        rw [hb l hl]
        exact sum_nonneg fun t _ => mul_nonneg (hx t) (profile_nonneg hs t l)
      have hpos : 0 < b.getD (3 * t + 3) 0 := by
        rw [hb _ (by omega)]
        apply sum_pos' (fun t _ => mul_nonneg (hx t) (profile_nonneg hs t _))
        refine ⟨t, mem_range.mpr ht, mul_pos h ?_⟩
        have := profile_diag hs t
        rw [show 3 * (t + 1) = 3 * t + 3 by ring] at this
        linarith
      have h2 := hnn (3 * t + 2) (by omega)
      have h4 := hnn (3 * t + 4) (by omega)
      linarith
    · exact h.symm
  have h0 : Distance (profile s) b x = 0 := by
    unfold Distance
    apply sum_eq_zero
    intro l hl
    rw [hb l (mem_range.mp hl), sub_self]
    norm_num
  have h1 : Distance (profile s) b z = 0 :=
    le_antisymm (h0 ▸ hz x hx hsup) (sum_nonneg fun l _ => sq_nonneg _)
  have h2 : ∀ l, l < 256 → ∑ t ∈ range 84, (z t - x t) * profile s t l = 0 := by
    intro l hl
    have h3 := (sum_eq_zero_iff_of_nonneg (fun l _ => sq_nonneg _)).mp h1 l (mem_range.mpr hl)
    have h4 := pow_eq_zero_iff (two_ne_zero) |>.mp h3
    rw [hb l hl, ← sum_sub_distrib] at h4
    rw [← h4]
    apply sum_congr rfl
    intro t _
    ring
  intro t ht
  have := profiles_independent hs (fun t => z t - x t) h2 t ht
  linarith

end JKD.Chroma
