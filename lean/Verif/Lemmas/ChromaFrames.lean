import Verif.Lemmas.ChromaTranscribe
import Verif.Lemmas.NnlsOne
/-
One frame in exact arithmetic: notes and normalisation.
-/

namespace JKD.Chroma

open Finset

theorem exact_signed : Signed exactFns (fun x : ℝ => 0 ≤ x) where
  lit q h := by
    change 0 ≤ (q : ℝ)
    exact_mod_cast h
  add x y h1 h2 := add_nonneg h1 h2
  mul x y h1 h2 := mul_nonneg h1 h2
  one x h := mul_nonneg zero_le_one h
  sqrt x := Real.sqrt_nonneg _
  pos x h := by
    simp only [ex_lit, Rat.cast_zero, ex_lt, decide_eq_true_eq] at h
    exact h.le
  frac t _ _ := by
    have e : (shiftOf exactFns t).2 = t * 3 - ⌊t * 3⌋ := by
      simp only [shiftOf, ex_sub, ex_mul, ex_lit, ex_floor]
      push_cast
      rfl
    rw [e]
    simp only [ex_sub, ex_one]
    have f1 := Int.floor_le (t * 3)
    have f2 := Int.lt_floor_add_one (t * 3)
    constructor <;> linarith
  white d v w h1 h2 := by
    simp only [ex_lit, Rat.cast_zero, ex_lt, decide_eq_true_eq] at h1 h2
    exact div_nonneg h1.le (Real.rpow_nonneg h2.le _)
  weight i hi := by
    simp only [ex_sub, ex_one, ex_abs, ex_div, ex_mul, ex_lit]
    have : i = 0 ∨ i = 1 ∨ i = 2 := by omega
    rcases this with h | h | h <;> subst h <;> norm_num
  quot x n h1 h2 := by
    simp only [ex_lit, Rat.cast_zero, ex_lt, decide_eq_true_eq] at h2
    exact div_nonneg h1 h2.le
  nnls n s rn r h j h1 h2 := by
    obtain ⟨r', e, h', -⟩ := Nnls.C66_nnls_optimal nNote n (by decide) (by omega) s rn
    have h'' : Nnls.call Nnls.exact (nNote : Nat) n s rn = .ok r := h
    rw [e] at h''
    cases h''
    exact h' j h1 h2

theorem getD_nonneg {v : List ℝ} (h : AllQ (fun x : ℝ => 0 ≤ x) v) (i : Nat) : 0 ≤ v.getD i 0 := by
  rw [List.getD_eq_getElem?_getD]
  cases e : v[i]? with
  | none => exact le_refl _
  | some x => exact h.get e

/-- The notes of a frame. -/
theorem notesOf_exact {T : Type} {P : Nat → Nat → ℝ} {p : Base ℝ T} (hd : p.dict.length = nNote * 84)
    (hP : ∀ t l, t < 84 → l < nNote → p.dict.getD (t * nNote + l) 0 = P t l) (junk : Nnls.St ℝ) {b : List ℝ}
    (hb : b.length = nNote) (hq : AllQ (fun x : ℝ => 0 ≤ x) b) :
    ∃ r, notesOf exactFns p junk b = .ok r ∧ Balanced r ∧ r.semitones.length = 84 ∧
      (∀ t, 0 ≤ r.semitones.getD t 0) ∧
      (p.params.useNNLS = 0 → ∀ t, t < 84 → r.semitones.getD t 0 =
          b.getD (3 * t + 2) 0 / 2 + b.getD (3 * t + 3) 0 + b.getD (3 * t + 4) 0 / 2) ∧
      (p.params.useNNLS ≠ 0 → (∀ t, t ∉ heard b → r.semitones.getD t 0 = 0) ∧
        (¬ GivesUp p.dict b junk → ∀ y : Nat → ℝ, (∀ t, 0 ≤ y t) → (∀ t, t < 84 → t ∉ heard b → y t = 0) →
          Distance P b (fun t => r.semitones.getD t 0) ≤ Distance P b y)) := by
  unfold notesOf
  rw [copy_eq exactFns hb, bind_ok]
  simp only [ex_lit, Rat.cast_zero, ex_lt, ex_eq, decide_eq_true_eq]
  by_cases hany : (b.any fun x => decide (0 < x)) = true
  · rw [if_pos hany]
    by_cases hu : p.params.useNNLS = 0
    · rw [if_pos hu]
      obtain ⟨r, e, h1, h2, h3⟩ := plainNotes_exact hb
      refine ⟨r, e, h1, h2, ?_, fun _ => h3, fun h => absurd hu h⟩
      intro t
      by_cases ht : t < 84
      · rw [h3 t ht]
        have g1 := getD_nonneg hq (3 * t + 2)
        have g2 := getD_nonneg hq (3 * t + 3)
        have g3 := getD_nonneg hq (3 * t + 4)
        linarith
      · rw [getD_length _ (by omega)]
    · rw [if_neg hu]
      obtain ⟨r, e, h1, h2, h3, h4, h5⟩ := nnlsNotes_optimal hd junk hb hP
      exact ⟨r, e, h1, h2, h3, fun h => absurd h hu, fun _ => ⟨h4, h5⟩⟩
  · rw [if_neg hany]
    have hz : ∀ i, b.getD i 0 = 0 := by
      intro i
      rw [List.getD_eq_getElem?_getD]
      cases e : b[i]? with
      | none => rfl
      | some x =>
        have h1 := hq.get e
        have h2 : ¬ 0 < x := by
          intro h2
          exact hany (List.any_eq_true.mpr ⟨x, List.mem_of_getElem? e, by simpa using h2⟩)
        exact le_antisymm (not_lt.mp h2) h1
    have hh : ∀ t, t ∉ heard b := by
      intro t ht
      have := ((mem_heard b t).mp ht).2
      rw [hz, hz, hz] at this
      linarith
    refine ⟨_, rfl, balanced_zero (getD_replicate_zero 84), by simp, fun t => (getD_replicate_zero 84 t).ge, ?_, ?_⟩
    · intro _ t _
      rw [hz, hz, hz]
      simp only [getD_replicate_zero]
      norm_num
    · intro _
      refine ⟨fun t _ => getD_replicate_zero 84 t, ?_⟩
      intro _ y _ hy
      apply le_of_eq
      unfold Distance
      apply sum_congr rfl
      intro l _
      congr 2
      apply sum_congr rfl
      intro t ht
      beta_reduce
      rw [getD_replicate_zero, hy t (mem_range.mp ht) (hh t)]

/-! ### Normalisation -/

theorem maxElement_spec {v : List ℝ} (hv : v ≠ []) :
    maxElement exactFns v ∈ v ∧ ∀ x ∈ v, x ≤ maxElement exactFns v := by
  have key : ∀ (l : List ℝ) (m : ℝ), (l.foldl (fun m x => if exactFns.lt m x then x else m) m = m ∨
      l.foldl (fun m x => if exactFns.lt m x then x else m) m ∈ l) ∧
      m ≤ l.foldl (fun m x => if exactFns.lt m x then x else m) m ∧
      ∀ x ∈ l, x ≤ l.foldl (fun m x => if exactFns.lt m x then x else m) m := by
    intro l
    induction l with
    | nil => intro m; simp
    | cons a l ih =>
      intro m
      rw [List.foldl_cons]
      by_cases hc : m < a
      · rw [if_pos (by simpa using hc)]
        obtain ⟨h1, h2, h3⟩ := ih a
        refine ⟨?_, by linarith, ?_⟩
        · rcases h1 with h | h
          · right; rw [h]; simp
          · right; exact List.mem_cons_of_mem _ h
        · intro x hx
          rcases List.mem_cons.mp hx with h | h
          · rw [h]; exact h2
          · exact h3 x h
      · rw [if_neg (by simpa using hc)]
        obtain ⟨h1, h2, h3⟩ := ih m
        refine ⟨?_, h2, ?_⟩
        · rcases h1 with h | h
          · left; exact h
          · right; exact List.mem_cons_of_mem _ h
        · intro x hx
          rcases List.mem_cons.mp hx with h | h
          · rw [h]; linarith
          · exact h3 x h
  unfold maxElement
  cases v with
  | nil => exact absurd rfl hv
  | cons a l =>
    simp only [List.headD_cons]
    obtain ⟨h1, h2, h3⟩ := key (a :: l) a
    refine ⟨?_, h3⟩
    rcases h1 with h | h
    · rw [h]; simp
    · exact h

theorem sumOf_eq (g : ℝ → ℝ) (v : List ℝ) : sumOf exactFns g v = (v.map g).sum := by
  unfold sumOf
  have key : ∀ (l : List ℝ) (c : ℝ), l.foldl (fun s x => exactFns.add s (g x)) c = c + (l.map g).sum := by
    intro l
    induction l with
    | nil => simp
    | cons a l ih =>
      intro c
      rw [List.foldl_cons, ih, List.map_cons, List.sum_cons]
      simp only [ex_add]
      ring
  rw [key]
  simp

/-- The norm of a vector: the largest entry, the sum or the Euclidean length. -/
noncomputable def normOf (mode : Int) (v : List ℝ) : ℝ :=
  if mode = 1 then maxElement exactFns v
  else if mode = 2 then v.sum
  else if mode = 3 then Real.sqrt ((v.map (fun x => x ^ 2)).sum) else 0

theorem norms_eq (mode : Int) {f4 f5 : List ℝ} (h4 : f4 ≠ []) (h5 : f5 ≠ []) :
    norms exactFns mode f4 f5 (f5 ++ f4) = (normOf mode f4, normOf mode f5, normOf mode (f5 ++ f4)) := by
  have hpow : (fun x : ℝ => exactFns.pow x (exactFns.lit 2)) = fun x => x ^ 2 := by
    funext x
    simp only [ex_pow, ex_lit]
    push_cast
    exact Real.rpow_two x
  have h6 : f5 ++ f4 ≠ [] := by simp [h4]
  obtain ⟨a1, a2⟩ := maxElement_spec h4
  obtain ⟨b1, b2⟩ := maxElement_spec h5
  obtain ⟨c1, c2⟩ := maxElement_spec h6
  unfold norms normOf
  by_cases h1 : mode = 1
  · simp only [if_pos h1, Prod.mk.injEq, true_and]
    by_cases h2 : maxElement exactFns f4 < maxElement exactFns f5
    · rw [if_pos (by simpa using h2)]
      apply le_antisymm (c2 _ (List.mem_append_left _ b1))
      rcases List.mem_append.mp c1 with h | h
      · exact b2 _ h
      · exact (a2 _ h).trans h2.le
    · rw [if_neg (by simpa using h2)]
      apply le_antisymm (c2 _ (List.mem_append_right _ a1))
      rcases List.mem_append.mp c1 with h | h
      · exact (b2 _ h).trans (not_lt.mp h2)
      · exact a2 _ h
  · by_cases h2 : mode = 2
    · simp only [if_neg h1, if_pos h2, sumOf_eq, List.map_id]
    · by_cases h3 : mode = 3
      · simp only [if_neg h1, if_neg h2, if_pos h3]
        simp only [hpow, sumOf_eq]
        rfl
      · simp only [if_neg h1, if_neg h2, if_neg h3, ex_lit, Rat.cast_zero]

/-- The vector has been normalised: its largest entry, its sum or its Euclidean length is one. -/
def Normal (mode : Int) (v : List ℝ) : Prop :=
  (mode = 1 → (∀ x ∈ v, x ≤ 1) ∧ 1 ∈ v) ∧ (mode = 2 → v.sum = 1) ∧ (mode = 3 → (v.map (fun x => x ^ 2)).sum = 1)

theorem sum_map_div (v : List ℝ) (n : ℝ) : (v.map (fun x => x / n)).sum = v.sum / n := by
  induction v with
  | nil => simp
  | cons a l ih =>
    rw [List.map_cons, List.sum_cons, List.sum_cons, ih]
    ring

theorem sum_nonneg' {v : List ℝ} (h : AllQ (fun x : ℝ => 0 ≤ x) v) : 0 ≤ v.sum := List.sum_nonneg h

theorem sum_zero_all {v : List ℝ} (h : AllQ (fun x : ℝ => 0 ≤ x) v) (h0 : v.sum ≤ 0) : ∀ x ∈ v, x = 0 := by
  induction v with
  | nil => simp
  | cons a l ih =>
    rw [List.sum_cons] at h0
    have h1 : 0 ≤ a := h a (by simp)
    have h2 : AllQ (fun x : ℝ => 0 ≤ x) l := fun x hx => h x (List.mem_cons_of_mem _ hx)
    have h3 := sum_nonneg' h2
    intro x hx
    rcases List.mem_cons.mp hx with h4 | h4
    · rw [h4]; linarith
    · exact ih h2 (by linarith) x h4

/-- What the division does. -/
theorem scale_normal {mode : Int} (hm : mode = 1 ∨ mode = 2 ∨ mode = 3) {v : List ℝ} (hv : v ≠ [])
    (hq : AllQ (fun x : ℝ => 0 ≤ x) v) :
    ((∀ x ∈ v, x = 0) ∧ scaleBy exactFns (normOf mode v) v = v) ∨
    (0 < normOf mode v ∧ scaleBy exactFns (normOf mode v) v = v.map (fun x => x / normOf mode v) ∧
      Normal mode (scaleBy exactFns (normOf mode v) v)) := by
  by_cases hn : 0 < normOf mode v
  · right
    have e : scaleBy exactFns (normOf mode v) v = v.map (fun x => x / normOf mode v) := by
      unfold scaleBy
      rw [if_pos (by simpa using hn)]
      rfl
    refine ⟨hn, e, ?_⟩
    rw [e]
    refine ⟨?_, ?_, ?_⟩
    · rintro rfl
      have hn' : normOf 1 v = maxElement exactFns v := by simp [normOf]
      obtain ⟨h1, h2⟩ := maxElement_spec hv
      rw [← hn'] at h1 h2
      constructor
      · intro x hx
        obtain ⟨y, hy, rfl⟩ := List.mem_map.mp hx
        rw [div_le_one hn]
        exact h2 y hy
      · exact List.mem_map.mpr ⟨_, h1, div_self hn.ne'⟩
    · rintro rfl
      have hn' : normOf 2 v = v.sum := by simp [normOf]
      rw [sum_map_div, ← hn', div_self hn.ne']
    · rintro rfl
      have hn' : normOf 3 v = Real.sqrt ((v.map (fun x => x ^ 2)).sum) := by simp [normOf]
      rw [List.map_map]
      have : ((fun x : ℝ => x ^ 2) ∘ fun x => x / normOf 3 v) =
          (fun y => y / normOf 3 v ^ 2) ∘ fun x : ℝ => x ^ 2 := by
        funext x
        simp only [Function.comp]
        rw [div_pow]
      rw [this, ← List.map_map (g := fun y : ℝ => y / normOf 3 v ^ 2) (f := fun x : ℝ => x ^ 2), sum_map_div, hn',
        Real.sq_sqrt (sum_nonneg' (by
          intro y hy
          obtain ⟨x, _, rfl⟩ := List.mem_map.mp hy
          exact sq_nonneg x))]
      apply div_self
      intro h0
      rw [hn', h0, Real.sqrt_zero] at hn
      exact lt_irrefl _ hn
  · left
    have e : scaleBy exactFns (normOf mode v) v = v := by
      unfold scaleBy
      rw [if_neg (by simpa using hn)]
    refine ⟨?_, e⟩
    rcases hm with rfl | rfl | rfl
    · have hn' : normOf 1 v = maxElement exactFns v := by simp [normOf]
      rw [hn'] at hn
      obtain ⟨h1, h2⟩ := maxElement_spec hv
      intro x hx
      exact le_antisymm ((h2 x hx).trans (not_lt.mp hn)) (hq x hx)
    · have hn' : normOf 2 v = v.sum := by simp [normOf]
      rw [hn'] at hn
      exact sum_zero_all hq (not_lt.mp hn)
    · have hn' : normOf 3 v = Real.sqrt ((v.map (fun x => x ^ 2)).sum) := by simp [normOf]
      rw [hn'] at hn
      have hq2 : AllQ (fun x : ℝ => 0 ≤ x) (v.map (fun x => x ^ 2)) := by
        intro y hy
        obtain ⟨x, _, rfl⟩ := List.mem_map.mp hy
        exact sq_nonneg x
      have h0 : (v.map (fun x => x ^ 2)).sum ≤ 0 := by
        by_contra h
        exact hn (Real.sqrt_pos.mpr (not_le.mp h))
      intro x hx
      have := sum_zero_all hq2 h0 (x ^ 2) (List.mem_map.mpr ⟨x, hx, rfl⟩)
      exact pow_eq_zero_iff (two_ne_zero) |>.mp this

end JKD.Chroma
