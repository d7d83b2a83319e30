import Verif.FP.Potential
import Mathlib.Tactic.Linarith
/-
When a note inside a passage must have the key `K`, whatever the music before and after the passage is.  The sequence of keys
is followed from left to right together with a rival that stays in `K`; the potentials (Potential.lean) bound how much
better than the rival it is.
-/

namespace JKD.Spec

/-- Potentials for sequences that keep away from `K`. -/
def FreeStep (t : Tables ℝ) (K : Int) (V V' : Int → ℝ) (o : Int) : Prop :=
  ∀ j ∈ keys, j ≠ K → ∀ k ∈ keys, k ≠ K → V j * (t.trans j k * t.emis k o) ≤ V' k * (t.trans K K * t.emis K o)

/-- A chain of such steps. -/
inductive Free (t : Tables ℝ) (K : Int) : (Int → ℝ) → List Int → (Int → ℝ) → Prop
  | stop {V W} : (∀ k ∈ keys, k ≠ K → V k ≤ W k) → Free t K V [] W
  | step {V V' W o os} : FreeStep t K V V' o → Free t K V' os W → Free t K V (o :: os) W

/-- Some sequence of keys is better by the factor `μ` than going on with `ks` from key `j` and probability `acc`: one that
starts from `K` with probability `A`, or one that starts from the same place. -/
def Beat (t : Tables ℝ) (K : Int) (μ : ℝ) (os ks : List Int) (acc : ℝ) (j : Int) (A : ℝ) : Prop :=
  ∃ ys : List Int, ys.length = os.length ∧ (∀ y ∈ ys, y ∈ keys) ∧
    (extendProb t acc j os ks ≤ μ * extendProb t A K os ys ∨ extendProb t acc j os ks ≤ μ * extendProb t acc j os ys)

variable {t : Tables ℝ} {K : Int} {μ : ℝ}

theorem Leads.free {V W : Int → ℝ} {os : List Int} (l : Leads t K μ V os W) : Free t K V os W := by
  induction l with
  | stop h => exact .stop (fun k hk _ => h k hk)
  | step s _ ih => exact .step (fun j hj _ k hk _ => s.move j hj k hk) ih

theorem Leads.split {V W : Int → ℝ} : ∀ {a b : List Int}, Leads t K μ V (a ++ b) W → ∃ X, Leads t K μ V a X ∧ Leads t K μ X b W := by
  intro a
  induction a generalizing V with
  | nil => intro b l; exact ⟨V, .stop (fun _ _ => le_refl _), l⟩
  | cons o a ih =>
    intro b l
    rw [List.cons_append] at l
    cases l with
    | step s l =>
      obtain ⟨X, h1, h2⟩ := ih l
      exact ⟨X, .step s h1, h2⟩

theorem Free.mono (ht : NonNeg t) {V W X : Int → ℝ} {os : List Int} (h : ∀ k ∈ keys, k ≠ K → V k ≤ W k)
    (l : Free t K W os X) : Free t K V os X := by
  cases l with
  | stop h' => exact .stop (fun k hk hne => (h k hk hne).trans (h' k hk hne))
  | step s l =>
    refine .step (fun j hj hjn k hk hkn => ?_) l
    exact (mul_le_mul_of_nonneg_right (h j hj hjn) (mul_nonneg (ht.trans _ _) (ht.emis _ _))).trans (s j hj hjn k hk hkn)

theorem Free.weaken {V W X : Int → ℝ} {os : List Int} (l : Free t K V os W) (h : ∀ k ∈ keys, k ≠ K → W k ≤ X k) :
    Free t K V os X := by
  induction l with
  | stop h' => exact .stop (fun k hk hne => (h' k hk hne).trans (h k hk hne))
  | step s _ ih => exact .step s (ih h)

theorem Free.smul {V W : Int → ℝ} {os : List Int} (c : ℝ) (hc : 0 ≤ c) (l : Free t K V os W) :
    Free t K (fun k => c * V k) os (fun k => c * W k) := by
  induction l with
  | stop h => exact .stop (fun k hk hne => mul_le_mul_of_nonneg_left (h k hk hne) hc)
  | @step V V' W o os s _ ih =>
    refine .step (V' := fun k => c * V' k) (fun j hj hjn k hk hkn => ?_) ih
    have := mul_le_mul_of_nonneg_left (s j hj hjn k hk hkn) hc
    simp only [mul_assoc] at this ⊢
    exact this

/-! ### Steps of the comparison -/

theorem beat_step {o k : Int} {os ks : List Int} {acc A : ℝ} {j : Int} (hk : k ∈ keys) (hK : K ∈ keys)
    (h : Beat t K μ os ks (acc * (t.trans j k * t.emis k o)) k (A * (t.trans K K * t.emis K o))) :
    Beat t K μ (o :: os) (k :: ks) acc j A := by
  obtain ⟨ys, h1, h2, h3⟩ := h
  rcases h3 with h3 | h3
  · exact ⟨K :: ys, by simp [h1], by simpa using ⟨hK, h2⟩, Or.inl (by simpa only [extendProb] using h3)⟩
  · exact ⟨k :: ys, by simp [h1], by simpa using ⟨hk, h2⟩, Or.inr (by simpa only [extendProb] using h3)⟩

theorem beat_reset {o : Int} {os ks : List Int} {acc A : ℝ} {j : Int} (hK : K ∈ keys)
    (h : Beat t K μ os ks (acc * (t.trans j K * t.emis K o)) K (acc * (t.trans j K * t.emis K o))) :
    Beat t K μ (o :: os) (K :: ks) acc j A := by
  obtain ⟨ys, h1, h2, h3⟩ := h
  exact ⟨K :: ys, by simp [h1], by simpa using ⟨hK, h2⟩, Or.inr (by simpa only [extendProb, or_self] using h3)⟩

theorem extendProb_mono (ht : NonNeg t) : ∀ (os ks : List Int) (a b : ℝ) (j : Int), a ≤ b →
    extendProb t a j os ks ≤ extendProb t b j os ks := by
  intro os
  induction os with
  | nil => intro ks a b j h; cases ks <;> simpa [extendProb] using h
  | cons o os ih =>
    intro ks a b j h
    cases ks with
    | nil => simpa [extendProb] using h
    | cons k ks =>
      simp only [extendProb]
      exact ih ks _ _ k (mul_le_mul_of_nonneg_right h (mul_nonneg (ht.trans _ _) (ht.emis _ _)))

theorem extendProb_smul (c : ℝ) : ∀ (os ks : List Int) (a : ℝ) (j : Int),
    extendProb t (c * a) j os ks = c * extendProb t a j os ks := by
  intro os
  induction os with
  | nil => intro ks a j; cases ks <;> simp [extendProb]
  | cons o os ih =>
    intro ks a j
    cases ks with
    | nil => simp [extendProb]
    | cons k ks =>
      simp only [extendProb]
      rw [← ih]
      congr 1
      ring

/-- Back in `K`, with a loss. -/
theorem beat_lost (ht : NonNeg t) {os ks : List Int} {acc A : ℝ} (hl : ks.length = os.length) (hk : ∀ k ∈ ks, k ∈ keys)
    (h : acc ≤ μ * A) : Beat t K μ os ks acc K A :=
  ⟨ks, hl, hk, Or.inl (by rw [← extendProb_smul]; exact extendProb_mono ht os ks _ _ K h)⟩

/-- Going on to another key, with a loss. -/
theorem beat_exit (ht : NonNeg t) {o k : Int} {os ks : List Int} {acc A : ℝ} {j : Int} (hl : (k :: ks).length = (o :: os).length)
    (hk : ∀ x ∈ k :: ks, x ∈ keys) (h : acc * t.trans j k ≤ μ * (A * t.trans K k)) : Beat t K μ (o :: os) (k :: ks) acc j A := by
  refine ⟨k :: ks, hl, hk, Or.inl ?_⟩
  simp only [extendProb]
  rw [← extendProb_smul]
  refine extendProb_mono ht os ks _ _ k ?_
  have := mul_le_mul_of_nonneg_right h (ht.emis k o)
  nlinarith

/-- What is known while the sequence may still be in `K` now and then. -/
def Inv (K : Int) (U V : Int → ℝ) (acc : ℝ) (j : Int) (A : ℝ) : Prop := acc ≤ U j * A ∨ (j ≠ K ∧ acc ≤ V j * A)

/-- Before the note in question. -/
theorem before (ht : NonNeg t) (hK : K ∈ keys) (hg : 0 < t.trans K K) {U U' : Int → ℝ} {os1 : List Int}
    (l : Leads t K μ U os1 U') : ∀ {V V' : Int → ℝ}, Free t K V os1 V' → (∀ o ∈ os1, 0 < t.emis K o) → 1 ≤ U K →
    ∀ (os2 ks1 ks2 : List Int), ks1.length = os1.length → (∀ k ∈ ks1, k ∈ keys) →
    (1 ≤ U' K → ∀ j acc A, j ∈ keys → 0 ≤ acc → 0 ≤ A → Inv K U' V' acc j A → Beat t K μ os2 ks2 acc j A) →
    ∀ j acc A, j ∈ keys → 0 ≤ acc → 0 ≤ A → Inv K U V acc j A → Beat t K μ (os1 ++ os2) (ks1 ++ ks2) acc j A := by
  induction l with
  | @stop U U' h =>
    intro V V' f _ hU1 os2 ks1 ks2 hl hk H j acc A hj h0 hA hi
    obtain rfl := List.length_eq_zero_iff.1 hl
    cases f with
    | stop hf =>
      refine H (hU1.trans (h K hK)) j acc A hj h0 hA ?_
      rcases hi with hi | ⟨hne, hi⟩
      · exact Or.inl (hi.trans (mul_le_mul_of_nonneg_right (h j hj) hA))
      · exact Or.inr ⟨hne, hi.trans (mul_le_mul_of_nonneg_right (hf j hj hne) hA)⟩
  | @step U U₁ U' o os s _ ih =>
    intro V V' f hpos hU1 os2 ks1 ks2 hl hk H j acc A hj h0 hA hi
    cases f with
    | @step _ V₁ _ _ _ sf f =>
      match ks1, hl with
      | k :: ks1, hl =>
        have hk1 : k ∈ keys := hk k (by simp)
        have hx : 0 ≤ t.trans j k * t.emis k o := mul_nonneg (ht.trans _ _) (ht.emis _ _)
        have hst : 0 < t.trans K K * t.emis K o := mul_pos hg (hpos o (by simp))
        have hU2 : 1 ≤ U₁ K := by
          have := s.move K hK K hK
          nlinarith
        have go := ih f (fun o' h' => hpos o' (by simp [h'])) hU2 os2 ks1 ks2 (by simpa using hl) (fun x hx => hk x (by simp [hx])) H
        rw [List.cons_append, List.cons_append]
        by_cases e : k = K
        · subst e
          refine beat_reset hK (go k _ _ hK (mul_nonneg h0 hx) (mul_nonneg h0 hx) (Or.inl ?_))
          have := mul_nonneg h0 hx
          nlinarith
        · refine beat_step hk1 hK (go k _ _ hk1 (mul_nonneg h0 hx) (mul_nonneg hA hst.le) ?_)
          rcases hi with hi | ⟨hne, hi⟩
          · refine Or.inl ?_
            calc acc * (t.trans j k * t.emis k o) ≤ U j * A * (t.trans j k * t.emis k o) := mul_le_mul_of_nonneg_right hi hx
              _ = A * (U j * (t.trans j k * t.emis k o)) := by ring
              _ ≤ A * (U₁ k * (t.trans K K * t.emis K o)) := mul_le_mul_of_nonneg_left (s.move j hj k hk1) hA
              _ = U₁ k * (A * (t.trans K K * t.emis K o)) := by ring
          · refine Or.inr ⟨e, ?_⟩
            calc acc * (t.trans j k * t.emis k o) ≤ V j * A * (t.trans j k * t.emis k o) := mul_le_mul_of_nonneg_right hi hx
              _ = A * (V j * (t.trans j k * t.emis k o)) := by ring
              _ ≤ A * (V₁ k * (t.trans K K * t.emis K o)) := mul_le_mul_of_nonneg_left (sf j hj hne k hk1 e) hA
              _ = V₁ k * (A * (t.trans K K * t.emis K o)) := by ring

/-- After the note in question, away from `K`. -/
theorem after (ht : NonNeg t) (hK : K ∈ keys) {U U' : Int → ℝ} {os1 : List Int}
    (l : Leads t K μ U os1 U') : ∀ {V V' : Int → ℝ}, Free t K V os1 V' →
    ∀ (os2 ks1 ks2 : List Int), ks1.length = os1.length → (∀ k ∈ ks1, k ∈ keys) → ks2.length = os2.length →
    (∀ k ∈ ks2, k ∈ keys) →
    (∀ j acc A, j ∈ keys → j ≠ K → 0 ≤ acc → 0 ≤ A → acc ≤ U' j * A → acc ≤ V' j * A → Beat t K μ os2 ks2 acc j A) →
    ∀ j acc A, j ∈ keys → j ≠ K → 0 ≤ acc → 0 ≤ A → acc ≤ U j * A → acc ≤ V j * A →
      Beat t K μ (os1 ++ os2) (ks1 ++ ks2) acc j A := by
  induction l with
  | @stop U U' h =>
    intro V V' f os2 ks1 ks2 hl hk hl2 hk2 H j acc A hj hne h0 hA h1 h2
    obtain rfl := List.length_eq_zero_iff.1 hl
    cases f with
    | stop hf =>
      exact H j acc A hj hne h0 hA (h1.trans (mul_le_mul_of_nonneg_right (h j hj) hA))
        (h2.trans (mul_le_mul_of_nonneg_right (hf j hj hne) hA))
  | @step U U₁ U' o os s _ ih =>
    intro V V' f os2 ks1 ks2 hl hk hl2 hk2 H j acc A hj hne h0 hA h1 h2
    cases f with
    | @step _ V₁ _ _ _ sf f =>
      match ks1, hl with
      | k :: ks1, hl =>
        have hk1 : k ∈ keys := hk k (by simp)
        have hx : 0 ≤ t.trans j k * t.emis k o := mul_nonneg (ht.trans _ _) (ht.emis _ _)
        have hst : 0 ≤ t.trans K K * t.emis K o := mul_nonneg (ht.trans _ _) (ht.emis _ _)
        rw [List.cons_append, List.cons_append]
        by_cases e : k = K
        · subst e
          refine beat_step hK hK (beat_lost ht (by simpa [hl2] using hl) (fun x hx => ?_) ?_)
          · rcases List.mem_append.1 hx with h | h
            · exact hk x (by simp [h])
            · exact hk2 x h
          · calc acc * (t.trans j k * t.emis k o) ≤ U j * A * (t.trans j k * t.emis k o) := mul_le_mul_of_nonneg_right h1 hx
              _ = A * t.emis k o * (U j * t.trans j k) := by ring
              _ ≤ A * t.emis k o * (μ * t.trans k k) :=
                  mul_le_mul_of_nonneg_left (s.back j hj hne) (mul_nonneg hA (ht.emis _ _))
              _ = μ * (A * (t.trans k k * t.emis k o)) := by ring
        · refine beat_step hk1 hK (ih f os2 ks1 ks2 (by simpa using hl) (fun x hx => hk x (by simp [hx])) hl2 hk2 H k _ _ hk1 e
            (mul_nonneg h0 hx) (mul_nonneg hA hst) ?_ ?_)
          · calc acc * (t.trans j k * t.emis k o) ≤ U j * A * (t.trans j k * t.emis k o) := mul_le_mul_of_nonneg_right h1 hx
              _ = A * (U j * (t.trans j k * t.emis k o)) := by ring
              _ ≤ A * (U₁ k * (t.trans K K * t.emis K o)) := mul_le_mul_of_nonneg_left (s.move j hj k hk1) hA
              _ = U₁ k * (A * (t.trans K K * t.emis K o)) := by ring
          · calc acc * (t.trans j k * t.emis k o) ≤ V j * A * (t.trans j k * t.emis k o) := mul_le_mul_of_nonneg_right h2 hx
              _ = A * (V j * (t.trans j k * t.emis k o)) := by ring
              _ ≤ A * (V₁ k * (t.trans K K * t.emis K o)) := mul_le_mul_of_nonneg_left (sf j hj hne k hk1 e) hA
              _ = V₁ k * (A * (t.trans K K * t.emis K o)) := by ring

/-! ### A passage -/

/-- What is known about the phrases of a passage in key `K`: potentials `U` between two of them; how much better than staying
in `K` it can be to have kept away from `K` since the beginning of the passage (`B`, after so many phrases) or since some
phrase of it (`C`); after `N` phrases that is too little. -/
structure Passage (t : Tables ℝ) (K : Int) (μ : ℝ) (N : Nat) (P : List Int → Prop) where
  U : Int → ℝ
  B : Nat → Int → ℝ
  C : Nat → Int → ℝ
  R : Int → ℝ
  home : 1 ≤ U K
  small : ∀ k ∈ keys, k ≠ K → U k ≤ μ
  later : ∀ p, P p → Leads t K μ U p U
  pos : ∀ p, P p → ∀ o ∈ p, 0 < t.emis K o
  first : ∀ p, P p → ∃ o os V, p = o :: os ∧ (∀ k ∈ keys, t.emis k o ≤ V k * t.emis K o) ∧ Leads t K μ V os U
  come : ∀ j ∈ keys, ∀ k ∈ keys, k ≠ K → t.trans j k ≤ R k * t.trans j K
  enter : ∀ o os, P (o :: os) → ∃ V, (∀ k ∈ keys, k ≠ K → R k * t.emis k o ≤ V k * t.emis K o) ∧ Free t K V os (B 1)
  stay : ∀ i p, P p → Free t K (B (i + 1)) p (B (i + 2))
  settled : ∀ i, N ≤ i → ∀ k ∈ keys, k ≠ K → B i k ≤ U k
  off : ∀ k ∈ keys, k ≠ K → U k ≤ C 0 k
  away : ∀ i p, P p → Free t K (C i) p (C (i + 1))
  leave : ∀ i, N ≤ i → ∀ j ∈ keys, j ≠ K → ∀ k ∈ keys, C i j * t.trans j k ≤ μ * t.trans K k

section
variable {N : Nat} {P : List Int → Prop} (S : Passage t K μ N P) (ht : NonNeg t) (hK : K ∈ keys) (hg : 0 < t.trans K K)

include S ht hK in
/-- Phrases after the note in question, then other music or the end of the piece. -/
theorem tail_beat (post : List Int) : ∀ (ps : List (List Int)) (i : Nat), (∀ p ∈ ps, P p) → (post = [] ∨ N ≤ i + ps.length) →
    ∀ ks : List Int, ks.length = (ps.flatten ++ post).length → (∀ k ∈ ks, k ∈ keys) →
    ∀ j acc A, j ∈ keys → j ≠ K → 0 ≤ acc → 0 ≤ A → acc ≤ S.U j * A → acc ≤ S.C i j * A →
      Beat t K μ (ps.flatten ++ post) ks acc j A := by
  intro ps
  induction ps with
  | nil =>
    intro i _ hN ks hl hk j acc A hj hne h0 hA h1 h2
    simp only [List.flatten_nil, List.nil_append] at hl ⊢
    match post, ks, hl with
    | [], [], _ =>
      refine ⟨[], rfl, by simp, Or.inl ?_⟩
      simp only [extendProb]
      exact h1.trans (mul_le_mul_of_nonneg_right (S.small j hj hne) hA)
    | o :: post, k :: ks, hl =>
      refine beat_exit ht hl hk ?_
      have hN' : N ≤ i := by simpa using hN
      calc acc * t.trans j k ≤ S.C i j * A * t.trans j k := mul_le_mul_of_nonneg_right h2 (ht.trans _ _)
        _ = A * (S.C i j * t.trans j k) := by ring
        _ ≤ A * (μ * t.trans K k) := mul_le_mul_of_nonneg_left (S.leave i hN' j hj hne k (hk k (by simp))) hA
        _ = μ * (A * t.trans K k) := by ring
  | cons p ps ih =>
    intro i hP hN ks hl hk j acc A hj hne h0 hA h1 h2
    rw [List.flatten_cons, List.append_assoc] at hl ⊢
    rw [List.length_append] at hl
    have e : ks = ks.take p.length ++ ks.drop p.length := (List.take_append_drop _ _).symm
    rw [e]
    refine after ht hK (S.later p (hP p (by simp))) (S.away i p (hP p (by simp))) _ _ _ (by rw [List.length_take]; omega)
      (fun k h => hk k (List.mem_of_mem_take h)) (by rw [List.length_drop]; omega) (fun k h => hk k (List.mem_of_mem_drop h)) ?_
      j acc A hj hne h0 hA h1 h2
    intro j acc A hj hne h0 hA h1 h2
    refine ih (i + 1) (fun q hq => hP q (by simp [hq])) ?_ _ (by rw [List.length_drop]; omega)
      (fun k h => hk k (List.mem_of_mem_drop h)) j acc A hj hne h0 hA h1 h2
    rcases hN with h | h
    · exact Or.inl h
    · exact Or.inr (by simp only [List.length_cons] at h; omega)

include S ht hK in
/-- From the note in question on. -/
theorem off_beat {V : Int → ℝ} {b : List Int} (l : Leads t K μ V b S.U) (ps : List (List Int)) (hP : ∀ p ∈ ps, P p)
    (post : List Int) (hN : post = [] ∨ N ≤ ps.length) (ks : List Int) (hl : ks.length = (b ++ (ps.flatten ++ post)).length)
    (hk : ∀ k ∈ ks, k ∈ keys) (j : Int) (acc A : ℝ) (hj : j ∈ keys) (hne : j ≠ K) (h0 : 0 ≤ acc) (hA : 0 ≤ A)
    (h1 : acc ≤ V j * A) : Beat t K μ (b ++ (ps.flatten ++ post)) ks acc j A := by
  rw [List.length_append] at hl
  rw [← List.take_append_drop b.length ks]
  refine after ht hK l l.free _ _ _ (by rw [List.length_take]; omega)
    (fun k h => hk k (List.mem_of_mem_take h)) (by rw [List.length_drop]; omega) (fun k h => hk k (List.mem_of_mem_drop h)) ?_
    j acc A hj hne h0 hA h1 h1
  intro j acc A hj hne h0 hA h1 _
  exact tail_beat S ht hK post ps 0 hP (by simpa using hN) _ (by rw [List.length_drop]; omega)
    (fun k h => hk k (List.mem_of_mem_drop h)) j acc A hj hne h0 hA h1
    (h1.trans (mul_le_mul_of_nonneg_right (S.off j hj hne) hA))

include S ht hK hg in
/-- The note in question is `x`. -/
theorem middle_beat {V : Int → ℝ} {a b : List Int} {x : Int} (l : Leads t K μ V (a ++ x :: b) S.U) (hV : 1 ≤ V K)
    (hpos : ∀ o ∈ a, 0 < t.emis K o) (ps : List (List Int)) (hP : ∀ p ∈ ps, P p)
    (post : List Int) (hN : post = [] ∨ N ≤ ps.length) (ks1 ks2 : List Int) (k : Int) (hl1 : ks1.length = a.length)
    (hl : ks2.length = (b ++ (ps.flatten ++ post)).length) (hk1 : ∀ k ∈ ks1, k ∈ keys) (hk : k ∈ keys) (hne : k ≠ K)
    (hk2 : ∀ k ∈ ks2, k ∈ keys) (j : Int) (acc A : ℝ) (hj : j ∈ keys) (h0 : 0 ≤ acc) (hA : 0 ≤ A) (h1 : acc ≤ V j * A) :
    Beat t K μ (a ++ x :: (b ++ (ps.flatten ++ post))) (ks1 ++ k :: ks2) acc j A := by
  obtain ⟨X, la, lb⟩ := l.split
  refine before ht hK hg la la.free hpos hV _ _ _ hl1 hk1 ?_ j acc A hj h0 hA (Or.inl h1)
  intro _ j acc A hj h0 hA hi
  have h1 : acc ≤ X j * A := by
    rcases hi with h | h
    · exact h
    · exact h.2
  cases lb with
  | @step _ X' _ _ _ s lb =>
    have hx : 0 ≤ t.trans j k * t.emis k x := mul_nonneg (ht.trans _ _) (ht.emis _ _)
    refine beat_step hk hK (off_beat S ht hK lb ps hP post hN ks2 hl hk2 k _ _ hk hne (mul_nonneg h0 hx)
      (mul_nonneg hA (mul_nonneg (ht.trans _ _) (ht.emis _ _))) ?_)
    calc acc * (t.trans j k * t.emis k x) ≤ X j * A * (t.trans j k * t.emis k x) := mul_le_mul_of_nonneg_right h1 hx
      _ = A * (X j * (t.trans j k * t.emis k x)) := by ring
      _ ≤ A * (X' k * (t.trans K K * t.emis K x)) := mul_le_mul_of_nonneg_left (s.move j hj k hk) hA
      _ = X' k * (A * (t.trans K K * t.emis K x)) := by ring

include S in
theorem leads_all (ht : NonNeg t) (ps : List (List Int)) (hP : ∀ p ∈ ps, P p) : Leads t K μ S.U ps.flatten S.U := by
  induction ps with
  | nil => exact .stop (fun _ _ => le_refl _)
  | cons p ps ih =>
    rw [List.flatten_cons]
    exact (S.later p (hP p (by simp))).append ht (ih (fun q hq => hP q (by simp [hq])))

include S ht hK hg in
/-- The first phrases, after the first note. -/
theorem head_beat (os2 : List Int) (ks2 : List Int)
    (H : ∀ j acc A, j ∈ keys → 0 ≤ acc → 0 ≤ A → acc ≤ S.U j * A → Beat t K μ os2 ks2 acc j A) :
    ∀ (ps : List (List Int)) (i : Nat), (∀ p ∈ ps, P p) → N ≤ i + 1 + ps.length → ∀ ks1 : List Int,
    ks1.length = ps.flatten.length → (∀ k ∈ ks1, k ∈ keys) →
    ∀ j acc A, j ∈ keys → 0 ≤ acc → 0 ≤ A → Inv K S.U (S.B (i + 1)) acc j A → Beat t K μ (ps.flatten ++ os2) (ks1 ++ ks2) acc j A := by
  intro ps
  induction ps with
  | nil =>
    intro i _ hN ks1 hl _ j acc A hj h0 hA hi
    obtain rfl := List.length_eq_zero_iff.1 hl
    refine H j acc A hj h0 hA ?_
    rcases hi with h | ⟨hne, h⟩
    · exact h
    · exact h.trans (mul_le_mul_of_nonneg_right (S.settled (i + 1) (by simpa using hN) j hj hne) hA)
  | cons p ps ih =>
    intro i hP hN ks1 hl hk j acc A hj h0 hA hi
    rw [List.flatten_cons] at hl
    rw [List.length_append] at hl
    rw [List.flatten_cons, List.append_assoc, ← List.take_append_drop p.length ks1, List.append_assoc]
    refine before ht hK hg (S.later p (hP p (by simp))) (S.stay i p (hP p (by simp))) (S.pos p (hP p (by simp))) S.home _ _ _
      (by rw [List.length_take]; omega) (fun k h => hk k (List.mem_of_mem_take h)) ?_ j acc A hj h0 hA hi
    intro _ j acc A hj h0 hA hi
    exact ih (i + 1) (fun q hq => hP q (by simp [hq])) (by simp only [List.length_cons] at hN; omega) _
      (by rw [List.length_drop]; omega) (fun k h => hk k (List.mem_of_mem_drop h)) j acc A hj h0 hA hi

/-- Some other way to go on is better by the factor `μ`. -/
def Better (t : Tables ℝ) (μ : ℝ) (os ks : List Int) (acc : ℝ) (j : Int) : Prop :=
  ∃ ys : List Int, ys.length = os.length ∧ (∀ y ∈ ys, y ∈ keys) ∧ extendProb t acc j os ks ≤ μ * extendProb t acc j os ys

theorem Better.cons {o k : Int} {os ks : List Int} {acc : ℝ} {j : Int} (hk : k ∈ keys)
    (h : Better t μ os ks (acc * (t.trans j k * t.emis k o)) k) : Better t μ (o :: os) (k :: ks) acc j := by
  obtain ⟨ys, h1, h2, h3⟩ := h
  exact ⟨k :: ys, by simp [h1], by simpa using ⟨hk, h2⟩, by simpa only [extendProb] using h3⟩

include S ht hK hg in
/-- Entering the passage from any other music. -/
theorem enter_beat (os2 : List Int) (ks2 : List Int)
    (H : ∀ j acc A, j ∈ keys → 0 ≤ acc → 0 ≤ A → acc ≤ S.U j * A → Beat t K μ os2 ks2 acc j A)
    (ps : List (List Int)) (hP : ∀ p ∈ ps, P p) (hN : N ≤ ps.length) (hne : ps ≠ []) (ks1 : List Int)
    (hl : ks1.length = ps.flatten.length) (hk : ∀ k ∈ ks1, k ∈ keys) (j : Int) (acc : ℝ) (hj : j ∈ keys) (h0 : 0 ≤ acc) :
    Better t μ (ps.flatten ++ os2) (ks1 ++ ks2) acc j := by
  match ps, hne with
  | p :: ps, _ =>
    obtain ⟨o, os, _, rfl, _, _⟩ := S.first p (hP p (by simp))
    obtain ⟨V, hV, hf⟩ := S.enter o os (hP _ (by simp))
    rw [List.flatten_cons, List.length_append, List.length_cons] at hl
    match ks1, hl with
    | [], hl => simp at hl; omega
    | k :: ks1, hl =>
      have hk1 : k ∈ keys := hk k (by simp)
      have hl := S.later _ (hP (o :: os) (by simp))
      have hpos := S.pos _ (hP (o :: os) (by simp))
      cases hl with
      | @step _ U₁ _ _ _ s lb =>
        have hst : 0 < t.trans K K * t.emis K o := mul_pos hg (hpos o (by simp))
        have hU2 : 1 ≤ U₁ K := by
          have := s.move K hK K hK
          have := S.home
          nlinarith
        have go := before ht hK hg lb hf (fun o' h' => hpos o' (by simp [h'])) hU2 (ps.flatten ++ os2) (ks1.take os.length)
          (ks1.drop os.length ++ ks2) (by rw [List.length_take]; simp only [List.length_cons] at *; omega)
          (fun x h => hk x (by simp [List.mem_of_mem_take h]))
          (fun _ j acc A hj h0 hA hi => head_beat S ht hK hg os2 ks2 H ps 0 (fun q hq => hP q (by simp [hq]))
            (by simp only [List.length_cons] at hN; omega) _ (by rw [List.length_drop]; simp only [List.length_cons] at *; omega)
            (fun x h => hk x (by simp [List.mem_of_mem_drop h])) j acc A hj h0 hA hi)
        rw [← List.append_assoc, ← List.append_assoc, List.take_append_drop, List.append_assoc] at go
        have e1 : (((o :: os) :: ps).flatten ++ os2) = o :: (os ++ (ps.flatten ++ os2)) := by simp
        rw [e1, List.cons_append]
        have hx : ∀ k, 0 ≤ t.trans j k * t.emis k o := fun k => mul_nonneg (ht.trans _ _) (ht.emis _ _)
        by_cases e : k = K
        · subst e
          obtain ⟨ys, g1, g2, g3⟩ := go k (acc * (t.trans j k * t.emis k o)) (acc * (t.trans j k * t.emis k o)) hK
            (mul_nonneg h0 (hx _)) (mul_nonneg h0 (hx _)) (Or.inl (by have := mul_nonneg h0 (hx k); nlinarith))
          exact Better.cons hK ⟨ys, g1, g2, by simpa only [or_self] using g3⟩
        · obtain ⟨ys, g1, g2, g3⟩ := go k (acc * (t.trans j k * t.emis k o)) (acc * (t.trans j K * t.emis K o)) hk1
            (mul_nonneg h0 (hx _)) (mul_nonneg h0 (hx _)) (Or.inr ⟨e, by
              calc acc * (t.trans j k * t.emis k o) ≤ acc * (S.R k * t.trans j K * t.emis k o) :=
                    mul_le_mul_of_nonneg_left (mul_le_mul_of_nonneg_right (S.come j hj k hk1 e) (ht.emis _ _)) h0
                _ = acc * t.trans j K * (S.R k * t.emis k o) := by ring
                _ ≤ acc * t.trans j K * (V k * t.emis K o) := mul_le_mul_of_nonneg_left (hV k hk1 e) (mul_nonneg h0 (ht.trans _ _))
                _ = V k * (acc * (t.trans j K * t.emis K o)) := by ring⟩)
          rcases g3 with g3 | g3
          · exact ⟨K :: ys, by simp only [List.length_cons]; omega, by simpa using ⟨hK, g2⟩, by simpa only [extendProb] using g3⟩
          · exact Better.cons hk1 ⟨ys, g1, g2, g3⟩

include S ht hK hg in
/-- A note in the middle of the passage, after other music. -/
theorem inside_better (ps1 ps ps2 : List (List Int)) (hP1 : ∀ p ∈ ps1, P p) (hP : ∀ p ∈ ps, P p) (hP2 : ∀ p ∈ ps2, P p)
    (post : List Int) (hN1 : N ≤ ps1.length) (hne1 : ps1 ≠ []) (hN2 : post = [] ∨ N ≤ ps2.length) (a b : List Int) (x : Int)
    (hab : ps.flatten = a ++ x :: b) (k : Int) (hk : k ∈ keys) (hne : k ≠ K) :
    ∀ (pre ks1 ks2 : List Int), ks1.length = pre.length + (ps1.flatten.length + a.length) →
    ks2.length = (b ++ (ps2.flatten ++ post)).length → (∀ k ∈ ks1, k ∈ keys) → (∀ k ∈ ks2, k ∈ keys) →
    ∀ (j : Int) (acc : ℝ), j ∈ keys → 0 ≤ acc →
      Better t μ (pre ++ (ps1.flatten ++ (a ++ x :: (b ++ (ps2.flatten ++ post))))) (ks1 ++ k :: ks2) acc j := by
  intro pre
  induction pre with
  | nil =>
    intro ks1 ks2 hl1 hl2 hk1 hk2 j acc hj h0
    simp only [List.length_nil, Nat.zero_add] at hl1
    rw [List.nil_append]
    have l := leads_all S ht ps hP
    rw [hab] at l
    have hpos : ∀ o ∈ a, 0 < t.emis K o := fun o ho => by
      have : o ∈ ps.flatten := by rw [hab]; simp [ho]
      obtain ⟨p, hp, hop⟩ := List.mem_flatten.1 this
      exact S.pos p (hP p hp) o hop
    rw [← List.take_append_drop ps1.flatten.length ks1, List.append_assoc]
    refine enter_beat S ht hK hg _ _ (fun j acc A hj h0 hA h1 => ?_) ps1 hP1 hN1 hne1 _ (by rw [List.length_take]; omega)
      (fun k h => hk1 k (List.mem_of_mem_take h)) j acc hj h0
    exact middle_beat S ht hK hg l S.home hpos ps2 hP2 post hN2 _ ks2 k (by rw [List.length_drop]; omega) hl2
      (fun k h => hk1 k (List.mem_of_mem_drop h)) hk hne hk2 j acc A hj h0 hA h1
  | cons o pre ih =>
    intro ks1 ks2 hl1 hl2 hk1 hk2 j acc hj h0
    match ks1, hl1 with
    | k' :: ks1, hl1 =>
      have hk' := hk1 k' (by simp)
      exact Better.cons hk' (ih ks1 ks2 (by simp only [List.length_cons] at hl1; omega) hl2 (fun k h => hk1 k (by simp [h])) hk2 k' _ hk'
        (mul_nonneg h0 (mul_nonneg (ht.trans _ _) (ht.emis _ _))))
    | [], hl1 => simp at hl1; omega

include S ht hK hg in
/-- A note of a passage that opens the piece. -/
theorem opening_better (hinit : ∀ k ∈ keys, t.init k = t.init K) (ps ps2 : List (List Int)) (hP : ∀ p ∈ ps, P p)
    (hP2 : ∀ p ∈ ps2, P p) (post : List Int) (hN2 : post = [] ∨ N ≤ ps2.length) (a b : List Int) (x : Int)
    (hab : ps.flatten = a ++ x :: b) (k : Int) (hk : k ∈ keys) (hne : k ≠ K) (ks1 ks2 : List Int) (hl1 : ks1.length = a.length)
    (hl2 : ks2.length = (b ++ (ps2.flatten ++ post)).length) (hk1 : ∀ k ∈ ks1, k ∈ keys) (hk2 : ∀ k ∈ ks2, k ∈ keys) :
    ∃ ys : List Int, ys.length = (a ++ x :: (b ++ (ps2.flatten ++ post))).length ∧ (∀ y ∈ ys, y ∈ keys) ∧
      prob t (a ++ x :: (b ++ (ps2.flatten ++ post))) (ks1 ++ k :: ks2) ≤
        μ * prob t (a ++ x :: (b ++ (ps2.flatten ++ post))) ys := by
  have hpsne : ps ≠ [] := by rintro rfl; simp at hab
  match ps, hpsne with
  | p :: ps, _ =>
    obtain ⟨o, os, V, rfl, hV, lV⟩ := S.first p (hP p (by simp))
    have l := lV.append ht (leads_all S ht ps (fun q hq => hP q (by simp [hq])))
    have hpo : 0 < t.emis K o := S.pos _ (hP (o :: os) (by simp)) o (by simp)
    have hVK : 1 ≤ V K := by
      have := hV K hK
      nlinarith
    have h1 : ∀ k ∈ keys, t.init k * t.emis k o ≤ V k * (t.init K * t.emis K o) := fun k hk => by
      rw [hinit k hk]
      have := mul_le_mul_of_nonneg_left (hV k hk) (ht.init K)
      linarith
    rw [List.flatten_cons, List.cons_append] at hab
    match a, ks1, hl1 with
    | [], _ :: _, hl1 => simp at hl1
    | _ :: _, [], hl1 => simp at hl1
    | [], [], _ =>
      simp only [List.nil_append, List.cons.injEq] at hab ⊢
      obtain ⟨rfl, hb⟩ := hab
      rw [hb] at l
      obtain ⟨ys, g1, g2, g3⟩ := off_beat S ht hK l ps2 hP2 post hN2 ks2 hl2 hk2 k (t.init k * t.emis k o) (t.init K * t.emis K o) hk hne
        (mul_nonneg (ht.init _) (ht.emis _ _)) (mul_nonneg (ht.init _) (ht.emis _ _)) (h1 k hk)
      rcases g3 with g3 | g3
      · exact ⟨K :: ys, by simp only [List.length_cons]; omega, by simpa using ⟨hK, g2⟩, by simpa only [prob] using g3⟩
      · exact ⟨k :: ys, by simp only [List.length_cons]; omega, by simpa using ⟨hk, g2⟩, by simpa only [prob] using g3⟩
    | o' :: a, k' :: ks1, hl1 =>
      simp only [List.cons_append, List.cons.injEq] at hab ⊢
      obtain ⟨rfl, hb⟩ := hab
      rw [hb] at l
      have hk' := hk1 k' (by simp)
      have hpos : ∀ o' ∈ a, 0 < t.emis K o' := fun o' ho => by
        have : o' ∈ ((o :: os) :: ps).flatten := by
          rw [List.flatten_cons, List.cons_append, hb]
          simp [ho]
        obtain ⟨p, hp, hop⟩ := List.mem_flatten.1 this
        exact S.pos p (hP p hp) o' hop
      obtain ⟨ys, g1, g2, g3⟩ := middle_beat S ht hK hg l hVK hpos ps2 hP2 post hN2 ks1 ks2 k (by simpa using hl1) hl2
        (fun x h => hk1 x (by simp [h])) hk hne hk2 k' (t.init k' * t.emis k' o) (t.init K * t.emis K o) hk'
        (mul_nonneg (ht.init _) (ht.emis _ _)) (mul_nonneg (ht.init _) (ht.emis _ _)) (h1 k' hk')
      rcases g3 with g3 | g3
      · exact ⟨K :: ys, by simp only [List.length_cons]; omega, by simpa using ⟨hK, g2⟩, by simpa only [prob] using g3⟩
      · exact ⟨k' :: ys, by simp only [List.length_cons]; omega, by simpa using ⟨hk', g2⟩, by simpa only [prob] using g3⟩

end

end JKD.Spec
