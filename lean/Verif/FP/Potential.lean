import Verif.FP.ExactScore
import Verif.Spec.Music
import Mathlib.Tactic.Linarith
/-
A way to show that staying in one key is more probable than every other sequence of keys, for music of any length: numbers
`V k` (potentials) that bound how much better, compared with having stayed in the key `K`, one can be off when one is now in
key `k`.
-/

namespace JKD.Spec

/-- From potentials `V` to potentials `V'` over the note `o`: no move gains more than the potentials allow, and who comes
back to `K` has lost the factor `μ`. -/
structure PotStep (t : Tables ℝ) (K : Int) (μ : ℝ) (V V' : Int → ℝ) (o : Int) : Prop where
  move : ∀ j ∈ keys, ∀ k ∈ keys, V j * (t.trans j k * t.emis k o) ≤ V' k * (t.trans K K * t.emis K o)
  back : ∀ j ∈ keys, j ≠ K → V j * t.trans j K ≤ μ * t.trans K K

/-- A chain of such steps. -/
inductive Leads (t : Tables ℝ) (K : Int) (μ : ℝ) : (Int → ℝ) → List Int → (Int → ℝ) → Prop
  | stop {V W} : (∀ k ∈ keys, V k ≤ W k) → Leads t K μ V [] W
  | step {V V' W o os} : PotStep t K μ V V' o → Leads t K μ V' os W → Leads t K μ V (o :: os) W

variable {t : Tables ℝ} {K : Int} {μ : ℝ}

theorem Leads.mono (ht : NonNeg t) {V W X : Int → ℝ} {os : List Int} (h : ∀ k ∈ keys, V k ≤ W k)
    (l : Leads t K μ W os X) : Leads t K μ V os X := by
  cases l with
  | stop h' => exact .stop (fun k hk => (h k hk).trans (h' k hk))
  | step s l =>
    refine .step ⟨fun j hj k hk => ?_, fun j hj hne => ?_⟩ l
    · exact (mul_le_mul_of_nonneg_right (h j hj) (mul_nonneg (ht.trans _ _) (ht.emis _ _))).trans (s.move j hj k hk)
    · exact (mul_le_mul_of_nonneg_right (h j hj) (ht.trans _ _)).trans (s.back j hj hne)

theorem Leads.append (ht : NonNeg t) {V W X : Int → ℝ} {a b : List Int} (l : Leads t K μ V a W)
    (l' : Leads t K μ W b X) : Leads t K μ V (a ++ b) X := by
  induction l with
  | stop h => exact l'.mono ht h
  | step s _ ih => exact .step s (ih l')

/-- Whoever has left `K` at some time has lost the factor `μ` in the end. -/
theorem Leads.bound (ht : NonNeg t) {V W : Int → ℝ} {os : List Int} (l : Leads t K μ V os W)
    (hW : ∀ k ∈ keys, k ≠ K → W k ≤ μ) : ∀ (ks : List Int) (j : Int) (acc A : ℝ) (left : Prop), ks.length = os.length →
      (∀ k ∈ ks, k ∈ keys) → j ∈ keys → 0 ≤ A → acc ≤ V j * A → (j ≠ K → left) → (left → j = K → acc ≤ μ * A) →
      K ∈ keys → (left ∨ ∃ k ∈ ks, k ≠ K) →
      extendProb t acc j os ks ≤ μ * extendProb t A K os (List.replicate os.length K) := by
  induction l with
  | stop h =>
    intro ks j acc A left hl hk hj hA h1 h2 h3 _ h4
    obtain rfl := List.length_eq_zero_iff.1 hl
    simp only [extendProb]
    have hleft : left := by simpa using h4
    by_cases e : j = K
    · exact h3 hleft e
    · exact h1.trans (mul_le_mul_of_nonneg_right ((h j hj).trans (hW j hj e)) hA)
  | @step V V' W o os s _ ih =>
    intro ks j acc A left hl hk hj hA h1 h2 h3 hK h4
    match ks, hl with
    | k :: ks, hl =>
      have hk1 : k ∈ keys := hk k (by simp)
      simp only [List.length_cons, List.replicate_succ, extendProb]
      have hx : 0 ≤ t.trans j k * t.emis k o := mul_nonneg (ht.trans _ _) (ht.emis _ _)
      refine ih hW ks k _ _ (left ∨ k ≠ K) (by simpa using hl) (fun k' h' => hk k' (by simp [h'])) hk1
        (mul_nonneg hA (mul_nonneg (ht.trans _ _) (ht.emis _ _))) ?_ (fun h => Or.inr h) ?_ hK ?_
      · calc acc * (t.trans j k * t.emis k o) ≤ V j * A * (t.trans j k * t.emis k o) := mul_le_mul_of_nonneg_right h1 hx
          _ = A * (V j * (t.trans j k * t.emis k o)) := by ring
          _ ≤ A * (V' k * (t.trans K K * t.emis K o)) := mul_le_mul_of_nonneg_left (s.move j hj k hk1) hA
          _ = V' k * (A * (t.trans K K * t.emis K o)) := by ring
      · rintro hor rfl
        have hleft : left := by
          rcases hor with h | h
          · exact h
          · exact absurd rfl h
        by_cases e : j = k
        · subst e
          calc acc * (t.trans j j * t.emis j o) ≤ μ * A * (t.trans j j * t.emis j o) :=
                mul_le_mul_of_nonneg_right (h3 hleft rfl) hx
            _ = μ * (A * (t.trans j j * t.emis j o)) := by ring
        · calc acc * (t.trans j k * t.emis k o) ≤ V j * A * (t.trans j k * t.emis k o) := mul_le_mul_of_nonneg_right h1 hx
            _ = A * t.emis k o * (V j * t.trans j k) := by ring
            _ ≤ A * t.emis k o * (μ * t.trans k k) :=
                mul_le_mul_of_nonneg_left (s.back j hj e) (mul_nonneg hA (ht.emis _ _))
            _ = μ * (A * (t.trans k k * t.emis k o)) := by ring
      · rcases h4 with h | ⟨k', hm, hne⟩
        · exact Or.inl (Or.inl h)
        · rcases List.mem_cons.1 hm with rfl | hm
          · exact Or.inl (Or.inr hne)
          · exact Or.inr ⟨k', hm, hne⟩

/-- The whole piece. -/
theorem Leads.decided (ht : NonNeg t) {V W : Int → ℝ} {o : Int} {os : List Int} (l : Leads t K μ V os W)
    (hW : ∀ k ∈ keys, k ≠ K → W k ≤ μ) (hK : K ∈ keys)
    (h0 : ∀ k ∈ keys, t.init k * t.emis k o ≤ V k * (t.init K * t.emis K o)) (ks : List Int)
    (hl : ks.length = (o :: os).length) (hk : ∀ k ∈ ks, k ∈ keys) (hne : ks ≠ List.replicate (o :: os).length K) :
    prob t (o :: os) ks ≤ μ * prob t (o :: os) (List.replicate (o :: os).length K) := by
  match ks, hl with
  | k :: ks, hl =>
    simp only [List.length_cons, List.replicate_succ, prob]
    refine l.bound ht hW ks k _ _ (k ≠ K) (by simpa using hl) (fun k' h' => hk k' (by simp [h'])) (hk k (by simp))
      (mul_nonneg (ht.init _) (ht.emis _ _)) (h0 k (hk k (by simp))) id (fun h h' => absurd h' h) hK ?_
    by_contra hall
    rw [not_or, not_not] at hall
    apply hne
    rw [List.eq_replicate_iff]
    refine ⟨hl, fun b hb => ?_⟩
    rcases List.mem_cons.1 hb with rfl | hb
    · exact hall.1
    · by_contra hbk
      exact hall.2 ⟨b, hb, hbk⟩

/-- Staying has positive probability if every note has. -/
theorem extendProb_const_pos (K : Int) (hg : 0 < t.trans K K) : ∀ (os : List Int) (A : ℝ), 0 < A →
    (∀ o ∈ os, 0 < t.emis K o) → 0 < extendProb t A K os (List.replicate os.length K) := by
  intro os
  induction os with
  | nil => intro A hA _; simpa [extendProb] using hA
  | cons o os ih =>
    intro A hA h
    simp only [List.length_cons, List.replicate_succ, extendProb]
    exact ih _ (mul_pos hA (mul_pos hg (h o (by simp)))) (fun o' h' => h o' (by simp [h']))

theorem prob_const_pos (K : Int) (hg : 0 < t.trans K K) (hi : 0 < t.init K) (os : List Int) (hne : os ≠ [])
    (h : ∀ o ∈ os, 0 < t.emis K o) : 0 < prob t os (List.replicate os.length K) := by
  match os with
  | o :: os =>
    simp only [List.length_cons, List.replicate_succ, prob]
    exact extendProb_const_pos K hg os _ (mul_pos hi (h o (by simp))) (fun o' h' => h o' (by simp [h']))

end JKD.Spec
