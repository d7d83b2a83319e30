import Verif.Props.ViterbiProps
/-
Two hidden Markov models whose paths correspond one to one with equal scores.
-/

namespace JKD.HMM

open Spec

variable {D : Type}

/-- `f` carries the paths of `P` to those of `P'` and preserves scores. -/
structure Iso (F : FPU D) (P P' : Problem D) (f : Int → Int) : Prop where
  obs : P'.obs.length = P.obs.length
  states : ∀ s ∈ P.states, f s ∈ P'.states
  inj : ∀ s ∈ P.states, ∀ r ∈ P.states, f s = f r → s = r
  surj : ∀ s' ∈ P'.states, ∃ s ∈ P.states, f s = s'
  score : ∀ ks, P.IsPath ks → score F (P'.tables F) P'.obs (ks.map f) = score F (P.tables F) P.obs ks

namespace Iso

variable {F : FPU D} {P P' : Problem D} {f : Int → Int}

theorem path (I : Iso F P P' f) {ks : List Int} (h : P.IsPath ks) : P'.IsPath (ks.map f) := by
  refine ⟨by rw [List.length_map, I.obs]; exact h.1, ?_⟩
  intro k hk
  obtain ⟨s, hs, rfl⟩ := List.mem_map.1 hk
  exact I.states s (h.2 s hs)

theorem lift (I : Iso F P P' f) (ks' : List Int) (h : ∀ k ∈ ks', k ∈ P'.states) :
    ∃ ks : List Int, (∀ k ∈ ks, k ∈ P.states) ∧ ks.map f = ks' := by
  induction ks' with
  | nil => exact ⟨[], by simp, rfl⟩
  | cons k ks' ih =>
    obtain ⟨ks, h1, h2⟩ := ih (fun k hk => h k (by simp [hk]))
    obtain ⟨s, hs, rfl⟩ := I.surj k (h k (by simp))
    refine ⟨s :: ks, ?_, by simp [h2]⟩
    intro k hk
    rcases List.mem_cons.1 hk with rfl | hk
    · exact hs
    · exact h1 k hk

theorem path' (I : Iso F P P' f) {ks' : List Int} (h : P'.IsPath ks') :
    ∃ ks, P.IsPath ks ∧ ks.map f = ks' := by
  obtain ⟨ks, h1, h2⟩ := I.lift ks' h.2
  refine ⟨ks, ⟨?_, h1⟩, h2⟩
  have := h.1
  rw [← h2, List.length_map, I.obs] at this
  exact this

theorem possible (I : Iso F P P' f) {ks : List Int} (h : P.IsPath ks) :
    Possible F (P'.tables F) P'.obs (ks.map f) ↔ Possible F (P.tables F) P.obs ks := by
  unfold Possible
  rw [I.score ks h]

theorem possible_iff (I : Iso F P P' f) :
    (∃ ks, P'.IsPath ks ∧ Possible F (P'.tables F) P'.obs ks) ↔
      ∃ ks, P.IsPath ks ∧ Possible F (P.tables F) P.obs ks := by
  constructor
  · rintro ⟨ks', h1, h2⟩
    obtain ⟨ks, h3, rfl⟩ := I.path' h1
    exact ⟨ks, h3, (I.possible h3).1 h2⟩
  · rintro ⟨ks, h1, h2⟩
    exact ⟨ks.map f, I.path h1, (I.possible h1).2 h2⟩

theorem map_inj (I : Iso F P P' f) {ks ls : List Int} (hk : ∀ k ∈ ks, k ∈ P.states)
    (hl : ∀ k ∈ ls, k ∈ P.states) (h : ks.map f = ls.map f) : ks = ls := by
  induction ks generalizing ls with
  | nil => cases ls <;> simp_all
  | cons k ks ih =>
    cases ls with
    | nil => simp at h
    | cons l ls =>
      simp only [List.map_cons, List.cons.injEq] at h
      rw [I.inj k (hk k (by simp)) l (hl l (by simp)) h.1,
        ih (fun k h => hk k (by simp [h])) (fun k h => hl k (by simp [h])) h.2]

/-- Vector entries of corresponding states are equal as values. -/
theorem vec {Num : D → Prop} (W : FPLaws F Num) (I : Iso F P P' f) (hP : P.WF) (hP' : P'.WF)
    {h h' : HMM D} {path path' : List Int} (R : RunOk F Num P.fresh h path) (R' : RunOk F Num P'.fresh h' path')
    {s : Int} (hs : s ∈ P.states) :
    ∃ v v', h.probVec[s.toNat]? = some v ∧ h'.probVec[(f s).toNat]? = some v' ∧
      F.lt v v' = false ∧ F.lt v' v = false := by
  obtain ⟨v, hv, hup, hat, _, _⟩ := R.vec s hs
  obtain ⟨v', hv', hup', hat', _, _⟩ := R'.vec (f s) (I.states s hs)
  rw [P.tables_fresh F hP] at hup hat
  rw [P'.tables_fresh F hP'] at hup' hat'
  have above : ∀ a b, F.lt a b = true → F.lt F.negInf b = true := by
    intro a b hlt
    rcases W.lt_cotrans _ F.negInf _ W.num_negInf hlt with h3 | h3
    · rw [W.not_lt_negInf] at h3; exact absurd h3 (by simp)
    · exact h3
  refine ⟨v, v', hv, hv', ?_, ?_⟩
  · cases hlt : F.lt v v' with
    | false => rfl
    | true =>
      have hpos := above _ _ hlt
      obtain ⟨ks', hp', hsc'⟩ := hat' hpos
      obtain ⟨ks, hp, hm⟩ := I.path' hp'
      have hne : ks ≠ [] := by rintro rfl; simp at hm
      obtain ⟨ini, l, rfl⟩ : ∃ ini l, ks = ini ++ [l] :=
        ⟨ks.dropLast, ks.getLast hne, (List.dropLast_concat_getLast hne).symm⟩
      rw [List.map_append, List.map_singleton] at hm
      have hl : f l = f s := by
        have := List.append_inj_right' hm rfl
        simpa using this
      have hls := I.inj l (hp.2 l (by simp)) s hs hl
      subst hls
      have hsc : Spec.score F (P.tables F) P.obs (ini ++ [l]) = v' := by
        have h1 := I.score _ hp
        rw [List.map_append, List.map_singleton, hm] at h1
        exact h1.symm.trans hsc'
      have h2 := (hup ini hp (by unfold Possible; exact (congrArg (F.lt F.negInf) hsc).trans hpos)).2
      exact hlt.symm.trans ((congrArg (F.lt v) hsc).symm.trans h2)
  · cases hlt : F.lt v' v with
    | false => rfl
    | true =>
      have hpos := above _ _ hlt
      obtain ⟨ks, hp, hsc⟩ := hat hpos
      have hp' := I.path hp
      have h1 := I.score _ hp
      rw [List.map_append, List.map_singleton] at h1 hp'
      have hsc' : Spec.score F (P'.tables F) P'.obs (ks.map f ++ [f s]) = v := h1.trans hsc
      have h2 := (hup' _ hp' (by unfold Possible; exact (congrArg (F.lt F.negInf) hsc').trans hpos)).2
      exact hlt.symm.trans ((congrArg (F.lt v') hsc').symm.trans h2)

end Iso

/-- Relabelling states by `f` and observations by `g` does not change a score. -/
theorem extend_relabel (F : FPU D) (T T' : Tables D) (f g : Int → Int) (S O : List Int)
    (ht : ∀ j ∈ S, ∀ k ∈ S, T'.trans (f j) (f k) = T.trans j k)
    (he : ∀ k ∈ S, ∀ o ∈ O, T'.emis (f k) (g o) = T.emis k o) (acc : D) (prev : Int) (hp : prev ∈ S)
    (os ks : List Int) (hos : ∀ o ∈ os, o ∈ O) (hks : ∀ k ∈ ks, k ∈ S) :
    extend F T' acc (f prev) (os.map g) (ks.map f) = extend F T acc prev os ks := by
  induction os generalizing acc prev ks with
  | nil => simp [extend]
  | cons o os ih =>
    cases ks with
    | nil => simp [extend]
    | cons k ks =>
      have hk := hks k (by simp)
      simp only [List.map_cons, extend]
      rw [ht prev hp k hk, he k hk o (hos o (by simp))]
      exact ih _ k hk ks (fun o h => hos o (by simp [h])) (fun k h => hks k (by simp [h]))

theorem score_relabel (F : FPU D) (T T' : Tables D) (f g : Int → Int) (S O : List Int)
    (hi : ∀ k ∈ S, T'.init (f k) = T.init k)
    (ht : ∀ j ∈ S, ∀ k ∈ S, T'.trans (f j) (f k) = T.trans j k)
    (he : ∀ k ∈ S, ∀ o ∈ O, T'.emis (f k) (g o) = T.emis k o)
    (os ks : List Int) (hos : ∀ o ∈ os, o ∈ O) (hks : ∀ k ∈ ks, k ∈ S) :
    score F T' (os.map g) (ks.map f) = score F T os ks := by
  cases os with
  | nil => simp [score]
  | cons o os =>
    cases ks with
    | nil => simp [score]
    | cons k ks =>
      have hk := hks k (by simp)
      simp only [List.map_cons, score]
      rw [hi k hk, he k hk o (hos o (by simp))]
      exact extend_relabel F T T' f g S O ht he _ k hk os ks (fun o h => hos o (by simp [h]))
        (fun k h => hks k (by simp [h]))

end JKD.HMM
