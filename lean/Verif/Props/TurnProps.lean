import Verif.Props.PyTablesProps
/-
C126: which generations the search keeps, and how it takes turns between profiles and transitions (ga.py:103-173).
C127: what a mutation changes (evolver.py:62-82, 113-143).
-/

namespace JKD.Opt

set_option linter.unusedSectionVars false

variable {K : Type} [Field K] [LinearOrder K] [IsStrictOrderedRing K]

/-! ### C127: mutations -/

/-- `t'` is `t` with a tenth of entry `i` moved to entry `j`. -/
structure TenthMoved (t t' : List K) (i j : Nat) : Prop where
  length : t'.length = t.length
  different : i ≠ j
  loses : t'.getD i 0 = t.getD i 0 * 9 / 10
  gains : t'.getD j 0 = t.getD j 0 + t.getD i 0 / 10
  others : ∀ k, k ≠ i → k ≠ j → t'.getD k 0 = t.getD k 0

theorem moved_tenth (t : List K) (i j : Nat) (hi : i < t.length) (hj : j < t.length) (hij : i ≠ j) :
    TenthMoved t (moved t i j) i j := by
  refine ⟨moved_length t i j, hij, ?_, ?_, ?_⟩
  · unfold moved
    simp only [List.getD_eq_getElem?_getD, List.getElem?_set, List.length_set, hi, if_true, hij.symm, if_false,
      Option.getD_some]
    ring
  · unfold moved
    simp only [List.getD_eq_getElem?_getD, List.getElem?_set, List.length_set, hj, if_true, Option.getD_some]
    ring
  · intro k hki hkj
    unfold moved
    simp only [List.getD_eq_getElem?_getD, List.getElem?_set, hki.symm, hkj.symm, if_false]

/-- Every table of `s` is still there in `s'`. -/
def KeepsTables (s s' : St K) : Prop :=
  (∀ n t, s.kp n = some t → s'.kp n = some t) ∧ (∀ n t, s.kt n = some t → s'.kt n = some t)

/-- **C127, profiles.**  Whatever is drawn, the mutation of a profile gives the profile itself, with nothing
stored, or a profile under a new name that has a tenth of one entry moved to another entry of the same mode.
It never raises. -/
theorem C127_profile {ε : K} (fuel : Nat) (n : Name) (s : St K) (w : WF ε s) (t : List K) (ht : s.kp n = some t) :
    (∀ e, mutateProfile fuel n s ≠ .raised e) ∧
    ∀ m s', mutateProfile fuel n s = .done (m, s') → KeepsTables s s' ∧
      ((m = n ∧ s'.kp = s.kp) ∨
       (s.kp m = none ∧ ∃ t' i j, s'.kp m = some t' ∧ TenthMoved t t' i j ∧
         ((i < 12 ∧ j < 12) ∨ (12 ≤ i ∧ i < 24 ∧ 12 ≤ j ∧ j < 24)))) := by
  have key : wp (mutateProfile fuel n) s (fun m s' => KeepsTables s s' ∧
      ((m = n ∧ s'.kp = s.kp) ∨
       (s.kp m = none ∧ ∃ t' i j, s'.kp m = some t' ∧ TenthMoved t t' i j ∧
         ((i < 12 ∧ j < 12) ∨ (12 ≤ i ∧ i < 24 ∧ 12 ≤ j ∧ j < 24))))) (fun _ => False) := by
    unfold mutateProfile
    apply wp_bind
    refine wp_mono wp_random ?_ (fun _ h => h)
    rintro u s1 ⟨h1, _⟩
    by_cases hu : u < 1 / 2
    · rw [if_pos hu]
      refine wp_bind (wp_get ?_)
      refine wp_bind (wp_modify ?_)
      apply wp_bind
      refine wp_mono (wp_choice [(0, 11), (12, 23)] (by simp)) ?_ (fun _ h => h)
      rintro r s2 ⟨h2, hr⟩
      apply wp_bind
      refine wp_mono (wp_twoIndices fuel r.1 r.2 ?_) ?_ (fun _ h => h)
      · simp at hr
        rcases hr with rfl | rfl <;> simp
      rintro ⟨i, j⟩ s3 ⟨h3, hij, hi, hi', hj, hj'⟩
      have ht1 : s1.kp n = some t := by rw [h1.kp]; exact ht
      simp only [ht1]
      have w1 := h1.wf w
      have hg := w1.kp n t ht1
      have hrange : (i < 12 ∧ j < 12) ∨ (12 ≤ i ∧ i < 24 ∧ 12 ≤ j ∧ j < 24) := by
        simp at hr
        rcases hr with rfl | rfl
        · simp only at hi' hj'; omega
        · simp only at hi hi' hj hj'; omega
      have hil : i < t.length := by rw [hg.1]; omega
      have hjl : j < t.length := by rw [hg.1]; omega
      rw [shift_eq t i j hil hjl hij]
      refine wp_bind (wp_pure ?_)
      refine wp_bind (wp_mono (wp_insertProfile _ _ _) ?_ (fun _ h => h))
      rintro _ s4 ⟨ws, rfl⟩
      obtain ⟨_, rest, e, rfl⟩ := h2.trans h3
      have hfresh : s.kp (.kpm s1.evoKp) = none := by rw [← h1.kp]; exact w1.kpmId _ (le_refl _)
      refine wp_pure ⟨⟨?_, ?_⟩, Or.inr ⟨hfresh, moved t i j, i, j, by simp [Dict.put], moved_tenth t i j hil hjl hij, hrange⟩⟩
      · intro n' t' h
        simp only [Dict.put, h1.kp]
        rw [if_neg]
        · exact h
        · rintro rfl
          rw [hfresh] at h
          cases h
      · intro n' t' h
        simp only [h1.kt]
        exact h
    · rw [if_neg hu]
      exact wp_pure ⟨⟨h1.ext.kp, h1.ext.kt⟩, Or.inl ⟨rfl, h1.kp⟩⟩
  unfold wp at key
  constructor
  · intro e h
    rw [h] at key
    exact key
  · intro m s' h
    rw [h] at key
    exact key

/-- **C127, stochastic transitions.**  A stored table whose name starts with `kts` is always replaced by a table
under a new name that has a tenth of one of the 24 entries moved to another. -/
theorem C127_stochastic {ε : K} (fuel : Nat) (n : Name) (s : St K) (w : WF ε s) (t : List K) (ht : s.kt n = some t)
    (hn : "kts".toList <+: n.render) :
    (∀ e, mutateTransition fuel n s ≠ .raised e) ∧
    ∀ m s', mutateTransition fuel n s = .done (m, s') → KeepsTables s s' ∧ s.kt m = none ∧
      "kts".toList <+: m.render ∧
      ∃ t' i j, s'.kt m = some t' ∧ TenthMoved t t' i j ∧ i < 24 ∧ j < 24 := by
  have hs : n.isKts = true := List.isPrefixOf_iff_prefix.2 hn
  have hg : ¬ n.isKtg = true := by
    intro h
    have h' := List.isPrefixOf_iff_prefix.1 h
    obtain ⟨r, hr⟩ := hn
    obtain ⟨r', hr'⟩ := h'
    rw [← hr] at hr'
    simp at hr'
  have key : wp (mutateTransition fuel n) s (fun m s' => KeepsTables s s' ∧ s.kt m = none ∧
      "kts".toList <+: m.render ∧
      ∃ t' i j, s'.kt m = some t' ∧ TenthMoved t t' i j ∧ i < 24 ∧ j < 24) (fun _ => False) := by
    unfold mutateTransition
    rw [if_neg hg, if_pos hs]
    apply wp_bind
    refine wp_mono wp_random ?_ (fun _ h => h)
    rintro u s1 ⟨h1, d, hd, rfl⟩
    rw [if_pos (w.unit d hd).2]
    refine wp_bind (wp_get ?_)
    refine wp_bind (wp_modify ?_)
    apply wp_bind
    refine wp_mono (wp_twoIndices fuel 0 23 (by omega)) ?_ (fun _ h => h)
    rintro ⟨i, j⟩ s3 ⟨h3, hij, _, hi', _, hj'⟩
    have ht1 : s1.kt n = some t := by rw [h1.kt]; exact ht
    simp only [ht1]
    simp only at hi' hj'
    have w1 := h1.wf w
    have hgd := w1.kt n t ht1
    have hil : i < t.length := by rw [hgd.1]; omega
    have hjl : j < t.length := by rw [hgd.1]; omega
    rw [shift_eq t i j hil hjl hij]
    refine wp_bind (wp_pure ?_)
    refine wp_bind (wp_mono (wp_insertTransition _ _ _) ?_ (fun _ h => h))
    rintro _ s4 ⟨ws, rfl⟩
    obtain ⟨_, rest, e, rfl⟩ := h3
    have hfresh : s.kt (.ktsm s1.evoKt) = none := by rw [← h1.kt]; exact w1.ktsmId _ (le_refl _)
    refine wp_pure ⟨⟨?_, ?_⟩, hfresh, ⟨'m' :: Nat.toDigits 10 s1.evoKt, rfl⟩,
      moved t i j, i, j, by simp [Dict.put], moved_tenth t i j hil hjl hij, by omega, by omega⟩
    · intro n' t' h
      simp only [h1.kp]
      exact h
    · intro n' t' h
      simp only [Dict.put, h1.kt]
      rw [if_neg]
      · exact h
      · rintro rfl
        rw [hfresh] at h
        cases h
  unfold wp at key
  constructor
  · intro e h
    rw [h] at key
    exact key
  · intro m s' h
    rw [h] at key
    exact key

/-- **C127, geometric transitions.**  A stored table whose name starts with `ktg` and whose ratio `r` is stored is
always replaced by a table under a new name: the geometric table of a ratio within a tenth of `r` (C47_geometric
says which table that is), and that ratio is stored with it. -/
theorem C127_geometric {ε : K} (fuel : Nat) (n : Name) (s : St K) (w : WF ε s) (r : K)
    (hr : s.ratio n = some r) (hn : "ktg".toList <+: n.render) :
    (∀ e, mutateTransition fuel n s ≠ .raised e) ∧
    ∀ m s', mutateTransition fuel n s = .done (m, s') → KeepsTables s s' ∧ s.kt m = none ∧
      "ktg".toList <+: m.render ∧
      ∃ t' r', s'.kt m = some t' ∧ s'.ratio m = some r' ∧ r * 9 / 10 ≤ r' ∧ r' ≤ r * 11 / 10 ∧
        t'.length = 24 ∧ Distribution t' ∧
        ∀ i < 24, ∀ j < 24, t'.getD i 0 * r' ^ distance i = t'.getD j 0 * r' ^ distance j := by
  have hg : n.isKtg = true := List.isPrefixOf_iff_prefix.2 hn
  have hrpos := w.ratio n r hr
  have key : wp (mutateTransition fuel n) s (fun m s' => KeepsTables s s' ∧ s.kt m = none ∧
      "ktg".toList <+: m.render ∧
      ∃ t' r', s'.kt m = some t' ∧ s'.ratio m = some r' ∧ r * 9 / 10 ≤ r' ∧ r' ≤ r * 11 / 10 ∧
        t'.length = 24 ∧ Distribution t' ∧
        ∀ i < 24, ∀ j < 24, t'.getD i 0 * r' ^ distance i = t'.getD j 0 * r' ^ distance j) (fun _ => False) := by
    unfold mutateTransition
    rw [if_pos hg]
    apply wp_bind
    refine wp_mono wp_random ?_ (fun _ h => h)
    rintro u s1 ⟨h1, d, hd, rfl⟩
    rw [if_pos (w.unit d hd).2]
    refine wp_bind (wp_get ?_)
    refine wp_bind (wp_modify ?_)
    have hr1 : s1.ratio n = some r := by obtain ⟨_, _, _, rfl⟩ := h1; exact hr
    have w1 := h1.wf w
    simp only [hr1]
    apply wp_bind
    refine wp_mono wp_random ?_ (fun _ h => h)
    rintro v s2 ⟨h2, d', hd', rfl⟩
    have hv := w1.unit d' hd'
    have hrv : 0 ≤ r * d'.unit := mul_nonneg hrpos.le hv.1
    have hrv' : r * d'.unit ≤ r := by nlinarith
    have hnew : 0 < r - r * (1 / 10) + (r + r * (1 / 10) - (r - r * (1 / 10))) * d'.unit := by nlinarith
    have hlo : r * 9 / 10 ≤ r - r * (1 / 10) + (r + r * (1 / 10) - (r - r * (1 / 10))) * d'.unit := by nlinarith
    have hhi : r - r * (1 / 10) + (r + r * (1 / 10) - (r - r * (1 / 10))) * d'.unit ≤ r * 11 / 10 := by nlinarith
    obtain ⟨t', hrun, hlen, hdist, hsteps⟩ := C47_geometric _ hnew s2
    apply wp_bind
    have hwp : wp (generateGeometric (r - r * (1 / 10) + (r + r * (1 / 10) - (r - r * (1 / 10))) * d'.unit)) s2
        (fun t s3 => s3 = s2 ∧ t = t') (fun _ => False) := by
      unfold wp
      rw [hrun]
      exact ⟨rfl, rfl⟩
    refine wp_mono hwp ?_ (fun _ h => h)
    rintro kt s3 ⟨rfl, rfl⟩
    refine wp_bind (wp_modify ?_)
    refine wp_bind (wp_mono (wp_insertTransition _ _ _) ?_ (fun _ h => h))
    rintro _ s4 ⟨ws, rfl⟩
    obtain ⟨_, rest, e, rfl⟩ := h2
    have hfresh : s.kt (.ktgm s1.evoKt) = none := by rw [← h1.kt]; exact w1.ktgmId _ (le_refl _)
    refine wp_pure ⟨⟨?_, ?_⟩, hfresh, ⟨'m' :: Nat.toDigits 10 s1.evoKt, rfl⟩,
      kt, _, by simp [Dict.put], by simp [Dict.put], hlo, hhi, hlen, hdist, hsteps⟩
    · intro n' t'' h
      simp only [h1.kp]
      exact h
    · intro n' t'' h
      simp only [Dict.put, h1.kt]
      rw [if_neg]
      · exact h
      · rintro rfl
        rw [hfresh] at h
        cases h
  unfold wp at key
  constructor
  · intro e h
    rw [h] at key
    exact key
  · intro m s' h
    rw [h] at key
    exact key

/-- C127: mutations that finish; a profile of ga.py that changes, a new geometric table and a new stochastic one. -/
example : (mutateProfile 50 (.given "sapp") (imported [⟨0, 0⟩, ⟨0, 0⟩, ⟨3, 0⟩, ⟨5, 0⟩])).isDone = true ∧
    ((generateTransition 256 >>= mutateTransition 50 : Py Rat Name)
      (imported [⟨0, 0⟩, ⟨0, 1 / 3⟩, ⟨0, 0⟩, ⟨0, 1 / 4⟩])).isDone = true ∧
    ((generateTransition 256 >>= mutateTransition 50 : Py Rat Name)
      (imported (⟨9, 0⟩ :: List.replicate 24 ⟨1, 0⟩ ++ [⟨0, 0⟩, ⟨3, 0⟩, ⟨5, 0⟩]))).isDone = true := by decide +kernel

/-! ### C126: turns -/

/-- The errors of a new generation are good enough: one of them is below the lowest error so far, or one of them
equals it and the errors together are at most the stored ones together. -/
def GoodEnough (g : Ga K) (errors : List K) : Prop :=
  (∃ e ∈ errors, ∀ l, g.lowest = some l → e < l) ∨
  ((∃ l ∈ errors, g.lowest = some l) ∧ errors.sum ≤ g.scores.sum)

/-- The generation that follows the population of `g` when the state is `s`: of profiles or of transitions, by the
turn; with the state after it. -/
def Next (P : Params) (g : Ga K) (s : St K) (new : List Name) (s1 : St K) : Prop :=
  if g.evolvingProfiles then evolveProfiles P.fuel P.kpMax g.kps s = .done (new, s1)
  else evolveTransitions P.fuel P.ktMax g.kts s = .done (new, s1)

/-- The error of a member of a population, with the best table of the other kind. -/
def memberError (B : Bench K) (g : Ga K) (s : St K) (n : Name) : K :=
  if g.evolvingProfiles then B.error (s.kp n) (s.kt g.bestKt) else B.error (s.kp g.bestKp) (s.kt n)

/-- The population whose turn it is. -/
def current (g : Ga K) : List Name := if g.evolvingProfiles then g.kps else g.kts

/-- The best member of the population whose turn it is. -/
def currentBest (g : Ga K) : Name := if g.evolvingProfiles then g.bestKp else g.bestKt

/-- The other population and its best member. -/
def other (g : Ga K) : List Name × Name := if g.evolvingProfiles then (g.kts, g.bestKt) else (g.kps, g.bestKp)

theorem accept_iff (best : Grade K) (grading : List (Grade K)) (g : Ga K) (hb : best ∈ grading)
    (hl : ∀ x ∈ grading, best.err ≤ x.err) :
    accept best.err (grading.map (·.err)) g = true ↔ GoodEnough g (grading.map (·.err)) := by
  unfold accept GoodEnough
  rw [Bool.or_eq_true, Bool.and_eq_true, decide_eq_true_eq, decide_eq_true_eq]
  constructor
  · rintro (h | ⟨h, h'⟩)
    · left
      refine ⟨best.err, List.mem_map_of_mem hb, ?_⟩
      intro l hlo
      rw [hlo] at h
      simpa [below] using h
    · exact Or.inr ⟨⟨best.err, List.mem_map_of_mem hb, h.symm⟩, h'⟩
  · rintro (⟨e, he, h⟩ | ⟨⟨l, hle, hlo⟩, h⟩)
    · left
      obtain ⟨x, hx, rfl⟩ := List.mem_map.1 he
      cases hlo : g.lowest with
      | none => rfl
      | some l =>
        simp only [below, decide_eq_true_eq]
        exact (hl x hx).trans_lt (h l hlo)
    · obtain ⟨x, hx, rfl⟩ := List.mem_map.1 hle
      rcases (hl x hx).eq_or_lt with h' | h'
      · exact Or.inr ⟨by rw [hlo, h'], h⟩
      · left
        rw [hlo]
        simpa [below] using h'

/-- What a turn must do. -/
structure TurnSpec (B : Bench K) (P : Params) (g : Ga K) (s1 : St K) (new : List Name) (g' : Ga K) : Prop where
  kept : GoodEnough g (new.map (memberError B g s1)) →
    (current g').Perm new ∧ (current g').Pairwise (fun a b => memberError B g s1 a ≤ memberError B g s1 b) ∧
    currentBest g' ∈ new ∧ (∀ n ∈ new, memberError B g s1 (currentBest g') ≤ memberError B g s1 n) ∧
    g'.lowest = some (memberError B g s1 (currentBest g')) ∧
    g'.scores = (current g').map (memberError B g s1) ∧
    g'.evolvingProfiles = g.evolvingProfiles ∧ other g' = other g ∧ g'.bad = 0
  refused : ¬ GoodEnough g (new.map (memberError B g s1)) →
    g'.kps = g.kps ∧ g'.kts = g.kts ∧ g'.bestKp = g.bestKp ∧ g'.bestKt = g.bestKt ∧ g'.lowest = g.lowest ∧
    g'.scores = g.scores ∧
    (g.bad < P.threshold → g'.bad = g.bad + 1 ∧ g'.evolvingProfiles = g.evolvingProfiles) ∧
    (P.threshold ≤ g.bad → g'.bad = 0 ∧ g'.evolvingProfiles = !g.evolvingProfiles)

theorem bind_done {α β : Type} {m : Py K α} {f : α → Py K β} {s s' : St K} {b : β}
    (h : (m >>= f) s = .done (b, s')) : ∃ a s1, m s = .done (a, s1) ∧ f a s1 = .done (b, s') := by
  change Py.bind m f s = _ at h
  unfold Py.bind at h
  cases hm : m s with
  | done p => obtain ⟨a, s1⟩ := p; rw [hm] at h; exact ⟨a, s1, rfl, h⟩
  | raised e => rw [hm] at h; cases h
  | waiting => rw [hm] at h; cases h

theorem sortGrades_pairwise (l : List (Grade K)) : (sortGrades l).Pairwise (fun a b => a.err ≤ b.err) := by
  haveI : Std.Total (fun a b : Grade K => a.err ≤ b.err) := ⟨fun a b => le_total a.err b.err⟩
  haveI : IsTrans (Grade K) (fun a b => a.err ≤ b.err) := ⟨fun a b c h1 h2 => h1.trans h2⟩
  exact List.pairwise_insertionSort _ l

/-- **C126, one turn.**  Every turn of the search that finishes makes one new generation of the population whose
turn it is, and keeps or refuses it as `TurnSpec` says. -/
theorem C126_turn (B : Bench K) (P : Params) (g g' : Ga K) (s s' : St K)
    (h : step B P g s = .done (g', s')) :
    ∃ new s1, Next P g s new s1 ∧ TurnSpec B P g s1 new g' := by
  unfold step at h
  by_cases hm : g.evolvingProfiles = true
  · rw [if_pos hm] at h
    unfold stepProfiles at h
    obtain ⟨new, s1, hnew, h⟩ := bind_done h
    refine ⟨new, s1, by unfold Next; rw [if_pos hm]; exact hnew, ?_⟩
    obtain ⟨grading, s2, hgr, h⟩ := bind_done h
    have hgr' : sortGrades (new.map (fun n => (⟨B.error (s1.kp n) (s1.kt g.bestKt), n, g.bestKt⟩ : Grade K))) = grading ∧
        s1 = s2 := by
      have : Out.done (sortGrades (new.map (fun n => (⟨B.error (s1.kp n) (s1.kt g.bestKt), n, g.bestKt⟩ : Grade K))), s1)
          = .done (grading, s2) := hgr
      injection this with this
      injection this with h1 h2
      exact ⟨h1, h2⟩
    obtain ⟨hG, rfl⟩ := hgr'
    obtain ⟨hp, hbest⟩ := sortGrades_spec (new.map (fun n => (⟨B.error (s1.kp n) (s1.kt g.bestKt), n, g.bestKt⟩ : Grade K)))
    have hsorted := sortGrades_pairwise (new.map (fun n => (⟨B.error (s1.kp n) (s1.kt g.bestKt), n, g.bestKt⟩ : Grade K)))
    rw [hG] at hp hbest hsorted
    have herr : ∀ x ∈ grading, x.err = memberError B g s1 x.kp ∧ x.kp ∈ new := by
      intro x hx
      obtain ⟨n, hn, rfl⟩ := List.mem_map.1 (hp.subset hx)
      exact ⟨by simp only [memberError, hm, if_true], hn⟩
    have hkps : (grading.map (·.kp)).Perm new := by
      have := hp.map (fun x : Grade K => x.kp)
      rwa [List.map_map, show ((fun x : Grade K => x.kp) ∘ fun n => (⟨B.error (s1.kp n) (s1.kt g.bestKt), n, g.bestKt⟩ : Grade K))
        = id from rfl, List.map_id] at this
    have herrs : grading.map (·.err) = (grading.map (·.kp)).map (memberError B g s1) := by
      rw [List.map_map]
      exact List.map_congr_left (fun x hx => (herr x hx).1)
    have hge : GoodEnough g (grading.map (·.err)) ↔ GoodEnough g (new.map (memberError B g s1)) := by
      rw [herrs]
      have hpm := hkps.map (memberError B g s1)
      unfold GoodEnough
      rw [hpm.sum_eq]
      simp only [hpm.mem_iff]
    have hsort : (grading.map (·.kp)).Pairwise (fun a b => memberError B g s1 a ≤ memberError B g s1 b) := by
      rw [List.pairwise_map]
      refine hsorted.imp_of_mem ?_
      intro a b ha hb hab
      rw [← (herr a ha).1, ← (herr b hb).1]
      exact hab
    cases grading with
    | nil => cases h
    | cons best rest =>
      obtain ⟨hbm, hbl⟩ := hbest best rest rfl
      have hbl' : ∀ x ∈ best :: rest, best.err ≤ x.err := fun x hx => hbl x (hp.subset hx)
      have hacc := accept_iff best (best :: rest) g (by simp) hbl'
      simp only at h
      by_cases ha : accept best.err ((best :: rest).map (·.err)) g = true
      · rw [if_pos ha] at h
        obtain ⟨_, s3, _, h⟩ := bind_done h
        have hg' : g' = { g with
            lowest := some best.err, bestKp := best.kp, scores := (best :: rest).map (·.err),
            kps := (best :: rest).map (·.kp), bad := 0 } := by
          injection h with h
          injection h with h1 h2
          exact h1.symm
        subst hg'
        refine ⟨fun _ => ?_, fun hn => absurd (hge.1 (hacc.1 ha)) hn⟩
        unfold current currentBest other
        simp only [hm, if_true]
        refine ⟨hkps, hsort, (herr best (by simp)).2, ?_, by rw [(herr best (by simp)).1], herrs, trivial, trivial, trivial⟩
        intro n hn
        rw [← (herr best (by simp)).1]
        obtain ⟨x, hx, rfl⟩ := List.mem_map.1 (hkps.symm.subset hn)
        rw [← (herr x hx).1]
        exact hbl' x hx
      · rw [if_neg ha] at h
        obtain ⟨_, s3, _, h⟩ := bind_done h
        refine ⟨fun hn => absurd (hacc.2 (hge.2 hn)) ha, fun _ => ?_⟩
        by_cases ht : P.threshold < g.bad + 1
        · rw [if_pos ht] at h
          have hg' : g' = { g with bad := 0, evolvingProfiles := false } := by
            injection h with h
            injection h with h1 h2
            exact h1.symm
          subst hg'
          refine ⟨rfl, rfl, rfl, rfl, rfl, rfl, fun _ => by omega, fun _ => ⟨rfl, by rw [hm]; rfl⟩⟩
        · rw [if_neg ht] at h
          have hg' : g' = { g with bad := g.bad + 1 } := by
            injection h with h
            injection h with h1 h2
            exact h1.symm
          subst hg'
          exact ⟨rfl, rfl, rfl, rfl, rfl, rfl, fun _ => ⟨rfl, rfl⟩, fun _ => by omega⟩
  · rw [if_neg hm] at h
    have hm' : g.evolvingProfiles = false := by simpa using hm
    unfold stepTransitions at h
    obtain ⟨new, s1, hnew, h⟩ := bind_done h
    refine ⟨new, s1, by unfold Next; rw [if_neg hm]; exact hnew, ?_⟩
    obtain ⟨grading, s2, hgr, h⟩ := bind_done h
    have hgr' : sortGrades (new.map (fun n => (⟨B.error (s1.kp g.bestKp) (s1.kt n), g.bestKp, n⟩ : Grade K))) = grading ∧
        s1 = s2 := by
      have : Out.done (sortGrades (new.map (fun n => (⟨B.error (s1.kp g.bestKp) (s1.kt n), g.bestKp, n⟩ : Grade K))), s1)
          = .done (grading, s2) := hgr
      injection this with this
      injection this with h1 h2
      exact ⟨h1, h2⟩
    obtain ⟨hG, rfl⟩ := hgr'
    obtain ⟨hp, hbest⟩ := sortGrades_spec (new.map (fun n => (⟨B.error (s1.kp g.bestKp) (s1.kt n), g.bestKp, n⟩ : Grade K)))
    have hsorted := sortGrades_pairwise (new.map (fun n => (⟨B.error (s1.kp g.bestKp) (s1.kt n), g.bestKp, n⟩ : Grade K)))
    rw [hG] at hp hbest hsorted
    have herr : ∀ x ∈ grading, x.err = memberError B g s1 x.kt ∧ x.kt ∈ new := by
      intro x hx
      obtain ⟨n, hn, rfl⟩ := List.mem_map.1 (hp.subset hx)
      exact ⟨by simp only [memberError, hm, Bool.false_eq_true, if_false], hn⟩
    have hkts : (grading.map (·.kt)).Perm new := by
      have := hp.map (fun x : Grade K => x.kt)
      rwa [List.map_map, show ((fun x : Grade K => x.kt) ∘ fun n => (⟨B.error (s1.kp g.bestKp) (s1.kt n), g.bestKp, n⟩ : Grade K))
        = id from rfl, List.map_id] at this
    have herrs : grading.map (·.err) = (grading.map (·.kt)).map (memberError B g s1) := by
      rw [List.map_map]
      exact List.map_congr_left (fun x hx => (herr x hx).1)
    have hge : GoodEnough g (grading.map (·.err)) ↔ GoodEnough g (new.map (memberError B g s1)) := by
      rw [herrs]
      have hpm := hkts.map (memberError B g s1)
      unfold GoodEnough
      rw [hpm.sum_eq]
      simp only [hpm.mem_iff]
    have hsort : (grading.map (·.kt)).Pairwise (fun a b => memberError B g s1 a ≤ memberError B g s1 b) := by
      rw [List.pairwise_map]
      refine hsorted.imp_of_mem ?_
      intro a b ha hb hab
      rw [← (herr a ha).1, ← (herr b hb).1]
      exact hab
    cases grading with
    | nil => cases h
    | cons best rest =>
      obtain ⟨hbm, hbl⟩ := hbest best rest rfl
      have hbl' : ∀ x ∈ best :: rest, best.err ≤ x.err := fun x hx => hbl x (hp.subset hx)
      have hacc := accept_iff best (best :: rest) g (by simp) hbl'
      simp only at h
      by_cases ha : accept best.err ((best :: rest).map (·.err)) g = true
      · rw [if_pos ha] at h
        obtain ⟨_, s3, _, h⟩ := bind_done h
        have hg' : g' = { g with
            lowest := some best.err, bestKt := best.kt, scores := (best :: rest).map (·.err),
            kts := (best :: rest).map (·.kt), bad := 0 } := by
          injection h with h
          injection h with h1 h2
          exact h1.symm
        subst hg'
        refine ⟨fun _ => ?_, fun hn => absurd (hge.1 (hacc.1 ha)) hn⟩
        unfold current currentBest other
        simp only [hm', Bool.false_eq_true, if_false]
        refine ⟨hkts, hsort, (herr best (by simp)).2, ?_, by rw [(herr best (by simp)).1], herrs, trivial, trivial, trivial⟩
        intro n hn
        rw [← (herr best (by simp)).1]
        obtain ⟨x, hx, rfl⟩ := List.mem_map.1 (hkts.symm.subset hn)
        rw [← (herr x hx).1]
        exact hbl' x hx
      · rw [if_neg ha] at h
        obtain ⟨_, s3, _, h⟩ := bind_done h
        refine ⟨fun hn => absurd (hacc.2 (hge.2 hn)) ha, fun _ => ?_⟩
        by_cases ht : P.threshold < g.bad + 1
        · rw [if_pos ht] at h
          have hg' : g' = { g with bad := 0, evolvingProfiles := true } := by
            injection h with h
            injection h with h1 h2
            exact h1.symm
          subst hg'
          refine ⟨rfl, rfl, rfl, rfl, rfl, rfl, fun _ => by omega, fun _ => ⟨rfl, by rw [hm']; rfl⟩⟩
        · rw [if_neg ht] at h
          have hg' : g' = { g with bad := g.bad + 1 } := by
            injection h with h
            injection h with h1 h2
            exact h1.symm
          subst hg'
          exact ⟨rfl, rfl, rfl, rfl, rfl, rfl, fun _ => ⟨rfl, rfl⟩, fun _ => by omega⟩

/-- `n` turns in a row, all of them refused. -/
def Refusals (B : Bench K) (P : Params) : Nat → Ga K × St K → Ga K × St K → Prop
  | 0, a, b => a = b
  | n + 1, a, b => ∃ new s1, ∃ c : Ga K × St K, step B P a.1 a.2 = .done c ∧ Next P a.1 a.2 new s1 ∧
      ¬ GoodEnough a.1 (new.map (memberError B a.1 s1)) ∧ Refusals B P n c b

/-- **C126, taking turns.**  If `n` turns in a row are refused, after `g.bad` refusals before them, the populations,
the best pair and its error are what they were, and the turn has changed sides once for every
`threshold + 1` refusals. -/
theorem C126_alternate (B : Bench K) (P : Params) : ∀ (n : Nat) (g g' : Ga K) (s s' : St K),
    g.bad ≤ P.threshold → Refusals B P n (g, s) (g', s') →
    g'.kps = g.kps ∧ g'.kts = g.kts ∧ g'.bestKp = g.bestKp ∧ g'.bestKt = g.bestKt ∧ g'.lowest = g.lowest ∧
    g'.bad = (g.bad + n) % (P.threshold + 1) ∧
    (g'.evolvingProfiles = g.evolvingProfiles ↔ Even ((g.bad + n) / (P.threshold + 1))) := by
  intro n
  induction n with
  | zero =>
    intro g g' s s' hb h
    injection h with h1 h2
    subst h1
    refine ⟨rfl, rfl, rfl, rfl, rfl, ?_, ?_⟩
    · rw [Nat.add_zero, Nat.mod_eq_of_lt (by omega)]
    · rw [Nat.add_zero, Nat.div_eq_of_lt (by omega)]
      simp
  | succ n ih =>
    intro g g' s s' hb h
    obtain ⟨new, s1, ⟨c, sc⟩, hstep, hnext, hbad, hrest⟩ := h
    obtain ⟨new', s1', hnext', hspec⟩ := C126_turn B P g c s sc hstep
    have he : new = new' ∧ s1 = s1' := by
      simp only [Next] at hnext hnext'
      split at hnext
      · rename_i hm
        rw [if_pos hm, hnext] at hnext'
        injection hnext' with hnext'
        injection hnext' with e1 e2
        exact ⟨e1, e2⟩
      · rename_i hm
        rw [if_neg hm, hnext] at hnext'
        injection hnext' with hnext'
        injection hnext' with e1 e2
        exact ⟨e1, e2⟩
    obtain ⟨rfl, rfl⟩ := he
    obtain ⟨r1, r2, r3, r4, r5, _, r7, r8⟩ := hspec.refused hbad
    by_cases hlt : g.bad < P.threshold
    · obtain ⟨b1, b2⟩ := r7 hlt
      obtain ⟨i1, i2, i3, i4, i5, i6, i7⟩ := ih c g' sc s' (by omega) hrest
      refine ⟨i1.trans r1, i2.trans r2, i3.trans r3, i4.trans r4, i5.trans r5, ?_, ?_⟩
      · rw [i6, b1]
        congr 1
        omega
      · rw [← b2, i7, b1, show g.bad + 1 + n = g.bad + (n + 1) by omega]
    · obtain ⟨b1, b2⟩ := r8 (by omega)
      obtain ⟨i1, i2, i3, i4, i5, i6, i7⟩ := ih c g' sc s' (by omega) hrest
      have hsum : g.bad + (n + 1) = n + (P.threshold + 1) := by omega
      refine ⟨i1.trans r1, i2.trans r2, i3.trans r3, i4.trans r4, i5.trans r5, ?_, ?_⟩
      · rw [i6, b1, hsum, Nat.add_mod_right, Nat.zero_add]
      · rw [hsum, Nat.add_div_right _ (by omega), Nat.even_add_one]
        rw [b1, b2, Nat.zero_add] at i7
        rw [← i7]
        cases g'.evolvingProfiles <;> cases g.evolvingProfiles <;> simp

/-- **C126, start.**  Profiles have the first turn, with no refusals before it. -/
theorem C126_start (B : Bench K) (kps kts : List Name) (s s0 : St K) (g : Ga K)
    (h : start B kps kts s = .done (g, s0)) : g.evolvingProfiles = true ∧ g.bad = 0 := by
  have hfirst : ∀ (l : List Name) (g0 : Ga K) (gr : List (K × Name)) (s : St K),
      wp (firstPass B l g0 gr) s (fun r _ => r.1.evolvingProfiles = g0.evolvingProfiles ∧ r.1.bad = g0.bad)
        (fun _ => True) := by
    intro l
    induction l with
    | nil => intro g0 gr s; exact wp_pure ⟨rfl, rfl⟩
    | cons kt l ih =>
      intro g0 gr s
      unfold firstPass
      apply wp_bind
      refine wp_mono (wp_any _ s) ?_ (fun _ h => h)
      intro grading s1 _
      cases grading with
      | nil => exact wp_raise trivial
      | cons best rest =>
        simp only
        split
        · split
          · exact wp_pure ⟨rfl, rfl⟩
          · exact ih _ _ s1
        · exact ih _ _ s1
  have : wp (start B kps kts) s (fun g _ => g.evolvingProfiles = true ∧ g.bad = 0) (fun _ => True) := by
    unfold start
    apply wp_bind
    refine wp_mono (hfirst _ _ _ s) ?_ (fun _ h => h)
    rintro ⟨g1, gr⟩ s1 ⟨h1, h2⟩
    exact wp_pure ⟨h1, h2⟩
  unfold wp at this
  rw [h] at this
  exact this

/-- **C126, count.**  There are never more refusals on the count than the threshold, so a side gives way after at most
`threshold + 1` refusals in a row. -/
theorem C126_count (B : Bench K) (P : Params) (g g' : Ga K) (s s' : St K) (hb : g.bad ≤ P.threshold)
    (h : step B P g s = .done (g', s')) : g'.bad ≤ P.threshold := by
  obtain ⟨new, s1, _, hspec⟩ := C126_turn B P g g' s s' h
  by_cases hge : GoodEnough g (new.map (memberError B g s1))
  · obtain ⟨_, _, _, _, _, _, _, _, h9⟩ := hspec.kept hge
    omega
  · obtain ⟨_, _, _, _, _, _, r7, r8⟩ := hspec.refused hge
    by_cases hlt : g.bad < P.threshold
    · have := (r7 hlt).1; omega
    · have := (r8 (by omega)).1; omega

/-! ### The stored errors may be those of the other population -/

/-- One file.  The profile sapp scores 0.5 with the ratio 5, 0.3 with the ratio 10, and with any other table 0.5
or 0.2, as staying in the key has at most the probability 1/2 or more; every other profile scores 0. -/
def oneFile : Bench Rat where
  File := Unit
  files := [()]
  score := fun _ kp kt =>
    if kp = pyProfiles.lookup "sapp" then
      if kt = pyTransitions.lookup "ktg_exponential5" then 1 / 2
      else if kt = pyTransitions.lookup "ktg_exponential10" then 3 / 10
      else if (kt.getD []).getD 0 0 ≤ 1 / 2 then 1 / 2 else 1 / 5
    else 0

/-- Draws for a generation of two new profiles and one of two new geometric tables, of ratios 2 and 45.2. -/
def twoTurns : List (Draw Rat) :=
  List.replicate 48 ⟨1, 0⟩ ++ [⟨0, 0⟩, ⟨0, 0⟩, ⟨0, 0⟩, ⟨0, 9 / 10⟩]

def twoProfiles : List Name := [.given "sapp", .given "temperley"]

def twoTransitions : List Name := [.given "ktg_exponential5", .given "ktg_exponential10"]

/-- The start of the search and two turns, with threshold 0. -/
def threeStates : Out ((Ga Rat × St Rat) × (Ga Rat × St Rat) × (Ga Rat × St Rat)) :=
  match start oneFile twoProfiles twoTransitions (imported twoTurns) with
  | .done (g0, s0) =>
    match step oneFile ⟨50, 100, 256, 0⟩ g0 s0 with
    | .done (g1, s1) =>
      match step oneFile ⟨50, 100, 256, 0⟩ g1 s1 with
      | .done (g2, s2) => .done ((g0, s0), (g1, s1), (g2, s2))
      | .raised e => .raised e
      | .waiting => .waiting
    | .raised e => .raised e
    | .waiting => .waiting
  | .raised e => .raised e
  | .waiting => .waiting

/-- The sum of the errors of a population of transitions, with the best profile. -/
def total (B : Bench Rat) (g : Ga Rat) (s : St Rat) : Rat :=
  (g.kts.map (fun n => B.error (s.kp g.bestKp) (s.kt n))).sum

def keptWorse : Bool :=
  match threeStates with
  | .done ((g0, _), (g1, s1), (g2, s2)) =>
    decide (g0.kps = twoProfiles ∧ g1.kps = g0.kps ∧ g1.evolvingProfiles = false ∧ g2.kts ≠ g1.kts ∧
      g2.lowest = g1.lowest ∧ total oneFile g1 s1 < total oneFile g2 s2)
  | _ => false

theorem keptWorse_true : keptWorse = true := by decide +kernel

/-- **C126, violated.**  An equally good generation is meant to be kept only if its errors together are no more
than those of the generation it replaces.  After a change of sides the stored errors are those of the other
population, so the search can replace a population of transitions by a worse one: same lowest error, greater sum. -/
theorem C126_replaces_violated :
    ∃ (B : Bench Rat) (P : Params) (kps kts : List Name) (s s0 s1 s2 : St Rat) (g0 g1 g2 : Ga Rat),
      start B kps kts s = .done (g0, s0) ∧ step B P g0 s0 = .done (g1, s1) ∧ step B P g1 s1 = .done (g2, s2) ∧
      g1.evolvingProfiles = false ∧ g2.kts ≠ g1.kts ∧ g2.bestKp = g1.bestKp ∧ g2.lowest = g1.lowest ∧
      total B g1 s1 < total B g2 s2 := by
  have hk := keptWorse_true
  unfold keptWorse at hk
  cases h3 : threeStates with
  | raised e => rw [h3] at hk; cases hk
  | waiting => rw [h3] at hk; cases hk
  | done p =>
    obtain ⟨⟨g0, s0⟩, ⟨g1, s1⟩, ⟨g2, s2⟩⟩ := p
    rw [h3] at hk
    obtain ⟨_, _, hm, hne, hlow, hlt⟩ := of_decide_eq_true hk
    unfold threeStates at h3
    split at h3
    · rename_i ga sa ha
      split at h3
      · rename_i gb sb hb
        split at h3
        · rename_i gc sc hc
          injection h3 with h3
          injection h3 with e1 e2
          injection e2 with e2 e3
          injection e1 with e11 e12
          injection e2 with e21 e22
          injection e3 with e31 e32
          subst e11 e12 e21 e22 e31 e32
          refine ⟨_, _, _, _, _, _, _, _, _, _, _, ha, hb, hc, hm, hne, ?_, hlow, hlt⟩
          obtain ⟨new, s', _, hspec⟩ := C126_turn _ _ _ _ _ _ hc
          by_cases hge : GoodEnough gb (new.map (memberError oneFile gb s'))
          · obtain ⟨_, _, _, _, _, _, h7, h8, _⟩ := hspec.kept hge
            unfold other at h8
            rw [h7, hm] at h8
            exact congrArg Prod.snd h8
          · exact (hspec.refused hge).2.2.1
        · cases h3
        · cases h3
      · cases h3
      · cases h3
    · cases h3
    · cases h3

/-- C126_turn, C126_alternate: both kinds of turn happen — the first of these turns is refused, the second kept. -/
example : ∃ (g0 g1 g2 : Ga Rat) (s0 s1 s2 : St Rat), step oneFile ⟨50, 100, 256, 0⟩ g0 s0 = .done (g1, s1) ∧
    step oneFile ⟨50, 100, 256, 0⟩ g1 s1 = .done (g2, s2) ∧ g1.evolvingProfiles ≠ g0.evolvingProfiles ∧
    g2.kts ≠ g1.kts := by
  have hk := keptWorse_true
  unfold keptWorse at hk
  cases h3 : threeStates with
  | raised e => rw [h3] at hk; cases hk
  | waiting => rw [h3] at hk; cases hk
  | done p =>
    obtain ⟨⟨g0, s0⟩, ⟨g1, s1⟩, ⟨g2, s2⟩⟩ := p
    rw [h3] at hk
    obtain ⟨_, _, hm, hne, _, _⟩ := of_decide_eq_true hk
    unfold threeStates at h3
    split at h3
    · rename_i ga sa ha
      split at h3
      · rename_i gb sb hb
        split at h3
        · rename_i gc sc hc
          injection h3 with h3
          injection h3 with e1 e2
          injection e2 with e2 e3
          injection e1 with e11 e12
          injection e2 with e21 e22
          injection e3 with e31 e32
          subst e11 e12 e21 e22 e31 e32
          refine ⟨_, _, _, _, _, _, hb, hc, ?_, hne⟩
          rw [hm, (C126_start oneFile _ _ _ _ _ ha).1]
          simp
        · cases h3
        · cases h3
      · cases h3
      · cases h3
    · cases h3
    · cases h3

end JKD.Opt
