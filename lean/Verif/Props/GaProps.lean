import Verif.Props.OptProps
/-
C48, C56: the main loop of the optimiser (ga.py).
-/

namespace JKD.Opt

set_option linter.unusedSectionVars false

variable {K : Type} [Field K] [LinearOrder K] [IsStrictOrderedRing K]

/-! ### Errors -/

/-- **C48, error of a pair.**  If all scores lie in [-1, 1] (the program prints 0, 0.2, 0.3, 0.5 or 1) the error
is between 0 and the number of files, and it is 0 exactly if every file scores 1 or -1. -/
theorem C48_error_zero (B : Bench K) (hB : ∀ f a b, |B.score f a b| ≤ 1) (kp kt : Option (List K)) :
    0 ≤ B.error kp kt ∧ B.error kp kt ≤ B.files.length ∧
      (B.error kp kt = 0 ↔ ∀ f ∈ B.files, |B.score f kp kt| = 1) := by
  unfold Bench.error
  have h0 : ∀ f, 0 ≤ 1 - B.score f kp kt ^ 2 := by
    intro f
    have := abs_le.1 (hB f kp kt)
    nlinarith
  have hz : ∀ f, 1 - B.score f kp kt ^ 2 = 0 ↔ |B.score f kp kt| = 1 := by
    intro f
    constructor
    · intro h
      have h1 : |B.score f kp kt| ^ 2 = 1 := by rw [sq_abs]; linarith
      have h2 := abs_nonneg (B.score f kp kt)
      nlinarith [hB f kp kt]
    · intro h
      have h1 : |B.score f kp kt| ^ 2 = 1 := by rw [h]; ring
      rw [sq_abs] at h1
      linarith
  induction B.files with
  | nil => simp
  | cons f fs ih =>
    obtain ⟨i1, i2, i3⟩ := ih
    rw [List.map_cons, List.sum_cons]
    refine ⟨add_nonneg (h0 f) i1, ?_, ?_⟩
    · rw [List.length_cons, Nat.cast_add, Nat.cast_one]
      have := sq_nonneg (B.score f kp kt)
      linarith
    · rw [add_eq_zero_iff_of_nonneg (h0 f) i1, hz f, i3]
      simp

/-! ### The loop -/

/-- `a ≤ b` where `none` is infinity. -/
def leInf (a b : Option K) : Prop :=
  match a, b with
  | _, none => True
  | none, some _ => False
  | some x, some y => x ≤ y

omit [Field K] [IsStrictOrderedRing K] in
theorem leInf_refl (a : Option K) : leInf a a := by cases a <;> simp [leInf]

omit [Field K] [IsStrictOrderedRing K] in
theorem leInf_trans {a b c : Option K} (h : leInf a b) (h' : leInf b c) : leInf a c := by
  cases a <;> cases b <;> cases c <;> simp_all [leInf]
  exact h.trans h'

theorem accept_le {x : K} {sc : List K} {g : Ga K} (h : accept x sc g = true) : leInf (some x) g.lowest := by
  unfold accept at h
  rw [Bool.or_eq_true, Bool.and_eq_true, decide_eq_true_eq] at h
  rcases h with h | ⟨h, _⟩
  · cases hl : g.lowest with
    | none => trivial
    | some l =>
      rw [hl] at h
      exact le_of_lt (by simpa [below] using h)
  · rw [← h]
    exact leInf_refl _

/-- Any property of the result of a step that does not depend on how the new population came about. -/
theorem wp_any {α : Type} (m : Py K α) (s : St K) : wp m s (fun _ _ => True) (fun _ => True) := by
  unfold wp
  split <;> trivial

theorem wp_step_le (B : Bench K) (P : Params) (g : Ga K) (s : St K) :
    wp (step B P g) s (fun g' _ => leInf g'.lowest g.lowest) (fun _ => True) := by
  unfold step
  split
  · unfold stepProfiles
    apply wp_bind
    refine wp_mono (wp_any _ s) ?_ (fun _ h => h)
    intro new s1 _
    apply wp_bind
    refine wp_mono (wp_any _ s1) ?_ (fun _ h => h)
    intro grading s2 _
    cases grading with
    | nil => exact wp_raise trivial
    | cons best rest =>
      simp only
      by_cases ha : accept best.err ((best :: rest).map (·.err)) g = true
      · rw [if_pos ha]
        refine wp_bind (wp_modify (wp_pure ?_))
        exact accept_le ha
      · rw [if_neg ha]
        apply wp_bind
        refine wp_mono (wp_any _ s2) ?_ (fun _ h => h)
        intro _ s3 _
        split <;> exact wp_pure (leInf_refl _)
  · unfold stepTransitions
    apply wp_bind
    refine wp_mono (wp_any _ s) ?_ (fun _ h => h)
    intro new s1 _
    apply wp_bind
    refine wp_mono (wp_any _ s1) ?_ (fun _ h => h)
    intro grading s2 _
    cases grading with
    | nil => exact wp_raise trivial
    | cons best rest =>
      simp only
      by_cases ha : accept best.err ((best :: rest).map (·.err)) g = true
      · rw [if_pos ha]
        refine wp_bind (wp_modify (wp_pure ?_))
        exact accept_le ha
      · rw [if_neg ha]
        apply wp_bind
        refine wp_mono (wp_any _ s2) ?_ (fun _ h => h)
        intro _ s3 _
        split <;> exact wp_pure (leInf_refl _)

/-- **C48, monotone.**  Whatever is drawn and however the program scores, from any state the lowest error after
any number of further generations is at most the lowest error before; and the search ends only when the lowest
error is not positive. -/
theorem C48_monotone (B : Bench K) (P : Params) (generations : Nat) (g : Ga K) (s : St K) (g' : Ga K) (s' : St K)
    (h : mainLoop B P generations g s = .done (g', s')) :
    leInf g'.lowest g.lowest ∧ ∃ l, g'.lowest = some l ∧ l ≤ 0 := by
  have := wp_while (K := K) (cond := running) (body := step B P) (X := fun _ => True)
    (fun g1 _ => leInf g1.lowest g.lowest)
    (fun g1 s1 h1 _ => wp_mono (wp_step_le B P g1 s1) (fun g2 _ h2 => leInf_trans h2 h1) (fun _ h => h))
    generations g s (leInf_refl _)
  unfold wp at this
  have h' : whileM generations running (step B P) g s = .done (g', s') := h
  rw [h'] at this
  refine ⟨this.1, ?_⟩
  have hr := this.2
  unfold running at hr
  cases hl : g'.lowest with
  | none => rw [hl] at hr; cases hr
  | some l =>
    rw [hl] at hr
    exact ⟨l, rfl, by simpa using hr⟩

/-! ### C56: the reported pair -/

/-- What `ga_runner` maintains. -/
structure Inv (ε : K) (B : Bench K) (n : Nat) (m : Nat) (g : Ga K) (s : St K) : Prop where
  wf : WF ε s
  kpsLen : g.kps.length = n
  ktsLen : g.kts.length = m
  kpsNodup : g.kps.Nodup
  ktsNodup : g.kts.Nodup
  kpsHere : ∀ k ∈ g.kps, ∃ t, s.kp k = some t
  ktsHere : ∀ k ∈ g.kts, ∃ t, s.kt k = some t
  bestKp : g.bestKp ∈ g.kps
  bestKt : g.bestKt ∈ g.kts
  lowest : g.lowest = some (B.error (s.kp g.bestKp) (s.kt g.bestKt))

omit [Field K] [IsStrictOrderedRing K] in
/-- The head of a graded list is an element with the least error. -/
theorem sortGrades_spec (l : List (Grade K)) : (sortGrades l).Perm l ∧
    ∀ b r, sortGrades l = b :: r → b ∈ l ∧ ∀ x ∈ l, b.err ≤ x.err := by
  have hp : (sortGrades l).Perm l := List.perm_insertionSort _ l
  refine ⟨hp, ?_⟩
  intro b r e
  have hb : b ∈ l := hp.subset (by rw [e]; simp)
  refine ⟨hb, ?_⟩
  have hs : (sortGrades l).Pairwise (fun a b => a.err ≤ b.err) := by
    haveI : Std.Total (fun a b : Grade K => a.err ≤ b.err) := ⟨fun a b => le_total a.err b.err⟩
    haveI : IsTrans (Grade K) (fun a b => a.err ≤ b.err) := ⟨fun a b c h1 h2 => h1.trans h2⟩
    exact List.pairwise_insertionSort _ l
  rw [e, List.pairwise_cons] at hs
  intro x hx
  have hx' : x ∈ b :: r := by rw [← e]; exact hp.symm.subset hx
  rcases List.mem_cons.1 hx' with rfl | h
  · exact le_refl _
  · exact hs.1 x h

theorem popAll_spec {V : Type} (names : List Name) : ∀ (d : Dict V), names.Nodup → (∀ n ∈ names, d n ≠ none) →
    popAll d names = some (fun m => if m ∈ names then none else d m) := by
  induction names with
  | nil => intro d _ _; simp [popAll]
  | cons n ns ih =>
    intro d hn hd
    rw [List.nodup_cons] at hn
    unfold popAll
    rw [if_pos (Option.isSome_iff_ne_none.2 (hd n (by simp)))]
    rw [ih _ hn.2]
    · congr 1
      funext m
      by_cases h1 : m ∈ ns
      · simp [h1]
      · by_cases h2 : m = n <;> simp [h1, h2]
    · intro k hk
      rw [if_neg]
      · exact hd k (by simp [hk])
      · rintro rfl; exact hn.1 hk

/-- The exceptions a run can end in, by their causes. -/
def GaExn (n m : Nat) (P : Params) (e : Exn) : Prop :=
  (e = .index ∧ n = 4) ∨ (e = .value ∧ (P.kpMax < 8 ∨ P.ktMax < 256)) ∨ e = .zeroDivision ∨ (e = .type ∧ 5 ≤ m)

omit [IsStrictOrderedRing K] in
theorem WF.restrictKp {ε : K} {s : St K} (w : WF ε s) (p : Name → Bool) :
    WF ε { s with kp := fun m => if p m then s.kp m else none } := by
  refine { w with kp := ?_, kpId := ?_, kpcId := ?_, kpmId := ?_ }
  · intro n t h
    simp only at h
    split at h
    · exact w.kp n t h
    · cases h
  · intro i hi; simp only [w.kpId i hi, ite_self]
  · intro i hi; simp only [w.kpcId i hi, ite_self]
  · intro i hi; simp only [w.kpmId i hi, ite_self]

omit [IsStrictOrderedRing K] in
theorem WF.restrictKt {ε : K} {s : St K} (w : WF ε s) (p : Name → Bool) :
    WF ε { s with kt := fun m => if p m then s.kt m else none,
                  ratio := fun m => if p m then s.ratio m else none } := by
  refine { w with kt := ?_, ktgId := ?_, ktsId := ?_, ktgmId := ?_, ktsmId := ?_, ratio := ?_, ktgRatio := ?_, ktgmRatio := ?_ }
  · intro n t h
    simp only at h
    split at h
    · exact w.kt n t h
    · cases h
  · intro i hi; simp only [w.ktgId i hi, ite_self]
  · intro i hi; simp only [w.ktsId i hi, ite_self]
  · intro i hi; simp only [w.ktgmId i hi, ite_self]
  · intro i hi; simp only [w.ktsmId i hi, ite_self]
  · intro n t h
    simp only at h
    split at h
    · exact w.ratio n t h
    · cases h
  · intro i
    simp only
    split
    · exact w.ktgRatio i
    · simp
  · intro i
    simp only
    split
    · exact w.ktgmRatio i
    · simp

theorem wp_stepProfiles {ε : K} (hε : 0 ≤ ε) (B : Bench K) (P : Params) (n m : Nat) (g : Ga K) (s : St K)
    (I : Inv ε B n m g s) :
    wp (stepProfiles B P.fuel P.kpMax P.threshold g) s (Inv ε B n m) (GaExn n m P) := by
  unfold stepProfiles
  apply wp_bind
  refine wp_mono (wp_evolveProfiles hε P.fuel P.kpMax g.kps s I.wf I.kpsNodup I.kpsHere) ?_ ?_
  swap
  · rintro e (⟨h, h'⟩ | ⟨h, h'⟩ | h)
    · exact Or.inl ⟨h, by rw [← I.kpsLen]; exact h'⟩
    · exact Or.inr (Or.inl ⟨h, Or.inl h'⟩)
    · exact Or.inr (Or.inr (Or.inl h))
  rintro new s1 ⟨w1, e1, k1, r1, hl, hnd, hh, hf⟩
  refine wp_bind (wp_bind (wp_get (wp_pure ?_)))
  obtain ⟨hp, hbest⟩ := sortGrades_spec (new.map (fun n => (⟨B.error (s1.kp n) (s1.kt g.bestKt), n, g.bestKt⟩ : Grade K)))
  generalize hG : sortGrades (new.map (fun n => (⟨B.error (s1.kp n) (s1.kt g.bestKt), n, g.bestKt⟩ : Grade K))) = G at *
  have hperm : (G.map (·.kp)).Perm new := by
    have := hp.map (fun x : Grade K => x.kp)
    rw [List.map_map] at this
    have e : (new.map ((fun x : Grade K => x.kp) ∘ fun n => ⟨B.error (s1.kp n) (s1.kt g.bestKt), n, g.bestKt⟩)) = new := by
      conv_rhs => rw [← List.map_id new]
      rfl
    rwa [e] at this
  cases G with
  | nil =>
    exfalso
    have : new = [] := by simpa using hperm
    have hlen := hl
    rw [this] at hlen
    have := List.length_pos_of_mem I.bestKp
    simp at hlen
    omega
  | cons best rest =>
    simp only
    obtain ⟨hbm, hbl⟩ := hbest best rest rfl
    obtain ⟨b, hb, rfl⟩ := List.mem_map.1 hbm
    simp only at *
    by_cases ha : accept (B.error (s1.kp b) (s1.kt g.bestKt)) (B.error (s1.kp b) (s1.kt g.bestKt) :: rest.map (·.err)) g = true
    · rw [List.map_cons, if_pos ha]
      refine wp_bind (wp_modify (wp_pure ?_))
      have hin : ∀ k, k ∈ b :: rest.map (·.kp) ↔ k ∈ new := fun k => hperm.mem_iff
      refine ⟨?_, ?_, I.ktsLen, ?_, I.ktsNodup, ?_, ?_, ?_, I.bestKt, ?_⟩
      · have := w1.restrictKp (fun k => decide (k ∈ b :: rest.map (·.kp)))
        simpa using this
      · rw [← I.kpsLen, ← hl]; exact hperm.length_eq
      · exact hperm.nodup_iff.2 hnd
      · intro k hk
        have hk' : k ∈ b :: rest.map (·.kp) := hk
        obtain ⟨t, ht⟩ := hh k ((hin k).1 hk')
        exact ⟨t, by simp only [List.map_cons]; rw [if_pos hk']; exact ht⟩
      · intro k hk
        obtain ⟨t, ht⟩ := I.ktsHere k hk
        exact ⟨t, e1.kt k t ht⟩
      · simp
      · simp
    · rw [List.map_cons, if_neg ha]
      have hpop : popAll s1.kp (new.filter (fun n => n ∉ g.kps)) =
          some (fun m => if m ∈ new.filter (fun n => n ∉ g.kps) then none else s1.kp m) := by
        apply popAll_spec
        · exact hnd.sublist List.filter_sublist
        · intro k hk
          obtain ⟨t, ht⟩ := hh k (List.mem_of_mem_filter hk)
          rw [ht]; simp
      have hkeep : ∀ k ∈ g.kps, k ∉ new.filter (fun n => n ∉ g.kps) := by
        intro k hk hk'
        have := (List.mem_filter.1 hk').2
        simp [hk] at this
      have hI : ∀ (bad : Nat) (mode : Bool), Inv ε B n m { g with bad := bad, evolvingProfiles := mode }
          { s1 with kp := fun m => if m ∈ new.filter (fun n => n ∉ g.kps) then none else s1.kp m } := by
        intro bad mode
        have hkp : ∀ k ∈ g.kps, (if k ∈ new.filter (fun n => n ∉ g.kps) then none else s1.kp k) = s.kp k := by
          intro k hk
          rw [if_neg (hkeep k hk)]
          obtain ⟨t, ht⟩ := I.kpsHere k hk
          rw [ht, e1.kp k t ht]
        refine ⟨?_, I.kpsLen, I.ktsLen, I.kpsNodup, I.ktsNodup, ?_, ?_, I.bestKp, I.bestKt, ?_⟩
        · have h := w1.restrictKp (fun k => !decide (k ∈ new.filter (fun n => n ∉ g.kps)))
          have e : (fun m => if (!decide (m ∈ new.filter (fun n => n ∉ g.kps))) = true then s1.kp m else none) =
              (fun m => if m ∈ new.filter (fun n => n ∉ g.kps) then none else s1.kp m) := by
            funext m
            by_cases hm : m ∈ new.filter (fun n => n ∉ g.kps)
            · rw [if_pos hm, if_neg (by simp only [hm]; decide)]
            · rw [if_neg hm, if_pos (by simp only [hm]; decide)]
          rw [e] at h
          exact h
        · intro k hk
          obtain ⟨t, ht⟩ := I.kpsHere k hk
          exact ⟨t, (hkp k hk).trans ht⟩
        · intro k hk
          obtain ⟨t, ht⟩ := I.ktsHere k hk
          exact ⟨t, e1.kt k t ht⟩
        · change g.lowest = _
          rw [I.lowest]
          congr 2
          · exact (hkp _ I.bestKp).symm
          · exact (congrFun k1 _).symm
      refine wp_bind ?_
      unfold flushProfiles
      refine wp_bind (wp_get ?_)
      rw [hpop]
      refine wp_modify ?_
      split
      · exact wp_pure (hI _ _)
      · exact wp_pure (hI _ _)

theorem wp_stepTransitions {ε : K} (hε : 0 ≤ ε) (B : Bench K) (P : Params) (n m : Nat) (g : Ga K) (s : St K)
    (I : Inv ε B n m g s) :
    wp (stepTransitions B P.fuel P.ktMax P.threshold g) s (Inv ε B n m) (GaExn n m P) := by
  unfold stepTransitions
  apply wp_bind
  refine wp_mono (wp_evolveTransitions hε P.fuel P.ktMax g.kts s I.wf I.ktsNodup I.ktsHere) ?_ ?_
  swap
  · rintro e (⟨h, h', _⟩ | ⟨h, h'⟩ | h)
    · exact Or.inr (Or.inr (Or.inr ⟨h, by rw [← I.ktsLen]; exact h'⟩))
    · exact Or.inr (Or.inl ⟨h, Or.inr h'⟩)
    · exact Or.inr (Or.inr (Or.inl h))
  rintro new s1 ⟨w1, e1, k1, hl, hnd, hh, hf⟩
  refine wp_bind (wp_bind (wp_get (wp_pure ?_)))
  obtain ⟨hp, hbest⟩ := sortGrades_spec (new.map (fun n => (⟨B.error (s1.kp g.bestKp) (s1.kt n), g.bestKp, n⟩ : Grade K)))
  generalize hG : sortGrades (new.map (fun n => (⟨B.error (s1.kp g.bestKp) (s1.kt n), g.bestKp, n⟩ : Grade K))) = G at *
  have hperm : (G.map (·.kt)).Perm new := by
    have := hp.map (fun x : Grade K => x.kt)
    rw [List.map_map] at this
    have e : (new.map ((fun x : Grade K => x.kt) ∘ fun n => ⟨B.error (s1.kp g.bestKp) (s1.kt n), g.bestKp, n⟩)) = new := by
      conv_rhs => rw [← List.map_id new]
      rfl
    rwa [e] at this
  cases G with
  | nil =>
    exfalso
    have : new = [] := by simpa using hperm
    have hlen := hl
    rw [this] at hlen
    have := List.length_pos_of_mem I.bestKt
    simp at hlen
    omega
  | cons best rest =>
    simp only
    obtain ⟨hbm, hbl⟩ := hbest best rest rfl
    obtain ⟨b, hb, rfl⟩ := List.mem_map.1 hbm
    simp only at *
    by_cases ha : accept (B.error (s1.kp g.bestKp) (s1.kt b)) (B.error (s1.kp g.bestKp) (s1.kt b) :: rest.map (·.err)) g = true
    · rw [List.map_cons, if_pos ha]
      refine wp_bind (wp_modify (wp_pure ?_))
      have hin : ∀ k, k ∈ b :: rest.map (·.kt) ↔ k ∈ new := fun k => hperm.mem_iff
      refine ⟨?_, I.kpsLen, ?_, I.kpsNodup, ?_, ?_, ?_, I.bestKp, ?_, ?_⟩
      · have := w1.restrictKt (fun k => decide (k ∈ b :: rest.map (·.kt)))
        simpa using this
      · rw [← I.ktsLen, ← hl]; exact hperm.length_eq
      · exact hperm.nodup_iff.2 hnd
      · intro k hk
        obtain ⟨t, ht⟩ := I.kpsHere k hk
        exact ⟨t, e1.kp k t ht⟩
      · intro k hk
        have hk' : k ∈ b :: rest.map (·.kt) := hk
        obtain ⟨t, ht⟩ := hh k ((hin k).1 hk')
        exact ⟨t, by simp only [List.map_cons]; rw [if_pos hk']; exact ht⟩
      · simp
      · simp
    · rw [List.map_cons, if_neg ha]
      have hpop : popAll s1.kt (new.filter (fun n => n ∉ g.kts)) =
          some (fun m => if m ∈ new.filter (fun n => n ∉ g.kts) then none else s1.kt m) := by
        apply popAll_spec
        · exact hnd.sublist List.filter_sublist
        · intro k hk
          obtain ⟨t, ht⟩ := hh k (List.mem_of_mem_filter hk)
          rw [ht]; simp
      have hkeep : ∀ k ∈ g.kts, k ∉ new.filter (fun n => n ∉ g.kts) := by
        intro k hk hk'
        have := (List.mem_filter.1 hk').2
        simp [hk] at this
      have hI : ∀ (bad : Nat) (mode : Bool), Inv ε B n m { g with bad := bad, evolvingProfiles := mode }
          { s1 with kt := fun m => if m ∈ new.filter (fun n => n ∉ g.kts) then none else s1.kt m,
                    ratio := fun m => if m ∈ new.filter (fun n => n ∉ g.kts) then none else s1.ratio m } := by
        intro bad mode
        have hkt : ∀ k ∈ g.kts, (if k ∈ new.filter (fun n => n ∉ g.kts) then none else s1.kt k) = s.kt k := by
          intro k hk
          rw [if_neg (hkeep k hk)]
          obtain ⟨t, ht⟩ := I.ktsHere k hk
          rw [ht, e1.kt k t ht]
        refine ⟨?_, I.kpsLen, I.ktsLen, I.kpsNodup, I.ktsNodup, ?_, ?_, I.bestKp, I.bestKt, ?_⟩
        · have h := w1.restrictKt (fun k => !decide (k ∈ new.filter (fun n => n ∉ g.kts)))
          have e : ∀ {V : Type} (d : Dict V),
              (fun m => if (!decide (m ∈ new.filter (fun n => n ∉ g.kts))) = true then d m else none) =
              (fun m => if m ∈ new.filter (fun n => n ∉ g.kts) then none else d m) := by
            intro V d
            funext m
            by_cases hm : m ∈ new.filter (fun n => n ∉ g.kts)
            · rw [if_pos hm, if_neg (by simp only [hm]; decide)]
            · rw [if_neg hm, if_pos (by simp only [hm]; decide)]
          rw [e, e] at h
          exact h
        · intro k hk
          obtain ⟨t, ht⟩ := I.kpsHere k hk
          exact ⟨t, e1.kp k t ht⟩
        · intro k hk
          obtain ⟨t, ht⟩ := I.ktsHere k hk
          exact ⟨t, (hkt k hk).trans ht⟩
        · change g.lowest = _
          rw [I.lowest]
          congr 2
          · exact (congrFun k1 _).symm
          · exact (hkt _ I.bestKt).symm
      refine wp_bind ?_
      unfold flushTransitions
      refine wp_bind (wp_get ?_)
      rw [hpop]
      refine wp_modify ?_
      split
      · exact wp_pure (hI _ _)
      · exact wp_pure (hI _ _)

theorem wp_step {ε : K} (hε : 0 ≤ ε) (B : Bench K) (P : Params) (n m : Nat) (g : Ga K) (s : St K)
    (I : Inv ε B n m g s) : wp (step B P g) s (Inv ε B n m) (GaExn n m P) := by
  unfold step
  split
  · exact wp_stepProfiles hε B P n m g s I
  · exact wp_stepTransitions hε B P n m g s I

/-- The invariant of the first pass: the transitions seen so far, and the best pair among them. -/
structure Pass (B : Bench K) (kps kts : List Name) (s : St K) (seen : List Name) (g : Ga K)
    (graded : List (K × Name)) : Prop where
  perm : g.kps.Perm kps
  graded : graded.map (·.2) = seen
  empty : seen = [] → g.lowest = none
  best : seen ≠ [] → g.bestKp ∈ kps ∧ g.bestKt ∈ seen ∧
    g.lowest = some (B.error (s.kp g.bestKp) (s.kt g.bestKt)) ∧
    ∀ a ∈ kps, ∀ b ∈ seen, B.error (s.kp g.bestKp) (s.kt g.bestKt) ≤ B.error (s.kp a) (s.kt b)

theorem firstPass_spec (B : Bench K) (kps all : List Name) (hk : kps ≠ []) (s : St K) :
    ∀ (kts seen : List Name) (g : Ga K) (graded : List (K × Name)), Pass B kps all s seen g graded →
      (g.lowest = none → seen = []) →
      ∃ seen' g' graded', firstPass B kts g graded s = .done ((g', graded'), s) ∧
        Pass B kps all s seen' g' graded' ∧ (seen' = seen ++ kts ∨
          (∃ pre, pre <+: kts ∧ pre ≠ [] ∧ seen' = seen ++ pre ∧ g'.lowest = some 0)) := by
  intro kts
  induction kts with
  | nil =>
    intro seen g graded h _
    exact ⟨seen, g, graded, rfl, h, Or.inl (by simp)⟩
  | cons kt kts ih =>
    intro seen g graded h hlow
    obtain ⟨hp, hbest⟩ := sortGrades_spec (g.kps.map (fun n => (⟨B.error (s.kp n) (s.kt kt), n, kt⟩ : Grade K)))
    have hrun : gradeProfiles B g.kps kt s =
        .done (sortGrades (g.kps.map (fun n => (⟨B.error (s.kp n) (s.kt kt), n, kt⟩ : Grade K))), s) := rfl
    generalize hG : sortGrades (g.kps.map (fun n => (⟨B.error (s.kp n) (s.kt kt), n, kt⟩ : Grade K))) = G at *
    have hperm : (G.map (·.kp)).Perm g.kps := by
      have := hp.map (fun x : Grade K => x.kp)
      rw [List.map_map] at this
      have e : (g.kps.map ((fun x : Grade K => x.kp) ∘ fun n => ⟨B.error (s.kp n) (s.kt kt), n, kt⟩)) = g.kps := by
        conv_rhs => rw [← List.map_id g.kps]
        rfl
      rwa [e] at this
    unfold firstPass
    cases G with
    | nil =>
      exfalso
      have h1 : g.kps = [] := by simpa using hperm
      have h2 := h.perm
      rw [h1] at h2
      exact hk (by simpa using h2)
    | cons best rest =>
      obtain ⟨hbm, hbl⟩ := hbest best rest rfl
      obtain ⟨b, hb, rfl⟩ := List.mem_map.1 hbm
      have hbk : b ∈ kps := h.perm.subset hb
      have hmin : ∀ a ∈ kps, B.error (s.kp b) (s.kt kt) ≤ B.error (s.kp a) (s.kt kt) := by
        intro a ha
        exact hbl ⟨B.error (s.kp a) (s.kt kt), a, kt⟩ (List.mem_map.2 ⟨a, h.perm.symm.subset ha, rfl⟩)
      change ∃ seen' g' graded', Py.bind (gradeProfiles B g.kps kt) _ s = _ ∧ _
      unfold Py.bind
      simp only [hrun]
      by_cases hbel : below (B.error (s.kp b) (s.kt kt)) g.lowest = true
      · rw [if_pos hbel]
        have hnew : Pass B kps all s (seen ++ [kt])
            { g with
              lowest := some (B.error (s.kp b) (s.kt kt)), bestKp := b, bestKt := kt
              scores := (⟨B.error (s.kp b) (s.kt kt), b, kt⟩ :: rest : List (Grade K)).map (·.err)
              kps := (⟨B.error (s.kp b) (s.kt kt), b, kt⟩ :: rest : List (Grade K)).map (·.kp) }
            (graded ++ [(B.error (s.kp b) (s.kt kt), kt)]) := by
          refine ⟨hperm.trans h.perm, by simp [h.graded], by simp, fun _ => ⟨hbk, by simp, rfl, ?_⟩⟩
          intro a ha k hk'
          rcases List.mem_append.1 hk' with hk' | hk'
          · have hne : seen ≠ [] := by rintro rfl; simp at hk'
            obtain ⟨_, _, hl, hmn⟩ := h.best hne
            rw [hl] at hbel
            have : B.error (s.kp b) (s.kt kt) < B.error (s.kp g.bestKp) (s.kt g.bestKt) := by simpa [below] using hbel
            exact this.le.trans (hmn a ha k hk')
          · rw [List.mem_singleton] at hk'
            subst hk'
            exact hmin a ha
        by_cases hz : B.error (s.kp b) (s.kt kt) = 0
        · rw [if_pos hz]
          refine ⟨_, _, _, rfl, hnew, Or.inr ⟨[kt], ⟨kts, rfl⟩, by simp, rfl, by simp only [hz]⟩⟩
        · rw [if_neg hz]
          obtain ⟨seen', g', graded', h1, h2, h3⟩ := ih _ _ _ hnew (by intro h; cases h)
          refine ⟨seen', g', graded', h1, h2, ?_⟩
          rcases h3 with h3 | ⟨pre, hpre, hne, h3, h4⟩
          · exact Or.inl (by rw [h3]; simp)
          · refine Or.inr ⟨kt :: pre, ?_, by simp, by rw [h3]; simp, h4⟩
            obtain ⟨q, rfl⟩ := hpre
            exact ⟨q, rfl⟩
      · rw [if_neg hbel]
        have hne : seen ≠ [] := by
          intro e
          rw [h.empty e] at hbel
          exact hbel rfl
        obtain ⟨b1, b2, b3, b4⟩ := h.best hne
        have hge : B.error (s.kp g.bestKp) (s.kt g.bestKt) ≤ B.error (s.kp b) (s.kt kt) := by
          rw [b3] at hbel
          simpa [below] using hbel
        have hnew : Pass B kps all s (seen ++ [kt]) g (graded ++ [(B.error (s.kp b) (s.kt kt), kt)]) := by
          refine ⟨h.perm, by simp [h.graded], by simp, fun _ => ⟨b1, by simp [b2], b3, ?_⟩⟩
          intro a ha k hk'
          rcases List.mem_append.1 hk' with hk' | hk'
          · exact b4 a ha k hk'
          · rw [List.mem_singleton] at hk'
            subst hk'
            exact hge.trans (hmin a ha)
        obtain ⟨seen', g', graded', h1, h2, h3⟩ := ih _ _ _ hnew (by rw [b3]; intro h; cases h)
        refine ⟨seen', g', graded', h1, h2, ?_⟩
        rcases h3 with h3 | ⟨pre, hpre, hne, h3, h4⟩
        · exact Or.inl (by rw [h3]; simp)
        · refine Or.inr ⟨kt :: pre, ?_, by simp, by rw [h3]; simp, h4⟩
          obtain ⟨q, rfl⟩ := hpre
          exact ⟨q, rfl⟩

/-- **C56, initial selection.**  Non-empty populations of distinct stored tables: the first pass raises nothing,
and the reported pair is a pair of the given tables with its error; no pair of a given profile with an evaluated
transition is better, and if some transitions were not evaluated the error is already 0. -/
theorem C56_start (ε : K) (B : Bench K) (kps kts : List Name) (hk : kps ≠ []) (ht : kts ≠ [])
    (hkn : kps.Nodup) (htn : kts.Nodup) (s : St K) (w : WF ε s)
    (hkh : ∀ k ∈ kps, ∃ t, s.kp k = some t) (hth : ∀ k ∈ kts, ∃ t, s.kt k = some t) :
    ∃ g, start B kps kts s = .done (g, s) ∧ Inv ε B kps.length g.kts.length g s ∧ g.kts.length ≤ kts.length ∧
      (∀ k ∈ g.kts, k ∈ kts) ∧ g.kps.Perm kps ∧
      (∀ a ∈ kps, ∀ b ∈ g.kts, B.error (s.kp g.bestKp) (s.kt g.bestKt) ≤ B.error (s.kp a) (s.kt b)) ∧
      (g.kts.Perm kts ∨ B.error (s.kp g.bestKp) (s.kt g.bestKt) = 0) := by
  obtain ⟨seen, g, graded, h1, h2, h3⟩ := firstPass_spec B kps kts hk s kts []
    ⟨.given "", .given "", none, [], kps, kts, 0, true⟩ []
    ⟨List.Perm.refl _, rfl, fun _ => rfl, fun h => absurd rfl h⟩ (fun _ => rfl)
  have hpre : seen <+: kts ∧ seen ≠ [] := by
    rcases h3 with h3 | ⟨pre, hp, hne, h3, _⟩
    · rw [h3]; exact ⟨List.prefix_rfl, ht⟩
    · rw [h3]; exact ⟨hp, hne⟩
  obtain ⟨b1, b2, b3, b4⟩ := h2.best hpre.2
  have hperm : ((graded.insertionSort (fun a b => a.1 ≤ b.1)).map (·.2)).Perm seen := by
    rw [← h2.graded]
    exact (List.perm_insertionSort _ _).map _
  refine ⟨{ g with kts := (graded.insertionSort (fun a b => a.1 ≤ b.1)).map (·.2) }, ?_, ?_, ?_, ?_, h2.perm, ?_, ?_⟩
  · change Py.bind (firstPass B kts _ []) _ s = _
    unfold Py.bind
    rw [h1]
    rfl
  · refine ⟨w, h2.perm.length_eq, rfl, h2.perm.nodup_iff.2 hkn, hperm.nodup_iff.2 (htn.sublist hpre.1.sublist), ?_, ?_,
      h2.perm.symm.subset b1, hperm.symm.subset b2, b3⟩
    · intro k hk'
      exact hkh k (h2.perm.subset hk')
    · intro k hk'
      exact hth k (hpre.1.subset (hperm.subset hk'))
  · change (List.map _ _).length ≤ _
    rw [hperm.length_eq]
    exact hpre.1.length_le
  · intro k hk'
    exact hpre.1.subset (hperm.subset hk')
  · intro a ha b hb
    exact b4 a ha b (hperm.subset hb)
  · rcases h3 with h3 | ⟨pre, hp, hne, h3, h4⟩
    · left
      rw [h3] at hperm
      exact hperm
    · right
      rw [b3] at h4
      exact Option.some.inj h4

/-- **C56.**  Run `ga_runner` on non-empty populations of distinct stored tables, for any number of generations,
any random outcomes and any scoring program.  After every generation, and at the end, the pair reported as best
names two stored tables of the right form, the populations have their original sizes, and the lowest error is
the error of exactly that pair.  A run that stops early ended in one of the listed exceptions. -/
theorem C56_reported_pair (ε : K) (hε : 0 ≤ ε) (B : Bench K) (P : Params) (kps kts : List Name) (hk : kps ≠ [])
    (ht : kts ≠ []) (hkn : kps.Nodup) (htn : kts.Nodup) (s : St K) (w : WF ε s)
    (hkh : ∀ k ∈ kps, ∃ t, s.kp k = some t) (hth : ∀ k ∈ kts, ∃ t, s.kt k = some t) (generations : Nat) :
    ∃ m ≤ kts.length, match (start B kps kts >>= mainLoop B P generations : Py K (Ga K)) s with
    | .done (g, s') => g.kps.length = kps.length ∧ g.kts.length = m ∧
        g.bestKp ∈ g.kps ∧ g.bestKt ∈ g.kts ∧
        (∃ tp tt, s'.kp g.bestKp = some tp ∧ s'.kt g.bestKt = some tt ∧ GoodProfile ε tp ∧ GoodTransition ε tt ∧
          g.lowest = some (B.error (some tp) (some tt)) ∧ B.error (some tp) (some tt) ≤ 0)
    | .raised e => GaExn kps.length m P e
    | .waiting => True := by
  obtain ⟨g0, h1, I, hle, _⟩ := C56_start ε B kps kts hk ht hkn htn s w hkh hth
  refine ⟨g0.kts.length, hle, ?_⟩
  have hw : wp (mainLoop B P generations g0) s
      (fun g s' => Inv ε B kps.length g0.kts.length g s' ∧ running g = false) (GaExn kps.length g0.kts.length P) := by
    exact wp_while (Inv ε B kps.length g0.kts.length) (fun g s I _ => wp_step hε B P _ _ g s I) generations g0 s I
  have hrun : (start B kps kts >>= mainLoop B P generations : Py K (Ga K)) s = mainLoop B P generations g0 s := by
    change Py.bind (start B kps kts) _ s = _
    unfold Py.bind
    rw [h1]
  rw [hrun]
  unfold wp at hw
  revert hw
  cases mainLoop B P generations g0 s with
  | done p =>
    rintro ⟨J, hr⟩
    obtain ⟨tp, etp⟩ := J.kpsHere _ J.bestKp
    obtain ⟨tt, ett⟩ := J.ktsHere _ J.bestKt
    refine ⟨J.kpsLen, J.ktsLen, J.bestKp, J.bestKt, tp, tt, etp, ett, J.wf.kp _ _ etp, J.wf.kt _ _ ett, ?_, ?_⟩
    · rw [J.lowest, etp, ett]
    · have hlow := J.lowest
      unfold running at hr
      rw [hlow] at hr
      rw [etp, ett] at hr
      simpa using hr
  | raised e => exact id
  | waiting => exact id

end JKD.Opt
