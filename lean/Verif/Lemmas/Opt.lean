import Verif.Model.PyOpt
import Mathlib.Algebra.BigOperators.Group.List.Basic
import Mathlib.Algebra.Order.BigOperators.Group.List
import Mathlib.Tactic.Ring
import Mathlib.Tactic.Linarith
import Mathlib.Tactic.Positivity
import Mathlib.Tactic.NormNum
/-
A small weakest-precondition calculus for the optimiser model, and the invariants of its state.
-/

namespace JKD.Opt

set_option linter.unusedSectionVars false

variable {K α β : Type}

/-- `m` run in `s` ends with `Q`, or raises an exception allowed by `X`, or is still running. -/
def wp (m : Py K α) (s : St K) (Q : α → St K → Prop) (X : Exn → Prop) : Prop :=
  match m s with
  | .done (a, s') => Q a s'
  | .raised e => X e
  | .waiting => True

theorem wp_mono {m : Py K α} {s : St K} {Q Q' : α → St K → Prop} {X X' : Exn → Prop} (h : wp m s Q X)
    (hQ : ∀ a s', Q a s' → Q' a s') (hX : ∀ e, X e → X' e) : wp m s Q' X' := by
  unfold wp at *
  split <;> simp_all

theorem wp_pure {a : α} {s : St K} {Q : α → St K → Prop} {X : Exn → Prop} (h : Q a s) :
    wp (pure a : Py K α) s Q X := h

theorem wp_bind {m : Py K α} {f : α → Py K β} {s : St K} {Q : β → St K → Prop} {X : Exn → Prop}
    (h : wp m s (fun a s' => wp (f a) s' Q X) X) : wp (m >>= f) s Q X := by
  change wp (Py.bind m f) s Q X
  unfold wp at *
  unfold Py.bind
  revert h
  cases m s with
  | done p => exact id
  | raised e => exact id
  | waiting => exact id

theorem wp_get {s : St K} {Q : St K → St K → Prop} {X : Exn → Prop} (h : Q s s) : wp get s Q X := h

theorem wp_modify {f : St K → St K} {s : St K} {Q : Unit → St K → Prop} {X : Exn → Prop} (h : Q () (f s)) :
    wp (modify f) s Q X := h

theorem wp_raise {e : Exn} {s : St K} {Q : α → St K → Prop} {X : Exn → Prop} (h : X e) :
    wp (raise e) s Q X := h

theorem wp_wait {s : St K} {Q : α → St K → Prop} {X : Exn → Prop} : wp wait s Q X := trivial

theorem wp_while {cond : β → Bool} {body : β → Py K β} {X : Exn → Prop} (I : β → St K → Prop)
    (hbody : ∀ b s, I b s → cond b = true → wp (body b) s I X) :
    ∀ (fuel : Nat) (b : β) (s : St K), I b s →
      wp (whileM fuel cond body b) s (fun b s => I b s ∧ cond b = false) X := by
  intro fuel
  induction fuel with
  | zero =>
    intro b s h
    unfold whileM
    split
    · exact wp_wait
    · rename_i hc
      exact ⟨h, by simpa using hc⟩
  | succ n ih =>
    intro b s h
    unfold whileM
    split
    · rename_i hc
      exact wp_bind (wp_mono (hbody b s h hc) (fun b' s' h' => ih b' s' h') (fun _ h => h))
    · rename_i hc
      exact ⟨h, by simpa using hc⟩

/-! ### Random primitives change nothing but the outcomes to come -/

/-- Only random outcomes have been used up. -/
def Used (s s' : St K) : Prop := ∃ used rest, s.rng = used ++ rest ∧ s' = { s with rng := rest }

theorem Used.refl (s : St K) : Used s s := ⟨[], s.rng, rfl, rfl⟩

theorem Used.trans {s s' s'' : St K} (h : Used s s') (h' : Used s' s'') : Used s s'' := by
  obtain ⟨u, r, e, rfl⟩ := h
  obtain ⟨u', r', e', rfl⟩ := h'
  refine ⟨u ++ u', r', ?_, rfl⟩
  rw [e, List.append_assoc]
  rw [← e']

theorem wp_draw {s : St K} {X : Exn → Prop} : wp draw s (fun d s' => Used s s' ∧ d ∈ s.rng) X := by
  unfold wp draw
  cases h : s.rng with
  | nil => trivial
  | cons d r => exact ⟨⟨[d], r, by simp [h], rfl⟩, by simp⟩

theorem wp_choice (l : List α) {s : St K} {X : Exn → Prop} (hX : l = [] → X .index) :
    wp (choice l) s (fun a s' => Used s s' ∧ a ∈ l) X := by
  unfold choice
  cases l with
  | nil => exact wp_raise (hX rfl)
  | cons a l =>
    apply wp_bind
    refine wp_mono wp_draw ?_ (fun _ h => h)
    intro d s' h
    refine ⟨h.1, ?_⟩
    have hlt : d.nat % (a :: l).length < (a :: l).length := Nat.mod_lt _ (by simp)
    rw [List.getD_eq_getElem?_getD, List.getElem?_eq_getElem hlt]
    exact List.getElem_mem hlt

theorem wp_random {s : St K} {X : Exn → Prop} :
    wp random s (fun u s' => Used s s' ∧ ∃ d ∈ s.rng, u = d.unit) X := by
  unfold random
  apply wp_bind
  refine wp_mono wp_draw ?_ (fun _ h => h)
  intro d s' h
  exact ⟨h.1, d, h.2, rfl⟩

theorem wp_randint (a b : Nat) {s : St K} {X : Exn → Prop} (hab : a ≤ b) :
    wp (randint a b) s (fun i s' => Used s s' ∧ a ≤ i ∧ i ≤ b) X := by
  unfold randint
  apply wp_bind
  refine wp_mono wp_draw ?_ (fun _ h => h)
  intro d s' h
  have := Nat.mod_lt d.nat (show 0 < b - a + 1 by omega)
  exact ⟨h.1, by omega, by omega⟩

theorem wp_randrange (m : Nat) {s : St K} {X : Exn → Prop} (hX : m = 0 → X .value) :
    wp (randrange m) s (fun i s' => Used s s' ∧ i < m) X := by
  unfold randrange
  split
  · rename_i h
    exact wp_raise (hX h)
  · apply wp_bind
    refine wp_mono wp_draw ?_ (fun _ h => h)
    intro d s' h
    exact ⟨h.1, Nat.mod_lt _ (by omega)⟩

/-- Two different indices in the range. -/
theorem wp_twoIndices (fuel a b : Nat) {s : St K} {X : Exn → Prop} (hab : a ≤ b) :
    wp (twoIndices fuel a b) s (fun p s' => Used s s' ∧ p.1 ≠ p.2 ∧ a ≤ p.1 ∧ p.1 ≤ b ∧ a ≤ p.2 ∧ p.2 ≤ b) X := by
  have := wp_while (K := K) (cond := fun p : Nat × Nat => decide (p.1 = p.2))
    (body := fun _ => do
      let i ← randint a b
      let j ← randint a b
      return (i, j)) (X := X)
    (fun p s' => Used s s' ∧ (p = (0, 0) ∨ (a ≤ p.1 ∧ p.1 ≤ b ∧ a ≤ p.2 ∧ p.2 ≤ b)))
    (by
      intro p s1 h1 _
      apply wp_bind
      refine wp_mono (wp_randint a b hab) ?_ (fun _ h => h)
      intro i s2 h2
      apply wp_bind
      refine wp_mono (wp_randint a b hab) ?_ (fun _ h => h)
      intro j s3 h3
      exact ⟨(h1.1.trans h2.1).trans h3.1, Or.inr ⟨h2.2.1, h2.2.2, h3.2.1, h3.2.2⟩⟩)
    fuel (0, 0) s ⟨Used.refl s, Or.inl rfl⟩
  refine wp_mono this ?_ (fun _ h => h)
  rintro p s' ⟨⟨hu, hp⟩, hc⟩
  have hne : p.1 ≠ p.2 := by simpa using hc
  rcases hp with rfl | hp
  · exact absurd rfl hne
  · exact ⟨hu, hne, hp⟩

/-! ### Tables -/

section
variable [Field K] [LinearOrder K] [IsStrictOrderedRing K]

/-- A key profile: 24 non-negative numbers, the two halves sum to 1 up to `ε`. -/
def GoodProfile (ε : K) (t : List K) : Prop :=
  t.length = 24 ∧ (∀ x ∈ t, 0 ≤ x) ∧ |(t.take 12).sum - 1| ≤ ε ∧ |(t.drop 12).sum - 1| ≤ ε

/-- A key transition table: 24 non-negative numbers that sum to 1 up to `ε`. -/
def GoodTransition (ε : K) (t : List K) : Prop :=
  t.length = 24 ∧ (∀ x ∈ t, 0 ≤ x) ∧ |t.sum - 1| ≤ ε

omit [LinearOrder K] [IsStrictOrderedRing K] in
theorem sum_set (l : List K) (i : Nat) (hi : i < l.length) (a : K) : (l.set i a).sum = l.sum - l[i] + a := by
  rw [List.sum_set', dif_pos hi]
  ring

omit [LinearOrder K] [IsStrictOrderedRing K] in
/-- Moving an amount from one entry to another keeps the sum. -/
theorem sum_move (l : List K) (i j : Nat) (hi : i < l.length) (hj : j < l.length) (hij : i ≠ j) (d : K) :
    ((l.set i (l[i] - d)).set j (l[j] + d)).sum = l.sum := by
  rw [sum_set _ j (by simpa using hj), sum_set l i hi]
  simp only [List.getElem_set, hij, if_false]
  ring

omit [LinearOrder K] [IsStrictOrderedRing K] in
theorem sum_div (l : List K) (c : K) : (l.map (fun x => x / c)).sum = l.sum / c := by
  induction l with
  | nil => simp
  | cons a l ih => rw [List.map_cons, List.sum_cons, ih, List.sum_cons, add_div]

/-- The move of the evolver. -/
def moved (t : List K) (i j : Nat) : List K :=
  (t.set i (t.getD i 0 - t.getD i 0 * (1 / 10))).set j (t.getD j 0 + t.getD i 0 * (1 / 10))

omit [LinearOrder K] [IsStrictOrderedRing K] in
theorem shift_eq (t : List K) (i j : Nat) (hi : i < t.length) (hj : j < t.length) (hij : i ≠ j) :
    shift t i j = pure (moved t i j) := by
  unfold shift moved
  rw [List.getElem?_eq_getElem hi, List.getElem?_eq_getElem hj]
  simp only [List.getElem?_set, hij, if_false, List.getElem?_eq_getElem hj, List.getD_eq_getElem?_getD,
    List.getElem?_eq_getElem hi, Option.getD_some]

theorem moved_nonneg (t : List K) (h : ∀ x ∈ t, 0 ≤ x) (i j : Nat) : ∀ x ∈ moved t i j, 0 ≤ x := by
  have h0 : ∀ k, 0 ≤ t.getD k 0 := by
    intro k
    rw [List.getD_eq_getElem?_getD]
    by_cases hk : k < t.length
    · rw [List.getElem?_eq_getElem hk]; exact h _ (List.getElem_mem hk)
    · rw [List.getElem?_eq_none (by omega)]; exact le_refl _
  intro x hx
  unfold moved at hx
  rcases List.mem_or_eq_of_mem_set hx with hx | rfl
  · rcases List.mem_or_eq_of_mem_set hx with hx | rfl
    · exact h x hx
    · have := h0 i
      linarith
  · have h1 := h0 i
    have h2 := h0 j
    positivity

omit [LinearOrder K] [IsStrictOrderedRing K] in
theorem moved_length (t : List K) (i j : Nat) : (moved t i j).length = t.length := by simp [moved]

omit [LinearOrder K] [IsStrictOrderedRing K] in
theorem moved_sum (t : List K) (i j : Nat) (hi : i < t.length) (hj : j < t.length) (hij : i ≠ j) :
    (moved t i j).sum = t.sum := by
  unfold moved
  simp only [List.getD_eq_getElem?_getD, List.getElem?_eq_getElem hi, List.getElem?_eq_getElem hj,
    Option.getD_some]
  exact sum_move t i j hi hj hij _

omit [LinearOrder K] [IsStrictOrderedRing K] in
/-- A move inside the first half. -/
theorem moved_major (t : List K) (ht : t.length = 24) (i j : Nat) (hi : i ≤ 11) (hj : j ≤ 11) (hij : i ≠ j) :
    ((moved t i j).take 12).sum = (t.take 12).sum ∧ (moved t i j).drop 12 = t.drop 12 := by
  constructor
  · have e : (moved t i j).take 12 = moved (t.take 12) i j := by
      unfold moved
      rw [List.take_set, List.take_set]
      have h1 : (t.take 12).getD i 0 = t.getD i 0 := by
        simp [List.getD_eq_getElem?_getD, List.getElem?_take, show i < 12 by omega]
      have h2 : (t.take 12).getD j 0 = t.getD j 0 := by
        simp [List.getD_eq_getElem?_getD, List.getElem?_take, show j < 12 by omega]
      rw [h1, h2]
    rw [e]
    exact moved_sum _ i j (by simp [ht]; omega) (by simp [ht]; omega) hij
  · unfold moved
    rw [List.drop_set, if_pos (by omega), List.drop_set, if_pos (by omega)]

omit [LinearOrder K] [IsStrictOrderedRing K] in
/-- A move inside the second half. -/
theorem moved_minor (t : List K) (ht : t.length = 24) (i j : Nat) (hi : 12 ≤ i) (hi' : i ≤ 23) (hj : 12 ≤ j)
    (hj' : j ≤ 23) (hij : i ≠ j) :
    (moved t i j).take 12 = t.take 12 ∧ ((moved t i j).drop 12).sum = (t.drop 12).sum := by
  constructor
  · unfold moved
    rw [List.take_set_of_le hj, List.take_set_of_le hi]
  · have e : (moved t i j).drop 12 = moved (t.drop 12) (i - 12) (j - 12) := by
      unfold moved
      rw [List.drop_set, if_neg (by omega), List.drop_set, if_neg (by omega)]
      have h1 : (t.drop 12).getD (i - 12) 0 = t.getD i 0 := by
        simp [List.getD_eq_getElem?_getD, List.getElem?_drop, show 12 + (i - 12) = i by omega]
      have h2 : (t.drop 12).getD (j - 12) 0 = t.getD j 0 := by
        simp [List.getD_eq_getElem?_getD, List.getElem?_drop, show 12 + (j - 12) = j by omega]
      rw [h1, h2]
    rw [e]
    exact moved_sum _ _ _ (by simp [ht]; omega) (by simp [ht]; omega) (by omega)

/-! ### The state invariant -/

/-- Well-formed states: every table is good, generated names are below the counters, geometric tables have a
positive ratio, and the outcomes of `random` lie in [0, 1). -/
structure WF (ε : K) (s : St K) : Prop where
  kp : ∀ n t, s.kp n = some t → GoodProfile ε t
  kt : ∀ n t, s.kt n = some t → GoodTransition ε t
  kpId : ∀ i, s.genKp ≤ i → s.kp (.kp i) = none
  kpcId : ∀ i, s.evoKp ≤ i → s.kp (.kpc i) = none
  kpmId : ∀ i, s.evoKp ≤ i → s.kp (.kpm i) = none
  ktgId : ∀ i, s.genKt ≤ i → s.kt (.ktg i) = none
  ktsId : ∀ i, s.genKt ≤ i → s.kt (.kts i) = none
  ktgmId : ∀ i, s.evoKt ≤ i → s.kt (.ktgm i) = none
  ktsmId : ∀ i, s.evoKt ≤ i → s.kt (.ktsm i) = none
  ratio : ∀ n r, s.ratio n = some r → 0 < r
  ktgRatio : ∀ i, s.kt (.ktg i) ≠ none → s.ratio (.ktg i) ≠ none
  ktgmRatio : ∀ i, s.kt (.ktgm i) ≠ none → s.ratio (.ktgm i) ≠ none
  unit : ∀ d ∈ s.rng, 0 ≤ d.unit ∧ d.unit < 1

/-- Later states keep all tables, and the ratios of the tables. -/
structure Ext (s s' : St K) : Prop where
  kp : ∀ n t, s.kp n = some t → s'.kp n = some t
  kt : ∀ n t, s.kt n = some t → s'.kt n = some t
  ratio : ∀ n, s.kt n ≠ none → s'.ratio n = s.ratio n

omit [Field K] [LinearOrder K] [IsStrictOrderedRing K] in
theorem Ext.refl (s : St K) : Ext s s := ⟨fun _ _ h => h, fun _ _ h => h, fun _ _ => rfl⟩

omit [Field K] [LinearOrder K] [IsStrictOrderedRing K] in
theorem Ext.trans {s s' s'' : St K} (h : Ext s s') (h' : Ext s' s'') : Ext s s'' := by
  refine ⟨fun n t e => h'.kp n t (h.kp n t e), fun n t e => h'.kt n t (h.kt n t e), fun n e => ?_⟩
  rw [h'.ratio n _, h.ratio n e]
  obtain ⟨t, ht⟩ := Option.ne_none_iff_exists'.1 e
  rw [h.kt n t ht]
  simp

omit [Field K] [LinearOrder K] [IsStrictOrderedRing K] in
theorem Used.ext {s s' : St K} (h : Used s s') : Ext s s' := by
  obtain ⟨_, _, _, rfl⟩ := h
  exact ⟨fun _ _ h => h, fun _ _ h => h, fun _ _ => rfl⟩

theorem Used.wf {ε : K} {s s' : St K} (h : Used s s') (w : WF ε s) : WF ε s' := by
  obtain ⟨u, r, e, rfl⟩ := h
  exact { w with unit := fun d hd => w.unit d (by rw [e]; simp [hd]) }

omit [Field K] [LinearOrder K] [IsStrictOrderedRing K] in
theorem Used.kp {s s' : St K} (h : Used s s') : s'.kp = s.kp := by
  obtain ⟨_, _, _, rfl⟩ := h
  rfl

omit [Field K] [LinearOrder K] [IsStrictOrderedRing K] in
theorem Used.kt {s s' : St K} (h : Used s s') : s'.kt = s.kt := by
  obtain ⟨_, _, _, rfl⟩ := h
  rfl

/-- `insert_new` of a profile. -/
theorem wp_insertProfile (n : Name) (t : List K) (s : St K) {X : Exn → Prop} :
    wp (insertProfile n t) s (fun _ s' => ∃ w, s' = { s with kp := s.kp.put n t, warns := w }) X := by
  unfold insertProfile
  by_cases h1 : suspicious (t.take 12).sum = true <;> by_cases h2 : suspicious (t.drop 12).sum = true <;>
    simp only [h1, h2, if_true, if_false, Bool.false_eq_true] <;> exact ⟨_, rfl⟩

theorem wp_insertTransition (n : Name) (t : List K) (s : St K) {X : Exn → Prop} :
    wp (insertTransition n t) s (fun _ s' => ∃ w, s' = { s with kt := s.kt.put n t, warns := w }) X := by
  unfold insertTransition
  by_cases h1 : suspicious t.sum = true <;>
    simp only [h1, if_true, if_false, Bool.false_eq_true] <;> exact ⟨_, rfl⟩

/-- Adding a profile under a new generated name. -/
theorem addKp {ε : K} {s : St K} (w : WF ε s) (t : List K) (ht : GoodProfile ε t) (ws : List (Name × K)) :
    WF ε { s with genKp := s.genKp + 1, kp := s.kp.put (.kp s.genKp) t, warns := ws } ∧
      Ext s { s with genKp := s.genKp + 1, kp := s.kp.put (.kp s.genKp) t, warns := ws } := by
  refine ⟨{ w with kp := ?_, kpId := ?_, kpcId := ?_, kpmId := ?_ }, ⟨?_, fun _ _ h => h, fun _ _ => rfl⟩⟩
  · intro n t' h
    simp only [Dict.put] at h
    split at h
    · cases h; exact ht
    · exact w.kp n t' h
  · intro i hi
    simp only [Dict.put, Name.kp.injEq]
    rw [if_neg (by simp only at hi; omega)]
    exact w.kpId i (by simp only at hi; omega)
  · intro i hi; simpa [Dict.put] using w.kpcId i hi
  · intro i hi; simpa [Dict.put] using w.kpmId i hi
  · intro n t' h
    simp only [Dict.put]
    rw [if_neg]
    · exact h
    · rintro rfl
      rw [w.kpId _ (le_refl _)] at h
      cases h

theorem addKpc {ε : K} {s : St K} (w : WF ε s) (t : List K) (ht : GoodProfile ε t) (ws : List (Name × K)) :
    WF ε { s with evoKp := s.evoKp + 1, kp := s.kp.put (.kpc s.evoKp) t, warns := ws } ∧
      Ext s { s with evoKp := s.evoKp + 1, kp := s.kp.put (.kpc s.evoKp) t, warns := ws } := by
  refine ⟨{ w with kp := ?_, kpId := ?_, kpcId := ?_, kpmId := ?_ }, ⟨?_, fun _ _ h => h, fun _ _ => rfl⟩⟩
  · intro n t' h
    simp only [Dict.put] at h
    split at h
    · cases h; exact ht
    · exact w.kp n t' h
  · intro i hi; simpa [Dict.put] using w.kpId i hi
  · intro i hi
    simp only [Dict.put, Name.kpc.injEq]
    rw [if_neg (by simp only at hi; omega)]
    exact w.kpcId i (by simp only at hi; omega)
  · intro i hi
    simp only at hi
    simpa [Dict.put] using w.kpmId i (by omega)
  · intro n t' h
    simp only [Dict.put]
    rw [if_neg]
    · exact h
    · rintro rfl
      rw [w.kpcId _ (le_refl _)] at h
      cases h

theorem addKpm {ε : K} {s : St K} (w : WF ε s) (t : List K) (ht : GoodProfile ε t) (ws : List (Name × K)) :
    WF ε { s with evoKp := s.evoKp + 1, kp := s.kp.put (.kpm s.evoKp) t, warns := ws } ∧
      Ext s { s with evoKp := s.evoKp + 1, kp := s.kp.put (.kpm s.evoKp) t, warns := ws } := by
  refine ⟨{ w with kp := ?_, kpId := ?_, kpcId := ?_, kpmId := ?_ }, ⟨?_, fun _ _ h => h, fun _ _ => rfl⟩⟩
  · intro n t' h
    simp only [Dict.put] at h
    split at h
    · cases h; exact ht
    · exact w.kp n t' h
  · intro i hi; simpa [Dict.put] using w.kpId i hi
  · intro i hi
    simp only at hi
    simpa [Dict.put] using w.kpcId i (by omega)
  · intro i hi
    simp only [Dict.put, Name.kpm.injEq]
    rw [if_neg (by simp only at hi; omega)]
    exact w.kpmId i (by simp only at hi; omega)
  · intro n t' h
    simp only [Dict.put]
    rw [if_neg]
    · exact h
    · rintro rfl
      rw [w.kpmId _ (le_refl _)] at h
      cases h

/-- Adding a geometric transition with its ratio. -/
theorem addKtg {ε : K} {s : St K} (w : WF ε s) (t : List K) (ht : GoodTransition ε t) (r : K) (hr : 0 < r)
    (ws : List (Name × K)) :
    WF ε { s with genKt := s.genKt + 1, kt := s.kt.put (.ktg s.genKt) t, ratio := s.ratio.put (.ktg s.genKt) r,
                  warns := ws } ∧
      Ext s { s with genKt := s.genKt + 1, kt := s.kt.put (.ktg s.genKt) t,
                     ratio := s.ratio.put (.ktg s.genKt) r, warns := ws } := by
  refine ⟨{ w with kt := ?_, ktgId := ?_, ktsId := ?_, ktgmId := ?_, ktsmId := ?_, ratio := ?_, ktgRatio := ?_, ktgmRatio := ?_ },
    ⟨fun _ _ h => h, ?_, ?_⟩⟩
  · intro n t' h
    simp only [Dict.put] at h
    split at h
    · cases h; exact ht
    · exact w.kt n t' h
  · intro i hi
    simp only at hi
    simp only [Dict.put, Name.ktg.injEq]
    rw [if_neg (by omega)]
    exact w.ktgId i (by omega)
  · intro i hi
    simp only at hi
    simpa [Dict.put] using w.ktsId i (by omega)
  · intro i hi; simpa [Dict.put] using w.ktgmId i hi
  · intro i hi; simpa [Dict.put] using w.ktsmId i hi
  · intro n r' h
    simp only [Dict.put] at h
    split at h
    · cases h; exact hr
    · exact w.ratio n r' h
  · intro i
    simp only [Dict.put]
    split
    · simp
    · exact w.ktgRatio i
  · intro i; simpa [Dict.put] using w.ktgmRatio i
  · intro n t' h
    simp only [Dict.put]
    rw [if_neg]
    · exact h
    · rintro rfl
      rw [w.ktgId _ (le_refl _)] at h
      cases h
  · intro n h
    simp only [Dict.put]
    rw [if_neg]
    rintro rfl
    exact h (w.ktgId _ (le_refl _))

theorem addKts {ε : K} {s : St K} (w : WF ε s) (t : List K) (ht : GoodTransition ε t) (ws : List (Name × K)) :
    WF ε { s with genKt := s.genKt + 1, kt := s.kt.put (.kts s.genKt) t, warns := ws } ∧
      Ext s { s with genKt := s.genKt + 1, kt := s.kt.put (.kts s.genKt) t, warns := ws } := by
  refine ⟨{ w with kt := ?_, ktgId := ?_, ktsId := ?_, ktgmId := ?_, ktsmId := ?_, ktgRatio := ?_, ktgmRatio := ?_ },
    ⟨fun _ _ h => h, ?_, fun _ _ => rfl⟩⟩
  · intro n t' h
    simp only [Dict.put] at h
    split at h
    · cases h; exact ht
    · exact w.kt n t' h
  · intro i hi
    simp only at hi
    simpa [Dict.put] using w.ktgId i (by omega)
  · intro i hi
    simp only at hi
    simp only [Dict.put, Name.kts.injEq]
    rw [if_neg (by omega)]
    exact w.ktsId i (by omega)
  · intro i hi; simpa [Dict.put] using w.ktgmId i hi
  · intro i hi; simpa [Dict.put] using w.ktsmId i hi
  · intro i; simpa [Dict.put] using w.ktgRatio i
  · intro i; simpa [Dict.put] using w.ktgmRatio i
  · intro n t' h
    simp only [Dict.put]
    rw [if_neg]
    · exact h
    · rintro rfl
      rw [w.ktsId _ (le_refl _)] at h
      cases h

theorem addKtgm {ε : K} {s : St K} (w : WF ε s) (t : List K) (ht : GoodTransition ε t) (r : K) (hr : 0 < r)
    (ws : List (Name × K)) :
    WF ε { s with evoKt := s.evoKt + 1, kt := s.kt.put (.ktgm s.evoKt) t, ratio := s.ratio.put (.ktgm s.evoKt) r,
                  warns := ws } ∧
      Ext s { s with evoKt := s.evoKt + 1, kt := s.kt.put (.ktgm s.evoKt) t,
                     ratio := s.ratio.put (.ktgm s.evoKt) r, warns := ws } := by
  refine ⟨{ w with kt := ?_, ktgId := ?_, ktsId := ?_, ktgmId := ?_, ktsmId := ?_, ratio := ?_, ktgRatio := ?_, ktgmRatio := ?_ },
    ⟨fun _ _ h => h, ?_, ?_⟩⟩
  · intro n t' h
    simp only [Dict.put] at h
    split at h
    · cases h; exact ht
    · exact w.kt n t' h
  · intro i hi; simpa [Dict.put] using w.ktgId i hi
  · intro i hi; simpa [Dict.put] using w.ktsId i hi
  · intro i hi
    simp only at hi
    simp only [Dict.put, Name.ktgm.injEq]
    rw [if_neg (by omega)]
    exact w.ktgmId i (by omega)
  · intro i hi
    simp only at hi
    simpa [Dict.put] using w.ktsmId i (by omega)
  · intro n r' h
    simp only [Dict.put] at h
    split at h
    · cases h; exact hr
    · exact w.ratio n r' h
  · intro i; simpa [Dict.put] using w.ktgRatio i
  · intro i
    simp only [Dict.put]
    split
    · simp
    · exact w.ktgmRatio i
  · intro n t' h
    simp only [Dict.put]
    rw [if_neg]
    · exact h
    · rintro rfl
      rw [w.ktgmId _ (le_refl _)] at h
      cases h
  · intro n h
    simp only [Dict.put]
    rw [if_neg]
    rintro rfl
    exact h (w.ktgmId _ (le_refl _))

theorem addKtsm {ε : K} {s : St K} (w : WF ε s) (t : List K) (ht : GoodTransition ε t) (ws : List (Name × K)) :
    WF ε { s with evoKt := s.evoKt + 1, kt := s.kt.put (.ktsm s.evoKt) t, warns := ws } ∧
      Ext s { s with evoKt := s.evoKt + 1, kt := s.kt.put (.ktsm s.evoKt) t, warns := ws } := by
  refine ⟨{ w with kt := ?_, ktgId := ?_, ktsId := ?_, ktgmId := ?_, ktsmId := ?_, ktgRatio := ?_, ktgmRatio := ?_ },
    ⟨fun _ _ h => h, ?_, fun _ _ => rfl⟩⟩
  · intro n t' h
    simp only [Dict.put] at h
    split at h
    · cases h; exact ht
    · exact w.kt n t' h
  · intro i hi; simpa [Dict.put] using w.ktgId i hi
  · intro i hi; simpa [Dict.put] using w.ktsId i hi
  · intro i hi
    simp only at hi
    simpa [Dict.put] using w.ktgmId i (by omega)
  · intro i hi
    simp only at hi
    simp only [Dict.put, Name.ktsm.injEq]
    rw [if_neg (by omega)]
    exact w.ktsmId i (by omega)
  · intro i; simpa [Dict.put] using w.ktgRatio i
  · intro i; simpa [Dict.put] using w.ktgmRatio i
  · intro n t' h
    simp only [Dict.put]
    rw [if_neg]
    · exact h
    · rintro rfl
      rw [w.ktsmId _ (le_refl _)] at h
      cases h

end

end JKD.Opt
