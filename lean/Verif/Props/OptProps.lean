import Verif.Lemmas.OptEvolve
import Mathlib.Algebra.Order.Ring.Rat
import Mathlib.Tactic.IntervalCases
/-
C46-C49, C56: the genetic optimiser.
-/

namespace JKD.Opt

set_option linter.unusedSectionVars false

variable {K α β : Type} [Field K] [LinearOrder K] [IsStrictOrderedRing K]

/-! ### C49 -/

/-- **C49 violated.**  A profile whose halves sum to 2, 100, or anything of 1 and more, is inserted without
a warning. -/
theorem C49_too_large_violated (name : Name) (kp : List K) (h : 1 ≤ (kp.take 12).sum) (h' : 1 ≤ (kp.drop 12).sum)
    (s : St K) : ∃ s', insertProfile name kp s = .done ((), s') ∧ s'.warns = s.warns ∧ s'.kp name = some kp := by
  have h1 : ∀ x : K, 1 ≤ x → suspicious x = false := by
    intro x hx
    unfold suspicious
    rw [abs_of_nonneg (by linarith)]
    simp only [decide_eq_false_iff_not, not_lt]
    linarith
  unfold insertProfile
  simp only [h1 _ h, h1 _ h', Bool.false_eq_true, if_false]
  exact ⟨_, rfl, rfl, by simp [Dict.put]⟩

/-- **C49, partial.**  What holds: a profile is stored in any case, and for non-negative entries there is one
warning for each half whose sum is below 0.99 — and no other. -/
theorem C49_profile_partial (name : Name) (kp : List K) (hk : ∀ x ∈ kp, 0 ≤ x) (s : St K) :
    ∃ s', insertProfile name kp s = .done ((), s') ∧ s'.kp name = some kp ∧ (∀ m, m ≠ name → s'.kp m = s.kp m) ∧
      s'.warns = s.warns ++
        ((if (kp.take 12).sum < 99 / 100 then [(name, (kp.take 12).sum)] else []) ++
         (if (kp.drop 12).sum < 99 / 100 then [(name, (kp.drop 12).sum)] else [])) := by
  have key : ∀ l : List K, (∀ x ∈ l, 0 ≤ x) → (suspicious l.sum = true ↔ l.sum < 99 / 100) := by
    intro l hl
    have := List.sum_nonneg hl
    unfold suspicious
    rw [abs_of_nonneg this, decide_eq_true_eq]
    constructor <;> intro h <;> linarith
  have k1 := key (kp.take 12) (fun x hx => hk x (List.mem_of_mem_take hx))
  have k2 := key (kp.drop 12) (fun x hx => hk x (List.mem_of_mem_drop hx))
  unfold insertProfile
  by_cases h1 : (kp.take 12).sum < 99 / 100 <;> by_cases h2 : (kp.drop 12).sum < 99 / 100
  · simp only [k1.2 h1, k2.2 h2, h1, h2, if_true]
    exact ⟨_, rfl, by simp [Dict.put], by intro m hm; simp [Dict.put, hm], by simp⟩
  · have e2 : suspicious (kp.drop 12).sum = false := by simpa using mt k2.1 h2
    simp only [k1.2 h1, e2, h1, h2, if_true, if_false, Bool.false_eq_true]
    exact ⟨_, rfl, by simp [Dict.put], by intro m hm; simp [Dict.put, hm], by simp⟩
  · have e1 : suspicious (kp.take 12).sum = false := by simpa using mt k1.1 h1
    simp only [e1, k2.2 h2, h1, h2, if_true, if_false, Bool.false_eq_true]
    exact ⟨_, rfl, by simp [Dict.put], by intro m hm; simp [Dict.put, hm], by simp⟩
  · have e1 : suspicious (kp.take 12).sum = false := by simpa using mt k1.1 h1
    have e2 : suspicious (kp.drop 12).sum = false := by simpa using mt k2.1 h2
    simp only [e1, e2, h1, h2, if_false, Bool.false_eq_true]
    exact ⟨_, rfl, by simp [Dict.put], by intro m hm; simp [Dict.put, hm], by simp⟩

/-- The same for transitions. -/
theorem C49_transition_partial (name : Name) (kt : List K) (hk : ∀ x ∈ kt, 0 ≤ x) (s : St K) :
    ∃ s', insertTransition name kt s = .done ((), s') ∧ s'.kt name = some kt ∧ (∀ m, m ≠ name → s'.kt m = s.kt m) ∧
      s'.warns = s.warns ++ (if kt.sum < 99 / 100 then [(name, kt.sum)] else []) := by
  have key : suspicious kt.sum = true ↔ kt.sum < 99 / 100 := by
    have := List.sum_nonneg hk
    unfold suspicious
    rw [abs_of_nonneg this, decide_eq_true_eq]
    constructor <;> intro h <;> linarith
  unfold insertTransition
  by_cases h1 : kt.sum < 99 / 100
  · simp only [key.2 h1, h1, if_true]
    exact ⟨_, rfl, by simp [Dict.put], by intro m hm; simp [Dict.put, hm], by simp⟩
  · have e1 : suspicious kt.sum = false := by simpa using mt key.1 h1
    simp only [e1, h1, if_false, Bool.false_eq_true]
    exact ⟨_, rfl, by simp [Dict.put], by intro m hm; simp [Dict.put, hm], by simp⟩

/-! ### C47 -/

/-- A distribution. -/
def Distribution (t : List K) : Prop := (∀ x ∈ t, 0 ≤ x) ∧ t.sum = 1

/-- **C47, profiles.**  For every list of random outcomes, generating a profile stores, under a new name, 24
numbers whose two halves are distributions, or ends in ZeroDivisionError (a half of zeros was drawn), or —
only if `kp_max_range` is below 8 — in ValueError. -/
theorem C47_profile (kpMax : Nat) (s : St K) :
    match generateProfile kpMax s with
    | .done (n, s') => s.genKp < s'.genKp ∧ n = .kp s.genKp ∧
        ∃ a b, s'.kp n = some (a ++ b) ∧ a.length = 12 ∧ b.length = 12 ∧ Distribution a ∧ Distribution b
    | .raised e => e = .zeroDivision ∨ (e = .value ∧ kpMax < 8)
    | .waiting => True := by
  have : wp (generateProfile kpMax) s (fun n s' => s.genKp < s'.genKp ∧ n = .kp s.genKp ∧
      ∃ a b, s'.kp n = some (a ++ b) ∧ a.length = 12 ∧ b.length = 12 ∧ Distribution a ∧ Distribution b)
      (GenExn kpMax) := by
    unfold generateProfile
    apply wp_bind
    refine wp_mono (wp_major kpMax s) ?_ (fun _ h => h)
    intro a s1 h1
    apply wp_bind
    refine wp_mono (wp_minor kpMax s1) ?_ (fun _ h => h)
    intro b s2 h2
    obtain ⟨_, _, _, rfl⟩ := h1.1.trans h2.1
    refine wp_bind (wp_get ?_)
    refine wp_bind (wp_modify ?_)
    refine wp_bind (wp_mono (wp_insertProfile _ _ _) ?_ (fun _ h => h))
    rintro _ s3 ⟨ws, rfl⟩
    exact wp_pure ⟨by simp, rfl, a, b, by simp [Dict.put], h1.2.1, h2.2.1, h1.2.2, h2.2.2⟩
  unfold wp at this
  revert this
  cases generateProfile kpMax s with
  | done p => exact id
  | raised e =>
    rintro (h | h)
    · exact Or.inr h
    · exact Or.inl h
  | waiting => exact id

/-- Relations between keys: index `k < 12` is a major key `k` semitones above the tonic, `k ≥ 12` a minor key
`k - 12` semitones above, seen from a major key.  The closer of two keys by this order of distance. -/
def distance (k : Nat) : Nat :=
  if k = 0 then 0                                                       -- the same key
  else if k = 5 ∨ k = 7 ∨ k = 12 ∨ k = 21 then 1                        -- fourth, fifth, parallel, relative
  else if k = 14 ∨ k = 16 ∨ k = 17 ∨ k = 19 then 2                      -- their relatives and parallels
  else if k = 2 ∨ k = 3 ∨ k = 9 ∨ k = 10 then 3
  else if k = 4 ∨ k = 8 ∨ k = 22 ∨ k = 23 then 4
  else if k = 1 ∨ k = 11 then 5
  else if k = 15 ∨ k = 18 then 6
  else if k = 13 ∨ k = 20 then 7
  else 8                                                                -- the tritone

/-- **C47, geometric transitions.**  For every positive ratio the table is a distribution over the 24 keys in
which each key has `ratio` times the probability of the keys one step further away (so keys at the same
distance are equal), and nothing is raised. -/
theorem C47_geometric (ratio : K) (hr : 0 < ratio) (s : St K) :
    ∃ t, generateGeometric ratio s = .done (t, s) ∧ t.length = 24 ∧ Distribution t ∧
      ∀ i < 24, ∀ j < 24, t.getD i 0 * ratio ^ distance i = t.getD j 0 * ratio ^ distance j := by
  have h := wp_normalise (s := s) (X := fun _ => False) (geometricFill ratio (List.replicate 24 0) 0 keyGroups)
    (geometricFill_nonneg ratio hr.le _ _ 0 (by simp)) (fun h => absurd h (geometric_sum_pos ratio hr).ne')
  have hrun : generateGeometric ratio s =
      .done ((geometricFill ratio (List.replicate 24 0) 0 keyGroups).map
        (fun x => x / (geometricFill ratio (List.replicate 24 0) 0 keyGroups).sum), s) := by
    unfold generateGeometric normalise
    rw [if_neg (geometric_sum_pos ratio hr).ne']
    rfl
  have h2 : wp (generateGeometric ratio) s _ _ := h
  unfold wp at h2
  rw [hrun] at h2
  obtain ⟨_, hl, hn, hs, _⟩ := h2
  refine ⟨_, hrun, by rw [hl, geometricFill_length]; rfl, ⟨hn, hs⟩, ?_⟩
  generalize hS : (geometricFill ratio (List.replicate 24 0) 0 keyGroups).sum = S
  rw [geometric_eq]
  have key : ∀ i < 24, ([ratio ^ 8, ratio ^ 3, ratio ^ 5, ratio ^ 5, ratio ^ 4, ratio ^ 7, 1, ratio ^ 7, ratio ^ 4,
      ratio ^ 5, ratio ^ 5, ratio ^ 3, ratio ^ 7, ratio, ratio ^ 6, ratio ^ 2, ratio ^ 6, ratio ^ 6, ratio ^ 2,
      ratio ^ 6, ratio, ratio ^ 7, ratio ^ 4, ratio ^ 4].map (fun x => x / S)).getD i 0 * ratio ^ distance i =
      ratio ^ 8 / S := by
    intro i hi
    interval_cases i <;> simp [distance] <;> ring
  intro i hi j hj
  rw [key i hi, key j hj]

/-- **C47, stochastic and geometric transitions through `generate_key_transition`.**  For every list of
outcomes the stored table is a distribution of 24 entries, or the run ends in ZeroDivisionError, or — only if
`kt_max_range` is below 256 — in ValueError. -/
theorem C47_transition (ktMax : Nat) (s : St K) (w : WF 0 s) :
    match generateTransition ktMax s with
    | .done (n, s') => ∃ t, s.kt n = none ∧ s'.kt n = some t ∧ t.length = 24 ∧ Distribution t
    | .raised e => e = .zeroDivision ∨ (e = .value ∧ ktMax < 256)
    | .waiting => True := by
  have := wp_generateTransition (le_refl (0 : K)) ktMax s w
  unfold wp at this
  revert this
  cases generateTransition ktMax s with
  | done p =>
    rintro ⟨w', _, hf, ⟨t, ht⟩, _⟩
    have hg := w'.kt _ _ ht
    refine ⟨t, hf, ht, hg.1, hg.2.1, ?_⟩
    have := abs_nonpos_iff.1 hg.2.2
    linarith
  | raised e =>
    rintro (h | h)
    · exact Or.inr h
    · exact Or.inl h
  | waiting => exact id

/-- An endless supply of the smallest outcome. -/
def zeros (n : Nat) : List (Draw K) := List.replicate n ⟨0, 0⟩

omit [LinearOrder K] [IsStrictOrderedRing K] in
theorem fillGroup_zeros [LinearOrder K] (max h : Nat) (hm : max / 2 ^ h ≠ 0) (is : List Nat) :
    ∀ (t : List Nat) (s : St K) (k : Nat), s.rng = zeros (is.length + k) → (∀ x ∈ t, x = 0) →
      ∃ t', fillGroup max h t is s = .done (t', { s with rng := zeros k }) ∧ ∀ x ∈ t', x = 0 := by
  induction is with
  | nil =>
    intro t s k hs ht
    refine ⟨t, ?_, ht⟩
    have : s = { s with rng := zeros k } := by
      rw [show zeros k = s.rng by simpa using hs.symm]
    conv_lhs => rw [this]
    rfl
  | cons i is ih =>
    intro t s k hs ht
    obtain ⟨t', h1, h2⟩ := ih (t.set i 0) { s with rng := zeros (is.length + k) } k rfl (by
      intro x hx
      rcases List.mem_or_eq_of_mem_set hx with hx | rfl
      · exact ht x hx
      · rfl)
    refine ⟨t', ?_, h2⟩
    have hr : randrange (max / 2 ^ h) s = .done (0, { s with rng := zeros (is.length + k) }) := by
      unfold randrange
      rw [if_neg hm]
      change Py.bind draw _ s = _
      unfold Py.bind draw
      have : s.rng = ⟨0, 0⟩ :: zeros (is.length + k) := by
        rw [hs]
        simp only [zeros, List.length_cons]
        rw [show is.length + 1 + k = (is.length + k) + 1 by omega, List.replicate_succ]
      rw [this]
      simp only [Nat.zero_mod]
      rfl
    change Py.bind (randrange (max / 2 ^ h)) _ s = _
    unfold Py.bind
    rw [hr]
    exact h1

/-- **C47 violated.**  Random outcomes for which generating a profile divides by zero: twelve zeros in a row
(for every range of 4 or more). -/
theorem C47_zero_violated (kpMax : Nat) (hm : 4 ≤ kpMax) (s : St K) (hs : s.rng = zeros 12) :
    generateProfile kpMax s = .raised .zeroDivision := by
  have d0 : kpMax / 2 ^ 0 ≠ 0 := by simp; omega
  have d1 : kpMax / 2 ^ 1 ≠ 0 := by simp; omega
  have d2 : kpMax / 2 ^ 2 ≠ 0 := by simp; omega
  obtain ⟨t1, e1, z1⟩ := fillGroup_zeros kpMax 0 d0 [0, 7] (List.replicate 12 0) s 10 (by rw [hs]; rfl)
    (fun x hx => List.eq_of_mem_replicate hx)
  obtain ⟨t2, e2, z2⟩ := fillGroup_zeros kpMax 1 d1 [2, 4, 5, 9, 11] t1 { s with rng := zeros 10 } 5 rfl z1
  obtain ⟨t3, e3, z3⟩ := fillGroup_zeros kpMax 2 d2 [1, 3, 6, 8, 10] t2 { s with rng := zeros 5 } 0 rfl z2
  have hfill : fillGroups kpMax (List.replicate 12 0) majorGroups s = .done (t3, { s with rng := zeros 0 }) := by
    change Py.bind (fillGroup kpMax 0 _ _) _ s = _
    unfold Py.bind
    rw [e1]
    change Py.bind (fillGroup kpMax 1 _ _) _ _ = _
    unfold Py.bind
    rw [e2]
    change Py.bind (fillGroup kpMax 2 _ _) _ _ = _
    unfold Py.bind
    rw [e3]
    rfl
  have hsum : (t3.map (fun (x : Nat) => (x : K))).sum = 0 := by
    apply List.sum_eq_zero
    intro x hx
    obtain ⟨y, hy, rfl⟩ := List.mem_map.1 hx
    rw [z3 y hy]
    simp
  change Py.bind (Py.bind (fillGroups kpMax _ _) _) _ s = _
  unfold Py.bind
  rw [hfill]
  simp only [normalise, hsum, if_true]
  rfl

/-! ### C46 -/

/-- **C46, profiles.**  For every population of distinct stored profiles and every list of random outcomes, a
generation that finishes returns equally many distinct, stored, well-formed profiles, each of them from the
old population or new; tables that existed are unchanged.  If it does not finish it is still drawing, or it
ends in IndexError (only for a population of four), ZeroDivisionError, or ValueError (only for a range
below 8). -/
theorem C46_profiles (ε : K) (hε : 0 ≤ ε) (fuel kpMax : Nat) (kps : List Name) (s : St K) (w : WF ε s)
    (hn : kps.Nodup) (hh : ∀ n ∈ kps, ∃ t, s.kp n = some t) :
    match evolveProfiles fuel kpMax kps s with
    | .done (r, s') => r.length = kps.length ∧ r.Nodup ∧ (∀ n ∈ r, n ∈ kps ∨ s.kp n = none) ∧
        (∀ n ∈ r, ∃ t, s'.kp n = some t ∧ GoodProfile ε t) ∧
        (∀ n t, s.kp n = some t → s'.kp n = some t) ∧ s'.kt = s.kt ∧ WF ε s'
    | .raised e => (e = .index ∧ kps.length = 4) ∨ (e = .value ∧ kpMax < 8) ∨ e = .zeroDivision
    | .waiting => True := by
  have := wp_evolveProfiles hε fuel kpMax kps s w hn hh
  unfold wp at this
  revert this
  cases evolveProfiles fuel kpMax kps s with
  | done p =>
    rintro ⟨w', e, hk, _, hl, hnd, hh', hf⟩
    refine ⟨hl, hnd, hf, ?_, e.kp, hk, w'⟩
    intro n hm
    obtain ⟨t, ht⟩ := hh' n hm
    exact ⟨t, ht, w'.kp n t ht⟩
  | raised e => exact id
  | waiting => exact id

/-- **C46, transitions.** -/
theorem C46_transitions (ε : K) (hε : 0 ≤ ε) (fuel ktMax : Nat) (kts : List Name) (s : St K) (w : WF ε s)
    (hn : kts.Nodup) (hh : ∀ n ∈ kts, ∃ t, s.kt n = some t) :
    match evolveTransitions fuel ktMax kts s with
    | .done (r, s') => r.length = kts.length ∧ r.Nodup ∧ (∀ n ∈ r, n ∈ kts ∨ s.kt n = none) ∧
        (∀ n ∈ r, ∃ t, s'.kt n = some t ∧ GoodTransition ε t) ∧
        (∀ n t, s.kt n = some t → s'.kt n = some t) ∧ s'.kp = s.kp ∧ WF ε s'
    | .raised e => (e = .type ∧ 5 ≤ kts.length ∧ ∃ n ∈ kts, n.isKtg = true ∧ s.ratio n = none) ∨
        (e = .value ∧ ktMax < 256) ∨ e = .zeroDivision
    | .waiting => True := by
  have := wp_evolveTransitions hε fuel ktMax kts s w hn hh
  unfold wp at this
  revert this
  cases evolveTransitions fuel ktMax kts s with
  | done p =>
    rintro ⟨w', e, hk, hl, hnd, hh', hf⟩
    refine ⟨hl, hnd, hf, ?_, e.kt, hk, w'⟩
    intro n hm
    obtain ⟨t, ht⟩ := hh' n hm
    exact ⟨t, ht, w'.kt n t ht⟩
  | raised e => exact id
  | waiting => exact id

omit [IsStrictOrderedRing K] in
/-- **C46 violated, population of four.**  Nothing is retained but one crossover is wanted:
`random.choice([])`. -/
theorem C46_four_violated (fuel kpMax : Nat) (a b c d : Name) (s : St K) :
    evolveProfiles (fuel + 1) kpMax [a, b, c, d] s = .raised .index := by
  have h1 : retainRandom (K := K) (fuel + 1) ([a, b, c, d].drop 0) ([a, b, c, d].take 0) 0 = pure [] := by
    unfold retainRandom whileM
    rfl
  have h2 : crossover (K := K) (fuel + 1) [] 1 = raise .index := by
    unfold crossover whileM
    rfl
  have e : fifth [a, b, c, d].length = 0 := by simp [fifth]
  have e' : threeTenths [a, b, c, d].length = 1 := by simp [threeTenths]
  unfold evolveProfiles
  simp only [e, e', h1]
  change Py.bind (crossover (fuel + 1) [] 1) (fun children => do
    let mutated ← mapMPy (mutateProfile (fuel + 1)) ([] ++ [] ++ children)
    fillUp (generateProfile kpMax) ([a, b, c, d].length - mutated.length) mutated) s = _
  rw [h2]
  rfl

omit [IsStrictOrderedRing K] in
theorem whileM_waits {cond : β → Bool} {body : β → Py K β} (b : β) (hc : cond b = true)
    (hb : ∀ s : St K, body b s = .waiting ∨ ∃ s', body b s = .done (b, s')) :
    ∀ (fuel : Nat) (s : St K), whileM fuel cond body b s = .waiting := by
  intro fuel
  induction fuel with
  | zero =>
    intro s
    unfold whileM
    rw [if_pos hc]
    rfl
  | succ n ih =>
    intro s
    unfold whileM
    rw [if_pos hc]
    change Py.bind (body b) _ s = _
    unfold Py.bind
    rcases hb s with h | ⟨s', h⟩
    · rw [h]
    · rw [h]; exact ih s'

omit [IsStrictOrderedRing K] in
/-- **C46 violated, repeated members.**  On a population of at least five equal names the search for a random
old member never ends, whatever is drawn. -/
theorem C46_duplicates_violated (fuel kpMax m : Nat) (hm : 5 ≤ m) (a : Name) (s : St K) :
    evolveProfiles fuel kpMax (List.replicate m a) s = .waiting := by
  have hlen : fifth (List.replicate m a).length = m / 5 := by simp [fifth]
  have h : ∀ s : St K, retainRandom fuel ((List.replicate m a).drop (m / 5)) ((List.replicate m a).take (m / 5))
      (m / 5) s = .waiting := by
    intro s
    unfold retainRandom
    apply whileM_waits
    · simp only [List.length_nil, decide_eq_true_eq]; omega
    · intro s
      have hpool : (List.replicate m a).drop (m / 5) = a :: List.replicate (m - m / 5 - 1) a := by
        rw [List.drop_replicate, ← List.replicate_succ]
        congr 1
        omega
      have hkept : a ∈ (List.replicate m a).take (m / 5) := by
        rw [List.take_replicate]
        exact List.mem_replicate.2 ⟨by omega, rfl⟩
      rw [hpool]
      change Py.bind (Py.bind draw _) _ s = _ ∨ ∃ s', Py.bind (Py.bind draw _) _ s = _
      unfold Py.bind draw
      cases s.rng with
      | nil => exact Or.inl rfl
      | cons d r =>
        right
        refine ⟨{ s with rng := r }, ?_⟩
        have hget : (a :: List.replicate (m - m / 5 - 1) a).getD
            (d.nat % (a :: List.replicate (m - m / 5 - 1) a).length) a = a := by
          have hlt : d.nat % (a :: List.replicate (m - m / 5 - 1) a).length <
              (a :: List.replicate (m - m / 5 - 1) a).length := Nat.mod_lt _ (by simp)
          rw [List.getD_eq_getElem?_getD, List.getElem?_eq_getElem hlt, Option.getD_some]
          have := List.getElem_mem hlt
          rcases List.mem_cons.1 this with h | h
          · exact h
          · exact List.eq_of_mem_replicate h
        simp only [pure, Py.pure]
        rw [hget, if_neg (fun h => h.2 hkept)]
        rfl
  unfold evolveProfiles
  simp only [hlen]
  change Py.bind (retainRandom fuel _ _ _) _ s = _
  unfold Py.bind
  rw [h s]

/-- The ratios stored at the start (key_transitions.py:96-99). -/
def initialRatio : Dict K := fun n =>
  if n = .given "exponential2" then some 2 else if n = .given "exponential10" then some 10 else none

omit [IsStrictOrderedRing K] in
/-- **C46 violated, built-in transitions.**  No built-in table has a stored ratio (the stored ratios are under
names without 'ktg_'), so mutating one is a TypeError, for every outcome drawn. -/
theorem C46_builtin_violated (n : Name)
    (hn : n ∈ ["ktg_linear", "ktg_exponential2", "ktg_exponential4", "ktg_exponential5", "ktg_exponential10",
      "ktg_exponential12", "ktg_exponential15", "ktg_exponential20", "ktg_experiment6",
      "ktg_napoles_midi128"].map Name.given)
    (fuel : Nat) (d : Draw K) (hd : d.unit < 1) (rest : List (Draw K)) (s : St K) (hr : s.ratio = initialRatio)
    (hs : s.rng = d :: rest) : mutateTransition fuel n s = .raised .type := by
  have hg : n.isKtg = true := by
    revert n
    decide
  have hnone : (initialRatio : Dict K) n = none := by
    unfold initialRatio
    rw [if_neg, if_neg]
    · revert n; decide
    · revert n; decide
  unfold mutateTransition
  rw [if_pos hg]
  change Py.bind (Py.bind draw _) _ s = _
  unfold Py.bind draw
  rw [hs]
  simp only [pure, Py.pure, hd, if_true]
  simp only [bind, Py.bind, get, modify, hr, hnone]
  rfl

end JKD.Opt
