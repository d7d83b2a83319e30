import Verif.Props.OptProps
/-
C47, C46: what exactly the generators of the optimiser can draw, and what a crossover child is made of.
-/

namespace JKD.Opt

set_option linter.unusedSectionVars false

variable {K : Type} [Field K] [LinearOrder K] [IsStrictOrderedRing K]

/-! ### The tiers -/

/-- How far a degree (in semitones above the tonic) is from the tonic triad, major: 0 for the tonic and the fifth, 1 for
the other notes of the scale, 2 for the notes outside it. -/
def majorTier (i : Nat) : Nat :=
  if i = 0 ∨ i = 7 then 0 else if i = 2 ∨ i = 4 ∨ i = 5 ∨ i = 9 ∨ i = 11 then 1 else 2

/-- The same in minor: 0 for the tonic and the fifth, 1 for the other notes of the harmonic scale, 2 for the raised sixth
and the lowered seventh of the melodic scale, 3 for the rest. -/
def minorTier (i : Nat) : Nat :=
  if i = 0 ∨ i = 7 then 0 else if i = 2 ∨ i = 3 ∨ i = 5 ∨ i = 8 ∨ i = 11 then 1 else if i = 9 ∨ i = 10 then 2 else 3

/-- The weights with their sum scaled to 1. -/
def scaled (u : List Nat) : List K := u.map (fun (x : Nat) => (x : K) / ((u.map (fun (y : Nat) => (y : K))).sum))

/-- Weights within the range of their tier: below `max / 2^tier`, rounded down. -/
def Within (max : Nat) (tier : Nat → Nat) (n : Nat) (u : List Nat) : Prop :=
  u.length = n ∧ ∀ (i x : Nat), u[i]? = some x → x < max / 2 ^ tier i

/-! ### Range -/

theorem wp_fillGroup_range (max h : Nat) (tier : Nat → Nat) (is : List Nat) (his : ∀ i ∈ is, tier i = h) :
    ∀ (t : List Nat) (s : St K), wp (fillGroup max h t is) s (fun t' _ => t'.length = t.length ∧
      ∀ (i x : Nat), t'[i]? = some x → (x < max / 2 ^ tier i ∨ (i ∉ is ∧ t[i]? = some x))) (fun _ => True) := by
  induction is with
  | nil => intro t s; exact wp_pure ⟨rfl, fun i x h => Or.inr ⟨by simp, h⟩⟩
  | cons j is ih =>
    intro t s
    apply wp_bind
    refine wp_mono (wp_randrange (X := fun _ => True) _ (fun _ => trivial)) ?_ (fun _ h => h)
    intro r s1 h1
    refine wp_mono (ih (fun i hi => his i (by simp [hi])) _ s1) ?_ (fun _ h => h)
    rintro t' s2 ⟨hl, hx⟩
    refine ⟨by simpa using hl, ?_⟩
    intro i x hi
    rcases hx i x hi with h | ⟨h, h'⟩
    · exact Or.inl h
    · rw [List.getElem?_set] at h'
      split at h'
      · rename_i e
        subst e
        split at h'
        · cases h'
          left
          rw [his j (by simp)]
          exact h1.2
        · cases h'
      · rename_i e
        exact Or.inr ⟨by simp only [List.mem_cons, not_or]; exact ⟨fun e' => e e'.symm, h⟩, h'⟩

theorem wp_fillGroups_range (max : Nat) (tier : Nat → Nat) (gs : List (List Nat × Nat))
    (hgs : ∀ g ∈ gs, ∀ i ∈ g.1, tier i = g.2) :
    ∀ (t : List Nat) (s : St K), wp (fillGroups max t gs) s (fun t' _ => t'.length = t.length ∧
      ∀ (i x : Nat), t'[i]? = some x → (x < max / 2 ^ tier i ∨ ((∀ g ∈ gs, i ∉ g.1) ∧ t[i]? = some x))) (fun _ => True) := by
  induction gs with
  | nil => intro t s; exact wp_pure ⟨rfl, fun i x h => Or.inr ⟨by simp, h⟩⟩
  | cons g gs ih =>
    intro t s
    apply wp_bind
    refine wp_mono (wp_fillGroup_range max g.2 tier g.1 (hgs g (by simp)) t s) ?_ (fun _ h => h)
    rintro t1 s1 ⟨l1, h1⟩
    refine wp_mono (ih (fun g hg => hgs g (by simp [hg])) t1 s1) ?_ (fun _ h => h)
    rintro t2 s2 ⟨l2, h2⟩
    refine ⟨l2.trans l1, ?_⟩
    intro i x hi
    rcases h2 i x hi with h | ⟨h, h'⟩
    · exact Or.inl h
    · rcases h1 i x h' with h'' | ⟨h'', h3⟩
      · exact Or.inl h''
      · refine Or.inr ⟨?_, h3⟩
        intro g' hg'
        rcases List.mem_cons.1 hg' with rfl | hg'
        · exact h''
        · exact h g' hg'

/-- A filled and scaled table: the weights are within their tiers. -/
theorem wp_filled (max n : Nat) (tier : Nat → Nat) (gs : List (List Nat × Nat))
    (hgs : ∀ g ∈ gs, ∀ i ∈ g.1, tier i = g.2) (hall : ∀ i < n, ∃ g ∈ gs, i ∈ g.1) (s : St K) :
    wp (do
      let t ← fillGroups max (List.replicate n 0) gs
      normalise (t.map (fun (x : Nat) => (x : K)))) s
      (fun t _ => ∃ u, Within max tier n u ∧ u.sum ≠ 0 ∧ t = scaled u) (fun _ => True) := by
  apply wp_bind
  refine wp_mono (wp_fillGroups_range max tier gs hgs _ s) ?_ (fun _ h => h)
  rintro u s1 ⟨hl, hu⟩
  unfold normalise
  split
  · exact wp_raise trivial
  · rename_i h0
    refine wp_pure ⟨u, ⟨by simpa using hl, ?_⟩, ?_, ?_⟩
    · intro i x hi
      rcases hu i x hi with h | ⟨h, _⟩
      · exact h
      · obtain ⟨hi', -⟩ := List.getElem?_eq_some_iff.1 hi
        rw [hl, List.length_replicate] at hi'
        obtain ⟨g, hg, hig⟩ := hall i hi'
        exact absurd hig (h g hg)
    · intro hz
      apply h0
      have : ((u.map (fun (x : Nat) => (x : K))).sum) = ((u.sum : Nat) : K) := by
        clear hl hu h0 hz
        induction u with
        | nil => simp
        | cons a u ih => simp [ih]
      rw [this, hz, Nat.cast_zero]
    · simp [scaled, Function.comp_def]

/-- **C47, range of the profiles.**  A generated profile consists of two halves of twelve weights, scaled to sum 1; the
weight of a degree is drawn below `kp_max_range`, a half, a quarter or an eighth of it according to its place in the
scale. -/
theorem C47_profile_range (kpMax : Nat) (s s' : St K) (n : Name) (h : generateProfile kpMax s = .done (n, s')) :
    ∃ u v, Within kpMax majorTier 12 u ∧ Within kpMax minorTier 12 v ∧ u.sum ≠ 0 ∧ v.sum ≠ 0 ∧
      s'.kp n = some (scaled u ++ scaled v) := by
  have : wp (generateProfile kpMax) s (fun n s' => ∃ u v, Within kpMax majorTier 12 u ∧ Within kpMax minorTier 12 v ∧
      u.sum ≠ 0 ∧ v.sum ≠ 0 ∧ s'.kp n = some (scaled u ++ scaled v)) (fun _ => True) := by
    unfold generateProfile
    apply wp_bind
    refine wp_mono (wp_filled kpMax 12 majorTier majorGroups (by decide) (by decide) s) ?_ (fun _ h => h)
    rintro a s1 ⟨u, hu, hu0, rfl⟩
    apply wp_bind
    refine wp_mono (wp_filled kpMax 12 minorTier minorGroups (by decide) (by decide) s1) ?_ (fun _ h => h)
    rintro b s2 ⟨v, hv, hv0, rfl⟩
    refine wp_bind (wp_get ?_)
    refine wp_bind (wp_modify ?_)
    refine wp_bind (wp_mono (wp_insertProfile _ _ _) ?_ (fun _ h => h))
    rintro _ s3 ⟨ws, rfl⟩
    exact wp_pure ⟨u, v, hu, hv, hu0, hv0, by simp [Dict.put]⟩
  unfold wp at this
  rw [h] at this
  exact this

/-- **C47, range of the stochastic transitions.**  The weight of a key is drawn below `kt_max_range` halved once for
every step of its distance from the tonic key. -/
theorem C47_stochastic_range (ktMax : Nat) (s s' : St K) (t : List K) (h : generateStochastic ktMax s = .done (t, s')) :
    ∃ u, Within ktMax distance 24 u ∧ u.sum ≠ 0 ∧ t = scaled u := by
  have : wp (generateStochastic ktMax) s (fun t _ => ∃ u, Within ktMax distance 24 u ∧ u.sum ≠ 0 ∧ t = scaled u)
      (fun _ => True) := wp_filled ktMax 24 distance keyGroups.zipIdx (by decide) (by decide) s
  unfold wp at this
  rw [h] at this
  exact this

/-! ### Every table in the range can be drawn -/

/-- Outcomes that make the given choices. -/
def outcomes (w : Nat → Nat) (is : List Nat) : List (Draw K) := is.map (fun i => ⟨w i, 0⟩)

theorem fillGroup_outcomes (max h : Nat) (w : Nat → Nat) (is : List Nat) (his : ∀ i ∈ is, w i < max / 2 ^ h) :
    ∀ (t : List Nat) (s : St K) (rest : List (Draw K)), s.rng = outcomes w is ++ rest →
      fillGroup max h t is s = .done (is.foldl (fun t i => t.set i (w i)) t, { s with rng := rest }) := by
  induction is with
  | nil =>
    intro t s rest hs
    have : s = { s with rng := rest } := by rw [← show s.rng = rest by simpa [outcomes] using hs]
    conv_lhs => rw [this]
    rfl
  | cons i is ih =>
    intro t s rest hs
    have hi := his i (by simp)
    have hr : randrange (max / 2 ^ h) s = .done (w i, { s with rng := outcomes w is ++ rest }) := by
      unfold randrange
      rw [if_neg (by omega)]
      change Py.bind draw _ s = _
      unfold Py.bind draw
      have : s.rng = ⟨w i, 0⟩ :: (outcomes w is ++ rest) := by rw [hs]; rfl
      rw [this]
      simp only [Nat.mod_eq_of_lt hi]
      rfl
    change Py.bind (randrange (max / 2 ^ h)) _ s = _
    unfold Py.bind
    rw [hr]
    exact ih (fun j hj => his j (by simp [hj])) _ _ rest rfl

theorem fillGroups_outcomes (max : Nat) (w : Nat → Nat) (gs : List (List Nat × Nat))
    (hgs : ∀ g ∈ gs, ∀ i ∈ g.1, w i < max / 2 ^ g.2) :
    ∀ (t : List Nat) (s : St K) (rest : List (Draw K)), s.rng = outcomes w (gs.flatMap Prod.fst) ++ rest →
      fillGroups max t gs s =
        .done ((gs.flatMap Prod.fst).foldl (fun t i => t.set i (w i)) t, { s with rng := rest }) := by
  induction gs with
  | nil =>
    intro t s rest hs
    have : s = { s with rng := rest } := by rw [← show s.rng = rest by simpa [outcomes] using hs]
    conv_lhs => rw [this]
    rfl
  | cons g gs ih =>
    intro t s rest hs
    obtain ⟨g, h⟩ := g
    change Py.bind (fillGroup max h t g) _ s = _
    unfold Py.bind
    rw [fillGroup_outcomes max h w g (hgs (g, h) (by simp)) t s (outcomes w (gs.flatMap Prod.fst) ++ rest) (by
      rw [hs]; simp [outcomes])]
    simp only [List.flatMap_cons, List.foldl_append]
    exact ih (fun g' hg' => hgs g' (by simp [hg'])) _ _ rest rfl

theorem list_ext_getD (n : Nat) (u v : List Nat) (hu : u.length = n) (hv : v.length = n)
    (h : ∀ i < n, u.getD i 0 = v.getD i 0) : u = v := by
  apply List.ext_getElem (hu.trans hv.symm)
  intro i h1 h2
  have := h i (by omega)
  rw [List.getD_eq_getElem?_getD, List.getD_eq_getElem?_getD, List.getElem?_eq_getElem h1, List.getElem?_eq_getElem h2] at this
  simpa using this

theorem foldl_set_length (w : Nat → Nat) (is : List Nat) : ∀ t : List Nat,
    (is.foldl (fun t i => t.set i (w i)) t).length = t.length := by
  induction is with
  | nil => intro t; rfl
  | cons i is ih => intro t; rw [List.foldl_cons, ih]; simp

theorem foldl_set_getD (w : Nat → Nat) (is : List Nat) : ∀ (t : List Nat) (i : Nat), i < t.length →
    (i ∈ is ∨ t.getD i 0 = w i) → (is.foldl (fun t i => t.set i (w i)) t).getD i 0 = w i := by
  induction is with
  | nil => intro t i _ h; simpa using h
  | cons j is ih =>
    intro t i hi h
    rw [List.foldl_cons]
    apply ih _ _ (by simpa using hi)
    by_cases hij : i = j
    · subst hij
      right
      simp [List.getD_eq_getElem?_getD, hi]
    · rcases h with h | h
      · rcases List.mem_cons.1 h with h | h
        · exact absurd h hij
        · exact Or.inl h
      · right
        rw [List.getD_eq_getElem?_getD, List.getElem?_set_ne (Ne.symm hij), ← List.getD_eq_getElem?_getD]
        exact h

/-- Every list of weights within the tiers is drawn for suitable outcomes. -/
theorem filled_outcomes (max n : Nat) (tier : Nat → Nat) (gs : List (List Nat × Nat))
    (hgs : ∀ g ∈ gs, ∀ i ∈ g.1, tier i = g.2 ∧ i < n) (hall : ∀ i < n, ∃ g ∈ gs, i ∈ g.1) (u : List Nat)
    (hu : Within max tier n u) (h0 : u.sum ≠ 0) (s : St K) (rest : List (Draw K))
    (hs : s.rng = outcomes (fun i => u.getD i 0) (gs.flatMap Prod.fst) ++ rest) :
    (do
      let t ← fillGroups max (List.replicate n 0) gs
      normalise (t.map (fun (x : Nat) => (x : K)))) s = .done (scaled u, { s with rng := rest }) := by
  have hin : ∀ i < n, u.getD i 0 < max / 2 ^ tier i := by
    intro i hi
    apply hu.2
    rw [List.getD_eq_getElem?_getD, List.getElem?_eq_getElem (by rw [hu.1]; exact hi), Option.getD_some]
  have hf := fillGroups_outcomes (K := K) max (fun i => u.getD i 0) gs (by
    intro g hg i hi
    obtain ⟨e, hin'⟩ := hgs g hg i hi
    rw [← e]
    exact hin i hin') (List.replicate n 0) s rest hs
  have hu' : (gs.flatMap Prod.fst).foldl (fun t i => t.set i (u.getD i 0)) (List.replicate n 0) = u := by
    refine list_ext_getD n _ u (by rw [foldl_set_length]; simp) hu.1 ?_
    intro i hi
    exact foldl_set_getD (fun i => u.getD i 0) _ _ i (by simpa using hi) (Or.inl (by
      obtain ⟨g, hg, hig⟩ := hall i hi
      exact List.mem_flatMap.2 ⟨g, hg, hig⟩))
  rw [hu'] at hf
  change Py.bind (fillGroups max _ _) _ s = _
  unfold Py.bind
  rw [hf]
  change normalise (u.map (fun (x : Nat) => (x : K))) _ = _
  unfold normalise
  have hsum : ((u.map (fun (x : Nat) => (x : K))).sum) = ((u.sum : Nat) : K) := by
    clear hf hu' hin hu h0 hs
    induction u with
    | nil => simp
    | cons a u ih => simp [ih]
  rw [if_neg (by rw [hsum]; exact_mod_cast h0)]
  simp only [scaled, List.map_map, Function.comp_def]
  rfl

theorem insertProfile_done (n : Name) (t : List K) (s : St K) :
    ∃ w, insertProfile n t s = .done ((), { s with kp := s.kp.put n t, warns := w }) := by
  unfold insertProfile
  by_cases h1 : suspicious (t.take 12).sum = true <;> by_cases h2 : suspicious (t.drop 12).sum = true <;>
    simp only [h1, h2, if_true, if_false, Bool.false_eq_true] <;> exact ⟨_, rfl⟩

/-- **C47, every profile in the range can be drawn.**  Twenty-four random outcomes are used, one for each degree. -/
theorem C47_profile_reach (kpMax : Nat) (u v : List Nat) (hu : Within kpMax majorTier 12 u)
    (hv : Within kpMax minorTier 12 v) (hu0 : u.sum ≠ 0) (hv0 : v.sum ≠ 0) :
    ∃ ds : List (Draw K), ds.length = 24 ∧ ∀ (s : St K) (rest : List (Draw K)), s.rng = ds ++ rest →
      ∃ s', generateProfile kpMax s = .done (.kp s.genKp, s') ∧ s'.kp (.kp s.genKp) = some (scaled u ++ scaled v) ∧
        s'.rng = rest := by
  refine ⟨outcomes (fun i => u.getD i 0) (majorGroups.flatMap Prod.fst) ++
    outcomes (fun i => v.getD i 0) (minorGroups.flatMap Prod.fst), by simp [outcomes, majorGroups, minorGroups], ?_⟩
  intro s rest hs
  have h1 : generateMajor kpMax s = .done (scaled u, _) := filled_outcomes (K := K) kpMax 12 majorTier majorGroups
    (by decide) (by decide) u hu hu0 s _ (by rw [hs, List.append_assoc])
  have h2 := filled_outcomes (K := K) kpMax 12 minorTier minorGroups
    (by decide) (by decide) v hv hv0 { s with rng := outcomes (fun i => v.getD i 0) (minorGroups.flatMap Prod.fst) ++ rest }
    rest rfl
  obtain ⟨w, h3⟩ := insertProfile_done (.kp s.genKp) (scaled u ++ scaled v) { s with rng := rest, genKp := s.genKp + 1 }
  refine ⟨{ s with rng := rest, genKp := s.genKp + 1, kp := s.kp.put (.kp s.genKp) (scaled u ++ scaled v), warns := w },
    ?_, by simp [Dict.put], rfl⟩
  change Py.bind (generateMajor kpMax) _ s = _
  unfold Py.bind
  rw [h1]
  change Py.bind (generateMinor kpMax) _ _ = _
  unfold Py.bind
  rw [show generateMinor kpMax { s with rng := outcomes (fun i => v.getD i 0) (minorGroups.flatMap Prod.fst) ++ rest } = _
    from h2]
  change Py.bind (insertProfile (.kp s.genKp) (scaled u ++ scaled v)) _ { s with rng := rest, genKp := s.genKp + 1 } = _
  unfold Py.bind
  rw [h3]
  rfl

/-- **C47, every stochastic transition table in the range can be drawn.** -/
theorem C47_stochastic_reach (ktMax : Nat) (u : List Nat) (hu : Within ktMax distance 24 u) (hu0 : u.sum ≠ 0) :
    ∃ ds : List (Draw K), ds.length = 24 ∧ ∀ (s : St K) (rest : List (Draw K)), s.rng = ds ++ rest →
      generateStochastic ktMax s = .done (scaled u, { s with rng := rest }) := by
  refine ⟨outcomes (fun i => u.getD i 0) (keyGroups.zipIdx.flatMap Prod.fst), by simp [outcomes, keyGroups], ?_⟩
  intro s rest hs
  exact filled_outcomes (K := K) ktMax 24 distance keyGroups.zipIdx (by decide) (by decide) u hu hu0 s rest hs

/-- C47: weights within the range of 100: 99 for the tonic, 24 for a note outside the scale. -/
example : Within 100 majorTier 12 [99, 24, 49, 0, 49, 49, 0, 99, 0, 49, 0, 49] ∧
    Within 100 minorTier 12 [99, 0, 49, 49, 11, 0, 0, 99, 49, 24, 24, 49] ∧
    ¬ Within 100 majorTier 12 [99, 25, 49, 0, 49, 49, 0, 99, 0, 49, 0, 49] := by
  refine ⟨⟨rfl, ?_⟩, ⟨rfl, ?_⟩, ?_⟩
  · intro i x h
    have hi := (List.getElem?_eq_some_iff.1 h).1
    simp only [List.length_cons, List.length_nil] at hi
    interval_cases i <;> simp at h <;> subst h <;> decide
  · intro i x h
    have hi := (List.getElem?_eq_some_iff.1 h).1
    simp only [List.length_cons, List.length_nil] at hi
    interval_cases i <;> simp at h <;> subst h <;> decide
  · rintro ⟨_, h⟩
    exact absurd (h 1 25 rfl) (by decide)

/-! ### C46: what a crossover child is -/

/-- **C46, crossover.**  For every list of parents with stored tables and all random outcomes: each of the `n` children
has the major half of one parent and the minor half of a different one. -/
theorem C46_crossover (ε : K) (fuel n : Nat) (parents children : List Name) (s s' : St K) (w : WF ε s)
    (hp : ∀ p ∈ parents, ∃ t, s.kp p = some t) (h : crossover fuel parents n s = .done (children, s')) :
    children.length = n ∧ ∀ c ∈ children, ∃ a ∈ parents, ∃ b ∈ parents, a ≠ b ∧ ∃ ta tb, s.kp a = some ta ∧
      s.kp b = some tb ∧ s'.kp c = some (ta.take 12 ++ tb.drop 12) := by
  have key := wp_while (K := K) (cond := fun ch : List Name => decide (ch.length < n))
    (body := fun children => do
      let major ← choice parents
      let minor ← choice parents
      if major ≠ minor then
        let s ← get
        let name := Name.kpc s.evoKp
        modify (fun s => { s with evoKp := s.evoKp + 1 })
        match s.kp major, s.kp minor with
        | some a, some b =>
          insertProfile name (a.take 12 ++ b.drop 12)
          return children ++ [name]
        | _, _ => raise .type
      else return children) (X := fun _ => True)
    (fun ch s' => WF ε s' ∧ (∀ m t, s.kp m = some t → s'.kp m = some t) ∧ ch.length ≤ n ∧
      ∀ c ∈ ch, ∃ a ∈ parents, ∃ b ∈ parents, a ≠ b ∧ ∃ ta tb, s.kp a = some ta ∧
        s.kp b = some tb ∧ s'.kp c = some (ta.take 12 ++ tb.drop 12))
    (by
      rintro ch s1 ⟨w1, ext, hl, hch⟩ hc
      have hc : ch.length < n := by simpa using hc
      apply wp_bind
      refine wp_mono (wp_choice parents (fun _ => trivial)) ?_ (fun _ h => h)
      rintro a s2 ⟨hu2, ha⟩
      apply wp_bind
      refine wp_mono (wp_choice parents (fun _ => trivial)) ?_ (fun _ h => h)
      rintro b s3 ⟨hu3, hb⟩
      have hu := hu2.trans hu3
      have w3 := hu.wf w1
      by_cases hab : a ≠ b
      · rw [if_pos hab]
        refine wp_bind (wp_get ?_)
        refine wp_bind (wp_modify ?_)
        obtain ⟨ta, ea⟩ := hp a ha
        obtain ⟨tb, eb⟩ := hp b hb
        have ea3 : s3.kp a = some ta := by rw [hu.kp]; exact ext _ _ ea
        have eb3 : s3.kp b = some tb := by rw [hu.kp]; exact ext _ _ eb
        simp only [ea3, eb3]
        refine wp_bind (wp_mono (wp_insertProfile _ _ _) ?_ (fun _ h => h))
        rintro _ s4 ⟨ws, rfl⟩
        have hadd := addKpc w3 _ ((w3.kp a ta ea3).cross (w3.kp b tb eb3)) ws
        have hnew : s3.kp (.kpc s3.evoKp) = none := w3.kpcId _ (le_refl _)
        have hext : ∀ m t, s1.kp m = some t → (s3.kp.put (.kpc s3.evoKp) (ta.take 12 ++ tb.drop 12)) m = some t := by
          intro m t hm
          rw [← hu.kp] at hm
          unfold Dict.put
          rw [if_neg (by rintro rfl; rw [hnew] at hm; cases hm)]
          exact hm
        refine wp_pure ⟨hadd.1, fun m t hm => hext m t (ext m t hm), by simp; omega, ?_⟩
        intro c hc'
        rcases List.mem_append.1 hc' with hc' | hc'
        · obtain ⟨a', ha', b', hb', hne, ta', tb', e1, e2, e3⟩ := hch c hc'
          exact ⟨a', ha', b', hb', hne, ta', tb', e1, e2, hext _ _ e3⟩
        · rw [List.mem_singleton] at hc'
          subst hc'
          exact ⟨a, ha, b, hb, hab, ta, tb, ea, eb, by simp [Dict.put]⟩
      · rw [if_neg hab]
        refine wp_pure ⟨w3, ?_, hl, ?_⟩
        · intro m t hm; rw [hu.kp]; exact ext m t hm
        · intro c hc'
          obtain ⟨a', ha', b', hb', hne, ta', tb', e1, e2, e3⟩ := hch c hc'
          exact ⟨a', ha', b', hb', hne, ta', tb', e1, e2, by rw [hu.kp]; exact e3⟩)
    fuel [] s ⟨w, fun _ _ h => h, by simp, by simp⟩
  have key' : wp (crossover fuel parents n) s _ _ := key
  unfold wp at key'
  rw [h] at key'
  obtain ⟨⟨_, _, hl, hch⟩, hc⟩ := key'
  refine ⟨?_, hch⟩
  have : ¬ children.length < n := by simpa using hc
  omega

end JKD.Opt
