import Verif.Lemmas.Opt
/-
What the generator and the evolver do to the state.
-/

namespace JKD.Opt

set_option linter.unusedSectionVars false

variable {K α β : Type} [Field K] [LinearOrder K] [IsStrictOrderedRing K]

/-! ### Generator -/

theorem wp_fillGroup (max h : Nat) {X : Exn → Prop} (hX : max / 2 ^ h = 0 → X .value) (is : List Nat) :
    ∀ (t : List Nat) (s : St K),
      wp (fillGroup max h t is) s (fun t' s' => Used s s' ∧ t'.length = t.length) X := by
  induction is with
  | nil => intro t s; exact wp_pure ⟨Used.refl s, rfl⟩
  | cons i is ih =>
    intro t s
    apply wp_bind
    refine wp_mono (wp_randrange _ hX) ?_ (fun _ h => h)
    intro r s1 h1
    refine wp_mono (ih _ s1) ?_ (fun _ h => h)
    intro t' s2 h2
    exact ⟨h1.1.trans h2.1, by simpa using h2.2⟩

theorem wp_fillGroups (max : Nat) {X : Exn → Prop} (gs : List (List Nat × Nat))
    (hX : ∀ g ∈ gs, max / 2 ^ g.2 = 0 → X .value) :
    ∀ (t : List Nat) (s : St K),
      wp (fillGroups max t gs) s (fun t' s' => Used s s' ∧ t'.length = t.length) X := by
  induction gs with
  | nil => intro t s; exact wp_pure ⟨Used.refl s, rfl⟩
  | cons g gs ih =>
    intro t s
    apply wp_bind
    refine wp_mono (wp_fillGroup max g.2 (hX g (by simp)) g.1 t s) ?_ (fun _ h => h)
    intro t1 s1 h1
    refine wp_mono (ih (fun g h => hX g (by simp [h])) t1 s1) ?_ (fun _ h => h)
    intro t2 s2 h2
    exact ⟨h1.1.trans h2.1, h2.2.trans h1.2⟩

theorem wp_normalise (t : List K) (h : ∀ x ∈ t, 0 ≤ x) {s : St K} {X : Exn → Prop}
    (hX : t.sum = 0 → X .zeroDivision) :
    wp (normalise t) s (fun t' s' => s' = s ∧ t'.length = t.length ∧ (∀ x ∈ t', 0 ≤ x) ∧ t'.sum = 1 ∧
      t' = t.map (fun x => x / t.sum)) X := by
  unfold normalise
  split
  · rename_i h0
    exact wp_raise (hX h0)
  · rename_i h0
    refine wp_pure ⟨rfl, by simp, ?_, ?_, rfl⟩
    · intro x hx
      obtain ⟨y, hy, rfl⟩ := List.mem_map.1 hx
      exact div_nonneg (h y hy) (List.sum_nonneg h)
    · rw [sum_div, div_self h0]

omit [LinearOrder K] [IsStrictOrderedRing K] in
theorem cast_nonneg [LinearOrder K] [IsStrictOrderedRing K] (t : List Nat) :
    ∀ x ∈ t.map (fun (x : Nat) => (x : K)), 0 ≤ x := by
  intro x hx
  obtain ⟨y, _, rfl⟩ := List.mem_map.1 hx
  positivity

/-- A half profile: 12 non-negative numbers that sum to 1. -/
def Half (t : List K) : Prop := t.length = 12 ∧ (∀ x ∈ t, 0 ≤ x) ∧ t.sum = 1

/-- The exceptions of the generator of profiles. -/
def GenExn (kpMax : Nat) (e : Exn) : Prop := (e = .value ∧ kpMax < 8) ∨ e = .zeroDivision

theorem pow_div_zero {m h : Nat} (e : m / 2 ^ h = 0) (hh : h ≤ 3) : m < 8 := by
  have h1 : m < 2 ^ h := by
    rcases Nat.div_eq_zero_iff.1 e with h0 | h0
    · have : 0 < 2 ^ h := by positivity
      omega
    · exact h0
  have h2 : 2 ^ h ≤ 2 ^ 3 := Nat.pow_le_pow_right (by omega) hh
  omega

theorem wp_half (kpMax : Nat) (gs : List (List Nat × Nat)) (hgs : ∀ g ∈ gs, g.2 ≤ 3) (s : St K) :
    wp (do
      let t ← fillGroups kpMax (List.replicate 12 0) gs
      normalise (t.map (fun (x : Nat) => (x : K)))) s (fun t s' => Used s s' ∧ Half t) (GenExn kpMax) := by
  apply wp_bind
  refine wp_mono (wp_fillGroups (X := GenExn kpMax) kpMax gs ?_ _ s) ?_ (fun _ h => h)
  · intro g hg e
    exact Or.inl ⟨rfl, pow_div_zero e (hgs g hg)⟩
  · intro t s1 h1
    refine wp_mono (wp_normalise _ (cast_nonneg t) (fun _ => Or.inr rfl)) ?_ (fun _ h => h)
    rintro t' s2 ⟨rfl, hl, hn, hs, _⟩
    exact ⟨h1.1, by simpa using hl.trans (by simpa using h1.2), hn, hs⟩

theorem wp_major (kpMax : Nat) (s : St K) :
    wp (generateMajor kpMax) s (fun t s' => Used s s' ∧ Half t) (GenExn kpMax) :=
  wp_half kpMax majorGroups (by decide) s

theorem wp_minor (kpMax : Nat) (s : St K) :
    wp (generateMinor kpMax) s (fun t s' => Used s s' ∧ Half t) (GenExn kpMax) :=
  wp_half kpMax minorGroups (by decide) s

theorem Half.good {ε : K} (hε : 0 ≤ ε) {a b : List K} (ha : Half a) (hb : Half b) : GoodProfile ε (a ++ b) := by
  refine ⟨by simp [ha.1, hb.1], ?_, ?_, ?_⟩
  · intro x hx
    rcases List.mem_append.1 hx with h | h
    · exact ha.2.1 x h
    · exact hb.2.1 x h
  · rw [List.take_append_of_le_length (by rw [ha.1]), List.take_of_length_le (by rw [ha.1]), ha.2.2]
    simpa using hε
  · have : (a ++ b).drop 12 = b := by rw [← ha.1, List.drop_left]
    rw [this, hb.2.2]
    simpa using hε

/-- What producing one new profile does. -/
def NewKp (ε : K) (s : St K) (n : Name) (s' : St K) : Prop :=
  WF ε s' ∧ Ext s s' ∧ s.kp n = none ∧ (∃ t, s'.kp n = some t) ∧ s'.kt = s.kt ∧ s'.ratio = s.ratio

theorem wp_generateProfile {ε : K} (hε : 0 ≤ ε) (kpMax : Nat) (s : St K) (w : WF ε s) :
    wp (generateProfile kpMax) s (NewKp ε s) (GenExn kpMax) := by
  unfold generateProfile
  apply wp_bind
  refine wp_mono (wp_major kpMax s) ?_ (fun _ h => h)
  intro a s1 h1
  apply wp_bind
  refine wp_mono (wp_minor kpMax s1) ?_ (fun _ h => h)
  intro b s2 h2
  have hu := h1.1.trans h2.1
  have w2 := hu.wf w
  refine wp_bind (wp_get ?_)
  refine wp_bind (wp_modify ?_)
  refine wp_bind (wp_mono (wp_insertProfile _ _ _) ?_ (fun _ h => h))
  rintro _ s3 ⟨ws, rfl⟩
  have := addKp w2 (a ++ b) (h1.2.good hε h2.2) ws
  refine wp_pure ⟨this.1, hu.ext.trans this.2, ?_, ⟨a ++ b, by simp [Dict.put]⟩, hu.kt, ?_⟩
  · rw [← hu.kp]; exact w2.kpId _ (le_refl _)
  · obtain ⟨_, _, _, rfl⟩ := hu
    rfl

omit [LinearOrder K] [IsStrictOrderedRing K] in
theorem geometricFill_length (r : K) (gs : List (List Nat)) : ∀ (t : List K) (i : Nat),
    (geometricFill r t i gs).length = t.length := by
  induction gs with
  | nil => intro t i; rfl
  | cons g gs ih =>
    intro t i
    unfold geometricFill
    rw [ih]
    clear ih
    induction g generalizing t with
    | nil => rfl
    | cons k g ih2 => rw [List.foldl_cons, ih2]; simp

theorem geometricFill_nonneg (r : K) (hr : 0 ≤ r) (gs : List (List Nat)) : ∀ (t : List K) (i : Nat),
    (∀ x ∈ t, 0 ≤ x) → ∀ x ∈ geometricFill r t i gs, 0 ≤ x := by
  induction gs with
  | nil => intro t i h; exact h
  | cons g gs ih =>
    intro t i h
    unfold geometricFill
    apply ih
    clear ih
    induction g generalizing t with
    | nil => exact h
    | cons k g ih2 =>
      rw [List.foldl_cons]
      apply ih2
      intro x hx
      rcases List.mem_or_eq_of_mem_set hx with hx | rfl
      · exact h x hx
      · positivity

omit [LinearOrder K] [IsStrictOrderedRing K] in
/-- The unnormalised geometric table. -/
theorem geometric_eq (r : K) :
    geometricFill r (List.replicate 24 0) 0 keyGroups =
      [r ^ 8, r ^ 3, r ^ 5, r ^ 5, r ^ 4, r ^ 7, 1, r ^ 7, r ^ 4, r ^ 5, r ^ 5, r ^ 3,
       r ^ 7, r, r ^ 6, r ^ 2, r ^ 6, r ^ 6, r ^ 2, r ^ 6, r, r ^ 7, r ^ 4, r ^ 4] := by
  simp [geometricFill, keyGroups, List.replicate]

theorem geometric_sum_pos (r : K) (hr : 0 < r) : 0 < (geometricFill r (List.replicate 24 0) 0 keyGroups).sum := by
  rw [geometric_eq]
  simp only [List.sum_cons, List.sum_nil]
  positivity

theorem wp_generateGeometric {ε : K} (hε : 0 ≤ ε) (r : K) (hr : 0 < r) (s : St K) {X : Exn → Prop} :
    wp (generateGeometric r) s (fun t s' => s' = s ∧ GoodTransition ε t) X := by
  unfold generateGeometric
  refine wp_mono (wp_normalise _ (geometricFill_nonneg r hr.le _ _ 0 (by simp)) ?_) ?_ (fun _ h => h)
  · intro h; exact absurd h (geometric_sum_pos r hr).ne'
  · rintro t s' ⟨rfl, hl, hn, hs, _⟩
    refine ⟨rfl, by rw [hl, geometricFill_length]; rfl, hn, ?_⟩
    rw [hs]
    simpa using hε

/-- The exceptions of the generator of transitions. -/
def GenKtExn (ktMax : Nat) (e : Exn) : Prop := (e = .value ∧ ktMax < 256) ∨ e = .zeroDivision

theorem wp_generateStochastic {ε : K} (hε : 0 ≤ ε) (ktMax : Nat) (s : St K) :
    wp (generateStochastic ktMax) s (fun t s' => Used s s' ∧ GoodTransition ε t) (GenKtExn ktMax) := by
  unfold generateStochastic
  apply wp_bind
  refine wp_mono (wp_fillGroups (X := GenKtExn ktMax) ktMax _ ?_ _ s) ?_ (fun _ h => h)
  · intro g hg e
    refine Or.inl ⟨rfl, ?_⟩
    have hall : ∀ g ∈ keyGroups.zipIdx, g.2 ≤ 8 := by decide
    have hh : g.2 ≤ 8 := hall g hg
    have h1 : ktMax < 2 ^ g.2 := by
      rcases Nat.div_eq_zero_iff.1 e with h0 | h0
      · have : 0 < 2 ^ g.2 := by positivity
        omega
      · exact h0
    have h2 : 2 ^ g.2 ≤ 2 ^ 8 := Nat.pow_le_pow_right (by omega) hh
    omega
  · intro t s1 h1
    refine wp_mono (wp_normalise _ (cast_nonneg t) (fun _ => Or.inr rfl)) ?_ (fun _ h => h)
    rintro t' s2 ⟨rfl, hl, hn, hs, _⟩
    refine ⟨h1.1, by simpa using hl.trans (by simpa using h1.2), hn, ?_⟩
    rw [hs]
    simpa using hε

/-- What producing one new transition does. -/
def NewKt (ε : K) (s : St K) (n : Name) (s' : St K) : Prop :=
  WF ε s' ∧ Ext s s' ∧ s.kt n = none ∧ (∃ t, s'.kt n = some t) ∧ s'.kp = s.kp

theorem wp_generateTransition {ε : K} (hε : 0 ≤ ε) (ktMax : Nat) (s : St K) (w : WF ε s) :
    wp (generateTransition ktMax) s (NewKt ε s) (GenKtExn ktMax) := by
  unfold generateTransition
  apply wp_bind
  refine wp_mono (wp_choice _ (by simp)) ?_ (fun _ h => h)
  intro g s1 h1
  cases g with
  | true =>
    simp only [if_true]
    apply wp_bind
    refine wp_mono wp_random ?_ (fun _ h => h)
    rintro u s2 ⟨h2, d, hd, rfl⟩
    have w1 := h1.1.wf w
    have hpos : 0 < d.unit * 48 + 2 := by
      have := (w1.unit d hd).1
      positivity
    apply wp_bind
    refine wp_mono (wp_generateGeometric hε _ hpos s2) ?_ (fun _ h => h)
    rintro t s3 ⟨rfl, ht⟩
    have hu := h1.1.trans h2
    have w2 := hu.wf w
    refine wp_bind (wp_get ?_)
    refine wp_bind (wp_modify ?_)
    refine wp_bind (wp_modify ?_)
    refine wp_bind (wp_mono (wp_insertTransition _ _ _) ?_ (fun _ h => h))
    rintro _ s4 ⟨ws, rfl⟩
    have := addKtg w2 t ht _ hpos ws
    refine wp_pure ⟨this.1, hu.ext.trans this.2, ?_, ⟨t, by simp [Dict.put]⟩, hu.kp⟩
    rw [← hu.kt]; exact w2.ktgId _ (le_refl _)
  | false =>
    simp only [Bool.false_eq_true, if_false]
    apply wp_bind
    refine wp_mono (wp_generateStochastic hε ktMax s1) ?_ (fun _ h => h)
    rintro t s2 ⟨h2, ht⟩
    have hu := h1.1.trans h2
    have w2 := hu.wf w
    refine wp_bind (wp_get ?_)
    refine wp_bind (wp_modify ?_)
    refine wp_bind (wp_mono (wp_insertTransition _ _ _) ?_ (fun _ h => h))
    rintro _ s4 ⟨ws, rfl⟩
    have := addKts w2 t ht ws
    refine wp_pure ⟨this.1, hu.ext.trans this.2, ?_, ⟨t, by simp [Dict.put]⟩, hu.kp⟩
    rw [← hu.kt]; exact w2.ktsId _ (le_refl _)

/-! ### Evolver -/

omit [Field K] [LinearOrder K] [IsStrictOrderedRing K] in
theorem wp_retainRandom (fuel : Nat) (pool kept : List Name) (n : Nat) (s : St K) {X : Exn → Prop}
    (hX : pool = [] → 0 < n → X .index) :
    wp (retainRandom fuel pool kept n) s (fun old s' => Used s s' ∧ old.length = n ∧ old.Nodup ∧
      ∀ k ∈ old, k ∈ pool ∧ k ∉ kept) X := by
  have := wp_while (K := K) (cond := fun old : List Name => decide (old.length < n))
    (body := fun old => do
      let k ← choice pool
      if k ∉ old ∧ k ∉ kept then return old ++ [k] else return old) (X := X)
    (fun old s' => Used s s' ∧ old.length ≤ n ∧ old.Nodup ∧ ∀ k ∈ old, k ∈ pool ∧ k ∉ kept)
    (by
      rintro old s1 ⟨hu, hl, hn, ho⟩ hc
      have hc : old.length < n := by simpa using hc
      apply wp_bind
      refine wp_mono (wp_choice pool (fun e => hX e (by omega))) ?_ (fun _ h => h)
      rintro k s2 ⟨hu2, hk⟩
      by_cases h : k ∉ old ∧ k ∉ kept
      · rw [if_pos h]
        refine wp_pure ⟨hu.trans hu2, by simp; omega, ?_, ?_⟩
        · rw [List.nodup_append]
          refine ⟨hn, by simp, ?_⟩
          intro a ha b hb
          rw [List.mem_singleton] at hb
          subst hb
          exact fun e => h.1 (e ▸ ha)
        · intro x hx
          rcases List.mem_append.1 hx with hx | hx
          · exact ho x hx
          · rw [List.mem_singleton] at hx
            subst hx
            exact ⟨hk, h.2⟩
      · rw [if_neg h]
        exact wp_pure ⟨hu.trans hu2, hl, hn, ho⟩)
    fuel [] s ⟨Used.refl s, by simp, by simp, by simp⟩
  refine wp_mono this ?_ (fun _ h => h)
  rintro old s' ⟨⟨hu, hl, hn, ho⟩, hc⟩
  have : n ≤ old.length := by simpa using hc
  exact ⟨hu, by omega, hn, ho⟩

/-- Several new members: distinct names, new in `s`, present in `s'`. -/
structure Grown (ε : K) (s : St K) (new : List Name) (s' : St K) : Prop where
  wf : WF ε s'
  ext : Ext s s'
  kt : s'.kt = s.kt
  ratio : s'.ratio = s.ratio
  fresh : ∀ n ∈ new, s.kp n = none
  here : ∀ n ∈ new, ∃ t, s'.kp n = some t
  nodup : new.Nodup

theorem GoodProfile.cross {ε : K} {a b : List K} (ha : GoodProfile ε a) (hb : GoodProfile ε b) :
    GoodProfile ε (a.take 12 ++ b.drop 12) := by
  have hl : (a.take 12).length = 12 := by simp [ha.1]
  refine ⟨by simp [ha.1, hb.1], ?_, ?_, ?_⟩
  · intro x hx
    rcases List.mem_append.1 hx with h | h
    · exact ha.2.1 x (List.mem_of_mem_take h)
    · exact hb.2.1 x (List.mem_of_mem_drop h)
  · rw [List.take_append_of_le_length (by rw [hl]), List.take_take]
    exact ha.2.2.1
  · have : (a.take 12 ++ b.drop 12).drop 12 = b.drop 12 := by
      rw [List.drop_append_of_le_length (by rw [hl]), List.drop_of_length_le (by rw [hl]), List.nil_append]
    rw [this]
    exact hb.2.2.2

theorem wp_crossover {ε : K} (fuel : Nat) (parents : List Name) (n : Nat) (s : St K) (w : WF ε s)
    (hp : ∀ p ∈ parents, ∃ t, s.kp p = some t) {X : Exn → Prop} (hX : parents = [] → 0 < n → X .index) :
    wp (crossover fuel parents n) s (fun ch s' => Grown ε s ch s' ∧ ch.length = n) X := by
  have := wp_while (K := K) (cond := fun ch : List Name => decide (ch.length < n))
    (body := fun children => do
      let major ← choice parents
      let minor ← choice parents
      if major ≠ minor then
        let s ← get
        let name := Name.kpc s.evoKp
        modify (fun s => { s with evoKp := s.evoKp + 1 })
        match s.kp major, s.kp minor with
        | some a, some b =>
          insertProfile name (a.take 12 ++ b.drop 12)
          return children ++ [name]
        | _, _ => raise .type
      else return children) (X := X)
    (fun ch s' => Grown ε s ch s' ∧ ch.length ≤ n)
    (by
      rintro ch s1 ⟨g, hl⟩ hc
      have hc : ch.length < n := by simpa using hc
      apply wp_bind
      refine wp_mono (wp_choice parents (fun e => hX e (by omega))) ?_ (fun _ h => h)
      rintro a s2 ⟨hu2, ha⟩
      apply wp_bind
      refine wp_mono (wp_choice parents (fun e => hX e (by omega))) ?_ (fun _ h => h)
      rintro b s3 ⟨hu3, hb⟩
      have hu := hu2.trans hu3
      have w3 := hu.wf g.wf
      have hratio : s3.ratio = s1.ratio := by obtain ⟨_, _, _, rfl⟩ := hu; rfl
      by_cases h : a ≠ b
      · rw [if_pos h]
        refine wp_bind (wp_get ?_)
        refine wp_bind (wp_modify ?_)
        obtain ⟨ta, ea⟩ := hp a ha
        obtain ⟨tb, eb⟩ := hp b hb
        have ea3 : s3.kp a = some ta := by rw [hu.kp]; exact g.ext.kp _ _ ea
        have eb3 : s3.kp b = some tb := by rw [hu.kp]; exact g.ext.kp _ _ eb
        simp only [ea3, eb3]
        refine wp_bind (wp_mono (wp_insertProfile _ _ _) ?_ (fun _ h => h))
        rintro _ s4 ⟨ws, rfl⟩
        have hadd := addKpc w3 _ ((w3.kp a ta ea3).cross (w3.kp b tb eb3)) ws
        have hnew : s3.kp (.kpc s3.evoKp) = none := w3.kpcId _ (le_refl _)
        refine wp_pure ⟨⟨hadd.1, (g.ext.trans hu.ext).trans hadd.2, hu.kt.trans g.kt, hratio.trans g.ratio, ?_, ?_, ?_⟩,
          by simp; omega⟩
        · intro m hm
          rcases List.mem_append.1 hm with hm | hm
          · exact g.fresh m hm
          · rw [List.mem_singleton] at hm
            subst hm
            by_contra hne
            obtain ⟨t, ht⟩ := Option.ne_none_iff_exists'.1 hne
            have := (g.ext.trans hu.ext).kp _ t ht
            rw [hnew] at this
            cases this
        · intro m hm
          rcases List.mem_append.1 hm with hm | hm
          · obtain ⟨t, ht⟩ := g.here m hm
            exact ⟨t, hadd.2.kp m t (by rw [hu.kp]; exact ht)⟩
          · rw [List.mem_singleton] at hm
            subst hm
            exact ⟨ta.take 12 ++ tb.drop 12, by simp [Dict.put]⟩
        · rw [List.nodup_append]
          refine ⟨g.nodup, by simp, ?_⟩
          intro x hx y hy
          rw [List.mem_singleton] at hy
          subst hy
          rintro rfl
          obtain ⟨t, ht⟩ := g.here _ hx
          rw [← hu.kp, hnew] at ht
          cases ht
      · rw [if_neg h]
        refine wp_pure ⟨⟨w3, g.ext.trans hu.ext, hu.kt.trans g.kt, hratio.trans g.ratio, g.fresh, ?_, g.nodup⟩, hl⟩
        intro m hm
        rw [hu.kp]
        exact g.here m hm)
    fuel [] s ⟨⟨w, Ext.refl s, rfl, rfl, by simp, by simp, by simp⟩, by simp⟩
  refine wp_mono this ?_ (fun _ h => h)
  rintro ch s' ⟨⟨g, hl⟩, hc⟩
  have : n ≤ ch.length := by simpa using hc
  exact ⟨g, by omega⟩

theorem GoodProfile.move {ε : K} {t : List K} (h : GoodProfile ε t) {i j : Nat} (hij : i ≠ j)
    (hr : (i ≤ 11 ∧ j ≤ 11) ∨ (12 ≤ i ∧ i ≤ 23 ∧ 12 ≤ j ∧ j ≤ 23)) : GoodProfile ε (moved t i j) := by
  refine ⟨by rw [moved_length, h.1], moved_nonneg t h.2.1 i j, ?_, ?_⟩
  · rcases hr with ⟨hi, hj⟩ | ⟨hi, hi', hj, hj'⟩
    · rw [(moved_major t h.1 i j hi hj hij).1]; exact h.2.2.1
    · rw [(moved_minor t h.1 i j hi hi' hj hj' hij).1]; exact h.2.2.1
  · rcases hr with ⟨hi, hj⟩ | ⟨hi, hi', hj, hj'⟩
    · rw [(moved_major t h.1 i j hi hj hij).2]; exact h.2.2.2
    · rw [(moved_minor t h.1 i j hi hi' hj hj' hij).2]; exact h.2.2.2

/-- Result of treating one member: itself or a new one. -/
def OneKp (ε : K) (s : St K) (n : Name) (m : Name) (s' : St K) : Prop :=
  WF ε s' ∧ Ext s s' ∧ s'.kt = s.kt ∧ s'.ratio = s.ratio ∧ (m = n ∨ s.kp m = none) ∧ ∃ t, s'.kp m = some t

theorem wp_mutateProfile {ε : K} (fuel : Nat) (n : Name) (s : St K) (w : WF ε s) (t : List K)
    (ht : s.kp n = some t) {X : Exn → Prop} : wp (mutateProfile fuel n) s (OneKp ε s n) X := by
  unfold mutateProfile
  apply wp_bind
  refine wp_mono wp_random ?_ (fun _ h => h)
  rintro u s1 ⟨h1, _⟩
  by_cases hu : u < 1 / 2
  · rw [if_pos hu]
    refine wp_bind (wp_get ?_)
    refine wp_bind (wp_modify ?_)
    apply wp_bind
    refine wp_mono (wp_choice [(0, 11), (12, 23)] (by simp)) ?_ (fun _ h => h)
    rintro r s2 ⟨h2, hr⟩
    apply wp_bind
    refine wp_mono (wp_twoIndices fuel r.1 r.2 ?_) ?_ (fun _ h => h)
    · simp at hr
      rcases hr with rfl | rfl <;> simp
    rintro ⟨i, j⟩ s3 ⟨h3, hij, hi, hi', hj, hj'⟩
    have ht1 : s1.kp n = some t := by rw [h1.kp]; exact ht
    simp only [ht1]
    have w1 := h1.wf w
    have hg := w1.kp n t ht1
    have hrange : (i ≤ 11 ∧ j ≤ 11) ∨ (12 ≤ i ∧ i ≤ 23 ∧ 12 ≤ j ∧ j ≤ 23) := by
      simp at hr
      rcases hr with rfl | rfl
      · exact Or.inl ⟨hi', hj'⟩
      · exact Or.inr ⟨hi, hi', hj, hj'⟩
    have hil : i < t.length := by rw [hg.1]; omega
    have hjl : j < t.length := by rw [hg.1]; omega
    rw [shift_eq t i j hil hjl hij]
    refine wp_bind (wp_pure ?_)
    refine wp_bind (wp_mono (wp_insertProfile _ _ _) ?_ (fun _ h => h))
    rintro _ s4 ⟨ws, rfl⟩
    obtain ⟨_, rest, e, rfl⟩ := h2.trans h3
    have hu' : Used s { s1 with rng := rest } := h1.trans ⟨_, rest, e, rfl⟩
    have w3 : WF ε { s1 with rng := rest } := hu'.wf w
    have hadd := addKpm w3 _ (hg.move hij hrange) ws
    refine wp_pure ⟨hadd.1, hu'.ext.trans hadd.2, hu'.kt, ?_, Or.inr ?_, ⟨moved t i j, by simp [Dict.put]⟩⟩
    · obtain ⟨_, _, _, rfl⟩ := h1
      rfl
    · rw [← h1.kp]; exact w1.kpmId _ (le_refl _)
  · rw [if_neg hu]
    refine wp_pure ⟨h1.wf w, h1.ext, h1.kt, ?_, Or.inl rfl, t, by rw [h1.kp]; exact ht⟩
    obtain ⟨_, _, _, rfl⟩ := h1
    rfl

theorem wp_mutateAll {ε : K} (fuel : Nat) {X : Exn → Prop} (l : List Name) : ∀ (s : St K), WF ε s → l.Nodup →
    (∀ n ∈ l, ∃ t, s.kp n = some t) →
    wp (mapMPy (mutateProfile fuel) l) s (fun r s' => WF ε s' ∧ Ext s s' ∧ s'.kt = s.kt ∧ s'.ratio = s.ratio ∧
      r.length = l.length ∧ r.Nodup ∧ (∀ m ∈ r, ∃ t, s'.kp m = some t) ∧
      ∀ m ∈ r, m ∈ l ∨ s.kp m = none) X := by
  induction l with
  | nil => intro s w _ _; exact wp_pure ⟨w, Ext.refl s, rfl, rfl, rfl, by simp, by simp, by simp⟩
  | cons n l ih =>
    intro s w hnd hl
    rw [List.nodup_cons] at hnd
    obtain ⟨t, ht⟩ := hl n (by simp)
    apply wp_bind
    refine wp_mono (wp_mutateProfile fuel n s w t ht) ?_ (fun _ h => h)
    rintro m s1 ⟨w1, e1, k1, r1, hm, tm, htm⟩
    apply wp_bind
    refine wp_mono (ih s1 w1 hnd.2 (fun x hx => ?_)) ?_ (fun _ h => h)
    · obtain ⟨tx, htx⟩ := hl x (by simp [hx])
      exact ⟨tx, e1.kp x tx htx⟩
    rintro r s2 ⟨w2, e2, k2, r2, hlen, hnd2, hhere, hfrom⟩
    refine wp_pure ⟨w2, e1.trans e2, k2.trans k1, r2.trans r1, by simp [hlen], ?_, ?_, ?_⟩
    · rw [List.nodup_cons]
      refine ⟨?_, hnd2⟩
      intro hmr
      rcases hfrom m hmr with h | h
      · rcases hm with rfl | hm
        · exact hnd.1 h
        · obtain ⟨tx, htx⟩ := hl m (by simp [h])
          rw [hm] at htx
          cases htx
      · rw [htm] at h
        cases h
    · intro x hx
      rcases List.mem_cons.1 hx with rfl | hx
      · exact ⟨tm, e2.kp _ _ htm⟩
      · exact hhere x hx
    · intro x hx
      rcases List.mem_cons.1 hx with rfl | hx
      · rcases hm with rfl | hm
        · exact Or.inl (by simp)
        · exact Or.inr hm
      · rcases hfrom x hx with h | h
        · exact Or.inl (by simp [h])
        · right
          by_contra hne
          obtain ⟨tx, htx⟩ := Option.ne_none_iff_exists'.1 hne
          rw [e1.kp x tx htx] at h
          cases h

theorem wp_fillUpKp {ε : K} (hε : 0 ≤ ε) (kpMax : Nat) (k : Nat) : ∀ (l : List Name) (s : St K), WF ε s → l.Nodup →
    (∀ n ∈ l, ∃ t, s.kp n = some t) →
    wp (fillUp (generateProfile kpMax) k l) s (fun r s' => WF ε s' ∧ Ext s s' ∧ s'.kt = s.kt ∧ s'.ratio = s.ratio ∧
      r.length = l.length + k ∧ r.Nodup ∧ (∀ m ∈ r, ∃ t, s'.kp m = some t) ∧
      ∀ m ∈ r, m ∈ l ∨ s.kp m = none) (GenExn kpMax) := by
  induction k with
  | zero => intro l s w hn hl; exact wp_pure ⟨w, Ext.refl s, rfl, rfl, rfl, hn, hl, fun m h => Or.inl h⟩
  | succ k ih =>
    intro l s w hn hl
    apply wp_bind
    refine wp_mono (wp_generateProfile hε kpMax s w) ?_ (fun _ h => h)
    rintro n s1 ⟨w1, e1, hf, ⟨t, ht⟩, k1, r1⟩
    refine wp_mono (ih (l ++ [n]) s1 w1 ?_ ?_) ?_ (fun _ h => h)
    · rw [List.nodup_append]
      refine ⟨hn, by simp, ?_⟩
      intro a ha b hb
      rw [List.mem_singleton] at hb
      subst hb
      rintro rfl
      obtain ⟨tx, htx⟩ := hl _ ha
      rw [hf] at htx
      cases htx
    · intro x hx
      rcases List.mem_append.1 hx with hx | hx
      · obtain ⟨tx, htx⟩ := hl x hx
        exact ⟨tx, e1.kp _ _ htx⟩
      · rw [List.mem_singleton] at hx
        subst hx
        exact ⟨t, ht⟩
    rintro r s2 ⟨w2, e2, k2, r2, hlen, hnd, hh, hfrom⟩
    refine ⟨w2, e1.trans e2, k2.trans k1, r2.trans r1, by rw [hlen]; simp; omega, hnd, hh, ?_⟩
    intro m hm
    rcases hfrom m hm with h | h
    · rcases List.mem_append.1 h with h | h
      · exact Or.inl h
      · rw [List.mem_singleton] at h
        subst h
        exact Or.inr hf
    · right
      by_contra hne
      obtain ⟨tx, htx⟩ := Option.ne_none_iff_exists'.1 hne
      rw [e1.kp m tx htx] at h
      cases h

/-- The exceptions of a generation of profiles: IndexError only for populations of four. -/
def EvoExn (n kpMax : Nat) (e : Exn) : Prop := (e = .index ∧ n = 4) ∨ GenExn kpMax e

theorem wp_evolveProfiles {ε : K} (hε : 0 ≤ ε) (fuel kpMax : Nat) (kps : List Name) (s : St K) (w : WF ε s)
    (hn : kps.Nodup) (hh : ∀ n ∈ kps, ∃ t, s.kp n = some t) :
    wp (evolveProfiles fuel kpMax kps) s (fun r s' => WF ε s' ∧ Ext s s' ∧ s'.kt = s.kt ∧ s'.ratio = s.ratio ∧
      r.length = kps.length ∧ r.Nodup ∧ (∀ m ∈ r, ∃ t, s'.kp m = some t) ∧ ∀ m ∈ r, m ∈ kps ∨ s.kp m = none)
      (EvoExn kps.length kpMax) := by
  unfold evolveProfiles
  have hf : fifth kps.length = kps.length / 5 := rfl
  have ht : threeTenths kps.length = 3 * kps.length / 10 := rfl
  apply wp_bind
  refine wp_mono (wp_retainRandom fuel _ _ _ s (fun e h => ?_)) ?_ (fun _ h => h)
  · exfalso
    have := congrArg List.length e
    simp only [List.length_drop, List.length_nil] at this
    omega
  rintro old s1 ⟨hu, hol, hon, hofrom⟩
  have w1 := hu.wf w
  have hpn : (kps.take (fifth kps.length) ++ old).Nodup := by
    rw [List.nodup_append]
    refine ⟨hn.sublist (List.take_sublist _ _), hon, ?_⟩
    intro a ha b hb
    rintro rfl
    exact (hofrom _ hb).2 ha
  have hpin : ∀ p ∈ kps.take (fifth kps.length) ++ old, p ∈ kps := by
    intro p hp
    rcases List.mem_append.1 hp with h | h
    · exact List.mem_of_mem_take h
    · exact List.mem_of_mem_drop (hofrom p h).1
  have hpl : (kps.take (fifth kps.length) ++ old).length = 2 * (kps.length / 5) := by
    rw [List.length_append, List.length_take, hol]
    omega
  have hph : ∀ p ∈ kps.take (fifth kps.length) ++ old, ∃ t, s1.kp p = some t := by
    intro p hp
    rw [hu.kp]
    exact hh p (hpin p hp)
  apply wp_bind
  refine wp_mono (wp_crossover fuel _ _ s1 w1 hph (fun e h => ?_)) ?_ (fun _ h => h)
  · left
    refine ⟨rfl, ?_⟩
    rw [e] at hpl
    simp only [List.length_nil] at hpl
    omega
  rintro ch s2 ⟨g, hcl⟩
  have hfn : (kps.take (fifth kps.length) ++ old ++ ch).Nodup := by
    rw [List.nodup_append]
    refine ⟨hpn, g.nodup, ?_⟩
    intro a ha b hb
    rintro rfl
    obtain ⟨t, ht⟩ := hph _ ha
    rw [g.fresh _ hb] at ht
    cases ht
  have hfh : ∀ p ∈ kps.take (fifth kps.length) ++ old ++ ch, ∃ t, s2.kp p = some t := by
    intro p hp
    rcases List.mem_append.1 hp with h | h
    · obtain ⟨t, ht⟩ := hph p h
      exact ⟨t, g.ext.kp _ _ ht⟩
    · exact g.here p h
  have hffrom : ∀ p ∈ kps.take (fifth kps.length) ++ old ++ ch, p ∈ kps ∨ s.kp p = none := by
    intro p hp
    rcases List.mem_append.1 hp with h | h
    · exact Or.inl (hpin p h)
    · right
      rw [← hu.kp]
      exact g.fresh p h
  apply wp_bind
  refine wp_mono (wp_mutateAll fuel _ s2 g.wf hfn hfh) ?_ (fun _ h => h)
  rintro mu s3 ⟨w3, e3, k3, r3, hml, hmn, hmh, hmfrom⟩
  have back : ∀ {s₁ s₂ : St K}, Ext s₁ s₂ → ∀ m, s₂.kp m = none → s₁.kp m = none := by
    intro s₁ s₂ e m h
    by_contra hne
    obtain ⟨t, ht⟩ := Option.ne_none_iff_exists'.1 hne
    rw [e.kp m t ht] at h
    cases h
  refine wp_mono (wp_fillUpKp hε kpMax _ mu s3 w3 hmn hmh) ?_ (fun e h => Or.inr h)
  rintro r s4 ⟨w4, e4, k4, r4, hrl, hrn, hrh, hrfrom⟩
  have hr1 : s1.ratio = s.ratio := by obtain ⟨_, _, _, rfl⟩ := hu; rfl
  refine ⟨w4, ((hu.ext.trans g.ext).trans e3).trans e4, ((k4.trans k3).trans g.kt).trans hu.kt,
    ((r4.trans r3).trans g.ratio).trans hr1, ?_, hrn, hrh, ?_⟩
  · have : mu.length = 2 * (kps.length / 5) + 3 * kps.length / 10 := by
      rw [hml, List.length_append, hpl, hcl]
      rfl
    rw [hrl]
    omega
  · intro m hm
    rcases hrfrom m hm with h | h
    · rcases hmfrom m h with h | h
      · exact hffrom m h
      · exact Or.inr (back (hu.ext.trans g.ext) m h)
    · exact Or.inr (back ((hu.ext.trans g.ext).trans e3) m h)

/-! Transitions. -/

theorem GoodTransition.move {ε : K} {t : List K} (h : GoodTransition ε t) {i j : Nat} (hij : i ≠ j)
    (hi : i ≤ 23) (hj : j ≤ 23) : GoodTransition ε (moved t i j) := by
  refine ⟨by rw [moved_length, h.1], moved_nonneg t h.2.1 i j, ?_⟩
  rw [moved_sum t i j (by rw [h.1]; omega) (by rw [h.1]; omega) hij]
  exact h.2.2

def OneKt (ε : K) (s : St K) (n : Name) (m : Name) (s' : St K) : Prop :=
  WF ε s' ∧ Ext s s' ∧ s'.kp = s.kp ∧ (m = n ∨ s.kt m = none) ∧ ∃ t, s'.kt m = some t

/-- TypeError arises only for a name that starts with 'ktg' and has no stored ratio. -/
theorem wp_mutateTransition {ε : K} (hε : 0 ≤ ε) (fuel : Nat) (n : Name) (s : St K) (w : WF ε s) (t : List K)
    (ht : s.kt n = some t) {X : Exn → Prop} (hX : n.isKtg = true → s.ratio n = none → X .type) :
    wp (mutateTransition fuel n) s (OneKt ε s n) X := by
  unfold mutateTransition
  by_cases hg : n.isKtg = true
  · rw [if_pos hg]
    apply wp_bind
    refine wp_mono wp_random ?_ (fun _ h => h)
    rintro u s1 ⟨h1, d, hd, rfl⟩
    rw [if_pos (w.unit d hd).2]
    refine wp_bind (wp_get ?_)
    refine wp_bind (wp_modify ?_)
    have hr1 : s1.ratio = s.ratio := by obtain ⟨_, _, _, rfl⟩ := h1; rfl
    have w1 := h1.wf w
    cases hr : s1.ratio n with
    | none => exact wp_raise (hX hg (by rw [← hr1]; exact hr))
    | some r =>
      simp only
      have hrpos := w1.ratio n r hr
      apply wp_bind
      refine wp_mono wp_random ?_ (fun _ h => h)
      rintro v s2 ⟨h2, d', hd', rfl⟩
      have hv := (w1.unit d' hd').1
      have hnew : 0 < r - r * (1 / 10) + (r + r * (1 / 10) - (r - r * (1 / 10))) * d'.unit := by
        have : 0 ≤ r * d'.unit := by positivity
        nlinarith
      apply wp_bind
      refine wp_mono (wp_generateGeometric hε _ hnew s2) ?_ (fun _ h => h)
      rintro kt s3 ⟨rfl, hkt⟩
      refine wp_bind (wp_modify ?_)
      refine wp_bind (wp_mono (wp_insertTransition _ _ _) ?_ (fun _ h => h))
      rintro _ s4 ⟨ws, rfl⟩
      obtain ⟨_, rest, e, rfl⟩ := h2
      have hu' : Used s { s1 with rng := rest } := h1.trans ⟨_, rest, e, rfl⟩
      have w3 : WF ε { s1 with rng := rest } := hu'.wf w
      have hadd := addKtgm w3 _ hkt _ hnew ws
      refine wp_pure ⟨hadd.1, hu'.ext.trans hadd.2, hu'.kp, Or.inr ?_, ⟨kt, by simp [Dict.put]⟩⟩
      rw [← h1.kt]; exact w1.ktgmId _ (le_refl _)
  · rw [if_neg hg]
    by_cases hs : n.isKts = true
    · rw [if_pos hs]
      apply wp_bind
      refine wp_mono wp_random ?_ (fun _ h => h)
      rintro u s1 ⟨h1, d, hd, rfl⟩
      rw [if_pos (w.unit d hd).2]
      refine wp_bind (wp_get ?_)
      refine wp_bind (wp_modify ?_)
      apply wp_bind
      refine wp_mono (wp_twoIndices fuel 0 23 (by omega)) ?_ (fun _ h => h)
      rintro ⟨i, j⟩ s3 ⟨h3, hij, _, hi', _, hj'⟩
      have ht1 : s1.kt n = some t := by rw [h1.kt]; exact ht
      simp only [ht1]
      have w1 := h1.wf w
      have hgd := w1.kt n t ht1
      rw [shift_eq t i j (by rw [hgd.1]; simp only at hi'; omega) (by rw [hgd.1]; simp only at hj'; omega) hij]
      refine wp_bind (wp_pure ?_)
      refine wp_bind (wp_mono (wp_insertTransition _ _ _) ?_ (fun _ h => h))
      rintro _ s4 ⟨ws, rfl⟩
      obtain ⟨_, rest, e, rfl⟩ := h3
      have hu' : Used s { s1 with rng := rest } := h1.trans ⟨_, rest, e, rfl⟩
      have w3 : WF ε { s1 with rng := rest } := hu'.wf w
      have hadd := addKtsm w3 _ (hgd.move hij hi' hj') ws
      refine wp_pure ⟨hadd.1, hu'.ext.trans hadd.2, hu'.kp, Or.inr ?_, ⟨moved t i j, by simp [Dict.put]⟩⟩
      rw [← h1.kt]; exact w1.ktsmId _ (le_refl _)
    · rw [if_neg hs]
      exact wp_pure ⟨w, Ext.refl s, rfl, Or.inl rfl, t, ht⟩

theorem wp_mutateAllKt {ε : K} (hε : 0 ≤ ε) (fuel : Nat) {X : Exn → Prop} (l : List Name) : ∀ (s : St K), WF ε s →
    l.Nodup → (∀ n ∈ l, ∃ t, s.kt n = some t) → (∀ n ∈ l, n.isKtg = true → s.ratio n = none → X .type) →
    wp (mapMPy (mutateTransition fuel) l) s (fun r s' => WF ε s' ∧ Ext s s' ∧ s'.kp = s.kp ∧
      r.length = l.length ∧ r.Nodup ∧ (∀ m ∈ r, ∃ t, s'.kt m = some t) ∧
      ∀ m ∈ r, m ∈ l ∨ s.kt m = none) X := by
  induction l with
  | nil => intro s w _ _ _; exact wp_pure ⟨w, Ext.refl s, rfl, rfl, by simp, by simp, by simp⟩
  | cons n l ih =>
    intro s w hnd hl hX
    rw [List.nodup_cons] at hnd
    obtain ⟨t, ht⟩ := hl n (by simp)
    apply wp_bind
    refine wp_mono (wp_mutateTransition hε fuel n s w t ht (hX n (by simp))) ?_ (fun _ h => h)
    rintro m s1 ⟨w1, e1, k1, hm, tm, htm⟩
    apply wp_bind
    refine wp_mono (ih s1 w1 hnd.2 (fun x hx => ?_) (fun x hx hg hr => ?_)) ?_ (fun _ h => h)
    · obtain ⟨tx, htx⟩ := hl x (by simp [hx])
      exact ⟨tx, e1.kt x tx htx⟩
    · obtain ⟨tx, htx⟩ := hl x (by simp [hx])
      refine hX x (by simp [hx]) hg ?_
      rw [← e1.ratio x (by rw [htx]; simp)]
      exact hr
    rintro r s2 ⟨w2, e2, k2, hlen, hnd2, hhere, hfrom⟩
    refine wp_pure ⟨w2, e1.trans e2, k2.trans k1, by simp [hlen], ?_, ?_, ?_⟩
    · rw [List.nodup_cons]
      refine ⟨?_, hnd2⟩
      intro hmr
      rcases hfrom m hmr with h | h
      · rcases hm with rfl | hm
        · exact hnd.1 h
        · obtain ⟨tx, htx⟩ := hl m (by simp [h])
          rw [hm] at htx
          cases htx
      · rw [htm] at h
        cases h
    · intro x hx
      rcases List.mem_cons.1 hx with rfl | hx
      · exact ⟨tm, e2.kt _ _ htm⟩
      · exact hhere x hx
    · intro x hx
      rcases List.mem_cons.1 hx with rfl | hx
      · rcases hm with rfl | hm
        · exact Or.inl (by simp)
        · exact Or.inr hm
      · rcases hfrom x hx with h | h
        · exact Or.inl (by simp [h])
        · right
          by_contra hne
          obtain ⟨tx, htx⟩ := Option.ne_none_iff_exists'.1 hne
          rw [e1.kt x tx htx] at h
          cases h

theorem wp_fillUpKt {ε : K} (hε : 0 ≤ ε) (ktMax : Nat) (k : Nat) : ∀ (l : List Name) (s : St K), WF ε s → l.Nodup →
    (∀ n ∈ l, ∃ t, s.kt n = some t) →
    wp (fillUp (generateTransition ktMax) k l) s (fun r s' => WF ε s' ∧ Ext s s' ∧ s'.kp = s.kp ∧
      r.length = l.length + k ∧ r.Nodup ∧ (∀ m ∈ r, ∃ t, s'.kt m = some t) ∧
      ∀ m ∈ r, m ∈ l ∨ s.kt m = none) (GenKtExn ktMax) := by
  induction k with
  | zero => intro l s w hn hl; exact wp_pure ⟨w, Ext.refl s, rfl, rfl, hn, hl, fun m h => Or.inl h⟩
  | succ k ih =>
    intro l s w hn hl
    apply wp_bind
    refine wp_mono (wp_generateTransition hε ktMax s w) ?_ (fun _ h => h)
    rintro n s1 ⟨w1, e1, hf, ⟨t, ht⟩, k1⟩
    refine wp_mono (ih (l ++ [n]) s1 w1 ?_ ?_) ?_ (fun _ h => h)
    · rw [List.nodup_append]
      refine ⟨hn, by simp, ?_⟩
      intro a ha b hb
      rw [List.mem_singleton] at hb
      subst hb
      rintro rfl
      obtain ⟨tx, htx⟩ := hl _ ha
      rw [hf] at htx
      cases htx
    · intro x hx
      rcases List.mem_append.1 hx with hx | hx
      · obtain ⟨tx, htx⟩ := hl x hx
        exact ⟨tx, e1.kt _ _ htx⟩
      · rw [List.mem_singleton] at hx
        subst hx
        exact ⟨t, ht⟩
    rintro r s2 ⟨w2, e2, k2, hlen, hnd, hh, hfrom⟩
    refine ⟨w2, e1.trans e2, k2.trans k1, by rw [hlen]; simp; omega, hnd, hh, ?_⟩
    intro m hm
    rcases hfrom m hm with h | h
    · rcases List.mem_append.1 h with h | h
      · exact Or.inl h
      · rw [List.mem_singleton] at h
        subst h
        exact Or.inr hf
    · right
      by_contra hne
      obtain ⟨tx, htx⟩ := Option.ne_none_iff_exists'.1 hne
      rw [e1.kt m tx htx] at h
      cases h

/-- The exceptions of a generation of transitions: TypeError only if a population of five or more has a
member called 'ktg…' without a stored ratio. -/
def EvoKtExn (s : St K) (kts : List Name) (ktMax : Nat) (e : Exn) : Prop :=
  (e = .type ∧ 5 ≤ kts.length ∧ ∃ n ∈ kts, n.isKtg = true ∧ s.ratio n = none) ∨ GenKtExn ktMax e

theorem wp_evolveTransitions {ε : K} (hε : 0 ≤ ε) (fuel ktMax : Nat) (kts : List Name) (s : St K) (w : WF ε s)
    (hn : kts.Nodup) (hh : ∀ n ∈ kts, ∃ t, s.kt n = some t) :
    wp (evolveTransitions fuel ktMax kts) s (fun r s' => WF ε s' ∧ Ext s s' ∧ s'.kp = s.kp ∧
      r.length = kts.length ∧ r.Nodup ∧ (∀ m ∈ r, ∃ t, s'.kt m = some t) ∧ ∀ m ∈ r, m ∈ kts ∨ s.kt m = none)
      (EvoKtExn s kts ktMax) := by
  unfold evolveTransitions
  have hf : fifth kts.length = kts.length / 5 := rfl
  apply wp_bind
  refine wp_mono (wp_retainRandom fuel _ _ _ s (fun e h => ?_)) ?_ (fun _ h => h)
  · exfalso
    have := congrArg List.length e
    simp only [List.length_drop, List.length_nil] at this
    omega
  rintro old s1 ⟨hu, hol, hon, hofrom⟩
  have w1 := hu.wf w
  have hpn : (kts.take (fifth kts.length) ++ old).Nodup := by
    rw [List.nodup_append]
    refine ⟨hn.sublist (List.take_sublist _ _), hon, ?_⟩
    intro a ha b hb
    rintro rfl
    exact (hofrom _ hb).2 ha
  have hpin : ∀ p ∈ kts.take (fifth kts.length) ++ old, p ∈ kts := by
    intro p hp
    rcases List.mem_append.1 hp with h | h
    · exact List.mem_of_mem_take h
    · exact List.mem_of_mem_drop (hofrom p h).1
  have hpl : (kts.take (fifth kts.length) ++ old).length = 2 * (kts.length / 5) := by
    rw [List.length_append, List.length_take, hol]
    omega
  have hph : ∀ p ∈ kts.take (fifth kts.length) ++ old, ∃ t, s1.kt p = some t := by
    intro p hp
    rw [hu.kt]
    exact hh p (hpin p hp)
  have hr1 : s1.ratio = s.ratio := by obtain ⟨_, _, _, rfl⟩ := hu; rfl
  apply wp_bind
  refine wp_mono (wp_mutateAllKt hε fuel _ s1 w1 hpn hph (fun n h hg hr => ?_)) ?_ (fun _ h => h)
  · left
    refine ⟨rfl, ?_, n, hpin n h, hg, by rw [← hr1]; exact hr⟩
    have := List.length_pos_of_mem h
    omega
  rintro mu s3 ⟨w3, e3, k3, hml, hmn, hmh, hmfrom⟩
  have back : ∀ {s₁ s₂ : St K}, Ext s₁ s₂ → ∀ m, s₂.kt m = none → s₁.kt m = none := by
    intro s₁ s₂ e m h
    by_contra hne
    obtain ⟨t, ht⟩ := Option.ne_none_iff_exists'.1 hne
    rw [e.kt m t ht] at h
    cases h
  refine wp_mono (wp_fillUpKt hε ktMax _ mu s3 w3 hmn hmh) ?_ (fun e h => Or.inr h)
  rintro r s4 ⟨w4, e4, k4, hrl, hrn, hrh, hrfrom⟩
  refine ⟨w4, (hu.ext.trans e3).trans e4, (k4.trans k3).trans hu.kp, ?_, hrn, hrh, ?_⟩
  · have : mu.length = 2 * (kts.length / 5) := by rw [hml, hpl]
    rw [hrl]
    omega
  · intro m hm
    rcases hrfrom m hm with h | h
    · rcases hmfrom m h with h | h
      · exact Or.inl (hpin m h)
      · exact Or.inr (back hu.ext m h)
    · exact Or.inr (back (hu.ext.trans e3) m h)

end JKD.Opt
