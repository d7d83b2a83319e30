import Verif.Props.FilesProps
/-
C61, C62: loading a data set that was written (dataset.py:9-60, dataset_creator.py:189-242).
-/

namespace JKD.Py

variable {K : Type}

/-! ### The patterns -/

theorem lower_append (a b : Str) : lower (a ++ b) = lower a ++ lower b := by simp [lower]

theorem lower_length (a : Str) : (lower a).length = a.length := by simp [lower]

theorem lower_take (n : Nat) (a : Str) : lower (a.take n) = (lower a).take n := by simp [lower, List.map_take]

theorem lower_drop (n : Nat) (a : Str) : lower (a.drop n) = (lower a).drop n := by simp [lower, List.map_drop]

/-- What the pattern says: the lower-case text starts with `_kind`, then there is any character but a line break, and
`pkl`. -/
theorem tailPattern_prefix {kind s : Str} (h : tailPattern kind s = true) :
    ('_' :: lower kind) <+: lower s ∧ kind.length + 5 ≤ s.length := by
  unfold tailPattern at h
  simp only [Bool.and_eq_true, decide_eq_true_eq] at h
  obtain ⟨h1, h2⟩ := h
  have hw : lower ('_' :: kind) = '_' :: lower kind := by simp [lower]
  rw [hw] at h1
  constructor
  · rw [← h1, lower_take]
    exact List.take_prefix _ _
  · have l1 := congrArg List.length h1
    rw [lower_length, List.length_take, List.length_cons, List.length_cons, lower_length] at l1
    cases ht : s.drop ('_' :: kind).length with
    | nil => rw [ht] at h2; simp at h2
    | cons c t =>
      rw [ht] at h2
      simp only [Bool.and_eq_true, decide_eq_true_eq] at h2
      have l2 := congrArg List.length h2.2
      rw [lower_length, List.length_take] at l2
      have l3 := congrArg List.length ht
      rw [List.length_drop, List.length_cons, List.length_cons] at l3
      have : "pkl".toList.length = 3 := by decide
      omega

theorem tailPattern_self (kind : Str) : tailPattern kind ('_' :: kind ++ ".pkl".toList) = true := by
  unfold tailPattern
  have e1 : ('_' :: kind ++ ".pkl".toList).take ('_' :: kind).length = '_' :: kind := by
    rw [List.take_append_of_le_length (le_refl _), List.take_length]
  have e2 : ('_' :: kind ++ ".pkl".toList).drop ('_' :: kind).length = ".pkl".toList := by
    rw [List.drop_append_of_le_length (le_refl _), List.drop_length, List.nil_append]
  simp only [e1, e2]
  decide

/-- Nowhere in the text does the pattern match. -/
def NoPattern (kind s : Str) : Prop := ∀ j, tailPattern kind (s.drop j) = false

theorem greedy_none {kind s : Str} (h : NoPattern kind s) : ∀ k, greedy kind s k = none := by
  intro k
  induction k with
  | zero => simp [greedy, show tailPattern kind s = false by simpa using h 0]
  | succ k ih => simp [greedy, h (k + 1), ih]

theorem greedy_some {kind s : Str} : ∀ k g, greedy kind s k = some g → ∃ j, tailPattern kind (s.drop j) = true := by
  intro k
  induction k with
  | zero =>
    intro g h
    unfold greedy at h
    split at h
    · rename_i hp; exact ⟨0, by simpa using hp⟩
    · cases h
  | succ k ih =>
    intro g h
    unfold greedy at h
    split at h
    · rename_i hp; exact ⟨_, hp.2⟩
    · exact ih g h

theorem afterName_none {kind s : Str} (h : NoPattern kind s) : afterName kind s = none := by
  unfold afterName
  split
  · rename_i t
    have ht : NoPattern kind t := by
      intro j
      have := h (j + 1)
      simpa using this
    rw [greedy_none ht]
    exact greedy_none h _
  · exact greedy_none h _

/-- The greedy group ends at the last place where the pattern matches. -/
theorem greedy_last {kind s : Str} (m : Nat) (hm : tailPattern kind (s.drop m) = true) (hn : '\n' ∉ s.take m) :
    ∀ k, m ≤ k → (∀ j, m < j → j ≤ k → tailPattern kind (s.drop j) = false) → greedy kind s k = some (s.take m) := by
  intro k
  induction k with
  | zero =>
    intro hk _
    have : m = 0 := by omega
    subst this
    unfold greedy
    rw [if_pos (by simpa using hm)]
    simp
  | succ k ih =>
    intro hk hno
    by_cases he : m = k + 1
    · subst he
      unfold greedy
      rw [if_pos ⟨hn, hm⟩]
    · unfold greedy
      rw [if_neg (by rw [hno (k + 1) (by omega) (le_refl _)]; simp)]
      exact ih (by omega) (fun j h1 h2 => hno j h1 (by omega))

/-- The group matched in `g_kind.pkl` is `g`. -/
theorem greedy_file (kind g : Str) (hg : '\n' ∉ g) :
    greedy kind (g ++ '_' :: kind ++ ".pkl".toList) (g ++ '_' :: kind ++ ".pkl".toList).length = some g := by
  have hd : (g ++ '_' :: kind ++ ".pkl".toList).drop g.length = '_' :: kind ++ ".pkl".toList := by
    rw [List.append_assoc, List.drop_append_of_le_length (le_refl _), List.drop_length, List.nil_append]
  have ht : (g ++ '_' :: kind ++ ".pkl".toList).take g.length = g := by
    rw [List.append_assoc, List.take_append_of_le_length (le_refl _), List.take_length]
  have := greedy_last (kind := kind) (s := g ++ '_' :: kind ++ ".pkl".toList) g.length (by rw [hd]; exact tailPattern_self kind)
    (by rw [ht]; exact hg) (g ++ '_' :: kind ++ ".pkl".toList).length (by rw [List.append_assoc, List.length_append]; omega) (by
      intro j h1 _
      by_contra h
      have := (tailPattern_prefix (Bool.eq_true_of_not_eq_false h)).2
      have h4 : ".pkl".toList.length = 4 := by decide
      rw [List.length_drop, List.length_append, List.length_append, List.length_cons, h4] at this
      omega)
  rw [this, ht]

theorem afterName_file (kind : Str) : afterName kind ('_' :: kind ++ ".pkl".toList) = some [] := by
  have := greedy_file kind [] (by simp)
  simp only [List.nil_append] at this
  exact this

theorem afterName_split (kind g : Str) (hg : '\n' ∉ g) :
    afterName kind ('-' :: g ++ '_' :: kind ++ ".pkl".toList) = some g := by
  have := greedy_file kind g hg
  simp only [List.cons_append]
  simp only [List.append_assoc, List.cons_append] at this
  simp only [afterName, List.append_assoc, List.cons_append, this]

/-- A match needs the pattern behind the name. -/
theorem search_some (name kind : Str) : ∀ (s g : Str), search name kind s = some g →
    ∃ j, name.length ≤ j ∧ tailPattern kind (s.drop j) = true := by
  have after : ∀ t g, afterName kind t = some g → ∃ j, tailPattern kind (t.drop j) = true := by
    intro t g h
    by_contra hn
    have : afterName kind t = none := afterName_none (by
      intro j
      by_contra h'
      exact hn ⟨j, by simpa using h'⟩)
    rw [this] at h
    cases h
  intro s
  induction s with
  | nil =>
    intro g h
    unfold search at h
    split at h
    · rename_i hn
      obtain ⟨j, hj⟩ := after [] g h
      exact ⟨j, by simp [hn], hj⟩
    · cases h
  | cons c s ih =>
    intro g h
    have hrec : search name kind s = some g → ∃ j, name.length ≤ j ∧ tailPattern kind ((c :: s).drop j) = true := by
      intro h
      obtain ⟨j, h1, h2⟩ := ih g h
      exact ⟨j + 1, by omega, by simpa using h2⟩
    unfold search at h
    split at h
    · cases ha : afterName kind ((c :: s).drop name.length) with
      | none => rw [ha] at h; exact hrec h
      | some g' =>
        obtain ⟨j, hj⟩ := after _ _ ha
        rw [List.drop_drop] at hj
        exact ⟨name.length + j, by omega, hj⟩
    · exact hrec h

theorem search_none (name kind r : Str) (h : NoPattern kind r) : search name kind (name ++ r) = none := by
  cases hs : search name kind (name ++ r) with
  | none => rfl
  | some g =>
    obtain ⟨j, h1, h2⟩ := search_some name kind _ g hs
    have := h (j - name.length)
    rw [show j = name.length + (j - name.length) by omega, ← List.drop_drop,
      List.drop_append_of_le_length (le_refl _), List.drop_length, List.nil_append, this] at h2
    cases h2

theorem search_here (name kind r g : Str) (h : afterName kind r = some g) : search name kind (name ++ r) = some g := by
  have h1 : (name ++ r).take name.length = name := by simp
  have h2 : (name ++ r).drop name.length = r := by simp
  cases hc : name ++ r with
  | nil =>
    obtain ⟨rfl, rfl⟩ := List.append_eq_nil_iff.1 hc
    simp [search, h]
  | cons c s =>
    rw [hc] at h1 h2
    unfold search
    rw [if_pos ⟨by rw [h1], by rw [← hc]; simp⟩, h2, h]

/-! ### Names of splits -/

/-- An acceptable split name: the stem of a file in the folder of splits (no line break), not empty, and without
`_features` in it (in any case of letters). -/
structure GoodSplit (k : Str) : Prop where
  ne : k ≠ []
  line : '\n' ∉ k
  free : ¬ "_features".toList <:+: lower k

/-- No pattern for features in the annotations file of a split. -/
theorem noPattern_split (k : Str) (h : ¬ "_features".toList <:+: lower k) :
    NoPattern "features".toList ('-' :: k ++ "_annotations.pkl".toList) := by
  intro j
  by_contra hp
  have hp := (tailPattern_prefix (Bool.eq_true_of_not_eq_false hp)).1
  have hl : lower "features".toList = "features".toList := by decide
  rw [hl, lower_drop] at hp
  have hlow : lower ('-' :: k ++ "_annotations.pkl".toList) = '-' :: (lower k ++ "_annotations.pkl".toList) := by
    rw [show '-' :: k ++ "_annotations.pkl".toList = ['-'] ++ (k ++ "_annotations.pkl".toList) by simp, lower_append,
      lower_append, show lower ['-'] = ['-'] by decide, show lower "_annotations.pkl".toList = "_annotations.pkl".toList by decide]
    rfl
  rw [hlow] at hp
  generalize hk : lower k = q at *
  cases j with
  | zero =>
    rw [List.drop_zero] at hp
    have := List.cons_prefix_cons.1 hp
    exact absurd this.1 (by decide)
  | succ j =>
    rw [List.drop_succ_cons] at hp
    have hp' : ∀ i < 9, (q ++ "_annotations.pkl".toList)[j + i]? = ('_' :: "features".toList)[i]? := by
      intro i hi
      rw [← List.getElem?_drop]
      obtain ⟨t, ht⟩ := hp
      rw [← ht, List.getElem?_append_left (by simpa using hi)]
    by_cases h1 : j + 9 ≤ q.length
    · apply h
      have : '_' :: "features".toList <+: q.drop j := by
        rw [List.drop_append_of_le_length (by omega)] at hp
        exact List.prefix_of_prefix_length_le hp (List.prefix_append _ _) (by
          rw [List.length_drop]
          have : ('_' :: "features".toList).length = 9 := by decide
          omega)
      exact this.isInfix.trans (List.drop_suffix j q).isInfix
    · by_cases h2 : j < q.length
      · have := hp' (q.length - j) (by omega)
        rw [show j + (q.length - j) = q.length by omega, List.getElem?_append_right (le_refl _), Nat.sub_self] at this
        have h3 : 1 ≤ q.length - j ∧ q.length - j < 9 := by omega
        obtain ⟨h3, h4⟩ := h3
        generalize q.length - j = i at *
        have hdec : ∀ i < 9, 1 ≤ i → "_annotations.pkl".toList[0]? ≠ ('_' :: "features".toList)[i]? := by decide
        exact hdec i h4 h3 this
      · rw [List.drop_append, List.drop_eq_nil_of_le (by omega), List.nil_append] at hp
        generalize j - q.length = i at hp
        by_cases hi : i < 16
        · have hdec : ∀ i < 16, ¬ ('_' :: "features".toList) <+: "_annotations.pkl".toList.drop i := by decide
          exact hdec i hi hp
        · rw [List.drop_eq_nil_of_le (by
            have : "_annotations.pkl".toList.length = 16 := by decide
            omega)] at hp
          simp at hp

/-! ### The loop over the files -/

/-- The attribute a file is loaded into. -/
def attrOf (name f : Str) : Option Str :=
  match search name "features".toList f with
  | some g => some (if g = [] then ['X'] else g ++ "_X".toList)
  | none =>
    match search name "annotations".toList f with
    | some g => some (if g = [] then ['y'] else g ++ "_y".toList)
    | none => none

/-- The attributes after one file. -/
def attrsAfter (l : Str → Option (Content K)) (a : Option Str) (v : Content K) : Str → Option (Content K) :=
  match a with
  | some n => fun m => if m = n then some v else l m
  | none => l

theorem step_plain (name : Str) (l : Loaded K) (f : Str) (v : Content K) (h : f ≠ name ++ "_ensemble.txt".toList) :
    l.step name f v = .ok ⟨l.ensemble, attrsAfter l.attrs (attrOf name f) v⟩ := by
  unfold Loaded.step attrOf
  rw [if_neg h]
  simp only [PyRes.bind_ok]
  cases search name "features".toList f with
  | some g => rfl
  | none =>
    simp only
    cases search name "annotations".toList f with
    | some g => rfl
    | none => rfl

theorem step_ensemble (name : Str) (l : Loaded K) (t : Str) (e : Ensemble) (he : readEnsemble t = .ok e) :
    l.step name (name ++ "_ensemble.txt".toList) (.text t) =
      .ok ⟨some e, attrsAfter l.attrs (attrOf name (name ++ "_ensemble.txt".toList)) (.text t)⟩ := by
  unfold Loaded.step attrOf
  rw [if_pos rfl]
  simp only [he, PyRes.bind_ok]
  cases search name "features".toList (name ++ "_ensemble.txt".toList) with
  | some g => rfl
  | none =>
    simp only
    cases search name "annotations".toList (name ++ "_ensemble.txt".toList) with
    | some g => rfl
    | none => rfl

theorem loop_spec (name : Str) (e : Ensemble) : ∀ (L : List (Str × Content K)) (l : Loaded K),
    (∀ p ∈ L, p.1 = name ++ "_ensemble.txt".toList → ∃ t, p.2 = .text t ∧ readEnsemble t = .ok e) →
    (∀ p ∈ L, ∀ q ∈ L, ∀ a, attrOf name p.1 = some a → attrOf name q.1 = some a → p.2 = q.2) →
    ∃ l', Loaded.loop name l L = .ok l' ∧
      (∀ a, (∀ p ∈ L, attrOf name p.1 ≠ some a) → l'.attrs a = l.attrs a) ∧
      (∀ p ∈ L, ∀ a, attrOf name p.1 = some a → l'.attrs a = some p.2) ∧
      ((∃ p ∈ L, p.1 = name ++ "_ensemble.txt".toList) → l'.ensemble = some e) ∧
      ((∀ p ∈ L, p.1 ≠ name ++ "_ensemble.txt".toList) → l'.ensemble = l.ensemble) := by
  intro L
  induction L with
  | nil => intro l _ _; exact ⟨l, rfl, by simp, by simp, by simp, by simp⟩
  | cons p L ih =>
    intro l he hc
    obtain ⟨f, v⟩ := p
    obtain ⟨l1, h1, ha, hens⟩ : ∃ l1, l.step name f v = .ok l1 ∧ l1.attrs = attrsAfter l.attrs (attrOf name f) v ∧
        l1.ensemble = if f = name ++ "_ensemble.txt".toList then some e else l.ensemble := by
      by_cases hf : f = name ++ "_ensemble.txt".toList
      · obtain ⟨t, ht, hr⟩ := he (f, v) (by simp) hf
        simp only at ht
        subst ht
        subst hf
        exact ⟨_, step_ensemble name l t e hr, rfl, by rw [if_pos rfl]⟩
      · exact ⟨_, step_plain name l f v hf, rfl, by rw [if_neg hf]⟩
    obtain ⟨l', h2, i1, i2, i3, i4⟩ := ih l1 (fun p hp => he p (by simp [hp]))
      (fun p hp q hq => hc p (by simp [hp]) q (by simp [hq]))
    refine ⟨l', ?_, ?_, ?_, ?_, ?_⟩
    · unfold Loaded.loop
      rw [h1]
      exact h2
    · intro a h
      rw [i1 a (fun p hp => h p (by simp [hp])), ha]
      have := h (f, v) (by simp)
      cases hn : attrOf name f with
      | none => rfl
      | some n =>
        have hne : a ≠ n := by
          rintro rfl
          exact this hn
        simp [attrsAfter, hne]
    · intro p hp a hpa
      by_cases hex : ∃ q ∈ L, attrOf name q.1 = some a
      · obtain ⟨q, hq, hqa⟩ := hex
        rw [i2 q hq a hqa, hc p hp q (by simp [hq]) a hpa hqa]
      · rw [i1 a (fun q hq h => hex ⟨q, hq, h⟩), ha]
        rcases List.mem_cons.1 hp with rfl | hp
        · simp only at hpa ⊢
          rw [hpa]
          simp [attrsAfter]
        · exact absurd ⟨p, hp, hpa⟩ hex
    · rintro ⟨p, hp, hpe⟩
      by_cases hex : ∃ q ∈ L, q.1 = name ++ "_ensemble.txt".toList
      · exact i3 hex
      · rw [i4 (fun q hq h => hex ⟨q, hq, h⟩), hens]
        rcases List.mem_cons.1 hp with rfl | hp
        · rw [if_pos hpe]
        · exact absurd ⟨p, hp, hpe⟩ hex
    · intro h
      rw [i4 (fun q hq => h q (by simp [hq])), hens, if_neg (h (f, v) (by simp))]

/-! ### The written files -/

theorem noPattern_of_decide (kind r : Str) (h : ∀ j < r.length, tailPattern kind (r.drop j) = false) : NoPattern kind r := by
  intro j
  by_cases hj : j < r.length
  · exact h j hj
  · rw [List.drop_eq_nil_of_le (by omega)]
    by_contra hp
    have := (tailPattern_prefix (Bool.eq_true_of_not_eq_false hp)).2
    simp at this

theorem attrOf_ensemble (name : Str) : attrOf name (name ++ "_ensemble.txt".toList) = none := by
  unfold attrOf
  rw [search_none name _ _ (noPattern_of_decide _ _ (by decide)), search_none name _ _ (noPattern_of_decide _ _ (by decide))]

theorem attrOf_features (name : Str) : attrOf name (name ++ "_features.pkl".toList) = some ['X'] := by
  unfold attrOf
  rw [search_here name _ "_features.pkl".toList [] (afterName_file "features".toList)]
  rfl

theorem attrOf_annotations (name : Str) : attrOf name (name ++ "_annotations.pkl".toList) = some ['y'] := by
  unfold attrOf
  rw [search_none name _ _ (noPattern_of_decide _ _ (by decide)),
    search_here name _ "_annotations.pkl".toList [] (afterName_file "annotations".toList)]
  rfl

theorem attrOf_split_features (name k : Str) (hk : GoodSplit k) :
    attrOf name (name ++ '-' :: k ++ "_features.pkl".toList) = some (k ++ "_X".toList) := by
  unfold attrOf
  rw [List.append_assoc, search_here name _ ('-' :: k ++ "_features.pkl".toList) k (by
    have := afterName_split "features".toList k hk.line
    rw [List.append_assoc] at this
    exact this)]
  simp only [if_neg hk.ne]

theorem attrOf_split_annotations (name k : Str) (hk : GoodSplit k) :
    attrOf name (name ++ '-' :: k ++ "_annotations.pkl".toList) = some (k ++ "_y".toList) := by
  unfold attrOf
  rw [List.append_assoc, search_none name _ ('-' :: k ++ "_annotations.pkl".toList) (noPattern_split k hk.free),
    search_here name _ ('-' :: k ++ "_annotations.pkl".toList) k (by
      have := afterName_split "annotations".toList k hk.line
      rw [List.append_assoc] at this
      exact this)]
  simp only [if_neg hk.ne]

/-- A written file is one of these. -/
theorem mem_write (c : Creator K) (ps ts : List Str) (mixed : Bool) (h : c.hasFeatures = true) (p : Str × Content K) :
    p ∈ c.write ps ts mixed ↔
      p = (c.name ++ "_ensemble.txt".toList, .text (ensembleText ps ts mixed)) ∨
      p = (c.name ++ "_features.pkl".toList, .rows (c.features.map Prod.snd)) ∨
      (c.annotations ≠ [] ∧ p = (c.name ++ "_annotations.pkl".toList, .labels (c.annotations.map Prod.snd))) ∨
      ∃ k v, (k, v) ∈ c.splits ∧ (c.split v [] []).1 ≠ [] ∧
        (p = (c.name ++ '-' :: k ++ "_features.pkl".toList, .rows (c.split v [] []).1) ∨
          ((c.split v [] []).2 ≠ [] ∧
            p = (c.name ++ '-' :: k ++ "_annotations.pkl".toList, .labels (c.split v [] []).2))) := by
  have hw : ∀ k v, p ∈ c.writeSplit k v ↔ (c.split v [] []).1 ≠ [] ∧
        (p = (c.name ++ '-' :: k ++ "_features.pkl".toList, .rows (c.split v [] []).1) ∨
          ((c.split v [] []).2 ≠ [] ∧
            p = (c.name ++ '-' :: k ++ "_annotations.pkl".toList, .labels (c.split v [] []).2))) := by
    intro k v
    unfold Creator.writeSplit
    simp only
    split
    · rename_i h0; simp [h0]
    · rename_i h0
      rw [List.mem_cons]
      split
      · rename_i h1; simp [h0, h1]
      · rename_i h1; rw [List.mem_singleton]; simp only [ne_eq, h0, not_false_eq_true, true_and, h1]
  unfold Creator.write
  rw [h]
  simp only [Bool.not_true, Bool.false_eq_true, if_false]
  rw [List.mem_cons, List.mem_cons, List.mem_append, List.mem_flatMap]
  have ha : p ∈ (if c.annotations = [] then []
      else [(c.name ++ "_annotations.pkl".toList, Content.labels (c.annotations.map Prod.snd))]) ↔
      (c.annotations ≠ [] ∧ p = (c.name ++ "_annotations.pkl".toList, .labels (c.annotations.map Prod.snd))) := by
    split
    · rename_i h0; simp [h0]
    · rename_i h0; rw [List.mem_singleton]; simp only [ne_eq, h0, not_false_eq_true, true_and]
  rw [ha]
  constructor
  · rintro (h | h | h | ⟨q, hq, hp⟩)
    · exact Or.inl h
    · exact Or.inr (Or.inl h)
    · exact Or.inr (Or.inr (Or.inl h))
    · exact Or.inr (Or.inr (Or.inr ⟨q.1, q.2, hq, (hw _ _).1 hp⟩))
  · rintro (h | h | h | ⟨k, v, hq, hp⟩)
    · exact Or.inl h
    · exact Or.inr (Or.inl h)
    · exact Or.inr (Or.inr (Or.inl h))
    · exact Or.inr (Or.inr (Or.inr ⟨(k, v), hq, (hw _ _).2 hp⟩))

theorem name_ne_of_length {a b : Str} (h : a.length ≠ b.length) : a ≠ b := fun e => h (congrArg _ e)

/-! ### C61 -/

/-- **C61.**  A data set written with good split names and loaded from a directory in which the files that start with
its name are just those written — in any order, beside any other files — comes back: `X` and `y` are the features and
labels written, `<k>_X` and `<k>_y` those of the split `k`, and there are no other attributes.  (The metadata `e` is the
subject of C62.) -/
theorem C61_round_trip (c : Creator K) (ps ts : List Str) (mixed : Bool) (hf : c.hasFeatures = true)
    (hs : (AMap.keys c.splits).Nodup) (hg : ∀ k ∈ AMap.keys c.splits, GoodSplit k) (e : Ensemble)
    (he : readEnsemble (ensembleText ps ts mixed) = .ok e) (dir : List (Str × Content K))
    (hdir : ∀ p, (p ∈ dir ∧ c.name <+: p.1) ↔ p ∈ c.write ps ts mixed) :
    ∃ l, loadDataset c.name dir = .ok l ∧ l.ensemble = some e ∧
      ∀ a v, l.attrs a = some v ↔
        (a = "X".toList ∧ (c.name ++ "_features.pkl".toList, v) ∈ c.write ps ts mixed) ∨
        (a = "y".toList ∧ (c.name ++ "_annotations.pkl".toList, v) ∈ c.write ps ts mixed) ∨
        ∃ k ∈ AMap.keys c.splits,
          (a = k ++ "_X".toList ∧ (c.name ++ '-' :: k ++ "_features.pkl".toList, v) ∈ c.write ps ts mixed) ∨
          (a = k ++ "_y".toList ∧ (c.name ++ '-' :: k ++ "_annotations.pkl".toList, v) ∈ c.write ps ts mixed) := by
  have hmem : ∀ p, p ∈ dir.filter (fun p => c.name.isPrefixOf p.1) ↔ p ∈ c.write ps ts mixed := by
    intro p
    rw [List.mem_filter, ← hdir, List.isPrefixOf_iff_prefix]
  -- the attribute of every written file
  have hattr : ∀ p ∈ c.write ps ts mixed, ∀ a, attrOf c.name p.1 = some a →
      (a = "X".toList ∧ p = (c.name ++ "_features.pkl".toList, .rows (c.features.map Prod.snd))) ∨
      (a = "y".toList ∧ p = (c.name ++ "_annotations.pkl".toList, .labels (c.annotations.map Prod.snd))) ∨
      ∃ k v, (k, v) ∈ c.splits ∧ GoodSplit k ∧
        ((a = k ++ "_X".toList ∧ p = (c.name ++ '-' :: k ++ "_features.pkl".toList, .rows (c.split v [] []).1)) ∨
         (a = k ++ "_y".toList ∧ p = (c.name ++ '-' :: k ++ "_annotations.pkl".toList, .labels (c.split v [] []).2))) := by
    intro p hp a ha
    rcases (mem_write c ps ts mixed hf p).1 hp with rfl | rfl | ⟨_, rfl⟩ | ⟨k, v, hkv, _, rfl | ⟨_, rfl⟩⟩
    · rw [attrOf_ensemble] at ha; cases ha
    · rw [attrOf_features] at ha
      cases ha
      exact Or.inl ⟨rfl, rfl⟩
    · rw [attrOf_annotations] at ha
      cases ha
      exact Or.inr (Or.inl ⟨rfl, rfl⟩)
    · have hk := hg k (List.mem_map.2 ⟨_, hkv, rfl⟩)
      rw [attrOf_split_features _ _ hk] at ha
      cases ha
      exact Or.inr (Or.inr ⟨k, v, hkv, hk, Or.inl ⟨rfl, rfl⟩⟩)
    · have hk := hg k (List.mem_map.2 ⟨_, hkv, rfl⟩)
      rw [attrOf_split_annotations _ _ hk] at ha
      cases ha
      exact Or.inr (Or.inr ⟨k, v, hkv, hk, Or.inr ⟨rfl, rfl⟩⟩)
  have aux : ∀ (p : Str × Content K) (f : Str), p.1 = f → p ∈ c.write ps ts mixed → (f, p.2) ∈ c.write ps ts mixed := by
    rintro p f rfl h
    exact h
  have e3 : "_X".toList = ['_', 'X'] := by decide
  have e4 : "_y".toList = ['_', 'y'] := by decide
  have hXy : ∀ k k' : Str, k ++ "_X".toList ≠ k' ++ "_y".toList := by
    intro k k' h
    have := congrArg List.getLast? h
    rw [e3, e4] at this
    simp at this
  have hlen : ∀ (k s : Str), s.length = 1 → k ++ "_X".toList ≠ s ∧ k ++ "_y".toList ≠ s := by
    intro k s h
    constructor
    · intro e
      have := congrArg List.length e
      rw [List.length_append, h, e3] at this
      simp at this
    · intro e
      have := congrArg List.length e
      rw [List.length_append, h, e4] at this
      simp at this
  have huniq : ∀ k v v', (k, v) ∈ c.splits → (k, v') ∈ c.splits → v = v' := by
    intro k v v' h h'
    have h1 := AMap.get?_eq_some_of_mem _ hs h
    have h2 := AMap.get?_eq_some_of_mem _ hs h'
    rw [h1] at h2
    exact Option.some.inj h2
  obtain ⟨l, hl, i1, i2, i3, _⟩ := loop_spec c.name e (dir.filter (fun p => c.name.isPrefixOf p.1)) ⟨none, fun _ => none⟩
    (by
      intro p hp hpe
      rw [hmem] at hp
      rcases (mem_write c ps ts mixed hf p).1 hp with rfl | rfl | ⟨_, rfl⟩ | ⟨k, v, hkv, _, rfl | ⟨_, rfl⟩⟩
      · exact ⟨_, rfl, he⟩
      · exact absurd (congrArg (attrOf c.name) hpe) (by rw [attrOf_ensemble, attrOf_features]; simp)
      · exact absurd (congrArg (attrOf c.name) hpe) (by rw [attrOf_ensemble, attrOf_annotations]; simp)
      · exact absurd (congrArg (attrOf c.name) hpe) (by
          rw [attrOf_ensemble, attrOf_split_features _ _ (hg k (List.mem_map.2 ⟨_, hkv, rfl⟩))]; simp)
      · exact absurd (congrArg (attrOf c.name) hpe) (by
          rw [attrOf_ensemble, attrOf_split_annotations _ _ (hg k (List.mem_map.2 ⟨_, hkv, rfl⟩))]; simp))
    (by
      intro p hp q hq a hpa hqa
      rw [hmem] at hp hq
      rcases hattr p hp a hpa with ⟨rfl, rfl⟩ | ⟨rfl, rfl⟩ | ⟨k, v, hkv, hk, ⟨rfl, rfl⟩ | ⟨rfl, rfl⟩⟩
      · rcases hattr q hq _ hqa with ⟨h, rfl⟩ | ⟨h, rfl⟩ | ⟨k', v', hkv', hk', ⟨h, rfl⟩ | ⟨h, rfl⟩⟩
        · rfl
        · exact absurd h (by decide)
        · exact absurd h.symm (hlen k' _ (by decide)).1
        · exact absurd h.symm (hlen k' _ (by decide)).2
      · rcases hattr q hq _ hqa with ⟨h, rfl⟩ | ⟨h, rfl⟩ | ⟨k', v', hkv', hk', ⟨h, rfl⟩ | ⟨h, rfl⟩⟩
        · exact absurd h (by decide)
        · rfl
        · exact absurd h.symm (hlen k' _ (by decide)).1
        · exact absurd h.symm (hlen k' _ (by decide)).2
      · rcases hattr q hq _ hqa with ⟨h, rfl⟩ | ⟨h, rfl⟩ | ⟨k', v', hkv', hk', ⟨h, rfl⟩ | ⟨h, rfl⟩⟩
        · exact absurd h (hlen k _ (by decide)).1
        · exact absurd h (hlen k _ (by decide)).1
        · have := List.append_cancel_right h
          subst this
          rw [huniq k v v' hkv hkv']
        · exact absurd h (hXy _ _)
      · rcases hattr q hq _ hqa with ⟨h, rfl⟩ | ⟨h, rfl⟩ | ⟨k', v', hkv', hk', ⟨h, rfl⟩ | ⟨h, rfl⟩⟩
        · exact absurd h (hlen k _ (by decide)).2
        · exact absurd h (hlen k _ (by decide)).2
        · exact absurd h.symm (hXy _ _)
        · have := List.append_cancel_right h
          subst this
          rw [huniq k v v' hkv hkv'])
  refine ⟨l, hl, i3 ⟨(c.name ++ "_ensemble.txt".toList, .text (ensembleText ps ts mixed)), ?_, rfl⟩, ?_⟩
  · rw [hmem]
    exact (mem_write c ps ts mixed hf _).2 (Or.inl rfl)
  · intro a v
    constructor
    · intro h
      by_cases hex : ∃ p ∈ dir.filter (fun p => c.name.isPrefixOf p.1), attrOf c.name p.1 = some a
      · obtain ⟨p, hp, hpa⟩ := hex
        have hv := i2 p hp a hpa
        rw [h] at hv
        have hv := Option.some.inj hv
        subst hv
        rw [hmem] at hp
        rcases hattr p hp a hpa with ⟨ha, he⟩ | ⟨ha, he⟩ | ⟨k, v, hkv, hk, ⟨ha, he⟩ | ⟨ha, he⟩⟩
        · exact Or.inl ⟨ha, aux p _ (congrArg Prod.fst he) hp⟩
        · exact Or.inr (Or.inl ⟨ha, aux p _ (congrArg Prod.fst he) hp⟩)
        · exact Or.inr (Or.inr ⟨k, List.mem_map.2 ⟨_, hkv, rfl⟩, Or.inl ⟨ha, aux p _ (congrArg Prod.fst he) hp⟩⟩)
        · exact Or.inr (Or.inr ⟨k, List.mem_map.2 ⟨_, hkv, rfl⟩, Or.inr ⟨ha, aux p _ (congrArg Prod.fst he) hp⟩⟩)
      · rw [i1 a (fun p hp h => hex ⟨p, hp, h⟩)] at h
        cases h
    · rintro (⟨rfl, h⟩ | ⟨rfl, h⟩ | ⟨k, hk, ⟨rfl, h⟩ | ⟨rfl, h⟩⟩)
      · exact i2 _ ((hmem _).2 h) _ (attrOf_features _)
      · exact i2 _ ((hmem _).2 h) _ (attrOf_annotations _)
      · exact i2 _ ((hmem _).2 h) _ (attrOf_split_features _ _ (hg k hk))
      · exact i2 _ ((hmem _).2 h) _ (attrOf_split_annotations _ _ (hg k hk))

/-- **C61 violated, one file for two data sets.**  Split `b` of data set `a` and data set `a-b` are stored under the same
names, so that the one written last replaces the other. -/
theorem C61_collision_violated (a b : Str) (c c' : Creator K) (hc : c.name = a) (hc' : c'.name = a ++ '-' :: b)
    (hf : c'.hasFeatures = true) (v : List Str) (hv : (c.split v [] []).1 ≠ []) :
    ∃ (f : Str) (x x' : List (List K)), (f, Content.rows x) ∈ c.writeSplit b v ∧ (f, Content.rows x') ∈ c'.write [] [] false := by
  refine ⟨a ++ '-' :: b ++ "_features.pkl".toList, (c.split v [] []).1, c'.features.map Prod.snd, ?_, ?_⟩
  · unfold Creator.writeSplit
    simp only [if_neg hv]
    rw [hc]
    exact List.mem_cons_self ..
  · rw [mem_write c' [] [] false hf, hc']
    exact Or.inr (Or.inl rfl)

/-- **C61 violated, back-up copies.**  The pattern is not tied to the end of the name: an old copy
`d_features.pkl.bak` listed after the file itself is what `X` becomes. -/
theorem C61_backup_violated (x old : Content K) :
    ∃ l, loadDataset "d".toList [("d_features.pkl".toList, x), ("d_features.pkl.bak".toList, old)] = .ok l ∧
      l.attrs "X".toList = some old := by
  have h1 : attrOf "d".toList "d_features.pkl".toList = some "X".toList := by decide +kernel
  have h2 : attrOf "d".toList "d_features.pkl.bak".toList = some "X".toList := by decide +kernel
  have n1 : "d_features.pkl".toList ≠ "d".toList ++ "_ensemble.txt".toList := by decide
  have n2 : "d_features.pkl.bak".toList ≠ "d".toList ++ "_ensemble.txt".toList := by decide
  refine ⟨⟨none, attrsAfter (attrsAfter (fun _ => none) (some "X".toList) x) (some "X".toList) old⟩, ?_, ?_⟩
  · change Loaded.loop "d".toList ⟨none, fun _ => none⟩ [("d_features.pkl".toList, x), ("d_features.pkl.bak".toList, old)] = _
    unfold Loaded.loop
    rw [step_plain _ _ _ _ n1, h1]
    simp only [PyRes.bind_ok]
    unfold Loaded.loop
    rw [step_plain _ _ _ _ n2, h2]
    rfl
  · simp [attrsAfter]

/-- **C61 violated, other data sets.**  Data set `a` takes in the files of data set `ab`, as a split `b`. -/
theorem C61_prefix_violated (x : Content K) :
    ∃ l, loadDataset "a".toList [("ab_features.pkl".toList, x)] = .ok l ∧ l.attrs "b_X".toList = some x := by
  have h1 : attrOf "a".toList "ab_features.pkl".toList = some "b_X".toList := by decide +kernel
  have n1 : "ab_features.pkl".toList ≠ "a".toList ++ "_ensemble.txt".toList := by decide
  refine ⟨⟨none, attrsAfter (fun _ => none) (some "b_X".toList) x⟩, ?_, ?_⟩
  · change Loaded.loop "a".toList ⟨none, fun _ => none⟩ [("ab_features.pkl".toList, x)] = _
    unfold Loaded.loop
    rw [step_plain _ _ _ _ n1, h1]
    rfl
  · simp [attrsAfter]

/-- **C61 violated, split without a name.**  The split read from a file `.txt` has the empty name; its features take the
place of `X`. -/
theorem C61_empty_split_violated (x part : Content K) :
    ∃ l, loadDataset "d".toList [("d_features.pkl".toList, x), ("d-_features.pkl".toList, part)] = .ok l ∧
      l.attrs "X".toList = some part := by
  have h1 : attrOf "d".toList "d_features.pkl".toList = some "X".toList := by decide +kernel
  have h2 : attrOf "d".toList "d-_features.pkl".toList = some "X".toList := by decide +kernel
  have n1 : "d_features.pkl".toList ≠ "d".toList ++ "_ensemble.txt".toList := by decide
  have n2 : "d-_features.pkl".toList ≠ "d".toList ++ "_ensemble.txt".toList := by decide
  refine ⟨⟨none, attrsAfter (attrsAfter (fun _ => none) (some "X".toList) x) (some "X".toList) part⟩, ?_, ?_⟩
  · change Loaded.loop "d".toList ⟨none, fun _ => none⟩ [("d_features.pkl".toList, x), ("d-_features.pkl".toList, part)] = _
    unfold Loaded.loop
    rw [step_plain _ _ _ _ n1, h1]
    simp only [PyRes.bind_ok]
    unfold Loaded.loop
    rw [step_plain _ _ _ _ n2, h2]
    rfl
  · simp [attrsAfter]

/-! ### C62: the metadata -/

/-- A name that survives: no comma, no line break, no blank at either end. -/
structure GoodName (n : Str) : Prop where
  comma : ',' ∉ n
  line : '\n' ∉ n
  cr : '\r' ∉ n
  first : ∀ c, n.head? = some c → isSpace c = false
  last : ∀ c, n.getLast? = some c → isSpace c = false

theorem dropWhile_all (p : Str) (r : Str) (h : ∀ c ∈ p, isSpace c = true) : (p ++ r).dropWhile isSpace = r.dropWhile isSpace := by
  induction p with
  | nil => rfl
  | cons c p ih =>
    rw [List.cons_append, List.dropWhile_cons, if_pos (h c (by simp))]
    exact ih (fun c hc => h c (by simp [hc]))

theorem dropWhile_first (r : Str) (h : ∀ c, r.head? = some c → isSpace c = false) : r.dropWhile isSpace = r := by
  cases r with
  | nil => rfl
  | cons c r => rw [List.dropWhile_cons, if_neg (by rw [h c rfl]; simp)]

theorem strip_pad (p n q : Str) (hp : ∀ c ∈ p, isSpace c = true) (hq : ∀ c ∈ q, isSpace c = true)
    (h1 : ∀ c, n.head? = some c → isSpace c = false) (h2 : ∀ c, n.getLast? = some c → isSpace c = false) :
    strip (p ++ n ++ q) = n := by
  unfold strip
  rw [List.append_assoc, dropWhile_all _ _ hp]
  cases hn : n with
  | nil =>
    have : q.dropWhile isSpace = [] := by
      have := dropWhile_all q [] hq
      simpa using this
    simp [this]
  | cons c m =>
    rw [← hn, dropWhile_first (n ++ q) (by
      intro d hd
      apply h1 d
      rw [hn] at hd ⊢
      exact hd), List.reverse_append, dropWhile_all _ _ (by intro d hd; exact hq d (by simpa using hd)),
      dropWhile_first _ (by intro d hd; rw [List.head?_reverse] at hd; exact h2 d hd), List.reverse_reverse]

theorem splitOn_go_last (c : Char) : ∀ (a cur : Str), c ∉ a → splitOn.go c a cur = [cur.reverse ++ a] := by
  intro a
  induction a with
  | nil => intro cur _; simp [splitOn.go]
  | cons d a ih =>
    intro cur h
    simp only [List.mem_cons, not_or] at h
    rw [splitOn.go, if_neg (Ne.symm h.1), ih _ h.2]
    simp

theorem splitOn_go_cons (c : Char) : ∀ (a cur rest : Str), c ∉ a →
    splitOn.go c (a ++ c :: rest) cur = (cur.reverse ++ a) :: splitOn.go c rest [] := by
  intro a
  induction a with
  | nil => intro cur rest _; simp [splitOn.go]
  | cons d a ih =>
    intro cur rest h
    simp only [List.mem_cons, not_or] at h
    rw [List.cons_append, splitOn.go, if_neg (Ne.symm h.1), ih _ _ h.2]
    simp

theorem split_joined (l : List Str) (hl : l ≠ []) (hg : ∀ n ∈ l, GoodName n) :
    ∀ p : Str, (∀ c ∈ p, isSpace c = true) → ',' ∉ p →
      (splitOn ',' (p ++ joinComma l ++ ['\n'])).map strip = l := by
  have hnl : ∀ c ∈ ['\n'], isSpace c = true := by decide
  induction l with
  | nil => exact absurd rfl hl
  | cons n l ih =>
    intro p hp hpc
    have hn := hg n (by simp)
    cases l with
    | nil =>
      have hc : ',' ∉ p ++ n ++ ['\n'] := by
        simp only [List.mem_append, not_or]
        exact ⟨⟨hpc, hn.comma⟩, by decide⟩
      unfold splitOn
      rw [joinComma, splitOn_go_last ',' _ [] hc]
      simp only [List.reverse_nil, List.nil_append, List.map_cons, List.map_nil]
      rw [strip_pad p n ['\n'] hp hnl hn.first hn.last]
    | cons m l =>
      have hc : ',' ∉ p ++ n := by
        simp only [List.mem_append, not_or]
        exact ⟨hpc, hn.comma⟩
      have hj : p ++ joinComma (n :: m :: l) ++ ['\n'] = (p ++ n) ++ ',' :: ([' '] ++ joinComma (m :: l) ++ ['\n']) := by
        simp [joinComma]
      have ih := ih (by simp) (fun n hn => hg n (by simp only [List.mem_cons] at hn ⊢; exact Or.inr hn)) [' '] (by decide) (by decide)
      unfold splitOn at ih ⊢
      rw [hj, splitOn_go_cons ',' _ [] _ hc, List.map_cons, ih]
      have := strip_pad p n [] hp (by simp) hn.first hn.last
      rw [List.append_nil] at this
      rw [List.reverse_nil, List.nil_append, this]

theorem readlines_go_line : ∀ (a cur rest : Str), '\n' ∉ a →
    readlines.go (a ++ '\n' :: rest) cur = (cur.reverse ++ a ++ ['\n']) :: readlines.go rest [] := by
  intro a
  induction a with
  | nil => intro cur rest _; simp [readlines.go]
  | cons d a ih =>
    intro cur rest h
    simp only [List.mem_cons, not_or] at h
    rw [List.cons_append, readlines.go, if_neg (Ne.symm h.1), ih _ _ h.2]
    simp

theorem joinComma_line (l : List Str) (hg : ∀ n ∈ l, '\n' ∉ n) : '\n' ∉ joinComma l := by
  induction l with
  | nil => simp [joinComma]
  | cons n l ih =>
    cases l with
    | nil => simpa [joinComma] using hg n (by simp)
    | cons m l =>
      have := ih (fun n hn => hg n (by simp only [List.mem_cons] at hn ⊢; exact Or.inr hn))
      simp only [joinComma, List.mem_append, List.mem_cons, not_or]
      exact ⟨hg n (by simp), by decide, by decide, by simpa [joinComma] using this⟩

theorem readlines_text (ps ts : List Str) (mixed : Bool) (hp : ∀ n ∈ ps, '\n' ∉ n) (ht : ∀ n ∈ ts, '\n' ∉ n) :
    readlines (ensembleText ps ts mixed) =
      [joinComma ps ++ ['\n'], joinComma ts ++ ['\n'], "mixed_profiles=".toList ++ showBool mixed ++ ['\n']] := by
  have hm : '\n' ∉ "mixed_profiles=".toList ++ showBool mixed := by cases mixed <;> decide
  unfold readlines ensembleText
  have e : joinComma ps ++ ['\n'] ++ (joinComma ts ++ ['\n']) ++ ("mixed_profiles=".toList ++ showBool mixed ++ ['\n']) =
      joinComma ps ++ '\n' :: (joinComma ts ++ '\n' :: (("mixed_profiles=".toList ++ showBool mixed) ++ '\n' :: [])) := by
    simp only [List.append_assoc, List.cons_append, List.nil_append]
  rw [e, readlines_go_line _ _ _ (joinComma_line ps hp), readlines_go_line _ _ _ (joinComma_line ts ht),
    readlines_go_line _ _ _ hm]
  rfl

theorem read_text (ps ts : List Str) (mixed : Bool) (hp : ∀ n ∈ ps, '\n' ∉ n) (ht : ∀ n ∈ ts, '\n' ∉ n) :
    readEnsemble (ensembleText ps ts mixed) = .ok
      ⟨(splitOn ',' (joinComma ps ++ ['\n'])).map strip, (splitOn ',' (joinComma ts ++ ['\n'])).map strip, false⟩ := by
  unfold readEnsemble
  rw [readlines_text ps ts mixed hp ht]
  have h : splitOn '=' ("mixed_profiles=".toList ++ showBool mixed ++ ['\n']) =
      ["mixed_profiles".toList, showBool mixed ++ ['\n']] := by cases mixed <;> decide +kernel
  simp only [h]
  have : decide (showBool mixed ++ ['\n'] = "True".toList) = false := by cases mixed <;> decide
  rw [this]

/-- **C62.**  The names of the key profiles and transitions of the ensemble are read back as written, in order, when
there is at least one of each and no name has a comma, a line break, or blanks at its ends — as the names of the tables
all are.  Without mixed profiles the metadata is read back as a whole. -/
theorem C62_round_trip (ps ts : List Str) (hps : ps ≠ []) (hts : ts ≠ []) (hp : ∀ n ∈ ps, GoodName n)
    (ht : ∀ n ∈ ts, GoodName n) : readEnsemble (ensembleText ps ts false) = .ok ⟨ps, ts, false⟩ := by
  rw [read_text ps ts false (fun n hn => (hp n hn).line) (fun n hn => (ht n hn).line)]
  have h1 := split_joined ps hps hp [] (by simp) (by simp)
  have h2 := split_joined ts hts ht [] (by simp) (by simp)
  rw [List.nil_append] at h1 h2
  rw [h1, h2]

/-- Different metadata without mixed profiles stay different. -/
theorem C62_injective (ps ts ps' ts' : List Str) (hps : ps ≠ []) (hts : ts ≠ []) (hps' : ps' ≠ []) (hts' : ts' ≠ [])
    (hp : ∀ n ∈ ps ++ ps', GoodName n) (ht : ∀ n ∈ ts ++ ts', GoodName n)
    (h : ensembleText ps ts false = ensembleText ps' ts' false) : ps = ps' ∧ ts = ts' := by
  have h1 := C62_round_trip ps ts hps hts (fun n hn => hp n (by simp [hn])) (fun n hn => ht n (by simp [hn]))
  have h2 := C62_round_trip ps' ts' hps' hts' (fun n hn => hp n (by simp [hn])) (fun n hn => ht n (by simp [hn]))
  rw [h, h2] at h1
  cases h1
  exact ⟨rfl, rfl⟩

/-- **C62 violated, mixed profiles.**  The flag is compared with its line break still attached: data written with mixed
profiles are always read as written without them, so that the two cannot be told apart afterwards. -/
theorem C62_mixed_violated (ps ts : List Str) (hps : ps ≠ []) (hts : ts ≠ []) (hp : ∀ n ∈ ps, GoodName n)
    (ht : ∀ n ∈ ts, GoodName n) :
    readEnsemble (ensembleText ps ts true) = .ok ⟨ps, ts, false⟩ ∧
      readEnsemble (ensembleText ps ts true) = readEnsemble (ensembleText ps ts false) := by
  have h := C62_round_trip ps ts hps hts hp ht
  rw [h]
  rw [read_text ps ts false (fun n hn => (hp n hn).line) (fun n hn => (ht n hn).line)] at h
  rw [read_text ps ts true (fun n hn => (hp n hn).line) (fun n hn => (ht n hn).line)]
  exact ⟨h, h⟩

/-- **C62 violated, empty list.**  No profiles at all come back as one with the empty name. -/
theorem C62_empty_violated (ts : List Str) (hts : ts ≠ []) (ht : ∀ n ∈ ts, GoodName n) :
    readEnsemble (ensembleText [] ts false) = .ok ⟨[[]], ts, false⟩ := by
  rw [read_text [] ts false (by simp) (fun n hn => (ht n hn).line)]
  have h2 := split_joined ts hts ht [] (by simp) (by simp)
  rw [List.nil_append] at h2
  rw [h2]
  have h1 : (splitOn ',' (joinComma [] ++ ['\n'])).map strip = [[]] := by decide +kernel
  rw [h1]

/-! ### Concrete cases -/

/-- C62: names of the tables in this program are good. -/
example : GoodName "krumhansl_kessler".toList ∧ GoodName "exponential10".toList :=
  ⟨⟨by decide, by decide, by decide, by decide, by decide⟩, ⟨by decide, by decide, by decide, by decide, by decide⟩⟩

example : readEnsemble "temperley, sapp\nexponential10\nmixed_profiles=True\n".toList =
    .ok ⟨["temperley".toList, "sapp".toList], ["exponential10".toList], false⟩ := by decide +kernel

/-- C61: a good split name. -/
example : GoodSplit "Train-1".toList := ⟨by decide, by decide, by
  rintro ⟨a, b, h⟩
  have := congrArg List.length h
  have h7 : (lower "Train-1".toList).length = 7 := by decide
  have h9 : "_features".toList.length = 9 := by decide
  rw [h7, List.length_append, List.length_append, h9] at this
  omega⟩

/-- C61: a directory in another order with a stranger in it. -/
def sampleDir : List (Str × Content Nat) :=
  [("d-s_annotations.pkl".toList, .labels [3]), ("other.txt".toList, .text []), ("d_features.pkl".toList, .rows [[5], [6]]),
   ("d_ensemble.txt".toList, .text "x\ny\nmixed_profiles=False\n".toList), ("d-s_features.pkl".toList, .rows [[6]]),
   ("d_annotations.pkl".toList, .labels [2, 3])]

def sampleCreator : Creator Nat :=
  ⟨"d".toList, [], none, [("s".toList, ["q".toList])], [("p".toList, [5]), ("q".toList, [6])], [("p".toList, 2), ("q".toList, 3)], true⟩

example : ∀ p, (p ∈ sampleDir ∧ sampleCreator.name <+: p.1) ↔ p ∈ sampleCreator.write ["x".toList] ["y".toList] false := by
  have h1 : ∀ p ∈ sampleDir, sampleCreator.name <+: p.1 → p ∈ sampleCreator.write ["x".toList] ["y".toList] false := by
    decide +kernel
  have h2 : ∀ p ∈ sampleCreator.write ["x".toList] ["y".toList] false, p ∈ sampleDir ∧ sampleCreator.name <+: p.1 := by
    decide +kernel
  exact fun p => ⟨fun h => h1 p h.1 h.2, h2 p⟩

end JKD.Py
