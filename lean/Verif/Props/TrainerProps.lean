import Verif.Model.PyTrainer
import Verif.Props.ScalingPyProps
import Verif.Props.LoaderProps
/-
C105: what the classifier is trained on.
-/

namespace JKD.Py

open Spec

variable {K : Type}

/-! ### Specification -/

/-- A data set as the loader gives it: metadata, features and labels. -/
structure Stored (K : Type) where
  ensemble : Ensemble
  X : List (List K)
  y : List Int

/-- It is loaded with these attributes. -/
def Stored.Is (s : Stored K) (d : PyRes (Loaded K)) : Prop :=
  ∃ l, d = .ok l ∧ l.ensemble = some s.ensemble ∧ l.attrs ['X'] = some (.rows s.X) ∧ l.attrs ['y'] = some (.labels s.y)

/-- Usable for an ensemble of `n` members: one label per row, at least one row, rows of 24 scores per member, labels
are keys. -/
structure Stored.Ok (s : Stored K) (n : Nat) : Prop where
  rows : s.X ≠ []
  width : ∀ x ∈ s.X, x.length = 24 * n
  length : s.X.length = s.y.length
  keys : ∀ l ∈ s.y, IsKey l

/-- The labelled pieces of some data sets, in order. -/
def pieces (ss : List (Stored K)) : List (List K × Int) := ss.flatMap (fun s => s.X.zip s.y)

/-! ### Collecting -/

theorem headD_mem {α : Type} {l : List α} (h : l ≠ []) (d : α) : l.headD d ∈ l := by
  cases l with
  | nil => exact absurd rfl h
  | cons a l => simp

theorem collectMore_ok {n : Nat} (e : Ensemble) : ∀ (ss : List (Stored K)) (ds : List (PyRes (Loaded K)))
    (X : List (List K)) (y : List Int), List.Forall₂ Stored.Is ss ds → (∀ s ∈ ss, s.Ok n ∧ s.ensemble = e) → X ≠ [] →
    (∀ x ∈ X, x.length = 24 * n) →
    collectMore e X y ds = .ok (X ++ ss.flatMap Stored.X, y ++ ss.flatMap Stored.y) := by
  intro ss
  induction ss with
  | nil =>
    intro ds X y hf _ _ _
    cases hf
    simp [collectMore]
  | cons s ss ih =>
    intro ds X y hf hok hX hw
    cases hf with
    | cons h hf =>
      obtain ⟨l, rfl, h1, h2, h3⟩ := h
      obtain ⟨ho, he⟩ := hok s (by simp)
      have hc : concatRows X s.X = .ok (X ++ s.X) := by
        unfold concatRows
        rw [if_pos]
        refine ⟨⟨fun h => absurd h hX, fun h => absurd h ho.rows⟩, ?_⟩
        rw [hw _ (headD_mem hX _), ho.width _ (headD_mem ho.rows _)]
      unfold collectMore
      simp only [Loaded.getEnsemble, Loaded.getX, Loaded.getY, h1, h2, h3, PyRes.bind_ok, he, ne_eq, not_true_eq_false,
        if_false, hc]
      rw [ih _ (X ++ s.X) (y ++ s.y) hf (fun s hs => hok s (by simp [hs])) (by simp [hX]) (by
        intro x hx
        rcases List.mem_append.1 hx with hx | hx
        · exact hw x hx
        · exact ho.width x hx)]
      simp

theorem collect_ok {n : Nat} {e : Ensemble} {ss : List (Stored K)} {ds : List (PyRes (Loaded K))} (hne : ss ≠ [])
    (hf : List.Forall₂ Stored.Is ss ds) (hok : ∀ s ∈ ss, s.Ok n ∧ s.ensemble = e) :
    collect ds = .ok (ss.flatMap Stored.X, ss.flatMap Stored.y) := by
  cases hf with
  | nil => exact absurd rfl hne
  | @cons s d ss ds h hf =>
    obtain ⟨l, rfl, h1, h2, h3⟩ := h
    obtain ⟨ho, he⟩ := hok s (by simp)
    unfold collect
    simp only [Loaded.getEnsemble, Loaded.getX, Loaded.getY, h1, h2, h3, PyRes.bind_ok, he]
    rw [collectMore_ok e ss _ s.X s.y hf (fun s hs => hok s (by simp [hs])) ho.rows ho.width]
    simp

theorem pieces_get (ss : List (Stored K)) (h : ∀ s ∈ ss, s.X.length = s.y.length) :
    (ss.flatMap Stored.X).length = (ss.flatMap Stored.y).length ∧ (pieces ss).length = (ss.flatMap Stored.X).length ∧
    ∀ (m : Nat) (x : List K) (l : Int), (pieces ss)[m]? = some (x, l) → (ss.flatMap Stored.X)[m]? = some x ∧ (ss.flatMap Stored.y)[m]? = some l := by
  have hz : pieces ss = (ss.flatMap Stored.X).zip (ss.flatMap Stored.y) := by
    unfold pieces
    induction ss with
    | nil => rfl
    | cons s ss ih =>
      rw [List.flatMap_cons, List.flatMap_cons, List.flatMap_cons, ih (fun s hs => h s (by simp [hs])),
        List.zip_append (h s (by simp))]
  have hl : (ss.flatMap Stored.X).length = (ss.flatMap Stored.y).length := by
    clear hz
    induction ss with
    | nil => rfl
    | cons s ss ih =>
      rw [List.flatMap_cons, List.flatMap_cons, List.length_append, List.length_append,
        ih (fun s hs => h s (by simp [hs])), h s (by simp)]
  refine ⟨hl, by rw [hz, List.length_zip, hl, Nat.min_self], ?_⟩
  intro m x l hm
  rw [hz, List.getElem?_zip_eq_some] at hm
  exact hm

/-! ### C105 -/

section
variable [Field K] [LinearOrder K] [IsStrictOrderedRing K]

/-- Scaling a matrix is scaling its rows one by one. -/
theorem scaling_rowwise (tiny : K → Bool) (X : List (List K)) (hX : X ≠ []) (n : Nat) (hn : 0 < n)
    (hrow : ∀ x ∈ X, x.length = 24 * n) :
    ∃ X', featureScaling tiny X = .ok X' ∧ X'.length = X.length ∧ (∀ x ∈ X', x.length = 24 * n) ∧
      ∀ (i : Nat) (x : List K), X[i]? = some x → ∃ x', X'[i]? = some x' ∧ featureScaling tiny [x] = .ok [x'] := by
  obtain ⟨X', h1, h2, h3, h4⟩ := scaling_blocks tiny X hX n hn hrow
  refine ⟨X', h1, h2, h3, ?_⟩
  intro i x hx
  have hi : i < X.length := (List.getElem?_eq_some_iff.1 hx).1
  have hxl := hrow x (List.mem_of_getElem? hx)
  obtain ⟨Z, g1, g2, g3, g4⟩ := scaling_blocks tiny [x] (by simp) n hn (by simpa using hxl)
  obtain ⟨z, rfl⟩ := List.length_eq_one_iff.1 (by simpa using g2)
  have hx' : X'[i]? = some X'[i] := List.getElem?_eq_getElem (by omega)
  have hzl := g3 z (by simp)
  have hxl' := h3 _ (List.mem_of_getElem? hx')
  refine ⟨X'[i], hx', ?_⟩
  rw [g1]
  congr 2
  apply List.ext_getElem?
  intro k
  by_cases hk : k < 24 * n
  · have a := h4 i x _ hx hx' (k / 24) (by omega)
    have b := g4 0 x z rfl rfl (k / 24) (by omega)
    rw [← b] at a
    have := congrArg (fun l => l[k % 24]?) a
    simp only [block_get _ _ _ (Nat.mod_lt k (by decide : 0 < 24))] at this
    rw [Nat.div_add_mod] at this
    exact this.symm
  · rw [List.getElem?_eq_none (by omega), List.getElem?_eq_none (by omega)]

/-- **C105.**  Any number of data sets of the same ensemble: the classifier is fitted to twelve rows for every labelled
piece of every data set, in order, and to nothing else; row `t` of a piece is its features scaled as if they were alone
and moved up `t` semitones, and its label the piece's label moved up `t` semitones. -/
theorem C105_training_set (tiny : K → Bool) (n : Nat) (hn : 0 < n) (e : Ensemble) (ss : List (Stored K)) (hne : ss ≠ [])
    (ds : List (PyRes (Loaded K))) (hf : List.Forall₂ Stored.Is ss ds) (hok : ∀ s ∈ ss, s.Ok n ∧ s.ensemble = e) :
    ∃ X y, trainingSet tiny ds = .ok (X, y) ∧ X.length = 12 * (pieces ss).length ∧ y.length = 12 * (pieces ss).length ∧
      ∀ (m t : Nat) (x : List K) (l : Int), (pieces ss)[m]? = some (x, l) → t < 12 →
        y[12 * m + t]? = some (transposeKey t l) ∧
        ∃ x' x'', featureScaling tiny [x] = .ok [x'] ∧ X[12 * m + t]? = some x'' ∧ Moved t x' x'' := by
  obtain ⟨g1, g2, g3⟩ := pieces_get ss (fun s hs => (hok s hs).1.length)
  have hX : ss.flatMap Stored.X ≠ [] := by
    cases ss with
    | nil => exact absurd rfl hne
    | cons s ss =>
      have := (hok s (by simp)).1.rows
      simp [this]
  have hw : ∀ x ∈ ss.flatMap Stored.X, x.length = 24 * n := by
    intro x hx
    obtain ⟨s, hs, hx⟩ := List.mem_flatMap.1 hx
    exact (hok s hs).1.width x hx
  have hy : ∀ l ∈ ss.flatMap Stored.y, IsKey l := by
    intro l hl
    obtain ⟨s, hs, hl⟩ := List.mem_flatMap.1 hl
    exact (hok s hs).1.keys l hl
  obtain ⟨X', e1, e2, e3, e4⟩ := scaling_rowwise tiny _ hX n hn hw
  obtain ⟨X, y, a1, a2, a3, a4⟩ := C43_augmentation X' (ss.flatMap Stored.y) (by rw [e2, g1]) (2 * n)
    (fun x hx => by rw [e3 x hx]; omega) hy
  refine ⟨X, y, ?_, by rw [a2, e2, g2], by rw [a3, e2, g2], ?_⟩
  · unfold trainingSet
    rw [collect_ok hne hf hok]
    simp only [PyRes.bind_ok, e1]
    exact a1
  · intro m t x l hm ht
    obtain ⟨hx, hl⟩ := g3 m x l hm
    obtain ⟨x', hx', hs⟩ := e4 m x hx
    obtain ⟨b1, x'', b2, b3⟩ := a4 m t x' l hx' hl ht
    exact ⟨b1, x', x'', hs, b2, b3⟩

/-- **C105, tester.**  The tester scores the classifier on the pieces of one data set, each scaled as if alone - that
is, on row `t = 0` of what the trainer made of them - with their own labels. -/
theorem C105_test_set (tiny : K → Bool) (n : Nat) (hn : 0 < n) (s : Stored K) (d : PyRes (Loaded K)) (hd : s.Is d)
    (hok : s.Ok n) :
    ∃ X, testSet tiny d = .ok (X, s.y) ∧ X.length = s.y.length ∧
      ∀ (i : Nat) (x : List K), s.X[i]? = some x → ∃ x', X[i]? = some x' ∧ featureScaling tiny [x] = .ok [x'] := by
  obtain ⟨l, rfl, -, h2, h3⟩ := hd
  obtain ⟨X', e1, e2, -, e4⟩ := scaling_rowwise tiny s.X hok.rows n hn hok.width
  refine ⟨X', ?_, by rw [e2, hok.length], e4⟩
  unfold testSet
  simp only [Loaded.getX, Loaded.getY, h2, h3, PyRes.bind_ok, e1]
  rfl

omit [IsStrictOrderedRing K] in
/-- **C105, other ensembles.**  If the metadata of one of the data sets differ from those of the first, no classifier
is trained. -/
theorem C105_incompatible (tiny : K → Bool) (n : Nat) (ss : List (Stored K)) (s₀ : Stored K)
    (ds : List (PyRes (Loaded K))) (hf : List.Forall₂ Stored.Is (s₀ :: ss) ds) (hok : ∀ s ∈ s₀ :: ss, s.Ok n)
    (hdiff : ∃ s ∈ ss, s.ensemble ≠ s₀.ensemble) : trainingSet tiny ds = .raise "SystemExit" := by
  have key : ∀ (ss : List (Stored K)) (ds : List (PyRes (Loaded K))) (X : List (List K)) (y : List Int),
      List.Forall₂ Stored.Is ss ds → (∀ s ∈ ss, s.Ok n) → (∃ s ∈ ss, s.ensemble ≠ s₀.ensemble) → X ≠ [] →
      (∀ x ∈ X, x.length = 24 * n) → collectMore s₀.ensemble X y ds = .raise "SystemExit" := by
    intro ss
    induction ss with
    | nil => intro ds X y _ _ h; simp at h
    | cons s ss ih =>
      intro ds X y hf hok hdiff hX hw
      cases hf with
      | cons h hf =>
        obtain ⟨l, rfl, h1, h2, h3⟩ := h
        have ho := hok s (by simp)
        unfold collectMore
        by_cases he : s.ensemble = s₀.ensemble
        · have hc : concatRows X s.X = .ok (X ++ s.X) := by
            unfold concatRows
            rw [if_pos]
            refine ⟨⟨fun h => absurd h hX, fun h => absurd h ho.rows⟩, ?_⟩
            rw [hw _ (headD_mem hX _), ho.width _ (headD_mem ho.rows _)]
          simp only [Loaded.getEnsemble, Loaded.getX, Loaded.getY, h1, h2, h3, PyRes.bind_ok, he, ne_eq,
            not_true_eq_false, if_false, hc]
          refine ih _ (X ++ s.X) (y ++ s.y) hf (fun s hs => hok s (by simp [hs])) ?_ (by simp [hX]) ?_
          · obtain ⟨s', hs', hd⟩ := hdiff
            rcases List.mem_cons.1 hs' with rfl | hs'
            · exact absurd he hd
            · exact ⟨s', hs', hd⟩
          · intro x hx
            rcases List.mem_append.1 hx with hx | hx
            · exact hw x hx
            · exact ho.width x hx
        · simp only [Loaded.getEnsemble, h1, PyRes.bind_ok, ne_eq, he, not_false_eq_true, if_true]
  cases hf with
  | cons h hf =>
    obtain ⟨l, rfl, h1, h2, h3⟩ := h
    have ho := hok s₀ (by simp)
    unfold trainingSet collect
    simp only [Loaded.getEnsemble, Loaded.getX, Loaded.getY, h1, h2, h3, PyRes.bind_ok]
    rw [key ss _ s₀.X s₀.y hf (fun s hs => hok s (by simp [hs])) hdiff ho.rows ho.width]
    rfl

omit [IsStrictOrderedRing K] in
/-- **C105 violated, mixed profiles.**  Data sets made with and without mixed profiles have the same metadata after
loading (C62): the check for compatibility passes, and the trainer dies of the array sizes instead of printing its
message. -/
theorem C105_mixed_violated (tiny : K → Bool) (ps ts : List Str) (hps : ps ≠ []) (hts : ts ≠ [])
    (hp : ∀ m ∈ ps, GoodName m) (ht : ∀ m ∈ ts, GoodName m) (s s' : Stored K) (d d' : PyRes (Loaded K)) (hd : s.Is d)
    (hd' : s'.Is d') (n n' : Nat) (hok : s.Ok n) (hok' : s'.Ok n') (hnn : n ≠ n')
    (he : readEnsemble (ensembleText ps ts false) = .ok s.ensemble)
    (he' : readEnsemble (ensembleText ps ts true) = .ok s'.ensemble) :
    trainingSet tiny [d, d'] = .raise "ValueError" := by
  have hee : s'.ensemble = s.ensemble := by
    have := (C62_mixed_violated ps ts hps hts hp ht).2
    rw [he, he'] at this
    injection this
  obtain ⟨l, rfl, h1, h2, h3⟩ := hd
  obtain ⟨l', rfl, h1', h2', h3'⟩ := hd'
  have hc : concatRows s.X s'.X = .raise "ValueError" := by
    unfold concatRows
    rw [if_neg]
    rintro ⟨-, h⟩
    rw [hok.width _ (headD_mem hok.rows _), hok'.width _ (headD_mem hok'.rows _)] at h
    omega
  unfold trainingSet collect collectMore
  simp only [Loaded.getEnsemble, Loaded.getX, Loaded.getY, h1, h2, h3, h1', h2', PyRes.bind_ok, hee, ne_eq,
    not_true_eq_false, if_false, hc]
  rfl

end

/-! ### Example -/

/-- Two data sets of one piece each. -/
def tinyStore (l : Int) (v : ℚ) : Stored ℚ := ⟨⟨["sapp".toList], ["ktg_exponential10".toList], false⟩, [v :: List.replicate 23 0], [l]⟩

theorem tinyStore_ok (l : Int) (hl : IsKey l) (v : ℚ) : (tinyStore l v).Ok 1 where
  rows := by simp [tinyStore]
  width := by simp [tinyStore]
  length := rfl
  keys := by simpa [tinyStore] using hl

/-- Two pieces, 24 training rows; number 12 + 7 is the second piece, scaled, a fifth up. -/
example (d d' : PyRes (Loaded ℚ)) (hd : (tinyStore 0 3).Is d) (hd' : (tinyStore 21 5).Is d') :
    ∃ X y, trainingSet (fun r : ℚ => decide (r = 0)) [d, d'] = .ok (X, y) ∧ X.length = 24 ∧ y[19]? = some (transposeKey 7 21) := by
  obtain ⟨X, y, h1, h2, -, h4⟩ := C105_training_set (fun r : ℚ => decide (r = 0)) 1 (by decide) _
    [tinyStore 0 3, tinyStore 21 5] (by simp) [d, d'] (.cons hd (.cons hd' .nil)) (by
      intro s hs
      simp only [List.mem_cons, List.not_mem_nil, or_false] at hs
      rcases hs with rfl | rfl
      · exact ⟨tinyStore_ok 0 (by decide) 3, rfl⟩
      · exact ⟨tinyStore_ok 21 (by decide) 5, rfl⟩)
  exact ⟨X, y, h1, h2, (h4 1 7 _ _ rfl (by decide)).1⟩

example : trainingSet (fun r : ℚ => decide (r = 0)) [.ok ⟨none, fun _ => none⟩] = .raise "AttributeError" := by decide +kernel

/-- A data set as loaded. -/
def Stored.loaded (s : Stored K) : PyRes (Loaded K) :=
  .ok ⟨some s.ensemble, fun a => if a = ['X'] then some (.rows s.X) else if a = ['y'] then some (.labels s.y) else none⟩

theorem Stored.loaded_is (s : Stored K) : s.Is s.loaded := ⟨_, rfl, rfl, rfl, rfl⟩

/-- Data of another ensemble as the second data set: the trainer stops. -/
example : trainingSet (fun r : ℚ => decide (r = 0))
    [(tinyStore 0 3).loaded, Stored.loaded ⟨⟨["temperley".toList], ["ktg_exponential10".toList], false⟩, [List.replicate 24 0], [1]⟩] =
      .raise "SystemExit" := by
  refine C105_incompatible _ 1 [⟨⟨["temperley".toList], ["ktg_exponential10".toList], false⟩, [List.replicate 24 0], [1]⟩]
    (tinyStore 0 3) _ (.cons (Stored.loaded_is _) (.cons (Stored.loaded_is _) .nil)) ?_ ⟨_, List.mem_singleton.2 rfl, by decide +kernel⟩
  intro s hs
  simp only [List.mem_cons, List.not_mem_nil, or_false] at hs
  rcases hs with rfl | rfl
  · exact tinyStore_ok 0 (by decide) 3
  · exact ⟨by simp, by simp, rfl, by decide⟩

/-- One profile alone has one member, mixed or not; two profiles and one transition make two members, or four when
mixed.  The rows then have 48 and 96 numbers, and the metadata are the same. -/
example : trainingSet (fun r : ℚ => decide (r = 0))
    [Stored.loaded ⟨⟨["sapp".toList, "temperley".toList], ["zero".toList], false⟩, [List.replicate 48 0], [1]⟩,
     Stored.loaded ⟨⟨["sapp".toList, "temperley".toList], ["zero".toList], false⟩, [List.replicate 96 0], [1]⟩] =
      .raise "ValueError" := by
  have hg : ∀ m ∈ ["sapp".toList, "temperley".toList], GoodName m := by
    intro m hm
    simp only [List.mem_cons, List.not_mem_nil, or_false] at hm
    rcases hm with rfl | rfl <;> exact ⟨by decide, by decide, by decide, by decide, by decide⟩
  have hz : ∀ m ∈ ["zero".toList], GoodName m := by
    intro m hm
    simp only [List.mem_cons, List.not_mem_nil, or_false] at hm
    subst hm
    exact ⟨by decide, by decide, by decide, by decide, by decide⟩
  have h1 := C62_round_trip _ _ (by simp) (by simp) hg hz
  have h2 := (C62_mixed_violated _ _ (by simp) (by simp) hg hz).1
  exact C105_mixed_violated _ _ _ (by simp) (by simp) hg hz _ _ _ _ (Stored.loaded_is _) (Stored.loaded_is _) 2 4
    ⟨by simp, by simp, rfl, by decide⟩ ⟨by simp, by simp, rfl, by decide⟩ (by decide) h1 h2

end JKD.Py
