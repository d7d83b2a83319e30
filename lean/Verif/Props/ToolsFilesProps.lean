import Verif.Model.ToolsFiles
import Verif.Props.FilesProps
import Mathlib.Data.List.Nodup
/-
C108: duplicates.  C109: filtering by annotation.  C110: splits.  C111: keys of scores.
-/

namespace JKD.Tools

open Py

/-! ### C108 -/

/-- The notes that start, as pitch classes. -/
def started (mid : List Msg) : List Nat := mid.flatMap (fun m => if m.noteOn ∧ 0 < m.velocity then [m.note % 12] else [])

theorem notesOf_started (mid : List Msg) : notesOf mid = started mid := by
  unfold notesOf started
  induction mid with
  | nil => rfl
  | cons m mid ih =>
    rw [List.flatMap_cons, ← ih]
    by_cases h1 : m.noteOn <;> by_cases h2 : m.velocity = 0
    · simp [List.filter_cons, h1, h2]
    · simp [List.filter_cons, h1, h2, Nat.pos_of_ne_zero h2]
    · simp [List.filter_cons, h1, h2]
    · simp [List.filter_cons, h1]

theorem findDup_spec (notes : List Nat) (u : AMap Str (List Nat)) :
    (findDup notes u = [] ∨ (findDup notes u, notes) ∈ u) ∧
      ((∀ p ∈ u, p.1 ≠ []) → findDup notes u = [] → ∀ p ∈ u, p.2 ≠ notes) := by
  unfold findDup
  induction u using List.reverseRecOn with
  | nil => simp
  | append_singleton u p ih =>
    rw [List.foldl_append]
    simp only [List.foldl_cons, List.foldl_nil]
    by_cases h : notes = p.2
    · rw [if_pos h]
      refine ⟨Or.inr (by rw [h]; simp), ?_⟩
      intro hne h0
      exact absurd h0 (hne p (by simp))
    · rw [if_neg h]
      refine ⟨?_, ?_⟩
      · rcases ih.1 with h1 | h1
        · exact Or.inl h1
        · exact Or.inr (by simp [h1])
      · intro hne h0 q hq
        rcases List.mem_append.1 hq with hq | hq
        · exact ih.2 (fun p hp => hne p (by simp [hp])) h0 q hq
        · rw [List.mem_singleton.1 hq]
          exact fun e => h e.symm

/-- The state after some files. -/
structure Sorted (mid : Str → List Msg) (done : List Str) (u : AMap Str (List Nat)) (d : AMap Str Str) : Prop where
  all : (AMap.keys u ++ AMap.keys d).Perm done
  notes : ∀ p ∈ u, p.2 = started (mid p.1)
  differ : u.Pairwise (fun p q => p.2 ≠ q.2)
  dup : ∀ p ∈ d, p.2 ∈ AMap.keys u ∧ started (mid p.1) = started (mid p.2) ∧
    ∃ a b, done = a ++ p.1 :: b ∧ p.2 ∈ a

theorem findDuplicates_sorted (mid : Str → List Msg) : ∀ (fs done : List Str) (u : AMap Str (List Nat)) (d : AMap Str Str),
    (done ++ fs).Nodup → (∀ f ∈ done ++ fs, f ≠ []) → Sorted mid done u d →
    Sorted mid (done ++ fs) (findDuplicates mid fs u d).1 (findDuplicates mid fs u d).2 := by
  intro fs
  induction fs with
  | nil => intro done u d _ _ h; simpa [findDuplicates] using h
  | cons f fs ih =>
    intro done u d hnd hne h
    have hfn : f ∉ done := by
      intro hf
      rw [List.nodup_append] at hnd
      exact hnd.2.2 f hf f (by simp) rfl
    have hku : ∀ g ∈ AMap.keys u, g ∈ done := fun g hg => h.all.mem_iff.1 (by simp [hg])
    have hkd : ∀ g ∈ AMap.keys d, g ∈ done := fun g hg => h.all.mem_iff.1 (by simp [hg])
    have hu : ∀ p ∈ u, p.1 ≠ [] := fun p hp => hne _ (List.mem_append_left _ (hku _ (List.mem_map.2 ⟨p, hp, rfl⟩)))
    obtain ⟨s1, s2⟩ := findDup_spec (notesOf (mid f)) u
    have e : done ++ f :: fs = (done ++ [f]) ++ fs := by simp
    have hext : ∀ p ∈ d, ∃ a b, done ++ [f] = a ++ p.1 :: b ∧ p.2 ∈ a := by
      intro p hp
      obtain ⟨-, -, a, b, h1, h2⟩ := h.dup p hp
      exact ⟨a, b ++ [f], by rw [h1]; simp, h2⟩
    unfold findDuplicates
    simp only
    by_cases hd : findDup (notesOf (mid f)) u ≠ []
    · rw [if_pos hd, e]
      have hm := s1.resolve_left hd
      rw [Py.set_new d f _ (fun h => hfn (hkd f h))]
      refine ih (done ++ [f]) u _ (by rw [← e]; exact hnd) (by rw [← e]; exact hne) ⟨?_, h.notes, h.differ, ?_⟩
      · simp only [AMap.keys, List.map_append, List.map_cons, List.map_nil, ← List.append_assoc]
        exact h.all.append_right _
      · intro p hp
        rcases List.mem_append.1 hp with hp | hp
        · exact ⟨(h.dup p hp).1, (h.dup p hp).2.1, hext p hp⟩
        · rw [List.mem_singleton.1 hp]
          have hk : findDup (notesOf (mid f)) u ∈ AMap.keys u := List.mem_map.2 ⟨_, hm, rfl⟩
          refine ⟨hk, ?_, done, [], rfl, hku _ hk⟩
          have := h.notes _ hm
          simp only at this
          rw [← this, notesOf_started]
    · rw [if_neg hd, e]
      have hd' : findDup (notesOf (mid f)) u = [] := not_not.1 hd
      rw [Py.set_new u f _ (fun h => hfn (hku f h))]
      refine ih (done ++ [f]) _ d (by rw [← e]; exact hnd) (by rw [← e]; exact hne) ⟨?_, ?_, ?_, ?_⟩
      · simp only [AMap.keys, List.map_append, List.map_cons, List.map_nil, List.append_assoc]
        have h1 := h.all
        simp only [AMap.keys] at h1
        have h2 : (List.map Prod.fst u ++ ([f] ++ List.map Prod.fst d)).Perm ((List.map Prod.fst u ++ List.map Prod.fst d) ++ [f]) := by
          rw [List.append_assoc]
          exact List.Perm.append_left _ List.perm_append_comm
        exact h2.trans (h1.append_right _)
      · intro p hp
        rcases List.mem_append.1 hp with hp | hp
        · exact h.notes p hp
        · rw [List.mem_singleton.1 hp]
          exact notesOf_started _
      · rw [List.pairwise_append]
        refine ⟨h.differ, by simp, ?_⟩
        intro p hp q hq
        rw [List.mem_singleton.1 hq]
        exact s2 hu hd' p hp
      · intro p hp
        refine ⟨?_, (h.dup p hp).2.1, hext p hp⟩
        have := (h.dup p hp).1
        simp only [AMap.keys, List.map_append, List.mem_append] at this ⊢
        exact Or.inl this

/-- **C108.**  Every file of the folder is kept or reported as a duplicate and not both; no two kept files start the same
sequence of pitch classes; a duplicate starts the same sequence as the kept file it is reported for, which was listed
before it.  So every sequence of pitch classes in the folder is kept exactly once. -/
theorem C108_duplicates (mid : Str → List Msg) (files : List Str) (hnd : files.Nodup) (hne : ∀ f ∈ files, f ≠ []) :
    let r := findDuplicates mid files [] []
    (AMap.keys r.1 ++ AMap.keys r.2).Perm files ∧
    (∀ f ∈ AMap.keys r.1, ∀ g ∈ AMap.keys r.1, started (mid f) = started (mid g) → f = g) ∧
    (∀ p ∈ r.2, p.2 ∈ AMap.keys r.1 ∧ started (mid p.1) = started (mid p.2) ∧ ∃ a b, files = a ++ p.1 :: b ∧ p.2 ∈ a) ∧
    ∀ f ∈ files, ∃! g, g ∈ AMap.keys r.1 ∧ started (mid g) = started (mid f) := by
  intro r
  have h : Sorted mid files r.1 r.2 := by
    have := findDuplicates_sorted mid files [] [] [] (by simpa using hnd) (by simpa using hne)
      ⟨by simp [AMap.keys], by simp, .nil, by simp⟩
    simpa using this
  have hinj : ∀ f ∈ AMap.keys r.1, ∀ g ∈ AMap.keys r.1, started (mid f) = started (mid g) → f = g := by
    intro f hf g hg e
    obtain ⟨p, hp, rfl⟩ := List.mem_map.1 hf
    obtain ⟨q, hq, rfl⟩ := List.mem_map.1 hg
    by_contra hpq
    have hpq' : p ≠ q := fun e => hpq (by rw [e])
    have hsym : Std.Symm (fun p q : Str × List ℕ => p.2 ≠ q.2) := ⟨fun _ _ h => h.symm⟩
    have := h.differ.forall hp hq hpq'
    rw [h.notes p hp, h.notes q hq] at this
    exact this e
  refine ⟨h.all, hinj, h.dup, ?_⟩
  intro f hf
  rcases List.mem_append.1 (h.all.mem_iff.2 hf) with hk | hk
  · exact ⟨f, ⟨hk, rfl⟩, fun g hg => hinj g hg.1 f hk hg.2⟩
  · obtain ⟨p, hp, rfl⟩ := List.mem_map.1 hk
    obtain ⟨d1, d2, -⟩ := h.dup p hp
    exact ⟨p.2, ⟨d1, d2.symm⟩, fun g hg => hinj g hg.1 p.2 d1 (hg.2.trans d2)⟩

/-- Three files: the third repeats the first an octave higher. -/
example : (findDuplicates (fun f => if f = ['b'] then [⟨true, 80, 62⟩] else if f = ['c'] then [⟨true, 80, 72⟩, ⟨true, 0, 73⟩]
    else [⟨true, 80, 60⟩]) [['a'], ['b'], ['c']] [] []) = ([(['a'], [0]), (['b'], [2])], [(['c'], ['a'])]) := by decide

/-! ### C109 -/

theorem firstDot_ext (b ext : Str) : firstDot (b ++ '.' :: ext) = firstDot b := by
  unfold firstDot
  induction b with
  | nil => simp
  | cons c b ih =>
    by_cases hc : c = '.'
    · simp [hc]
    · simp only [List.cons_append, List.takeWhile_cons, ne_eq, hc, not_false_eq_true, decide_true, if_true]
      rw [ih]

theorem firstDot_plain (b : Str) (h : '.' ∉ b) : firstDot b = b := by
  unfold firstDot
  rw [List.takeWhile_eq_self_iff]
  intro c hc
  simp only [ne_eq, decide_eq_true_eq]
  rintro rfl
  exact h hc

theorem mem_confident (annotations features : List Str) (f : Str) :
    f ∈ confident annotations features ↔ f ∈ features ∧ ∃ a ∈ annotations, firstDot a = firstDot f := by
  simp [confident, List.mem_filter]

/-- **C109, nothing annotated is removed.**  A feature file whose annotation is in the folder stays, whatever the
names. -/
theorem C109_keeps (annotations features : List Str) (b ext : Str) (hf : b ++ '.' :: ext ∈ features)
    (ha : b ++ ".key".toList ∈ annotations) : b ++ '.' :: ext ∈ confident annotations features :=
  (mem_confident _ _ _).2 ⟨hf, _, ha, (firstDot_ext b "key".toList).trans (firstDot_ext b ext).symm⟩

/-- **C109.**  If every name has exactly one dot, the files left are exactly those with an annotation. -/
theorem C109_exact (annotations features : List Str) (hf : ∀ f ∈ features, ∃ b ext, f = b ++ '.' :: ext ∧ '.' ∉ b ∧ '.' ∉ ext)
    (ha : ∀ a ∈ annotations, ∃ b, a = b ++ ".key".toList ∧ '.' ∉ b) (f : Str) :
    f ∈ confident annotations features ↔ f ∈ features ∧ ∃ b ext, f = b ++ '.' :: ext ∧ '.' ∉ b ∧ b ++ ".key".toList ∈ annotations := by
  rw [mem_confident]
  constructor
  · rintro ⟨h1, a, h2, h3⟩
    obtain ⟨b, ext, rfl, hb, -⟩ := hf f h1
    obtain ⟨b', rfl, hb'⟩ := ha a h2
    rw [firstDot_ext, firstDot_plain b hb] at h3
    have := firstDot_ext b' "key".toList
    rw [firstDot_plain b' hb'] at this
    have e : b' = b := this.symm.trans h3
    subst e
    exact ⟨h1, b', ext, rfl, hb, h2⟩
  · rintro ⟨h1, b, ext, rfl, hb, h2⟩
    exact ⟨h1, _, h2, (firstDot_ext b "key".toList).trans (firstDot_ext b ext).symm⟩

/-- **C109, use.**  Then every file left has its annotation for the data-set program: no row is refused. -/
theorem C109_usable (annotations features : List Str) (hf : ∀ f ∈ features, ∃ b ext, f = b ++ '.' :: ext ∧ '.' ∉ b ∧ '.' ∉ ext)
    (ha : ∀ a ∈ annotations, ∃ b, a = b ++ ".key".toList ∧ '.' ∉ b) (files : List (Str × Str))
    (h : Py.listFiles (confident annotations features) = .ok files) : ∀ p ∈ files, p.2 ++ ".key".toList ∈ annotations := by
  intro p hp
  obtain ⟨h1, h2⟩ := Py.listFiles_spec _ files h
  obtain ⟨ext, e, hdot, -⟩ := h2 p hp
  have hm : p.1 ∈ confident annotations features := by rw [← h1]; exact List.mem_map.2 ⟨p, hp, rfl⟩
  obtain ⟨h3, b, ext', e', hb, hk⟩ := (C109_exact annotations features hf ha p.1).1 hm
  obtain ⟨b2, ext2, e2, hb2, he2⟩ := hf p.1 h3
  have r1 := Py.rsplitDot_spec p.2 ext hdot
  have r2 := Py.rsplitDot_spec b2 ext2 he2
  rw [← e] at r1
  rw [← e2, r1] at r2
  have hb' : b2 = b := by
    have f1 := firstDot_ext b2 ext2
    have f2 := firstDot_ext b ext'
    rw [← e2, firstDot_plain b2 hb2] at f1
    rw [← e', firstDot_plain b hb] at f2
    exact f1.symm.trans f2
  injection r2 with r2
  injection r2 with r2 _
  rw [r2, hb']
  exact hk

/-- **C109 violated, dots.**  With a dot in the name a file stays because of the annotation of another: `a.b.csv`
because of `a.key`. -/
theorem C109_dots_violated : confident ["a.key".toList] ["a.csv".toList, "a.b.csv".toList] = ["a.csv".toList, "a.b.csv".toList] := by
  decide

/-- Names with one dot: `b.csv` has no annotation and goes. -/
example : confident ["a.key".toList] ["a.csv".toList, "b.csv".toList] = ["a.csv".toList] := by decide

/-! ### C110 -/

theorem cut4_file (b ext : Str) (h : ext ∈ ["mid", "csv", "wav"].map String.toList) : cut4 (b ++ '.' :: ext) = b := by
  have h3 : ext.length = 3 := by
    simp only [List.map_cons, List.map_nil, List.mem_cons, List.not_mem_nil, or_false] at h
    rcases h with rfl | rfl | rfl <;> rfl
  unfold cut4
  rw [List.length_append, List.length_cons, h3, Nat.add_sub_cancel]
  exact List.take_left' rfl

theorem filter_perm (files sample : List Str) (hnd : files.Nodup) (hs : sample.Nodup) (hsub : ∀ x ∈ sample, x ∈ files) :
    (files.filter (fun x => decide (x ∉ sample)) ++ sample).Perm files := by
  rw [List.perm_ext_iff_of_nodup ?_ hnd]
  · intro x
    simp only [List.mem_append, List.mem_filter, decide_eq_true_eq]
    constructor
    · rintro (h | h)
      · exact h.1
      · exact hsub x h
    · intro h
      by_cases hx : x ∈ sample
      · exact Or.inr hx
      · exact Or.inl ⟨h, hx⟩
  · rw [List.nodup_append]
    refine ⟨hnd.filter _, hs, ?_⟩
    rintro a ha b hb rfl
    simp only [List.mem_filter, decide_eq_true_eq] at ha
    exact ha.2 hb

/-- **C110.**  For a folder of pieces with different base names and any sample of it: every base name is printed exactly
once, for training or for the test, and as many for the test as were drawn. -/
theorem C110_partition (bases : List Str) (hd : bases.Nodup) (ext : Str → Str)
    (he : ∀ b ∈ bases, ext b ∈ ["mid", "csv", "wav"].map String.toList) (sample : List Str) (hs : sample.Nodup)
    (hsub : ∀ x ∈ sample, x ∈ bases.map (fun b => b ++ '.' :: ext b)) :
    let r := sampleDatapoints (bases.map (fun b => b ++ '.' :: ext b)) sample
    (r.1 ++ r.2).Perm bases ∧ (∀ b ∈ r.1, b ∉ r.2) ∧ r.2.length = sample.length := by
  have hcut : (bases.map (fun b => b ++ '.' :: ext b)).map cut4 = bases := by
    rw [List.map_map]
    conv_rhs => rw [← List.map_id bases]
    refine List.map_congr_left ?_
    intro b hb
    exact cut4_file b _ (he b hb)
  have hnd : (bases.map (fun b => b ++ '.' :: ext b)).Nodup := by
    apply List.Nodup.of_map cut4
    rw [hcut]
    exact hd
  have hp := (filter_perm _ sample hnd hs hsub).map cut4
  rw [hcut, List.map_append] at hp
  refine ⟨hp, ?_, by simp [sampleDatapoints]⟩
  have hn := hp.nodup_iff.2 hd
  rw [List.nodup_append] at hn
  intro b h1 h2
  exact hn.2.2 b h1 b h2 rfl

variable {K : Type}

theorem get_map {V : Type} (g : Str → V) (l : List Str) (b : Str) (hb : b ∈ l) :
    AMap.get? (l.map (fun b => (b, g b))) b = some (g b) := by
  induction l with
  | nil => simp at hb
  | cons a l ih =>
    by_cases h : a = b
    · subst h
      simp [AMap.get?]
    · have := ih ((List.mem_cons.1 hb).resolve_left (fun e => h e.symm))
      simp only [AMap.get?, List.map_cons] at this ⊢
      simpa [h] using this

/-- **C110, use.**  With the printed lines as its splits the data-set program writes both splits in full: one row and
one label per line, those of the piece of that name. -/
theorem C110_splits (evaluate : Str → PyRes (List K)) (name : Str) (bases : List Str) (hb : bases ≠ []) (hd : bases.Nodup)
    (ext : Str → Str) (he : ∀ b ∈ bases, ext b ∈ ["mid", "csv", "wav"].map String.toList) (x : Str → List K)
    (hx : ∀ b ∈ bases, evaluate (b ++ '.' :: ext b) = .ok (x b)) (folder : Str → Option Str) (text : Str → Str)
    (ht : ∀ b ∈ bases, folder (b ++ ".key".toList) = some (text b) ∧ text b ≠ []) (sample : List Str) (hs : sample.Nodup)
    (hsub : ∀ x ∈ sample, x ∈ bases.map (fun b => b ++ '.' :: ext b)) (ps ts : List Str) (mixed : Bool) :
    let r := sampleDatapoints (bases.map (fun b => b ++ '.' :: ext b)) sample
    let y := fun b => parseLabel ((text b).takeWhile (fun c => c ≠ '\n' && c ≠ '\r'))
    ∃ c c', Creator.new name (bases.map (fun b => b ++ '.' :: ext b)) (some folder)
        [("training".toList, r.1), ("test".toList, r.2)] = .ok c ∧ c.computeFeatures evaluate = .ok c' ∧
      (r.1 ≠ [] → (name ++ "-training_features.pkl".toList, Content.rows (r.1.map x)) ∈ c'.write ps ts mixed ∧
        (name ++ "-training_annotations.pkl".toList, Content.labels (r.1.map y)) ∈ c'.write ps ts mixed) ∧
      (r.2 ≠ [] → (name ++ "-test_features.pkl".toList, Content.rows (r.2.map x)) ∈ c'.write ps ts mixed ∧
        (name ++ "-test_annotations.pkl".toList, Content.labels (r.2.map y)) ∈ c'.write ps ts mixed) := by
  intro r y
  obtain ⟨hp, -, -⟩ := C110_partition bases hd ext he sample hs hsub
  obtain ⟨c, c', h1, h2, h3⟩ := distinct_run evaluate name bases hb hd ext he x hx folder text ht
    [("training".toList, r.1), ("test".toList, r.2)]
  have hget : ∀ {V : Type} (g : Str → V) (b : Str), b ∈ bases → AMap.get? (bases.map (fun b => (b, g b))) b = some (g b) :=
    fun g b hb => get_map g bases b hb
  have hsplit : ∀ (k : Str) (v : List Str), (∀ b ∈ v, b ∈ bases) → v ≠ [] →
      c'.writeSplit k v = [(name ++ '-' :: k ++ "_features.pkl".toList, .rows (v.map x)),
        (name ++ '-' :: k ++ "_annotations.pkl".toList, .labels (v.map y))] := by
    intro k v hv hne
    have := (C60_split c' k v).1 x y hne (by rw [h3]; simpa using hb) (by
      intro b hb; rw [h3]; exact hget x b (hv b hb)) (by
      intro b hb; rw [h3]; exact hget y b (hv b hb))
    rw [this, h3]
  have hwrite : ∀ (k : Str) (v : List Str), (k, v) ∈ c'.splits → ∀ p ∈ c'.writeSplit k v, p ∈ c'.write ps ts mixed := by
    intro k v hk p hp
    have hf : c'.hasFeatures = true := by rw [h3]
    unfold Creator.write
    rw [hf]
    simp only [Bool.not_true, Bool.false_eq_true, if_false, List.mem_cons, List.mem_append, List.mem_flatMap]
    exact Or.inr (Or.inr (Or.inr ⟨_, hk, hp⟩))
  refine ⟨c, c', h1, h2, ?_, ?_⟩
  · intro hne
    have hm := hsplit "training".toList r.1 (fun b hb => hp.mem_iff.1 (List.mem_append.2 (Or.inl hb))) hne
    have hw := hwrite "training".toList r.1 (by rw [h3]; simp)
    rw [hm] at hw
    have e1 : name ++ '-' :: "training".toList ++ "_features.pkl".toList = name ++ "-training_features.pkl".toList := by simp
    have e2 : name ++ '-' :: "training".toList ++ "_annotations.pkl".toList = name ++ "-training_annotations.pkl".toList := by simp
    rw [e1, e2] at hw
    exact ⟨hw _ (by simp), hw _ (by simp)⟩
  · intro hne
    have hm := hsplit "test".toList r.2 (fun b hb => hp.mem_iff.1 (List.mem_append.2 (Or.inr hb))) hne
    have hw := hwrite "test".toList r.2 (by rw [h3]; simp)
    rw [hm] at hw
    have e1 : name ++ '-' :: "test".toList ++ "_features.pkl".toList = name ++ "-test_features.pkl".toList := by simp
    have e2 : name ++ '-' :: "test".toList ++ "_annotations.pkl".toList = name ++ "-test_annotations.pkl".toList := by simp
    rw [e1, e2] at hw
    exact ⟨hw _ (by simp), hw _ (by simp)⟩

/-- **C110 violated, same base name.**  `a.mid` and `a.csv` may be drawn apart: the line `a` is then in both halves, and
the test piece among the training pieces. -/
theorem C110_same_base_violated : sampleDatapoints ["a.mid".toList, "a.csv".toList] ["a.mid".toList] = ([['a']], [['a']]) := by
  decide

example : sampleDatapoints ["a.mid".toList, "b.csv".toList] ["a.mid".toList] = ([['b']], [['a']]) := by decide

/-! ### C111 -/

/-- **C111 violated.**  Whatever the score, the key file is left empty: the keys found in it are printed but never
written.  -/
theorem C111_empty_violated (rows : List (List Str)) (printed : List Str) (text : Str)
    (h : extractKeys rows = .ok (printed, text)) : text = [] := by
  induction rows generalizing printed with
  | nil => cases h; rfl
  | cons row rows ih =>
    unfold extractKeys at h
    cases row with
    | nil => cases h
    | cons first row =>
      simp only at h
      obtain ⟨⟨p, t⟩, h1, h2⟩ := PyRes.bind_eq_ok.1 h
      cases hk : keyMatch first with
      | none =>
        rw [hk] at h2
        cases h2
        exact ih _ h1
      | some k =>
        rw [hk] at h2
        cases h2
        exact ih _ h1

/-- **C111, consequence.**  With such a key file in the annotations the data-set program ends with an exception at that
piece. -/
theorem C111_unusable_violated (rows : List (List Str)) (printed : List Str) (text : Str)
    (h : extractKeys rows = .ok (printed, text)) (evaluate : Str → PyRes (List K)) (f base : Str) (x : List K)
    (hx : evaluate f = .ok x) (folder : Str → Option Str) (hf : folder (base ++ ".key".toList) = some text)
    (c : Creator K) (hc : c.annotationFolder = some folder) (fs : List (Str × Str)) :
    Creator.computeLoop evaluate c ((f, base) :: fs) = .raise "IndexError" := by
  obtain rfl := C111_empty_violated rows printed text h
  unfold Creator.computeLoop
  simp only [hx, PyRes.bind_ok, hc, hf]
  rfl

/-- **C111, what is printed.**  The printed keys are those of the first column: the text between a star and a colon at
the end, when there is no star before. -/
theorem C111_printed_partial (rows : List (List Str)) (printed : List Str) (text : Str)
    (h : extractKeys rows = .ok (printed, text)) (k : Str) :
    k ∈ printed ↔ ∃ row ∈ rows, ∃ pre rest, row = (pre ++ '*' :: k ++ [':']) :: rest ∧ '*' ∉ pre := by
  have hmatch : ∀ s k, keyMatch s = some k ↔ ∃ pre, s = pre ++ '*' :: k ++ [':'] ∧ '*' ∉ pre := by
    intro s k
    unfold keyMatch
    induction s with
    | nil => simp
    | cons c s ih =>
      by_cases hc : c = '*'
      · subst hc
        have e : ('*' :: s).dropWhile (fun x => decide (x ≠ '*')) = '*' :: s := by simp
        rw [e]
        simp only
        constructor
        · intro h
          split at h
          · rename_i hl
            cases h
            obtain ⟨a, b, e⟩ : ∃ a, s = a ++ [':'] := by
              have hne : s ≠ [] := by rintro rfl; simp at hl
              exact ⟨s.dropLast, by
                rw [List.getLast?_eq_getLast_of_ne_nil hne] at hl
                injection hl with hl
                rw [← hl, List.dropLast_append_getLast]⟩
            exact ⟨[], by simp, by simp⟩
          · cases h
        · rintro ⟨pre, h1, h2⟩
          cases pre with
          | nil =>
            simp only [List.nil_append, List.cons_append, List.cons.injEq, true_and] at h1
            subst h1
            simp
          | cons d pre =>
            simp only [List.cons_append, List.cons.injEq] at h1
            rw [← h1.1] at h2
            simp at h2
      · have e : (c :: s).dropWhile (fun x => decide (x ≠ '*')) = s.dropWhile (fun x => decide (x ≠ '*')) := by
          simp [hc]
        rw [e, ih]
        constructor
        · rintro ⟨pre, rfl, h⟩
          exact ⟨c :: pre, by simp, by simp [h, Ne.symm hc]⟩
        · rintro ⟨pre, h1, h2⟩
          cases pre with
          | nil =>
            simp only [List.nil_append, List.cons_append, List.cons.injEq] at h1
            exact absurd h1.1 hc
          | cons d pre =>
            simp only [List.cons_append, List.cons.injEq] at h1
            exact ⟨pre, by simpa using h1.2, fun h => h2 (by simp [h])⟩
  induction rows generalizing printed text with
  | nil => cases h; simp
  | cons row rows ih =>
    unfold extractKeys at h
    cases row with
    | nil => cases h
    | cons first row =>
      simp only at h
      obtain ⟨⟨p, t⟩, h1, h2⟩ := PyRes.bind_eq_ok.1 h
      have hp := ih p t h1
      have hrow : (∃ pre rest, first :: row = (pre ++ '*' :: k ++ [':']) :: rest ∧ '*' ∉ pre) ↔ keyMatch first = some k := by
        rw [hmatch]
        constructor
        · rintro ⟨pre, rest, h, h'⟩
          injection h with h _
          exact ⟨pre, h, h'⟩
        · rintro ⟨pre, h, h'⟩
          exact ⟨pre, row, by rw [h], h'⟩
      simp only [List.mem_cons, exists_eq_or_imp]
      rw [hrow]
      refine Iff.trans ?_ (or_congr Iff.rfl hp)
      cases hk : keyMatch first with
      | none =>
        rw [hk] at h2
        cases h2
        simp
      | some k' =>
        rw [hk] at h2
        cases h2
        simp [eq_comm]

example : extractKeys [["**kern".toList, "**kern".toList], ["*G:".toList, "*G:".toList]] = .ok ([['G']], []) := by decide

end JKD.Tools
