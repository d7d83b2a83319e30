import Verif.Model.ToolsMaps
/-
C144: the lists of full names and of key signatures of the MAPS data set.
-/

namespace JKD.Maps

open Py

/-! ### Specification -/

/-- A copyright notice among the track names. -/
def Notice (n : Str) : Prop := "Copyright".toList <+: n

/-- The message is no track name. -/
def NoName (m : Msg) : Prop := ∀ n, m ≠ .trackName n

/-- The full name of a piece: the track name before the first copyright notice. -/
def HasFullName (l : List Msg) (n : Str) : Prop :=
  ∃ before between after c, l = before ++ .trackName n :: between ++ .trackName c :: after ∧ Notice c ∧ ¬ Notice n ∧
    (∀ m ∈ between, NoName m) ∧ ∀ x, .trackName x ∈ before → ¬ Notice x

/-- The first track name is a copyright notice. -/
def NoticeFirst (l : List Msg) : Prop := ∃ before after c, l = before ++ .trackName c :: after ∧ Notice c ∧ ∀ m ∈ before, NoName m

/-- The first key signature. -/
def HasKey (l : List Msg) (k : Str) : Prop :=
  ∃ before after, l = before ++ .keySignature k :: after ∧ ∀ x, .keySignature x ∉ before

/-- The report that is wanted: for the files with the property one line each, in the order of the names. -/
def Reports (dir : List File) (P : List Msg → Str → Prop) (out : List Str) : Prop :=
  ∃ ps : List (Str × Str), out = ps.map (fun p => line p.1 p.2) ∧ (ps.map Prod.fst).Pairwise (· < ·) ∧
    ∀ f x, (f, x) ∈ ps ↔ ∃ l, (f, l) ∈ dir ∧ P l x

/-! ### Proofs -/

theorem notice_iff (n : Str) : "Copyright".toList.isPrefixOf n = true ↔ Notice n := List.isPrefixOf_iff_prefix

/-- What the loop over the messages finds. -/
theorem fullName_spec (l : List Msg) : ∀ msgs : List Str,
    (fullName msgs l = none ↔ msgs = [] ∧ NoticeFirst l) ∧
    ∀ n, fullName msgs l = some (some n) ↔
      HasFullName l n ∨ (NoticeFirst l ∧ msgs.getLast? = some n) := by
  induction l with
  | nil =>
    intro msgs
    refine ⟨⟨fun h => (by cases h), ?_⟩, fun n => ⟨fun h => (by cases h), ?_⟩⟩
    · rintro ⟨_, b, a, c, h, _⟩
      simp at h
    · rintro (⟨b, m, a, c, h, _⟩ | ⟨⟨b, a, c, h, _⟩, _⟩) <;> simp at h
  | cons m l ih =>
    intro msgs
    -- a message that is no track name changes nothing
    have skip : NoName m → (NoticeFirst (m :: l) ↔ NoticeFirst l) ∧ ∀ n, (HasFullName (m :: l) n ↔ HasFullName l n) := by
      intro hm
      constructor
      · constructor
        · rintro ⟨b, a, c, h, hc, hb⟩
          cases b with
          | nil => rw [List.nil_append, List.cons.injEq] at h; exact absurd h.1 (hm c)
          | cons x b =>
            rw [List.cons_append, List.cons.injEq] at h
            exact ⟨b, a, c, h.2, hc, fun y hy => hb y (by simp [hy])⟩
        · rintro ⟨b, a, c, rfl, hc, hb⟩
          refine ⟨m :: b, a, c, rfl, hc, fun y hy => ?_⟩
          rcases List.mem_cons.1 hy with rfl | hy
          · exact hm
          · exact hb y hy
      · intro n
        constructor
        · rintro ⟨b, t, a, c, h, hc, hn, ht, hb⟩
          cases b with
          | nil => rw [List.nil_append, List.cons_append, List.cons.injEq] at h; exact absurd h.1 (hm n)
          | cons x b =>
            rw [List.cons_append, List.cons_append, List.cons.injEq] at h
            exact ⟨b, t, a, c, h.2, hc, hn, ht, fun y hy => hb y (by simp [hy])⟩
        · rintro ⟨b, t, a, c, rfl, hc, hn, ht, hb⟩
          refine ⟨m :: b, t, a, c, rfl, hc, hn, ht, fun y hy => ?_⟩
          rcases List.mem_cons.1 hy with h | hy
          · exact absurd h.symm (hm y)
          · exact hb y hy
    cases m with
    | keySignature k =>
      obtain ⟨s1, s2⟩ := skip (fun n h => by cases h)
      rw [s1]
      simp only [s2]
      exact ih msgs
    | other =>
      obtain ⟨s1, s2⟩ := skip (fun n h => by cases h)
      rw [s1]
      simp only [s2]
      exact ih msgs
    | trackName x =>
      by_cases hx : Notice x
      · have e : fullName msgs (.trackName x :: l) = match msgs.getLast? with
            | none => none
            | some m => some (some m) := by
          rw [fullName, if_pos ((notice_iff x).2 hx)]
          cases msgs.getLast? <;> rfl
        have nf : NoticeFirst (.trackName x :: l) := ⟨[], l, x, rfl, hx, by simp⟩
        have no : ∀ n, ¬ HasFullName (.trackName x :: l) n := by
          rintro n ⟨b, t, a, c, h, hc, hn, ht, hb⟩
          cases b with
          | nil =>
            rw [List.nil_append, List.cons_append, List.cons.injEq, Msg.trackName.injEq] at h
            exact hn (h.1 ▸ hx)
          | cons y b =>
            rw [List.cons_append, List.cons_append, List.cons.injEq] at h
            exact hb x (by rw [h.1]; simp) hx
        rw [e]
        constructor
        · rw [← List.getLast?_eq_none_iff]
          cases msgs.getLast? <;> simp [nf]
        · intro n
          cases msgs.getLast? <;> simp [nf, no]
      · have e : fullName msgs (.trackName x :: l) = fullName (msgs ++ [x]) l := by
          rw [fullName, if_neg (fun h => hx ((notice_iff x).1 h))]
        have nf : ¬ NoticeFirst (.trackName x :: l) := by
          rintro ⟨b, a, c, h, hc, hb⟩
          cases b with
          | nil =>
            rw [List.nil_append, List.cons.injEq, Msg.trackName.injEq] at h
            exact hx (h.1 ▸ hc)
          | cons y b =>
            rw [List.cons_append, List.cons.injEq] at h
            exact hb y (by simp) x h.1.symm
        obtain ⟨i1, i2⟩ := ih (msgs ++ [x])
        rw [e]
        constructor
        · rw [i1]
          simp [nf]
        · intro n
          rw [i2, List.getLast?_concat]
          simp only [nf, false_and, or_false, Option.some.injEq]
          constructor
          · rintro (⟨b, t, a, c, rfl, hc, hn, ht, hb⟩ | ⟨⟨b, a, c, rfl, hc, hb⟩, rfl⟩)
            · refine ⟨.trackName x :: b, t, a, c, rfl, hc, hn, ht, fun y hy => ?_⟩
              rcases List.mem_cons.1 hy with h | hy
              · rw [Msg.trackName.injEq] at h
                exact h ▸ hx
              · exact hb y hy
            · exact ⟨[], b, a, c, rfl, hc, hx, hb, by simp⟩
          · rintro ⟨b, t, a, c, h, hc, hn, ht, hb⟩
            cases b with
            | nil =>
              rw [List.nil_append, List.cons_append, List.cons.injEq, Msg.trackName.injEq] at h
              exact Or.inr ⟨⟨t, a, c, h.2, hc, ht⟩, h.1⟩
            | cons y b =>
              rw [List.cons_append, List.cons_append, List.cons.injEq] at h
              exact Or.inl ⟨b, t, a, c, h.2, hc, hn, ht, fun z hz => hb z (by simp [hz])⟩

theorem firstKey_iff (l : List Msg) (k : Str) : firstKey l = some k ↔ HasKey l k := by
  induction l with
  | nil =>
    refine ⟨fun h => (by cases h), ?_⟩
    rintro ⟨b, a, h, _⟩
    simp at h
  | cons m l ih =>
    have skip : (∀ x, m ≠ .keySignature x) → (HasKey (m :: l) k ↔ HasKey l k) := by
      intro hm
      constructor
      · rintro ⟨b, a, h, hb⟩
        cases b with
        | nil => rw [List.nil_append, List.cons.injEq] at h; exact absurd h.1 (hm k)
        | cons x b =>
          rw [List.cons_append, List.cons.injEq] at h
          exact ⟨b, a, h.2, fun y hy => hb y (by simp [hy])⟩
      · rintro ⟨b, a, rfl, hb⟩
        refine ⟨m :: b, a, rfl, fun y hy => ?_⟩
        rcases List.mem_cons.1 hy with h | hy
        · exact hm y h.symm
        · exact hb y hy
    cases m with
    | keySignature x =>
      rw [firstKey, Option.some.injEq]
      constructor
      · rintro rfl
        exact ⟨[], l, rfl, by simp⟩
      · rintro ⟨b, a, h, hb⟩
        cases b with
        | nil => rw [List.nil_append, List.cons.injEq, Msg.keySignature.injEq] at h; exact h.1
        | cons y b =>
          rw [List.cons_append, List.cons.injEq] at h
          exact absurd (by rw [h.1]; simp) (hb x)
    | other => rw [skip (fun n h => by cases h), ← ih]; rfl
    | trackName n => rw [skip (fun n h => by cases h), ← ih]; rfl

theorem sorted_mem (dir : List File) (x : File) : x ∈ sortedFiles dir ↔ x ∈ dir := (List.perm_insertionSort _ dir).mem_iff

theorem sorted_names (dir : List File) (h : (dir.map Prod.fst).Nodup) : ((sortedFiles dir).map Prod.fst).Pairwise (· < ·) := by
  have p := List.perm_insertionSort (fun a b : File => a.1 ≤ b.1) dir
  have nd : ((sortedFiles dir).map Prod.fst).Nodup := (p.map Prod.fst).nodup_iff.2 h
  haveI : IsTrans File (fun a b => a.1 ≤ b.1) := ⟨fun _ _ _ => le_trans⟩
  haveI : Std.Total (fun a b : File => a.1 ≤ b.1) := ⟨fun a b => le_total a.1 b.1⟩
  have s := List.pairwise_insertionSort (fun a b : File => a.1 ≤ b.1) dir
  have s' : ((sortedFiles dir).map Prod.fst).Pairwise (· ≤ ·) := List.pairwise_map.2 s
  exact (s'.and nd).imp (fun h => lt_of_le_of_ne h.1 h.2)

/-- **C144 (partial), names.**  When in no file of the folder the first track name is a copyright notice, the script runs through and
prints the names of the files that have one, in the order of the files. -/
theorem C144_names_partial (dir : List File) (h : (dir.map Prod.fst).Nodup) (hn : ∀ f ∈ dir, ¬ NoticeFirst f.2) :
    (extractFullName dir).2 = true ∧ Reports dir HasFullName (extractFullName dir).1 := by
  have key : ∀ fs : List File, (∀ f ∈ fs, ¬ NoticeFirst f.2) → (fs.map Prod.fst).Pairwise (· < ·) →
      (fullNames fs).2 = true ∧ ∃ ps : List (Str × Str), (fullNames fs).1 = ps.map (fun p => line p.1 p.2) ∧
        (ps.map Prod.fst).Pairwise (· < ·) ∧ ∀ f x, (f, x) ∈ ps ↔ ∃ l, (f, l) ∈ fs ∧ HasFullName l x := by
    intro fs
    induction fs with
    | nil => exact fun _ _ => ⟨rfl, [], rfl, List.Pairwise.nil, by simp⟩
    | cons fl fs ih =>
      intro hn hp
      obtain ⟨f, l⟩ := fl
      rw [List.map_cons, List.pairwise_cons] at hp
      obtain ⟨e1, ps, e2, e3, e4⟩ := ih (fun g hg => hn g (by simp [hg])) hp.2
      obtain ⟨s1, s2⟩ := fullName_spec l []
      have nl := hn (f, l) (by simp)
      have s2' : ∀ n, fullName [] l = some (some n) ↔ HasFullName l n := fun n => by rw [s2]; simp
      rcases hd : fullName [] l with _ | _ | n
      · exact absurd (s1.1 hd).2 nl
      · refine ⟨by simp only [fullNames, hd, e1], ps, by simp only [fullNames, hd, e2], e3, fun g x => ?_⟩
        rw [e4]
        constructor
        · rintro ⟨k, hk, hx⟩
          exact ⟨k, by simp [hk], hx⟩
        · rintro ⟨k, hk, hx⟩
          rcases List.mem_cons.1 hk with hk | hk
          · rw [Prod.mk.injEq] at hk
            rw [hk.2, ← s2', hd] at hx
            cases hx
          · exact ⟨k, hk, hx⟩
      · refine ⟨by simp only [fullNames, hd, e1], (f, n) :: ps, by simp only [fullNames, hd, e2, List.map_cons], ?_, fun g x => ?_⟩
        · rw [List.map_cons, List.pairwise_cons]
          refine ⟨fun g hg => ?_, e3⟩
          obtain ⟨⟨g', x⟩, hq, rfl⟩ := List.mem_map.1 hg
          obtain ⟨k, hk, _⟩ := (e4 g' x).1 hq
          exact hp.1 g' (List.mem_map_of_mem (f := Prod.fst) hk)
        · rw [List.mem_cons, e4]
          constructor
          · rintro (hx | ⟨k, hk, hx⟩)
            · rw [Prod.mk.injEq] at hx
              exact ⟨l, by simp [hx.1], hx.2 ▸ (s2' n).1 hd⟩
            · exact ⟨k, by simp [hk], hx⟩
          · rintro ⟨k, hk, hx⟩
            rcases List.mem_cons.1 hk with hk | hk
            · rw [Prod.mk.injEq] at hk
              rw [hk.2, ← s2', hd, Option.some.injEq, Option.some.injEq] at hx
              left
              rw [hk.1, hx]
            · exact Or.inr ⟨k, hk, hx⟩
  obtain ⟨k1, ps, k2, k3, k4⟩ := key (sortedFiles dir) (fun f hf => hn f ((sorted_mem dir f).1 hf)) (sorted_names dir h)
  exact ⟨k1, ps, k2, k3, fun f x => by rw [k4]; simp only [sorted_mem]⟩

/-- **C144, keys.**  The key signatures are printed for exactly the files that have one, in the order of the files. -/
theorem C144_keys_partial (dir : List File) (h : (dir.map Prod.fst).Nodup) : Reports dir HasKey (extractKeySignature dir) := by
  have key : ∀ fs : List File, (fs.map Prod.fst).Pairwise (· < ·) → Reports fs HasKey (keyLines fs) := by
    intro fs
    induction fs with
    | nil => exact fun _ => ⟨[], rfl, List.Pairwise.nil, by simp⟩
    | cons fl fs ih =>
      intro hp
      obtain ⟨f, l⟩ := fl
      rw [List.map_cons, List.pairwise_cons] at hp
      obtain ⟨ps, e2, e3, e4⟩ := ih hp.2
      rcases hd : firstKey l with _ | n
      · refine ⟨ps, by simp only [keyLines, hd, e2], e3, fun g x => ?_⟩
        rw [e4]
        constructor
        · rintro ⟨k, hk, hx⟩
          exact ⟨k, by simp [hk], hx⟩
        · rintro ⟨k, hk, hx⟩
          rcases List.mem_cons.1 hk with hk | hk
          · rw [Prod.mk.injEq] at hk
            rw [hk.2, ← firstKey_iff, hd] at hx
            cases hx
          · exact ⟨k, hk, hx⟩
      · refine ⟨(f, n) :: ps, by simp only [keyLines, hd, e2, List.map_cons], ?_, fun g x => ?_⟩
        · rw [List.map_cons, List.pairwise_cons]
          refine ⟨fun g hg => ?_, e3⟩
          obtain ⟨⟨g', x⟩, hq, rfl⟩ := List.mem_map.1 hg
          obtain ⟨k, hk, _⟩ := (e4 g' x).1 hq
          exact hp.1 g' (List.mem_map_of_mem (f := Prod.fst) hk)
        · rw [List.mem_cons, e4]
          constructor
          · rintro (hx | ⟨k, hk, hx⟩)
            · rw [Prod.mk.injEq] at hx
              exact ⟨l, by simp [hx.1], hx.2 ▸ (firstKey_iff l n).1 hd⟩
            · exact ⟨k, by simp [hk], hx⟩
          · rintro ⟨k, hk, hx⟩
            rcases List.mem_cons.1 hk with hk | hk
            · rw [Prod.mk.injEq] at hk
              rw [hk.2, ← firstKey_iff, hd, Option.some.injEq] at hx
              left
              rw [hk.1, hx]
            · exact Or.inr ⟨k, hk, hx⟩
  obtain ⟨ps, k2, k3, k4⟩ := key (sortedFiles dir) (sorted_names dir h)
  exact ⟨ps, k2, k3, fun f x => by rw [k4]; simp only [sorted_mem]⟩

/-- **C144 is violated: a copyright notice before any name.**  The script stops with an `IndexError` at the first such file, and no
file that comes later in the order of the names gets a line. -/
theorem C144_notice_violated (dir : List File) (h : (dir.map Prod.fst).Nodup) (f : File) (hf : f ∈ dir) (hn : NoticeFirst f.2) :
    (extractFullName dir).2 = false ∧
    ∀ s ∈ (extractFullName dir).1, ∃ g ∈ dir, g.1 < f.1 ∧ ∃ n, s = line g.1 n := by
  have key : ∀ fs : List File, (fs.map Prod.fst).Pairwise (· < ·) → f ∈ fs → (fullNames fs).2 = false ∧
      ∀ s ∈ (fullNames fs).1, ∃ g ∈ fs, g.1 < f.1 ∧ ∃ n, s = line g.1 n := by
    intro fs
    induction fs with
    | nil => exact fun _ h => by cases h
    | cons gl fs ih =>
      intro hp hm
      obtain ⟨g, l⟩ := gl
      rw [List.map_cons, List.pairwise_cons] at hp
      obtain ⟨s1, -⟩ := fullName_spec l []
      rcases List.mem_cons.1 hm with rfl | hm
      · have hd := s1.2 ⟨rfl, hn⟩
        simp only [fullNames, hd]
        exact ⟨trivial, by simp⟩
      · obtain ⟨i1, i2⟩ := ih hp.2 hm
        have lift : ∀ s ∈ (fullNames fs).1, ∃ g' ∈ (g, l) :: fs, g'.1 < f.1 ∧ ∃ n, s = line g'.1 n := fun s hs => by
          obtain ⟨g', h1, h2⟩ := i2 s hs
          exact ⟨g', by simp [h1], h2⟩
        rcases hd : fullName [] l with _ | _ | n
        · simp only [fullNames, hd]
          exact ⟨trivial, by simp⟩
        · simp only [fullNames, hd]
          exact ⟨i1, lift⟩
        · simp only [fullNames, hd]
          refine ⟨i1, fun s hs => ?_⟩
          rcases List.mem_cons.1 hs with rfl | hs
          · exact ⟨(g, l), by simp, hp.1 _ (List.mem_map_of_mem (f := Prod.fst) hm), n, rfl⟩
          · exact lift s hs
  obtain ⟨k1, k2⟩ := key (sortedFiles dir) (sorted_names dir h) ((sorted_mem dir f).2 hf)
  refine ⟨k1, fun s hs => ?_⟩
  obtain ⟨g, h1, h2⟩ := k2 s hs
  exact ⟨g, (sorted_mem dir g).1 h1, h2⟩

/-- Two pieces listed in the wrong order, one without a key signature. -/
example : extractFullName [("b.mid".toList, [.trackName "Pathetique".toList, .other, .trackName "Copyright 1997".toList]),
      ("a.mid".toList, [.trackName "Elise".toList, .keySignature "Am".toList, .trackName "Copyright 2003".toList])] =
      (["a.mid, Elise".toList, "b.mid, Pathetique".toList], true) ∧
    extractKeySignature [("b.mid".toList, [.trackName "Pathetique".toList, .other, .trackName "Copyright 1997".toList]),
      ("a.mid".toList, [.trackName "Elise".toList, .keySignature "Am".toList, .trackName "Copyright 2003".toList])] =
      ["a.mid, Am".toList] := by
  decide +kernel

/-- A file that stops the script. -/
example : NoticeFirst [.other, .trackName "Copyright 1997 by Bernd Krueger".toList, .trackName "Pathetique".toList] :=
  ⟨[.other], [.trackName "Pathetique".toList], _, rfl, (notice_iff _).1 rfl, by simp [NoName]⟩

end JKD.Maps
