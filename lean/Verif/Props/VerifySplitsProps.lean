import Verif.Model.ToolsVerify
import Verif.Props.ToolsFilesProps
import Verif.Props.LoaderProps
import Mathlib.Data.List.Nodup
import Mathlib.Data.List.Perm.Subperm
/-
C163: what the numbers of verify_dataset_splits.sh say about the splits of a data set.
-/

namespace JKD.Tools

open Py

variable {K : Type}

/-- **Specification.**  Every piece is in exactly one of the splits, and there is nothing else in them. -/
def InOneSplit (bases training test : List Str) : Prop := (training ++ test).Perm bases

/-- **Specification.**  The text ends with a complete line (or is empty). -/
def Terminated (text : Str) : Prop := text = [] ∨ text.getLast? = some '\n'

/-! ### Lines and line feeds -/

theorem readlines_go_length : ∀ (s cur : Str),
    (readlines.go s cur).length = s.count '\n' + if (if s = [] then cur = [] else s.getLast? = some '\n') then 0 else 1
  | [], cur => by
    unfold readlines.go
    by_cases h : cur = [] <;> simp [h]
  | d :: s, cur => by
    unfold readlines.go
    by_cases h : d = '\n'
    · subst h
      rw [if_pos rfl, List.length_cons, readlines_go_length s [], List.count_cons_self]
      by_cases hs : s = []
      · subst hs; simp
      · obtain ⟨e, t, rfl⟩ := List.exists_cons_of_ne_nil hs
        simp only [List.getLast?_cons_cons, reduceCtorEq, if_false]
        omega
    · rw [if_neg h, readlines_go_length s (d :: cur), List.count_cons_of_ne h]
      by_cases hs : s = []
      · subst hs; simp [h]
      · obtain ⟨e, t, rfl⟩ := List.exists_cons_of_ne_nil hs
        simp only [List.getLast?_cons_cons, reduceCtorEq, if_false]

open Classical in
/-- **C163, lines.**  The script counts the lines the data-set program reads, but for a last line without a line feed. -/
theorem C163_lines (text : Str) : (readSplit text).length = wcLines text + if Terminated text then 0 else 1 := by
  unfold readSplit wcLines readlines
  rw [List.length_map, readlines_go_length]
  unfold Terminated
  by_cases h : text = []
  · simp [h]
  · simp [h]

theorem wcLines_ls (l : List Str) (h : ∀ f ∈ l, '\n' ∉ f ∧ f.head? ≠ some '.') : wcLines (lsText l) = l.length := by
  have hf : l.filter (fun f => f.head? ≠ some '.') = l := List.filter_eq_self.2 (fun f hf => by simpa using (h f hf).2)
  unfold lsText wcLines
  rw [hf]
  clear hf
  induction l with
  | nil => rfl
  | cons f l ih =>
    have h1 : f.count '\n' = 0 := List.count_eq_zero.2 (h f (by simp)).1
    rw [List.flatMap_cons, List.count_append, ih (fun g hg => h g (by simp [hg])), List.count_append, h1]
    simp
    omega

theorem covers {l m : List Str} (hl : l.Nodup) (hsub : ∀ x ∈ l, x ∈ m) : m.length = l.length ↔ l.Perm m := by
  constructor
  · intro h
    exact (List.subperm_of_subset hl hsub).perm_of_length_le h.le
  · intro h
    exact h.length_eq.symm

/-- **C163 (partial).**  The script prints the number of pieces, of annotations and of lines.  If the lines of both split files are
complete, name pieces that exist and occur once, then the first number is the sum of the last two if and only if every piece is in
exactly one split; if the annotations belong to pieces, then the first two numbers agree if and only if every piece has its annotation.
What is missing: the conditions on the lines are nothing the script looks at. -/
theorem C163_splits_partial (bases : List Str) (hd : bases.Nodup) (hbn : ∀ b ∈ bases, '\n' ∉ b ∧ b ≠ [] ∧ b.head? ≠ some '.')
    (ext : Str → Str) (he : ∀ b ∈ bases, ext b ∈ ["mid", "csv", "wav"].map String.toList)
    (annotations : List Str) (ha : annotations.Nodup) (hak : ∀ a ∈ annotations, ∃ b ∈ bases, a = b ++ ".key".toList)
    (training test : Str) (ht : Terminated training) (hu : Terminated test)
    (hsub : ∀ f ∈ readSplit training ++ readSplit test, f ∈ bases) (hnd : (readSplit training ++ readSplit test).Nodup) :
    ∃ n a t u, verifySplits (bases.map (fun b => b ++ '.' :: ext b)) annotations (some training) (some test) = [n, a, t, u] ∧
      n = bases.length ∧ t = (readSplit training).length ∧ u = (readSplit test).length ∧
      (n = t + u ↔ InOneSplit bases (readSplit training) (readSplit test)) ∧
      (n = a ↔ ∀ b ∈ bases, b ++ ".key".toList ∈ annotations) := by
  have hfeat : wcLines (lsText (bases.map (fun b => b ++ '.' :: ext b))) = bases.length := by
    rw [wcLines_ls, List.length_map]
    intro f hf
    obtain ⟨b, hb, rfl⟩ := List.mem_map.1 hf
    obtain ⟨h1, h2, h3⟩ := hbn b hb
    obtain ⟨c, b, rfl⟩ := List.exists_cons_of_ne_nil h2
    have hext := he _ hb
    refine ⟨?_, by simpa using h3⟩
    have : '\n' ∉ ext (c :: b) := by
      have hd : ∀ e ∈ ["mid", "csv", "wav"].map String.toList, '\n' ∉ e := by decide
      exact hd _ hext
    simp only [List.mem_append, List.mem_cons, not_or] at h1 ⊢
    exact ⟨h1, by decide, this⟩
  have hann : wcLines (lsText annotations) = annotations.length := by
    refine wcLines_ls _ (fun f hf => ?_)
    obtain ⟨b, hb, rfl⟩ := hak f hf
    obtain ⟨h1, h2, h3⟩ := hbn b hb
    obtain ⟨c, b, rfl⟩ := List.exists_cons_of_ne_nil h2
    refine ⟨?_, by simpa using h3⟩
    simp only [List.mem_append, not_or]
    exact ⟨h1, by decide⟩
  have e1 : wcLines training = (readSplit training).length := by
    have := C163_lines training
    rw [if_pos ht] at this
    omega
  have e2 : wcLines test = (readSplit test).length := by
    have := C163_lines test
    rw [if_pos hu] at this
    omega
  refine ⟨_, _, _, _, rfl, hfeat, e1, e2, ?_, ?_⟩
  · simp only [catText, Option.getD_some]
    rw [hfeat, e1, e2, ← List.length_append]
    exact covers hnd hsub
  · rw [hfeat, hann]
    have hkd : (bases.map (fun b => b ++ ".key".toList)).Nodup :=
      hd.map (fun x y h => List.append_cancel_right h)
    have := covers ha (fun a h => by
      obtain ⟨b, hb, rfl⟩ := hak a h
      exact List.mem_map.2 ⟨b, hb, rfl⟩)
    rw [List.length_map] at this
    rw [this]
    constructor
    · intro h b hb
      exact h.mem_iff.2 (List.mem_map.2 ⟨b, hb, rfl⟩)
    · intro h
      refine (List.perm_ext_iff_of_nodup ha hkd).2 (fun a => ⟨fun h' => ?_, fun h' => ?_⟩)
      · obtain ⟨b, hb, rfl⟩ := hak a h'
        exact List.mem_map.2 ⟨b, hb, rfl⟩
      · obtain ⟨b, hb, rfl⟩ := List.mem_map.1 h'
        exact h b hb

/-- **C163 violated, the last line.**  A data set whose splits are in order is reported with a piece too few when a split file does not
end with a line feed, as many editors leave it. -/
theorem C163_last_line_violated (a b : Str) (ha : '\n' ∉ a) (hb : '\n' ∉ b) (hb0 : b ≠ []) (hsa : strip a = a) (hsb : strip b = b) :
    readSplit (a ++ ['\n']) = [a] ∧ readSplit b = [b] ∧ wcLines (a ++ ['\n']) + wcLines b = 1 ∧
      InOneSplit [a, b] (readSplit (a ++ ['\n'])) (readSplit b) := by
  have h1 : readSplit (a ++ ['\n']) = [a] := by
    have hstrip : strip (a ++ ['\n']) = strip a := by
      unfold strip
      have hsp : isSpace '\n' = true := by decide
      by_cases hall : ∀ c ∈ a, isSpace c = true
      · have e1 : (a ++ ['\n']).dropWhile isSpace = [] := List.dropWhile_eq_nil_iff.2 (by
          intro c hc
          rcases List.mem_append.1 hc with hc | hc
          · exact hall c hc
          · rw [List.mem_singleton.1 hc]; exact hsp)
        have e2 : a.dropWhile isSpace = [] := List.dropWhile_eq_nil_iff.2 hall
        rw [e1, e2]
      · have hne : a.dropWhile isSpace ≠ [] := fun h => hall (List.dropWhile_eq_nil_iff.1 h)
        rw [List.dropWhile_append, if_neg (by simpa using hne), List.reverse_append]
        simp [hsp]
    unfold readSplit readlines
    rw [readlines_go_line a [] [] ha]
    simp only [readlines.go, List.reverse_nil, List.nil_append, if_true, List.map_cons, List.map_nil, hstrip, hsa]
  have h2 : readSplit b = [b] := by
    have : ∀ (s cur : Str), '\n' ∉ s → readlines.go s cur = if cur.reverse ++ s = [] then [] else [cur.reverse ++ s] := by
      intro s
      induction s with
      | nil => intro cur _; simp [readlines.go]
      | cons d s ih =>
        intro cur h
        rw [List.mem_cons, not_or] at h
        rw [readlines.go, if_neg (Ne.symm h.1), ih _ h.2]
        simp
    unfold readSplit readlines
    rw [this b [] hb]
    simp [hb0, hsb]
  refine ⟨h1, h2, ?_, ?_⟩
  · unfold wcLines
    rw [List.count_append, List.count_eq_zero.2 ha, List.count_eq_zero.2 hb]
    rfl
  · rw [h1, h2]
    exact List.Perm.refl _

/-- **C163 violated, the wrong pieces.**  The numbers agree although one piece is in both splits and another in none; the data-set
program then writes the same piece for training and for testing, without complaint. -/
theorem C163_overlap_violated (evaluate : Str → PyRes (List K)) (name : Str) (x : Str → List K)
    (hx : ∀ b ∈ ["a".toList, "b".toList], evaluate (b ++ ".mid".toList) = .ok (x b)) (folder : Str → Option Str) (text : Str → Str)
    (ht : ∀ b ∈ ["a".toList, "b".toList], folder (b ++ ".key".toList) = some (text b) ∧ text b ≠ []) (ps ts : List Str) (mixed : Bool) :
    verifySplits ["a.mid".toList, "b.mid".toList] ["a.key".toList, "b.key".toList] (some "a\n".toList) (some "a\n".toList) = [2, 2, 1, 1] ∧
    ¬ InOneSplit ["a".toList, "b".toList] (readSplit "a\n".toList) (readSplit "a\n".toList) ∧
    ∃ c c', Creator.new name ["a.mid".toList, "b.mid".toList] (some folder)
        [("training".toList, readSplit "a\n".toList), ("test".toList, readSplit "a\n".toList)] = .ok c ∧
      c.computeFeatures evaluate = .ok c' ∧
      (name ++ "-training_features.pkl".toList, Content.rows [x "a".toList]) ∈ c'.write ps ts mixed ∧
      (name ++ "-test_features.pkl".toList, Content.rows [x "a".toList]) ∈ c'.write ps ts mixed := by
  refine ⟨by decide, ?_, ?_⟩
  · intro h
    have := h.mem_iff (a := "b".toList)
    revert this
    decide
  · obtain ⟨c, c', h1, h2, h3⟩ := distinct_run evaluate name ["a".toList, "b".toList] (by decide) (by decide) (fun _ => "mid".toList)
      (by decide) x hx folder text ht [("training".toList, readSplit "a\n".toList), ("test".toList, readSplit "a\n".toList)]
    refine ⟨c, c', h1, h2, ?_⟩
    have hs : ∀ k : Str, c'.writeSplit k (readSplit "a\n".toList) =
        [(name ++ '-' :: k ++ "_features.pkl".toList, .rows [x "a".toList]),
          (name ++ '-' :: k ++ "_annotations.pkl".toList,
            .labels [parseLabel ((text "a".toList).takeWhile (fun c => c ≠ '\n' && c ≠ '\r'))])] := by
      intro k
      have hr : readSplit "a\n".toList = ["a".toList] := by decide
      have := (C60_split c' k ["a".toList]).1 x (fun b => parseLabel ((text b).takeWhile (fun c => c ≠ '\n' && c ≠ '\r'))) (by simp)
        (by rw [h3]; simp) (by intro b hb; rw [h3]; exact get_map x _ b (by simp at hb; simp [hb]))
        (by intro b hb; rw [h3]; exact get_map _ _ b (by simp at hb; simp [hb]))
      rw [hr, this, h3]
      rfl
    have hw : ∀ (k : Str), k = "training".toList ∨ k = "test".toList → ∀ p ∈ c'.writeSplit k (readSplit "a\n".toList), p ∈ c'.write ps ts mixed := by
      intro k hk p hp
      have hf : c'.hasFeatures = true := by rw [h3]
      unfold Creator.write
      rw [hf]
      simp only [Bool.not_true, Bool.false_eq_true, if_false, List.mem_cons, List.mem_append, List.mem_flatMap]
      refine Or.inr (Or.inr (Or.inr ⟨(k, readSplit "a\n".toList), ?_, hp⟩))
      rw [h3]
      rcases hk with rfl | rfl <;> simp
    have w1 := hw _ (Or.inl rfl)
    have w2 := hw _ (Or.inr rfl)
    rw [hs] at w1 w2
    have e1 : name ++ '-' :: "training".toList ++ "_features.pkl".toList = name ++ "-training_features.pkl".toList := by simp
    have e2 : name ++ '-' :: "test".toList ++ "_features.pkl".toList = name ++ "-test_features.pkl".toList := by simp
    rw [e1] at w1
    rw [e2] at w2
    exact ⟨w1 _ (by simp), w2 _ (by simp)⟩

/-- **C163 violated, hidden files.**  A hidden file among the features (as file managers leave them) does not change the numbers, but it
ends the data-set program. -/
theorem C163_hidden_violated (name : Str) (pre post : List Str) (ext : Str → Str)
    (he : ∀ b ∈ pre, ext b ∈ ["mid", "csv", "wav"].map String.toList) (annotations : List Str) (training test : Option Str)
    (folder : Option (Str → Option Str)) (splits : AMap Str (List Str)) :
    verifySplits (pre.map (fun b => b ++ '.' :: ext b) ++ ".DS_Store".toList :: post) annotations training test =
      verifySplits (pre.map (fun b => b ++ '.' :: ext b) ++ post) annotations training test ∧
    (Creator.new name (pre.map (fun b => b ++ '.' :: ext b) ++ ".DS_Store".toList :: post) folder splits : PyRes (Creator K)) =
      .raise "SystemExit" := by
  refine ⟨?_, ?_⟩
  · unfold verifySplits lsText
    rw [List.filter_append, List.filter_append, List.filter_cons_of_neg (by decide)]
  · have key : listFiles (pre.map (fun b => b ++ '.' :: ext b) ++ ".DS_Store".toList :: post) = .raise "SystemExit" := by
      induction pre with
      | nil =>
        have h : rsplitDot ".DS_Store".toList = some ([], "DS_Store".toList) := by decide
        rw [List.map_nil, List.nil_append, listFiles, h]
        simp only
        rw [if_pos (by decide)]
      | cons b pre ih =>
        have ih := ih (fun b hb => he b (by simp [hb]))
        have hext := he b (by simp)
        have hdot : '.' ∉ ext b := by
          have hd : ∀ e ∈ ["mid", "csv", "wav"].map String.toList, '.' ∉ e := by decide
          exact hd _ hext
        rw [List.map_cons, List.cons_append, listFiles, rsplitDot_spec b (ext b) hdot]
        simp only
        rw [if_neg (fun h => h hext), ih]
        rfl
    unfold Creator.new
    rw [key]
    rfl

/-! ### Cases -/

/-- Three pieces, two for training and one for testing. -/
example : verifySplits ["a.mid".toList, "b.csv".toList, "c.wav".toList] ["a.key".toList, "b.key".toList, "c.key".toList]
    (some "a\nc\n".toList) (some "b\n".toList) = [3, 3, 2, 1] := by decide

example : readSplit "a\nc\n".toList = ["a".toList, "c".toList] ∧ Terminated "a\nc\n".toList ∧ ¬ Terminated "a\nc".toList := by
  refine ⟨by decide, Or.inr (by decide), ?_⟩
  rintro (h | h) <;> revert h <;> decide

/-- The conditions of `C163_splits_partial` are met by three pieces. -/
example : ∃ n a t u, verifySplits ["a.mid".toList, "b.mid".toList, "c.mid".toList] ["a.key".toList, "b.key".toList]
      (some "a\nc\n".toList) (some "b\n".toList) = [n, a, t, u] ∧ n = t + u ∧ n ≠ a := by
  obtain ⟨n, a, t, u, h, -, -, -, h1, h2⟩ := C163_splits_partial ["a".toList, "b".toList, "c".toList] (by decide) (by decide)
    (fun _ => "mid".toList) (by decide) ["a.key".toList, "b.key".toList] (by decide) (by decide) "a\nc\n".toList "b\n".toList
    (Or.inr (by decide)) (Or.inr (by decide)) (by decide) (by decide)
  exact ⟨n, a, t, u, h, h1.2 (by unfold InOneSplit; decide), fun e => absurd (h2.1 e) (by decide)⟩

end JKD.Tools
