import Verif.Model.ToolsShell
import Verif.Props.ToolsFilesProps
import Verif.Props.LabelProps
import Mathlib.Data.List.Basic
import Mathlib.Order.Lex
import Mathlib.Data.List.Lex
import Mathlib.Tactic.Tauto
/-
C117–C119: the shell tools that rename the files of a data set.
-/

namespace JKD.Shell

variable {C D : Type}

/-! ### Numbers with leading zeros -/

theorem pad4_value (n : Nat) : Nat.ofDigitChars 10 (pad4 n) 0 = n := by
  unfold pad4
  simp only [Nat.ofDigitChars_append, Nat.ofDigitChars_replicate_zero, Nat.mul_zero, Nat.ofDigitChars_ten_toDigits]

theorem pad4_inj {i j : Nat} (h : pad4 i = pad4 j) : i = j := by
  rw [← pad4_value i, ← pad4_value j, h]

theorem pad4_digit (n : Nat) : ∀ c ∈ pad4 n, c.isDigit = true := by
  intro c hc
  unfold pad4 at hc
  rcases List.mem_append.1 hc with h | h
  · rw [List.eq_of_mem_replicate h]
    decide
  · exact Nat.isDigit_of_mem_toDigits (by decide) (by decide) h

theorem pad4_length {n : Nat} (h : n < 10000) : (pad4 n).length = 4 := by
  have : (Nat.toDigits 10 n).length ≤ 4 := (Nat.length_toDigits_le_iff (by decide) (by decide)).2 (by simpa using h)
  unfold pad4
  simp only [List.length_append, List.length_replicate]
  omega

theorem pad4_not_mem (n : Nat) (c : Char) (hc : c.isDigit = false) : c ∉ pad4 n := by
  intro h
  rw [pad4_digit n c h] at hc
  cases hc

theorem digit_bounds (c : Char) (h : c.isDigit = true) : 48 ≤ c.toNat ∧ c.toNat ≤ 57 := by
  simp only [Char.isDigit, Bool.and_eq_true, decide_eq_true_eq] at h
  exact ⟨h.1, h.2⟩

theorem value_lt (a : Str) (ha : ∀ c ∈ a, c.isDigit = true) : Nat.ofDigitChars 10 a 0 < 10 ^ a.length := by
  induction a with
  | nil => simp
  | cons c a ih =>
    have h1 := ih (fun x hx => ha x (List.mem_cons_of_mem _ hx))
    have h2 := digit_bounds c (ha c (by simp))
    rw [Nat.ofDigitChars_cons, Nat.ofDigitChars_eq_ofDigitChars_zero, List.length_cons, Nat.pow_succ]
    have h3 : 10 * 0 + (c.toNat - '0'.toNat) ≤ 9 := by
      have : '0'.toNat = 48 := by decide
      omega
    have := Nat.mul_le_mul_left (10 ^ a.length) h3
    omega

theorem lt_of_value (a b u v : Str) (hl : a.length = b.length) (ha : ∀ c ∈ a, c.isDigit = true)
    (hb : ∀ c ∈ b, c.isDigit = true) (h : Nat.ofDigitChars 10 a 0 < Nat.ofDigitChars 10 b 0) : a ++ u < b ++ v := by
  induction a generalizing b with
  | nil =>
    cases b with
    | nil => simp at h
    | cons => simp at hl
  | cons c a ih =>
    cases b with
    | nil => simp at hl
    | cons c' b =>
      have hl' : a.length = b.length := by simpa using hl
      have ha' : ∀ x ∈ a, x.isDigit = true := fun x hx => ha x (List.mem_cons_of_mem _ hx)
      have hb' : ∀ x ∈ b, x.isDigit = true := fun x hx => hb x (List.mem_cons_of_mem _ hx)
      have h1 := digit_bounds c (ha c (by simp))
      have h2 := digit_bounds c' (hb c' (by simp))
      have h0 : '0'.toNat = 48 := by decide
      rw [Nat.ofDigitChars_cons, Nat.ofDigitChars_cons, Nat.ofDigitChars_eq_ofDigitChars_zero,
        Nat.ofDigitChars_eq_ofDigitChars_zero (l := b), ← hl', h0] at h
      have hva := value_lt a ha'
      have hvb := value_lt b hb'
      rw [← hl'] at hvb
      simp only [List.cons_append, List.cons_lt_cons_iff]
      rcases Nat.lt_trichotomy c.toNat c'.toNat with hc | hc | hc
      · exact Or.inl hc
      · have : c = c' := Char.toNat_inj.1 hc
        subst this
        exact Or.inr ⟨rfl, ih b hl' ha' hb' (by omega)⟩
      · exfalso
        have h3 : 10 * 0 + (c'.toNat - 48) + 1 ≤ 10 * 0 + (c.toNat - 48) := by omega
        have h4 := Nat.mul_le_mul_left (10 ^ a.length) h3
        rw [Nat.mul_add, Nat.mul_one] at h4
        omega

theorem pad4_lt {i j : Nat} (h : i < j) (hj : j < 10000) (u v : Str) : pad4 i ++ u < pad4 j ++ v := by
  apply lt_of_value
  · rw [pad4_length hj, pad4_length (Nat.lt_trans h hj)]
  · exact pad4_digit i
  · exact pad4_digit j
  · rw [pad4_value, pad4_value]
    exact h

/-! ### Renaming -/

/-- **Specification.**  `d'` is `d` with every pair of names renamed from the first to the second: the contents have moved,
the old names are free and all other names are as they were. -/
structure Renamed (ps : List (Str × Str)) (d d' : Folder C) : Prop where
  moved : ∀ p ∈ ps, d' p.2 = d p.1
  free : ∀ p ∈ ps, p.1 ≠ p.2 → d' p.1 = none
  others : ∀ n, (∀ p ∈ ps, n ≠ p.1 ∧ n ≠ p.2) → d' n = d n

/-- No name is taken twice, and no new name is the old name of another file. -/
def Apart (ps : List (Str × Str)) : Prop :=
  ps.Pairwise (fun p q => p.1 ≠ q.1 ∧ p.2 ≠ q.2 ∧ p.1 ≠ q.2 ∧ p.2 ≠ q.1)

def mvs (ps : List (Str × Str)) (d : Folder C) : Folder C := ps.foldl (fun d p => mv d p.1 p.2) d

theorem mv_new (d : Folder C) (a b : Str) (h : d a ≠ none) : mv d a b b = d a := by
  unfold mv
  by_cases e : a = b
  · rw [if_pos e, e]
  · rw [if_neg e]
    cases hd : d a with
    | none => exact absurd hd h
    | some x => simp [Function.update, Ne.symm e]

theorem mv_old (d : Folder C) (a b : Str) (h : d a ≠ none) (e : a ≠ b) : mv d a b a = none := by
  unfold mv
  rw [if_neg e]
  cases hd : d a with
  | none => exact absurd hd h
  | some x => simp

theorem mv_other (d : Folder C) (a b n : Str) (h1 : n ≠ a) (h2 : n ≠ b) : mv d a b n = d n := by
  unfold mv
  split
  · rfl
  · cases d a with
    | none => rfl
    | some x => simp [Function.update, h1, h2]

theorem mvs_other (ps : List (Str × Str)) (d : Folder C) (n : Str) (h : ∀ p ∈ ps, n ≠ p.1 ∧ n ≠ p.2) : mvs ps d n = d n := by
  induction ps generalizing d with
  | nil => rfl
  | cons p ps ih =>
    have h1 := h p (by simp)
    have := ih (mv d p.1 p.2) (fun q hq => h q (List.mem_cons_of_mem _ hq))
    rw [mv_other d _ _ n h1.1 h1.2] at this
    exact this

theorem mvs_renamed (ps : List (Str × Str)) (d : Folder C) (h : Apart ps) (he : ∀ p ∈ ps, d p.1 ≠ none) :
    Renamed ps d (mvs ps d) := by
  induction ps generalizing d with
  | nil => exact ⟨by simp, by simp, fun _ _ => rfl⟩
  | cons p ps ih =>
    unfold Apart at h
    rw [List.pairwise_cons] at h
    have hp := he p (by simp)
    have hsame : ∀ q ∈ ps, mv d p.1 p.2 q.1 = d q.1 := fun q hq =>
      mv_other d _ _ _ (h.1 q hq).1.symm (h.1 q hq).2.2.2.symm
    have r := ih (mv d p.1 p.2) h.2 (fun q hq => by rw [hsame q hq]; exact he q (List.mem_cons_of_mem _ hq))
    refine ⟨?_, ?_, fun n hn => mvs_other _ _ _ hn⟩
    · intro q hq
      rcases List.mem_cons.1 hq with rfl | hq
      · rw [show mvs (q :: ps) d = mvs ps (mv d q.1 q.2) from rfl,
          mvs_other ps _ q.2 (fun x hx => ⟨(h.1 x hx).2.2.2, (h.1 x hx).2.1⟩)]
        exact mv_new d _ _ hp
      · rw [← hsame q hq]
        exact r.moved q hq
    · intro q hq hne
      rcases List.mem_cons.1 hq with rfl | hq
      · rw [show mvs (q :: ps) d = mvs ps (mv d q.1 q.2) from rfl,
          mvs_other ps _ q.1 (fun x hx => ⟨(h.1 x hx).1, (h.1 x hx).2.2.1⟩)]
        exact mv_old d _ _ hp hne
      · exact r.free q hq hne

theorem cp_rm (d : Folder C) (a b : Str) (h : a ≠ b) : rm (cp d a b) a = mv d a b := by
  unfold rm cp mv
  rw [if_neg h, if_neg h]
  cases hd : d a with
  | none =>
    simp only
    rw [← hd, Function.update_eq_self]
  | some x => rfl

/-! ### File names -/

theorem ext_file (s e : Str) (he : '.' ∉ e) : ext (s ++ '.' :: e) = e := by
  unfold ext
  rw [List.reverse_append, List.reverse_cons, List.append_assoc, List.takeWhile_append_of_pos]
  · simp
  · intro c hc
    have : c ≠ '.' := fun h => he (by rw [← h]; exact List.mem_reverse.1 hc)
    simpa using this

theorem noext_file (s e : Str) (he : '.' ∉ e) : noext (s ++ '.' :: e) = s := by
  unfold noext
  rw [if_pos (by simp), List.reverse_append, List.reverse_cons, List.append_assoc, List.dropWhile_append_of_pos]
  · simp
  · intro c hc
    have : c ≠ '.' := fun h => he (by rw [← h]; exact List.mem_reverse.1 hc)
    simpa using this

/-- A name `s.e` with no dot in `e` has no other reading. -/
theorem file_inj {s s' e e' : Str} (he : '.' ∉ e) (he' : '.' ∉ e') (h : s ++ '.' :: e = s' ++ '.' :: e') : s = s' ∧ e = e' := by
  have h1 := noext_file s e he
  have h2 := ext_file s e he
  rw [h, noext_file s' e' he'] at h1
  rw [h, ext_file s' e' he'] at h2
  exact ⟨h1.symm, h2.symm⟩

theorem key_inj {s s' : Str} (h : s ++ ".key".toList = s' ++ ".key".toList) : s = s' := List.append_cancel_right h

/-- The pairs of names of the pieces from number `i` on. -/
def featurePairs (i : Nat) : List (Str × Str) → List (Str × Str)
  | [] => []
  | x :: xs => (x.1 ++ '.' :: x.2, pad4 i ++ '.' :: x.2) :: featurePairs (i + 1) xs

def keyPairs (i : Nat) : List (Str × Str) → List (Str × Str)
  | [] => []
  | x :: xs => (x.1 ++ ".key".toList, pad4 i ++ ".key".toList) :: keyPairs (i + 1) xs

theorem mem_featurePairs (i : Nat) (xs : List (Str × Str)) (p : Str × Str) : p ∈ featurePairs i xs ↔
    ∃ (k : Nat) (h : k < xs.length), p = (xs[k].1 ++ '.' :: xs[k].2, pad4 (i + k) ++ '.' :: xs[k].2) := by
  induction xs generalizing i with
  | nil => simp [featurePairs]
  | cons x xs ih =>
    simp only [featurePairs, List.mem_cons, ih]
    constructor
    · rintro (rfl | ⟨k, h, rfl⟩)
      · exact ⟨0, by simp, by simp⟩
      · exact ⟨k + 1, by simpa using h, by simp [Nat.add_assoc, Nat.add_comm 1 k]⟩
    · rintro ⟨k, h, rfl⟩
      cases k with
      | zero => exact Or.inl (by simp)
      | succ k => exact Or.inr ⟨k, by simpa using h, by simp [Nat.add_assoc, Nat.add_comm 1 k]⟩

theorem mem_keyPairs (i : Nat) (xs : List (Str × Str)) (p : Str × Str) : p ∈ keyPairs i xs ↔
    ∃ (k : Nat) (h : k < xs.length), p = (xs[k].1 ++ ".key".toList, pad4 (i + k) ++ ".key".toList) := by
  induction xs generalizing i with
  | nil => simp [keyPairs]
  | cons x xs ih =>
    simp only [keyPairs, List.mem_cons, ih]
    constructor
    · rintro (rfl | ⟨k, h, rfl⟩)
      · exact ⟨0, by simp, by simp⟩
      · exact ⟨k + 1, by simpa using h, by simp [Nat.add_assoc, Nat.add_comm 1 k]⟩
    · rintro ⟨k, h, rfl⟩
      cases k with
      | zero => exact Or.inl (by simp)
      | succ k => exact Or.inr ⟨k, by simpa using h, by simp [Nat.add_assoc, Nat.add_comm 1 k]⟩

theorem shorten_mvs (i : Nat) (xs : List (Str × Str)) (hdot : ∀ x ∈ xs, '.' ∉ x.2)
    (hnew : ∀ x ∈ xs, ∀ k < xs.length, x.1 ≠ pad4 (i + k)) (features : Folder C) (annotations : Folder D) :
    shorten i (xs.map (fun x => x.1 ++ '.' :: x.2)) (features, annotations) =
      (mvs (featurePairs i xs) features, mvs (keyPairs i xs) annotations) := by
  induction xs generalizing i features annotations with
  | nil => rfl
  | cons x xs ih =>
    have hx := hdot x (by simp)
    have h0 : x.1 ≠ pad4 i := hnew x (by simp) 0 (by simp)
    simp only [List.map_cons, shorten, ext_file _ _ hx, noext_file _ _ hx]
    rw [cp_rm _ _ _ (fun h => h0 (file_inj hx hx h).1), cp_rm _ _ _ (fun h => h0 (key_inj h)),
      ih (i + 1) (fun y hy => hdot y (List.mem_cons_of_mem _ hy))]
    · rfl
    · intro y hy k hk
      have := hnew y (List.mem_cons_of_mem _ hy) (k + 1) (by simpa using hk)
      rwa [show i + (k + 1) = i + 1 + k by omega] at this

theorem apart_feature (i : Nat) (xs : List (Str × Str)) (hdot : ∀ x ∈ xs, '.' ∉ x.2) (hs : (xs.map Prod.fst).Nodup)
    (hnew : ∀ x ∈ xs, ∀ k < xs.length, x.1 ≠ pad4 (i + k)) : Apart (featurePairs i xs) := by
  induction xs generalizing i with
  | nil => exact List.Pairwise.nil
  | cons x xs ih =>
    rw [List.map_cons, List.nodup_cons] at hs
    refine List.Pairwise.cons ?_ (ih (i + 1) (fun y hy => hdot y (List.mem_cons_of_mem _ hy)) hs.2 ?_)
    · intro p hp
      obtain ⟨k, hk, rfl⟩ := (mem_featurePairs _ _ _).1 hp
      have hx := hdot x (by simp)
      have hy := hdot xs[k] (List.mem_cons_of_mem _ (List.getElem_mem hk))
      refine ⟨?_, ?_, ?_, ?_⟩ <;> intro h
      · exact hs.1 ((file_inj hx hy h).1 ▸ List.mem_map_of_mem (List.getElem_mem hk))
      · have := pad4_inj (file_inj hx hy h).1
        omega
      · have := (file_inj hx hy h).1
        exact hnew x (by simp) (k + 1) (by simpa using hk) (by rw [this]; congr 1; omega)
      · have := (file_inj hx hy h).1
        exact hnew xs[k] (List.mem_cons_of_mem _ (List.getElem_mem hk)) 0 (by simp) this.symm
    · intro y hy k hk
      have := hnew y (List.mem_cons_of_mem _ hy) (k + 1) (by simpa using hk)
      rwa [show i + (k + 1) = i + 1 + k by omega] at this

theorem apart_key (i : Nat) (xs : List (Str × Str)) (hs : (xs.map Prod.fst).Nodup)
    (hnew : ∀ x ∈ xs, ∀ k < xs.length, x.1 ≠ pad4 (i + k)) : Apart (keyPairs i xs) := by
  induction xs generalizing i with
  | nil => exact List.Pairwise.nil
  | cons x xs ih =>
    rw [List.map_cons, List.nodup_cons] at hs
    refine List.Pairwise.cons ?_ (ih (i + 1) hs.2 ?_)
    · intro p hp
      obtain ⟨k, hk, rfl⟩ := (mem_keyPairs _ _ _).1 hp
      refine ⟨?_, ?_, ?_, ?_⟩ <;> intro h
      · exact hs.1 (key_inj h ▸ List.mem_map_of_mem (List.getElem_mem hk))
      · have := pad4_inj (key_inj h)
        omega
      · have := key_inj h
        exact hnew x (by simp) (k + 1) (by simpa using hk) (by rw [this]; congr 1; omega)
      · have := key_inj h
        exact hnew xs[k] (List.mem_cons_of_mem _ (List.getElem_mem hk)) 0 (by simp) this.symm
    · intro y hy k hk
      have := hnew y (List.mem_cons_of_mem _ hy) (k + 1) (by simpa using hk)
      rwa [show i + (k + 1) = i + 1 + k by omega] at this

/-- **C117, short names.**  For pieces with different stems, none of them a number of the new form, shorten_names.sh loses
nothing: the piece listed in place `k` and its annotation are found under the number `k`, the old names are gone, and no
other file is touched. -/
theorem C117_shorten_partial (xs : List (Str × Str)) (hdot : ∀ x ∈ xs, '.' ∉ x.2) (hs : (xs.map Prod.fst).Nodup)
    (hnew : ∀ x ∈ xs, ∀ k < xs.length, x.1 ≠ pad4 k) (features : Folder C) (annotations : Folder D)
    (hf : ∀ x ∈ xs, features (x.1 ++ '.' :: x.2) ≠ none) (ha : ∀ x ∈ xs, annotations (x.1 ++ ".key".toList) ≠ none) :
    let r := shorten 0 (xs.map (fun x => x.1 ++ '.' :: x.2)) (features, annotations)
    (∀ (k : Nat) (hk : k < xs.length), r.1 (pad4 k ++ '.' :: xs[k].2) = features (xs[k].1 ++ '.' :: xs[k].2) ∧
      r.2 (pad4 k ++ ".key".toList) = annotations (xs[k].1 ++ ".key".toList)) ∧
    (∀ x ∈ xs, r.1 (x.1 ++ '.' :: x.2) = none ∧ r.2 (x.1 ++ ".key".toList) = none) ∧
    (∀ n, (∀ (k : Nat) (hk : k < xs.length), n ≠ xs[k].1 ++ '.' :: xs[k].2 ∧ n ≠ pad4 k ++ '.' :: xs[k].2) →
      r.1 n = features n) ∧
    (∀ n, (∀ (k : Nat) (hk : k < xs.length), n ≠ xs[k].1 ++ ".key".toList ∧ n ≠ pad4 k ++ ".key".toList) →
      r.2 n = annotations n) := by
  intro r
  have hnew' : ∀ x ∈ xs, ∀ k < xs.length, x.1 ≠ pad4 (0 + k) := by simpa using hnew
  have hr : r = (mvs (featurePairs 0 xs) features, mvs (keyPairs 0 xs) annotations) := shorten_mvs 0 xs hdot hnew' _ _
  have h1 := mvs_renamed _ features (apart_feature 0 xs hdot hs hnew') (by
    intro p hp
    obtain ⟨k, hk, rfl⟩ := (mem_featurePairs _ _ _).1 hp
    exact hf _ (List.getElem_mem hk))
  have h2 := mvs_renamed _ annotations (apart_key 0 xs hs hnew') (by
    intro p hp
    obtain ⟨k, hk, rfl⟩ := (mem_keyPairs _ _ _).1 hp
    exact ha _ (List.getElem_mem hk))
  rw [hr]
  refine ⟨?_, ?_, ?_, ?_⟩
  · intro k hk
    have a := h1.moved _ ((mem_featurePairs _ _ _).2 ⟨k, hk, rfl⟩)
    have b := h2.moved _ ((mem_keyPairs _ _ _).2 ⟨k, hk, rfl⟩)
    rw [Nat.zero_add] at a b
    exact ⟨a, b⟩
  · intro x hx
    obtain ⟨k, hk, rfl⟩ := List.getElem_of_mem hx
    have n0 := hnew _ (List.getElem_mem hk) k hk
    have d0 := hdot _ (List.getElem_mem hk)
    exact ⟨h1.free _ ((mem_featurePairs _ _ _).2 ⟨k, hk, rfl⟩) (fun h => n0 (by simpa using (file_inj d0 d0 h).1)),
      h2.free _ ((mem_keyPairs _ _ _).2 ⟨k, hk, rfl⟩) (fun h => n0 (by simpa using key_inj h))⟩
  · intro n hn
    refine h1.others n ?_
    intro p hp
    obtain ⟨k, hk, rfl⟩ := (mem_featurePairs _ _ _).1 hp
    rw [Nat.zero_add]
    exact hn k hk
  · intro n hn
    refine h2.others n ?_
    intro p hp
    obtain ⟨k, hk, rfl⟩ := (mem_keyPairs _ _ _).1 hp
    rw [Nat.zero_add]
    exact hn k hk

/-- Two pieces, `a.csv` and `b.x.mid`. -/
def exFeatures : Folder Nat := fun n => if n = "a.csv".toList then some 1 else if n = "b.x.mid".toList then some 2 else none

def exAnnotations : Folder Char := fun n => if n = "a.key".toList then some 'C' else if n = "b.x.key".toList then some 'd' else none

example : (shorten 0 ["a.csv".toList, "b.x.mid".toList] (exFeatures, exAnnotations)).1 "0001.mid".toList = some 2 ∧
    (shorten 0 ["a.csv".toList, "b.x.mid".toList] (exFeatures, exAnnotations)).2 "0001.key".toList = some 'd' ∧
    (shorten 0 ["a.csv".toList, "b.x.mid".toList] (exFeatures, exAnnotations)).1 "b.x.mid".toList = none := by
  have := C117_shorten_partial [("a".toList, "csv".toList), ("b.x".toList, "mid".toList)] (by decide) (by decide) (by decide)
    exFeatures exAnnotations (by decide) (by decide)
  exact ⟨(this.1 1 (by decide)).1, (this.1 1 (by decide)).2, (this.2.1 ("b.x".toList, "mid".toList) (by decide)).1⟩

/-! ### A second run -/

/-- The numbered names from number `i` on. -/
def nums (i : Nat) : List Str → List Str
  | [] => []
  | e :: es => (pad4 i ++ '.' :: e) :: nums (i + 1) es

theorem mem_nums (i : Nat) (es : List Str) (n : Str) :
    n ∈ nums i es ↔ ∃ (k : Nat) (h : k < es.length), n = pad4 (i + k) ++ '.' :: es[k] := by
  induction es generalizing i with
  | nil => simp [nums]
  | cons e es ih =>
    simp only [nums, List.mem_cons, ih]
    constructor
    · rintro (rfl | ⟨k, h, rfl⟩)
      · exact ⟨0, by simp, by simp⟩
      · exact ⟨k + 1, by simpa using h, by simp [Nat.add_assoc, Nat.add_comm 1 k]⟩
    · rintro ⟨k, h, rfl⟩
      cases k with
      | zero => exact Or.inl (by simp)
      | succ k => exact Or.inr ⟨k, by simpa using h, by simp [Nat.add_assoc, Nat.add_comm 1 k]⟩

theorem nums_sorted (i : Nat) (es : List Str) (h : i + es.length ≤ 10000) : (nums i es).Pairwise (· < ·) := by
  induction es generalizing i with
  | nil => exact List.Pairwise.nil
  | cons e es ih =>
    rw [List.length_cons] at h
    refine List.Pairwise.cons ?_ (ih (i + 1) (by omega))
    intro n hn
    obtain ⟨k, hk, rfl⟩ := (mem_nums _ _ _).1 hn
    exact pad4_lt (by omega) (by omega) _ _

theorem str_ne {a b : Str} (h : a < b) : a ≠ b := by
  rintro rfl
  exact List.lt_irrefl a h

theorem cp_self (d : Folder C) (a : Str) : cp d a a = d := if_pos rfl

theorem rm_none (d : Folder C) (a n : Str) (h : d n = none) : rm d a n = none := by
  unfold rm
  by_cases e : n = a
  · subst e
    simp
  · rw [Function.update_of_ne e, h]

/-- On numbered names the script only deletes. -/
theorem shorten_nums (i : Nat) (es : List Str) (he : ∀ e ∈ es, '.' ∉ e) (features : Folder C) (annotations : Folder D) :
    let r := shorten i (nums i es) (features, annotations)
    (∀ n, features n = none → r.1 n = none) ∧ (∀ n ∈ nums i es, r.1 n = none) ∧
    (∀ n, annotations n = none → r.2 n = none) ∧ (∀ k < es.length, r.2 (pad4 (i + k) ++ ".key".toList) = none) := by
  induction es generalizing i features annotations with
  | nil => exact ⟨fun _ h => h, by simp [nums], fun _ h => h, by simp⟩
  | cons e es ih =>
    have h0 := he e (by simp)
    intro r
    have hr : r = shorten (i + 1) (nums (i + 1) es) (rm features (pad4 i ++ '.' :: e), rm annotations (pad4 i ++ ".key".toList)) := by
      simp only [r, nums, shorten, ext_file _ _ h0, noext_file _ _ h0, cp_self]
    have := ih (i + 1) (fun x hx => he x (List.mem_cons_of_mem _ hx)) (rm features (pad4 i ++ '.' :: e))
      (rm annotations (pad4 i ++ ".key".toList))
    simp only at this
    rw [← hr] at this
    obtain ⟨t1, t2, t3, t4⟩ := this
    refine ⟨?_, ?_, ?_, ?_⟩
    · intro n hn
      refine t1 n ?_
      exact rm_none _ _ _ hn
    · intro n hn
      rcases List.mem_cons.1 hn with rfl | hn
      · exact t1 _ (by simp [rm])
      · exact t2 n hn
    · intro n hn
      refine t3 n ?_
      exact rm_none _ _ _ hn
    · intro k hk
      cases k with
      | zero => exact t3 _ (by simp [rm])
      | succ k =>
        rw [show i + (k + 1) = i + 1 + k by omega]
        exact t4 k (by simpa using hk)

/-- After one run the folder holds the numbered names. -/
theorem shorten_names (xs : List (Str × Str)) (hdot : ∀ x ∈ xs, '.' ∉ x.2)
    (hs : (xs.map Prod.fst).Nodup) (hnew : ∀ x ∈ xs, ∀ k < xs.length, x.1 ≠ pad4 k) (features : Folder C)
    (annotations : Folder D) (hf : ∀ n, features n ≠ none ↔ ∃ x ∈ xs, n = x.1 ++ '.' :: x.2)
    (ha : ∀ n, annotations n ≠ none ↔ ∃ x ∈ xs, n = x.1 ++ ".key".toList) (n : Str) :
    (shorten 0 (xs.map (fun x => x.1 ++ '.' :: x.2)) (features, annotations)).1 n ≠ none ↔ n ∈ nums 0 (xs.map Prod.snd) := by
  obtain ⟨h1, h2, h3, -⟩ := C117_shorten_partial xs hdot hs hnew features annotations
    (fun x hx => (hf _).2 ⟨x, hx, rfl⟩) (fun x hx => (ha _).2 ⟨x, hx, rfl⟩)
  rw [mem_nums]
  constructor
  · intro hn
    by_contra hc
    have hother : ∀ (k : Nat) (hk : k < xs.length), n ≠ xs[k].1 ++ '.' :: xs[k].2 ∧ n ≠ pad4 k ++ '.' :: xs[k].2 := by
      intro k hk
      refine ⟨?_, ?_⟩
      · rintro rfl
        exact hn (h2 _ (List.getElem_mem hk)).1
      · rintro rfl
        exact hc ⟨k, by simpa using hk, by simp⟩
    rw [h3 n hother] at hn
    obtain ⟨x, hx, rfl⟩ := (hf n).1 hn
    obtain ⟨k, hk, rfl⟩ := List.getElem_of_mem hx
    exact (hother k hk).1 rfl
  · rintro ⟨k, hk, rfl⟩
    have hk' : k < xs.length := by simpa using hk
    have := (h1 k hk').1
    rw [Nat.zero_add, List.getElem_map, this]
    exact (hf _).2 ⟨_, List.getElem_mem hk', rfl⟩

/-- **C117 violated, second run.**  Take any data set of at most 10000 pieces, each with its annotation, on which
shorten_names.sh works as it should.  Run it once more, with the listing sorted as `ls` does: every piece and every
annotation is deleted. -/
theorem C117_second_run_violated (xs : List (Str × Str)) (hlen : xs.length ≤ 10000) (hdot : ∀ x ∈ xs, '.' ∉ x.2)
    (hs : (xs.map Prod.fst).Nodup) (hnew : ∀ x ∈ xs, ∀ k < xs.length, x.1 ≠ pad4 k) (features : Folder C)
    (annotations : Folder D) (hf : ∀ n, features n ≠ none ↔ ∃ x ∈ xs, n = x.1 ++ '.' :: x.2)
    (ha : ∀ n, annotations n ≠ none ↔ ∃ x ∈ xs, n = x.1 ++ ".key".toList) (ls : List Str) :
    let r := shorten 0 (xs.map (fun x => x.1 ++ '.' :: x.2)) (features, annotations)
    (hls : ∀ n, n ∈ ls ↔ r.1 n ≠ none) → (hsort : ls.Pairwise (· < ·)) →
    ∀ n, (shorten 0 ls r).1 n = none ∧ (shorten 0 ls r).2 n = none := by
  intro r hls hsort
  obtain ⟨h1, h2, h3, h4⟩ := C117_shorten_partial xs hdot hs hnew features annotations
    (fun x hx => (hf _).2 ⟨x, hx, rfl⟩) (fun x hx => (ha _).2 ⟨x, hx, rfl⟩)
  have hmem : ∀ n, r.1 n ≠ none ↔ n ∈ nums 0 (xs.map Prod.snd) := shorten_names xs hdot hs hnew features annotations hf ha
  have hkey : ∀ n, r.2 n ≠ none → ∃ k < xs.length, n = pad4 (0 + k) ++ ".key".toList := by
    intro n hn
    by_contra hc
    have hother : ∀ (k : Nat) (hk : k < xs.length), n ≠ xs[k].1 ++ ".key".toList ∧ n ≠ pad4 k ++ ".key".toList := by
      intro k hk
      refine ⟨?_, ?_⟩
      · rintro rfl
        exact hn (h2 _ (List.getElem_mem hk)).2
      · rintro rfl
        exact hc ⟨k, hk, by simp⟩
    rw [h4 n hother] at hn
    obtain ⟨x, hx, rfl⟩ := (ha n).1 hn
    obtain ⟨k, hk, rfl⟩ := List.getElem_of_mem hx
    exact (hother k hk).1 rfl
  have hnums := nums_sorted 0 (xs.map Prod.snd) (by simpa using hlen)
  have heq : ls = nums 0 (xs.map Prod.snd) := by
    have hp : ls.Perm (nums 0 (xs.map Prod.snd)) :=
      (List.perm_ext_iff_of_nodup (hsort.imp (fun h => str_ne h)) (hnums.imp (fun h => str_ne h))).2
        (fun n => (hls n).trans (hmem n))
    exact hp.eq_of_pairwise (fun a b _ _ h1 h2 => absurd h2 (List.lt_asymm h1)) hsort hnums
  obtain ⟨t1, t2, t3, t4⟩ := shorten_nums 0 (xs.map Prod.snd) (by
    intro e he
    obtain ⟨x, hx, rfl⟩ := List.mem_map.1 he
    exact hdot x hx) r.1 r.2
  rw [heq]
  intro n
  refine ⟨?_, ?_⟩
  · by_cases h : r.1 n = none
    · exact t1 n h
    · exact t2 n ((hmem n).1 h)
  · by_cases h : r.2 n = none
    · exact t3 n h
    · obtain ⟨k, hk, rfl⟩ := hkey n h
      exact t4 k (by simpa using hk)

/-- The two pieces above. -/
example : ∃ ls : List Str, ∀ n,
    (shorten 0 ls (shorten 0 ["a.csv".toList, "b.x.mid".toList] (exFeatures, exAnnotations))).1 n = none := by
  have hf : ∀ n, exFeatures n ≠ none ↔ ∃ x ∈ [("a".toList, "csv".toList), ("b.x".toList, "mid".toList)], n = x.1 ++ '.' :: x.2 := by
    intro n
    unfold exFeatures
    by_cases h : n = "a.csv".toList
    · simp [h]
    · by_cases h' : n = "b.x.mid".toList
      · simp [h']
      · rw [if_neg h, if_neg h']
        simp at h h' ⊢
        exact ⟨h, h'⟩
  have ha : ∀ n, exAnnotations n ≠ none ↔ ∃ x ∈ [("a".toList, "csv".toList), ("b.x".toList, "mid".toList)],
      n = x.1 ++ ".key".toList := by
    intro n
    unfold exAnnotations
    by_cases h : n = "a.key".toList
    · simp [h]
    · by_cases h' : n = "b.x.key".toList
      · simp [h']
      · rw [if_neg h, if_neg h']
        simp at h h' ⊢
        exact ⟨h, h'⟩
  have hn := shorten_names _ (by decide) (by decide) (by decide) exFeatures exAnnotations hf ha
  exact ⟨nums 0 ["csv".toList, "mid".toList], fun n => (C117_second_run_violated _ (by decide) (by decide) (by decide)
    (by decide) exFeatures exAnnotations hf ha _ (fun n => (hn n).symm) (nums_sorted 0 _ (by decide)) n).1⟩

/-- **C117 violated, two forms of a piece.**  A piece given as `s.e` and as `s.e'`, with one annotation for both: the second
keeps its file, as `0001.e'`, but no longer has an annotation. -/
theorem C117_same_stem_violated (s e e' : Str) (he : '.' ∉ e) (he' : '.' ∉ e') (hne : e ≠ e') (h0 : s ≠ pad4 0)
    (h1 : s ≠ pad4 1) (features : Folder C) (annotations : Folder D) (x : C) (hx : features (s ++ '.' :: e') = some x)
    (hfree : annotations (pad4 1 ++ ".key".toList) = none) :
    let r := shorten 0 [s ++ '.' :: e, s ++ '.' :: e'] (features, annotations)
    r.1 (pad4 1 ++ '.' :: e') = some x ∧ r.2 (pad4 1 ++ ".key".toList) = none := by
  intro r
  have hr : r = (mv (mv features (s ++ '.' :: e) (pad4 0 ++ '.' :: e)) (s ++ '.' :: e') (pad4 1 ++ '.' :: e'),
      mv (mv annotations (s ++ ".key".toList) (pad4 0 ++ ".key".toList)) (s ++ ".key".toList) (pad4 1 ++ ".key".toList)) := by
    simp only [r, shorten, ext_file _ _ he, noext_file _ _ he, ext_file _ _ he', noext_file _ _ he']
    rw [cp_rm _ _ _ (fun h => h0 (file_inj he he h).1), cp_rm _ _ _ (fun h => h1 (file_inj he' he' h).1),
      cp_rm _ _ _ (fun h => h0 (key_inj h)), cp_rm _ _ _ (fun h => h1 (key_inj h))]
  rw [hr]
  have hs : mv features (s ++ '.' :: e) (pad4 0 ++ '.' :: e) (s ++ '.' :: e') = some x := by
    rw [mv_other _ _ _ _ (fun h => hne (file_inj he' he h).2.symm) (fun h => h0 (file_inj he' he h).1), hx]
  have hp : pad4 1 ≠ pad4 0 := by decide
  refine ⟨?_, ?_⟩
  · exact (mv_new _ _ _ (by rw [hs]; simp)).trans hs
  · have hk : mv annotations (s ++ ".key".toList) (pad4 0 ++ ".key".toList) (s ++ ".key".toList) = none := by
      by_cases h : annotations (s ++ ".key".toList) = none
      · unfold mv
        rw [if_neg (fun h => h0 (key_inj h)), h]
        exact h
      · exact mv_old _ _ _ h (fun h => h0 (key_inj h))
    have : ∀ d : Folder D, d (s ++ ".key".toList) = none → ∀ b, mv d (s ++ ".key".toList) b = d := by
      intro d hd b
      unfold mv
      rw [hd]
      split <;> rfl
    change mv _ _ _ _ = none
    rw [this _ hk, mv_other _ _ _ _ (fun h => h1 (key_inj h).symm) (fun h => hp (key_inj h)), hfree]

example : (shorten 0 ["a.csv".toList, "a.mid".toList] ((fun _ => some 1 : Folder Nat),
    (fun n => if n = "a.key".toList then some 'C' else none : Folder Char))).2 "0001.key".toList = none :=
  (C117_same_stem_violated "a".toList "csv".toList "mid".toList (by decide) (by decide) (by decide) (by decide) (by decide)
    (fun _ => some 1) (fun n => if n = "a.key".toList then some 'C' else none) 1 rfl (by decide)).2

/-! ### The scripts with `mv` -/

theorem mvAll_mvs (target : Str → Str) (fs : List Str) (d : Folder C) :
    mvAll target fs d = mvs (fs.map (fun f => (f, target f))) d := by
  induction fs generalizing d with
  | nil => rfl
  | cons f fs ih => exact ih _

theorem apart_map (target : Str → Str) (fs : List Str) (h1 : fs.Nodup) (h2 : (fs.map target).Nodup)
    (h3 : ∀ f ∈ fs, ∀ g ∈ fs, f ≠ g → target f ≠ g) : Apart (fs.map (fun f => (f, target f))) := by
  unfold Apart
  rw [List.pairwise_map]
  induction fs with
  | nil => exact List.Pairwise.nil
  | cons f fs ih =>
    rw [List.nodup_cons] at h1
    rw [List.map_cons, List.nodup_cons] at h2
    refine List.Pairwise.cons ?_ (ih h1.2 h2.2 (fun x hx y hy => h3 x (List.mem_cons_of_mem _ hx) y (List.mem_cons_of_mem _ hy)))
    intro g hg
    have hne : f ≠ g := fun h => h1.1 (h ▸ hg)
    exact ⟨hne, fun h => h2.1 (by rw [show target f = target g from h]; exact List.mem_map_of_mem hg), fun h => h3 g (List.mem_cons_of_mem _ hg) f (by simp) hne.symm h.symm,
      h3 f (by simp) g (List.mem_cons_of_mem _ hg) hne⟩

theorem fields_ne (d : Char) (s : Str) : fields d s ≠ [] := by
  cases s with
  | nil => simp [fields]
  | cons c s =>
    unfold fields
    split
    · simp
    · split <;> simp

theorem fields_clean (d : Char) (a : Str) (ha : d ∉ a) : fields d a = [a] := by
  induction a with
  | nil => rfl
  | cons c a ih =>
    have hc : c ≠ d := fun h => ha (by simp [h])
    rw [fields, if_neg hc, ih (fun h => ha (List.mem_cons_of_mem _ h))]

theorem fields_cons (d : Char) (a s : Str) (ha : d ∉ a) : fields d (a ++ d :: s) = a :: fields d s := by
  induction a with
  | nil => simp [fields]
  | cons c a ih =>
    have hc : c ≠ d := fun h => ha (by simp [h])
    rw [List.cons_append, fields, if_neg hc, ih (fun h => ha (List.mem_cons_of_mem _ h))]

theorem cut_first (d : Char) (a s : Str) (ha : d ∉ a) : cut d 1 (a ++ d :: s) = a := by
  unfold cut
  rw [if_pos (by simp), fields_cons d a s ha]
  rfl

theorem fields_head (d : Char) (s : Str) : (fields d s).getD 0 [] = s.takeWhile (· ≠ d) := by
  induction s with
  | nil => rfl
  | cons c s ih =>
    unfold fields
    by_cases hc : c = d
    · simp [hc]
    · rw [if_neg hc, List.takeWhile_cons, if_pos (by simpa using hc), ← ih]
      cases hf : fields d s with
      | nil => exact absurd hf (fields_ne d s)
      | cons f fs => rfl

theorem cut_second (d : Char) (a s : Str) (ha : d ∉ a) : cut d 2 (a ++ d :: s) = s.takeWhile (· ≠ d) := by
  unfold cut
  rw [if_pos (by simp), fields_cons d a s ha, ← fields_head]
  rfl

theorem billboardId_eq (a b c : Str) (ha : '_' ∉ a) (hb : '_' ∉ b) (hb' : '-' ∉ b) :
    billboardId (a ++ '_' :: (b ++ '-' :: c)) = b := by
  unfold billboardId
  rw [cut_second _ _ _ ha, List.takeWhile_append_of_pos, List.takeWhile_cons, if_pos (by decide), cut_first _ _ _ hb']
  intro x hx
  have : x ≠ '_' := fun h => hb (h ▸ hx)
  simpa using this

/-- What the scripts with `mv` have in common: the files are renamed if no target is taken twice or a listed name. -/
theorem mvAll_renamed {ι : Type} (target : Str → Str) (xs : List ι) (old new : ι → Str) (ht : ∀ x ∈ xs, target (old x) = new x)
    (hnew : (xs.map new).Nodup) (hne : ∀ x ∈ xs, ∀ y ∈ xs, new x = old y → old x = old y) (d : Folder C)
    (he : ∀ x ∈ xs, d (old x) ≠ none) : Renamed (xs.map (fun x => (old x, new x))) d (mvAll target (xs.map old) d) := by
  have hcongr : xs.map (fun x => (old x, new x)) = (xs.map old).map (fun f => (f, target f)) := by
    rw [List.map_map]
    exact List.map_congr_left (fun x hx => by simp [ht x hx])
  have htn : (xs.map old).map target = xs.map new := by
    rw [List.map_map]
    exact List.map_congr_left ht
  rw [hcongr, mvAll_mvs]
  refine mvs_renamed _ _ (apart_map _ _ ?_ ?_ ?_) ?_
  · refine List.Nodup.of_map target ?_
    rw [htn]
    exact hnew
  · rw [htn]
    exact hnew
  · intro f hf g hg hfg h
    obtain ⟨x, hx, rfl⟩ := List.mem_map.1 hf
    obtain ⟨y, hy, rfl⟩ := List.mem_map.1 hg
    rw [ht x hx] at h
    exact hfg (hne x hx y hy h)
  · intro p hp
    obtain ⟨f, hf, rfl⟩ := List.mem_map.1 hp
    obtain ⟨x, hx, rfl⟩ := List.mem_map.1 hf
    exact he x hx

/-- **C117, GiantSteps.**  Files `id_rest` with different `id` become `id.csv`. -/
theorem C117_giantsteps_partial (xs : List (Str × Str)) (hid : ∀ x ∈ xs, '_' ∉ x.1) (hd : (xs.map Prod.fst).Nodup)
    (d : Folder C) (he : ∀ x ∈ xs, d (x.1 ++ '_' :: x.2) ≠ none) :
    Renamed (xs.map (fun x => (x.1 ++ '_' :: x.2, x.1 ++ ".csv".toList))) d
      (mvAll giantstepsTarget (xs.map (fun x => x.1 ++ '_' :: x.2)) d) := by
  refine mvAll_renamed _ xs _ _ ?_ ?_ ?_ d he
  · intro x hx
    simp only [giantstepsTarget, cut_first _ _ _ (hid x hx)]
  · have : xs.map (fun x => x.1 ++ ".csv".toList) = (xs.map Prod.fst).map (· ++ ".csv".toList) := by simp
    rw [this]
    exact hd.map (fun a b h => List.append_cancel_right h)
  · intro x hx y hy h
    exfalso
    have : '_' ∈ x.1 ++ ".csv".toList := by rw [h]; simp
    rcases List.mem_append.1 this with h | h
    · exact hid x hx h
    · exact absurd h (by decide)

/-- **C117, Billboard.**  Files `a_id-rest` with different `id` become `id.key`. -/
theorem C117_billboard_partial (xs : List (Str × Str × Str)) (ha : ∀ x ∈ xs, '_' ∉ x.1)
    (hid : ∀ x ∈ xs, '_' ∉ x.2.1 ∧ '-' ∉ x.2.1) (hd : (xs.map (fun x => x.2.1)).Nodup) (d : Folder C)
    (he : ∀ x ∈ xs, d (x.1 ++ '_' :: (x.2.1 ++ '-' :: x.2.2)) ≠ none) :
    Renamed (xs.map (fun x => (x.1 ++ '_' :: (x.2.1 ++ '-' :: x.2.2), x.2.1 ++ ".key".toList))) d
      (mvAll billboardTarget (xs.map (fun x => x.1 ++ '_' :: (x.2.1 ++ '-' :: x.2.2))) d) := by
  refine mvAll_renamed _ xs _ _ ?_ ?_ ?_ d he
  · intro x hx
    simp only [billboardTarget, billboardId_eq _ _ _ (ha x hx) (hid x hx).1 (hid x hx).2]
  · have : xs.map (fun x => x.2.1 ++ ".key".toList) = (xs.map (fun x => x.2.1)).map (· ++ ".key".toList) := by simp
    rw [this]
    exact hd.map (fun a b h => List.append_cancel_right h)
  · intro x hx y hy h
    exfalso
    have : '_' ∈ x.2.1 ++ ".key".toList := by rw [h]; simp
    rcases List.mem_append.1 this with h | h
    · exact (hid x hx).1 h
    · exact absurd h (by decide)

/-- **C117, Cross-Era.**  Files with three-letter extensions and different stems become `stem.key`. -/
theorem C117_cross_era_partial (xs : List (Str × Str)) (hx : ∀ x ∈ xs, x.2.length = 3) (hd : (xs.map Prod.fst).Nodup)
    (d : Folder C) (he : ∀ x ∈ xs, d (x.1 ++ '.' :: x.2) ≠ none) :
    Renamed (xs.map (fun x => (x.1 ++ '.' :: x.2, x.1 ++ ".key".toList))) d
      (mvAll crossEraTarget (xs.map (fun x => x.1 ++ '.' :: x.2)) d) := by
  refine mvAll_renamed _ xs _ _ ?_ ?_ ?_ d he
  · intro x h
    have h3 := hx x h
    simp only [crossEraTarget, List.length_append, List.length_cons, h3]
    rw [show x.1.length + (3 + 1) - 4 = x.1.length by omega, List.take_left]
  · have : xs.map (fun x => x.1 ++ ".key".toList) = (xs.map Prod.fst).map (· ++ ".key".toList) := by simp
    rw [this]
    exact hd.map (fun a b h => List.append_cancel_right h)
  · intro x h1 y h2 h
    have hl := congrArg List.length h
    simp only [List.length_append, List.length_cons, hx y h2] at hl
    have h4 : ".key".toList.length = 4 := by decide
    have := (List.append_inj h (by omega)).1
    have hxy : x = y := List.inj_on_of_nodup_map hd h1 h2 this
    rw [hxy]

/-- **C117 violated, one name for two.**  Of two GiantSteps files with the same `id` only the second is left. -/
theorem C117_collision_violated (a r r' : Str) (ha : '_' ∉ a) (hr : r ≠ r') (d : Folder C) (x y : C)
    (hx : d (a ++ '_' :: r) = some x) (hy : d (a ++ '_' :: r') = some y)
    (honly : ∀ n, d n ≠ none → n = a ++ '_' :: r ∨ n = a ++ '_' :: r') :
    let d' := mvAll giantstepsTarget [a ++ '_' :: r, a ++ '_' :: r'] d
    d' (a ++ ".csv".toList) = some y ∧ ∀ n, n ≠ a ++ ".csv".toList → d' n = none := by
  intro d'
  have hd : d' = mv (mv d (a ++ '_' :: r) (a ++ ".csv".toList)) (a ++ '_' :: r') (a ++ ".csv".toList) := by
    simp only [d', mvAll, giantstepsTarget, cut_first _ _ _ ha]
  have hne : ∀ t : Str, a ++ '_' :: t ≠ a ++ ".csv".toList := by
    intro t h
    have := List.append_cancel_left h
    cases this
  have hrr : a ++ '_' :: r' ≠ a ++ '_' :: r := by
    intro h
    have := List.append_cancel_left h
    exact hr (by simpa using this.symm)
  have h2 : mv d (a ++ '_' :: r) (a ++ ".csv".toList) (a ++ '_' :: r') = some y := by
    rw [mv_other _ _ _ _ hrr (hne r'), hy]
  rw [hd]
  refine ⟨by rw [mv_new _ _ _ (by rw [h2]; simp), h2], ?_⟩
  intro n hn
  by_cases e : n = a ++ '_' :: r'
  · subst e
    exact mv_old _ _ _ (by rw [h2]; simp) (hne r')
  · rw [mv_other _ _ _ _ e hn]
    by_cases e' : n = a ++ '_' :: r
    · subst e'
      exact mv_old _ _ _ (by rw [hx]; simp) (hne r)
    · rw [mv_other _ _ _ _ e' hn]
      by_contra hc
      rcases honly n hc with h | h
      · exact e' h
      · exact e h

/-- Two files with different numbers, and two with the same. -/
example : giantstepsTarget "1004923_vamp_chroma.csv".toList = "1004923.csv".toList ∧
    billboardTarget "audio_0003-bothchroma_x.csv".toList = "0003.key".toList ∧
    crossEraTarget "CrossEra-0001.csv".toList = "CrossEra-0001.key".toList := by decide

example : Renamed [("10_a.csv".toList, "10.csv".toList), ("20_a.csv".toList, "20.csv".toList)]
    (fun n => if n = "10_a.csv".toList then some 1 else if n = "20_a.csv".toList then some 2 else none)
    (mvAll giantstepsTarget ["10_a.csv".toList, "20_a.csv".toList]
      (fun n => if n = "10_a.csv".toList then some 1 else if n = "20_a.csv".toList then some 2 else none)) :=
  C117_giantsteps_partial [("10".toList, "a.csv".toList), ("20".toList, "a.csv".toList)] (by decide) (by decide) _ (by decide)

example : (mvAll giantstepsTarget ["10_a.csv".toList, "10_b.csv".toList]
    (fun n => if n = "10_a.csv".toList then some 1 else if n = "10_b.csv".toList then some 2 else none)) "10.csv".toList =
      some 2 := by decide

/-! ### Numbering and trimming -/

theorem incremental_mvs (i : Nat) (fs : List Str) (d : Folder C) :
    incremental i fs d = mvs ((fs.zipIdx i).map (fun p => (p.1, pad4 p.2 ++ "__".toList ++ p.1))) d := by
  induction fs generalizing i d with
  | nil => rfl
  | cons f fs ih => exact ih _ _

theorem head_of_ext {i j : Nat} {u v : Str} {c c' : Char} (hc : c.isDigit = false) (hc' : c'.isDigit = false)
    (h : pad4 i ++ c :: u = pad4 j ++ c' :: v) : i = j ∧ c = c' ∧ u = v := by
  have h1 : ∀ (k : Nat) (x : Char) (w : Str), x.isDigit = false → (pad4 k ++ x :: w).takeWhile Char.isDigit = pad4 k := by
    intro k x w hx
    rw [List.takeWhile_append_of_pos (fun y hy => pad4_digit k y hy), List.takeWhile_cons, hx]
    simp
  have hp : pad4 i = pad4 j := by rw [← h1 i c u hc, h, h1 j c' v hc']
  rw [hp] at h
  have := List.append_cancel_left h
  simp only [List.cons.injEq] at this
  exact ⟨pad4_inj hp, this.1, this.2⟩

theorem experimentTarget_eq (k : Nat) (s e : Str) (he : e.length = 3) :
    experimentTarget (pad4 k ++ "__".toList ++ (s ++ '.' :: e)) = pad4 k ++ '.' :: e := by
  have h1 : cut '_' 1 (pad4 k ++ "__".toList ++ (s ++ '.' :: e)) = pad4 k := by
    have := cut_first '_' (pad4 k) ('_' :: (s ++ '.' :: e)) (pad4_not_mem k '_' (by decide))
    simpa using this
  have h2 : last3 (pad4 k ++ "__".toList ++ (s ++ '.' :: e)) = e := by
    have h3 : pad4 k ++ "__".toList ++ (s ++ '.' :: e) = (pad4 k ++ "__".toList ++ (s ++ ['.'])) ++ e := by simp
    unfold last3
    rw [h3, List.length_append, he, if_neg (by omega), Nat.add_sub_cancel, List.drop_left]
  unfold experimentTarget
  rw [h1, h2]

/-- **C117, numbering and trimming.**  incremental_names.sh followed by experiment1/trim_names.sh — the second listing in any
order — gives the file listed in place `k` the name `k` with its old extension of three letters; the old names and those
in between are gone, and no other file is touched. -/
theorem C117_number_trim_partial (xs : List (Str × Str)) (hx : ∀ x ∈ xs, x.2.length = 3) (hd : xs.Nodup)
    (hnew : ∀ x ∈ xs, ∀ k < xs.length, ∀ t, x.1 ++ '.' :: x.2 ≠ pad4 k ++ "__".toList ++ t) (d : Folder C)
    (he : ∀ x ∈ xs, d (x.1 ++ '.' :: x.2) ≠ none) (ls : List Str)
    (hls : ls.Perm (xs.zipIdx.map (fun p => pad4 p.2 ++ "__".toList ++ (p.1.1 ++ '.' :: p.1.2)))) :
    let d' := mvAll experimentTarget ls (incremental 0 (xs.map (fun x => x.1 ++ '.' :: x.2)) d)
    (∀ (k : Nat) (hk : k < xs.length), d' (pad4 k ++ '.' :: xs[k].2) = d (xs[k].1 ++ '.' :: xs[k].2)) ∧
    (∀ (k : Nat) (hk : k < xs.length), d' (pad4 k ++ "__".toList ++ (xs[k].1 ++ '.' :: xs[k].2)) = none) ∧
    (∀ x ∈ xs, (∀ (k : Nat) (hk : k < xs.length), x.1 ++ '.' :: x.2 ≠ pad4 k ++ '.' :: xs[k].2) → d' (x.1 ++ '.' :: x.2) = none) ∧
    (∀ n, (∀ x ∈ xs, n ≠ x.1 ++ '.' :: x.2) → (∀ (k : Nat) (hk : k < xs.length), n ≠ pad4 k ++ '.' :: xs[k].2 ∧
      n ≠ pad4 k ++ "__".toList ++ (xs[k].1 ++ '.' :: xs[k].2)) → d' n = d n) := by
  intro d'
  -- the first script
  have hfile : ∀ x ∈ xs, ∀ y ∈ xs, x.1 ++ '.' :: x.2 = y.1 ++ '.' :: y.2 → x = y := by
    intro x h1 y h2 h
    have hl := congrArg List.length h
    simp only [List.length_append, List.length_cons, hx x h1, hx y h2] at hl
    have := List.append_inj h (by omega)
    exact Prod.ext this.1 (by simpa using this.2)
  have hzip : ∀ p : (Str × Str) × Nat, p ∈ xs.zipIdx ↔ ∃ hk : p.2 < xs.length, p.1 = xs[p.2] := by
    intro p
    rw [List.mem_zipIdx_iff_getElem?, List.getElem?_eq_some_iff]
    constructor
    · rintro ⟨h, e⟩
      exact ⟨h, e.symm⟩
    · rintro ⟨h, e⟩
      exact ⟨h, e.symm⟩
  have hpairs : ((xs.map (fun x => x.1 ++ '.' :: x.2)).zipIdx 0).map (fun p => (p.1, pad4 p.2 ++ "__".toList ++ p.1)) =
      xs.zipIdx.map (fun p => (p.1.1 ++ '.' :: p.1.2, pad4 p.2 ++ "__".toList ++ (p.1.1 ++ '.' :: p.1.2))) := by
    rw [List.zipIdx_map, List.map_map]
    rfl
  have hu : "__".toList = ['_', '_'] := by decide
  have h1 := mvs_renamed (xs.zipIdx.map (fun p => (p.1.1 ++ '.' :: p.1.2, pad4 p.2 ++ "__".toList ++ (p.1.1 ++ '.' :: p.1.2)))) d (by
    unfold Apart
    rw [List.pairwise_map, List.pairwise_iff_getElem]
    intro i j hi hj hij
    have hi' : i < xs.length := by simpa using hi
    have hj' : j < xs.length := by simpa using hj
    simp only [List.getElem_zipIdx, Nat.zero_add]
    refine ⟨?_, ?_, ?_, ?_⟩
    · intro h
      have := hfile _ (List.getElem_mem hi') _ (List.getElem_mem hj') h
      have := (List.Nodup.getElem_inj_iff hd).1 this
      omega
    · intro h
      rw [hu, List.append_assoc, List.append_assoc] at h
      have := (head_of_ext (by decide) (by decide) h).1
      omega
    · exact hnew _ (List.getElem_mem hi') j hj' _
    · exact (hnew _ (List.getElem_mem hj') i hi' _).symm) (by
    intro p hp
    obtain ⟨q, hq, rfl⟩ := List.mem_map.1 hp
    obtain ⟨hk, e⟩ := (hzip q).1 hq
    simp only [e]
    exact he _ (List.getElem_mem hk))
  rw [← hpairs, ← incremental_mvs, hpairs] at h1
  set d1 := incremental 0 (xs.map (fun x => x.1 ++ '.' :: x.2)) d with hd1
  have hmid : ∀ (k : Nat) (hk : k < xs.length), d1 (pad4 k ++ "__".toList ++ (xs[k].1 ++ '.' :: xs[k].2)) =
      d (xs[k].1 ++ '.' :: xs[k].2) := fun k hk =>
    h1.moved (_, _) (List.mem_map.2 ⟨(xs[k], k), (hzip _).2 ⟨hk, rfl⟩, rfl⟩)
  -- the second script
  have hmem : ∀ f ∈ ls, ∃ (k : Nat) (hk : k < xs.length), f = pad4 k ++ "__".toList ++ (xs[k].1 ++ '.' :: xs[k].2) := by
    intro f hf
    obtain ⟨q, hq, rfl⟩ := List.mem_map.1 (hls.mem_iff.1 hf)
    obtain ⟨hk, e⟩ := (hzip q).1 hq
    exact ⟨q.2, hk, by simp only [e]⟩
  have hmem' : ∀ (k : Nat) (hk : k < xs.length), pad4 k ++ "__".toList ++ (xs[k].1 ++ '.' :: xs[k].2) ∈ ls := fun k hk =>
    hls.mem_iff.2 (List.mem_map.2 ⟨(xs[k], k), (hzip _).2 ⟨hk, rfl⟩, rfl⟩)
  have ht : ∀ (k : Nat) (hk : k < xs.length), experimentTarget (pad4 k ++ "__".toList ++ (xs[k].1 ++ '.' :: xs[k].2)) =
      pad4 k ++ '.' :: xs[k].2 := fun k hk => experimentTarget_eq k _ _ (hx _ (List.getElem_mem hk))
  have h2 := mvAll_renamed experimentTarget ls id experimentTarget (fun _ _ => rfl) (by
      rw [(hls.map experimentTarget).nodup_iff, List.map_map, List.nodup_iff_pairwise_ne, List.pairwise_map,
        List.pairwise_iff_getElem]
      intro i j hi hj hij
      have hi' : i < xs.length := by simpa using hi
      have hj' : j < xs.length := by simpa using hj
      simp only [List.getElem_zipIdx, Nat.zero_add, Function.comp, ht i hi', ht j hj']
      intro h
      have := (head_of_ext (by decide) (by decide) h).1
      omega) (by
      intro f hf g hg h
      obtain ⟨i, hi, rfl⟩ := hmem f hf
      obtain ⟨j, hj, rfl⟩ := hmem g hg
      rw [ht i hi, hu, id, List.append_assoc] at h
      exact absurd (head_of_ext (by decide) (by decide) h).2.1 (by decide)) d1 (by
      intro f hf
      obtain ⟨i, hi, rfl⟩ := hmem f hf
      rw [id, hmid i hi]
      exact he _ (List.getElem_mem hi))
  rw [List.map_id] at h2
  change Renamed _ _ d' at h2
  refine ⟨?_, ?_, ?_, ?_⟩
  · intro k hk
    have := h2.moved _ (List.mem_map_of_mem (hmem' k hk))
    simp only [ht k hk, id] at this
    rw [this, hmid k hk]
  · intro k hk
    refine h2.free _ (List.mem_map_of_mem (hmem' k hk)) ?_
    simp only [ht k hk, id]
    intro h
    rw [hu, List.append_assoc] at h
    exact absurd (head_of_ext (by decide) (by decide) h).2.1 (by decide)
  · intro x hxm hne
    rw [h2.others]
    · obtain ⟨k, hk, rfl⟩ := List.getElem_of_mem hxm
      refine h1.free (_, _) (List.mem_map.2 ⟨(xs[k], k), (hzip _).2 ⟨hk, rfl⟩, rfl⟩) ?_
      exact hnew _ hxm k hk _
    · intro p hp
      obtain ⟨f, hf, rfl⟩ := List.mem_map.1 hp
      obtain ⟨k, hk, rfl⟩ := hmem f hf
      simp only [ht k hk, id]
      exact ⟨hnew x hxm k hk _, hne k hk⟩
  · intro n hn1 hn2
    rw [h2.others, h1.others]
    · intro p hp
      obtain ⟨q, hq, rfl⟩ := List.mem_map.1 hp
      obtain ⟨hk, e⟩ := (hzip q).1 hq
      simp only [e]
      exact ⟨hn1 _ (List.getElem_mem hk), (hn2 _ hk).2⟩
    · intro p hp
      obtain ⟨f, hf, rfl⟩ := List.mem_map.1 hp
      obtain ⟨k, hk, rfl⟩ := hmem f hf
      simp only [ht k hk, id]
      exact ⟨(hn2 k hk).2, (hn2 k hk).1⟩

example : (mvAll experimentTarget ["0001__b_x.csv".toList, "0000__a.mid".toList]
    (incremental 0 ["a.mid".toList, "b_x.csv".toList]
      (fun n => if n = "a.mid".toList then some 1 else if n = "b_x.csv".toList then some 2 else none))) "0001.csv".toList =
    some 2 :=
  (C117_number_trim_partial [("a".toList, "mid".toList), ("b_x".toList, "csv".toList)] (by decide) (by decide) (by
    have h : ∀ x ∈ [("a".toList, "mid".toList), ("b_x".toList, "csv".toList)], (x.1 ++ '.' :: x.2).head? ≠ some '0' := by decide
    intro x hx k hk t e
    have hk' : k = 0 ∨ k = 1 := by simp at hk; omega
    apply h x hx
    rw [e]
    rcases hk' with rfl | rfl
    · rw [show pad4 0 = '0' :: "000".toList by decide]; rfl
    · rw [show pad4 1 = '0' :: "001".toList by decide]; rfl) _ (by decide) _ (by decide)).1 1 (by decide)

/-! ### C118 -/

open Py

variable {K : Type}

/-- **C118 violated.**  billboard/trim_datasplits.sh writes the lines of a split as `id.csv`.  The data-set program looks lines
up among the names without extension, so — unless a piece is called `….csv.csv` — it ignores every such split and only
writes the whole data set. -/
theorem C118_trimmed_splits_violated (evaluate : Str → PyRes (List K)) (name : Str) (bases : List Str) (hb : bases ≠ [])
    (hd : bases.Nodup) (ext : Str → Str) (he : ∀ b ∈ bases, ext b ∈ ["mid", "csv", "wav"].map String.toList)
    (hcsv : ∀ b ∈ bases, ¬ ".csv".toList <:+ b) (x : Str → List K)
    (hx : ∀ b ∈ bases, evaluate (b ++ '.' :: ext b) = .ok (x b)) (folder : Str → Option Str) (text : Str → Str)
    (ht : ∀ b ∈ bases, folder (b ++ ".key".toList) = some (text b) ∧ text b ≠ []) (splits : List (Str × List Str))
    (ps ts : List Str) (mixed : Bool) :
    let y := fun b => parseLabel ((text b).takeWhile (fun c => c ≠ '\n' && c ≠ '\r'))
    ∃ c c', Creator.new name (bases.map (fun b => b ++ '.' :: ext b)) (some folder)
        (splits.map (fun s => (s.1, trimSplit s.2))) = .ok c ∧ c.computeFeatures evaluate = .ok c' ∧
      c'.write ps ts mixed = [(name ++ "_ensemble.txt".toList, .text (ensembleText ps ts mixed)),
        (name ++ "_features.pkl".toList, .rows (bases.map x)), (name ++ "_annotations.pkl".toList, .labels (bases.map y))] := by
  intro y
  obtain ⟨c, c', h1, h2, h3⟩ := distinct_run evaluate name bases hb hd ext he x hx folder text ht
    (splits.map (fun s => (s.1, trimSplit s.2)))
  refine ⟨c, c', h1, h2, ?_⟩
  have hnone : ∀ f : Str, f ∉ bases → AMap.get? (bases.map (fun b => (b, x b))) f = none := by
    intro f hf
    have : ∀ l : List Str, f ∉ l → AMap.get? (l.map (fun b => (b, x b))) f = none := by
      intro l
      induction l with
      | nil => intro _; rfl
      | cons a l ih =>
        intro h
        have ha : a ≠ f := fun e => h (by simp [e])
        have := ih (fun e => h (List.mem_cons_of_mem _ e))
        simp only [AMap.get?, List.map_cons] at this ⊢
        simpa [ha] using this
    exact this bases hf
  have hsplit : ∀ s ∈ splits, c'.writeSplit s.1 (trimSplit s.2) = [] := by
    intro s hs
    refine (C60_split c' s.1 (trimSplit s.2)).2.2 ?_
    by_cases hw : s.2 = []
    · exact Or.inl (by simp [trimSplit, hw])
    · obtain ⟨w, hw'⟩ := List.exists_mem_of_ne_nil _ hw
      refine Or.inr ⟨billboardId w ++ ".csv".toList, List.mem_map.2 ⟨w, hw', rfl⟩, Or.inl ?_⟩
      rw [h3]
      exact hnone _ (fun hm => hcsv _ hm (List.suffix_append _ _))
  have hflat : c'.splits.flatMap (fun p => c'.writeSplit p.1 p.2) = [] := by
    rw [show c'.splits = splits.map (fun s => (s.1, trimSplit s.2)) by rw [h3], List.flatMap_map, List.flatMap_eq_nil_iff]
    exact hsplit
  unfold Creator.write
  rw [hflat, h3]
  simp [hb, Function.comp, y]

/-- A data set of two pieces with a split for one of them. -/
example : (trimSplit ["chords_0003-x".toList] = ["0003.csv".toList]) ∧ ¬ ".csv".toList <:+ "0003".toList := by decide

/-- **C118, lines without the extension.**  Were the lines only the numbers, the split would be written in full. -/
theorem C118_plain_splits_partial (c : Creator K) (k : Str) (words : List Str) (x : Str → List K) (y : Str → Int)
    (hne : words ≠ []) (ha : c.annotations ≠ []) (hx : ∀ w ∈ words, AMap.get? c.features (billboardId w) = some (x (billboardId w)))
    (hy : ∀ w ∈ words, AMap.get? c.annotations (billboardId w) = some (y (billboardId w))) :
    c.writeSplit k (words.map billboardId) =
      [(c.name ++ '-' :: k ++ "_features.pkl".toList, .rows (words.map (fun w => x (billboardId w)))),
        (c.name ++ '-' :: k ++ "_annotations.pkl".toList, .labels (words.map (fun w => y (billboardId w))))] := by
  have := (C60_split c k (words.map billboardId)).1 x y (by simpa using hne) ha (by simpa using hx) (by simpa using hy)
  rw [this]
  simp [Function.comp]

/-! ### C119 -/

theorem annotation_text (s w e : Str) (hw : '_' ∉ w ∧ '.' ∉ w) (he : '_' ∉ e) :
    cut '.' 1 ((s ++ '_' :: (w ++ '.' :: e)).reverse.takeWhile (· ≠ '_')).reverse = w := by
  have hmem : ∀ c ∈ (w ++ '.' :: e).reverse, c ≠ '_' := by
    intro c hc h
    rw [List.mem_reverse, List.mem_append, List.mem_cons] at hc
    rcases hc with hc | hc | hc
    · exact hw.1 (h ▸ hc)
    · rw [h] at hc
      exact absurd hc (by decide)
    · exact he (h ▸ hc)
  rw [List.reverse_append, List.reverse_cons, List.append_assoc, List.takeWhile_append_of_pos
    (fun c hc => by simpa using hmem c hc)]
  simp only [List.singleton_append, List.takeWhile_cons, ne_eq, not_true_eq_false, decide_false, Bool.false_eq_true, if_false,
    List.append_nil, List.reverse_reverse]
  exact cut_first _ _ _ hw.2

theorem take_ext (s e : Str) (he : e.length = 3) : (s ++ '.' :: e).take ((s ++ '.' :: e).length - 4) = s := by
  simp only [List.length_append, List.length_cons, he]
  rw [show s.length + (3 + 1) - 4 = s.length by omega, List.take_left]

/-- A piece of the data set: stem, key and extension; its name is `stem_key.ext`. -/
structure Piece where
  stem : Str
  key : Str
  ext : Str

/-- `stem_key` -/
def Piece.base (p : Piece) : Str := p.stem ++ '_' :: p.key

/-- **Specification.**  The key has no underscore, dot or line break, the extension three letters and no underscore. -/
structure Piece.Ok (p : Piece) : Prop where
  key : '_' ∉ p.key ∧ '.' ∉ p.key
  ext : '_' ∉ p.ext ∧ p.ext.length = 3
  line : '\n' ∉ p.key ∧ '\r' ∉ p.key

theorem trimAnnotations_eq (ps : List Piece) (hp : ∀ p ∈ ps, p.Ok) (d : Folder Str) (n : Str) :
    ((∃ p ∈ ps, n = p.base ++ ".key".toList) →
      ∃ p ∈ ps, n = p.base ++ ".key".toList ∧ trimAnnotations (ps.map (fun p => p.base ++ '.' :: p.ext)) d n = some (p.key ++ ['\n'])) ∧
    ((∀ p ∈ ps, n ≠ p.base ++ ".key".toList) → trimAnnotations (ps.map (fun p => p.base ++ '.' :: p.ext)) d n = d n) := by
  induction ps generalizing d with
  | nil => exact ⟨by rintro ⟨p, hp, -⟩; simp at hp, fun _ => rfl⟩
  | cons p ps ih =>
    have hok := hp p (by simp)
    have hstep : trimAnnotations ((p :: ps).map (fun p => p.base ++ '.' :: p.ext)) d =
        trimAnnotations (ps.map (fun p => p.base ++ '.' :: p.ext))
          (Function.update d (p.base ++ ".key".toList) (some (p.key ++ ['\n']))) := by
      have h1 := annotation_text p.stem p.key p.ext hok.key hok.ext.1
      rw [show p.stem ++ '_' :: (p.key ++ '.' :: p.ext) = p.base ++ '.' :: p.ext by simp [Piece.base]] at h1
      simp only [List.map_cons, trimAnnotations, h1, take_ext _ _ hok.ext.2]
    obtain ⟨i1, i2⟩ := ih (fun q hq => hp q (List.mem_cons_of_mem _ hq))
      (Function.update d (p.base ++ ".key".toList) (some (p.key ++ ['\n'])))
    rw [hstep]
    refine ⟨?_, ?_⟩
    · rintro ⟨q, hq, hn⟩
      by_cases hex : ∃ q ∈ ps, n = q.base ++ ".key".toList
      · obtain ⟨q', hq', h⟩ := i1 hex
        exact ⟨q', List.mem_cons_of_mem _ hq', h⟩
      · have hqp : q = p := by
          rcases List.mem_cons.1 hq with h | h
          · exact h
          · exact absurd ⟨q, h, hn⟩ hex
        subst hqp
        refine ⟨q, by simp, hn, ?_⟩
        rw [i2 (fun q' hq' h => hex ⟨q', hq', h⟩), hn]
        simp
    · intro h
      rw [i2 (fun q hq => h q (List.mem_cons_of_mem _ hq)), Function.update_of_ne (h p (by simp))]

theorem base_key {p q : Piece} (hp : p.Ok) (hq : q.Ok) (h : p.base = q.base) : p.key = q.key := by
  have h1 := annotation_text p.stem p.key p.ext hp.key hp.ext.1
  have h2 := annotation_text q.stem q.key p.ext hq.key hp.ext.1
  have e : p.stem ++ '_' :: (p.key ++ '.' :: p.ext) = q.stem ++ '_' :: (q.key ++ '.' :: p.ext) := by
    have := congrArg (· ++ '.' :: p.ext) h
    simpa [Piece.base] using this
  rw [e, h2] at h1
  exact h1.symm

/-- **C119, files.**  arthur2018/trim_annotations.sh writes, for every listed `stem_key.ext`, a file `stem_key.key` that holds
the key, and no other file. -/
theorem C119_files (ps : List Piece) (hp : ∀ p ∈ ps, p.Ok) (d : Folder Str) :
    (∀ p ∈ ps, trimAnnotations (ps.map (fun p => p.base ++ '.' :: p.ext)) d (p.base ++ ".key".toList) = some (p.key ++ ['\n'])) ∧
    (∀ n, (∀ p ∈ ps, n ≠ p.base ++ ".key".toList) →
      trimAnnotations (ps.map (fun p => p.base ++ '.' :: p.ext)) d n = d n) := by
  refine ⟨?_, fun n => (trimAnnotations_eq ps hp d n).2⟩
  intro p hm
  obtain ⟨q, hq, hn, h⟩ := (trimAnnotations_eq ps hp d (p.base ++ ".key".toList)).1 ⟨p, hm, rfl⟩
  rw [h, base_key (hp p hm) (hp q hq) (key_inj hn)]

/-- **C119, labels.**  With these key files the data-set program gives every piece the label of the key in its name, whenever
that text names a key in the sense of C58 (and not by one of the four rare names). -/
theorem C119_labels (evaluate : Str → PyRes (List K)) (name : Str) (ps : List Piece) (hne : ps ≠ []) (hp : ∀ p ∈ ps, p.Ok)
    (hd : (ps.map Piece.base).Nodup) (he : ∀ p ∈ ps, p.ext ∈ ["mid", "csv", "wav"].map String.toList) (x : Piece → List K)
    (hx : ∀ p ∈ ps, evaluate (p.base ++ '.' :: p.ext) = .ok (x p)) (label : Piece → Int)
    (hl : ∀ p ∈ ps, label p ≠ -1 ∧ Names p.key (label p) ∧ ¬ Rare p.key) (d : Folder Str) (splits : AMap Str (List Str)) :
    ∃ c c', Creator.new name (ps.map (fun p => p.base ++ '.' :: p.ext))
        (some (trimAnnotations (ps.map (fun p => p.base ++ '.' :: p.ext)) d)) splits = .ok c ∧
      c.computeFeatures evaluate = .ok c' ∧
      c'.annotations = ps.map (fun p => (p.base, label p)) ∧ c'.features = ps.map (fun p => (p.base, x p)) := by
  classical
  obtain ⟨p0, hp0⟩ := List.exists_mem_of_ne_nil _ hne
  obtain ⟨g, hg⟩ : ∃ g : Str → Piece, ∀ p ∈ ps, g p.base = p := by
    refine ⟨fun b => if h : ∃ p ∈ ps, p.base = b then h.choose else p0, ?_⟩
    intro p hm
    have h : ∃ q ∈ ps, q.base = p.base := ⟨p, hm, rfl⟩
    simp only [dif_pos h]
    exact List.inj_on_of_nodup_map hd h.choose_spec.1 hm h.choose_spec.2
  have hmap : ∀ {β : Type} (f : Str → Piece → β), (ps.map Piece.base).map (fun b => f b (g b)) = ps.map (fun p => f p.base p) := by
    intro β f
    rw [List.map_map]
    exact List.map_congr_left (fun p hm => by simp [hg p hm])
  have hb : ∀ b ∈ ps.map Piece.base, g b ∈ ps ∧ (g b).base = b := by
    intro b hb
    obtain ⟨p, hm, rfl⟩ := List.mem_map.1 hb
    rw [hg p hm]
    exact ⟨hm, rfl⟩
  obtain ⟨c, c', h1, h2, h3⟩ := distinct_run evaluate name (ps.map Piece.base) (by simpa using hne) hd (fun b => (g b).ext)
    (fun b h => he _ (hb b h).1) (fun b => x (g b)) (fun b h => by
      have := hx _ (hb b h).1
      rwa [(hb b h).2] at this)
    (trimAnnotations (ps.map (fun p => p.base ++ '.' :: p.ext)) d) (fun b => (g b).key ++ ['\n']) (fun b h => by
      have := (C119_files ps hp d).1 _ (hb b h).1
      rw [(hb b h).2] at this
      exact ⟨this, by simp⟩) splits
  refine ⟨c, c', ?_, h2, ?_, ?_⟩
  · rw [← h1, hmap (fun b p => b ++ '.' :: p.ext)]
  · rw [h3]
    simp only
    rw [hmap (fun b p => (b, parseLabel ((p.key ++ ['\n']).takeWhile (fun c => c ≠ '\n' && c ≠ '\r'))))]
    refine List.map_congr_left ?_
    intro p hm
    have hline := (hp p hm).line
    rw [List.takeWhile_append_of_pos]
    · simp only [List.takeWhile_cons, ne_eq, not_true_eq_false, decide_false, Bool.false_and, Bool.false_eq_true, if_false,
        List.append_nil]
      rw [(C58_reads p.key (label p) (hl p hm).1).2 (hl p hm).2]
    · intro c hc
      have a : c ≠ '\n' := fun h => hline.1 (h ▸ hc)
      have b : c ≠ '\r' := fun h => hline.2 (h ▸ hc)
      simp [a, b]
  · rw [h3]
    simp only
    rw [hmap (fun b p => (b, x p))]

/-- `chopin_c#.mid` has label 13, the C sharp minor of the program. -/
example : (⟨"chopin".toList, "c#".toList, "mid".toList⟩ : Piece).Ok ∧
    trimAnnotations ["chopin_c#.mid".toList] (fun _ => none) "chopin_c#.key".toList = some "c#\n".toList ∧
    parseLabel "c#".toList = 13 := by
  refine ⟨⟨by decide, by decide, by decide⟩, by decide, by decide +kernel⟩

end JKD.Shell
