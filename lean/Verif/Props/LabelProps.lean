import Verif.Model.PyLabels
import Verif.Model.PyEnsemble
import Verif.Props.DatasetProps
import Verif.Props.MainProps
/-
C58, C63: annotations, labels and names.
-/

namespace JKD.Py

open Spec (IsKey noteName keys mem_keys transposeKey)

/-! ### Specification: the words of a text -/

/-- `ws` are the words of `s`: the longest pieces without white space, in order. -/
inductive Words : Str → List Str → Prop
  | none {s : Str} (h : ∀ c ∈ s, isSpace c = true) : Words s []
  | more {pre w rest : Str} {ws : List Str} (hp : ∀ c ∈ pre, isSpace c = true) (hw : ∀ c ∈ w, isSpace c = false)
      (hne : w ≠ []) (hr : ∀ c, rest.head? = some c → isSpace c = true) (h : Words rest ws) :
      Words (pre ++ w ++ rest) (w :: ws)

/-- The text names key `k`: one word such as `C#` or `bb`, or a note name and a mode, such as `c# Minor`. -/
def Names (s : Str) (k : Int) : Prop :=
  (∃ w, Words s [w] ∧ Spec.keyName w = some k) ∨
  (∃ t m p, Words s [t, m] ∧ noteName (t.map Char.toLower) = some p ∧
    ((m.map Char.toLower = "major".toList ∧ k = p) ∨ (m.map Char.toLower = "minor".toList ∧ k = p + 12)))

/-- The tonic is spelled with one of the four rare names. -/
def Rare (s : Str) : Prop :=
  ∃ w ws, Words s (w :: ws) ∧ w.map Char.toLower ∈ ["cb", "b#", "e#", "fb"].map String.toList

/-! ### `split` -/

theorem go_words (s : Str) : ∀ cur : Str, (∀ c ∈ cur, isSpace c = false) →
    (cur = [] → Words s (splitWs.go s cur)) ∧
    (cur ≠ [] → ∃ u rest ws, splitWs.go s cur = (cur.reverse ++ u) :: ws ∧ s = u ++ rest ∧
      (∀ c ∈ u, isSpace c = false) ∧ (∀ c, rest.head? = some c → isSpace c = true) ∧ Words rest ws) := by
  induction s with
  | nil =>
    intro cur _
    refine ⟨fun h => ?_, fun h => ?_⟩
    · subst h; exact .none (by simp)
    · refine ⟨[], [], [], ?_, rfl, by simp, by simp, .none (by simp)⟩
      simp [splitWs.go, h]
  | cons c s ih =>
    intro cur hcur
    by_cases hc : isSpace c = true
    · refine ⟨fun h => ?_, fun h => ?_⟩
      · subst h
        simp only [splitWs.go, hc, if_true]
        have := (ih [] (by simp)).1 rfl
        cases this' : splitWs.go s [] with
        | nil =>
          rw [this'] at this
          cases this with
          | none h => exact .none (by intro d hd; rcases List.mem_cons.1 hd with rfl | hd <;> [exact hc; exact h d hd])
        | cons w ws =>
          rw [this'] at this
          cases this with
          | more hp hw hne hr h =>
            rename_i pre rest
            exact Words.more (pre := c :: pre) (by
              intro d hd
              rcases List.mem_cons.1 hd with rfl | hd
              · exact hc
              · exact hp d hd) hw hne hr h
      · refine ⟨[], c :: s, splitWs.go s [], ?_, rfl, by simp, ?_, ?_⟩
        · simp [splitWs.go, hc, h]
        · intro d hd
          simp only [List.head?_cons, Option.some.injEq] at hd
          subst hd
          exact hc
        · have := (ih [] (by simp)).1 rfl
          cases this' : splitWs.go s [] with
          | nil =>
            rw [this'] at this
            cases this with
            | none h => exact .none (by intro d hd; rcases List.mem_cons.1 hd with rfl | hd <;> [exact hc; exact h d hd])
          | cons w ws =>
            rw [this'] at this
            cases this with
            | more hp hw hne hr h =>
              rename_i pre rest
              exact Words.more (pre := c :: pre) (by
                intro d hd
                rcases List.mem_cons.1 hd with rfl | hd
                · exact hc
                · exact hp d hd) hw hne hr h
    · have hc' : isSpace c = false := by simpa using hc
      have hcur' : ∀ d ∈ c :: cur, isSpace d = false := by
        intro d hd
        rcases List.mem_cons.1 hd with rfl | hd
        · exact hc'
        · exact hcur d hd
      obtain ⟨u, rest, ws, h1, h2, h3, h4, h5⟩ := (ih (c :: cur) hcur').2 (by simp)
      refine ⟨fun h => ?_, fun h => ?_⟩
      · subst h
        simp only [splitWs.go, hc', Bool.false_eq_true, if_false]
        rw [h1, h2]
        have := Words.more (pre := []) (w := c :: u) (rest := rest) (ws := ws) (by simp) (by
          intro d hd
          rcases List.mem_cons.1 hd with rfl | hd
          · exact hc'
          · exact h3 d hd) (by simp) h4 h5
        simpa using this
      · refine ⟨c :: u, rest, ws, ?_, by simp [h2], ?_, h4, h5⟩
        · simp only [splitWs.go, hc', Bool.false_eq_true, if_false]
          rw [h1]
          simp
        · intro d hd
          rcases List.mem_cons.1 hd with rfl | hd
          · exact hc'
          · exact h3 d hd

theorem splitWs_words (s : Str) : Words s (splitWs s) := (go_words s [] (by simp)).1 rfl

/-- A text has only one list of words. -/
theorem Words.unique {s : Str} {ws ws' : List Str} (h : Words s ws) (h' : Words s ws') : ws = ws' := by
  induction h generalizing ws' with
  | none h =>
    cases h' with
    | none _ => rfl
    | more hp hw hne hr h2 =>
      rename_i pre w rest ws
      obtain ⟨c, w, rfl⟩ := List.exists_cons_of_ne_nil hne
      have h1 := h c (by simp)
      have h2 := hw c (by simp)
      rw [h1] at h2
      cases h2
  | more hp hw hne hr h ih =>
    rename_i pre w rest ws
    generalize hs : pre ++ w ++ rest = s at h'
    cases h' with
    | none hall =>
      subst hs
      obtain ⟨c, w, rfl⟩ := List.exists_cons_of_ne_nil hne
      have h1 := hall c (by simp)
      have h2 := hw c (by simp)
      rw [h1] at h2
      cases h2
    | more hp' hw' hne' hr' h' =>
      rename_i pre' w' rest' ws'
      have hdrop : ∀ (p v r : Str), (∀ c ∈ p, isSpace c = true) → (∀ c ∈ v, isSpace c = false) → v ≠ [] →
          (∀ c, r.head? = some c → isSpace c = true) →
          (p ++ v ++ r).dropWhile isSpace = v ++ r ∧ (v ++ r).takeWhile (fun c => !isSpace c) = v ∧
          (v ++ r).dropWhile (fun c => !isSpace c) = r := by
        intro p v r h1 h2 h3 h4
        refine ⟨?_, ?_, ?_⟩
        · rw [List.append_assoc, List.dropWhile_append_of_pos h1]
          obtain ⟨c, v, rfl⟩ := List.exists_cons_of_ne_nil h3
          rw [List.cons_append, List.dropWhile_cons_of_neg]
          rw [h2 c (by simp)]
          decide
        · rw [List.takeWhile_append_of_pos (fun c hc => by simp [h2 c hc])]
          cases r with
          | nil => simp
          | cons c r => rw [List.takeWhile_cons_of_neg (by simp [h4 c rfl])]; simp
        · rw [List.dropWhile_append_of_pos (fun c hc => by simp [h2 c hc])]
          cases r with
          | nil => simp
          | cons c r => rw [List.dropWhile_cons_of_neg (by simp [h4 c rfl])]
      obtain ⟨a1, a2, a3⟩ := hdrop pre w rest hp hw hne hr
      obtain ⟨b1, b2, b3⟩ := hdrop pre' w' rest' hp' hw' hne' hr'
      rw [hs] at a1
      rw [a1] at b1
      have e1 : w = w' := by rw [← a2, ← b2, b1]
      have e2 : rest = rest' := by rw [← a3, ← b3, b1]
      subst e1 e2
      rw [ih h']

theorem Words.split {s : Str} {ws : List Str} (h : Words s ws) : splitWs s = ws := (splitWs_words s).unique h

/-- Blanks at the ends do not matter. -/
theorem Words.blank_left {s : Str} {ws : List Str} (p : Str) (hp : ∀ c ∈ p, isSpace c = true) (h : Words s ws) :
    Words (p ++ s) ws := by
  cases h with
  | none h =>
    exact .none (by intro c hc; rcases List.mem_append.1 hc with hc | hc <;> [exact hp c hc; exact h c hc])
  | more h1 hw hne hr h =>
    rename_i pre w rest ws
    have := Words.more (pre := p ++ pre) (by
      intro c hc
      rcases List.mem_append.1 hc with hc | hc
      · exact hp c hc
      · exact h1 c hc) hw hne hr h
    simpa using this

theorem Words.blank_right {s : Str} {ws : List Str} (p : Str) (hp : ∀ c ∈ p, isSpace c = true) (h : Words s ws) :
    Words (s ++ p) ws := by
  induction h with
  | none h =>
    exact .none (by intro c hc; rcases List.mem_append.1 hc with hc | hc <;> [exact h c hc; exact hp c hc])
  | more h1 hw hne hr h ih =>
    rename_i pre w rest ws
    have := Words.more (pre := pre) (rest := rest ++ p) h1 hw hne (by
      intro c hc
      cases rest with
      | nil =>
        rw [List.nil_append] at hc
        exact hp c (List.mem_of_mem_head? hc)
      | cons d rest => exact hr c (by simpa using hc)) ih
    simpa using this

theorem strip_decomp (s : Str) : ∃ p q, s = p ++ strip s ++ q ∧ (∀ c ∈ p, isSpace c = true) ∧
    (∀ c ∈ q, isSpace c = true) := by
  refine ⟨s.takeWhile isSpace, ((s.dropWhile isSpace).reverse.takeWhile isSpace).reverse, ?_, ?_, ?_⟩
  · unfold strip
    rw [List.append_assoc, ← List.reverse_append, List.takeWhile_append_dropWhile, List.reverse_reverse,
      List.takeWhile_append_dropWhile]
  · exact List.all_eq_true.1 List.all_takeWhile
  · intro c hc
    rw [List.mem_reverse] at hc
    exact List.all_eq_true.1 List.all_takeWhile c hc

theorem words_strip (s : Str) (ws : List Str) : Words s ws ↔ splitWs (strip s) = ws := by
  obtain ⟨p, q, h, hp, hq⟩ := strip_decomp s
  have h1 : Words s (splitWs (strip s)) := by
    have := (Words.blank_left p hp (splitWs_words (strip s))).blank_right q hq
    rw [← h] at this
    exact this
  constructor
  · intro h2; exact h1.unique h2
  · intro h2; rw [← h2]; exact h1

/-! ### The tables -/

/-- Note names are at most a letter and an accidental. -/
def noteSpellings : List Str := (['c', 'd', 'e', 'f', 'g', 'a', 'b'].flatMap
  (fun l => [[l], [l, '#'], [l, 'b']]))

theorem noteName_mem {t : Str} {p : Int} (h : noteName t = some p) : t ∈ noteSpellings := by
  unfold noteName at h
  cases t with
  | nil => cases h
  | cons l acc =>
    simp only at h
    have hl : l ∈ ['c', 'd', 'e', 'f', 'g', 'a', 'b'] := by
      cases hl : Spec.letter l with
      | none => rw [hl] at h; simp at h
      | some a =>
        unfold Spec.letter at hl
        split at hl <;> simp_all
    have ha : acc ∈ [[], ['#'], ['b']] := by
      cases ha : Spec.accidental acc with
      | none => rw [ha] at h; cases hl : Spec.letter l <;> rw [hl] at h <;> simp at h
      | some a =>
        unfold Spec.accidental at ha
        split at ha <;> simp_all
    unfold noteSpellings
    rw [List.mem_flatMap]
    refine ⟨l, hl, ?_⟩
    simp only [List.mem_cons, List.not_mem_nil, or_false] at ha
    rcases ha with rfl | rfl | rfl <;> simp

def rareNames : List Str := ["cb", "b#", "e#", "fb"].map String.toList

theorem duple_note : ∀ t ∈ noteSpellings,
    (t ∉ rareNames → lookup dupleMajor t = noteName t ∧ lookup dupleMinor t = (noteName t).map (· + 12)) ∧
    (t ∈ rareNames → lookup dupleMajor t = none ∧ lookup dupleMinor t = none) := by decide +kernel

theorem duple_sound : (∀ p ∈ dupleMajor, noteName p.1 = some p.2 ∧ p.1 ∉ rareNames) ∧
    (∀ p ∈ dupleMinor, (noteName p.1).map (· + 12) = some p.2 ∧ p.1 ∉ rareNames) := by decide +kernel

theorem single_sound : ∀ p ∈ keysSingleLetter, Spec.keyName p.1 = some p.2 ∧ p.1.map Char.toLower ∉ rareNames := by
  decide +kernel

theorem single_complete : ∀ p ∈ Key.stringToInt, p.1.map Char.toLower ∉ rareNames →
    lookup keysSingleLetter p.1 = some p.2 := by decide +kernel

/-! ### C58 -/

/-- **C58, reading.**  Apart from four rare spellings of the tonic (below), the label of an annotation is the key it
names, whatever the blanks and, with a mode, the case; a text that names no key gets −1. -/
theorem C58_reads (a : Str) (k : Int) (hk : k ≠ -1) : parseLabel a = k ↔ Names a k ∧ ¬ Rare a := by
  have hw := (words_strip a (splitWs (strip a))).2 rfl
  unfold parseLabel
  generalize splitWs (strip a) = ws at hw
  have hN : ∀ k, Names a k ↔ ((∃ w, ws = [w] ∧ Spec.keyName w = some k) ∨
      (∃ t m p, ws = [t, m] ∧ noteName (t.map Char.toLower) = some p ∧
        ((m.map Char.toLower = "major".toList ∧ k = p) ∨ (m.map Char.toLower = "minor".toList ∧ k = p + 12)))) := by
    intro k
    unfold Names
    constructor
    · rintro (⟨w, h1, h2⟩ | ⟨t, m, p, h1, h2⟩)
      · exact Or.inl ⟨w, hw.unique h1, h2⟩
      · exact Or.inr ⟨t, m, p, hw.unique h1, h2⟩
    · rintro (⟨w, h1, h2⟩ | ⟨t, m, p, h1, h2⟩)
      · subst h1; exact Or.inl ⟨w, hw, h2⟩
      · subst h1; exact Or.inr ⟨t, m, p, hw, h2⟩
  have hR : Rare a ↔ ∃ w v, ws = w :: v ∧ w.map Char.toLower ∈ rareNames := by
    unfold Rare
    constructor
    · rintro ⟨w, v, h1, h2⟩; exact ⟨w, v, hw.unique h1, h2⟩
    · rintro ⟨w, v, h1, h2⟩; subst h1; exact ⟨w, v, hw, h2⟩
  rw [hN, hR]
  clear hN hR hw
  match ws with
  | [] => simp; omega
  | [w] =>
    simp only [List.cons.injEq, and_true, reduceCtorEq, and_false, false_and, exists_false, or_false]
    constructor
    · intro h
      cases hl : lookup keysSingleLetter w with
      | none => rw [hl] at h; exact absurd h.symm hk
      | some v =>
        rw [hl] at h
        cases h
        obtain ⟨h1, h2⟩ := single_sound _ (lookup_mem _ _ _ hl)
        refine ⟨⟨w, rfl, h1⟩, ?_⟩
        rintro ⟨w', v', ⟨rfl, _⟩, h⟩
        exact h2 h
    · rintro ⟨⟨w', rfl, h1⟩, h2⟩
      rw [← Key.lookup_eq] at h1
      have := single_complete _ (lookup_mem _ _ _ h1) (fun h => h2 ⟨w, [], ⟨rfl, rfl⟩, h⟩)
      rw [this]
      rfl
  | [t, m] =>
    simp only [List.cons.injEq, and_true, reduceCtorEq, and_false, false_and, exists_false, false_or]
    unfold keysDuple lower
    constructor
    · intro h
      by_cases hM : m.map Char.toLower = "major".toList
      · rw [if_pos hM] at h
        cases hl : lookup dupleMajor (t.map Char.toLower) with
        | none => rw [hl] at h; exact absurd h.symm hk
        | some v =>
          rw [hl] at h
          cases h
          obtain ⟨h1, h2⟩ := duple_sound.1 _ (lookup_mem _ _ _ hl)
          refine ⟨⟨t, m, v, ⟨rfl, rfl⟩, h1, Or.inl ⟨hM, rfl⟩⟩, ?_⟩
          rintro ⟨w', v', ⟨rfl, _⟩, h⟩
          exact h2 h
      · rw [if_neg hM] at h
        by_cases hm : m.map Char.toLower = "minor".toList
        · rw [if_pos hm] at h
          cases hl : lookup dupleMinor (t.map Char.toLower) with
          | none => rw [hl] at h; exact absurd h.symm hk
          | some v =>
            rw [hl] at h
            cases h
            obtain ⟨h1, h2⟩ := duple_sound.2 _ (lookup_mem _ _ _ hl)
            obtain ⟨p, hp, hv⟩ := Option.map_eq_some_iff.1 h1
            refine ⟨⟨t, m, p, ⟨rfl, rfl⟩, hp, Or.inr ⟨hm, hv.symm⟩⟩, ?_⟩
            rintro ⟨w', v', ⟨rfl, _⟩, h⟩
            exact h2 h
        · rw [if_neg hm] at h
          exact absurd h.symm hk
    · rintro ⟨⟨t', m', p, ⟨rfl, rfl⟩, h1, h2⟩, h3⟩
      have hr : t.map Char.toLower ∉ rareNames := fun h => h3 ⟨t, [m], ⟨rfl, rfl⟩, h⟩
      obtain ⟨d1, d2⟩ := (duple_note _ (noteName_mem h1)).1 hr
      rcases h2 with ⟨hM, rfl⟩ | ⟨hm, rfl⟩
      · rw [if_pos hM, d1, h1]
        rfl
      · rw [if_neg (by rw [hm]; decide), if_pos hm, d2, h1]
        rfl
  | w₁ :: w₂ :: w₃ :: ws =>
    simp
    omega

/-- **C58 violated, rare spellings.**  `Cb`, `Fb`, `E#` and `B#` (and the minor ones) name keys, and the C++ program
reads them as such, but the annotation reader gives −1. -/
theorem C58_rare_violated (w : Str) (k : Int) (hk : Spec.keyName w = some k) (hr : w.map Char.toLower ∈ rareNames) :
    parseLabel w = -1 ∧ (Key.ofString w).getInt = .ok k := by
  refine ⟨?_, ((Key.C05_ofString w).1 k hk).1⟩
  rw [← Key.lookup_eq] at hk
  have : ∀ p ∈ Key.stringToInt, p.1.map Char.toLower ∈ rareNames → parseLabel p.1 = -1 := by decide +kernel
  exact this _ (lookup_mem _ _ _ hk) hr

/-- **C58, names.**  The name printed for a label is read back as that label, so no two keys share a name; it says
the same key as the line the C++ program prints. -/
theorem C58_key_name (n : Int) (hn : IsKey n) :
    parseLabel (keyName n) = n ∧ ∃ line, Main.keyLine (Key.ofInt n) = .ok line ∧ parseLabel line = parseLabel (keyName n) := by
  have : ∀ n ∈ keys, parseLabel (keyName n) = n := by decide +kernel
  have h := this n (mem_keys.2 hn)
  obtain ⟨line, h1, h2⟩ := Main.C39_parse_label n hn
  exact ⟨h, line, h1, by rw [h2, h]⟩

theorem C58_key_name_injective (m n : Int) (hm : IsKey m) (hn : IsKey n) (h : keyName m = keyName n) : m = n := by
  rw [← (C58_key_name m hm).1, h, (C58_key_name n hn).1]

/-- **C58 violated, unknown annotations.**  An annotation that names no key becomes the label −1; augmentation turns
it into the twelve labels −12 … −1, and each of these is printed as a major key. -/
theorem C58_unknown_violated {D : Type} (x : List D) (n : Nat) (hx : x.length = 12 * n) :
    ∃ feats labels, transpose x (-1) = .ok (feats, labels) ∧ labels.length = 12 ∧
      ∀ t : Nat, t < 12 → ∃ l, labels[t]? = some l ∧ l < 0 ∧ IsKey (((t : Int) + 11) % 12) ∧
        keyName l = keyName (((t : Int) + 11) % 12) := by
  obtain ⟨rows, hr, _, _, _⟩ := reshape12_spec x n hx
  refine ⟨_, _, by simp only [transpose, hr, PyRes.bind_ok]; rfl, by simp, ?_⟩
  intro t ht
  refine ⟨_, by rw [List.getElem?_map, List.getElem?_range ht]; rfl, ?_⟩
  have : ∀ t ∈ List.range 12, ((-1 : Int) + (t : Nat)) % 12 + 12 * (-1 / 12) < 0 ∧ IsKey (((t : Int) + 11) % 12) ∧
      keyName (((-1 : Int) + (t : Nat)) % 12 + 12 * (-1 / 12)) = keyName (((t : Int) + 11) % 12) := by decide +kernel
  exact this t (List.mem_range.2 ht)

/-- C58: annotations as they occur in the data sets. -/
example : parseLabel "  Bb\tMinor\n".toList = 22 ∧ parseLabel "f#\n".toList = 18 ∧ parseLabel "D major".toList = 2 ∧
    parseLabel "Gb Dorian".toList = -1 := by decide +kernel

example : Names "  Bb\tMinor\n".toList 22 ∧ ¬ Rare "  Bb\tMinor\n".toList :=
  (C58_reads _ 22 (by decide)).1 (by decide +kernel)

/-! ### C63 -/

theorem inline_index (a : Str) (h : ∀ w ∈ splitWs (strip a), lower w ≠ ['h']) : inlineIndex a = parseLabel a := by
  unfold inlineIndex parseLabel
  generalize splitWs (strip a) = ws at h
  match ws with
  | [] => rfl
  | [w] =>
    have hw := h w (by simp)
    have key : ∀ w : Str, w ≠ ['H'] → w ≠ ['h'] → lookup inlineSingleLetter w = lookup keysSingleLetter w := by
      intro w h1 h2
      unfold inlineSingleLetter keysSingleLetter
      simp only [lookup, if_neg h1.symm, if_neg h2.symm]
    simp only
    rw [key w (by rintro rfl; exact hw (by decide)) (by rintro rfl; exact hw (by decide))]
  | [t, m] =>
    have ht := h t (by simp)
    have key : ∀ t : Str, t ≠ ['h'] → lookup inlineDupleMajor t = lookup dupleMajor t ∧
        lookup inlineDupleMinor t = lookup dupleMinor t := by
      intro t h1
      unfold inlineDupleMajor inlineDupleMinor dupleMajor dupleMinor
      simp only [List.cons_append, List.nil_append, lookup, if_neg h1.symm]
      exact ⟨trivial, trivial⟩
    obtain ⟨k1, k2⟩ := key (lower t) ht
    simp only [inlineDuple, keysDuple, k1, k2]
  | _ :: _ :: _ :: _ => rfl

theorem inlineIndex_range (a : Str) : inlineIndex a = -1 ∨ IsKey (inlineIndex a) := by
  have t1 : ∀ p ∈ inlineSingleLetter, IsKey p.2 := by decide +kernel
  have t2 : ∀ p ∈ inlineDupleMajor, IsKey p.2 := by decide +kernel
  have t3 : ∀ p ∈ inlineDupleMinor, IsKey p.2 := by decide +kernel
  have aux : ∀ (l : List (Str × Int)) (w : Str), (∀ p ∈ l, IsKey p.2) → (lookup l w).getD (-1) = -1 ∨ IsKey ((lookup l w).getD (-1)) := by
    intro l w hl
    cases h : lookup l w with
    | none => exact Or.inl rfl
    | some v => exact Or.inr (hl _ (lookup_mem _ _ _ h))
  unfold inlineIndex
  split
  · exact aux _ _ t1
  · unfold inlineDuple
    split
    · exact aux _ _ t2
    · split
      · exact aux _ _ t3
      · exact Or.inl rfl
  · exact Or.inl rfl

/-- The written names are key names without `_` and `.`. -/
theorem reverse_spec (k : Int) (hk : IsKey k) :
    ∃ s, AMap.get? inlineReverse k = some s ∧ Spec.keyName s = some k ∧ '_' ∉ s ∧ '.' ∉ s := by
  have : ∀ k ∈ keys, ∃ s ∈ inlineReverse.map Prod.snd, AMap.get? inlineReverse k = some s ∧ Spec.keyName s = some k ∧
      '_' ∉ s ∧ '.' ∉ s := by decide +kernel
  obtain ⟨s, _, h⟩ := this k (mem_keys.2 hk)
  exact ⟨s, h⟩

theorem splitext_dot (root ext : Str) (he : '.' ∉ ext) (hr : ∃ c ∈ root, c ≠ '.') :
    splitext (root ++ '.' :: ext) = (root, '.' :: ext) := by
  unfold splitext
  have h1 : (root ++ '.' :: ext).reverse.dropWhile (· ≠ '.') = '.' :: root.reverse := by
    rw [List.reverse_append, List.reverse_cons, List.append_assoc,
      List.dropWhile_append_of_pos (by intro c hc; simp; rintro rfl; exact he (by simpa using hc))]
    simp
  rw [h1, List.reverse_cons, List.reverse_reverse]
  have h2 : root ++ ['.'] ≠ [] := by simp
  split
  · rename_i h; exact absurd h h2
  · have h3 : (root.all (· = '.')) = false := by
      obtain ⟨c, hc, hne⟩ := hr
      rw [List.all_eq_false]
      exact ⟨c, hc, by simpa using hne⟩
    simp [h3]

/-- **C63.**  For every file `<root>.<ext>` whose annotation is read as key `k`, the copy is called
`<root>_<name>.<ext>` and the C++ program's evaluation mode reads exactly `k` out of that name; so the score it
prints is the weight of its answer against the annotation. -/
theorem C63_round_trip (root ext text : Str) (he : '_' ∉ ext ∧ '.' ∉ ext) (hr : ∃ c ∈ root, c ≠ '.')
    (k answer : Int) (hk : inlineIndex (strip text) = k) (hk' : k ≠ -1) (ha : IsKey answer) :
    ∃ new key, inlineFilename (root ++ '.' :: ext) text = .ok new ∧ Main.groundTruth new = .ok (some key) ∧
      key.getInt = .ok k ∧ Main.score (Key.ofInt answer) key = .ok (Main.weight k answer) := by
  have hK : IsKey k := by
    rcases inlineIndex_range (strip text) with h | h
    · exact absurd (hk ▸ h) hk'
    · exact hk ▸ h
  obtain ⟨s, h1, h2, h3, h4⟩ := reverse_spec k hK
  obtain ⟨key, g1, g2⟩ := Main.C38_file_name root s ext ⟨h3, h4⟩ he k answer h2 ha
  refine ⟨root ++ '_' :: s ++ '.' :: ext, Key.ofString s, ?_, Main.C38_ground_truth root s ext ⟨h3, h4⟩ he, ?_, ?_⟩
  · unfold inlineFilename normalizeKeyLabel
    rw [splitext_dot root ext he.2 hr, hk, h1]
    rfl
  · exact ((Key.C05_ofString s).1 k h2).1
  · have := Main.C38_ground_truth root s ext ⟨h3, h4⟩ he
    rw [this] at g1
    cases g1
    exact g2

/-- **C63, agreement with the data-set builder.**  Unless the annotation uses the German `H`, both tools read the
same key. -/
theorem C63_same_label (text : Str) (h : ∀ w ∈ splitWs (strip text), lower w ≠ ['h']) :
    inlineIndex text = parseLabel text := inline_index text h

/-- **C63 violated, unknown.**  An annotation that is not read gives a name for which the evaluation mode reads an
indeterminate number. -/
theorem C63_unknown_violated (root ext text : Str) (he : '_' ∉ ext ∧ '.' ∉ ext) (hr : ∃ c ∈ root, c ≠ '.')
    (hk : inlineIndex (strip text) = -1) (answer : Int) (ha : IsKey answer) :
    ∃ new key, inlineFilename (root ++ '.' :: ext) text = .ok new ∧ Main.groundTruth new = .ok (some key) ∧
      Main.score (Key.ofInt answer) key = .ub := by
  refine ⟨root ++ '_' :: "Unknown".toList ++ '.' :: ext, Key.ofString "Unknown".toList, ?_,
    Main.C38_ground_truth root _ ext (by decide) he, Main.C38_unknown_key_violated _ _ (by decide) ha⟩
  unfold inlineFilename normalizeKeyLabel
  rw [splitext_dot root ext he.2 hr, hk]
  rfl

/-- **C63 violated, German names.**  `H` (B natural) is read by this tool and refused by the data-set builder. -/
theorem C63_german_violated : inlineIndex ['H'] = 11 ∧ parseLabel ['H'] = -1 := by decide +kernel

/-- C63 on one file. -/
example : inlineFilename "track_01.wav".toList "Gb minor\n".toList = .ok "track_01_f#.wav".toList := by decide +kernel

end JKD.Py
