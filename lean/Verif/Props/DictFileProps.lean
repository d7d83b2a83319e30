import Verif.Model.DictFile
import Verif.Props.ChordReportProps
import Verif.Lemmas.Chromagram
/-
C97, C98: the chord dictionary of the user and where it is looked for.
-/

namespace JKD
namespace DictFile

open Chroma Chordino

variable {D : Type}

/-! ### C97: how a dictionary is written -/

/-- Text that can separate two entries of a line. -/
def Gap (s : Str) : Prop := ∀ c ∈ s, c = ',' ∨ c = ';' ∨ c = ' '

/-- Text that can be a chord type or a number. -/
def Word (s : Str) : Prop := s ≠ [] ∧ ∀ c ∈ s, c ≠ ',' ∧ c ≠ ';' ∧ c ≠ ' ' ∧ c ≠ '=' ∧ c ≠ '\n'

/-- The lines of a dictionary: a chord type with its numbers, each behind the gap that separates it from what comes
before; a comment; an empty line. -/
inductive Line (D : Type) where
  | chord (type gap : Str) (numbers : List (Str × D)) (trail : Str)
  | comment (text : Str)
  | empty

/-- How a line is written. -/
def Line.text (sh : D → Str) : Line D → Str
  | .chord type gap ns trail => type ++ gap ++ ['='] ++ ns.flatMap (fun p => p.1 ++ sh p.2) ++ trail
  | .comment text => '#' :: text
  | .empty => []

/-- Which lines are well formed.  There is no gap before a chord type, but one between any two numbers. -/
def Line.Valid (cast : Str → Res D) (sh : D → Str) : Line D → Prop
  | .chord type gap ns trail =>
    (type = [] ∨ Word type) ∧ (∀ c ∈ type.head?, c ≠ '#') ∧ Gap gap ∧ (type = [] → gap = []) ∧ Gap trail ∧
    (∀ p ∈ ns, Gap p.1 ∧ Word (sh p.2) ∧ cast (sh p.2) = .ok p.2) ∧ (∀ p ∈ ns.tail, p.1 ≠ [])
  | .comment text => '\n' ∉ text
  | .empty => True

/-- The chord types of a dictionary. -/
def types (lines : List (Line D)) : List Str :=
  lines.flatMap (fun | .chord type _ _ _ => [type] | _ => [])

/-- The numbers of a dictionary. -/
def values (lines : List (Line D)) : List D :=
  lines.flatMap (fun | .chord _ _ ns _ => ns.map Prod.snd | _ => [])

/-! ### Tokens -/

theorem go_word (w rest cur : Str) (h : ∀ c ∈ w, c ≠ ',' ∧ c ≠ ';' ∧ c ≠ ' ' ∧ c ≠ '=' ∧ c ≠ '\n') :
    tokens.go (w ++ rest) cur = tokens.go rest (w.reverse ++ cur) := by
  induction w generalizing cur with
  | nil => rfl
  | cons c w ih =>
    obtain ⟨h1, h2, h3, h4, -⟩ := h c (by simp)
    rw [List.cons_append, tokens.go, if_neg (by simp [isGap, h1, h2, h3]), if_neg h4,
      ih _ (fun d hd => h d (by simp [hd]))]
    simp

theorem go_gap_nil (g rest : Str) (h : Gap g) : tokens.go (g ++ rest) [] = tokens.go rest [] := by
  induction g with
  | nil => rfl
  | cons c g ih =>
    rw [List.cons_append, tokens.go, if_pos (by simpa [isGap, or_assoc] using h c (by simp)), if_pos rfl]
    exact ih (fun d hd => h d (by simp [hd]))

/-- The token that is being read, as a list. -/
def pending (cur : Str) : List Str := if cur = [] then [] else [cur.reverse]

theorem go_gap (g rest cur : Str) (h : Gap g) (hg : cur = [] ∨ g ≠ []) :
    tokens.go (g ++ rest) cur = pending cur ++ tokens.go rest [] := by
  by_cases hc : cur = []
  · subst hc
    rw [go_gap_nil g rest h]
    rfl
  · obtain ⟨c, g, rfl⟩ := List.exists_cons_of_ne_nil (hg.resolve_left hc)
    rw [List.cons_append, tokens.go, if_pos (by simpa [isGap, or_assoc] using h c (by simp)), if_neg hc,
      go_gap_nil g rest (fun d hd => h d (by simp [hd])), pending, if_neg hc]
    rfl

theorem go_end (g cur : Str) (h : Gap g) : tokens.go g cur = pending cur := by
  by_cases hg : g = []
  · subst hg; rfl
  · have := go_gap g [] cur h (Or.inr hg)
    rw [List.append_nil] at this
    rw [this]
    simp [tokens.go]

theorem go_numbers (sh : D → Str) (ns : List (Str × D)) (trail cur : Str) (ht : Gap trail)
    (h : ∀ p ∈ ns, Gap p.1 ∧ Word (sh p.2)) (hh : cur = [] ∨ ∀ p ∈ ns.head?, p.1 ≠ [])
    (htl : ∀ p ∈ ns.tail, p.1 ≠ []) :
    tokens.go (ns.flatMap (fun p => p.1 ++ sh p.2) ++ trail) cur = pending cur ++ ns.map (fun p => sh p.2) := by
  induction ns generalizing cur with
  | nil => simpa using go_end trail cur ht
  | cons p ns ih =>
    obtain ⟨h1, h2⟩ := h p (by simp)
    have hrev : (sh p.2).reverse ++ [] ≠ [] := by simpa using h2.1
    rw [List.flatMap_cons, List.append_assoc, List.append_assoc, go_gap _ _ _ h1 (by
      rcases hh with hh | hh
      · exact Or.inl hh
      · exact Or.inr (hh p (by simp))), go_word _ _ _ h2.2,
      ih _ (fun q hq => h q (by simp [hq])) (Or.inr (by
        intro q hq
        exact htl q (List.mem_of_mem_head? hq))) (by
        intro q hq
        exact htl q (List.mem_of_mem_tail hq))]
    rw [show pending ((sh p.2).reverse ++ []) = [sh p.2] by rw [pending, if_neg hrev]; simp]
    simp

theorem tokens_chord (cast : Str → Res D) (sh : D → Str) (type gap trail : Str) (ns : List (Str × D))
    (h : (Line.chord type gap ns trail).Valid cast sh) :
    tokens ((Line.chord type gap ns trail).text sh) =
      (if type = [] then [] else [type]) ++ ['='] :: ns.map (fun p => sh p.2) := by
  obtain ⟨h1, h2, h3, h4, h5, h6, h7⟩ := h
  have hns := go_numbers sh ns trail [] h5 (fun p hp => ⟨(h6 p hp).1, (h6 p hp).2.1⟩) (Or.inl rfl) h7
  simp only [tokens, Line.text]
  have heq : ∀ cur, tokens.go ('=' :: (ns.flatMap (fun p => p.1 ++ sh p.2) ++ trail)) cur =
      pending cur ++ ['='] :: ns.map (fun p => sh p.2) := by
    intro cur
    rw [tokens.go, if_neg (by decide), if_pos rfl, hns]
    by_cases hc : cur = []
    · simp [hc, pending]
    · simp [hc, pending]
  have hsplit : type ++ gap ++ ['='] ++ ns.flatMap (fun p => p.1 ++ sh p.2) ++ trail =
      type ++ (gap ++ '=' :: (ns.flatMap (fun p => p.1 ++ sh p.2) ++ trail)) := by simp
  rw [hsplit]
  rcases h1 with rfl | hw
  · rw [h4 rfl, List.nil_append, List.nil_append, heq]
    rfl
  · rw [go_word _ _ _ hw.2]
    have hne : type.reverse ++ [] ≠ [] := by simpa using hw.1
    by_cases hg : gap = []
    · rw [hg, List.nil_append, heq, pending, if_neg hne, if_neg hw.1]
      simp
    · rw [go_gap _ _ _ h3 (Or.inr hg), heq, pending, if_neg hne, if_neg hw.1]
      simp [pending]

theorem numbers_map (cast : Str → Res D) (sh : D → Str) (xs : List D) (h : ∀ x ∈ xs, cast (sh x) = .ok x)
    (d : List D) : numbers cast (xs.map sh) d = .ok (d ++ xs) := by
  induction xs generalizing d with
  | nil => simp [numbers]
  | cons x xs ih =>
    have := ih (fun y hy => h y (by simp [hy])) (d ++ [x])
    rw [numbers] at this
    rw [numbers, List.map_cons, forM_cons, h x (by simp)]
    refine Eq.trans this ?_
    simp

theorem readLine_valid (cast : Str → Res D) (sh : D → Str) (r : List Str × List D) (l : Line D)
    (h : l.Valid cast sh) :
    readLine cast r (l.text sh) = .ok (r.1 ++ types [l], r.2 ++ values [l]) := by
  cases l with
  | empty => simp [readLine, Line.text, types, values]
  | comment text => simp [readLine, Line.text, types, values]
  | chord type gap ns trail =>
    have htok := tokens_chord cast sh type gap trail ns h
    obtain ⟨h1, h2, h3, h4, h5, h6, h7⟩ := h
    have hno : ¬((Line.chord type gap ns trail).text sh = [] ∨
        ((Line.chord type gap ns trail).text sh).take 1 = ['#']) := by
      rintro (h | h)
      · simp [Line.text] at h
      · cases type with
        | nil =>
          rw [h4 rfl] at h
          simp [Line.text] at h
        | cons c type =>
          simp [Line.text] at h
          exact h2 c (by simp) h
    have hnum := numbers_map cast sh (ns.map Prod.snd) (by
      intro x hx
      obtain ⟨p, hp, rfl⟩ := List.mem_map.1 hx
      exact (h6 p hp).2.2) r.2
    rw [List.map_map] at hnum
    have hnum : numbers cast (ns.map (fun p => sh p.2)) r.2 = .ok (r.2 ++ ns.map Prod.snd) := hnum
    rw [readLine, if_neg hno, htok]
    by_cases ht : type = []
    · simp only [ht, if_true, List.nil_append, hnum, Res.bind_ok, Res.pure_eq, types, values, List.flatMap_cons,
        List.flatMap_nil, List.append_nil]
    · have hne : type ≠ ['='] := by
        rintro rfl
        exact ((h1.resolve_left ht).2 '=' (by simp)).2.2.2.1 rfl
      simp only [ht, if_false, List.singleton_append, hne, hnum, Res.bind_ok, Res.pure_eq, types, values,
        List.flatMap_cons, List.flatMap_nil, List.append_nil]

theorem text_newline (cast : Str → Res D) (sh : D → Str) (l : Line D) (h : l.Valid cast sh) :
    '\n' ∉ l.text sh := by
  have hgap : ∀ g, Gap g → '\n' ∉ g := by
    intro g hg hn
    rcases hg _ hn with h | h | h <;> exact absurd h (by decide)
  have hword : ∀ w, (w = [] ∨ Word w) → '\n' ∉ w := by
    rintro w (rfl | hw) hn
    · simp at hn
    · exact (hw.2 _ hn).2.2.2.2 rfl
  cases l with
  | empty => simp [Line.text]
  | comment text =>
    simp only [Line.text, List.mem_cons, not_or]
    exact ⟨by decide, h⟩
  | chord type gap ns trail =>
    obtain ⟨h1, h2, h3, h4, h5, h6, h7⟩ := h
    simp only [Line.text, List.mem_append, not_or, List.mem_flatMap, not_exists, not_and]
    refine ⟨⟨⟨⟨hword _ h1, hgap _ h3⟩, by decide⟩, ?_⟩, hgap _ h5⟩
    intro p hp
    exact ⟨hgap _ (h6 p hp).1, hword _ (Or.inr (h6 p hp).2.1)⟩

/-- **C97.**  A dictionary is read as it is written: every chord type and every number in order, and nothing of the
comments and empty lines. -/
theorem C97_round_trip (cast : Str → Res D) (sh : D → Str) (lines : List (Line D)) (h : ∀ l ∈ lines, l.Valid cast sh) :
    readDict cast (lines.flatMap (fun l => l.text sh ++ ['\n'])) = .ok (types lines, values lines) := by
  have hl := getlines_lines '\n' (lines.map (Line.text sh)) (by
    intro t ht
    obtain ⟨l, hl, rfl⟩ := List.mem_map.1 ht
    exact text_newline cast sh l (h l hl))
  rw [List.flatMap_map] at hl
  rw [readDict, hl]
  have key : ∀ (ls : List (Line D)) (r : List Str × List D), (∀ l ∈ ls, l.Valid cast sh) →
      forM (ls.map (Line.text sh)) r (readLine cast) = .ok (r.1 ++ types ls, r.2 ++ values ls) := by
    intro ls
    induction ls with
    | nil => intro r _; simp [types, values]
    | cons l ls ih =>
      intro r hv
      rw [List.map_cons, forM_cons, readLine_valid cast sh r l (hv l (by simp)), Res.bind_ok,
        ih _ (fun l' h' => hv l' (by simp [h']))]
      simp [types, values]
  have := key lines ([], []) h
  simpa using this

/-! ### Which dictionaries the plug-in can use -/

/-- A piece of the code in which no assertion fails. -/
def NoAbort {α : Type} (x : Run α) : Prop := x ≠ .abort

theorem noAbort_pure {α : Type} (a : α) : NoAbort (Run.ok a) := by simp [NoAbort]

theorem noAbort_rd {α : Type} (v : List α) (i : Int) : NoAbort (rd v i) := by
  unfold rd
  split
  · split <;> simp [NoAbort]
  · simp [NoAbort]

theorem noAbort_bind {α β : Type} {x : Run α} {f : α → Run β} (hx : NoAbort x) (hf : ∀ a, NoAbort (f a)) :
    NoAbort (x >>= f) := by
  cases x with
  | ok a => exact hf a
  | ub => simp [NoAbort]
  | abort => exact absurd rfl hx

theorem noAbort_loop {S : Type} {body : Nat → S → Run S} (h : ∀ i s, NoAbort (body i s)) (k : Nat) (s : S) :
    NoAbort (loop body k s) := by
  induction k with
  | zero => simp [NoAbort, loop]
  | succ k ih => exact noAbort_bind ih (h k)

theorem loop_ok_body {S : Type} {body : Nat → S → Run S} {k : Nat} {s s' : S} (h : loop body k s = .ok s') {i : Nat}
    (hi : i < k) : ∃ a b, body i a = .ok b := by
  induction k generalizing s' with
  | zero => omega
  | succ k ih =>
    rw [loop] at h
    obtain ⟨t, h1, h2⟩ := bind_eq_ok.mp h
    by_cases hk : i = k
    · subst hk; exact ⟨t, s', h2⟩
    · exact ih h1 (by omega)

theorem rd_ok_lt {α : Type} {v : List α} {i : Nat} {x : α} (h : rd v (i : Int) = .ok x) : i < v.length := by
  unfold rd at h
  rw [if_pos (by omega)] at h
  by_contra hn
  rw [List.getElem?_eq_none (by simpa using hn)] at h
  cases h

theorem chordEntry_noAbort (F : Fns D) (b : Bool) (dict : List D) (i j : Nat) : NoAbort (chordEntry F b dict i j) := by
  unfold chordEntry
  refine noAbort_bind (noAbort_loop (fun k r => ?_) _ _) (fun r => noAbort_loop (fun k r => ?_) _ _)
  · refine noAbort_bind (noAbort_rd _ _) (fun x => ?_)
    split
    · exact noAbort_pure _
    · exact noAbort_bind (noAbort_rd _ _) (fun y => noAbort_pure _)
  · exact noAbort_bind (noAbort_rd _ _) (fun y => noAbort_pure _)

theorem slash_noAbort (F : Fns D) (harte : D) (dict : List D) (i j : Nat) :
    NoAbort (slashNotation F harte dict i j) := by
  unfold slashNotation
  refine noAbort_loop (fun k r => ?_) _ _
  refine noAbort_bind (noAbort_rd _ _) (fun x => ?_)
  split
  · exact noAbort_bind (noAbort_rd _ _) (fun y => noAbort_rd _ _)
  · exact noAbort_pure _

theorem allChords_noAbort (F : Fns D) (harte : D) (names : List Str) (dict : List D) :
    NoAbort (allChords F harte names dict) := by
  unfold allChords
  refine noAbort_loop (fun i r => noAbort_loop (fun j r => ?_) _ _) _ _
  refine noAbort_bind (slash_noAbort _ _ _ _ _) (fun s => noAbort_bind (chordEntry_noAbort _ _ _ _ _) (fun e =>
    noAbort_bind (noAbort_rd _ _) (fun t => noAbort_bind ?_ (fun l => noAbort_pure _))))
  unfold chordLabel
  exact noAbort_bind (noAbort_rd _ _) (fun n => noAbort_pure _)

theorem allChords_needs (F : Fns D) (harte : D) (names : List Str) (dict : List D) {r : List Str × List D × List (List Int)}
    (h : allChords F harte names dict = .ok r) : 24 * names.length ≤ dict.length := by
  by_contra hn
  have hpos : 0 < names.length := by omega
  unfold allChords at h
  obtain ⟨a, b, h1⟩ := loop_ok_body h (show names.length - 1 < names.length by omega)
  obtain ⟨a', b', h2⟩ := loop_ok_body h1 (show 0 < 12 by omega)
  obtain ⟨s, -, h3⟩ := bind_eq_ok.mp h2
  obtain ⟨e, h4, -⟩ := bind_eq_ok.mp h3
  unfold chordEntry at h4
  obtain ⟨q, -, h5⟩ := bind_eq_ok.mp h4
  obtain ⟨a'', b'', h6⟩ := loop_ok_body h5 (show 11 < 12 by omega)
  obtain ⟨x, h7, -⟩ := bind_eq_ok.mp h6
  have := rd_ok_lt h7
  omega

/-- **C97, exactly the complete dictionaries.**  The plug-in makes its chords from a dictionary of the user if there
are at least 24 numbers per chord type, and if not its behaviour is undefined; it never complains. -/
theorem C97_complete (F : Fns D) (names : List Str) (dict : List D) (boostN harte : D) :
    (24 * names.length ≤ dict.length →
      ∃ r, chordDictionary F (some (names, dict)) [] [] boostN harte = .ok r ∧ r.1.length = 12 * names.length + 1 ∧
        r.2.1.length = 24 * (12 * names.length + 1)) ∧
    (dict.length < 24 * names.length →
      chordDictionary F (some (names, dict)) [] [] boostN harte = .ub) := by
  constructor
  · intro h
    refine ⟨_, chordDictionary_eq F (some (names, dict)) [] [] boostN harte (F.lit 0) h, ?_, ?_⟩
    · simp [typesOf]
    · simp [typesOf]
  · intro h
    have h1 : allChords F harte names dict = .ub := by
      cases e : allChords F harte names dict with
      | ok r => exact absurd (allChords_needs F harte names dict e) (by omega)
      | ub => rfl
      | abort => exact absurd e (allChords_noAbort F harte names dict)
    unfold chordDictionary
    simp only [Option.getD_some, h1]
    rfl

/-- **C97, whole.**  A well-formed dictionary with 24 numbers per chord type gives the plug-in twelve chords per type
and "N". -/
theorem C97_usable (F : Fns D) (cast : Str → Res D) (sh : D → Str) (lines : List (Line D))
    (h : ∀ l ∈ lines, l.Valid cast sh)
    (h24 : ∀ l ∈ lines, ∀ t g ns e, l = .chord t g ns e → ns.length = 24) (boostN harte : D) :
    ∃ d r, readDict cast (lines.flatMap (fun l => l.text sh ++ ['\n'])) = .ok d ∧
      chordDictionary F (some d) [] [] boostN harte = .ok r ∧ r.1.length = 12 * (types lines).length + 1 := by
  have hlen : (values lines).length = 24 * (types lines).length := by
    clear h
    induction lines with
    | nil => rfl
    | cons l ls ih =>
      have := ih (fun l' h' => h24 l' (by simp [h']))
      have e1 : values (l :: ls) = values [l] ++ values ls := by simp [values]
      have e2 : types (l :: ls) = types [l] ++ types ls := by simp [types]
      rw [e1, e2, List.length_append, List.length_append, this]
      cases l with
      | empty => simp [values, types]
      | comment => simp [values, types]
      | chord t g ns e =>
        have := h24 _ (by simp) t g ns e rfl
        simp [values, types, this]
        ring
  obtain ⟨r, h1, h2, -⟩ := (C97_complete F (types lines) (values lines) boostN harte).1 hlen.ge
  exact ⟨_, r, C97_round_trip cast sh lines h, h1, h2⟩

/-- **C97 violated: commas.**  The comment in the dictionary that comes with the plug-in promises comma-separated
fields, the first for the chord type.  Written so, the number after the type is skipped, and a dictionary of one
type leads to undefined behaviour. -/
theorem C97_commas_violated (F : Fns D) (cast : Str → Res D) (sh : D → Str) (type : Str) (hw : Word type)
    (h0 : ∀ c ∈ type.head?, c ≠ '#') (x : D) (xs : List D) (h24 : (x :: xs).length = 24)
    (hx : ∀ y ∈ x :: xs, Word (sh y) ∧ cast (sh y) = .ok y) (boostN harte : D) :
    readDict cast (type ++ (x :: xs).flatMap (fun y => ',' :: sh y) ++ ['\n']) = .ok ([type], xs) ∧
    chordDictionary F (some ([type], xs)) [] [] boostN harte = .ub := by
  constructor
  · have hcomma : Gap [','] := by intro c hc; simp at hc; exact Or.inl hc
    have hfl : (x :: xs).flatMap (fun y => ',' :: sh y) =
        ((x :: xs).map (fun y => ([','], y))).flatMap (fun p : Str × D => p.1 ++ sh p.2) ++ [] := by
      rw [List.flatMap_map, List.append_nil]
      rfl
    have htok : tokens (type ++ (x :: xs).flatMap (fun y => ',' :: sh y)) = type :: (x :: xs).map sh := by
      rw [tokens, go_word _ _ _ hw.2, hfl, go_numbers sh _ [] _ (by intro c hc; simp at hc) (by
        intro p hp
        obtain ⟨y, hy, rfl⟩ := List.mem_map.1 hp
        exact ⟨hcomma, (hx y hy).1⟩) (Or.inr (by simp)) (by
        intro p hp
        obtain ⟨y, hy, rfl⟩ := List.mem_map.1 (List.mem_of_mem_tail hp)
        simp)]
      have hne : type.reverse ++ [] ≠ [] := by simpa using hw.1
      rw [pending, if_neg hne, List.map_map]
      simp only [List.append_nil, List.reverse_reverse, List.singleton_append]
      rfl
    have hnl : '\n' ∉ type ++ (x :: xs).flatMap (fun y => ',' :: sh y) := by
      simp only [List.mem_append, not_or, List.mem_flatMap, not_exists, not_and]
      refine ⟨fun hn => (hw.2 _ hn).2.2.2.2 rfl, ?_⟩
      intro y hy hn
      rcases List.mem_cons.1 hn with h | h
      · exact absurd h (by decide)
      · exact ((hx y hy).1.2 _ h).2.2.2.2 rfl
    have hl := getlines_lines '\n' [type ++ (x :: xs).flatMap (fun y => ',' :: sh y)] (by simpa using hnl)
    rw [List.flatMap_cons (x := type ++ (x :: xs).flatMap (fun y => ',' :: sh y)), List.flatMap_nil,
      List.append_nil] at hl
    obtain ⟨c, type', rfl⟩ := List.exists_cons_of_ne_nil hw.1
    have hno : ¬(c :: type' ++ (x :: xs).flatMap (fun y => ',' :: sh y) = [] ∨
        (c :: type' ++ (x :: xs).flatMap (fun y => ',' :: sh y)).take 1 = ['#']) := by
      rintro (h | h)
      · simp at h
      · simp at h
        exact h0 c (by simp) h
    have hne : c :: type' ≠ ['='] := by
      intro h
      have := (hw.2 c (by simp)).2.2.2.1
      simp at h
      exact this h.1
    have hnum := numbers_map cast sh xs (fun y hy => (hx y (by simp [hy])).2) []
    rw [readDict, hl]
    simp only [forM_cons, forM_nil, readLine, hno, if_false, htok, List.map_cons, hne, hnum, Res.bind_ok, Res.pure_eq,
      List.nil_append]
  · apply (C97_complete F [type] xs boostN harte).2
    simp at h24 ⊢
    omega

/-- **C97 violated: lines that look empty.**  A line of blanks counts as one more chord type without numbers: a
dictionary that is otherwise complete leads to undefined behaviour. -/
theorem C97_blank_line_violated (F : Fns D) (cast : Str → Res D) (sh : D → Str) (lines : List (Line D))
    (h : ∀ l ∈ lines, l.Valid cast sh) (h24 : (values lines).length = 24 * (types lines).length) (blank : Str)
    (hb : Gap blank) (hne : blank ≠ []) (boostN harte : D) :
    readDict cast (lines.flatMap (fun l => l.text sh ++ ['\n']) ++ blank) = .ok (types lines ++ [[]], values lines) ∧
    chordDictionary F (some (types lines ++ [[]], values lines)) [] [] boostN harte = .ub := by
  constructor
  · have hnl : '\n' ∉ blank := by
      intro hn
      rcases hb _ hn with h | h | h <;> exact absurd h (by decide)
    have hl := getlines_lines '\n' (lines.map (Line.text sh)) (by
      intro t ht
      obtain ⟨l, hl, rfl⟩ := List.mem_map.1 ht
      exact text_newline cast sh l (h l hl))
    have hll := getlines_lines_last '\n' (lines.map (Line.text sh)) blank (by
      intro t ht
      obtain ⟨l, hl, rfl⟩ := List.mem_map.1 ht
      exact text_newline cast sh l (h l hl)) hnl hne
    have hr := C97_round_trip cast sh lines h
    rw [List.flatMap_map] at hl hll
    rw [readDict, hl] at hr
    rw [readDict, hll]
    have happ : ∀ (l : List Str) (r : List Str × List D), forM (l ++ [blank]) r (readLine cast) =
        (forM l r (readLine cast) >>= fun s => readLine cast s blank) := by
      intro l
      induction l with
      | nil =>
        intro r
        simp only [List.nil_append, forM_cons, forM_nil, Res.bind_ok]
        cases readLine cast r blank <;> rfl
      | cons a l ih =>
        intro r
        simp only [List.cons_append, forM_cons]
        cases readLine cast r a with
        | ok s => simpa using ih s
        | ub => rfl
        | throw e => rfl
    rw [happ, hr, Res.bind_ok]
    obtain ⟨c, g, rfl⟩ := List.exists_cons_of_ne_nil hne
    have hc : c ≠ '#' := by
      rintro rfl
      rcases hb '#' (by simp) with h | h | h <;> exact absurd h (by decide)
    have htok : tokens (c :: g) = [] := by rw [tokens, go_end _ _ hb]; rfl
    rw [readLine, if_neg (by simp [hc]), htok]
  · apply (C97_complete F _ _ boostN harte).2
    simp [h24]

/-- **C97 violated: line ends.**  So does a line with nothing but a chord type, such as the carriage return of an
empty line written under Windows, at once. -/
theorem C97_lone_word_violated (cast : Str → Res D) (r : List Str × List D) (w : Str) (hw : Word w)
    (h0 : ∀ c ∈ w.head?, c ≠ '#') : readLine cast r w = .ub := by
  have htok : tokens w = [w] := by
    have := go_word w [] [] hw.2
    rw [List.append_nil] at this
    rw [tokens, this, tokens.go, if_neg (by simpa using hw.1)]
    simp
  obtain ⟨c, w', rfl⟩ := List.exists_cons_of_ne_nil hw.1
  have hne : c :: w' ≠ ['='] := by
    intro h
    have := (hw.2 c (by simp)).2.2.2.1
    simp at h
    exact this h.1
  rw [readLine, if_neg (by
    rintro (h | h)
    · simp at h
    · simp at h
      exact h0 c (by simp) h), htok]
  simp only [hne, if_false]

/-! ### C98: the search path -/

/-- **C98, colons.**  The directories are what stands between the colons: put together with colons they are the search
path, and none of them has a colon. -/
theorem C98_cut (s : Str) : List.intercalate [':'] (cut s) = s ∧ (∀ d ∈ cut s, ':' ∉ d) ∧ cut s ≠ [] := by
  induction s using cut.induct with
  | case1 s h =>
    rw [cut]
    split
    · refine ⟨by simp [List.intercalate], ?_, by simp⟩
      intro d hd
      rw [List.mem_singleton.1 hd]
      intro hc
      have := List.findIdx?_eq_none_iff.mp h ':' hc
      simp at this
    · rename_i k hk
      rw [h] at hk
      cases hk
  | case2 s k h ih =>
    rw [cut]
    split
    · rename_i hk
      rw [h] at hk
      cases hk
    · rename_i k' hk
      rw [h] at hk
      cases hk
      obtain ⟨i1, i2, i3⟩ := ih
      obtain ⟨h1, h2, h3⟩ := List.findIdx?_eq_some_iff_getElem.mp h
      have hs : s = s.take k ++ ':' :: s.drop (k + 1) := by
        have hget : s[k] = ':' := by simpa using h2
        conv_lhs => rw [← List.take_append_drop k s]
        rw [List.drop_eq_getElem_cons h1, hget]
      refine ⟨?_, ?_, by simp⟩
      · obtain ⟨d, ds, e⟩ := List.exists_cons_of_ne_nil i3
        rw [e] at i1 ⊢
        have : List.intercalate [':'] (s.take k :: d :: ds) =
            s.take k ++ [':'] ++ List.intercalate [':'] (d :: ds) := by
          simp [List.intercalate, List.intersperse]
        rw [this, i1]
        simpa using hs.symm
      · intro d hd
        rcases List.mem_cons.1 hd with rfl | hd
        · intro hc
          obtain ⟨j, hj, he⟩ := List.getElem_of_mem hc
          have hjk : j < k := by simp at hj; omega
          have := h3 j hjk
          rw [List.getElem_take] at he
          simp [he] at this
        · exact i2 d hd

theorem find_none (needle s : Str) (hn : needle ≠ []) : find needle s = none ↔ ¬ needle <:+: s := by
  induction s with
  | nil => simp [find, hn]
  | cons c s ih =>
    rw [find]
    by_cases hp : needle.isPrefixOf (c :: s) = true
    · rw [if_pos hp]
      simp only [reduceCtorEq, false_iff, not_not]
      exact (List.isPrefixOf_iff_prefix.mp hp).isInfix
    · rw [if_neg hp]
      rw [List.infix_cons_iff, not_or, Option.map_eq_none_iff, ih]
      exact ⟨fun h => ⟨fun h' => hp (List.isPrefixOf_iff_prefix.mpr h'), h⟩, fun h => h.2⟩

/-- A character that does not occur in what is looked for cuts the text. -/
theorem find_cut (needle t r : Str) (c : Char) (hc : c ∉ needle) (hn : needle ≠ []) (ht : ¬ needle <:+: t) :
    find needle (t ++ c :: r) = (find needle r).map (· + (t.length + 1)) := by
  have hpre : ∀ (n : Str) (u : Str), c ∉ n → n <+: u ++ c :: r → n <+: u := by
    intro n
    induction n with
    | nil => intro u _ _; exact List.nil_prefix
    | cons x n ih =>
      intro u hx h
      cases u with
      | nil =>
        rw [List.nil_append, List.cons_prefix_cons] at h
        rw [h.1] at hx
        simp at hx
      | cons y u =>
        rw [List.cons_append, List.cons_prefix_cons] at h
        rw [List.cons_prefix_cons]
        exact ⟨h.1, ih u (fun h' => hx (by simp [h'])) h.2⟩
  induction t with
  | nil =>
    rw [List.nil_append, find, if_neg (by
      intro h
      have := hpre needle [] hc (by simpa using List.isPrefixOf_iff_prefix.mp h)
      exact hn (List.prefix_nil.mp this))]
    rfl
  | cons y t ih =>
    rw [List.infix_cons_iff, not_or] at ht
    rw [List.cons_append, find, if_neg (by
      intro h
      exact ht.1 (hpre needle (y :: t) hc (by simpa using List.isPrefixOf_iff_prefix.mp h))), ih ht.2, Option.map_map]
    congr 1

/-- **C98, the default.**  Without `VAMP_PATH` (or with an empty one) the directories are those of the user's home,
then those of the system.  (Partial: as long as the name of the home directory does not contain `$HOME`.) -/
theorem C98_default_partial (vamp : Option Str) (hv : vamp = none ∨ vamp = some []) (home : Str)
    (hh : ¬ ['$', 'H', 'O', 'M', 'E'] <:+: home) (n : Nat) (hn : 3 ≤ n) :
    envPath vamp (some home) n =
      some (home ++ "/vamp:".toList ++ home ++ "/.vamp:/usr/local/lib/vamp:/usr/lib/vamp".toList) ∧
    (':' ∉ home → getPluginPath vamp (some home) n =
      some [home ++ "/vamp".toList, home ++ "/.vamp".toList, "/usr/local/lib/vamp".toList, "/usr/lib/vamp".toList]) := by
  obtain ⟨n, rfl⟩ : ∃ m, n = m + 3 := ⟨n - 3, by omega⟩
  have hne : homeName ≠ [] := by decide
  have hs : '/' ∉ homeName := by decide
  have hempty : vamp.getD [] = [] := by rcases hv with rfl | rfl <;> rfl
  have h1 : find homeName defaultPath = some 0 := by decide
  have e1 : defaultPath.take 0 ++ home ++ defaultPath.drop (0 + 5) =
      home ++ '/' :: "vamp:$HOME/.vamp:/usr/local/lib/vamp:/usr/lib/vamp".toList := by
    rw [show defaultPath.drop (0 + 5) = '/' :: "vamp:$HOME/.vamp:/usr/local/lib/vamp:/usr/lib/vamp".toList by decide]
    simp
  have h2 := find_cut homeName home "vamp:$HOME/.vamp:/usr/local/lib/vamp:/usr/lib/vamp".toList '/' hs hne hh
  rw [show find homeName "vamp:$HOME/.vamp:/usr/local/lib/vamp:/usr/lib/vamp".toList = some 5 by decide] at h2
  have e2 : (home ++ '/' :: "vamp:$HOME/.vamp:/usr/local/lib/vamp:/usr/lib/vamp".toList).take (5 + (home.length + 1)) ++
      home ++ (home ++ '/' :: "vamp:$HOME/.vamp:/usr/local/lib/vamp:/usr/lib/vamp".toList).drop
        (5 + (home.length + 1) + 5) =
      (home ++ "/vamp:".toList) ++ (home ++ '/' :: ".vamp:/usr/local/lib/vamp:/usr/lib/vamp".toList) := by
    rw [List.take_append, List.drop_append, List.take_of_length_le (by omega), List.drop_of_length_le (by omega)]
    rw [show 5 + (home.length + 1) - home.length = 6 by omega, show 5 + (home.length + 1) + 5 - home.length = 11 by omega]
    rw [show ('/' :: "vamp:$HOME/.vamp:/usr/local/lib/vamp:/usr/lib/vamp".toList).take 6 = "/vamp:".toList by decide,
      show ('/' :: "vamp:$HOME/.vamp:/usr/local/lib/vamp:/usr/lib/vamp".toList).drop 11 =
        '/' :: ".vamp:/usr/local/lib/vamp:/usr/lib/vamp".toList by decide]
    simp
  have h3 : find homeName ((home ++ "/vamp:".toList) ++ (home ++ '/' :: ".vamp:/usr/local/lib/vamp:/usr/lib/vamp".toList)) =
      none := by
    have a1 := find_cut homeName home
      ("vamp:".toList ++ (home ++ '/' :: ".vamp:/usr/local/lib/vamp:/usr/lib/vamp".toList)) '/' hs hne hh
    have a2 := find_cut homeName "vamp".toList (home ++ '/' :: ".vamp:/usr/local/lib/vamp:/usr/lib/vamp".toList) ':'
      (by decide) hne (by
        rw [← find_none _ _ hne]
        decide)
    have a3 := find_cut homeName home ".vamp:/usr/local/lib/vamp:/usr/lib/vamp".toList '/' hs hne hh
    rw [show find homeName ".vamp:/usr/local/lib/vamp:/usr/lib/vamp".toList = none by decide, Option.map_none] at a3
    rw [a3, Option.map_none] at a2
    have b : "vamp:".toList ++ (home ++ '/' :: ".vamp:/usr/local/lib/vamp:/usr/lib/vamp".toList) =
        "vamp".toList ++ ':' :: (home ++ '/' :: ".vamp:/usr/local/lib/vamp:/usr/lib/vamp".toList) := rfl
    rw [b, a2, Option.map_none] at a1
    rw [← a1]
    congr 1
    simp
  have key : envPath vamp (some home) (n + 3) =
      some (home ++ "/vamp:".toList ++ home ++ "/.vamp:/usr/local/lib/vamp:/usr/lib/vamp".toList) := by
    simp only [envPath, hempty, if_true]
    rw [expand]
    simp only [h1, e1]
    rw [expand]
    simp only [h2, Option.map_some, e2]
    rw [expand]
    simp only [h3]
    simp
  refine ⟨key, fun hcol => ?_⟩
  rw [getPluginPath, key, Option.map_some]
  have hcut : ∀ a r : Str, ':' ∉ a → cut (a ++ ':' :: r) = a :: cut r := by
    intro a r ha
    have hf : (a ++ ':' :: r).findIdx? (· = ':') = some a.length := by
      rw [List.findIdx?_eq_some_iff_getElem]
      refine ⟨by simp, by simp, ?_⟩
      intro j hj
      rw [List.getElem_append_left hj]
      simp only [decide_eq_true_eq]
      intro h
      exact ha (h ▸ List.getElem_mem hj)
    rw [cut]
    split
    · rename_i hk; rw [hf] at hk; cases hk
    · rename_i k hk
      rw [hf] at hk
      cases hk
      simp
  have hlast : ∀ a : Str, ':' ∉ a → cut a = [a] := by
    intro a ha
    have hf : a.findIdx? (· = ':') = none := by
      rw [List.findIdx?_eq_none_iff]
      intro x hx
      simp only [decide_eq_false_iff_not]
      rintro rfl
      exact ha hx
    rw [cut]
    split
    · rfl
    · rename_i hk; rw [hf] at hk; cases hk
  have e : home ++ "/vamp:".toList ++ home ++ "/.vamp:/usr/local/lib/vamp:/usr/lib/vamp".toList =
      (home ++ "/vamp".toList) ++ ':' :: ((home ++ "/.vamp".toList) ++ ':' :: ("/usr/local/lib/vamp".toList ++ ':' ::
        "/usr/lib/vamp".toList)) := by
    rw [show "/vamp:".toList = "/vamp".toList ++ [':'] by decide,
      show "/.vamp:/usr/local/lib/vamp:/usr/lib/vamp".toList = "/.vamp".toList ++ ':' :: ("/usr/local/lib/vamp".toList ++
        ':' :: "/usr/lib/vamp".toList) by decide]
    simp
  rw [e, hcut _ _ (by simp only [List.mem_append, not_or]; exact ⟨hcol, by decide⟩),
    hcut _ _ (by simp only [List.mem_append, not_or]; exact ⟨hcol, by decide⟩), hcut _ _ (by decide), hlast _ (by decide)]

/-- **C98 violated.**  With `$HOME` in the name of the home directory the search never ends. -/
theorem C98_home_violated (vamp : Option Str) (hv : vamp = none ∨ vamp = some []) (home : Str)
    (hh : ['$', 'H', 'O', 'M', 'E'] <:+: home) (n : Nat) : getPluginPath vamp (some home) n = none := by
  have hne : homeName ≠ [] := by decide
  have hempty : vamp.getD [] = [] := by rcases hv with rfl | rfl <;> rfl
  have key : ∀ n s, homeName <:+: s → expand home n s = none := by
    intro n
    induction n with
    | zero => intro s _; rfl
    | succ n ih =>
      intro s hs
      rw [expand]
      cases hf : find homeName s with
      | none => exact absurd hs ((find_none _ _ hne).mp hf)
      | some f =>
        apply ih
        obtain ⟨a, b, e⟩ := hh
        refine ⟨s.take f ++ a, b ++ s.drop (f + 5), ?_⟩
        rw [← e]
        simp [homeName]
  have h0 : homeName <:+: defaultPath := by
    rw [← not_not (a := homeName <:+: defaultPath), ← find_none _ _ hne]
    decide
  simp [getPluginPath, envPath, hempty, key n _ h0]

/-- **C98, `VAMP_PATH`.**  If it is set and not empty, it alone counts. -/
theorem C98_vamp_path (v : Str) (hv : v ≠ []) (home : Option Str) (n : Nat) :
    getPluginPath (some v) home n = some (cut v) := by
  simp [getPluginPath, envPath, hv]

/-- **C98, the first counts.**  The dictionary is that of the first directory that has one; if none has, there is
none. -/
theorem C98_first (cast : Str → Res D) (file : Str → Option Str) (path : List Str) :
    (∀ pre dir post content, path = pre ++ dir :: post →
      (∀ d ∈ pre, file (d ++ "/chord.dict".toList) = none) → file (dir ++ "/chord.dict".toList) = some content →
      userDict cast file path = (readDict cast content >>= fun d => .ok (some d))) ∧
    (path ≠ [] → (∀ d ∈ path, file (d ++ "/chord.dict".toList) = none) → userDict cast file path = .ok none) := by
  have hname : ∀ d, dictName d = d ++ "/chord.dict".toList := by
    intro d
    simp [dictName]
  constructor
  · intro pre dir post content hp hpre hdir
    have : ∀ (pre : List Str) (name : Str), (∀ d ∈ pre, file (dictName d) = none) →
        locate file (pre ++ dir :: post) name = (true, dictName dir) := by
      intro pre
      induction pre with
      | nil =>
        intro name _
        rw [List.nil_append, locate, if_pos (by rw [hname, hdir]; rfl)]
      | cons d pre ih =>
        intro name h
        rw [List.cons_append, locate, if_neg (by rw [h d (by simp)]; simp), if_neg (by simp)]
        exact ih _ (fun d' h' => h d' (by simp [h']))
    have h1 := this pre [] (fun d hd => by rw [hname]; exact hpre d hd)
    simp only [userDict, hp, h1, if_true, hname, hdir]
    rfl
  · intro hne hall
    have : ∀ (p : List Str) (name : Str), p ≠ [] → (∀ d ∈ p, file (dictName d) = none) →
        (locate file p name).1 = false := by
      intro p
      induction p with
      | nil => intro _ h; exact absurd rfl h
      | cons d p ih =>
        intro name _ h
        rw [locate, if_neg (by rw [h d (by simp)]; simp)]
        split
        · rfl
        · rename_i hp
          exact ih _ hp (fun d' h' => h d' (by simp [h']))
    have h1 := this path [] hne (fun d hd => by rw [hname]; exact hall d hd)
    simp only [userDict, h1, Bool.false_eq_true, if_false]

/-! ### Examples -/

/-- Zero and one, as they are written. -/
def bitText (b : Bool) : Str := if b then ['1'] else ['0']

/-- Their conversion. -/
def bitCast (s : Str) : Res Bool := if s = ['1'] then .ok true else if s = ['0'] then .ok false else .throw .invalidArgument

theorem bitText_word (b : Bool) : Word (bitText b) := by
  cases b
  · exact ⟨by decide, by intro c hc; simp [bitText] at hc; subst hc; decide⟩
  · exact ⟨by decide, by intro c hc; simp [bitText] at hc; subst hc; decide⟩

theorem bitText_cast (b : Bool) : bitCast (bitText b) = .ok b := by cases b <;> decide

/-- A dictionary of two chord types, with a comment and an empty line: `#x`, `m= 1,0;1`, (empty), `=1  0`. -/
example : ∀ l ∈ [Line.comment ['x'], .chord ['m'] [] [([' '], true), ([','], false), ([';'], true)] [], .empty,
    .chord [] [] [([], true), ([' ', ' '], false)] []], l.Valid bitCast bitText := by
  intro l hl
  simp only [List.mem_cons, List.not_mem_nil, or_false] at hl
  rcases hl with rfl | rfl | rfl | rfl
  · show '\n' ∉ ['x']; decide
  · refine ⟨Or.inr ⟨by decide, ?_⟩, by decide, by simp [Gap], by simp, by simp [Gap], ?_, by decide⟩
    · intro c hc; simp at hc; subst hc; decide
    · intro p hp
      refine ⟨?_, bitText_word _, bitText_cast _⟩
      simp at hp
      rcases hp with rfl | rfl | rfl <;> simp [Gap]
  · trivial
  · refine ⟨Or.inl rfl, by simp, by simp [Gap], by simp, by simp [Gap], ?_, by decide⟩
    intro p hp
    refine ⟨?_, bitText_word _, bitText_cast _⟩
    simp at hp
    rcases hp with rfl | rfl <;> simp [Gap]

example : readDict bitCast "#x\nm= 1,0;1\n\n=1  0\n".toList = .ok ([['m'], []], [true, false, true, true, false]) := by
  decide +kernel

/-- The first number is lost behind a comma. -/
example : readDict bitCast "m,1,0,1\n".toList = .ok ([['m']], [false, true]) := by decide +kernel

/-- A carriage return on its own is a word. -/
example : Word ['\r'] ∧ ∀ c ∈ ['\r'].head?, c ≠ '#' :=
  ⟨⟨by decide, by intro c hc; simp at hc; subst hc; decide⟩, by decide⟩

example : getPluginPath none (some "/home/u".toList) 3 =
    some ["/home/u/vamp".toList, "/home/u/.vamp".toList, "/usr/local/lib/vamp".toList, "/usr/lib/vamp".toList] :=
  (C98_default_partial none (Or.inl rfl) _ (by rw [← find_none _ _ (by decide)]; decide) 3 (by omega)).2 (by decide)

example (n : Nat) : getPluginPath none (some "/tmp/$HOME".toList) n = none :=
  C98_home_violated none (Or.inl rfl) _ ⟨"/tmp/".toList, [], by decide⟩ n

end DictFile
end JKD
