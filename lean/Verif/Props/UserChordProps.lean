import Verif.Props.ChordinoProps
import Verif.Props.DictFileProps
/-
C115: chords of a user's dictionary have the right names and notes.
-/

namespace JKD.Chordino

open JKD.Chroma

variable {D : Type}

/-! ### Specification -/

/-- Chord type `t` of a dictionary is the kind `K`: its name, ones for its bass note and its tones and zeros for the rest. -/
structure Describes (F : Fns D) (names : List Str) (dict : List D) (t : Nat) (K : Kind) : Prop where
  name : names[t]? = some K.usual ∧ K.harte = K.usual
  bass : ∀ q, q < 12 → dict[24 * t + q]? = some (F.lit (if K.bass = some q then 1 else 0))
  treble : ∀ q, q < 12 → dict[24 * t + 12 + q]? = some (F.lit (if q ∈ K.tones then 1 else 0))
  bound : ∀ i ∈ K.tones, i < 12
  low : ∀ i ∈ K.bass, i < 12

/-! ### Proof -/

/-- The slash of a chord with a given bass note. -/
def slashFrom (usual : Bool) (bass : Option Nat) (r : Nat) : Str :=
  slashOf (fun k => bass = some (k % 12)) (bassnames.getD (if usual then r else 12) [])

/-- The intervals above the root that have a name. -/
def nameable : List Nat := [2, 3, 4, 5, 7, 9, 10, 11]

theorem slash_none : ∀ u : Bool, ∀ r, r < 12 → slashFrom u none r = [] ∧ slashFrom u (some 0) r = [] ∧
    slashFrom u (some 1) r = [] ∧ slashFrom u (some 6) r = [] ∧ slashFrom u (some 8) r = [] := by
  decide +kernel

theorem slash_named : ∀ i ∈ nameable, ∀ r, r < 12 →
    (slashFrom true (some i) r ≠ [] ∧ pitchClassOf (slashFrom true (some i) r) = some ((9 + r + i) % 12)) ∧
    (slashFrom false (some i) r ≠ [] ∧ intervalOf (slashFrom false (some i) r) = some i) := by
  decide +kernel

theorem Describes.long {F : Fns D} {names : List Str} {dict : List D} {t : Nat} {K : Kind} (h : Describes F names dict t K) :
    t < names.length ∧ 24 * t + 24 ≤ dict.length := by
  refine ⟨(List.getElem?_eq_some_iff.1 h.name.1).1, ?_⟩
  have := (List.getElem?_eq_some_iff.1 (h.treble 11 (by decide))).1
  omega

theorem Describes.slash {F : Fns D} (hF : Discerns F) {names : List Str} {dict : List D} {t : Nat} {K : Kind}
    (h : Describes F names dict t K) (harte d : D) (r : Nat) :
    slashAt F harte dict d t r = slashFrom (F.eq harte (F.lit 0)) K.bass r := by
  unfold slashAt slashFrom
  congr 1
  funext k
  rw [List.getD_eq_getElem?_getD, h.bass _ (Nat.mod_lt _ (by norm_num)), Option.getD_some]
  by_cases hk : K.bass = some (k % 12)
  · rw [if_pos hk, hF.lt91]
    simp [hk]
  · rw [if_neg hk, hF.lt90]
    simp [hk]

theorem user_entries (F : Fns D) (names : List Str) (dict : List D) (h24 : 24 * names.length ≤ dict.length) (boostN harte d : D) :
    ∃ x, chordDictionary F (some (names, dict)) [] [] boostN harte = .ok x ∧ ∀ c, c < 12 * names.length →
      x.1[c]? = some (labelAt F harte names dict d c) ∧ x.2.2[c]? = some (notesAt F harte dict d c) := by
  refine ⟨_, chordDictionary_eq F (some (names, dict)) [] [] boostN harte d h24, ?_⟩
  intro c hc
  dsimp only [typesOf, Option.getD_some]
  rw [List.nil_append, List.getElem?_append_left (by rw [tab_length]; exact hc), tab_get, if_pos hc,
    List.getElem?_append_left (by rw [tab_length]; exact hc), tab_get, if_pos hc]
  exact ⟨rfl, rfl⟩

/-- The bass note of the kind is the root, or there is none, or it has a name. -/
def Kind.Named (K : Kind) : Prop := K.bass.getD 0 = 0 ∨ K.bass.getD 0 ∈ nameable

/-- **C115, the labels.**  Any complete dictionary of the user, either notation: every chord type of it is labelled by
the name of the root, the name the user gave and, if the bass note is not the root, a slash and the bass note - its
name, or in the notation of Harte its degree. -/
theorem C115_labels_partial {F : Fns D} (hF : Discerns F) (names : List Str) (dict : List D)
    (h24 : 24 * names.length ≤ dict.length) (boostN : D) (h : Bool) :
    ∃ x, chordDictionary F (some (names, dict)) [] [] boostN (F.lit (if h then 1 else 0)) = .ok x ∧
      ∀ t K, Describes F names dict t K → K.Named → ∀ r, r < 12 →
        ∃ label, x.1[12 * t + r]? = some label ∧ Labels h K r label := by
  obtain ⟨x, e, hx⟩ := user_entries F names dict h24 boostN (F.lit (if h then 1 else 0)) (F.lit 0)
  refine ⟨x, e, ?_⟩
  intro t K hK hn r hr
  have hlong := hK.long.1
  refine ⟨_, (hx (12 * t + r) (by omega)).1, ?_⟩
  unfold labelAt
  have e3 : (12 * t + r) / 12 = t := by omega
  have e4 : (12 * t + r) % 12 = r := by omega
  rw [e3, e4, hK.slash hF]
  have hs0 : F.eq (F.lit (if h then 1 else 0)) (F.lit 0) = !h := by
    cases h
    · exact hF.eq00
    · exact hF.eq10
  have hname : names.getD t [] = if h then K.harte else K.usual := by
    rw [List.getD_eq_getElem?_getD, hK.name.1, hK.name.2, Option.getD_some, ite_self]
  rw [hs0, hname]
  refine ⟨notenames.getD (12 + r) [], if slashFrom (!h) K.bass r = [] then [] else '/' :: slashFrom (!h) K.bass r, ?_,
    root_names r hr, ?_⟩
  · unfold labelFor
    split
    · simp
    · simp
  · obtain ⟨us, ha, bass, tones⟩ := K
    unfold Kind.Named at hn
    simp only at hn ⊢
    cases bass with
    | none => exact if_pos (slash_none _ r hr).1
    | some i =>
      cases i with
      | zero => exact if_pos (slash_none _ r hr).2.1
      | succ i =>
        have hi : i + 1 ∈ nameable := by
          rcases hn with hn | hn
          · exact absurd hn (Nat.succ_ne_zero i)
          · exact hn
        obtain ⟨s1, s2⟩ := slash_named (i + 1) hi r hr
        cases h
        · exact ⟨_, if_neg s1.1, s1.2⟩
        · exact ⟨_, if_neg s2.1, s2.2⟩

theorem mem_notesFor (bare : Bool) (bass treble : Nat → Bool) {r : Nat} (hr : r < 12) (p : Int) :
    p ∈ notesFor bare bass treble r ↔
      (bare = true ∧ p = 45 + (r : Int)) ∨ (∃ q, q < 12 ∧ bass q = true ∧ 45 ≤ p ∧ p ≤ 56 ∧ p % 12 = ((9 + r + q : Nat) : Int) % 12) ∨
        (∃ q, q < 12 ∧ treble q = true ∧ 63 ≤ p ∧ p ≤ 74 ∧ p % 12 = ((9 + r + q : Nat) : Int) % 12) := by
  unfold notesFor
  simp only [List.mem_append, List.mem_flatMap, List.mem_range]
  rw [or_assoc]
  refine or_congr ?_ (or_congr ?_ ?_)
  · by_cases h : bare = true
    · rw [if_pos h]
      simp only [List.mem_singleton, h, true_and]
      omega
    · rw [if_neg h]
      simp [h]
  · constructor
    · rintro ⟨k, hk, h⟩
      split at h
      · rename_i hb
        rw [List.mem_singleton] at h
        exact ⟨_, Nat.mod_lt _ (by norm_num), hb, by omega, by omega, by omega⟩
      · simp at h
    · rintro ⟨q, hq, hb, h1, h2, h3⟩
      refine ⟨(p - 45).toNat, by omega, ?_⟩
      have : ((p - 45).toNat + 12 - r) % 12 = q := by omega
      rw [this, if_pos hb, List.mem_singleton]
      omega
  · constructor
    · rintro ⟨k, hk, h⟩
      split at h
      · rename_i hb
        rw [List.mem_singleton] at h
        exact ⟨_, Nat.mod_lt _ (by norm_num), hb, by omega, by omega, by omega⟩
      · simp at h
    · rintro ⟨q, hq, hb, h1, h2, h3⟩
      refine ⟨((p - 45) % 12).toNat, by omega, ?_⟩
      have : (((p - 45) % 12).toNat + 12 - r) % 12 = q := by omega
      rw [this, if_pos hb, List.mem_singleton]
      omega

theorem Describes.notes {F : Fns D} (hF : Discerns F) {names : List Str} {dict : List D} {t : Nat} {K : Kind}
    (h : Describes F names dict t K) (harte d : D) {r : Nat} (hr : r < 12) (p : Int) :
    p ∈ notesAt F harte dict d (12 * t + r) ↔
      (slashFrom (F.eq harte (F.lit 0)) K.bass r = [] ∧ p = 45 + (r : Int)) ∨
        (∃ q, K.bass = some q ∧ 45 ≤ p ∧ p ≤ 56 ∧ p % 12 = ((9 + r + q : Nat) : Int) % 12) ∨
        (63 ≤ p ∧ p ≤ 74 ∧ ∃ i ∈ K.tones, p % 12 = ((9 + r + i : Nat) : Int) % 12) := by
  unfold notesAt
  have e3 : (12 * t + r) / 12 = t := by omega
  have e4 : (12 * t + r) % 12 = r := by omega
  rw [e3, e4, h.slash hF, mem_notesFor _ _ _ hr]
  have hb : ∀ q, q < 12 → (F.eq (dict.getD (24 * t + q) d) (F.lit 1) = true ↔ K.bass = some q) := by
    intro q hq
    rw [List.getD_eq_getElem?_getD, h.bass q hq, Option.getD_some]
    by_cases hk : K.bass = some q
    · rw [if_pos hk, hF.eq11]; simp [hk]
    · rw [if_neg hk, hF.eq01]; simp [hk]
  have hT : ∀ q, q < 12 → (F.lt (F.lit 0) (dict.getD (24 * t + q + 12) d) = true ↔ q ∈ K.tones) := by
    intro q hq
    rw [Nat.add_right_comm, List.getD_eq_getElem?_getD, h.treble q hq, Option.getD_some]
    by_cases hk : q ∈ K.tones
    · rw [if_pos hk, hF.lt01]; simp [hk]
    · rw [if_neg hk, hF.lt00]; simp [hk]
  refine or_congr ?_ (or_congr ?_ ?_)
  · rw [decide_eq_true_iff]
  · constructor
    · rintro ⟨q, hq, h1, h2⟩
      exact ⟨q, (hb q hq).1 h1, h2⟩
    · rintro ⟨q, h1, h2⟩
      have hq := h.low q (by rw [h1]; rfl)
      exact ⟨q, hq, (hb q hq).2 h1, h2⟩
  · constructor
    · rintro ⟨q, hq, h1, h2, h3, h4⟩
      exact ⟨h2, h3, q, (hT q hq).1 h1, h4⟩
    · rintro ⟨h2, h3, q, h1, h4⟩
      have hq := h.bound q h1
      exact ⟨q, hq, (hT q hq).2 h1, h2, h3, h4⟩

/-- **C115, the notes.**  The notes of such a chord are its bass note - the root, if the kind names none - in the octave
from A2 to A flat 3, and every tone once in the octave from E flat 4 to D5. -/
theorem C115_notes_partial {F : Fns D} (hF : Discerns F) (names : List Str) (dict : List D)
    (h24 : 24 * names.length ≤ dict.length) (boostN harte : D) :
    ∃ x, chordDictionary F (some (names, dict)) [] [] boostN harte = .ok x ∧
      ∀ t K, Describes F names dict t K → K.Named → ∀ r, r < 12 →
        ∃ notes, x.2.2[12 * t + r]? = some notes ∧ ∀ p, p ∈ notes ↔ Plays K r p := by
  obtain ⟨x, e, hx⟩ := user_entries F names dict h24 boostN harte (F.lit 0)
  refine ⟨x, e, ?_⟩
  intro t K hK hn r hr
  have hlong := hK.long.1
  refine ⟨_, (hx (12 * t + r) (by omega)).2, fun p => ?_⟩
  rw [hK.notes hF harte _ hr]
  unfold Plays
  rw [← or_assoc]
  refine or_congr ?_ Iff.rfl
  unfold Kind.Named at hn
  cases hb : K.bass with
  | none =>
    have := (slash_none (F.eq harte (F.lit 0)) r hr).1
    simp only [this, true_and, Option.getD_none, reduceCtorEq, false_and, exists_false, or_false]
    omega
  | some i =>
    rw [hb, Option.getD_some] at hn
    have hex : (∃ q, some i = some q ∧ 45 ≤ p ∧ p ≤ 56 ∧ p % 12 = ((9 + r + q : Nat) : Int) % 12) ↔
        (45 ≤ p ∧ p ≤ 56 ∧ p % 12 = ((9 + r + i : Nat) : Int) % 12) := by
      constructor
      · rintro ⟨q, h, h'⟩
        cases h
        exact h'
      · exact fun h => ⟨i, rfl, h⟩
    rw [hex, Option.getD_some]
    rcases hn with rfl | hn
    · constructor
      · rintro (⟨-, h⟩ | h)
        · omega
        · exact h
      · exact fun h => Or.inr h
    · obtain ⟨s1, s2⟩ := slash_named i hn r hr
      have hne : slashFrom (F.eq harte (F.lit 0)) (some i) r ≠ [] := by
        cases F.eq harte (F.lit 0)
        · exact s2.1
        · exact s1.1
      simp only [hne, false_and, false_or]

/-- **C115 violated.**  A bass note a minor second, a tritone or a minor sixth above the root has no name in the
tables: the label is that of the chord over its root, and the root sounds as a second bass note. -/
theorem C115_unnamed_bass_violated {F : Fns D} (hF : Discerns F) (names : List Str) (dict : List D)
    (h24 : 24 * names.length ≤ dict.length) (boostN harte : D) :
    ∃ x, chordDictionary F (some (names, dict)) [] [] boostN harte = .ok x ∧
      ∀ t K i, Describes F names dict t K → K.bass = some i → i ∈ [1, 6, 8] → ∀ r, r < 12 →
        ∃ root label notes, x.1[12 * t + r]? = some label ∧ x.2.2[12 * t + r]? = some notes ∧
          pitchClassOf root = some ((9 + r) % 12) ∧ label = root ++ K.usual ∧
          ((45 + r : Nat) : Int) ∈ notes ∧ ((45 + (r + i) % 12 : Nat) : Int) ∈ notes ∧ 45 + r ≠ 45 + (r + i) % 12 := by
  obtain ⟨x, e, hx⟩ := user_entries F names dict h24 boostN harte (F.lit 0)
  refine ⟨x, e, ?_⟩
  intro t K i hK hb hi r hr
  have hlong := hK.long.1
  obtain ⟨h1, h2⟩ := hx (12 * t + r) (by omega)
  have hslash : slashFrom (F.eq harte (F.lit 0)) K.bass r = [] := by
    rw [hb]
    have := (slash_none (F.eq harte (F.lit 0)) r hr).2.2
    simp only [List.mem_cons, List.not_mem_nil, or_false] at hi
    rcases hi with rfl | rfl | rfl
    · exact this.1
    · exact this.2.1
    · exact this.2.2
  have hi' : i ≠ 0 ∧ i < 12 := by
    simp only [List.mem_cons, List.not_mem_nil, or_false] at hi
    omega
  refine ⟨notenames.getD (12 + r) [], _, _, h1, h2, root_names r hr, ?_, ?_, ?_, by omega⟩
  · unfold labelAt
    have e3 : (12 * t + r) / 12 = t := by omega
    have e4 : (12 * t + r) % 12 = r := by omega
    rw [e3, e4, hK.slash hF, hslash]
    unfold labelFor
    rw [if_pos rfl, List.getD_eq_getElem?_getD (l := names), hK.name.1, Option.getD_some]
  · rw [hK.notes hF harte _ hr]
    exact Or.inl ⟨hslash, by push_cast; rfl⟩
  · rw [hK.notes hF harte _ hr]
    refine Or.inr (Or.inl ⟨i, hb, ?_, ?_, ?_⟩) <;> omega

/-! ### Example -/

/-- A dictionary of one type: the suspended fourth over its ninth, and the same over its tritone. -/
def susKind (b : Nat) : Kind := ⟨['s', 'u', 's'], ['s', 'u', 's'], some b, [0, 5, 7]⟩

noncomputable def susDict (b : Nat) : List ℝ :=
  (List.range 12).map (fun q => exactFns.lit (if (susKind b).bass = some q then 1 else 0)) ++
    (List.range 12).map (fun q => exactFns.lit (if q ∈ (susKind b).tones then 1 else 0))

theorem susDict_describes {b : Nat} (hb : b < 12) : Describes exactFns [['s', 'u', 's']] (susDict b) 0 (susKind b) where
  name := ⟨rfl, rfl⟩
  bass := by
    intro q hq
    unfold susDict
    rw [List.getElem?_append_left (by simpa using hq), List.getElem?_map, Nat.mul_zero, Nat.zero_add,
      List.getElem?_range hq, Option.map_some]
  treble := by
    intro q hq
    unfold susDict
    rw [List.getElem?_append_right (by simp), List.getElem?_map]
    simp only [List.length_map, List.length_range, Nat.mul_zero, Nat.zero_add, Nat.add_sub_cancel_left]
    rw [List.getElem?_range hq, Option.map_some]
  bound := by
    intro i hi
    change i ∈ [0, 5, 7] at hi
    simp only [List.mem_cons, List.not_mem_nil, or_false] at hi
    omega
  low := by
    intro i hi
    cases hi
    exact hb

example : ∃ x label, chordDictionary exactFns (some ([['s', 'u', 's']], susDict 2)) [] [] 0.1 (exactFns.lit 0) = .ok x ∧
    x.1[3]? = some label ∧ Labels false (susKind 2) 3 label := by
  obtain ⟨x, e, h⟩ := C115_labels_partial exact_discerns [['s', 'u', 's']] (susDict 2) (by simp [susDict]) 0.1 false
  obtain ⟨label, h1, h2⟩ := h 0 _ (susDict_describes (by decide)) (Or.inr (by decide)) 3 (by decide)
  exact ⟨x, label, e, h1, h2⟩

example : ∃ x notes, chordDictionary exactFns (some ([['s', 'u', 's']], susDict 6)) [] [] 0.1 (exactFns.lit 0) = .ok x ∧
    x.2.2[3]? = some notes ∧ (48 : Int) ∈ notes ∧ (54 : Int) ∈ notes := by
  obtain ⟨x, e, h⟩ := C115_unnamed_bass_violated exact_discerns [['s', 'u', 's']] (susDict 6) (by simp [susDict]) 0.1
    (exactFns.lit 0)
  obtain ⟨-, -, notes, -, h2, -, -, h3, h4, -⟩ := h 0 _ 6 (susDict_describes (by decide)) rfl (by decide) 3 (by decide)
  exact ⟨x, notes, e, h2, h3, h4⟩

end JKD.Chordino
