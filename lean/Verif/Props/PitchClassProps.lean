import Verif.Model.PitchClass
import Verif.Spec.Music
import Mathlib.Data.List.Perm.Subperm
/-
C01-C04: pitch classes.
-/

namespace JKD.PitchClass

open Spec

/-! ### Helper lemmas -/

theorem tolowerC_eq (c : Char) : tolowerC c = c.toLower := by
  by_cases h : 'A'.toNat ≤ c.toNat ∧ c.toNat ≤ 'Z'.toNat
  · have key : ∀ n ∈ List.range' 65 26,
        tolowerC (Char.ofNat n) = (Char.ofNat n).toLower := by decide +kernel
    have := key c.toNat (by
      have h1 : 'A'.toNat = 65 := rfl
      have h2 : 'Z'.toNat = 90 := rfl
      rw [List.mem_range'_1]; omega)
    rwa [Char.ofNat_toNat] at this
  · have h2 : ¬ (c.val ≥ 'A'.val ∧ c.val ≤ 'Z'.val) := by
      intro h3
      exact h ⟨h3.1, h3.2⟩
    unfold tolowerC Char.toLower
    rw [if_neg h, dif_neg h2]

theorem table_sound : ∀ p ∈ stringToInt, noteName p.1 = some p.2 := by decide +kernel

theorem letter_mem {c : Char} {v : Int} (h : letter c = some v) :
    c ∈ ['c', 'd', 'e', 'f', 'g', 'a', 'b'] := by
  unfold letter at h
  split at h <;> simp_all

theorem accidental_mem {s : List Char} {v : Int} (h : accidental s = some v) :
    s ∈ [[], ['#'], ['b']] := by
  unfold accidental at h
  split at h <;> simp_all

theorem noteName_eq_some {l : Char} {acc : List Char} {v : Int} (h : noteName (l :: acc) = some v) :
    ∃ a b, letter l = some a ∧ accidental acc = some b ∧ (a + b) % 12 = v := by
  unfold noteName at h
  cases ha : letter l with
  | none => simp [ha] at h
  | some a =>
    cases hb : accidental acc with
    | none => simp [ha, hb] at h
    | some b => simp only [ha, hb, Option.some.injEq] at h; exact ⟨a, b, rfl, rfl, h⟩

theorem table_complete_aux : ∀ l ∈ ['c', 'd', 'e', 'f', 'g', 'a', 'b'],
    ∀ a ∈ ([[], ['#'], ['b']] : List (List Char)),
      lookup stringToInt (l :: a) = noteName (l :: a) := by decide +kernel

theorem lookup_eq (s : Str) : lookup stringToInt s = noteName s := by
  cases h : noteName s with
  | some v =>
    cases s with
    | nil => simp [noteName] at h
    | cons l acc =>
      obtain ⟨a, b, ha, hb, _⟩ := noteName_eq_some h
      rw [table_complete_aux l (letter_mem ha) acc (accidental_mem hb), h]
  | none =>
    cases h2 : lookup stringToInt s with
    | none => rfl
    | some v =>
      have := table_sound _ (lookup_mem _ _ _ h2)
      simp only at this
      rw [h] at this
      simp at this

theorem noteName_range {s : Str} {v : Int} (h : noteName s = some v) : 0 ≤ v ∧ v < 12 := by
  cases s with
  | nil => simp [noteName] at h
  | cons l acc =>
    obtain ⟨a, b, _, _, h⟩ := noteName_eq_some h
    omega

/-! ### Property theorems -/

/-- **C01.** For every `int` in `[0,12)` the constructor stores that pitch class, under its canonical
name (a name that denotes that pitch class); for every other `int` nothing is stored: the name is
empty and reading the number is undefined behaviour. -/
theorem C01_ofInt (n : Int) :
    ((0 ≤ n ∧ n < 12) → (ofInt n).getInt = .ok n ∧ noteName (ofInt n).getString = some n) ∧
    (¬ (0 ≤ n ∧ n < 12) → (ofInt n).getInt = .ub ∧ (ofInt n).getString = []) := by
  constructor
  · intro h
    have hm : n ∈ pcs := mem_pcs.2 h
    have key : ∀ n ∈ pcs, (ofInt n).getInt = .ok n ∧ noteName (ofInt n).getString = some n := by
      decide +kernel
    exact key n hm
  · intro h
    simp [ofInt, h, getInt, getString]

/-- The canonical names of the twelve pitch classes, in order (what `getString` reports). -/
theorem C01_canonical_names :
    pcs.map (fun n => (ofInt n).getString) =
      [['c'], ['c', '#'], ['d'], ['e', 'b'], ['e'], ['f'], ['f', '#'], ['g'], ['a', 'b'], ['a'],
       ['b', 'b'], ['b']] := by decide +kernel

/-- **C01 (vector).** `getAllPitchClassesVector` lists the twelve pitch classes once each, in order. -/
theorem C01_all : all.map getInt = pcs.map Res.ok := by decide +kernel

example : (ofInt 7).getInt = .ok 7 ∧ (ofInt 12).getInt = .ub ∧ (ofInt (-1)).getInt = .ub := by
  decide +kernel

/-- **C02.** For every string: the constructor stores a pitch class exactly when the string is a note
name in any letter case, and it is then the pitch class that name denotes; otherwise nothing is
stored. -/
theorem C02_ofString (s : Str) :
    (ofString s).getInt = Res.read (pitchClassName s) := by
  have hl : s.map tolowerC = s.map Char.toLower := by
    apply List.map_congr_left
    intro c _
    exact tolowerC_eq c
  unfold ofString pitchClassName
  simp only [hl, lookup_eq]
  cases noteName (s.map Char.toLower) <;> simp [getInt]

/-- **C02.** Exactly 21 lower-case spellings are accepted. -/
theorem C02_language (s : Str) :
    (∃ n, (ofString s).getInt = .ok n) ↔ s.map Char.toLower ∈
      (['c', 'd', 'e', 'f', 'g', 'a', 'b'].flatMap (fun l => [[l], [l, '#'], [l, 'b']])) := by
  rw [C02_ofString]
  unfold pitchClassName
  constructor
  · rintro ⟨n, hn⟩
    cases h : noteName (s.map Char.toLower) with
    | none => simp [h] at hn
    | some v =>
      cases hs : s.map Char.toLower with
      | nil => rw [hs] at h; simp [noteName] at h
      | cons l acc =>
        rw [hs] at h
        obtain ⟨a, b, ha, hb, _⟩ := noteName_eq_some h
        have h1 := letter_mem ha
        have h2 := accidental_mem hb
        simp only [List.mem_flatMap]
        refine ⟨l, h1, ?_⟩
        simp only [List.mem_cons, List.not_mem_nil, or_false] at h2
        rcases h2 with rfl | rfl | rfl <;> simp
  · intro h
    have key : ∀ w ∈ (['c', 'd', 'e', 'f', 'g', 'a', 'b'].flatMap
        (fun l => [[l], [l, '#'], [l, 'b']])), (noteName w).isSome := by decide +kernel
    have := key _ h
    cases h2 : noteName (s.map Char.toLower) with
    | none => simp [h2] at this
    | some v => exact ⟨v, by simp⟩

example : (ofString ['G', 'B']).getInt = .ok 6 ∧ (ofString ['h']).getInt = .ub := by decide +kernel

/-- **C03.** Number to name to number is the identity on the twelve pitch classes. -/
theorem C03_int_roundtrip (n : Int) (h : 0 ≤ n ∧ n < 12) :
    ofString (ofInt n).getString = ofInt n := by
  have key : ∀ n ∈ pcs, ofString (ofInt n).getString = ofInt n := by decide +kernel
  exact key n (mem_pcs.2 h)

/-- **C03.** For every accepted spelling, rebuilding from the reported name, or from the reported
number, gives the identical object (so the reported name is canonical). -/
theorem C03_string_roundtrip (s : Str) (n : Int) (h : (ofString s).getInt = .ok n) :
    ofString (ofString s).getString = ofString s ∧ ofInt n = ofString s := by
  cases hn : noteName (s.map tolowerC) with
  | none => simp [ofString, lookup_eq, hn, getInt] at h
  | some v =>
    have hs : ofString s = { int := some v, str := stringOf v } := by
      simp [ofString, lookup_eq, hn]
    rw [hs] at h
    simp only [getInt, Res.read_some, Res.ok.injEq] at h
    subst h
    have hv := noteName_range hn
    have h2 : ofInt v = { int := some v, str := stringOf v } := by simp [ofInt, hv]
    have h3 := C03_int_roundtrip v hv
    rw [hs, ← h2]
    exact ⟨h3, rfl⟩

example : (ofString ['D', 'b']).getInt = .ok 1 ∧ (ofString ['D', 'b']).getString = ['c', '#'] := by
  decide +kernel

/-- A `PitchClass` object some client can hold: built by one of the two constructors. -/
inductive Made : PitchClass → Prop
  | str (s : Str) : Made (ofString s)
  | int (n : Int) : Made (ofInt n)

/-- Every object a client can hold either stores a pitch class in `[0,12)` under a name denoting it,
or stores nothing. -/
theorem made_inv {p : PitchClass} (h : Made p) :
    (∃ n, 0 ≤ n ∧ n < 12 ∧ p = ofInt n) ∨ (p.getInt = .ub ∧ p.getString = []) := by
  cases h with
  | str s =>
    cases hn : (ofString s).getInt with
    | ok n =>
      left
      have h2 := C03_string_roundtrip s n hn
      rw [C02_ofString] at hn
      cases h3 : pitchClassName s with
      | none => simp [h3] at hn
      | some v =>
        simp only [h3, Res.read_some, Res.ok.injEq] at hn
        subst hn
        exact ⟨v, (noteName_range h3).1, (noteName_range h3).2, h2.2.symm⟩
    | ub =>
      right
      unfold ofString at hn ⊢
      simp only at hn ⊢
      split at hn <;> simp_all [getInt, getString]
    | throw e =>
      rw [C02_ofString] at hn
      cases h3 : pitchClassName s <;> simp [h3] at hn
  | int n =>
    by_cases h : 0 ≤ n ∧ n < 12
    · exact Or.inl ⟨n, h.1, h.2, rfl⟩
    · exact Or.inr ((C01_ofInt n).2 h)

/-- **C04.** On stored pitch classes the three operators are the comparisons of the numbers. -/
theorem C04_compare (p q : PitchClass) (a b : Int) (hp : p.getInt = .ok a) (hq : q.getInt = .ok b) :
    p.eq q = .ok (decide (a = b)) ∧ p.ne q = .ok (decide (a ≠ b)) ∧ p.lt q = .ok (decide (a < b)) := by
  simp only [PitchClass.eq, PitchClass.ne, PitchClass.lt, hp, hq, Res.bind_ok, Res.pure_eq,
    Res.ok.injEq, and_true]
  constructor
  · rfl
  · by_cases h : a = b <;> simp [h]

/-- **C04.** `<` is a strict total order whose ties are exactly `==` (what `std::map` needs). -/
theorem C04_order (p q r : PitchClass) (a b c : Int)
    (hp : p.getInt = .ok a) (hq : q.getInt = .ok b) (hr : r.getInt = .ok c) :
    p.lt p = .ok false ∧
    (p.lt q = .ok true → q.lt r = .ok true → p.lt r = .ok true) ∧
    (p.lt q = .ok true ∨ q.lt p = .ok true ∨ p.eq q = .ok true) ∧
    (p.eq q = .ok true ↔ (p.lt q = .ok false ∧ q.lt p = .ok false)) ∧
    (p.ne q = .ok true ↔ p.eq q = .ok false) := by
  rw [(C04_compare p p a a hp hp).2.2, (C04_compare p q a b hp hq).2.2,
    (C04_compare q r b c hq hr).2.2, (C04_compare p r a c hp hr).2.2,
    (C04_compare q p b a hq hp).2.2, (C04_compare p q a b hp hq).1, (C04_compare p q a b hp hq).2.1]
  simp only [Res.ok.injEq, decide_eq_true_eq, decide_eq_false_iff_not]
  refine ⟨by omega, by omega, by omega, by omega, by simp⟩

/-- **C04.** Enharmonic spellings compare equal: two accepted names are `==` exactly when they denote
the same pitch class. -/
theorem C04_enharmonic (s t : Str) (a b : Int)
    (hs : pitchClassName s = some a) (ht : pitchClassName t = some b) :
    (ofString s).eq (ofString t) = .ok (decide (a = b)) := by
  have h1 : (ofString s).getInt = .ok a := by rw [C02_ofString, hs]; rfl
  have h2 : (ofString t).getInt = .ok b := by rw [C02_ofString, ht]; rfl
  exact (C04_compare _ _ a b h1 h2).1

/-- **C04.** Any list of stored pitch classes that are pairwise not `==` (such as the keys of a
`std::map<PitchClass, _>`) has at most twelve elements. -/
theorem C04_at_most_twelve (l : List PitchClass) (hl : ∀ p ∈ l, Made p ∧ ∃ n, p.getInt = .ok n)
    (hd : l.Pairwise (fun p q => p.eq q = .ok false)) : l.length ≤ 12 := by
  have hval : ∀ p ∈ l, ∃ n, p.getInt = .ok n ∧ 0 ≤ n ∧ n < 12 := by
    intro p hp
    obtain ⟨hm, n, hn⟩ := hl p hp
    rcases made_inv hm with ⟨m, h0, h1, rfl⟩ | ⟨h, _⟩
    · exact ⟨m, ((C01_ofInt m).1 ⟨h0, h1⟩).1, h0, h1⟩
    · rw [h] at hn; simp at hn
  -- numbers of the elements
  let f : PitchClass → Nat := fun p => (p.int.getD 0).toNat
  have hf : ∀ p ∈ l, ∀ n, p.getInt = .ok n → p.int = some n := by
    intro p _ n hn
    unfold getInt at hn
    cases h : p.int with
    | none => rw [h] at hn; simp at hn
    | some v => rw [h] at hn; simp at hn; rw [hn]
  have hnd : (l.map f).Nodup := by
    rw [List.nodup_iff_pairwise_ne, List.pairwise_map]
    refine List.Pairwise.imp_of_mem ?_ hd
    intro p q hp hq hpq hfe
    obtain ⟨a, ha, ha0, _⟩ := hval p hp
    obtain ⟨b, hb, hb0, _⟩ := hval q hq
    rw [(C04_compare p q a b ha hb).1] at hpq
    simp only [Res.ok.injEq, decide_eq_false_iff_not] at hpq
    simp only [f, hf p hp a ha, hf q hq b hb, Option.getD_some] at hfe
    omega
  have hsub : ∀ x ∈ l.map f, x ∈ List.range 12 := by
    intro x hx
    obtain ⟨p, hp, rfl⟩ := List.mem_map.1 hx
    obtain ⟨a, ha, ha0, ha1⟩ := hval p hp
    simp only [f, hf p hp a ha, Option.getD_some, List.mem_range]
    omega
  have := (List.subperm_of_subset hnd hsub).length_le
  simpa using this

example : (PitchClass.all).length = 12 ∧
    (PitchClass.all).Pairwise (fun p q => p.eq q = .ok false) := by decide +kernel

end JKD.PitchClass
