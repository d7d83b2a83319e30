import Verif.Model.Key
import Verif.Spec.Music
import Verif.Props.PitchClassProps
/-
C05-C11: keys and their relations.
-/

namespace JKD.Key

open Spec

/-! ### Helper lemmas -/

theorem table_sound : ∀ p ∈ stringToInt, keyName p.1 = some p.2 := by decide +kernel

theorem upper_letter {c : Char} {v : Int} (hu : c.isUpper = true) (h : letter c.toLower = some v) :
    c ∈ ['C', 'D', 'E', 'F', 'G', 'A', 'B'] := by
  have key : ∀ n ∈ List.range' 65 26, (letter (Char.ofNat n).toLower).isSome = true →
      Char.ofNat n ∈ ['C', 'D', 'E', 'F', 'G', 'A', 'B'] := by decide +kernel
  have := key c.toNat (by
    simp only [Char.isUpper, decide_eq_true_eq] at hu
    have h1 : (65 : Nat) ≤ c.toNat := hu.1
    have h2 : c.toNat ≤ 90 := hu.2
    rw [List.mem_range'_1]; omega)
  rw [Char.ofNat_toNat] at this
  exact this (by simp [h])

theorem table_complete_major : ∀ l ∈ ['C', 'D', 'E', 'F', 'G', 'A', 'B'],
    ∀ a ∈ ([[], ['#'], ['b']] : List (List Char)),
      lookup stringToInt (l :: a) = keyName (l :: a) := by decide +kernel

theorem table_complete_minor : ∀ l ∈ ['c', 'd', 'e', 'f', 'g', 'a', 'b'],
    ∀ a ∈ ([[], ['#'], ['b']] : List (List Char)),
      lookup stringToInt (l :: a) = keyName (l :: a) := by decide +kernel

theorem lookup_eq (s : Str) : lookup stringToInt s = keyName s := by
  cases h : keyName s with
  | some v =>
    cases s with
    | nil => simp [keyName] at h
    | cons l acc =>
      rw [← h]
      simp only [keyName] at h
      by_cases hu : l.isUpper = true
      · rw [if_pos hu] at h
        obtain ⟨a, b, ha, hb, _⟩ := PitchClass.noteName_eq_some h
        exact table_complete_major l (upper_letter hu ha) acc (PitchClass.accidental_mem hb)
      · rw [if_neg hu] at h
        cases hn : noteName (l :: acc) with
        | none => simp [hn] at h
        | some w =>
          obtain ⟨a, b, ha, hb, _⟩ := PitchClass.noteName_eq_some hn
          exact table_complete_minor l (PitchClass.letter_mem ha) acc (PitchClass.accidental_mem hb)
  | none =>
    cases h2 : lookup stringToInt s with
    | none => rfl
    | some v =>
      have := table_sound _ (lookup_mem _ _ _ h2)
      simp only at this
      rw [h] at this
      simp at this

theorem table_range : ∀ p ∈ stringToInt, IsKey p.2 := by decide +kernel

theorem keyName_range {s : Str} {v : Int} (h : keyName s = some v) : IsKey v := by
  rw [← lookup_eq] at h
  exact table_range _ (lookup_mem _ _ _ h)

theorem ofInt_of_isKey {n : Int} (h : IsKey n) :
    ofInt n = { int := some n, str := stringOf n } := by
  unfold ofInt toU32
  unfold IsKey at h
  rw [if_pos]
  omega

/-! ### C05, C06 -/

/-- **C05.** For every string: the constructor stores a key exactly when the string is a key name (one
letter whose case is the mode, optionally one accidental), it is then the key the name denotes, and
the spelling is kept exactly; otherwise nothing is stored. -/
theorem C05_ofString (s : Str) :
    (∀ n, keyName s = some n → (ofString s).getInt = .ok n ∧ (ofString s).getString = s) ∧
    (keyName s = none → (ofString s).getInt = .ub ∧ (ofString s).getString = []) := by
  unfold ofString
  rw [lookup_eq]
  cases keyName s <;> simp [getInt, getString]

/-- **C05.** The mode of a key built from a name is the case of the first letter and the tonic is the
note name. -/
theorem C05_mode (l : Char) (acc : Str) (n : Int) (h : (ofString (l :: acc)).getInt = .ok n) :
    (ofString (l :: acc)).isMajor = .ok l.isUpper ∧
    (ofString (l :: acc)).isMinor = .ok (!l.isUpper) ∧
    noteName (l.toLower :: acc) = some (tonic n) := by
  have hk : keyName (l :: acc) = some n := by
    cases hk : keyName (l :: acc) with
    | none => rw [((C05_ofString _).2 hk).1] at h; simp at h
    | some v => rw [((C05_ofString _).1 v hk).1] at h; injection h with h; rw [h]
  have hl : ∀ p ∈ stringToInt, ∀ l acc, p.1 = l :: acc →
      l.isUpper = decide (p.2 ≤ 11) ∧ noteName (l.toLower :: acc) = some (tonic p.2) := by
    have key : ∀ p ∈ stringToInt, (match p.1 with
      | [] => true
      | l :: acc => decide (l.isUpper = decide (p.2 ≤ 11) ∧
          noteName (l.toLower :: acc) = some (tonic p.2))) = true := by decide +kernel
    intro p hp l acc he
    have := key p hp
    rw [he] at this
    simpa using this
  rw [← lookup_eq] at hk
  have hm := lookup_mem _ _ _ hk
  obtain ⟨h1, h2⟩ := hl _ hm l acc rfl
  have hr := table_range _ hm
  simp only [IsKey] at hr h1 h2
  refine ⟨?_, ?_, h2⟩
  · simp only [isMajor, h, Res.bind_ok, Res.pure_eq, Res.ok.injEq]
    rw [h1]
    exact decide_eq_decide.2 ⟨fun x => x.2, fun x => ⟨hr.1, x⟩⟩
  · simp only [isMinor, h, Res.bind_ok, Res.pure_eq, Res.ok.injEq]
    rw [h1, ← decide_not]
    exact decide_eq_decide.2 ⟨fun x => by omega, fun x => by omega⟩

example : (ofString ['F', '#']).getInt = .ok 6 ∧ (ofString ['f', '#']).getInt = .ok 18 ∧
    (ofString ['H']).getInt = .ub ∧ (ofString ['g', '#']).getString = ['g', '#'] := by decide +kernel

/-- **C06.** For every 32-bit `int`: the constructor stores the key exactly when the number is in
`[0,24)`, under a name denoting it; every other `int`, negative ones included, stores nothing. -/
theorem C06_ofInt (k : Int) (hk : IsI32 k) :
    ((0 ≤ k ∧ k < 24) → (ofInt k).getInt = .ok k ∧ keyName (ofInt k).getString = some k) ∧
    (¬ (0 ≤ k ∧ k < 24) → (ofInt k).getInt = .ub ∧ (ofInt k).getString = []) := by
  constructor
  · intro h
    have key : ∀ n ∈ keys, (ofInt n).getInt = .ok n ∧ keyName (ofInt n).getString = some n := by
      decide +kernel
    exact key k (mem_keys.2 h)
  · intro h
    have : ¬ toU32 k < 24 := by
      unfold toU32
      unfold IsI32 at hk
      omega
    simp [ofInt, this, getInt, getString]

/-- **C06.** Number to name to number is the identity on the 24 keys, as objects. -/
theorem C06_roundtrip (k : Int) (h : 0 ≤ k ∧ k < 24) : ofString (ofInt k).getString = ofInt k := by
  have key : ∀ n ∈ keys, ofString (ofInt n).getString = ofInt n := by decide +kernel
  exact key k (mem_keys.2 h)

/-- **C06.** The all-keys vector is the 24 keys, once each, in increasing order. -/
theorem C06_all : Key.all.map getInt = keys.map Res.ok := by decide +kernel

/-- **C06.** The names reported for the 24 keys. -/
theorem C06_canonical_names : Key.all.map (fun k => String.ofList k.getString) =
    ["C", "Db", "D", "Eb", "E", "F", "F#", "G", "Ab", "A", "Bb", "B",
     "c", "c#", "d", "eb", "e", "f", "f#", "g", "ab", "a", "bb", "b"] := by decide +kernel

example : IsI32 (-1) ∧ (ofInt (-1)).getInt = .ub ∧ (ofInt 23).getInt = .ok 23 := by decide +kernel

/-! ### The keys a client can hold -/

/-- A `Key` object a client of the class can hold: built by a constructor, or returned by one of the
relation methods on such an object. -/
inductive Made : Key → Prop
  | str (s : Str) : Made (ofString s)
  | int (n : Int) (h : IsI32 n) : Made (ofInt n)
  | rel {k k' : Key} : Made k → k.relative = .ok k' → Made k'
  | par {k k' : Key} : Made k → k.parallel = .ok k' → Made k'
  | dom {k k' : Key} : Made k → k.dominant = .ok k' → Made k'
  | sub {k k' : Key} : Made k → k.subdominant = .ok k' → Made k'

/-- The state of a key object: a stored key whose name denotes it, or nothing stored. -/
def Inv (k : Key) : Prop :=
  (∃ n, IsKey n ∧ k.getInt = .ok n ∧ keyName k.getString = some n) ∨
  (k.getInt = .ub ∧ k.getString = [])

theorem inv_ofInt (n : Int) (h : IsI32 n) : Inv (ofInt n) := by
  by_cases hk : 0 ≤ n ∧ n < 24
  · exact Or.inl ⟨n, hk, (C06_ofInt n h).1 hk⟩
  · exact Or.inr ((C06_ofInt n h).2 hk)

theorem relative_of {k : Key} {n : Int} (h : k.getInt = .ok n) :
    k.relative = .ok (if 0 ≤ n ∧ n ≤ 11 then ofInt ((n + 9).tmod 12 + 12) else ofInt ((n - 9).tmod 12)) := by
  unfold relative isMajor
  simp only [h, Res.bind_ok, Res.pure_eq]
  by_cases hn : 0 ≤ n ∧ n ≤ 11 <;> simp [hn]

theorem parallel_of {k : Key} {n : Int} (h : k.getInt = .ok n) :
    k.parallel = .ok (if 0 ≤ n ∧ n ≤ 11 then ofInt (n + 12) else ofInt (n - 12)) := by
  unfold parallel isMajor
  simp only [h, Res.bind_ok, Res.pure_eq]
  by_cases hn : 0 ≤ n ∧ n ≤ 11 <;> simp [hn]

theorem dominant_of {k : Key} {n : Int} (h : k.getInt = .ok n) :
    k.dominant = .ok (ofInt ((n + 7).tmod 12 + (if 12 ≤ n ∧ n ≤ 23 then 12 else 0))) := by
  unfold dominant isMinor
  simp [h]

theorem subdominant_of {k : Key} {n : Int} (h : k.getInt = .ok n) :
    k.subdominant = .ok (ofInt ((n + 5).tmod 12 + (if 12 ≤ n ∧ n ≤ 23 then 12 else 0))) := by
  unfold subdominant isMinor
  simp [h]

theorem getInt_ub {k k' : Key} (h : k.getInt = .ub) :
    k.relative ≠ .ok k' ∧ k.parallel ≠ .ok k' ∧ k.dominant ≠ .ok k' ∧ k.subdominant ≠ .ok k' := by
  simp [relative, parallel, dominant, subdominant, h]

theorem made_inv {k : Key} (h : Made k) : Inv k := by
  have fromInt : ∀ {n : Int}, IsKey n → Inv (ofInt n) := by
    intro n hn
    exact inv_ofInt n (by unfold IsKey at hn; unfold IsI32; omega)
  have rng : ∀ n ∈ keys,
      (0 ≤ n ∧ n ≤ 11 → IsKey ((n + 9).tmod 12 + 12) ∧ IsKey (n + 12)) ∧
      (¬ (0 ≤ n ∧ n ≤ 11) → IsKey ((n - 9).tmod 12) ∧ IsKey (n - 12)) ∧
      IsKey ((n + 7).tmod 12 + (if 12 ≤ n ∧ n ≤ 23 then 12 else 0)) ∧
      IsKey ((n + 5).tmod 12 + (if 12 ≤ n ∧ n ≤ 23 then 12 else 0)) := by decide +kernel
  induction h with
  | str s =>
    cases hk : keyName s with
    | none => exact Or.inr ((C05_ofString s).2 hk)
    | some v =>
      have := (C05_ofString s).1 v hk
      exact Or.inl ⟨v, keyName_range hk, this.1, by rw [this.2, hk]⟩
  | int n hn => exact inv_ofInt n hn
  | rel _ he ih =>
    rcases ih with ⟨n, hn, hg, _⟩ | ⟨hg, _⟩
    · rw [relative_of hg] at he
      injection he with he
      subst he
      have hr := rng n (mem_keys.2 hn)
      split
      · rename_i hc
        exact fromInt (hr.1 hc).1
      · rename_i hc
        exact fromInt (hr.2.1 hc).1
    · exact absurd he (getInt_ub hg).1
  | par _ he ih =>
    rcases ih with ⟨n, hn, hg, _⟩ | ⟨hg, _⟩
    · rw [parallel_of hg] at he
      injection he with he
      subst he
      have hr := rng n (mem_keys.2 hn)
      split
      · rename_i hc
        exact fromInt (hr.1 hc).2
      · rename_i hc
        exact fromInt (hr.2.1 hc).2
    · exact absurd he (getInt_ub hg).2.1
  | dom _ he ih =>
    rcases ih with ⟨n, hn, hg, _⟩ | ⟨hg, _⟩
    · rw [dominant_of hg] at he
      injection he with he
      subst he
      exact fromInt (rng n (mem_keys.2 hn)).2.2.1
    · exact absurd he (getInt_ub hg).2.2.1
  | sub _ he ih =>
    rcases ih with ⟨n, hn, hg, _⟩ | ⟨hg, _⟩
    · rw [subdominant_of hg] at he
      injection he with he
      subst he
      exact fromInt (rng n (mem_keys.2 hn)).2.2.2
    · exact absurd he (getInt_ub hg).2.2.2

/-! ### C07 -/

/-- **C07.** Every key object a client can hold, however it was obtained, either stores nothing or
stores one of the 24 keys; then exactly one of `isMajorKey`, `isMinorKey` holds, it agrees with the
case of the reported name's first letter, and the reported name is a note name of the tonic. -/
theorem C07_major_xor_minor {k : Key} (hm : Made k) {n : Int} (h : k.getInt = .ok n) :
    IsKey n ∧
    ((k.isMajor = .ok true ∧ k.isMinor = .ok false) ∨ (k.isMajor = .ok false ∧ k.isMinor = .ok true)) ∧
    (∃ l acc, k.getString = l :: acc ∧ k.isMajor = .ok l.isUpper ∧
      noteName (l.toLower :: acc) = some (tonic n)) := by
  rcases made_inv hm with ⟨m, hk, hg, hs⟩ | ⟨hg, _⟩
  · rw [hg] at h
    injection h with h
    subst h
    refine ⟨hk, ?_, ?_⟩
    · unfold isMajor isMinor
      simp only [hg, Res.bind_ok, Res.pure_eq, Res.ok.injEq, decide_eq_true_eq, decide_eq_false_iff_not]
      unfold IsKey at hk
      omega
    · cases hstr : k.getString with
      | nil => rw [hstr] at hs; simp [keyName] at hs
      | cons l acc =>
        rw [hstr] at hs
        have h5 := ((C05_ofString (l :: acc)).1 m hs).1
        have h6 := C05_mode l acc m h5
        refine ⟨l, acc, rfl, ?_, h6.2.2⟩
        have h7 : k.isMajor = (ofString (l :: acc)).isMajor := by
          unfold isMajor; rw [hg, h5]
        rw [h7]; exact h6.1
  · rw [hg] at h; simp at h

example : Made (ofString ['e', 'b']) ∧ (ofString ['e', 'b']).getInt = .ok 15 :=
  ⟨Made.str _, by decide +kernel⟩

/-! ### C08-C11 -/

theorem relNum : ∀ n ∈ keys,
    ((if 0 ≤ n ∧ n ≤ 11 then ofInt ((n + 9).tmod 12 + 12) else ofInt ((n - 9).tmod 12)) : Key) =
      ofInt (if Spec.isMajor n then (n + 9) % 12 + 12 else (n + 3) % 12) := by decide +kernel

/-- The number of the relative key. -/
theorem relative_num {k : Key} {n : Int} (h : k.getInt = .ok n) (hn : IsKey n) :
    k.relative = .ok (ofInt (if Spec.isMajor n then (n + 9) % 12 + 12 else (n + 3) % 12)) := by
  rw [relative_of h, relNum n (mem_keys.2 hn)]

/-- **C08.** The relative key of any stored key exists, has the other mode, the same diatonic pitch
classes, is the only key of the other mode with those pitch classes, and its relative key is the
original one. -/
theorem C08_relative {k : Key} (hm : Made k) {n : Int} (h : k.getInt = .ok n) :
    ∃ r m, k.relative = .ok r ∧ r.getInt = .ok m ∧ IsKey m ∧
      Spec.isMajor m = !Spec.isMajor n ∧ sameScale m n ∧
      (∀ m', IsKey m' → Spec.isMajor m' = !Spec.isMajor n → sameScale m' n → m' = m) ∧
      (∃ k', r.relative = .ok k' ∧ k'.getInt = .ok n) := by
  have hn := (C07_major_xor_minor hm h).1
  have key : ∀ n ∈ keys, ∃ m ∈ keys,
      m = (if Spec.isMajor n then (n + 9) % 12 + 12 else (n + 3) % 12) ∧
      (ofInt m).getInt = .ok m ∧
      Spec.isMajor m = !Spec.isMajor n ∧ sameScale m n ∧
      (∀ m' ∈ keys, Spec.isMajor m' = !Spec.isMajor n → sameScale m' n → m' = m) ∧
      (if Spec.isMajor m then (m + 9) % 12 + 12 else (m + 3) % 12) = n ∧
      (ofInt n).getInt = .ok n := by decide +kernel
  obtain ⟨m, hmk, hme, hg, hmode, hscale, huniq, hback, hgn⟩ := key n (mem_keys.2 hn)
  refine ⟨ofInt m, m, ?_, hg, mem_keys.1 hmk, hmode, hscale,
    fun m' h1 h2 h3 => huniq m' (mem_keys.2 h1) h2 h3, ?_⟩
  · rw [relative_num h hn, ← hme]
  · exact ⟨ofInt n, by rw [relative_num hg (mem_keys.1 hmk), hback], hgn⟩

/-- **C09.** The parallel key of any stored key exists, has the other mode and the same tonic, is the
only key of the other mode with that tonic, and its parallel key is the original one. -/
theorem C09_parallel {k : Key} (hm : Made k) {n : Int} (h : k.getInt = .ok n) :
    ∃ r m, k.parallel = .ok r ∧ r.getInt = .ok m ∧ IsKey m ∧
      Spec.isMajor m = !Spec.isMajor n ∧ tonic m = tonic n ∧
      (∀ m', IsKey m' → Spec.isMajor m' = !Spec.isMajor n → tonic m' = tonic n → m' = m) ∧
      (∃ k', r.parallel = .ok k' ∧ k'.getInt = .ok n) := by
  have hn := (C07_major_xor_minor hm h).1
  have key : ∀ n ∈ keys, ∃ m ∈ keys,
      ((if 0 ≤ n ∧ n ≤ 11 then ofInt (n + 12) else ofInt (n - 12)) : Key) = ofInt m ∧
      (ofInt m).getInt = .ok m ∧
      Spec.isMajor m = !Spec.isMajor n ∧ tonic m = tonic n ∧
      (∀ m' ∈ keys, Spec.isMajor m' = !Spec.isMajor n → tonic m' = tonic n → m' = m) ∧
      ((if 0 ≤ m ∧ m ≤ 11 then ofInt (m + 12) else ofInt (m - 12)) : Key) = ofInt n ∧
      (ofInt n).getInt = .ok n := by decide +kernel
  obtain ⟨m, hmk, hme, hg, hmode, hton, huniq, hback, hgn⟩ := key n (mem_keys.2 hn)
  refine ⟨ofInt m, m, ?_, hg, mem_keys.1 hmk, hmode, hton,
    fun m' h1 h2 h3 => huniq m' (mem_keys.2 h1) h2 h3, ?_⟩
  · rw [parallel_of h, hme]
  · exact ⟨ofInt n, by rw [parallel_of hg, hback], hgn⟩

theorem domNum : ∀ n ∈ keys,
    (ofInt ((n + 7).tmod 12 + (if 12 ≤ n ∧ n ≤ 23 then 12 else 0)) : Key) = ofInt (transposeKey 7 n) ∧
    (ofInt ((n + 5).tmod 12 + (if 12 ≤ n ∧ n ≤ 23 then 12 else 0)) : Key) = ofInt (transposeKey 5 n) := by
  decide +kernel

theorem transposeKey_isKey (t n : Int) : IsKey (transposeKey t n) := by
  unfold transposeKey IsKey
  split <;> omega

theorem getInt_ofInt {n : Int} (hn : IsKey n) : (ofInt n).getInt = .ok n :=
  ((C06_ofInt n (by unfold IsKey at hn; unfold IsI32; omega)).1 hn).1

theorem dominant_num {k : Key} {n : Int} (h : k.getInt = .ok n) (hn : IsKey n) :
    k.dominant = .ok (ofInt (transposeKey 7 n)) := by
  rw [dominant_of h, (domNum n (mem_keys.2 hn)).1]

theorem subdominant_num {k : Key} {n : Int} (h : k.getInt = .ok n) (hn : IsKey n) :
    k.subdominant = .ok (ofInt (transposeKey 5 n)) := by
  rw [subdominant_of h, (domNum n (mem_keys.2 hn)).2]

/-- **C10.** The dominant is the key of the same mode a perfect fifth (7 semitones) up, the subdominant
the one a fourth (5) up; each undoes the other; moving to either changes exactly one note of the
scale. -/
theorem C10_fifths {k : Key} (hm : Made k) {n : Int} (h : k.getInt = .ok n) :
    ∃ d s dn sn, k.dominant = .ok d ∧ k.subdominant = .ok s ∧ d.getInt = .ok dn ∧ s.getInt = .ok sn ∧
      Spec.isMajor dn = Spec.isMajor n ∧ Spec.isMajor sn = Spec.isMajor n ∧
      tonic dn = (tonic n + 7) % 12 ∧ tonic sn = (tonic n + 5) % 12 ∧
      (∃ k', d.subdominant = .ok k' ∧ k'.getInt = .ok n) ∧
      (∃ k', s.dominant = .ok k' ∧ k'.getInt = .ok n) ∧
      scaleDiff n dn = 1 ∧ scaleDiff dn n = 1 ∧ scaleDiff n sn = 1 ∧ scaleDiff sn n = 1 := by
  have hn := (C07_major_xor_minor hm h).1
  have key : ∀ n ∈ keys,
      Spec.isMajor (transposeKey 7 n) = Spec.isMajor n ∧ Spec.isMajor (transposeKey 5 n) = Spec.isMajor n ∧
      tonic (transposeKey 7 n) = (tonic n + 7) % 12 ∧ tonic (transposeKey 5 n) = (tonic n + 5) % 12 ∧
      transposeKey 5 (transposeKey 7 n) = n ∧ transposeKey 7 (transposeKey 5 n) = n ∧
      scaleDiff n (transposeKey 7 n) = 1 ∧ scaleDiff (transposeKey 7 n) n = 1 ∧
      scaleDiff n (transposeKey 5 n) = 1 ∧ scaleDiff (transposeKey 5 n) n = 1 := by decide +kernel
  obtain ⟨a1, a2, a3, a4, a5, a6, a7⟩ := key n (mem_keys.2 hn)
  have d7 := getInt_ofInt (transposeKey_isKey 7 n)
  have d5 := getInt_ofInt (transposeKey_isKey 5 n)
  refine ⟨ofInt (transposeKey 7 n), ofInt (transposeKey 5 n), transposeKey 7 n, transposeKey 5 n,
    dominant_num h hn, subdominant_num h hn, d7, d5, a1, a2, a3, a4, ?_, ?_, a7⟩
  · exact ⟨ofInt n, by rw [subdominant_num d7 (transposeKey_isKey 7 n), a5], getInt_ofInt hn⟩
  · exact ⟨ofInt n, by rw [dominant_num d5 (transposeKey_isKey 5 n), a6], getInt_ofInt hn⟩

/-- `i` successive dominants. -/
def dominants : Nat → Key → Res Key
  | 0, k => .ok k
  | i + 1, k => k.dominant >>= dominants i

theorem transposeKey_add (s t n : Int) :
    transposeKey s (transposeKey t n) = transposeKey (t + s) n := by
  unfold transposeKey Spec.isMajor tonic
  by_cases h : n < 12
  · have h2 : (n % 12 + t) % 12 < 12 := by omega
    simp only [h, decide_true, if_true, h2]
    omega
  · have h2 : ¬ (n % 12 + t) % 12 + 12 < 12 := by omega
    simp only [h, decide_false, Bool.false_eq_true, if_false, h2]
    omega

/-- **C10.** `i` successive dominants, for every `i`: same mode, tonic moved by `7 i`. -/
theorem C10_iterate (i : Nat) {k : Key} {n : Int} (h : k.getInt = .ok n) (hn : IsKey n) :
    ∃ d, dominants i k = .ok d ∧ d.getInt = .ok (transposeKey (7 * i) n) := by
  induction i generalizing k n with
  | zero =>
    refine ⟨k, rfl, ?_⟩
    rw [h]
    have key : ∀ n ∈ keys, n = transposeKey 0 n := by decide +kernel
    have := key n (mem_keys.2 hn)
    simp only [Int.natCast_zero, Int.mul_zero]
    rw [← this]
  | succ i ih =>
    have hk := transposeKey_isKey 7 n
    obtain ⟨d, hd, hg⟩ := ih (getInt_ofInt hk) hk
    refine ⟨d, ?_, ?_⟩
    · simp only [dominants, dominant_num h hn, Res.bind_ok]
      exact hd
    · rw [hg, transposeKey_add]
      congr 2
      push_cast
      omega

/-- **C10.** The circle of fifths: going up in fifths from any key visits every key of the same mode,
each after exactly one number of steps modulo 12, and no other key. -/
theorem C10_circle {k : Key} (hm : Made k) {n : Int} (h : k.getInt = .ok n) (m : Int) (hk : IsKey m) :
    (Spec.isMajor m = Spec.isMajor n →
      ∃ i < 12, ∀ j : Nat, (∃ d, dominants j k = .ok d ∧ d.getInt = .ok m) ↔ j % 12 = i) ∧
    (Spec.isMajor m ≠ Spec.isMajor n →
      ∀ j : Nat, ¬ ∃ d, dominants j k = .ok d ∧ d.getInt = .ok m) := by
  have hn := (C07_major_xor_minor hm h).1
  have heq : ∀ j : Nat, (∃ d, dominants j k = .ok d ∧ d.getInt = .ok m) ↔
      transposeKey (7 * j) n = m := by
    intro j
    obtain ⟨d, hd, hg⟩ := C10_iterate j h hn
    constructor
    · rintro ⟨d', hd', hg'⟩
      rw [hd] at hd'
      injection hd' with hd'
      subst hd'
      rw [hg] at hg'
      injection hg'
    · intro he
      exact ⟨d, hd, by rw [hg, he]⟩
  constructor
  · intro hmode
    -- the number of fifths from n to m: 7 is its own inverse modulo 12
    refine ⟨((7 * (m - n)) % 12).toNat, by omega, ?_⟩
    intro j
    rw [heq]
    unfold IsKey at hn hk
    unfold Spec.isMajor at hmode
    unfold transposeKey Spec.isMajor tonic
    have hmode' : (m < 12 ↔ n < 12) := by simpa using hmode
    by_cases hlt : n < 12
    · simp only [hlt, decide_true, if_true]
      have : m < 12 := hmode'.2 hlt
      omega
    · simp only [hlt, decide_false, Bool.false_eq_true, if_false]
      have : ¬ m < 12 := fun h => hlt (hmode'.1 h)
      omega
  · intro hmode j
    rw [heq]
    intro he
    apply hmode
    rw [← he]
    unfold transposeKey Spec.isMajor
    by_cases hlt : n < 12
    · simp only [hlt, decide_true, if_true]
      simp only [decide_eq_true_eq]; omega
    · simp only [hlt, decide_false, Bool.false_eq_true, if_false]
      simp only [decide_eq_false_iff_not]; omega

example : (∃ d, dominants 5 (ofInt 0) = .ok d ∧ d.getInt = .ok 11) :=
  ⟨ofInt 11, by decide +kernel⟩

/-- **C11.** Every relation commutes with transposition by any number of semitones: if `k'` is `k`
transposed by `t` then the relative (parallel, dominant, subdominant) of `k'` is that of `k`
transposed by `t`. -/
theorem C11_commute (t : Int) {k k' : Key} (hm : Made k) {n : Int} (h : k.getInt = .ok n)
    (h' : k'.getInt = .ok (transposeKey t n)) :
    (∃ a b x, k.relative = .ok a ∧ k'.relative = .ok b ∧ a.getInt = .ok x ∧
      b.getInt = .ok (transposeKey t x)) ∧
    (∃ a b x, k.parallel = .ok a ∧ k'.parallel = .ok b ∧ a.getInt = .ok x ∧
      b.getInt = .ok (transposeKey t x)) ∧
    (∃ a b x, k.dominant = .ok a ∧ k'.dominant = .ok b ∧ a.getInt = .ok x ∧
      b.getInt = .ok (transposeKey t x)) ∧
    (∃ a b x, k.subdominant = .ok a ∧ k'.subdominant = .ok b ∧ a.getInt = .ok x ∧
      b.getInt = .ok (transposeKey t x)) := by
  have hn := (C07_major_xor_minor hm h).1
  have hk' := transposeKey_isKey t n
  -- transposition only depends on t modulo 12
  have tmod : ∀ x, transposeKey t x = transposeKey (t % 12) x := by
    intro x
    unfold transposeKey
    split <;> omega
  have ht : t % 12 ∈ pcs := mem_pcs.2 (by omega)
  have key : ∀ s ∈ pcs, ∀ n ∈ keys,
      IsKey (if Spec.isMajor n then (n + 9) % 12 + 12 else (n + 3) % 12) ∧
      (if Spec.isMajor (transposeKey s n) then (transposeKey s n + 9) % 12 + 12
        else (transposeKey s n + 3) % 12) =
        transposeKey s (if Spec.isMajor n then (n + 9) % 12 + 12 else (n + 3) % 12) := by
    decide +kernel
  have keyp : ∀ s ∈ pcs, ∀ n ∈ keys, ∃ x ∈ keys,
      ((if 0 ≤ n ∧ n ≤ 11 then ofInt (n + 12) else ofInt (n - 12)) : Key) = ofInt x ∧
      ((if 0 ≤ transposeKey s n ∧ transposeKey s n ≤ 11 then ofInt (transposeKey s n + 12)
        else ofInt (transposeKey s n - 12)) : Key) = ofInt (transposeKey s x) := by decide +kernel
  refine ⟨?_, ?_, ?_, ?_⟩
  · obtain ⟨h1, h2⟩ := key _ ht n (mem_keys.2 hn)
    refine ⟨_, _, _, relative_num h hn, relative_num h' hk', getInt_ofInt h1, ?_⟩
    rw [tmod n, h2, ← tmod]
    exact getInt_ofInt (transposeKey_isKey _ _)
  · obtain ⟨x, hx, h1, h2⟩ := keyp _ ht n (mem_keys.2 hn)
    refine ⟨_, _, x, parallel_of h, parallel_of h', by rw [h1]; exact getInt_ofInt (mem_keys.1 hx), ?_⟩
    rw [tmod n, h2, ← tmod]
    exact getInt_ofInt (transposeKey_isKey _ _)
  · refine ⟨_, _, _, dominant_num h hn, dominant_num h' hk',
      getInt_ofInt (transposeKey_isKey _ _), ?_⟩
    rw [getInt_ofInt (transposeKey_isKey _ _), transposeKey_add, transposeKey_add,
      Int.add_comm]
  · refine ⟨_, _, _, subdominant_num h hn, subdominant_num h' hk',
      getInt_ofInt (transposeKey_isKey _ _), ?_⟩
    rw [getInt_ofInt (transposeKey_isKey _ _), transposeKey_add, transposeKey_add,
      Int.add_comm]

/-- **C11.** A key, its dominant, subdominant, relative and parallel are five different keys. -/
theorem C11_disjoint {k : Key} (hm : Made k) {n : Int} (h : k.getInt = .ok n) :
    ∃ d s r p dn sn rn pn, k.dominant = .ok d ∧ k.subdominant = .ok s ∧ k.relative = .ok r ∧
      k.parallel = .ok p ∧ d.getInt = .ok dn ∧ s.getInt = .ok sn ∧ r.getInt = .ok rn ∧
      p.getInt = .ok pn ∧ [n, dn, sn, rn, pn].Nodup := by
  have hn := (C07_major_xor_minor hm h).1
  have key : ∀ n ∈ keys, ∃ pn ∈ keys,
      ((if 0 ≤ n ∧ n ≤ 11 then ofInt (n + 12) else ofInt (n - 12)) : Key) = ofInt pn ∧
      IsKey (if Spec.isMajor n then (n + 9) % 12 + 12 else (n + 3) % 12) ∧
      [n, transposeKey 7 n, transposeKey 5 n,
        (if Spec.isMajor n then (n + 9) % 12 + 12 else (n + 3) % 12), pn].Nodup := by decide +kernel
  obtain ⟨pn, hp, h1, h2, h3⟩ := key n (mem_keys.2 hn)
  exact ⟨_, _, _, _, _, _, _, pn, dominant_num h hn, subdominant_num h hn, relative_num h hn,
    parallel_of h, getInt_ofInt (transposeKey_isKey _ _), getInt_ofInt (transposeKey_isKey _ _),
    getInt_ofInt h2, by rw [h1]; exact getInt_ofInt (mem_keys.1 hp), h3⟩

example : (ofInt 0).getInt = .ok 0 ∧ (ofInt 0).relative = .ok (ofInt 21) ∧
    (ofInt 0).dominant = .ok (ofInt 7) ∧ (ofInt 21).relative = .ok (ofInt 0) := by decide +kernel

end JKD.Key
