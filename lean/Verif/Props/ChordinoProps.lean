import Verif.Lemmas.ChordExact
import Verif.Props.SpectrumProps
/-
The chord plug-in: its dictionary of chords (C81, C82).
-/

namespace JKD.Chordino

open JKD.Chroma JKD.ChordViterbi Finset

variable {D : Type}

/-! ### What musicians mean -/

/-- A kind of chord: what is written behind the root, usually and in the notation of Harte; the bass note, as an
interval above the root, if the kind has one; the intervals above the root. -/
structure Kind where
  usual : Str
  harte : Str
  bass : Option Nat
  tones : List Nat
  deriving Inhabited

/-- The kinds of chord there are: triads with and without a bass note and in inversions, chords of the sixth and of
the seventh, the half-diminished chord with its seventh or its root in the bass, the diminished and the augmented
triad, and the major triad over two foreign bass notes. -/
def kinds : List Kind :=
  [⟨[], [], some 0, [0, 4, 7]⟩,
   ⟨[], [], none, [0, 4, 7]⟩,
   ⟨['m'], [':', 'm', 'i', 'n'], some 0, [0, 3, 7]⟩,
   ⟨['m'], [':', 'm', 'i', 'n'], none, [0, 3, 7]⟩,
   ⟨['m', '7', 'b', '5'], [':', 'h', 'd', 'i', 'm', '7'], some 10, [0, 3, 6, 10]⟩,
   ⟨['m', '7', 'b', '5'], [':', 'h', 'd', 'i', 'm', '7'], some 0, [0, 3, 6, 10]⟩,
   ⟨['6'], [':', 'm', 'a', 'j', '6'], some 0, [0, 4, 7, 9]⟩,
   ⟨['7'], [':', '7'], some 0, [0, 4, 7, 10]⟩,
   ⟨['m', 'a', 'j', '7'], [':', 'm', 'a', 'j', '7'], some 0, [0, 4, 7, 11]⟩,
   ⟨['m', '7'], [':', 'm', 'i', 'n', '7'], some 0, [0, 3, 7, 10]⟩,
   ⟨['m', '6'], [':', 'm', 'i', 'n', '6'], some 0, [0, 3, 7, 9]⟩,
   ⟨[], [], some 4, [0, 4, 7]⟩,
   ⟨[], [], some 7, [0, 4, 7]⟩,
   ⟨['d', 'i', 'm'], [':', 'd', 'i', 'm'], some 0, [0, 3, 6]⟩,
   ⟨['a', 'u', 'g'], [':', 'a', 'u', 'g'], some 0, [0, 4, 8]⟩,
   ⟨[], [], some 2, [0, 4, 7]⟩,
   ⟨[], [], some 10, [0, 4, 7]⟩,
   ⟨['7'], [':', '7'], some 4, [0, 4, 7, 10]⟩]

/-- How strongly the interval `i` above the root is expected in the bass: fully if it is the bass note, half if it
is another note of the chord. -/
noncomputable def Kind.low (K : Kind) (i : Nat) : ℝ :=
  if K.bass = some i then 1 else if i ∈ K.tones then 1 / 2 else 0

/-- How strongly the interval `i` above the root is expected in the treble. -/
noncomputable def Kind.treble (K : Kind) (i : Nat) : ℝ := if i ∈ K.tones then 1 else 0

/-- The semitones of the notes of the C major scale. -/
def letter : Char → Option Nat
  | 'C' => some 0
  | 'D' => some 2
  | 'E' => some 4
  | 'F' => some 5
  | 'G' => some 7
  | 'A' => some 9
  | 'B' => some 11
  | _ => none

/-- The pitch class of a note name, C being 0. -/
def pitchClassOf : Str → Option Nat
  | [l] => letter l
  | [l, '#'] => (letter l).map (fun n => (n + 1) % 12)
  | [l, 'b'] => (letter l).map (fun n => (n + 11) % 12)
  | _ => none

/-- The semitones above the tonic of a degree of the major scale. -/
def degree : Char → Option Nat
  | '1' => some 0
  | '2' => some 2
  | '3' => some 4
  | '4' => some 5
  | '5' => some 7
  | '6' => some 9
  | '7' => some 11
  | _ => none

/-- The interval named by a degree, possibly lowered. -/
def intervalOf : Str → Option Nat
  | [d] => degree d
  | ['b', d] => (degree d).map (fun n => n - 1)
  | _ => none

/-- `label` is a correct label of the chord of kind `K` on the root `r` semitones above A. -/
def Labels (harte : Bool) (K : Kind) (r : Nat) (label : Str) : Prop :=
  ∃ root slash, label = root ++ (if harte then K.harte else K.usual) ++ slash ∧
    pitchClassOf root = some ((9 + r) % 12) ∧
    match K.bass with
    | none => slash = []
    | some 0 => slash = []
    | some i => ∃ b, slash = '/' :: b ∧
        if harte then intervalOf b = some i else pitchClassOf b = some ((9 + r + i) % 12)

/-! ### The tables -/

theorem kinds_length : kinds.length = 18 := rfl

/-- The kind number `t`. -/
def kind (t : Nat) : Kind := kinds.getD t default

theorem kind_of {t : Nat} {K : Kind} (h : kinds[t]? = some K) : t < 18 ∧ K = kind t := by
  refine ⟨(List.getElem?_eq_some_iff.mp h).1, ?_⟩
  unfold kind
  rw [List.getD_eq_getElem?_getD, h]
  rfl

theorem table_bass : ∀ t, t < 18 → ∀ q, q < 12 →
    staticChordvalues.getD (24 * t + q) 0 = if (kind t).bass = some q then 1 else 0 := by
  decide +kernel

theorem table_treble : ∀ t, t < 18 → ∀ q, q < 12 →
    staticChordvalues.getD (24 * t + q + 12) 0 = if q ∈ (kind t).tones then 1 else 0 := by
  decide +kernel

theorem table_length : staticChordvalues.length = 432 := by decide +kernel

/-- The values of the built-in kinds. -/
def builtin (F : Fns D) : List D := staticChordvalues.map (fun n => F.lit (n : Nat))

theorem builtin_getD (F : Fns D) (d : D) {i : Nat} (h : i < 432) :
    (builtin F).getD i d = F.lit ((staticChordvalues.getD i 0 : Nat) : Rat) := by
  unfold builtin
  rw [List.getD_eq_getElem?_getD, List.getD_eq_getElem?_getD, List.getElem?_map,
    List.getElem?_eq_getElem (by rw [table_length]; exact h)]
  rfl

theorem builtin_bass (F : Fns D) (d : D) {t q : Nat} (ht : t < 18) (hq : q < 12) :
    (builtin F).getD (24 * t + q) d = if (kind t).bass = some q then F.lit 1 else F.lit 0 := by
  rw [builtin_getD F d (by omega), table_bass t ht q hq]
  split <;> simp

theorem builtin_treble (F : Fns D) (d : D) {t q : Nat} (ht : t < 18) (hq : q < 12) :
    (builtin F).getD (24 * t + q + 12) d = if q ∈ (kind t).tones then F.lit 1 else F.lit 0 := by
  rw [builtin_getD F d (by omega), table_treble t ht q hq]
  split <;> simp

theorem builtin_types (F : Fns D) (harte : D) : (typesOf F none harte).1.length = 18 ∧ (typesOf F none harte).2 = builtin F := by
  refine ⟨?_, rfl⟩
  unfold typesOf
  dsimp only [Option.getD_none]
  split <;> rfl

/-! ### C81: the profiles of the chords -/

theorem stand_exact (boostN : ℝ) (n : Nat) (f : Nat → ℝ) (c : Nat) :
    standOf exactFns boostN n f c = if c + 1 < n then Real.sqrt ((∑ b ∈ range 24, f (24 * c + b) ^ 2) / 24)
      else Real.sqrt ((∑ b ∈ range 24, f (24 * c + b) ^ 2) / 24) / (1 + boostN) := by
  unfold standOf
  simp only [ex_add, ex_div, ex_pow, ex_abs, ex_lit, Rat.cast_zero, Rat.cast_one]
  have h2 : ((2 : Rat) : ℝ) = 2 := by norm_num
  have h24 : ((24 : Rat) : ℝ) = 24 := by norm_num
  rw [foldl_sum, zero_add, h2, h24, ← Real.sqrt_eq_rpow]
  have : ∑ i ∈ range 24, |f (24 * c + i)| ^ (2 : ℝ) / 24 = (∑ b ∈ range 24, f (24 * c + b) ^ 2) / 24 := by
    rw [sum_div]
    refine sum_congr rfl (fun i _ => ?_)
    rw [Real.rpow_two, sq_abs]
  rw [this]

theorem unit_square {f : Nat → ℝ} (h : 0 < ∑ b ∈ range 24, f b ^ 2) (z : ℝ) :
    ∑ b ∈ range 24, (f b / (Real.sqrt ((∑ b ∈ range 24, f b ^ 2) / 24) / z)) ^ 2 = 24 * z ^ 2 := by
  have hs : Real.sqrt ((∑ b ∈ range 24, f b ^ 2) / 24) ^ 2 = (∑ b ∈ range 24, f b ^ 2) / 24 :=
    Real.sq_sqrt (div_nonneg h.le (by norm_num))
  by_cases hz : z = 0
  · subst hz
    simp
  have : ∀ b ∈ range 24, (f b / (Real.sqrt ((∑ b ∈ range 24, f b ^ 2) / 24) / z)) ^ 2 =
      f b ^ 2 * (24 * z ^ 2 / ∑ b ∈ range 24, f b ^ 2) := by
    intro b _
    rw [div_pow, div_pow, hs]
    have := h.ne'
    field_simp
  rw [sum_congr rfl this, ← sum_mul]
  have := h.ne'
  field_simp

/-- Entry `b` of chord `c` of a dictionary: the bass first, then the treble. -/
def entryOf (dict : List ℝ) (c b : Nat) : ℝ := dict.getD (24 * c + b) 0

theorem entry_exact (boostN harte : ℝ) {d : List Str × List ℝ × List (List Int)}
    (e : chordDictionary exactFns none [] [] boostN harte = .ok d) {c b : Nat} (hc : c < 217) (hb : b < 24) :
    entryOf d.2.1 c b = loadedAt exactFns (builtin exactFns) 0 18 (24 * c + b) /
      standOf exactFns boostN 217 (loadedAt exactFns (builtin exactFns) 0 18) c := by
  have h := chordDictionary_eq exactFns none [] [] boostN harte 0 (typesOf_long exactFns (fun _ h => by cases h) harte)
  obtain ⟨t1, t2⟩ := builtin_types exactFns harte
  have h := ok_inj (e.symm.trans h)
  rw [h, t1, t2]
  unfold entryOf
  dsimp only
  rw [List.nil_append, tab_getD _ _ _ _ (by omega), ex_div]
  have : (24 * c + b) / 24 = c := by omega
  rw [this]

theorem loaded_low {t r k : Nat} (ht : t < 18) (hr : r < 12) (hk : k < 12) :
    loadedAt exactFns (builtin exactFns) 0 18 (24 * (12 * t + r) + k) = (kind t).low ((k + 12 - r) % 12) := by
  unfold loadedAt
  rw [if_pos (by omega)]
  unfold rawAt valuesFor
  have e1 : (24 * (12 * t + r) + k) / 24 = 12 * t + r := by omega
  have e2 : (24 * (12 * t + r) + k) % 24 = k := by omega
  have e3 : (12 * t + r) / 12 = t := by omega
  have e4 : (12 * t + r) % 12 = r := by omega
  rw [e1, e2, e3, e4, if_pos hk, builtin_bass _ _ ht (Nat.mod_lt _ (by norm_num)),
    builtin_treble _ _ ht (Nat.mod_lt _ (by norm_num))]
  unfold Kind.low
  by_cases h1 : (kind t).bass = some ((k + 12 - r) % 12)
  · simp [h1]
  · rw [if_neg h1, if_neg h1]
    by_cases h2 : (k + 12 - r) % 12 ∈ (kind t).tones
    · rw [if_pos h2, if_pos h2]
      simp only [ex_eq, ex_lit]
      norm_num
    · rw [if_neg h2, if_neg h2]
      simp only [ex_eq, ex_lit]
      norm_num

theorem loaded_treble {t r k : Nat} (ht : t < 18) (hr : r < 12) (hk : k < 12) :
    loadedAt exactFns (builtin exactFns) 0 18 (24 * (12 * t + r) + (12 + k)) = (kind t).treble ((k + 12 - r) % 12) := by
  unfold loadedAt
  rw [if_pos (by omega)]
  unfold rawAt valuesFor
  have e1 : (24 * (12 * t + r) + (12 + k)) / 24 = 12 * t + r := by omega
  have e2 : (24 * (12 * t + r) + (12 + k)) % 24 = 12 + k := by omega
  have e3 : (12 * t + r) / 12 = t := by omega
  have e4 : (12 * t + r) % 12 = r := by omega
  have e5 : (12 + k - 12 + 12 - r) % 12 = (k + 12 - r) % 12 := by congr 1; omega
  rw [e1, e2, e3, e4, if_neg (by omega), e5, builtin_treble _ _ ht (Nat.mod_lt _ (by norm_num))]
  unfold Kind.treble
  split <;> simp

theorem root_tone : ∀ t, t < 18 → 0 ∈ (kind t).tones := by decide +kernel

theorem loaded_pos {t r : Nat} (ht : t < 18) (hr : r < 12) :
    0 < ∑ b ∈ range 24, loadedAt exactFns (builtin exactFns) 0 18 (24 * (12 * t + r) + b) ^ 2 := by
  have hle := single_le_sum (f := fun b => loadedAt exactFns (builtin exactFns) 0 18 (24 * (12 * t + r) + b) ^ 2)
    (s := range 24) (fun i _ => sq_nonneg _) (mem_range.mpr (show 12 + r < 24 by omega))
  have : loadedAt exactFns (builtin exactFns) 0 18 (24 * (12 * t + r) + (12 + r)) = 1 := by
    rw [loaded_treble ht hr hr]
    have : (r + 12 - r) % 12 = 0 := by omega
    rw [this]
    unfold Kind.treble
    rw [if_pos (root_tone t ht)]
  rw [this] at hle
  linarith

/-- **C81, the chords.**  In exact arithmetic the built-in dictionary has 217 chords: each of the 18 kinds on each of
the twelve roots from A up, and the chord "N".  The profile of a chord is, up to one positive factor, 1 on its notes
in the treble and 0 elsewhere, and in the bass 1 on the bass note, a half on the other notes and 0 elsewhere; the
factor makes its mean square 1, so that no chord is favoured for having more notes. -/
theorem C81_profiles (boostN harte : ℝ) :
    ∃ d, chordDictionary exactFns none [] [] boostN harte = .ok d ∧
      d.1.length = 217 ∧ d.2.1.length = 24 * 217 ∧ d.2.2.length = 217 ∧
      ∀ t K, kinds[t]? = some K → ∀ r, r < 12 → ∃ s, 0 < s ∧
        (∀ k, k < 12 → entryOf d.2.1 (12 * t + r) k = s * K.low ((k + 12 - r) % 12)) ∧
        (∀ k, k < 12 → entryOf d.2.1 (12 * t + r) (12 + k) = s * K.treble ((k + 12 - r) % 12)) ∧
        ∑ b ∈ range 24, entryOf d.2.1 (12 * t + r) b ^ 2 = 24 := by
  obtain ⟨d, e, d1, d2, d3, -⟩ := dictionary_sizes exactFns (ext := none) (fun _ h => by cases h) boostN harte
  obtain ⟨t1, -⟩ := builtin_types exactFns harte
  rw [t1] at d1
  rw [d1] at d2 d3
  refine ⟨d, e, d1, d2, d3, ?_⟩
  intro t K hK r hr
  obtain ⟨ht, rfl⟩ := kind_of hK
  have hst := stand_exact boostN 217 (loadedAt exactFns (builtin exactFns) 0 18) (12 * t + r)
  rw [if_pos (by omega)] at hst
  have hpos := loaded_pos ht hr
  have hs : 0 < standOf exactFns boostN 217 (loadedAt exactFns (builtin exactFns) 0 18) (12 * t + r) := by
    rw [hst]
    exact Real.sqrt_pos.mpr (div_pos hpos (by norm_num))
  refine ⟨(standOf exactFns boostN 217 (loadedAt exactFns (builtin exactFns) 0 18) (12 * t + r))⁻¹, inv_pos.mpr hs, ?_, ?_, ?_⟩
  · intro k hk
    rw [entry_exact boostN harte e (by omega) (by omega), loaded_low ht hr hk, div_eq_inv_mul]
  · intro k hk
    rw [entry_exact boostN harte e (by omega) (by omega), loaded_treble ht hr hk, div_eq_inv_mul]
  · have := unit_square hpos 1
    rw [div_one, ← hst] at this
    rw [show (24 : ℝ) * 1 ^ 2 = 24 by norm_num] at this
    rw [← this]
    refine sum_congr rfl (fun b hb => ?_)
    rw [entry_exact boostN harte e (by omega) (mem_range.mp hb)]

/-- **C81, no chord.**  The profile of "N" is flat, half as strong in the bass as in the treble, and its root mean
square is 1 plus the boost: the boost makes "N" louder than any chord. -/
theorem C81_no_chord {boostN : ℝ} (hb : 0 ≤ boostN) (harte : ℝ) :
    ∃ d, chordDictionary exactFns none [] [] boostN harte = .ok d ∧ d.1[216]? = some ['N'] ∧ d.2.2[216]? = some [] ∧
      ∃ s, 0 < s ∧ (∀ k, k < 12 → entryOf d.2.1 216 k = s / 2) ∧ (∀ k, k < 12 → entryOf d.2.1 216 (12 + k) = s) ∧
        ∑ b ∈ range 24, entryOf d.2.1 216 b ^ 2 = 24 * (1 + boostN) ^ 2 := by
  obtain ⟨d, e, d1, -, d3, d4, d5⟩ := dictionary_sizes exactFns (ext := none) (fun _ h => by cases h) boostN harte
  obtain ⟨t1, -⟩ := builtin_types exactFns harte
  rw [t1] at d1
  rw [d1] at d3 d4 d5
  have hst := stand_exact boostN 217 (loadedAt exactFns (builtin exactFns) 0 18) 216
  rw [if_neg (by omega)] at hst
  have hlow : ∀ k, k < 12 → loadedAt exactFns (builtin exactFns) 0 18 (24 * 216 + k) = 1 / 2 := by
    intro k hk
    unfold loadedAt
    rw [if_neg (by omega), if_pos (by omega), ex_lit]
    norm_num
  have hhigh : ∀ k, k < 12 → loadedAt exactFns (builtin exactFns) 0 18 (24 * 216 + (12 + k)) = 1 := by
    intro k hk
    unfold loadedAt
    rw [if_neg (by omega), if_neg (by omega), ex_lit, Rat.cast_one]
  have hpos : 0 < ∑ b ∈ range 24, loadedAt exactFns (builtin exactFns) 0 18 (24 * 216 + b) ^ 2 := by
    have hle := single_le_sum (f := fun b => loadedAt exactFns (builtin exactFns) 0 18 (24 * 216 + b) ^ 2)
      (s := range 24) (fun i _ => sq_nonneg _) (mem_range.mpr (show 12 + 0 < 24 by omega))
    rw [hhigh 0 (by omega)] at hle
    linarith
  have hs : 0 < standOf exactFns boostN 217 (loadedAt exactFns (builtin exactFns) 0 18) 216 := by
    rw [hst]
    exact div_pos (Real.sqrt_pos.mpr (div_pos hpos (by norm_num))) (by linarith)
  refine ⟨d, e, ?_, ?_, (standOf exactFns boostN 217 (loadedAt exactFns (builtin exactFns) 0 18) 216)⁻¹, inv_pos.mpr hs, ?_, ?_, ?_⟩
  · rw [List.getD_eq_getElem?_getD, List.getElem?_eq_getElem (by omega)] at d5
    rw [List.getElem?_eq_getElem (by omega)]
    exact congrArg some d5
  · rw [List.getD_eq_getElem?_getD, List.getElem?_eq_getElem (by omega)] at d4
    rw [List.getElem?_eq_getElem (by omega)]
    exact congrArg some d4
  · intro k hk
    rw [entry_exact boostN harte e (by omega) (by omega), hlow k hk]
    ring
  · intro k hk
    rw [entry_exact boostN harte e (by omega) (by omega), hhigh k hk]
    ring
  · have := unit_square hpos (1 + boostN)
    rw [← hst] at this
    rw [← this]
    refine sum_congr rfl (fun b hb => ?_)
    rw [entry_exact boostN harte e (by omega) (mem_range.mp hb)]

/-- A case: the profile of E minor with the root in the bass is a multiple of the notes E, G and B in the treble and
of E in the bass, with G and B half as strong. -/
example : ∃ d, chordDictionary exactFns none [] [] 0.1 0 = .ok d ∧ ∃ s, 0 < s ∧
    entryOf d.2.1 (12 * 2 + 7) 7 = s ∧ entryOf d.2.1 (12 * 2 + 7) 10 = s / 2 ∧ entryOf d.2.1 (12 * 2 + 7) (12 + 2) = s ∧
    entryOf d.2.1 (12 * 2 + 7) (12 + 0) = 0 := by
  obtain ⟨d, e, -, -, -, h⟩ := C81_profiles 0.1 0
  obtain ⟨s, hs, h1, h2, -⟩ := h 2 _ rfl 7 (by omega)
  refine ⟨d, e, s, hs, ?_, ?_, ?_, ?_⟩
  · rw [h1 7 (by omega)]
    simp [Kind.low]
  · rw [h1 10 (by omega)]
    simp [Kind.low]
    ring
  · rw [h2 2 (by omega)]
    simp [Kind.treble]
  · rw [h2 0 (by omega)]
    simp [Kind.treble]

/-! ### C82: the labels and the notes of the chords -/

/-- An arithmetic that tells 0, 0.99 and 1 apart. -/
structure Discerns (F : Fns D) : Prop where
  eq00 : F.eq (F.lit 0) (F.lit 0) = true
  eq10 : F.eq (F.lit 1) (F.lit 0) = false
  eq11 : F.eq (F.lit 1) (F.lit 1) = true
  eq01 : F.eq (F.lit 0) (F.lit 1) = false
  lt00 : F.lt (F.lit 0) (F.lit 0) = false
  lt01 : F.lt (F.lit 0) (F.lit 1) = true
  lt90 : F.lt (F.lit 0.99) (F.lit 0) = false
  lt91 : F.lt (F.lit 0.99) (F.lit 1) = true

theorem exact_discerns : Discerns exactFns := by
  refine ⟨?_, ?_, ?_, ?_, ?_, ?_, ?_, ?_⟩ <;> (simp only [ex_eq, ex_lt, ex_lit]; norm_num)

/-- The slash of a chord by the table of kinds. -/
def slashBy (usual : Bool) (t r : Nat) : Str :=
  slashOf (fun k => (kind t).bass = some (k % 12)) (bassnames.getD (if usual then r else 12) [])

theorem slashAt_eq {F : Fns D} (hF : Discerns F) (harte d : D) {t : Nat} (ht : t < 18) (r : Nat) :
    slashAt F harte (builtin F) d t r = slashBy (F.eq harte (F.lit 0)) t r := by
  unfold slashAt slashBy
  congr 1
  funext k
  rw [builtin_bass F d ht (Nat.mod_lt _ (by norm_num))]
  by_cases h : (kind t).bass = some (k % 12)
  · rw [if_pos h, hF.lt91]
    simp [h]
  · rw [if_neg h, hF.lt90]
    simp [h]

/-- The notes of a chord by the table of kinds. -/
def notesBy (t r : Nat) : List Int :=
  notesFor (slashBy true t r = []) (fun q => (kind t).bass = some q) (fun q => q ∈ (kind t).tones) r

theorem slash_empty : ∀ t, t < 18 → ∀ r, r < 12 → (slashBy true t r = [] ↔ slashBy false t r = []) := by
  decide +kernel

theorem notesAt_eq {F : Fns D} (hF : Discerns F) (harte d : D) {t r : Nat} (ht : t < 18) (hr : r < 12) :
    notesAt F harte (builtin F) d (12 * t + r) = notesBy t r := by
  unfold notesAt notesBy
  have e3 : (12 * t + r) / 12 = t := by omega
  have e4 : (12 * t + r) % 12 = r := by omega
  rw [e3, e4, slashAt_eq hF harte d ht]
  have hs : (slashBy (F.eq harte (F.lit 0)) t r = []) = (slashBy true t r = []) := by
    cases F.eq harte (F.lit 0)
    · exact propext (slash_empty t ht r hr).symm
    · rfl
  have hb : ∀ q, q < 12 → F.eq ((builtin F).getD (24 * t + q) d) (F.lit 1) = decide ((kind t).bass = some q) := by
    intro q hq
    rw [builtin_bass F d ht hq]
    by_cases h : (kind t).bass = some q
    · rw [if_pos h, hF.eq11]; simp [h]
    · rw [if_neg h, hF.eq01]; simp [h]
  have hT : ∀ q, q < 12 → F.lt (F.lit 0) ((builtin F).getD (24 * t + q + 12) d) = decide (q ∈ (kind t).tones) := by
    intro q hq
    rw [builtin_treble F d ht hq]
    by_cases h : q ∈ (kind t).tones
    · rw [if_pos h, hF.lt01]; simp [h]
    · rw [if_neg h, hF.lt00]; simp [h]
  unfold notesFor
  simp only [hs, hb _ (Nat.mod_lt _ (show 0 < 12 by norm_num)), hT _ (Nat.mod_lt _ (show 0 < 12 by norm_num))]

theorem dictionary_entries (F : Fns D) (boostN harte d : D) {x : List Str × List D × List (List Int)}
    (e : chordDictionary F none [] [] boostN harte = .ok x) {c : Nat} (hc : c < 216) :
    x.1[c]? = some (labelAt F harte (typesOf F none harte).1 (builtin F) d c) ∧
      x.2.2[c]? = some (notesAt F harte (builtin F) d c) := by
  have h := chordDictionary_eq F none [] [] boostN harte d (typesOf_long F (fun _ h => by cases h) harte)
  obtain ⟨t1, t2⟩ := builtin_types F harte
  have h := ok_inj (e.symm.trans h)
  rw [h, t1, t2]
  dsimp only
  rw [List.nil_append, List.getElem?_append_left (by rw [tab_length]; omega),
    List.getElem?_append_left (by rw [tab_length]; omega), tab_get, tab_get, if_pos (by omega), if_pos (by omega)]
  exact ⟨rfl, rfl⟩

theorem root_names : ∀ r, r < 12 → pitchClassOf (notenames.getD (12 + r) []) = some ((9 + r) % 12) := by
  decide +kernel

theorem slash_usual : ∀ t, t < 18 → ∀ r, r < 12 →
    ((kind t).bass.getD 0 = 0 → slashBy true t r = []) ∧ ((kind t).bass.getD 0 ≠ 0 → slashBy true t r ≠ [] ∧
      pitchClassOf (slashBy true t r) = some ((9 + r + (kind t).bass.getD 0) % 12)) := by
  decide +kernel

theorem slash_harte : ∀ t, t < 18 → ∀ r, r < 12 →
    ((kind t).bass.getD 0 = 0 → slashBy false t r = []) ∧ ((kind t).bass.getD 0 ≠ 0 → slashBy false t r ≠ [] ∧
      intervalOf (slashBy false t r) = some ((kind t).bass.getD 0)) := by
  decide +kernel

theorem suffixes : ∀ t, t < 18 → (staticChordnames.take 18).getD t [] = (kind t).usual ∧
    (staticChordnames.drop 18).getD t [] = (kind t).harte := by
  decide +kernel

/-- **C82, the labels.**  With either notation, every chord is labelled by the name of its root, the sign of its
kind and, if its bass note is not the root, a slash and the bass note: its name, or in the notation of Harte its
degree above the root. -/
theorem C82_labels {F : Fns D} (hF : Discerns F) (boostN : D) (h : Bool) :
    ∃ d, chordDictionary F none [] [] boostN (F.lit (if h then 1 else 0)) = .ok d ∧
      ∀ t K, kinds[t]? = some K → ∀ r, r < 12 → ∃ label, d.1[12 * t + r]? = some label ∧ Labels h K r label := by
  obtain ⟨d, e, -⟩ := dictionary_sizes F (ext := none) (fun _ h => by cases h) boostN (F.lit (if h then 1 else 0))
  refine ⟨d, e, ?_⟩
  intro t K hK r hr
  obtain ⟨ht, rfl⟩ := kind_of hK
  obtain ⟨h1, -⟩ := dictionary_entries F boostN _ (F.lit 0) e (show 12 * t + r < 216 by omega)
  refine ⟨_, h1, ?_⟩
  unfold labelAt
  have e3 : (12 * t + r) / 12 = t := by omega
  have e4 : (12 * t + r) % 12 = r := by omega
  rw [e3, e4, slashAt_eq hF _ _ ht]
  have hs0 : F.eq (F.lit (if h then 1 else 0)) (F.lit 0) = !h := by
    cases h
    · exact hF.eq00
    · exact hF.eq10
  have hnames : (typesOf F none (F.lit (if h then 1 else 0))).1.getD t [] = if h then (kind t).harte else (kind t).usual := by
    unfold typesOf
    dsimp only [Option.getD_none]
    cases h
    · rw [if_neg (by simp [hF.eq01])]
      exact (suffixes t ht).1
    · rw [if_pos (by simp [hF.eq11])]
      exact (suffixes t ht).2
  rw [hs0, hnames]
  refine ⟨notenames.getD (12 + r) [], if slashBy (!h) t r = [] then [] else '/' :: slashBy (!h) t r, ?_, root_names r hr, ?_⟩
  · unfold labelFor
    split
    · simp
    · simp
  · cases h
    · have := slash_usual t ht r hr
      revert this
      cases (kind t).bass with
      | none => intro this; exact if_pos (this.1 rfl)
      | some i =>
        cases i with
        | zero => intro this; exact if_pos (this.1 rfl)
        | succ i =>
          intro this
          obtain ⟨h1, h2⟩ := this.2 (Nat.succ_ne_zero i)
          exact ⟨_, if_neg h1, h2⟩
    · have := slash_harte t ht r hr
      revert this
      cases (kind t).bass with
      | none => intro this; exact if_pos (this.1 rfl)
      | some i =>
        cases i with
        | zero => intro this; exact if_pos (this.1 rfl)
        | succ i =>
          intro this
          obtain ⟨h1, h2⟩ := this.2 (Nat.succ_ne_zero i)
          exact ⟨_, if_neg h1, h2⟩

/-- The notes a chord should have, MIDI numbers: its bass note in the octave from A2, its other notes in the octave
from E flat 4. -/
def Plays (K : Kind) (r : Nat) (p : Int) : Prop :=
  (45 ≤ p ∧ p ≤ 56 ∧ p % 12 = ((9 + r + K.bass.getD 0 : Nat) : Int) % 12) ∨
    (63 ≤ p ∧ p ≤ 74 ∧ ∃ i ∈ K.tones, p % 12 = ((9 + r + i : Nat) : Int) % 12)

instance (K : Kind) (r : Nat) (p : Int) : Decidable (Plays K r p) := by unfold Plays; infer_instance

theorem notes_low : ∀ t, t < 18 → ∀ r, r < 12 → ∀ p ∈ notesBy t r, 45 ≤ p ∧ p < 45 + ((30 : Nat) : Int) := by
  decide +kernel

theorem notes_table : ∀ t, t < 18 → ∀ r, r < 12 → ∀ j : Nat, j < 30 →
    (45 + (j : Int) ∈ notesBy t r ↔ Plays (kind t) r (45 + (j : Int))) := by
  decide +kernel

/-- **C82, the notes.**  The notes reported for a chord are its bass note - the root, if the kind names none - in the
octave from A2 to A flat 3, and every note of the chord once in the octave from E flat 4 to D5. -/
theorem C82_notes {F : Fns D} (hF : Discerns F) (boostN harte : D) :
    ∃ d, chordDictionary F none [] [] boostN harte = .ok d ∧
      ∀ t K, kinds[t]? = some K → ∀ r, r < 12 → ∃ notes, d.2.2[12 * t + r]? = some notes ∧
        ∀ p, p ∈ notes ↔ Plays K r p := by
  obtain ⟨d, e, -⟩ := dictionary_sizes F (ext := none) (fun _ h => by cases h) boostN harte
  refine ⟨d, e, ?_⟩
  intro t K hK r hr
  obtain ⟨ht, rfl⟩ := kind_of hK
  obtain ⟨-, h1⟩ := dictionary_entries F boostN harte (F.lit 0) e (show 12 * t + r < 216 by omega)
  rw [notesAt_eq hF _ _ ht hr] at h1
  refine ⟨_, h1, fun p => ?_⟩
  constructor
  · intro hp
    obtain ⟨a, b⟩ := notes_low t ht r hr p hp
    have := (notes_table t ht r hr (p - 45).toNat (by omega)).mp
    rw [show 45 + (((p - 45).toNat : Nat) : Int) = p by omega] at this
    exact this hp
  · intro hp
    have hr' : 45 ≤ p ∧ p < 75 := by
      rcases hp with ⟨a, b, -⟩ | ⟨a, b, -⟩ <;> omega
    have := (notes_table t ht r hr (p - 45).toNat (by omega)).mpr
    rw [show 45 + (((p - 45).toNat : Nat) : Int) = p by omega] at this
    exact this hp

/-- **C82 violated, notes.**  A chord with its root in the bass has the bass note twice: A major is A2, A2, E4, A4
and C sharp 5. -/
theorem C82_doubled_bass_violated {F : Fns D} (hF : Discerns F) (boostN harte : D) :
    ∃ d, chordDictionary F none [] [] boostN harte = .ok d ∧ d.2.2[0]? = some [45, 45, 69, 73, 64] := by
  obtain ⟨d, e, -⟩ := dictionary_sizes F (ext := none) (fun _ h => by cases h) boostN harte
  obtain ⟨-, h1⟩ := dictionary_entries F boostN harte (F.lit 0) e (show 12 * 0 + 0 < 216 by omega)
  rw [notesAt_eq hF _ _ (by omega) (by omega)] at h1
  exact ⟨d, e, h1.trans (by decide +kernel)⟩

/-- **C82 violated, labels.**  Two different chords have the same label: A major with A in the bass and A major with
nothing in the bass, and so on every root, and in minor. -/
theorem C82_same_label_violated {F : Fns D} (hF : Discerns F) (boostN harte : D) {r : Nat} (hr : r < 12) :
    ∃ d l, chordDictionary F none [] [] boostN harte = .ok d ∧ d.1[r]? = some l ∧ d.1[12 + r]? = some l ∧
      d.2.2[r]? ≠ d.2.2[12 + r]? := by
  obtain ⟨d, e, -⟩ := dictionary_sizes F (ext := none) (fun _ h => by cases h) boostN harte
  obtain ⟨h1, h2⟩ := dictionary_entries F boostN harte (F.lit 0) e (show 12 * 0 + r < 216 by omega)
  obtain ⟨h3, h4⟩ := dictionary_entries F boostN harte (F.lit 0) e (show 12 * 1 + r < 216 by omega)
  rw [notesAt_eq hF _ _ (by omega) hr] at h2 h4
  rw [Nat.mul_zero, Nat.zero_add] at h1 h2
  rw [Nat.mul_one] at h3 h4
  refine ⟨d, _, e, h1, h3.trans ?_, ?_⟩
  · unfold labelAt
    have e1 : (12 + r) / 12 = 1 := by omega
    have e2 : r / 12 = 0 := by omega
    have e3 : (12 + r) % 12 = r := by omega
    have e4 : r % 12 = r := by omega
    rw [e1, e2, e3, e4, slashAt_eq hF _ _ (by omega), slashAt_eq hF _ _ (by omega)]
    have hs : ∀ b, ∀ r, r < 12 → slashBy b 0 r = slashBy b 1 r := by decide +kernel
    rw [hs _ r hr]
    have hn : (typesOf F none harte).1.getD 0 [] = (typesOf F none harte).1.getD 1 [] := by
      unfold typesOf
      dsimp only [Option.getD_none]
      split <;> rfl
    rw [hn]
  · rw [h2, h4]
    have : ∀ r, r < 12 → some (notesBy 0 r) ≠ some (notesBy 1 r) := by decide +kernel
    exact this r hr

/-- A case: the dominant seventh chord on G with its third in the bass. -/
example : ∃ d, chordDictionary exactFns none [] [] 0.1 0 = .ok d ∧ d.1[12 * 17 + 10]? = some ['G', '7', '/', 'B'] := by
  obtain ⟨d, e, -⟩ := dictionary_sizes exactFns (ext := none) (fun _ h => by cases h) 0.1 0
  obtain ⟨h1, -⟩ := dictionary_entries exactFns 0.1 0 (exactFns.lit 0) e (show 12 * 17 + 10 < 216 by omega)
  refine ⟨d, e, h1.trans ?_⟩
  unfold labelAt
  have e3 : (12 * 17 + 10) / 12 = 17 := by omega
  have e4 : (12 * 17 + 10) % 12 = 10 := by omega
  rw [e3, e4, slashAt_eq exact_discerns _ _ (by omega)]
  have hz : exactFns.eq 0 (exactFns.lit 0) = true := by simp
  have hn : (typesOf exactFns none 0).1.getD 17 [] = ['7'] := by
    unfold typesOf
    dsimp only [Option.getD_none]
    rw [if_neg (by simp)]
    rfl
  rw [hz, hn]
  decide +kernel

end JKD.Chordino
