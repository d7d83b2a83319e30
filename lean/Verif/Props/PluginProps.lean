import Verif.Lemmas.ChromaFrames
import Verif.Lemmas.Cosine
/-
C68-C71, C73: the chroma plug-in as a whole.
-/

namespace JKD.Chroma

open Finset
open JKD.Nnls (Rounding truncation)

variable {D T : Type}

/-! ### Specification -/

/-- An output of the plug-in has one vector of `n` values for every block, in order and with its time. -/
def PerBlock (times : List T) (n : Nat) (l : List (T × List D)) : Prop :=
  l.map Prod.fst = times ∧ ∀ f ∈ l, f.2.length = n

/-- The amount of pitch class `pc` (0 is C) in a semitone spectrum that starts at MIDI note 21, weighted with a
window. -/
noncomputable def WeightedClass (w : List Rat) (sem : List ℝ) (pc : Nat) : ℝ :=
  ∑ m ∈ (Icc 21 104).filter (fun m => m % 12 = pc), sem.getD (m - 21) 0 * ((w.getD (m - 21) 0 : Rat) : ℝ)

/-- The spectrum that the notes in the amounts `x` make at bin `l`. -/
noncomputable def Mixture (s : ℝ) (x : Nat → ℝ) (l : Nat) : ℝ := ∑ t ∈ range 84, x t * profile s t l

theorem weightedClass_eq (w : List Rat) (sem : List ℝ) {k : Nat} (hk : k < 12) :
    WeightedClass w sem ((k + 9) % 12) = foldNotes w sem k := by
  unfold WeightedClass foldNotes
  symm
  apply sum_bij (fun t _ => t + 21)
  · intro t ht
    simp only [mem_filter, mem_range, mem_Icc] at *
    omega
  · intro i _ j _ e
    omega
  · intro m hm
    simp only [mem_filter, mem_Icc] at hm
    exact ⟨m - 21, by simp only [mem_filter, mem_range]; omega, by omega⟩
  · intro t _
    rw [Nat.add_sub_cancel]

theorem output_perBlock {Q : D → Prop} {ts : List T} {n : Nat} {l : List (T × List D)} (h : Output Q ts n l) :
    PerBlock ts n l := ⟨h.1, fun f hf => (h.2 f hf).1⟩

/-! ### C68: the plug-in runs through -/

/-- For any arithmetic in which comparisons are those of IEEE numbers and the tuning estimate stays within half a
semitone: whatever the parameters, the sampling rate, the block size from four up, the recording and the contents
of uninitialised memory, the plug-in runs through without a subscript out of range or a failed assertion and
returns, for each of its five outputs, one vector of the documented size for every block with its timestamp. -/
theorem C68_plugin_runs (F : Fns D) (hO : Nnls.Ordered F.toOps) (hT : Tunes F) (fs : Int) {bs : Nat} (hb : 4 ≤ bs)
    (params : Params D) {blocks : List (T × List D)} (hbl : ∀ bl ∈ blocks, bs ≤ bl.2.length)
    (junk : Nat → Nnls.St D) :
    ∃ f, runAll F fs bs params blocks junk = .ok (some f) ∧
      PerBlock (blocks.map Prod.fst) 256 f.tunedlogfreqspec ∧
      PerBlock (blocks.map Prod.fst) 84 f.semitonespectrum ∧
      PerBlock (blocks.map Prod.fst) 12 f.chroma ∧
      PerBlock (blocks.map Prod.fst) 12 f.basschroma ∧
      PerBlock (blocks.map Prod.fst) 24 f.bothchroma := by
  obtain ⟨f, e, h1, h2, h3, h4, h5, -⟩ := runAll_ok F (signed_true F) hO hT fs hb params hbl junk
  exact ⟨f, e, output_perBlock h1, output_perBlock h2, output_perBlock h3, output_perBlock h4, output_perBlock h5⟩

/-! ### C69: nothing negative comes out -/

/-- Under every monotone, symmetric rounding that leaves a few small numbers alone - rounding to the nearest
`float` as long as nothing overflows - no value of any output is negative and the message about a negative value is
never printed. -/
theorem C69_plugin_nonnegative (R : Rounding) (hR : R.Halves) (fs : Int) {bs : Nat} (hb : 4 ≤ bs)
    (params : Params R.F) {blocks : List (T × List R.F)} (hbl : ∀ bl ∈ blocks, bs ≤ bl.2.length)
    (junk : Nat → Nnls.St R.F) :
    ∃ f, runAll R.fns fs bs params blocks junk = .ok (some f) ∧ f.complained = false ∧
      ∀ out ∈ [f.tunedlogfreqspec, f.semitonespectrum, f.chroma, f.basschroma, f.bothchroma],
        ∀ fr ∈ out, ∀ x ∈ fr.2, 0 ≤ x.1 := by
  obtain ⟨f, e, h1, h2, h3, h4, h5, h6, -⟩ := runAll_ok R.fns (rounding_signed R) R.ordered (rounding_tunes hR) fs hb
    params hbl junk
  refine ⟨f, e, h6 (rounding_notneg R), ?_⟩
  intro out ho fr hfr
  simp only [List.mem_cons, List.not_mem_nil, or_false] at ho
  rcases ho with rfl | rfl | rfl | rfl | rfl
  · exact (h1.2 fr hfr).2
  · exact (h2.2 fr hfr).2
  · exact (h3.2 fr hfr).2
  · exact (h4.2 fr hfr).2
  · exact (h5.2 fr hfr).2

/-- The truncating arithmetic meets the hypotheses. -/
theorem truncation_int (k : ℤ) (hk : 0 ≤ k) : truncation.rnd ((k : ℝ) / 1000) = (k : ℝ) / 1000 := by
  have h : (0 : ℝ) ≤ (k : ℝ) / 1000 := by
    have : (0 : ℝ) ≤ (k : ℝ) := by exact_mod_cast hk
    positivity
  change (if (0 : ℝ) ≤ (k : ℝ) / 1000 then (⌊1000 * ((k : ℝ) / 1000)⌋ : ℝ) / 1000 else _) = _
  rw [if_pos h, mul_div_cancel₀ _ (by norm_num), Int.floor_intCast]

theorem truncation_halves : truncation.Halves where
  half := by
    have := truncation_int 500 (by norm_num)
    norm_num at this
    norm_num
    exact this
  three := by
    have := truncation_int 3000 (by norm_num)
    norm_num at this
    exact this
  threeHalves := by
    have := truncation_int 1500 (by norm_num)
    norm_num at this
    exact this
  twoPi := by
    have h : truncation.rnd Real.pi = (⌊1000 * Real.pi⌋ : ℝ) / 1000 := if_pos Real.pi_pos.le
    rw [h]
    have h2 : (2 : ℝ) * ((⌊1000 * Real.pi⌋ : ℝ) / 1000) = ((2 * ⌊1000 * Real.pi⌋ : ℤ) : ℝ) / 1000 := by
      push_cast
      ring
    rw [h2]
    apply truncation_int
    have : 0 ≤ ⌊1000 * Real.pi⌋ := Int.floor_nonneg.mpr (by have := Real.pi_pos; linarith)
    omega

/-! ### The frames of a run in exact arithmetic -/

theorem profile_dict {s : ℝ} {dict : List ℝ}
    (h : dictionaryMatrix exactFns s (List.replicate (nNote * 84) (exactFns.lit 0)) = .ok dict) :
    dict.length = nNote * 84 ∧ ∀ t l, t < 84 → l < nNote → dict.getD (t * nNote + l) 0 = profile s t l := by
  obtain ⟨out, e, h1, h2⟩ := dictionaryMatrix_exact s (dm := List.replicate (nNote * 84) (exactFns.lit 0)) (by simp)
  rw [h] at e
  cases e
  refine ⟨h1, ?_⟩
  intro t l ht hl
  rw [h2 t l ht hl]
  simp only [ex_lit, Rat.cast_zero]
  rw [getD_replicate_zero, zero_add]

theorem run_frames (fs : Int) {bs : Nat} (hb : 4 ≤ bs) (params : Params ℝ) {blocks : List (T × List ℝ)}
    (hbl : ∀ bl ∈ blocks, bs ≤ bl.2.length) (junk : Nat → Nnls.St ℝ) :
    ∃ f, runAll exactFns fs bs params blocks junk = .ok (some f) ∧
      ∀ i, i < blocks.length → ∃ t f2 r, f.tunedlogfreqspec[i]? = some (t, f2) ∧
        f.semitonespectrum[i]? = some (t, r.semitones) ∧
        f.chroma[i]? = some (t, (chromas exactFns params.doNormalizeChroma r).1) ∧
        f.basschroma[i]? = some (t, (chromas exactFns params.doNormalizeChroma r).2.1) ∧
        f.bothchroma[i]? = some (t, (chromas exactFns params.doNormalizeChroma r).2.2) ∧
        f2.length = 256 ∧ AllQ (fun x : ℝ => 0 ≤ x) f2 ∧ NotesOk (fun x : ℝ => 0 ≤ x) r ∧ Balanced r ∧
        r.semitones.length = 84 ∧
        (params.useNNLS = 0 → ∀ t, t < 84 → r.semitones.getD t 0 =
          f2.getD (3 * t + 2) 0 / 2 + f2.getD (3 * t + 3) 0 + f2.getD (3 * t + 4) 0 / 2) ∧
        (params.useNNLS ≠ 0 → ∀ dict,
          dictionaryMatrix exactFns params.s (List.replicate (nNote * 84) (exactFns.lit 0)) = .ok dict →
          (∀ t, t ∉ heard f2 → r.semitones.getD t 0 = 0) ∧
          (¬ GivesUp dict f2 (junk i) → ∀ y : Nat → ℝ, (∀ t, 0 ≤ y t) → (∀ t, t < 84 → t ∉ heard f2 → y t = 0) →
            Distance (profile params.s) f2 (fun t => r.semitones.getD t 0) ≤ Distance (profile params.s) f2 y)) := by
  obtain ⟨f, e, h1, -, -, -, -, -, p, hp, hf, -⟩ := runAll_ok exactFns exact_signed exact_ordered exact_tunes fs hb
    params hbl junk
  refine ⟨f, e, ?_⟩
  intro i hi
  have hlen : f.tunedlogfreqspec.length = blocks.length := by
    have := congrArg List.length h1.1
    simpa using this
  obtain ⟨⟨t, f2⟩, hfr⟩ := getElem?_some_of_lt (v := f.tunedlogfreqspec) (i := i) (by omega)
  obtain ⟨q1, q2⟩ := h1.2 _ (List.mem_of_getElem? hfr)
  obtain ⟨n, en, k1, k2, k3, k4⟩ := hf i t f2 hfr
  obtain ⟨d1, d2⟩ := profile_dict hp.dict
  obtain ⟨r, er, g1, g2, -, g4, g5⟩ := notesOf_exact d1 d2 (junk i) q1 q2
  obtain ⟨r', er', g6, -⟩ := notesOf_ok exactFns exact_signed exact_ordered hp.ready (junk i) q1 q2
  rw [en] at er er'
  cases er
  cases er'
  rw [hp.pars] at k2 k3 k4 g4 g5
  refine ⟨t, f2, n, hfr, k1, k2, k3, k4, q1, q2, g6, g1, g2, g4, ?_⟩
  intro hu dict hd
  have hdd := hp.dict
  rw [hd] at hdd
  cases hdd
  exact g5 hu

/-! ### C70: what the chroma vectors are -/

/-- In exact arithmetic and without normalisation, entry `k` of the chroma vector is the sum of the semitone
spectrum over the notes of pitch class `k + 9` - the first entry is A - weighted with the treble window, the bass
chroma likewise with the bass window, and the third vector is the bass followed by the treble. -/
theorem C70_chroma_folds (fs : Int) {bs : Nat} (hb : 4 ≤ bs) (params : Params ℝ)
    (hn : params.doNormalizeChroma ≤ 0) {blocks : List (T × List ℝ)} (hbl : ∀ bl ∈ blocks, bs ≤ bl.2.length)
    (junk : Nat → Nnls.St ℝ) :
    ∃ f, runAll exactFns fs bs params blocks junk = .ok (some f) ∧ ∀ i, i < blocks.length →
      ∃ t sem c b, f.semitonespectrum[i]? = some (t, sem) ∧ f.chroma[i]? = some (t, c) ∧
        f.basschroma[i]? = some (t, b) ∧ f.bothchroma[i]? = some (t, b ++ c) ∧
        ∀ k, k < 12 → c[k]? = some (WeightedClass treblewindow sem ((k + 9) % 12)) ∧
          b[k]? = some (WeightedClass basswindow sem ((k + 9) % 12)) := by
  obtain ⟨f, e, h⟩ := run_frames fs hb params hbl junk
  refine ⟨f, e, ?_⟩
  intro i hi
  obtain ⟨t, f2, r, -, h1, h2, h3, h4, -, -, -, h5, -⟩ := h i hi
  have hc : chromas exactFns params.doNormalizeChroma r = (r.chroma, r.basschroma, r.basschroma ++ r.chroma) := by
    unfold chromas
    rw [if_neg]
    simp only [ex_lt, ex_lit, Rat.cast_zero, decide_eq_true_eq, not_lt]
    exact hn
  rw [hc] at h2 h3 h4
  refine ⟨t, r.semitones, r.chroma, r.basschroma, h1, h2, h3, h4, ?_⟩
  intro k hk
  rw [weightedClass_eq _ _ hk, weightedClass_eq _ _ hk]
  exact ⟨h5.treble k hk, h5.bass k hk⟩

/-- Without the approximate transcription a note of the semitone spectrum is its own bin of the tuned spectrum
and half of either neighbour. -/
theorem C70_plain_semitones (fs : Int) {bs : Nat} (hb : 4 ≤ bs) (params : Params ℝ) (hu : params.useNNLS = 0)
    {blocks : List (T × List ℝ)} (hbl : ∀ bl ∈ blocks, bs ≤ bl.2.length) (junk : Nat → Nnls.St ℝ) :
    ∃ f, runAll exactFns fs bs params blocks junk = .ok (some f) ∧ ∀ i, i < blocks.length →
      ∃ t tuned sem, f.tunedlogfreqspec[i]? = some (t, tuned) ∧ f.semitonespectrum[i]? = some (t, sem) ∧
        ∀ m, m < 84 → sem.getD m 0 =
          tuned.getD (3 * m + 2) 0 / 2 + tuned.getD (3 * m + 3) 0 + tuned.getD (3 * m + 4) 0 / 2 := by
  obtain ⟨f, e, h⟩ := run_frames fs hb params hbl junk
  refine ⟨f, e, ?_⟩
  intro i hi
  obtain ⟨t, f2, r, h0, h1, -, -, -, -, -, -, -, -, h2, -⟩ := h i hi
  exact ⟨t, f2, r.semitones, h0, h1, h2 hu⟩

/-- A bell over the half-steps from `0` to `n`, zero at both ends and one in the middle. -/
noncomputable def bell (n : ℚ) (m : Nat) : ℝ := Real.sin (Real.pi * (((m : ℚ) + 1 / 2) / n : ℚ)) ^ 2

theorem windows_near : ∀ m : Nat, m < 84 →
    (|Numeric.cosSeries (2 * Numeric.fold (((m : ℚ) + 1 / 2) / 84) * 3.14159265 / 4)| ≤ 1 ∧
      |treblewindow.getD m 0 - Numeric.sinSq (((m : ℚ) + 1 / 2) / 84)| ≤ 0.00000055) ∧
    (m < 37 → |Numeric.cosSeries (2 * Numeric.fold (((m : ℚ) + 1 / 2) / (112 / 3)) * 3.14159265 / 4)| ≤ 1 ∧
      |basswindow.getD m 0 - Numeric.sinSq (((m : ℚ) + 1 / 2) / (112 / 3))| ≤ 0.00000055) ∧
    (37 ≤ m → basswindow.getD m 0 = 0) := by
  decide +kernel

/-- The treble window is, to six decimals, a raised cosine over the 84 notes; the bass window is one over the
lowest 37 1/3 notes and zero above. -/
theorem C70_windows : treblewindow.length = 84 ∧ basswindow.length = 84 ∧ ∀ m, m < 84 →
    |((treblewindow.getD m 0 : ℚ) : ℝ) - bell 84 m| ≤ 0.0000006 ∧
    (m < 37 → |((basswindow.getD m 0 : ℚ) : ℝ) - bell (112 / 3) m| ≤ 0.0000006) ∧
    (37 ≤ m → basswindow.getD m 0 = 0) := by
  refine ⟨rfl, rfl, ?_⟩
  intro m hm
  obtain ⟨⟨a, b⟩, c, d⟩ := windows_near m hm
  have h0 : (0 : ℚ) ≤ m := Nat.cast_nonneg m
  have h1 : (m : ℚ) ≤ 83 := by exact_mod_cast (by omega : m ≤ 83)
  refine ⟨?_, ?_, d⟩
  · refine Numeric.near_sinSq ?_ ?_ a b
    · positivity
    · rw [div_le_one (by norm_num)]
      linarith
  · intro h
    obtain ⟨c1, c2⟩ := c h
    have h2 : (m : ℚ) ≤ 36 := by exact_mod_cast (by omega : m ≤ 36)
    refine Numeric.near_sinSq ?_ ?_ c1 c2
    · positivity
    · rw [div_le_one (by norm_num)]
      linarith

/-! ### C71: the approximate transcription -/

/-- In exact arithmetic, unless the solver gives up, the semitone spectrum is the best explanation of the tuned
spectrum among all non-negative amounts of those notes that have anything in their three bins. -/
theorem C71_transcription_best (fs : Int) {bs : Nat} (hb : 4 ≤ bs) (params : Params ℝ) (hu : params.useNNLS ≠ 0)
    {blocks : List (T × List ℝ)} (hbl : ∀ bl ∈ blocks, bs ≤ bl.2.length) (junk : Nat → Nnls.St ℝ) :
    ∃ f, runAll exactFns fs bs params blocks junk = .ok (some f) ∧ ∀ i, i < blocks.length →
      ∃ t tuned sem, f.tunedlogfreqspec[i]? = some (t, tuned) ∧ f.semitonespectrum[i]? = some (t, sem) ∧
        ∀ dict, dictionaryMatrix exactFns params.s (List.replicate (nNote * 84) (exactFns.lit 0)) = .ok dict →
          ¬ GivesUp dict tuned (junk i) → ∀ y : Nat → ℝ, (∀ m, 0 ≤ y m) →
          (∀ m, m < 84 → tuned.getD (3 * m + 2) 0 + tuned.getD (3 * m + 3) 0 + tuned.getD (3 * m + 4) 0 = 0 →
            y m = 0) →
          ∑ l ∈ range 256, (Mixture params.s (fun m => sem.getD m 0) l - tuned.getD l 0) ^ 2 ≤
            ∑ l ∈ range 256, (Mixture params.s y l - tuned.getD l 0) ^ 2 := by
  obtain ⟨f, e, h⟩ := run_frames fs hb params hbl junk
  refine ⟨f, e, ?_⟩
  intro i hi
  obtain ⟨t, f2, r, h0, h1, -, -, -, -, hq, -, -, -, -, h2⟩ := h i hi
  refine ⟨t, f2, r.semitones, h0, h1, ?_⟩
  intro dict hd hg y hy hy'
  refine (h2 hu dict hd).2 hg y hy ?_
  intro m hm hh
  apply hy' m hm
  rw [mem_heard] at hh
  have hle : ¬ 0 < f2.getD (3 * m + 2) 0 + f2.getD (3 * m + 3) 0 + f2.getD (3 * m + 4) 0 := fun h => hh ⟨hm, h⟩
  have g1 := getD_nonneg hq (3 * m + 2)
  have g2 := getD_nonneg hq (3 * m + 3)
  have g3 := getD_nonneg hq (3 * m + 4)
  linarith

/-- In exact arithmetic, unless the solver gives up, a tuned spectrum that is a mixture of the plug-in's own note
profiles is taken apart: the semitone spectrum holds exactly the amounts of the notes. -/
theorem C71_mixture_recovered (fs : Int) {bs : Nat} (hb : 4 ≤ bs) (params : Params ℝ) (hu : params.useNNLS ≠ 0)
    (hs : 0 ≤ params.s) {blocks : List (T × List ℝ)} (hbl : ∀ bl ∈ blocks, bs ≤ bl.2.length)
    (junk : Nat → Nnls.St ℝ) :
    ∃ f, runAll exactFns fs bs params blocks junk = .ok (some f) ∧ ∀ i, i < blocks.length →
      ∃ t tuned sem, f.tunedlogfreqspec[i]? = some (t, tuned) ∧ f.semitonespectrum[i]? = some (t, sem) ∧
        ∀ dict, dictionaryMatrix exactFns params.s (List.replicate (nNote * 84) (exactFns.lit 0)) = .ok dict →
          ¬ GivesUp dict tuned (junk i) → ∀ x : Nat → ℝ, (∀ m, 0 ≤ x m) →
          (∀ l, l < 256 → tuned.getD l 0 = Mixture params.s x l) → ∀ m, m < 84 → sem.getD m 0 = x m := by
  obtain ⟨f, e, h⟩ := run_frames fs hb params hbl junk
  refine ⟨f, e, ?_⟩
  intro i hi
  obtain ⟨t, f2, r, h0, h1, -, -, -, -, -, -, -, -, -, h2⟩ := h i hi
  refine ⟨t, f2, r.semitones, h0, h1, ?_⟩
  intro dict hd hg x hx hm
  exact mixture_recovered hs hx hm ((h2 hu dict hd).2 hg)

/-- The spectrum of the highest note alone. -/
noncomputable def topNote : List ℝ := (List.range 256).map (profile 0.7 83)

theorem topNote_get (l : Nat) (h : l < 256) : topNote.getD l 0 = profile 0.7 83 l := by
  unfold topNote
  rw [List.getD_eq_getElem?_getD, List.getElem?_map, List.getElem?_range h]
  rfl

theorem topNote_heard : heard topNote = [83] := by
  have hmem : ∀ t, t ∈ heard topNote ↔ t = 83 := by
    intro t
    rw [mem_heard]
    constructor
    · rintro ⟨h1, h2⟩
      by_contra h3
      rw [topNote_get _ (by omega), topNote_get _ (by omega), topNote_get _ (by omega),
        profile_below _ (by omega), profile_below _ (by omega), profile_below _ (by omega)] at h2
      norm_num at h2
    · rintro rfl
      refine ⟨by omega, ?_⟩
      rw [topNote_get _ (by omega), topNote_get _ (by omega), topNote_get _ (by omega)]
      have h1 := profile_diag (s := 0.7) (by norm_num) 83
      have h2 := profile_nonneg (s := 0.7) (by norm_num) 83 (3 * 83 + 2)
      have h3 := profile_nonneg (s := 0.7) (by norm_num) 83 (3 * 83 + 4)
      norm_num at h1 h2 h3 ⊢
      linarith
  have hnd := heard_nodup topNote
  cases hl : heard topNote with
  | nil =>
    have := (hmem 83).mpr rfl
    rw [hl] at this
    cases this
  | cons a l =>
    rw [hl] at hmem hnd
    have ha : a = 83 := (hmem a).mp (by simp)
    subst ha
    cases l with
    | nil => rfl
    | cons b l =>
      have hb : b = 83 := (hmem b).mp (by simp)
      subst hb
      simp at hnd

/-- The solver does not give up on it, so that the conclusions of C71 are reached. -/
example (dict : List ℝ) (junk : Nnls.St ℝ)
    (_hd : dictionaryMatrix exactFns 0.7 (List.replicate (nNote * 84) (exactFns.lit 0)) = .ok dict) :
    ¬ GivesUp dict topNote junk ∧
      ∀ l, l < 256 → topNote.getD l 0 = Mixture 0.7 (fun t => if t = 83 then 1 else 0) l := by
  constructor
  · rintro ⟨cd, ret, -, e, h3⟩
    rw [topNote_heard] at e
    obtain ⟨r, e', h1⟩ := Nnls.one_column nNote (by decide) (problem exactFns cd topNote junk) junk.up
    have e'' : Nnls.call exactFns.toOps (nNote : Nat) 1 (problem exactFns cd topNote junk) junk.up = .ok r := e'
    have e3 : Nnls.call exactFns.toOps (nNote : Nat) 1 (problem exactFns cd topNote junk) junk.up = .ok ret := e
    rw [e''] at e3
    cases e3
    omega
  · intro l hl
    rw [topNote_get l hl]
    unfold Mixture
    rw [sum_eq_single 83]
    · simp
    · intro t _ ht
      beta_reduce
      rw [if_neg ht, zero_mul]
    · intro h
      exact absurd (mem_range.mpr (by omega)) h

/-! ### C73: normalisation -/

theorem scale_entries {mode : Int} (hm : mode = 1 ∨ mode = 2 ∨ mode = 3) {v : List ℝ} (hv : v ≠ [])
    (hq : AllQ (fun x : ℝ => 0 ≤ x) v) :
    (∃ d, 0 < d ∧ ∀ (k : Nat) (x : ℝ), v[k]? = some x → (scaleBy exactFns (normOf mode v) v)[k]? = some (x / d)) ∧
      ((∀ x ∈ scaleBy exactFns (normOf mode v) v, x = 0) ∨ Normal mode (scaleBy exactFns (normOf mode v) v)) := by
  rcases scale_normal hm hv hq with ⟨h1, h2⟩ | ⟨h1, h2, h3⟩
  · refine ⟨⟨1, one_pos, ?_⟩, Or.inl (by rw [h2]; exact h1)⟩
    intro k x hx
    rw [h2, hx, div_one]
  · refine ⟨⟨_, h1, ?_⟩, Or.inr h3⟩
    intro k x hx
    rw [h2, List.getElem?_map, hx]
    rfl

/-- In exact arithmetic, with one of the three normalisations chosen, each of the three chroma vectors of a frame
is what it is without normalisation divided by a positive number - the same one for bass and treble in the third -
and, unless it is zero throughout, its largest entry, its sum or its Euclidean length is one. -/
theorem C73_normalised (fs : Int) {bs : Nat} (hb : 4 ≤ bs) (params : Params ℝ) {mode : Int}
    (hm : mode = 1 ∨ mode = 2 ∨ mode = 3) (hp : params.doNormalizeChroma = (mode : ℝ))
    {blocks : List (T × List ℝ)} (hbl : ∀ bl ∈ blocks, bs ≤ bl.2.length) (junk : Nat → Nnls.St ℝ) :
    ∃ f, runAll exactFns fs bs params blocks junk = .ok (some f) ∧ ∀ i, i < blocks.length →
      ∃ t sem c b both, f.semitonespectrum[i]? = some (t, sem) ∧ f.chroma[i]? = some (t, c) ∧
        f.basschroma[i]? = some (t, b) ∧ f.bothchroma[i]? = some (t, both) ∧
        (∃ d, 0 < d ∧ ∀ k, k < 12 → c[k]? = some (WeightedClass treblewindow sem ((k + 9) % 12) / d)) ∧
        (∃ d, 0 < d ∧ ∀ k, k < 12 → b[k]? = some (WeightedClass basswindow sem ((k + 9) % 12) / d)) ∧
        (∃ d, 0 < d ∧ ∀ k, k < 12 → both[k]? = some (WeightedClass basswindow sem ((k + 9) % 12) / d) ∧
          both[12 + k]? = some (WeightedClass treblewindow sem ((k + 9) % 12) / d)) ∧
        ∀ v ∈ [c, b, both], (∀ x ∈ v, x = 0) ∨ Normal mode v := by
  obtain ⟨f, e, h⟩ := run_frames fs hb params hbl junk
  refine ⟨f, e, ?_⟩
  intro i hi
  obtain ⟨t, f2, r, -, h1, h2, h3, h4, -, -, hn, h5, -⟩ := h i hi
  have hne : ∀ v : List ℝ, v.length = 12 → v ≠ [] := by
    rintro v hv rfl
    cases hv
  have hc : chromas exactFns params.doNormalizeChroma r = (scaleBy exactFns (normOf mode r.chroma) r.chroma,
      scaleBy exactFns (normOf mode r.basschroma) r.basschroma,
      scaleBy exactFns (normOf mode (r.basschroma ++ r.chroma)) (r.basschroma ++ r.chroma)) := by
    have hpos : (0 : ℝ) < (mode : ℝ) := by
      have : (0 : Int) < mode := by omega
      exact_mod_cast this
    have hfl : exactFns.floor params.doNormalizeChroma = mode := by
      rw [hp]
      exact Int.floor_intCast mode
    unfold chromas
    rw [if_pos (by simp only [ex_lt, ex_lit, Rat.cast_zero, decide_eq_true_eq, hp]; exact hpos)]
    rw [hfl, norms_eq mode (hne _ h5.c) (hne _ h5.b)]
  rw [hc] at h2 h3 h4
  obtain ⟨⟨d1, p1, c1⟩, n1⟩ := scale_entries hm (hne _ h5.c) hn.qc
  obtain ⟨⟨d2, p2, c2⟩, n2⟩ := scale_entries hm (hne _ h5.b) hn.qb
  obtain ⟨⟨d3, p3, c3⟩, n3⟩ := scale_entries hm (v := r.basschroma ++ r.chroma) (by
    have := hne _ h5.b
    simp [this]) (hn.qb.append hn.qc)
  have g1 : ∀ k, k < 12 → r.chroma[k]? = some (WeightedClass treblewindow r.semitones ((k + 9) % 12)) := by
    intro k hk
    rw [weightedClass_eq _ _ hk]
    exact h5.treble k hk
  have g2 : ∀ k, k < 12 → r.basschroma[k]? = some (WeightedClass basswindow r.semitones ((k + 9) % 12)) := by
    intro k hk
    rw [weightedClass_eq _ _ hk]
    exact h5.bass k hk
  refine ⟨t, r.semitones, _, _, _, h1, h2, h3, h4, ⟨d1, p1, fun k hk => c1 k _ (g1 k hk)⟩,
    ⟨d2, p2, fun k hk => c2 k _ (g2 k hk)⟩, ⟨d3, p3, ?_⟩, ?_⟩
  · intro k hk
    refine ⟨c3 k _ ?_, c3 (12 + k) _ ?_⟩
    · rw [List.getElem?_append_left (by rw [h5.b]; exact hk)]
      exact g2 k hk
    · rw [List.getElem?_append_right (by rw [h5.b]; omega), h5.b, Nat.add_sub_cancel_left]
      exact g1 k hk
  · intro v hv
    simp only [List.mem_cons, List.not_mem_nil, or_false] at hv
    rcases hv with rfl | rfl | rfl
    · exact n1
    · exact n2
    · exact n3

/-- The hypotheses of C68 are met by exact and by truncating arithmetic, those of C69 by the latter. -/
example : (Nnls.Ordered exactFns.toOps ∧ Tunes exactFns) ∧
    (Nnls.Ordered truncation.fns.toOps ∧ Tunes truncation.fns) ∧ truncation.Halves :=
  ⟨⟨exact_ordered, exact_tunes⟩, ⟨truncation.ordered, rounding_tunes truncation_halves⟩, truncation_halves⟩

/-- A recording of two blocks that meets the hypotheses on the input. -/
example : ∀ bl ∈ [(0, List.replicate 16384 (0.25 : ℝ)), (1, List.replicate 16385 (1 : ℝ))], 16384 ≤ bl.2.length := by
  intro bl hbl
  simp only [List.mem_cons, List.not_mem_nil, or_false] at hbl
  rcases hbl with rfl | rfl
  · rw [List.length_replicate]
  · rw [List.length_replicate]
    omega

end JKD.Chroma
