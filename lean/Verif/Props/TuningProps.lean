import Verif.Model.Tuning
import Verif.Props.SpectrumProps
/-
C91-C92: the tuning plug-in.
-/

namespace JKD.Chroma

open Finset

variable {D T : Type}

theorem angle_bounds (x : Nat → ℝ) : -(1 / 2) < angle x ∧ angle x ≤ 1 / 2 := by
  have hp := Real.pi_pos
  unfold angle
  constructor
  · rw [lt_div_iff₀ (by linarith)]
    have := Complex.neg_pi_lt_arg ⟨∑ i ∈ range 3, x i * Real.cos (2 * Real.pi * (i / 3)),
      ∑ i ∈ range 3, x i * Real.sin (2 * Real.pi * (i / 3))⟩
    linarith
  · rw [div_le_iff₀ (by linarith)]
    have := Complex.arg_le_pi ⟨∑ i ∈ range 3, x i * Real.cos (2 * Real.pi * (i / 3)),
      ∑ i ∈ range 3, x i * Real.sin (2 * Real.pi * (i / 3))⟩
    linarith

/-! ### Runs -/

theorem cumulativeTuning_exact {fs : Int} {bs : Nat} {params : Params ℝ} {done : List (T × List ℝ)} {p : Base ℝ T}
    (hp : Running fs bs params done p) :
    cumulativeTuning exactFns p = .ok (440 * (2 : ℝ) ^ (globalTuning (spectra fs bs params.rollon done) / 12)) := by
  have h := normalisedTuning_exact p hp.sinv hp.cosv hp.setup.ready.mean
  unfold normalisedTuning at h
  obtain ⟨r, e, h⟩ := bind_eq_ok.mp h
  have h := ok_inj h
  unfold cumulativeTuning
  rw [e, bind_ok, pure_eq]
  have hg : angle (fun i => p.meanTunings.getD i 0) = globalTuning (spectra fs bs params.rollon done) := by
    unfold globalTuning
    apply angle_congr
    intro i hi
    rw [hp.mean i hi]
    simp [spectra]
  rw [hg] at h
  rw [← h]
  simp only [ex_div, ex_mul, ex_lit, ex_pi, ex_pow, ex_atan2]
  push_cast
  rw [div_div, show (24 : ℝ) * Real.pi = 2 * Real.pi * 12 by ring]

theorem tuningProcess_exact {fs : Int} {bs : Nat} {params : Params ℝ} {done : List (T × List ℝ)} {p : Base ℝ T}
    (hp : Running fs bs params done p) {buf : List ℝ} (hbuf : bs ≤ buf.length) (ts : T) :
    ∃ p', tuningProcess exactFns buf ts p =
        .ok (p', (ts, 440 * (2 : ℝ) ^ (localTuningAt (spectra fs bs params.rollon (done ++ [(ts, buf)])) done.length / 12))) ∧
      Running fs bs params (done ++ [(ts, buf)]) p' := by
  obtain ⟨p', e, h⟩ := running_step hp hbuf ts
  refine ⟨p', ?_, h⟩
  unfold tuningProcess
  rw [e, bind_ok, h.tun]
  have hr : rd ((List.range (done ++ [(ts, buf)]).length).map (localTuningAt (spectra fs bs params.rollon (done ++ [(ts, buf)]))))
      ((((List.range (done ++ [(ts, buf)]).length).map
        (localTuningAt (spectra fs bs params.rollon (done ++ [(ts, buf)])))).length : Int) - 1) =
      .ok (localTuningAt (spectra fs bs params.rollon (done ++ [(ts, buf)])) done.length) := by
    apply rd_ok
    · simp
    · rw [List.getElem?_map]
      simp
  rw [hr, bind_ok, pure_eq]
  unfold tuning440
  simp only [ex_mul, ex_lit, ex_pow, ex_div]
  norm_num

theorem localTuningAt_take (Ls Ms : List (Nat → ℝ)) {k : Nat} (hk : k < Ls.length) :
    localTuningAt (Ls ++ Ms) k = localTuningAt Ls k := by
  unfold localTuningAt
  rw [List.take_append_of_le_length (by omega)]

theorem getLast?_map' {α β : Type} (f : α → β) (l : List α) : (l.map f).getLast? = l.getLast?.map f := by
  rw [List.getLast?_eq_getElem?, List.getLast?_eq_getElem?, List.getElem?_map, List.length_map]

/-- Everything a run returns. -/
theorem runTuning_exact {fs : Int} (hfs : 0 < fs) {bs : Nat} (hb : 4 ≤ bs) (params : Params ℝ)
    {blocks : List (T × List ℝ)} (hbl : ∀ bl ∈ blocks, bs ≤ bl.2.length) {fixed1 : ℝ → Str}
    (hfix : ∀ x, 0 ≤ x → x < 1000 → (fixed1 x).length ≤ 5) (zero : T) :
    ∃ out, runTuning exactFns fixed1 zero fs bs params blocks = .ok (some out) ∧ out.1.length = blocks.length ∧
      (∀ k bl, blocks[k]? = some bl → out.1[k]? =
        some (bl.1, 440 * (2 : ℝ) ^ (localTuningAt (spectra fs bs params.rollon blocks) k / 12))) ∧
      out.2 = (blocks.getLast?.map (fun bl => ({
        timestamp := zero
        duration := bl.1
        value := 440 * (2 : ℝ) ^ (globalTuning (spectra fs bs params.rollon blocks) / 12)
        label := fixed1 (440 * (2 : ℝ) ^ (globalTuning (spectra fs bs params.rollon blocks) / 12)) ++ [' ', 'H', 'z'] } :
        Pitch ℝ T))).toList := by
  unfold runTuning
  obtain ⟨p0, e0, r0, b0, pa0, s0, -, d0, w0⟩ := initialise_ok (T := T) exactFns exact_signed fs hb params
  have hrun0 : Running fs bs params ([] : List (T × List ℝ)) p0 := running_blocks hfs hb (by simp) ⟨p0, e0, rfl⟩
  rw [e0, bind_ok, if_pos rfl]
  dsimp only
  obtain ⟨s, e1, h1, h2, h3⟩ := foldlM_inv (f := fun (s : Base ℝ T × List (T × ℝ)) (bl : T × List ℝ) => do
      let r ← tuningProcess exactFns bl.2 bl.1 s.1
      pure (r.1, s.2 ++ [r.2])) (l := blocks) (b := (p0, []))
    (fun i (s : Base ℝ T × List (T × ℝ)) => Running fs bs params (blocks.take i) s.1 ∧ s.2.length = i ∧
      ∀ k bl, k < i → blocks[k]? = some bl → s.2[k]? =
        some (bl.1, 440 * (2 : ℝ) ^ (localTuningAt (spectra fs bs params.rollon blocks) k / 12)))
    ⟨by simpa using hrun0, rfl, by intro k bl hk; omega⟩ (by
      rintro i bl hi ⟨p, acc⟩ ⟨g1, g2, g3⟩
      dsimp only at g1 g2 g3
      obtain ⟨p', e, h⟩ := tuningProcess_exact g1 (hbl bl (List.mem_of_getElem? hi)) bl.1
      dsimp only
      rw [e, bind_ok]
      have hi' := (List.getElem?_eq_some_iff.mp hi).1
      have ht : blocks.take i ++ [(bl.1, bl.2)] = blocks.take (i + 1) := by
        rw [List.take_add_one, hi]
        rfl
      rw [ht] at h ⊢
      refine ⟨_, rfl, h, by simp [g2], ?_⟩
      intro k bl' hk hk'
      dsimp only
      have hsp : spectra fs bs params.rollon (blocks.take (i + 1)) ++ spectra fs bs params.rollon (blocks.drop (i + 1)) =
          spectra fs bs params.rollon blocks := by
        unfold spectra
        rw [← List.map_append, List.take_append_drop]
      rw [getElem?_snoc g2]
      by_cases hki : k = i
      · subst hki
        rw [hi] at hk'
        cases hk'
        rw [if_pos rfl, List.length_take, min_eq_left hi'.le, ← hsp, localTuningAt_take _ _ (by simp [spectra]; omega)]
      · rw [if_neg hki]
        exact g3 k bl' (by omega) hk')
  rw [e1, bind_ok]
  rw [List.take_of_length_le le_rfl] at h1
  have hlast : s.1.logSpectrum.getLast? = blocks.getLast?.map
      (fun b => (b.1, (List.range 256).map (logSpec fs bs params.rollon b.2))) := by
    rw [h1.spec, getLast?_map']
  have hrest : tuningRemaining exactFns fixed1 zero s.1 = .ok ((blocks.getLast?.map (fun bl => ({
        timestamp := zero
        duration := bl.1
        value := 440 * (2 : ℝ) ^ (globalTuning (spectra fs bs params.rollon blocks) / 12)
        label := fixed1 (440 * (2 : ℝ) ^ (globalTuning (spectra fs bs params.rollon blocks) / 12)) ++ [' ', 'H', 'z'] } :
        Pitch ℝ T))).toList) := by
    unfold tuningRemaining
    rw [hlast]
    cases hg : blocks.getLast? with
    | none => rfl
    | some bl =>
      simp only [Option.map_some, Option.toList_some]
      rw [cumulativeTuning_exact h1, bind_ok]
      unfold pitchLabel
      have h5 : (fixed1 (440 * (2 : ℝ) ^ (globalTuning (spectra fs bs params.rollon blocks) / 12))).length ≤ 5 := by
        apply hfix _ (by positivity)
        have h6 : globalTuning (spectra fs bs params.rollon blocks) / 12 ≤ 1 := by
          have : globalTuning (spectra fs bs params.rollon blocks) ≤ 1 / 2 := (angle_bounds _).2
          linarith
        have h7 : (2 : ℝ) ^ (globalTuning (spectra fs bs params.rollon blocks) / 12) ≤ 2 ^ (1 : ℝ) :=
          Real.rpow_le_rpow_of_exponent_le (by norm_num) h6
        rw [Real.rpow_one] at h7
        linarith
      dsimp only
      rw [if_pos (by rw [List.length_append]; simp; omega), bind_ok]
      rfl
  rw [hrest, bind_ok]
  exact ⟨_, rfl, h2, fun k bl hk => h3 k bl (List.getElem?_eq_some_iff.mp hk).1 hk, rfl⟩

/-! ### C91: the concert pitch -/

/-- The frequency of the MIDI pitch `m` when A, pitch 69, is at `c` Hz. -/
noncomputable def pitchFreq (c m : ℝ) : ℝ := c * (2 : ℝ) ^ ((m - 69) / 12)

/-- The place of a frequency on the scale of log-frequency bins: three to the semitone, bin 0 is MIDI pitch 20. -/
noncomputable def binOf (x : ℝ) : ℝ := 3 * (midi x - 20)

theorem binOf_pitch (τ l : ℝ) : binOf (pitchFreq (440 * (2 : ℝ) ^ (τ / 12)) (20 + l / 3)) = l + 3 * τ := by
  unfold binOf midi pitchFreq
  rw [mul_assoc, ← Real.rpow_add (by norm_num), mul_div_cancel_left₀ _ (by norm_num), Real.logb_rpow (by norm_num) (by norm_num)]
  ring

/-- What the tuning plug-in returns: one local tuning for every block with its time, and - unless there was no block -
one tuning for the whole at time zero that lasts until the last block and is labelled with its value in Hz. -/
theorem C91_outputs {fs : Int} (hfs : 0 < fs) {bs : Nat} (hb : 4 ≤ bs) (params : Params ℝ)
    {blocks : List (T × List ℝ)} (hbl : ∀ bl ∈ blocks, bs ≤ bl.2.length) {fixed1 : ℝ → Str}
    (hfix : ∀ x, 0 ≤ x → x < 1000 → (fixed1 x).length ≤ 5) (zero : T) :
    ∃ out, runTuning exactFns fixed1 zero fs bs params blocks = .ok (some out) ∧
      out.1.map Prod.fst = blocks.map Prod.fst ∧ (blocks = [] → out.2 = []) ∧
      ∀ bl, blocks.getLast? = some bl → ∃ q, out.2 = [q] ∧ q.timestamp = zero ∧ q.duration = bl.1 ∧
        q.label = fixed1 q.value ++ [' ', 'H', 'z'] := by
  obtain ⟨out, e, h1, h2, h3⟩ := runTuning_exact hfs hb params hbl hfix zero
  refine ⟨out, e, ?_, ?_, ?_⟩
  · apply List.ext_getElem?
    intro k
    rw [List.getElem?_map, List.getElem?_map]
    cases hk : blocks[k]? with
    | none =>
      rw [List.getElem?_eq_none_iff] at hk
      rw [List.getElem?_eq_none (by omega)]
      rfl
    | some bl =>
      rw [h2 k bl hk]
      rfl
  · rintro rfl
    exact h3
  · intro bl hbl'
    rw [h3, hbl']
    exact ⟨_, rfl, rfl, rfl, rfl⟩

/-- The tuning plug-in reports the concert pitch to which the chroma plug-in tunes: with the pitch `c` reported for
the whole recording - or, with local tuning, for the block - the chroma plug-in reads every bin at the frequency its
MIDI pitch has at concert pitch `c`. -/
theorem C91_same_tuning {fs : Int} (hfs : 0 < fs) {bs : Nat} (hb : 4 ≤ bs) (params : Params ℝ)
    {blocks : List (T × List ℝ)} (hbl : ∀ bl ∈ blocks, bs ≤ bl.2.length) {fixed1 : ℝ → Str}
    (hfix : ∀ x, 0 ≤ x → x < 1000 → (fixed1 x).length ≤ 5) (zero : T) (junk : Nat → Nnls.St ℝ) :
    ∃ out f, runTuning exactFns fixed1 zero fs bs params blocks = .ok (some out) ∧
      runAll exactFns fs bs params blocks junk = .ok (some f) ∧
      ∀ (k : Nat) (bl : T × List ℝ), blocks[k]? = some bl → ∃ (c : ℝ) (v : List ℝ),
        (params.tuneLocal = true → out.1[k]? = some (bl.1, c)) ∧
        (params.tuneLocal = false → ∀ q ∈ out.2, q.value = c) ∧
        f.tunedlogfreqspec[k]? = some (bl.1, v) ∧
        ∀ l, l < 256 → v.getD l 0 = whitened params.whitening (fun l : Nat => if 2 ≤ l ∧ l < 253 then
          lerp (logSpec fs bs params.rollon bl.2) (binOf (pitchFreq c (20 + (l : ℝ) / 3))) else 0) l := by
  obtain ⟨out, e, h1, h2, h3⟩ := runTuning_exact hfs hb params hbl hfix zero
  obtain ⟨f, e', -, h⟩ := C74_tuned_spectrum hfs hb params hbl junk
  refine ⟨out, f, e, e', ?_⟩
  intro k bl hk
  obtain ⟨bl', v, b1, v1, -, v3⟩ := h k (List.getElem?_eq_some_iff.mp hk).1
  rw [hk] at b1
  cases b1
  refine ⟨440 * (2 : ℝ) ^ (tuningAt params.tuneLocal (spectra fs bs params.rollon blocks) k / 12), v, ?_, ?_, v1, ?_⟩
  · intro hl
    rw [h2 k bl hk]
    unfold tuningAt
    rw [if_pos hl]
  · intro hl q hq
    rw [h3] at hq
    cases hg : blocks.getLast? with
    | none =>
      rw [hg] at hq
      simp at hq
    | some b =>
      rw [hg] at hq
      simp only [Option.map_some, Option.toList_some, List.mem_singleton] at hq
      rw [hq]
      unfold tuningAt
      rw [if_neg (by rw [hl]; exact Bool.false_ne_true)]
  · intro l hl
    rw [v3 l hl]
    have hs : shifted (tuningAt params.tuneLocal (spectra fs bs params.rollon blocks) k)
        (logSpec fs bs params.rollon bl.2) = (fun l : Nat => if 2 ≤ l ∧ l < 253 then
          lerp (logSpec fs bs params.rollon bl.2) (binOf (pitchFreq (440 * (2 : ℝ) ^
            (tuningAt params.tuneLocal (spectra fs bs params.rollon blocks) k / 12)) (20 + (l : ℝ) / 3))) else 0) := by
      funext m
      unfold shifted
      rw [binOf_pitch]
    rw [hs]

/-- Two blocks of a tone of 440 Hz, for example. -/
example (junk : Nat → Nnls.St ℝ) :
    ∃ out f, runTuning exactFns (fun _ => "440.0".toList) (0 : Nat) 1000 1000 (Params.default exactFns)
        [(1, toneA 100), (2, toneA 300)] = .ok (some out) ∧
      runAll exactFns 1000 1000 (Params.default exactFns) [(1, toneA 100), (2, toneA 300)] junk = .ok (some f) ∧
      f.tunedlogfreqspec.length = 2 ∧ out.1.length = 2 ∧ out.2.length = 1 := by
  have hbl : ∀ bl ∈ [((1 : Nat), toneA 100), (2, toneA 300)], 1000 ≤ bl.2.length := by
    intro bl h
    simp only [List.mem_cons, List.not_mem_nil, or_false] at h
    rcases h with rfl | rfl
    · exact (toneA_length 100).ge
    · exact (toneA_length 300).ge
  obtain ⟨out, f, e, e', -⟩ := C91_same_tuning (fs := 1000) (by norm_num) (bs := 1000) (by norm_num)
    (Params.default exactFns) hbl (fixed1 := fun _ => "440.0".toList) (fun _ _ _ => by decide) 0 junk
  obtain ⟨out', g, h1, -, h2⟩ := C91_outputs (fs := 1000) (by norm_num) (bs := 1000) (by norm_num)
    (Params.default exactFns) hbl (fixed1 := fun _ => "440.0".toList) (fun _ _ _ => by decide) 0
  obtain ⟨f', g', h3, -⟩ := C74_tuned_spectrum (fs := 1000) (by norm_num) (bs := 1000) (by norm_num)
    (Params.default exactFns) hbl junk
  have o : out = out' := Option.some.inj (ok_inj (e.symm.trans g))
  have o' : f = f' := Option.some.inj (ok_inj (e'.symm.trans g'))
  obtain ⟨q, hq, -⟩ := h2 _ rfl
  refine ⟨out, f, e, e', ?_, ?_, ?_⟩
  · rw [o', h3]
    rfl
  · rw [o]
    simpa using congrArg List.length h1
  · rw [o, hq]
    rfl

/-- All the numbers a run reports. -/
def reported (out : List (T × ℝ) × List (Pitch ℝ T)) : List ℝ := out.1.map Prod.snd ++ out.2.map Pitch.value

theorem reported_angle {fs : Int} (hfs : 0 < fs) {bs : Nat} (hb : 4 ≤ bs) (params : Params ℝ)
    {blocks : List (T × List ℝ)} (hbl : ∀ bl ∈ blocks, bs ≤ bl.2.length) {fixed1 : ℝ → Str}
    (hfix : ∀ x, 0 ≤ x → x < 1000 → (fixed1 x).length ≤ 5) (zero : T) :
    ∃ out, runTuning exactFns fixed1 zero fs bs params blocks = .ok (some out) ∧ ∀ x ∈ reported out,
      ∃ b k, x = 440 * (2 : ℝ) ^ (tuningAt b (spectra fs bs params.rollon blocks) k / 12) := by
  obtain ⟨out, e, h1, h2, h3⟩ := runTuning_exact hfs hb params hbl hfix zero
  refine ⟨out, e, ?_⟩
  intro x hx
  unfold reported at hx
  rw [List.mem_append] at hx
  rcases hx with hx | hx
  · obtain ⟨y, hy, rfl⟩ := List.mem_map.mp hx
    obtain ⟨k, hk⟩ := List.mem_iff_getElem?.mp hy
    have hk' : k < blocks.length := by
      have := (List.getElem?_eq_some_iff.mp hk).1
      omega
    have := h2 k _ (List.getElem?_eq_getElem hk')
    rw [hk] at this
    cases this
    exact ⟨true, k, rfl⟩
  · obtain ⟨y, hy, rfl⟩ := List.mem_map.mp hx
    rw [h3] at hy
    cases hg : blocks.getLast? with
    | none =>
      rw [hg] at hy
      simp at hy
    | some b =>
      rw [hg] at hy
      simp only [Option.map_some, Option.toList_some, List.mem_singleton] at hy
      rw [hy]
      exact ⟨false, 0, rfl⟩

theorem pow_tuning_lower {y : ℝ} (hy : -(1 / 24) ≤ y) : (427.47 : ℝ) ≤ 440 * (2 : ℝ) ^ y := by
  have h1 : (2 : ℝ) ^ (-(1 / 24) : ℝ) ≤ (2 : ℝ) ^ y := Real.rpow_le_rpow_of_exponent_le (by norm_num) hy
  have h2 : (427.47 / 440 : ℝ) ≤ (2 : ℝ) ^ (-(1 / 24) : ℝ) := by
    apply le_of_pow_le_pow_left₀ (n := 24) (by norm_num) (by positivity)
    rw [← Real.rpow_natCast ((2 : ℝ) ^ (-(1 / 24) : ℝ)), ← Real.rpow_mul (by norm_num)]
    norm_num
  have h3 := h2.trans h1
  rw [div_le_iff₀ (by norm_num)] at h3
  linarith

theorem pow_tuning_upper {y : ℝ} (hy : y ≤ 1 / 24) : 440 * (2 : ℝ) ^ y ≤ 452.894 := by
  have h1 : (2 : ℝ) ^ y ≤ (2 : ℝ) ^ (1 / 24 : ℝ) := Real.rpow_le_rpow_of_exponent_le (by norm_num) hy
  have h2 : (2 : ℝ) ^ (1 / 24 : ℝ) ≤ (452.894 / 440 : ℝ) := by
    apply le_of_pow_le_pow_left₀ (n := 24) (by norm_num) (by norm_num)
    rw [← Real.rpow_natCast ((2 : ℝ) ^ (1 / 24 : ℝ)), ← Real.rpow_mul (by norm_num)]
    norm_num
  have h3 := h1.trans h2
  rw [le_div_iff₀ (by norm_num)] at h3
  linarith

theorem pow_tuning_top : 452.89 < 440 * (2 : ℝ) ^ ((1 / 2 : ℝ) / 12) := by
  have h2 : (452.89 / 440 : ℝ) < (2 : ℝ) ^ ((1 / 2 : ℝ) / 12) := by
    apply lt_of_pow_lt_pow_left₀ 24 (by positivity)
    rw [← Real.rpow_natCast ((2 : ℝ) ^ ((1 / 2 : ℝ) / 12)), ← Real.rpow_mul (by norm_num)]
    norm_num
  rw [div_lt_iff₀ (by norm_num)] at h2
  linarith

/-- Every number reported lies within a quarter tone of 440 Hz: not below the announced 427.47 Hz and not above
452.894 Hz.  What is missing: the announced upper limit is 452.89 Hz. -/
theorem C91_range_partial {fs : Int} (hfs : 0 < fs) {bs : Nat} (hb : 4 ≤ bs) (params : Params ℝ)
    {blocks : List (T × List ℝ)} (hbl : ∀ bl ∈ blocks, bs ≤ bl.2.length) {fixed1 : ℝ → Str}
    (hfix : ∀ x, 0 ≤ x → x < 1000 → (fixed1 x).length ≤ 5) (zero : T) :
    ∃ out, runTuning exactFns fixed1 zero fs bs params blocks = .ok (some out) ∧
      ∀ x ∈ reported out, 427.47 ≤ x ∧ x ≤ 452.894 := by
  obtain ⟨out, e, h⟩ := reported_angle hfs hb params hbl hfix zero
  refine ⟨out, e, ?_⟩
  intro x hx
  obtain ⟨b, k, rfl⟩ := h x hx
  have hbd : -(1 / 2) < tuningAt b (spectra fs bs params.rollon blocks) k ∧
      tuningAt b (spectra fs bs params.rollon blocks) k ≤ 1 / 2 := by
    unfold tuningAt localTuningAt globalTuning
    split_ifs
    · exact angle_bounds _
    · exact angle_bounds _
  exact ⟨pow_tuning_lower (by linarith [hbd.1]), pow_tuning_upper (by linarith [hbd.2])⟩

/-- A recording in which no block rises above the threshold of silence is reported at 440 Hz throughout. -/
theorem C91_silence {fs : Int} (hfs : 0 < fs) {bs : Nat} (hb : 4 ≤ bs) (params : Params ℝ)
    {blocks : List (T × List ℝ)} (hbl : ∀ bl ∈ blocks, bs ≤ bl.2.length) {fixed1 : ℝ → Str}
    (hfix : ∀ x, 0 ≤ x → x < 1000 → (fixed1 x).length ≤ 5) (zero : T)
    (hq : ∀ bl ∈ blocks, ∀ n, n < bs / 2 → Real.sqrt (bl.2.getD (2 * n) 0 ^ 2 + bl.2.getD (2 * n + 1) 0 ^ 2) < 2) :
    ∃ out, runTuning exactFns fixed1 zero fs bs params blocks = .ok (some out) ∧ ∀ x ∈ reported out, x = 440 := by
  obtain ⟨out, e, h⟩ := reported_angle hfs hb params hbl hfix zero
  refine ⟨out, e, ?_⟩
  intro x hx
  obtain ⟨b, k, rfl⟩ := h x hx
  have hz : ∀ L ∈ spectra fs bs params.rollon blocks, L = fun _ => 0 := by
    intro L hL
    obtain ⟨bl, hb', rfl⟩ := List.mem_map.mp hL
    have hloud : ¬ Loud bs bl.2 := by
      rintro ⟨n, hn, h2⟩
      exact absurd (h2.trans (min_le_right _ _)) (not_le.mpr (hq bl hb' n hn))
    funext l
    unfold logSpec audible
    simp only [if_neg hloud, zero_mul, sum_const_zero]
  have ha : angle (fun _ => 0) = 0 := by
    unfold angle
    simp only [zero_mul, sum_const_zero]
    have : (⟨0, 0⟩ : ℂ) = 0 := rfl
    rw [this, Complex.arg_zero, zero_div]
  have ht : tuningAt b (spectra fs bs params.rollon blocks) k = 0 := by
    unfold tuningAt
    split_ifs
    · unfold localTuningAt
      rw [← ha]
      apply angle_congr
      intro i _
      unfold smoothed
      have : ∀ Ls : List (Nat → ℝ), (∀ L ∈ Ls, L = fun _ => 0) →
          Ls.foldl (fun x L => (List.range 54).foldl (fun x t => x * 0.997 + L (3 * t + i) * 0.003) x) 0 = 0 := by
        intro Ls hLs
        induction Ls with
        | nil => rfl
        | cons L Ls ih =>
          rw [List.foldl_cons, hLs L (by simp)]
          have h0 : (List.range 54).foldl (fun x _ => x * (0.997 : ℝ) + 0 * 0.003) (0 : ℝ) = 0 := by
            have : ∀ l : List Nat, l.foldl (fun x _ => x * (0.997 : ℝ) + 0 * 0.003) (0 : ℝ) = 0 := by
              intro l
              induction l with
              | nil => rfl
              | cons a l ih => rw [List.foldl_cons, show (0 : ℝ) * 0.997 + 0 * 0.003 = 0 by norm_num, ih]
            exact this _
          rw [h0]
          exact ih (fun L hL => hLs L (by simp [hL]))
      exact this _ (fun L hL => hz L (List.mem_of_mem_take hL))
    · unfold globalTuning
      rw [← ha]
      apply angle_congr
      intro i _
      rw [List.map_congr_left (g := fun _ => (0 : ℝ)) (fun L hL => by rw [hz L hL]; simp [third])]
      simp
  rw [ht, zero_div, Real.rpow_zero, mul_one]

/-- Digital silence, for example. -/
example : ∃ out, runTuning exactFns (fun _ => "440.0".toList) (0 : Nat) 8000 4 (Params.default exactFns)
    [(1, [0, 0, 0, 0, 0, 0])] = .ok (some out) ∧ ∀ x ∈ reported out, x = 440 :=
  C91_silence (by norm_num) (by norm_num) _ (by simp) (fun _ _ _ => by decide) 0 (by
    intro bl hbl n hn
    rw [List.mem_singleton] at hbl
    subst hbl
    have : n = 0 ∨ n = 1 := by omega
    rcases this with rfl | rfl <;> norm_num)

/-- In exact arithmetic, unless something is limited or falls silent, the level of a recording does not matter. -/
theorem C91_level {c : ℝ} (hc : 0 < c) {fs : Int} (hfs : 0 < fs) {bs : Nat} (hb : 4 ≤ bs) (params : Params ℝ)
    {blocks : List (T × List ℝ)} (hbl : ∀ bl ∈ blocks, bs ≤ bl.2.length) (h : ∀ bl ∈ blocks, Fits c bs bl.2)
    {fixed1 : ℝ → Str} (hfix : ∀ x, 0 ≤ x → x < 1000 → (fixed1 x).length ≤ 5) (zero : T) :
    runTuning exactFns fixed1 zero fs bs params (louderAll c blocks) =
      runTuning exactFns fixed1 zero fs bs params blocks := by
  obtain ⟨out, e, h1, h2, h3⟩ := runTuning_exact hfs hb params hbl hfix zero
  obtain ⟨out', e', h1', h2', h3'⟩ := runTuning_exact hfs hb params (blocks := louderAll c blocks) (by
    intro bl hbm
    obtain ⟨bl', hb', rfl⟩ := List.mem_map.mp hbm
    simpa using hbl bl' hb') hfix zero
  have hsp := spectra_louder hc h fs params.rollon
  have hg : globalTuning (spectra fs bs params.rollon (louderAll c blocks)) =
      globalTuning (spectra fs bs params.rollon blocks) := by
    rw [hsp]
    exact tuningAt_scale hc false _ 0
  have hl : ∀ k, localTuningAt (spectra fs bs params.rollon (louderAll c blocks)) k =
      localTuningAt (spectra fs bs params.rollon blocks) k := by
    intro k
    rw [hsp]
    exact tuningAt_scale hc true _ k
  rw [e, e']
  have o2 : out'.2 = out.2 := by
    rw [h3, h3', hg]
    unfold louderAll
    rw [getLast?_map', Option.map_map]
    rfl
  have o1 : out'.1 = out.1 := by
    apply List.ext_getElem?
    intro k
    cases hk : blocks[k]? with
    | none =>
      rw [List.getElem?_eq_none_iff] at hk
      have : (louderAll c blocks).length = blocks.length := by simp [louderAll]
      rw [List.getElem?_eq_none (by omega), List.getElem?_eq_none (by omega)]
    | some bl =>
      rw [h2 k bl hk, h2' k (bl.1, louder c bl.2) (by
        unfold louderAll
        rw [List.getElem?_map, hk]
        rfl), hl]
  rw [Prod.ext o1 o2]

/-- A tone three times as loud, for example. -/
example : runTuning exactFns (fun _ => "440.0".toList) (0 : Nat) 1000 1000 (Params.default exactFns)
      (louderAll 3 [(1, toneA 100)]) =
    runTuning exactFns (fun _ => "440.0".toList) 0 1000 1000 (Params.default exactFns) [(1, toneA 100)] :=
  C91_level (by norm_num) (by norm_num) (by norm_num) _ (by
    intro bl hbl
    rw [List.mem_singleton] at hbl
    subst hbl
    exact (toneA_length 100).ge) (by
    intro bl hbl
    rw [List.mem_singleton] at hbl
    subst hbl
    exact toneA_fits (by norm_num) (by norm_num) (by norm_num) (by norm_num)) (fun _ _ _ => by decide) 0

/-- Of two recordings, let the second have in the bins of each of the three classes, up to a common factor, what the
first has a third of a semitone lower.  Then the pitch reported for the whole is higher by a third of a semitone.  The
original is to be at most a sixth of a semitone sharp and to have a preference among the three classes of bins. -/
theorem C91_sharper {fs : Int} (hfs : 0 < fs) {bs : Nat} (hb : 4 ≤ bs) (params : Params ℝ)
    {blocks blocks' : List (T × List ℝ)} (hbl : ∀ bl ∈ blocks, bs ≤ bl.2.length)
    (hbl' : ∀ bl ∈ blocks', bs ≤ bl.2.length) {c : ℝ} (hc : 0 < c)
    (h0 : share fs bs params.rollon blocks' 0 = c * share fs bs params.rollon blocks 2)
    (h1 : share fs bs params.rollon blocks' 1 = c * share fs bs params.rollon blocks 0)
    (h2 : share fs bs params.rollon blocks' 2 = c * share fs bs params.rollon blocks 1)
    (hne : ¬ (share fs bs params.rollon blocks 0 = share fs bs params.rollon blocks 1 ∧
      share fs bs params.rollon blocks 1 = share fs bs params.rollon blocks 2))
    {fixed1 : ℝ → Str} (hfix : ∀ x, 0 ≤ x → x < 1000 → (fixed1 x).length ≤ 5) (zero : T) :
    ∃ out out', runTuning exactFns fixed1 zero fs bs params blocks = .ok (some out) ∧
      runTuning exactFns fixed1 zero fs bs params blocks' = .ok (some out') ∧
      ∀ q ∈ out.2, q.value ≤ 440 * (2 : ℝ) ^ (1 / 72 : ℝ) → ∀ q' ∈ out'.2,
        q'.value = q.value * (2 : ℝ) ^ (1 / 36 : ℝ) := by
  obtain ⟨out, e, -, -, h3⟩ := runTuning_exact hfs hb params hbl hfix zero
  obtain ⟨out', e', -, -, h3'⟩ := runTuning_exact hfs hb params hbl' hfix zero
  refine ⟨out, out', e, e', ?_⟩
  intro q hq hle q' hq'
  rw [h3] at hq
  rw [h3'] at hq'
  have n1 : blocks ≠ [] := by
    rintro rfl
    simp at hq
  have n2 : blocks' ≠ [] := by
    rintro rfl
    simp at hq'
  rw [List.getLast?_eq_some_getLast n1] at hq
  rw [List.getLast?_eq_some_getLast n2] at hq'
  simp only [Option.map_some, Option.toList_some, List.mem_singleton] at hq hq'
  rw [hq] at hle ⊢
  rw [hq']
  dsimp only at hle ⊢
  have hle' := le_of_mul_le_mul_left hle (by norm_num)
  rw [Real.rpow_le_rpow_left_iff (by norm_num)] at hle'
  rw [globalTuning_share _ _ _ n1] at hle'
  have hsc : angle (fun i => c * share fs bs params.rollon blocks i) = angle (share fs bs params.rollon blocks) :=
    angle_scale hc _
  have key := angle_turn (x := fun i => c * share fs bs params.rollon blocks i)
    (y := share fs bs params.rollon blocks') h0 h1 h2 (by
      rintro ⟨g1, g2⟩
      exact hne ⟨mul_left_cancel₀ hc.ne' g1, mul_left_cancel₀ hc.ne' g2⟩) (by rw [hsc]; linarith)
  rw [globalTuning_share _ _ _ n1, globalTuning_share _ _ _ n2, key, hsc, add_div, Real.rpow_add (by norm_num), mul_assoc]
  norm_num

/-! ### Two tones a quarter tone off -/

theorem midi_ge {x : ℝ} {n : Nat} (hn : 0 < n) (hx : 0 < x) (h : 2 ≤ (x / 440) ^ n) : 69 + 12 / (n : ℝ) ≤ midi x := by
  have hn' : (0 : ℝ) < n := by exact_mod_cast hn
  have h1 : (1 : ℝ) ≤ n * Real.logb 2 (x / 440) := by
    rw [← Real.logb_pow, ← Real.logb_self_eq_one (b := 2) (by norm_num)]
    exact Real.logb_le_logb_of_le (by norm_num) (by norm_num) h
  unfold midi
  have : (12 : ℝ) / n ≤ 12 * Real.logb 2 (x / 440) := by
    rw [div_le_iff₀ hn']
    linarith
  linarith

theorem midi_le {x : ℝ} {n : Nat} (hn : 0 < n) (hx : 0 < x) (h : (x / 440) ^ n ≤ 2) : midi x ≤ 69 + 12 / (n : ℝ) := by
  have hn' : (0 : ℝ) < n := by exact_mod_cast hn
  have h1 : n * Real.logb 2 (x / 440) ≤ (1 : ℝ) := by
    rw [← Real.logb_pow, ← Real.logb_self_eq_one (b := 2) (by norm_num)]
    exact Real.logb_le_logb_of_le (by norm_num) (by positivity) h
  unfold midi
  have : 12 * Real.logb 2 (x / 440) ≤ (12 : ℝ) / n := by
    rw [le_div_iff₀ hn']
    linarith
  linarith

theorem midi_mono {x y : ℝ} (hx : 0 < x) (h : x ≤ y) : midi x ≤ midi y := by
  unfold midi
  have := Real.logb_le_logb_of_le (b := 2) (by norm_num) (show (0 : ℝ) < x / 440 by positivity)
    (div_le_div_of_nonneg_right h (by norm_num))
  linarith

theorem bump_strict {y z : ℝ} (h : |y| < |z|) (h1 : |y| < 1) : bump z < bump y := by
  by_cases hz : |z| ≤ 1
  · unfold bump
    rw [if_pos hz, if_pos h1.le]
    have hp := Real.pi_pos
    have h1 : Real.cos (Real.pi * z) < Real.cos (Real.pi * y) := by
      rw [← Real.cos_abs (Real.pi * z), ← Real.cos_abs (Real.pi * y), abs_mul, abs_mul, abs_of_pos hp]
      apply Real.cos_lt_cos_of_nonneg_of_le_pi
      · positivity
      · nlinarith
      · exact mul_lt_mul_of_pos_left h hp
    linarith
  · rw [bump_far (le_of_not_ge hz)]
    exact bump_pos h1

theorem bins_mid : midi (binFreq 148) = 69 + 0.999999999996 / 3 ∧ midi (binFreq 149) = 69 + 0.999999999996 * 2 / 3 := by
  constructor
  · rw [midi_binFreq (by norm_num)]
    norm_num
  · rw [midi_binFreq (by norm_num)]
    norm_num

/-- Fourier bins about 450 and 455 are heard in the log-frequency bins 148 and 149 only. -/
theorem pair_zero {n : Nat} (hn : 450 ≤ n ∧ n ≤ 455) {l : Nat} (hl : l < 256) (h : l ≠ 148 ∧ l ≠ 149) :
    spread 1000 1000 n l = 0 := by
  by_contra hne
  have hpos := lt_of_le_of_ne (spread_nonneg 1000 1000 n l) (Ne.symm hne)
  obtain ⟨x, hx, h1, h2⟩ := spread_pos_near (by norm_num) (by norm_num) hpos
  norm_num at h1
  have h1' := abs_lt.mp h1
  have a1 : (450 : ℝ) ≤ n := by exact_mod_cast hn.1
  have a2 : (n : ℝ) ≤ 455 := by exact_mod_cast hn.2
  have m1 := (midi_ge (x := 449) (n := 35) (by norm_num) (by norm_num) (by norm_num)).trans
    (midi_mono (y := x) (by norm_num) (by linarith))
  have m2 := (midi_mono (y := 456) hx (by linarith)).trans
    (midi_le (x := 456) (n := 19) (by norm_num) (by norm_num) (by norm_num))
  have h4 := abs_lt.mp h2
  have h5 := abs_le.mp (midi_bin hl)
  norm_num at m1 m2 h5
  by_cases h6 : l < 148
  · have : (l : ℝ) ≤ 147 := by exact_mod_cast Nat.le_of_lt_succ h6
    linarith
  · have : (150 : ℝ) ≤ l := by exact_mod_cast (by omega : 150 ≤ l)
    linarith

theorem pair_range (n : Nat) {d : Nat} (hd : d < 160) :
    (n : ℝ) - 1 ≤ (n + (d : ℝ) / 80 - 1) * ((1000 : Int) / (1000 : Nat)) ∧
      (n + (d : ℝ) / 80 - 1) * ((1000 : Int) / (1000 : Nat)) ≤ (n : ℝ) + 1 := by
  have h1 : (0 : ℝ) ≤ d := Nat.cast_nonneg d
  have h2 : (d : ℝ) < 160 := by exact_mod_cast hd
  norm_num
  constructor <;> linarith

/-- If all of a Fourier bin is closer to one of two log-frequency bins, more of it goes there. -/
theorem pair_less {n : Nat} (hn : 2 ≤ n) {l m : Nat}
    (h : ∀ x : ℝ, (n : ℝ) - 1 ≤ x → x ≤ n + 1 → |midi x - midi (binFreq l)| < |midi x - midi (binFreq m)| ∧
      |midi x - midi (binFreq l)| < 1 / 3) : spread 1000 1000 n m < spread 1000 1000 n l := by
  have hn' : (2 : ℝ) ≤ n := by exact_mod_cast hn
  have key : ∀ x : ℝ, (n : ℝ) - 1 ≤ x → x ≤ n + 1 → pitchBump x m < pitchBump x l := by
    intro x h1 h2
    have hx : 0 < x := by linarith
    rw [pitchBump_midi hx, pitchBump_midi hx]
    have hl2 : 0 < Real.log 2 := Real.log_pos (by norm_num)
    apply div_lt_div_of_pos_right _ (by positivity)
    obtain ⟨h3, h4⟩ := h x h1 h2
    apply bump_strict
    · rw [abs_mul, abs_mul, abs_of_pos (by norm_num : (0 : ℝ) < 3)]
      linarith
    · rw [abs_mul, abs_of_pos (by norm_num : (0 : ℝ) < 3)]
      linarith
  unfold spread
  rw [if_neg (by omega), if_neg (by omega)]
  apply sum_lt_sum
  · intro d hd
    obtain ⟨h1, h2⟩ := pair_range n (mem_range.mp hd)
    exact mul_le_mul_of_nonneg_right (key _ h1 h2).le (bump_nonneg _)
  · refine ⟨80, mem_range.mpr (by omega), ?_⟩
    obtain ⟨h1, h2⟩ := pair_range n (d := 80) (by omega)
    apply mul_lt_mul_of_pos_right (key _ h1 h2)
    apply bump_pos
    norm_num

theorem pair_low : spread 1000 1000 450 149 < spread 1000 1000 450 148 := by
  apply pair_less (by norm_num)
  intro x h1 h2
  norm_num at h1 h2
  have m1 := (midi_ge (x := 449) (n := 35) (by norm_num) (by norm_num) (by norm_num)).trans
    (midi_mono (y := x) (by norm_num) h1)
  have m2 := (midi_mono (y := 451) (by linarith) h2).trans
    (midi_le (x := 451) (n := 28) (by norm_num) (by norm_num) (by norm_num))
  rw [bins_mid.1, bins_mid.2]
  norm_num at m1 m2
  rw [abs_of_nonneg (by linarith), abs_of_nonpos (by linarith)]
  constructor <;> linarith

theorem pair_high : spread 1000 1000 455 148 < spread 1000 1000 455 149 := by
  apply pair_less (by norm_num)
  intro x h1 h2
  norm_num at h1 h2
  have m1 := (midi_ge (x := 454) (n := 23) (by norm_num) (by norm_num) (by norm_num)).trans
    (midi_mono (y := x) (by norm_num) h1)
  have m2 := (midi_mono (y := 456) (by linarith) h2).trans
    (midi_le (x := 456) (n := 19) (by norm_num) (by norm_num) (by norm_num))
  rw [bins_mid.1, bins_mid.2]
  norm_num at m1 m2
  rw [abs_of_nonpos (by linarith), abs_of_nonneg (by linarith)]
  constructor <;> linarith

/-- The spectrum of two tones of `n1` and `n2` Hz at 1000 samples a second in blocks of 1000. -/
noncomputable def tonePair (n1 n2 : Nat) (a b : ℝ) : List ℝ :=
  (List.range 1000).map (fun i => if i = 2 * n1 then a else if i = 2 * n2 then b else 0)

theorem tonePair_length (n1 n2 : Nat) (a b : ℝ) : (tonePair n1 n2 a b).length = 1000 := by
  unfold tonePair
  rw [List.length_map, List.length_range]

theorem tonePair_get {n1 n2 : Nat} (hn1 : n1 < 500) (hn2 : n2 < 500) (a b : ℝ) (i : Nat) :
    (tonePair n1 n2 a b).getD i 0 = if i = 2 * n1 then a else if i = 2 * n2 then b else 0 := by
  unfold tonePair
  rw [List.getD_eq_getElem?_getD, List.getElem?_map]
  by_cases h : i < 1000
  · rw [List.getElem?_range h]
    rfl
  · rw [List.getElem?_eq_none (by rw [List.length_range]; omega), if_neg (by omega), if_neg (by omega)]
    rfl

theorem tonePair_magn {n1 n2 : Nat} (hn1 : n1 < 500) (hn2 : n2 < 500) {a b : ℝ} (ha : 0 ≤ a) (ha' : a ≤ 1000)
    (hb : 0 ≤ b) (hb' : b ≤ 1000) (n : Nat) :
    magn 1000 (tonePair n1 n2 a b) n = if n = n1 then a else if n = n2 then b else 0 := by
  unfold magn
  rw [tonePair_get hn1 hn2, tonePair_get hn1 hn2, if_neg (show ¬ 2 * n + 1 = 2 * n1 by omega),
    if_neg (show ¬ 2 * n + 1 = 2 * n2 by omega), zero_pow (by norm_num), add_zero]
  by_cases h : n = n1
  · rw [if_pos (by omega), if_pos h, Real.sqrt_sq ha]
    exact min_eq_right (by exact_mod_cast ha')
  · rw [if_neg (by omega), if_neg h]
    by_cases h' : n = n2
    · rw [if_pos (by omega), if_pos h', Real.sqrt_sq hb]
      exact min_eq_right (by exact_mod_cast hb')
    · rw [if_neg (by omega), if_neg h']
      norm_num

theorem tonePair_logSpec {n1 n2 : Nat} (hn : n1 < n2) (hn2 : n2 < 500) {a b : ℝ} (ha : 0 ≤ a) (ha' : a ≤ 1000)
    (hb : 0 ≤ b) (hb' : b ≤ 1000) (h2 : 2 ≤ a ∨ 2 ≤ b) (l : Nat) :
    logSpec 1000 1000 0 (tonePair n1 n2 a b) l = a * spread 1000 1000 n1 l + b * spread 1000 1000 n2 l := by
  have hm := tonePair_magn (show n1 < 500 by omega) hn2 ha ha' hb hb'
  have hloud : Loud 1000 (tonePair n1 n2 a b) := by
    rcases h2 with h2 | h2
    · exact ⟨n1, by omega, by rw [hm, if_pos rfl]; exact h2⟩
    · exact ⟨n2, by omega, by rw [hm, if_neg (by omega), if_pos rfl]; exact h2⟩
  unfold logSpec
  rw [← sum_subset (s₁ := {n1, n2})]
  · rw [sum_pair (by omega)]
    unfold audible rolled
    rw [if_pos hloud, if_neg (by norm_num), if_pos hloud, if_neg (by norm_num), hm, hm, if_pos rfl, if_neg (by omega),
      if_pos rfl]
  · intro n hn
    simp only [mem_insert, mem_singleton] at hn
    exact mem_range.mpr (by omega)
  · intro n _ hn
    simp only [mem_insert, mem_singleton, not_or] at hn
    unfold audible rolled
    rw [if_pos hloud, if_neg (by norm_num), hm, if_neg hn.1, if_neg hn.2, zero_mul]

/-- Two tones between two log-frequency bins, the one nearer to the lower, the other to the upper, can be mixed so that
both bins get the same. -/
theorem pair_level {q n1 n2 : Nat} (hn : n1 < n2) (hn2 : n2 < 500)
    (z1 : ∀ l, l < 256 → l ≠ q ∧ l ≠ q + 1 → spread 1000 1000 n1 l = 0)
    (z2 : ∀ l, l < 256 → l ≠ q ∧ l ≠ q + 1 → spread 1000 1000 n2 l = 0)
    (hl : spread 1000 1000 n1 (q + 1) < spread 1000 1000 n1 q)
    (hh : spread 1000 1000 n2 q < spread 1000 1000 n2 (q + 1)) :
    ∃ (a b v : ℝ), 0 ≤ a ∧ a ≤ 1000 ∧ 0 ≤ b ∧ b ≤ 1000 ∧ 0 < v ∧
      ∀ l, l < 256 → logSpec 1000 1000 0 (tonePair n1 n2 a b) l = if l = q ∨ l = q + 1 then v else 0 := by
  have p1 := spread_nonneg 1000 1000 n1 (q + 1)
  have p2 := spread_nonneg 1000 1000 n2 q
  generalize hs1 : spread 1000 1000 n1 q = s1 at *
  generalize hs2 : spread 1000 1000 n1 (q + 1) = s2 at *
  generalize hu1 : spread 1000 1000 n2 q = u1 at *
  generalize hu2 : spread 1000 1000 n2 (q + 1) = u2 at *
  have hd : 0 < (u2 - u1) + (s1 - s2) := by linarith
  have ha : 0 ≤ 1000 * (u2 - u1) / ((u2 - u1) + (s1 - s2)) := div_nonneg (by linarith) hd.le
  have ha' : 1000 * (u2 - u1) / ((u2 - u1) + (s1 - s2)) ≤ 1000 := by
    rw [div_le_iff₀ hd]
    linarith
  have hb : 0 ≤ 1000 * (s1 - s2) / ((u2 - u1) + (s1 - s2)) := div_nonneg (by linarith) hd.le
  have hb' : 1000 * (s1 - s2) / ((u2 - u1) + (s1 - s2)) ≤ 1000 := by
    rw [div_le_iff₀ hd]
    linarith
  have h2 : 2 ≤ 1000 * (u2 - u1) / ((u2 - u1) + (s1 - s2)) ∨ 2 ≤ 1000 * (s1 - s2) / ((u2 - u1) + (s1 - s2)) := by
    rw [le_div_iff₀ hd, le_div_iff₀ hd]
    by_cases h : s1 - s2 ≤ u2 - u1
    · left
      linarith
    · right
      linarith
  have hb0 : 0 < 1000 * (s1 - s2) / ((u2 - u1) + (s1 - s2)) := div_pos (by linarith) hd
  have heq : 1000 * (u2 - u1) / ((u2 - u1) + (s1 - s2)) * s1 + 1000 * (s1 - s2) / ((u2 - u1) + (s1 - s2)) * u1 =
      1000 * (u2 - u1) / ((u2 - u1) + (s1 - s2)) * s2 + 1000 * (s1 - s2) / ((u2 - u1) + (s1 - s2)) * u2 := by
    field_simp
    ring
  generalize 1000 * (u2 - u1) / ((u2 - u1) + (s1 - s2)) = a at *
  generalize 1000 * (s1 - s2) / ((u2 - u1) + (s1 - s2)) = b at *
  refine ⟨a, b, a * s2 + b * u2, ha, ha', hb, hb', ?_, ?_⟩
  · have : 0 < b * u2 := mul_pos hb0 (by linarith)
    have : 0 ≤ a * s2 := mul_nonneg ha p1
    linarith
  · intro l hl
    rw [tonePair_logSpec hn hn2 ha ha' hb hb' h2]
    by_cases h1 : l = q
    · rw [if_pos (Or.inl h1), h1, hs1, hu1, heq]
    · by_cases h2 : l = q + 1
      · rw [if_pos (Or.inr h2), h2, hs2, hu2]
      · rw [if_neg (by omega), z1 l hl ⟨h1, h2⟩, z2 l hl ⟨h1, h2⟩, mul_zero, mul_zero, add_zero]

theorem third_pair {f : Nat → ℝ} {q : Nat} (hq : q < 160) {v : ℝ}
    (h : ∀ l, l < 256 → f l = if l = q ∨ l = q + 1 then v else 0) (i : Nat) (hi : i < 3) :
    third f i = if i = q % 3 ∨ i = (q + 1) % 3 then v else 0 := by
  unfold third
  by_cases h1 : i = q % 3
  · rw [if_pos (Or.inl h1), sum_eq_single (q / 3)]
    · rw [h _ (by omega), if_pos (by omega)]
    · intro t ht hne
      have := mem_range.mp ht
      rw [h _ (by omega), if_neg (by omega)]
    · intro h'
      exact absurd (mem_range.mpr (by omega)) h'
  · by_cases h2 : i = (q + 1) % 3
    · rw [if_pos (Or.inr h2), sum_eq_single ((q + 1) / 3)]
      · rw [h _ (by omega), if_pos (by omega)]
      · intro t ht hne
        have := mem_range.mp ht
        rw [h _ (by omega), if_neg (by omega)]
      · intro h'
        exact absurd (mem_range.mpr (by omega)) h'
    · rw [if_neg (by omega)]
      apply sum_eq_zero
      intro t ht
      have := mem_range.mp ht
      rw [h _ (by omega), if_neg (by omega)]

theorem share_pair {v : List ℝ} {q : Nat} (hq : q < 160) {w : ℝ}
    (h : ∀ l, l < 256 → logSpec 1000 1000 0 v l = if l = q ∨ l = q + 1 then w else 0) (ts : T) (i : Nat) (hi : i < 3) :
    share 1000 1000 0 [(ts, v)] i = if i = q % 3 ∨ i = (q + 1) % 3 then w else 0 := by
  rw [← third_pair hq h i hi]
  unfold share third
  simp

theorem angle_top {x : Nat → ℝ} (h0 : x 0 = 0) (h1 : x 1 = x 2) (h2 : 0 < x 2) : angle x = 1 / 2 := by
  have hp := Real.pi_pos
  rw [angle_eq, h0, h1, sub_self, mul_zero]
  have : (⟨0 - (x 2 + x 2) / 2, 0⟩ : ℂ) = ((-(x 2) : ℝ) : ℂ) := by
    apply Complex.ext
    · simp
    · simp
  rw [this, Complex.arg_ofReal_of_neg (by linarith)]
  field_simp

/-- Tones of 450 and 455 Hz that reach the two bins between A and B flat alike. -/
theorem pair_sharp : ∃ (v : List ℝ) (w : ℝ), v.length = 1000 ∧ (∀ x ∈ v, 0 ≤ x ∧ x ≤ 1000) ∧ 0 < w ∧
    ∀ l, l < 256 → logSpec 1000 1000 0 v l = if l = 148 ∨ l = 148 + 1 then w else 0 := by
  obtain ⟨a, b, w, ha, ha', hb, hb', hw, h⟩ := pair_level (q := 148) (n1 := 450) (n2 := 455) (by norm_num) (by norm_num)
    (fun l hl h => pair_zero (by norm_num) hl h) (fun l hl h => pair_zero (by norm_num) hl h) pair_low pair_high
  refine ⟨_, w, tonePair_length _ _ a b, ?_, hw, h⟩
  intro x hx
  obtain ⟨i, -, rfl⟩ := List.mem_map.mp hx
  split_ifs
  · exact ⟨ha, ha'⟩
  · exact ⟨hb, hb'⟩
  · norm_num

/-- Fourier bins from 443 to 447 are heard in the log-frequency bins 147 and 148 only. -/
theorem pair_zero' {n : Nat} (hn : 443 ≤ n ∧ n ≤ 447) {l : Nat} (hl : l < 256) (h : l ≠ 147 ∧ l ≠ 147 + 1) :
    spread 1000 1000 n l = 0 := by
  by_contra hne
  have hpos := lt_of_le_of_ne (spread_nonneg 1000 1000 n l) (Ne.symm hne)
  obtain ⟨x, hx, h1, h2⟩ := spread_pos_near (by norm_num) (by norm_num) hpos
  norm_num at h1
  have h1' := abs_lt.mp h1
  have a1 : (443 : ℝ) ≤ n := by exact_mod_cast hn.1
  have a2 : (n : ℝ) ≤ 447 := by exact_mod_cast hn.2
  have m1 := (midi_ge (x := 442) (n := 154) (by norm_num) (by norm_num) (by norm_num)).trans
    (midi_mono (y := x) (by norm_num) (by linarith))
  have m2 := (midi_mono (y := 448) hx (by linarith)).trans
    (midi_le (x := 448) (n := 38) (by norm_num) (by norm_num) (by norm_num))
  have h4 := abs_lt.mp h2
  have h5 := abs_le.mp (midi_bin hl)
  norm_num at m1 m2 h5
  by_cases h6 : l < 147
  · have : (l : ℝ) ≤ 146 := by exact_mod_cast Nat.le_of_lt_succ h6
    linarith
  · have : (149 : ℝ) ≤ l := by exact_mod_cast (by omega : 149 ≤ l)
    linarith

theorem pair_low' : spread 1000 1000 443 (147 + 1) < spread 1000 1000 443 147 := by
  apply pair_less (by norm_num)
  intro x h1 h2
  norm_num at h1 h2
  have m1 := (midi_ge (x := 442) (n := 154) (by norm_num) (by norm_num) (by norm_num)).trans
    (midi_mono (y := x) (by norm_num) h1)
  have m2 := (midi_mono (y := 444) (by linarith) h2).trans
    (midi_le (x := 444) (n := 76) (by norm_num) (by norm_num) (by norm_num))
  rw [binA, bins_mid.1]
  norm_num at m1 m2
  rw [abs_of_nonneg (by linarith), abs_of_nonpos (by linarith)]
  constructor <;> linarith

theorem pair_high' : spread 1000 1000 447 147 < spread 1000 1000 447 (147 + 1) := by
  apply pair_less (by norm_num)
  intro x h1 h2
  norm_num at h1 h2
  have m1 := (midi_ge (x := 446) (n := 60) (by norm_num) (by norm_num) (by norm_num)).trans
    (midi_mono (y := x) (by norm_num) h1)
  have m2 := (midi_mono (y := 448) (by linarith) h2).trans
    (midi_le (x := 448) (n := 38) (by norm_num) (by norm_num) (by norm_num))
  rw [binA, bins_mid.1]
  norm_num at m1 m2
  rw [abs_of_nonpos (by linarith), abs_of_nonneg (by linarith)]
  constructor <;> linarith

/-- Tones of 443 and 447 Hz that reach the bin of A and the next alike. -/
theorem pair_normal : ∃ (v : List ℝ) (w : ℝ), v.length = 1000 ∧ (∀ x ∈ v, 0 ≤ x ∧ x ≤ 1000) ∧ 0 < w ∧
    ∀ l, l < 256 → logSpec 1000 1000 0 v l = if l = 147 ∨ l = 147 + 1 then w else 0 := by
  obtain ⟨a, b, w, ha, ha', hb, hb', hw, h⟩ := pair_level (q := 147) (n1 := 443) (n2 := 447) (by norm_num) (by norm_num)
    (fun l hl h => pair_zero' (by norm_num) hl h) (fun l hl h => pair_zero' (by norm_num) hl h) pair_low' pair_high'
  refine ⟨_, w, tonePair_length _ _ a b, ?_, hw, h⟩
  intro x hx
  obtain ⟨i, -, rfl⟩ := List.mem_map.mp hx
  split_ifs
  · exact ⟨ha, ha'⟩
  · exact ⟨hb, hb'⟩
  · norm_num

/-- The two pairs of tones meet what `C91_sharper` asks for: they are a third of a semitone apart. -/
example (fixed1 : ℝ → Str) (hfix : ∀ x, 0 ≤ x → x < 1000 → (fixed1 x).length ≤ 5) (params : Params ℝ)
    (hr : params.rollon = 0) :
    ∃ (v v' : List ℝ) (out out' : List (Nat × ℝ) × List (Pitch ℝ Nat)),
      runTuning exactFns fixed1 0 1000 1000 params [(0, v)] = .ok (some out) ∧
      runTuning exactFns fixed1 0 1000 1000 params [(0, v')] = .ok (some out') ∧
      ∀ q ∈ out.2, q.value ≤ 440 * (2 : ℝ) ^ (1 / 72 : ℝ) → ∀ q' ∈ out'.2,
        q'.value = q.value * (2 : ℝ) ^ (1 / 36 : ℝ) := by
  obtain ⟨v, w, hv, -, hw, h⟩ := pair_normal
  obtain ⟨v', w', hv', -, hw', h'⟩ := pair_sharp
  have e := share_pair (by norm_num) h (0 : Nat)
  have e' := share_pair (by norm_num) h' (0 : Nat)
  have hc : w' = w' / w * w := by field_simp
  obtain ⟨out, out', g⟩ := C91_sharper (fs := 1000) (by norm_num) (bs := 1000) (by norm_num) params
    (blocks := [((0 : Nat), v)]) (blocks' := [((0 : Nat), v')])
    (by intro bl hbl; rw [List.mem_singleton] at hbl; subst hbl; exact hv.ge)
    (by intro bl hbl; rw [List.mem_singleton] at hbl; subst hbl; exact hv'.ge)
    (c := w' / w) (div_pos hw' hw)
    (by rw [hr, e' 0 (by norm_num), e 2 (by norm_num)]; norm_num)
    (by rw [hr, e' 1 (by norm_num), e 0 (by norm_num)]; norm_num; exact hc)
    (by rw [hr, e' 2 (by norm_num), e 1 (by norm_num)]; norm_num; exact hc)
    (by rw [hr, e 0 (by norm_num), e 1 (by norm_num), e 2 (by norm_num)]; norm_num; exact hw.ne') hfix (0 : Nat)
  exact ⟨v, v', out, out', g⟩

/-- The announced extent - from 427.47 to 452.89 Hz - is not kept: a recording of two tones, 450 and 455 Hz, at the
right levels is reported at a quarter tone above 440 Hz, which is 452.893 Hz. -/
theorem C91_extents_violated {fixed1 : ℝ → Str} (hfix : ∀ x, 0 ≤ x → x < 1000 → (fixed1 x).length ≤ 5) :
    ∃ (params : Params ℝ) (blocks : List (Nat × List ℝ)) (out : List (Nat × ℝ) × List (Pitch ℝ Nat)),
      (∀ bl ∈ blocks, 1000 = bl.2.length ∧ ∀ x ∈ bl.2, 0 ≤ x ∧ x ≤ 1000) ∧
      runTuning exactFns fixed1 0 1000 1000 params blocks = .ok (some out) ∧
      ∃ x ∈ reported out, ¬ x ≤ 452.89 := by
  obtain ⟨v, hv, hv', h⟩ : ∃ v : List ℝ, v.length = 1000 ∧ (∀ x ∈ v, 0 ≤ x ∧ x ≤ 1000) ∧
      globalTuning (spectra 1000 1000 0 [((0 : Nat), v)]) = 1 / 2 := by
    obtain ⟨v, w, hv, hv', hw, h⟩ := pair_sharp
    refine ⟨v, hv, hv', ?_⟩
    have e := share_pair (by norm_num) h (0 : Nat)
    rw [globalTuning_share _ _ _ (by simp)]
    apply angle_top
    · rw [e 0 (by norm_num)]; norm_num
    · rw [e 1 (by norm_num), e 2 (by norm_num)]; norm_num
    · rw [e 2 (by norm_num)]; norm_num; exact hw
  obtain ⟨params, hr⟩ : ∃ params : Params ℝ, params.rollon = 0 := ⟨{ Params.default exactFns with rollon := 0 }, rfl⟩
  obtain ⟨out, e, -, -, h3⟩ := runTuning_exact (fs := 1000) (by norm_num) (bs := 1000) (by norm_num) params
    (blocks := [((0 : Nat), v)]) (by
      intro bl hbl
      rw [List.mem_singleton] at hbl
      subst hbl
      exact hv.ge) hfix (zero := 0)
  refine ⟨params, [((0 : Nat), v)], out, ?_, e, ?_⟩
  · intro bl hbl
    rw [List.mem_singleton] at hbl
    subst hbl
    exact ⟨hv.symm, hv'⟩
  · refine ⟨440 * (2 : ℝ) ^ ((1 / 2 : ℝ) / 12), ?_, not_le.mpr pow_tuning_top⟩
    unfold reported
    rw [h3, hr, h, List.mem_append]
    right
    simp

/-! ### C92: running -/

/-- A run that goes on without undefined behaviour, for any arithmetic. -/
theorem runTuning_ok (F : Fns D) (hT : Tunes F) (fixed1 : D → Str) (hfix : ∀ x, (fixed1 x).length ≤ 46) (zero : T)
    (fs : Int) {bs : Nat} (hb : 4 ≤ bs) (params : Params D) {blocks : List (T × List D)}
    (hbl : ∀ bl ∈ blocks, bs ≤ bl.2.length) :
    ∃ (p0 p : Base D T) (loc : List (T × D)) (f : List (Pitch D T)),
      initialise F fs 1 bs (Base.new F params : Base D T) = .ok (true, p0) ∧
      blocks.foldlM (fun (s : Base D T × List (T × D)) bl => do
        let r ← tuningProcess F bl.2 bl.1 s.1
        pure (r.1, s.2 ++ [r.2])) (p0, []) = .ok (p, loc) ∧
      Ready F (fun _ => True) p ∧ tuningRemaining F fixed1 zero p = .ok f ∧ loc.map Prod.fst = blocks.map Prod.fst ∧
      f.map (fun q => (q.timestamp, q.duration)) = (blocks.getLast?.map (fun bl => (zero, bl.1))).toList ∧
      (∀ q ∈ f, q.label = fixed1 q.value ++ [' ', 'H', 'z']) ∧
      p = { p0 with
        frameCount := p.frameCount
        logSpectrum := p.logSpectrum
        meanTunings := p.meanTunings
        localTunings := p.localTunings
        localTuning := p.localTuning } := by
  obtain ⟨p0, e0, r0, b0, pa0, s0, -, -, -⟩ := initialise_ok (T := T) F (signed_true F) fs hb params
  obtain ⟨s, e1, h1, h2, h3, h4, h5⟩ := foldlM_inv (f := fun (s : Base D T × List (T × D)) (bl : T × List D) => do
      let r ← tuningProcess F bl.2 bl.1 s.1
      pure (r.1, s.2 ++ [r.2])) (l := blocks) (b := (p0, []))
    (fun i (s : Base D T × List (T × D)) => Ready F (fun _ => True) s.1 ∧ s.1.blockSize = bs ∧
      s.1.logSpectrum.map Prod.fst = (blocks.take i).map Prod.fst ∧ s.2.map Prod.fst = (blocks.take i).map Prod.fst ∧
      s.1 = { p0 with
        frameCount := s.1.frameCount
        logSpectrum := s.1.logSpectrum
        meanTunings := s.1.meanTunings
        localTunings := s.1.localTunings
        localTuning := s.1.localTuning })
    ⟨r0, b0, by rw [s0]; rfl, rfl, rfl⟩ (by
      rintro i bl hi ⟨p, acc⟩ ⟨g1, g2, g3, g4, g5⟩
      dsimp only at g1 g2 g3 g4 g5
      obtain ⟨p', nm, e, q1, q2, -, q3, -⟩ := baseProcess_ok F (signed_true F) hT g1 (fbuf := bl.2) (by
        rw [g2]
        have := hbl bl (List.mem_of_getElem? hi)
        omega) bl.1
      have hk := baseProcess_keeps F e
      rw [g5] at hk
      have hl : 0 < p'.localTuning.length := by
        rw [q1.tun, q3]
        simp
      obtain ⟨x, hx⟩ := getElem?_some_of_lt (v := p'.localTuning) (i := p'.localTuning.length - 1) (by omega)
      dsimp only
      unfold tuningProcess
      rw [e, bind_ok, rd_ok (x := x) (by omega) (by
        rw [show ((p'.localTuning.length : Int) - 1).toNat = p'.localTuning.length - 1 by omega]
        exact hx), bind_ok]
      refine ⟨_, rfl, q1, by rw [q2, g2], ?_, ?_, hk⟩
      · dsimp only
        rw [q3, List.map_append, g3, List.take_add_one, hi]
        simp
      · dsimp only
        rw [List.map_append, g4, List.take_add_one, hi]
        simp)
  rw [List.take_length] at h3 h4
  have hlast : s.1.logSpectrum.getLast?.map Prod.fst = blocks.getLast?.map Prod.fst := by
    rw [← getLast?_map', h3, getLast?_map']
  obtain ⟨f, ef, hf⟩ : ∃ f, tuningRemaining F fixed1 zero s.1 = .ok f ∧
      f.map (fun q => (q.timestamp, q.duration)) = (blocks.getLast?.map (fun bl => (zero, bl.1))).toList ∧
      (∀ q ∈ f, q.label = fixed1 q.value ++ [' ', 'H', 'z']) := by
    unfold tuningRemaining
    cases hg : s.1.logSpectrum.getLast? with
    | none =>
      rw [hg] at hlast
      cases hg' : blocks.getLast? with
      | none => exact ⟨[], rfl, rfl, by simp⟩
      | some b => rw [hg'] at hlast; cases hlast
    | some last =>
      rw [hg] at hlast
      cases hg' : blocks.getLast? with
      | none => rw [hg'] at hlast; cases hlast
      | some b =>
        rw [hg'] at hlast
        simp only [Option.map_some, Option.some.injEq] at hlast
        obtain ⟨y, x, en⟩ := normalisedTuning_ok F s.1 h1.mean h1.sinv h1.cosv
        unfold normalisedTuning at en
        obtain ⟨r, er, -⟩ := bind_eq_ok.mp en
        dsimp only
        unfold cumulativeTuning
        rw [er]
        simp only [bind_ok, pure_eq]
        unfold pitchLabel
        rw [if_pos (by rw [List.length_append]; have := hfix (F.mul (F.lit 440) (F.pow (F.lit 2) (F.div (F.atan2 r.2 r.1) (F.mul (F.lit 24) F.pi)))); simp; omega)]
        simp only [bind_ok]
        exact ⟨_, rfl, by simp [hlast], by simp⟩
  exact ⟨p0, s.1, s.2, f, e0, e1, h1, ef, h4, hf.1, hf.2, h5⟩

/-- For any arithmetic in which the tuning estimate stays within half a semitone and numbers print in at most 46
characters: the plug-in runs on any recording without undefined behaviour, gives a local tuning for every block at its
time, and at the end - unless there was no block - one feature from time zero as long as the last block's time,
labelled with its value. -/
theorem C92_runs (F : Fns D) (hT : Tunes F) (fixed1 : D → Str) (hfix : ∀ x, (fixed1 x).length ≤ 46) (zero : T)
    (fs : Int) {bs : Nat} (hb : 4 ≤ bs) (params : Params D) {blocks : List (T × List D)}
    (hbl : ∀ bl ∈ blocks, bs ≤ bl.2.length) :
    ∃ out, runTuning F fixed1 zero fs bs params blocks = .ok (some out) ∧
      out.1.map Prod.fst = blocks.map Prod.fst ∧
      out.2.map (fun q => (q.timestamp, q.duration)) = (blocks.getLast?.map (fun bl => (zero, bl.1))).toList ∧
      ∀ q ∈ out.2, q.label = fixed1 q.value ++ [' ', 'H', 'z'] := by
  obtain ⟨p0, p, loc, f, e0, e1, -, ef, h1, h2, h3, -⟩ := runTuning_ok F hT fixed1 hfix zero fs hb params hbl
  refine ⟨(loc, f), ?_, h1, h2, h3⟩
  unfold runTuning
  rw [e0, bind_ok, if_pos rfl, e1, bind_ok]
  dsimp only
  rw [ef, bind_ok]
  rfl

/-- The plug-in is set up, hears one recording, is asked for its features, is reset, hears another and is asked again:
what it says of the second. -/
def secondTuning (F : Fns D) (fixed1 : D → Str) (zero : T) (fs : Int) (blockSize : Nat) (params : Params D)
    (first second : List (T × List D)) : Run (Option (List (T × D) × List (Pitch D T))) := do
  let r ← initialise F fs 1 blockSize (Base.new F params)
  if r.1 then do
    let s ← first.foldlM (fun (s : Base D T × List (T × D)) bl => do
      let r ← tuningProcess F bl.2 bl.1 s.1
      pure (r.1, s.2 ++ [r.2])) (r.2, [])
    let _ ← tuningRemaining F fixed1 zero s.1
    let p ← reset F s.1
    let s ← second.foldlM (fun (s : Base D T × List (T × D)) bl => do
      let r ← tuningProcess F bl.2 bl.1 s.1
      pure (r.1, s.2 ++ [r.2])) (p, [])
    let f ← tuningRemaining F fixed1 zero s.1
    pure (some (s.2, f))
  else pure none

/-- After a reset nothing is left of the first recording. -/
theorem C92_reset_forgets (F : Fns D) (hT : Tunes F) (fixed1 : D → Str) (hfix : ∀ x, (fixed1 x).length ≤ 46) (zero : T)
    (fs : Int) {bs : Nat} (hb : 4 ≤ bs) (params : Params D) {first second : List (T × List D)}
    (h1 : ∀ bl ∈ first, bs ≤ bl.2.length) :
    secondTuning F fixed1 zero fs bs params first second = runTuning F fixed1 zero fs bs params second := by
  obtain ⟨p0, p, loc, f, e0, e1, hp, ef, -, -, -, hk⟩ := runTuning_ok F hT fixed1 hfix zero fs hb params h1
  have hr : reset F p = .ok p0 := by
    apply reset_eq F hp.mean hp.loc
    obtain ⟨z1, z2, z3, z4, z5⟩ := initialise_fresh F fs bs params e0
    cases p0
    dsimp only at z1 z2 z3 z4 z5 hk
    subst z1 z2 z3 z4 z5
    rw [hk]
  unfold secondTuning runTuning
  rw [e0, bind_ok, bind_ok, if_pos rfl, if_pos rfl, e1, bind_ok]
  dsimp only
  rw [ef, bind_ok, hr, bind_ok]

/-- With exact arithmetic, for example, and two different tones. -/
example : secondTuning exactFns (fun _ => "440.0".toList) (0 : Nat) 1000 1000 (Params.default exactFns)
      [(1, toneA 100)] [(1, toneA 300)] =
    runTuning exactFns (fun _ => "440.0".toList) 0 1000 1000 (Params.default exactFns) [(1, toneA 300)] :=
  C92_reset_forgets exactFns exact_tunes _ (fun _ => by decide) 0 1000 (by norm_num) _ (by
    intro bl hbl
    rw [List.mem_singleton] at hbl
    subst hbl
    exact (toneA_length 100).ge)

end JKD.Chroma
