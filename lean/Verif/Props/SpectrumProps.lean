import Verif.Lemmas.ChromaTone
import Verif.Props.PluginProps
/-
C74-C80: the tuned spectrum of the chroma plug-in, from the Fourier coefficients on.
-/

namespace JKD.Chroma

open Finset

variable {D T : Type}

/-! ### C74: what the tuned spectrum is -/

/-- In exact arithmetic the tuned spectrum of every block is its Fourier magnitudes - limited to the block size,
without the bass below the threshold, nothing for a silent block - spread over 256 log-frequency bins, read as much
higher as the recording (or, with local tuning, the blocks so far) is out of tune, and whitened. -/
theorem C74_tuned_spectrum {fs : Int} (hfs : 0 < fs) {bs : Nat} (hb : 4 ≤ bs) (params : Params ℝ)
    {blocks : List (T × List ℝ)} (hbl : ∀ bl ∈ blocks, bs ≤ bl.2.length) (junk : Nat → Nnls.St ℝ) :
    ∃ f, runAll exactFns fs bs params blocks junk = .ok (some f) ∧ f.tunedlogfreqspec.length = blocks.length ∧
      ∀ k, k < blocks.length → ∃ bl v, blocks[k]? = some bl ∧ f.tunedlogfreqspec[k]? = some (bl.1, v) ∧
        v.length = 256 ∧ ∀ l, l < 256 → v.getD l 0 = whitened params.whitening
          (shifted (tuningAt params.tuneLocal (spectra fs bs params.rollon blocks) k)
            (logSpec fs bs params.rollon bl.2)) l := by
  obtain ⟨f, e, h1, -, -, -, -, -, p, -, -, ht, hm⟩ := runAll_ok exactFns exact_signed exact_ordered exact_tunes fs hb
    params hbl junk
  refine ⟨f, e, ?_, fun k hk => tuned_exact hfs hb hbl hm ht hk⟩
  have := congrArg List.length h1.1
  simpa using this

/-! ### What the other outputs depend on -/

theorem notesOf_congr (F : Fns D) {p q : Base D T} (h1 : p.params = q.params) (h2 : p.dict = q.dict) (junk : Nnls.St D)
    (f2 : List D) : notesOf F p junk f2 = notesOf F q junk f2 := by
  unfold notesOf
  rw [h1, h2]

theorem output_length {Q : D → Prop} {ts : List T} {n : Nat} {l : List (T × List D)} (h : Output Q ts n l) :
    l.length = ts.length := by
  have := congrArg List.length h.1
  simpa using this

theorem ok_inj {α : Type} {a b : α} (h : Run.ok a = .ok b) : a = b := by
  cases h
  rfl

/-- Two runs with the same parameters and the same tuned spectra have the same features. -/
theorem runs_eq (F : Fns D) {Q : D → Prop} (hQ : Signed F Q) (hO : Nnls.Ordered F.toOps) (hT : Tunes F)
    (hn : ∀ x, Q x → F.lt x (F.lit 0) = false) {fs fs' : Int} {bs bs' : Nat} (hb : 4 ≤ bs) (hb' : 4 ≤ bs')
    (params : Params D) {blocks blocks' : List (T × List D)} (hbl : ∀ bl ∈ blocks, bs ≤ bl.2.length)
    (hbl' : ∀ bl ∈ blocks', bs' ≤ bl.2.length) (junk : Nat → Nnls.St D)
    (h : ∀ f f', runAll F fs bs params blocks junk = .ok (some f) →
      runAll F fs' bs' params blocks' junk = .ok (some f') → f.tunedlogfreqspec = f'.tunedlogfreqspec) :
    runAll F fs bs params blocks junk = runAll F fs' bs' params blocks' junk := by
  obtain ⟨f, e, h1, h2, h3, h4, h5, h6, p, hp, hf, -⟩ := runAll_ok F hQ hO hT fs hb params hbl junk
  obtain ⟨g, e', g1, g2, g3, g4, g5, g6, q, hq, hg, -⟩ := runAll_ok F hQ hO hT fs' hb' params hbl' junk
  have ht := h f g e e'
  rw [e, e']
  have hts : blocks.map Prod.fst = blocks'.map Prod.fst := by rw [← h1.1, ← g1.1, ht]
  have hdict : p.dict = q.dict := ok_inj (hp.dict.symm.trans hq.dict)
  have hpar : p.params = q.params := by rw [hp.pars, hq.pars]
  have key : ∀ i : Nat, f.semitonespectrum[i]? = g.semitonespectrum[i]? ∧ f.chroma[i]? = g.chroma[i]? ∧
      f.basschroma[i]? = g.basschroma[i]? ∧ f.bothchroma[i]? = g.bothchroma[i]? := by
    intro i
    by_cases hi : i < f.tunedlogfreqspec.length
    · obtain ⟨⟨t, f2⟩, hfr⟩ := getElem?_some_of_lt hi
      obtain ⟨n, en, k1, k2, k3, k4⟩ := hf i t f2 hfr
      rw [ht] at hfr
      obtain ⟨m, em, l1, l2, l3, l4⟩ := hg i t f2 hfr
      rw [notesOf_congr F hpar hdict, em] at en
      cases en
      rw [k1, k2, k3, k4, l1, l2, l3, l4, hpar]
      exact ⟨rfl, rfl, rfl, rfl⟩
    · have hl := output_length h1
      rw [List.getElem?_eq_none (by rw [output_length h2]; omega), List.getElem?_eq_none (by rw [output_length g2, ← hts]; omega),
        List.getElem?_eq_none (by rw [output_length h3]; omega), List.getElem?_eq_none (by rw [output_length g3, ← hts]; omega),
        List.getElem?_eq_none (by rw [output_length h4]; omega), List.getElem?_eq_none (by rw [output_length g4, ← hts]; omega),
        List.getElem?_eq_none (by rw [output_length h5]; omega), List.getElem?_eq_none (by rw [output_length g5, ← hts]; omega)]
      exact ⟨rfl, rfl, rfl, rfl⟩
  have e1 := List.ext_getElem? (fun i => (key i).1)
  have e2 := List.ext_getElem? (fun i => (key i).2.1)
  have e3 := List.ext_getElem? (fun i => (key i).2.2.1)
  have e4 := List.ext_getElem? (fun i => (key i).2.2.2)
  have e5 : f.complained = g.complained := by rw [h6 hn, g6 hn]
  cases f
  cases g
  simp only at ht e1 e2 e3 e4 e5
  subst ht e1 e2 e3 e4 e5
  rfl

/-! ### C75: the level of a recording -/

/-- The recording `c` times as loud. -/
noncomputable def louderAll (c : ℝ) (blocks : List (T × List ℝ)) : List (T × List ℝ) :=
  blocks.map (fun bl => (bl.1, bl.2.map (fun x => c * x)))

theorem spectra_louder {c : ℝ} (hc : 0 < c) {bs : Nat} {blocks : List (T × List ℝ)}
    (h : ∀ bl ∈ blocks, Fits c bs bl.2) (fs : Int) (rollon : ℝ) :
    spectra fs bs rollon (louderAll c blocks) = (spectra fs bs rollon blocks).map (fun L l => c * L l) := by
  unfold spectra louderAll
  rw [List.map_map, List.map_map]
  apply List.map_congr_left
  intro bl hb
  exact logSpec_louder hc (h bl hb) fs rollon

/-- In exact arithmetic, if nothing is limited and no block falls silent or awakes: playing a recording `c` times as
loud leaves the tuning as it is and multiplies every bin of the tuned spectrum by `c` to the power of one minus the
whitening, or by `c` where the spectrum has no deviation. -/
theorem C75_level_scales {c : ℝ} (hc : 0 < c) {fs : Int} (hfs : 0 < fs) {bs : Nat} (hb : 4 ≤ bs) (params : Params ℝ)
    {blocks : List (T × List ℝ)} (hbl : ∀ bl ∈ blocks, bs ≤ bl.2.length) (h : ∀ bl ∈ blocks, Fits c bs bl.2)
    (junk : Nat → Nnls.St ℝ) :
    ∃ f g, runAll exactFns fs bs params blocks junk = .ok (some f) ∧
      runAll exactFns fs bs params (louderAll c blocks) junk = .ok (some g) ∧
      ∀ k, k < blocks.length → ∃ bl v u, blocks[k]? = some bl ∧ f.tunedlogfreqspec[k]? = some (bl.1, v) ∧
        g.tunedlogfreqspec[k]? = some (bl.1, u) ∧ v.length = 256 ∧ u.length = 256 ∧
        ∀ l, l < 256 → u.getD l 0 = (if 0 < deviation
          (shifted (tuningAt params.tuneLocal (spectra fs bs params.rollon blocks) k)
            (logSpec fs bs params.rollon bl.2)) l then c ^ (1 - params.whitening) else c) * v.getD l 0 := by
  obtain ⟨f, e, -, hf⟩ := C74_tuned_spectrum hfs hb params hbl junk
  have hlen : (louderAll c blocks).length = blocks.length := by simp [louderAll]
  obtain ⟨g, e', -, hg⟩ := C74_tuned_spectrum hfs hb params (blocks := louderAll c blocks) (by
    intro bl hbm
    obtain ⟨bl', hb', rfl⟩ := List.mem_map.mp hbm
    simpa using hbl bl' hb') junk
  refine ⟨f, g, e, e', ?_⟩
  intro k hk
  obtain ⟨bl, v, b1, v1, v2, v3⟩ := hf k hk
  obtain ⟨bl', u, b2, u1, u2, u3⟩ := hg k (by omega)
  have hb2 : bl' = (bl.1, louder c bl.2) := by
    unfold louderAll at b2
    rw [List.getElem?_map, b1] at b2
    cases b2
    rfl
  subst hb2
  refine ⟨bl, v, u, b1, v1, u1, v2, u2, ?_⟩
  intro l hl
  have hfit := h bl (List.mem_of_getElem? b1)
  rw [u3 l hl, v3 l hl, spectra_louder hc h, tuningAt_scale hc, logSpec_louder hc hfit, shifted_scale, whitened_scale hc]
  split_ifs
  · rfl
  · rfl

/-- In exact arithmetic and with the default whitening of one, the level of a recording does not matter: unless
something is limited or falls silent, or a tuned spectrum is level but not zero over a whole neighbourhood, all five
outputs stay exactly as they are. -/
theorem C75_level_irrelevant {c : ℝ} (hc : 0 < c) {fs : Int} (hfs : 0 < fs) {bs : Nat} (hb : 4 ≤ bs) (params : Params ℝ)
    (hw : params.whitening = 1) {blocks : List (T × List ℝ)} (hbl : ∀ bl ∈ blocks, bs ≤ bl.2.length)
    (h : ∀ bl ∈ blocks, Fits c bs bl.2)
    (hflat : ∀ k bl, blocks[k]? = some bl → ∀ l, l < 256 →
      deviation (shifted (tuningAt params.tuneLocal (spectra fs bs params.rollon blocks) k)
        (logSpec fs bs params.rollon bl.2)) l = 0 →
      shifted (tuningAt params.tuneLocal (spectra fs bs params.rollon blocks) k) (logSpec fs bs params.rollon bl.2) l = 0)
    (junk : Nat → Nnls.St ℝ) :
    runAll exactFns fs bs params (louderAll c blocks) junk = runAll exactFns fs bs params blocks junk := by
  symm
  apply runs_eq exactFns exact_signed exact_ordered exact_tunes (by
    intro x hx
    simpa using hx) hb hb params hbl (by
    intro bl hbm
    obtain ⟨bl', hb', rfl⟩ := List.mem_map.mp hbm
    simpa using hbl bl' hb')
  intro f g e e'
  obtain ⟨f', g', e1, e2, hk⟩ := C75_level_scales hc hfs hb params hbl h junk
  obtain ⟨f'', e3, hl1, hk1⟩ := C74_tuned_spectrum hfs hb params hbl junk
  obtain ⟨g'', e4, hl2, -⟩ := C74_tuned_spectrum hfs hb params (blocks := louderAll c blocks) (by
    intro bl hbm
    obtain ⟨bl', hb', rfl⟩ := List.mem_map.mp hbm
    simpa using hbl bl' hb') junk
  rw [e] at e1 e3
  rw [e'] at e2 e4
  cases e1
  cases e3
  cases e2
  cases e4
  apply List.ext_getElem?
  intro k
  by_cases hkl : k < blocks.length
  · obtain ⟨bl, v, u, b1, v1, u1, v2, u2, hvu⟩ := hk k hkl
    obtain ⟨bl', v', b1', v1', -, v3⟩ := hk1 k hkl
    rw [b1] at b1'
    cases b1'
    rw [v1] at v1'
    cases v1'
    rw [v1, u1]
    refine congrArg some (congrArg (Prod.mk bl.1) ?_)
    apply List.ext_getElem (by omega)
    intro l hl hl'
    have h1 := hvu l (by omega)
    rw [hw] at h1
    have hflat' := hflat k bl b1 l (by omega)
    rw [List.getD_eq_getElem?_getD, List.getD_eq_getElem?_getD, List.getElem?_eq_getElem hl,
      List.getElem?_eq_getElem hl', Option.getD_some, Option.getD_some] at h1
    rw [h1]
    split_ifs with hd
    · rw [sub_self, Real.rpow_zero, one_mul]
    · have h0 : deviation (shifted (tuningAt params.tuneLocal (spectra fs bs params.rollon blocks) k)
          (logSpec fs bs params.rollon bl.2)) l = 0 := le_antisymm (le_of_not_gt hd) (Real.sqrt_nonneg _)
      have h2 := v3 l (by omega)
      unfold whitened at h2
      rw [if_neg hd, hflat' h0, List.getD_eq_getElem?_getD, List.getElem?_eq_getElem hl, Option.getD_some] at h2
      rw [h2, mul_zero]
  · rw [List.getElem?_eq_none (by omega), List.getElem?_eq_none (by rw [hl2]; simp [louderAll]; omega)]

/-- The tuning of any recording is within half a semitone, so that spectra move by two bins at most. -/
theorem tuningAt_floor (b : Bool) (Ls : List (Nat → ℝ)) (k : Nat) :
    -2 ≤ ⌊3 * tuningAt b Ls k⌋ ∧ ⌊3 * tuningAt b Ls k⌋ ≤ 1 := by
  unfold tuningAt localTuningAt globalTuning
  split_ifs
  · exact angle_floor _
  · exact angle_floor _

theorem toneA_flat {a τ : ℝ} (ha : 2 ≤ a) (ha' : a ≤ 1000) (hτ : -2 ≤ ⌊3 * τ⌋ ∧ ⌊3 * τ⌋ ≤ 1) (l : Nat)
    (h0 : deviation (shifted τ (logSpec 1000 1000 0 (toneA a))) l = 0) :
    shifted τ (logSpec 1000 1000 0 (toneA a)) l = 0 := by
  have hnn : ∀ m, 0 ≤ logSpec 1000 1000 0 (toneA a) m := by
    intro m
    rw [toneA_logSpec ha ha']
    exact mul_nonneg (by linarith) (spread_nonneg _ _ _ _)
  have hz : ∀ m, m < 256 → (m < 146 ∨ 148 < m) → logSpec 1000 1000 0 (toneA a) m = 0 := by
    intro m hm h
    rw [toneA_logSpec ha ha', tone_zero hm h, mul_zero]
  have hsz : ∀ m, (m < 144 ∨ 150 < m) → shifted τ (logSpec 1000 1000 0 (toneA a)) m = 0 := by
    intro m hm
    by_cases h253 : m < 253
    · apply shifted_zero hτ
      intro q h1 h2
      exact hz q (by omega) (by omega)
    · unfold shifted
      rw [if_neg (by omega)]
  by_contra hne
  have hin : ¬ (l < 144 ∨ 150 < l) := fun h => hne (hsz l h)
  have hpos := lt_of_le_of_ne (shifted_nonneg hnn τ l) (Ne.symm hne)
  have := deviation_pos (shifted_nonneg hnn τ) (j := l) (by omega) (by omega) hpos (hsz _ (by omega))
  linarith

/-- A tone of 440 Hz meets the hypotheses: it comes out the same at double the level. -/
example (junk : Nat → Nnls.St ℝ) :
    runAll exactFns 1000 1000 (Params.default exactFns) (louderAll 2 [((), toneA 100), ((), toneA 300)]) junk =
      runAll exactFns 1000 1000 (Params.default exactFns) [((), toneA 100), ((), toneA 300)] junk := by
  have hr : (Params.default exactFns).rollon = 0 := ex_zero
  apply C75_level_irrelevant (by norm_num) (by norm_num) (by norm_num) _ ex_one
  · simp [toneA_length]
  · intro bl hbl
    simp only [List.mem_cons, List.not_mem_nil, or_false] at hbl
    rcases hbl with rfl | rfl
    · exact toneA_fits (by norm_num) (by norm_num) (by norm_num) (by norm_num)
    · exact toneA_fits (by norm_num) (by norm_num) (by norm_num) (by norm_num)
  · intro k bl hk l _
    have hbl := List.mem_of_getElem? hk
    simp only [List.mem_cons, List.not_mem_nil, or_false] at hbl
    rw [hr]
    rcases hbl with rfl | rfl
    · exact toneA_flat (by norm_num) (by norm_num) (tuningAt_floor _ _ _) l
    · exact toneA_flat (by norm_num) (by norm_num) (tuningAt_floor _ _ _) l

/-! ### C76: silence -/

theorem mean_const_zero (j : Nat) : mean (fun _ => 0) j = 0 := by
  unfold mean
  simp

theorem whitened_zero (w : ℝ) (j : Nat) : whitened w (fun _ => 0) j = 0 := by
  have : deviation (fun _ => 0) j = 0 := by
    unfold deviation
    simp [mean_const_zero]
  unfold whitened
  rw [this, if_neg (lt_irrefl _)]

theorem scaleBy_zeros (n : ℝ) (k : Nat) : scaleBy exactFns n (List.replicate k 0) = List.replicate k 0 := by
  unfold scaleBy
  split_ifs
  · rw [List.map_replicate]
    simp
  · rfl

theorem chromas_zeros (d : ℝ) (sem : List ℝ) :
    chromas exactFns d { semitones := sem, chroma := List.replicate 12 0, basschroma := List.replicate 12 0 } =
      (List.replicate 12 0, List.replicate 12 0, List.replicate 24 0) := by
  have e : List.replicate 12 (0 : ℝ) ++ List.replicate 12 0 = List.replicate 24 0 := by rw [List.replicate_append_replicate]
  unfold chromas
  simp only [e]
  split_ifs
  · rw [scaleBy_zeros, scaleBy_zeros, scaleBy_zeros]
  · rfl

theorem notesOf_zeros (p : Base ℝ T) (junk : Nnls.St ℝ) : notesOf exactFns p junk (List.replicate 256 0) =
    .ok { semitones := List.replicate 84 0, chroma := List.replicate 12 0, basschroma := List.replicate 12 0 } := by
  unfold notesOf
  rw [copy_eq exactFns (by rw [List.length_replicate]; rfl), bind_ok]
  have : (List.replicate 256 (0 : ℝ)).any (fun x => exactFns.lt (exactFns.lit 0) x) = false := by
    rw [List.any_eq_false]
    intro x hx
    rw [(List.mem_replicate.mp hx).2]
    simp
  simp only [this, Bool.false_eq_true, if_false]
  simp only [ex_lit, Rat.cast_zero]
  rfl

/-- In exact arithmetic, a block whose Fourier magnitudes all stay below two yields nothing but zeros, whatever
surrounds it and whatever the parameters. -/
theorem C76_silence {fs : Int} (hfs : 0 < fs) {bs : Nat} (hb : 4 ≤ bs) (params : Params ℝ)
    {blocks : List (T × List ℝ)} (hbl : ∀ bl ∈ blocks, bs ≤ bl.2.length) (junk : Nat → Nnls.St ℝ) {k : Nat}
    {bl : T × List ℝ} (hk : blocks[k]? = some bl)
    (hq : ∀ n, n < bs / 2 → Real.sqrt (bl.2.getD (2 * n) 0 ^ 2 + bl.2.getD (2 * n + 1) 0 ^ 2) < 2) :
    ∃ f, runAll exactFns fs bs params blocks junk = .ok (some f) ∧
      f.tunedlogfreqspec[k]? = some (bl.1, List.replicate 256 0) ∧
      f.semitonespectrum[k]? = some (bl.1, List.replicate 84 0) ∧
      f.chroma[k]? = some (bl.1, List.replicate 12 0) ∧
      f.basschroma[k]? = some (bl.1, List.replicate 12 0) ∧
      f.bothchroma[k]? = some (bl.1, List.replicate 24 0) := by
  obtain ⟨f, e, -, -, -, -, -, -, p, -, hf, -, -⟩ := runAll_ok exactFns exact_signed exact_ordered exact_tunes fs hb
    params hbl junk
  obtain ⟨f', e', -, h⟩ := C74_tuned_spectrum hfs hb params hbl junk
  rw [e] at e'
  cases e'
  obtain ⟨bl', v, b1, v1, v2, v3⟩ := h k (List.getElem?_eq_some_iff.mp hk).1
  rw [hk] at b1
  cases b1
  have hloud : ¬ Loud bs bl.2 := by
    rintro ⟨n, hn, h2⟩
    exact absurd (h2.trans (min_le_right _ _)) (not_le.mpr (hq n hn))
  have hlog : logSpec fs bs params.rollon bl.2 = fun _ => 0 := by
    funext l
    unfold logSpec audible
    simp only [if_neg hloud, zero_mul, sum_const_zero]
  have hsh : ∀ τ, shifted τ (fun _ => 0) = fun _ => 0 := by
    intro τ
    funext l
    unfold shifted lerp
    split_ifs
    · ring
    · rfl
  have hv : v = List.replicate 256 0 := by
    apply List.ext_getElem (by rw [v2, List.length_replicate])
    intro l hl _
    have := v3 l (by omega)
    rw [hlog, hsh, whitened_zero, List.getD_eq_getElem?_getD, List.getElem?_eq_getElem hl, Option.getD_some] at this
    rw [this, List.getElem_replicate]
  subst hv
  obtain ⟨n, en, k1, k2, k3, k4⟩ := hf k _ _ v1
  rw [notesOf_zeros] at en
  have en := ok_inj en
  subst en
  rw [chromas_zeros] at k2 k3 k4
  exact ⟨f, e, v1, k1, k2, k3, k4⟩

/-- Noise of magnitude one between two tones meets the hypotheses. -/
example : ∀ n, n < 1000 / 2 → Real.sqrt ((toneA 1).getD (2 * n) 0 ^ 2 + (toneA 1).getD (2 * n + 1) 0 ^ 2) < 2 := by
  intro n _
  have := toneA_raw (a := 1) (by norm_num) n
  unfold rawMagn at this
  rw [this]
  split_ifs <;> norm_num

/-! ### C77: tuning -/

/-- The vector whose angle is taken. -/
theorem angle_eq (x : Nat → ℝ) :
    angle x = Complex.arg ⟨x 0 - (x 1 + x 2) / 2, Real.sqrt 3 / 2 * (x 1 - x 2)⟩ / (2 * Real.pi) := by
  have c1 : Real.cos (2 * Real.pi * (1 / 3)) = -1 / 2 := by
    rw [show 2 * Real.pi * (1 / 3) = Real.pi - Real.pi / 3 by ring, Real.cos_pi_sub, Real.cos_pi_div_three]
    ring
  have s1 : Real.sin (2 * Real.pi * (1 / 3)) = Real.sqrt 3 / 2 := by
    rw [show 2 * Real.pi * (1 / 3) = Real.pi - Real.pi / 3 by ring, Real.sin_pi_sub, Real.sin_pi_div_three]
  have c2 : Real.cos (2 * Real.pi * (2 / 3)) = -1 / 2 := by
    rw [show 2 * Real.pi * (2 / 3) = Real.pi / 3 + Real.pi by ring, Real.cos_add_pi, Real.cos_pi_div_three]
    ring
  have s2 : Real.sin (2 * Real.pi * (2 / 3)) = -(Real.sqrt 3 / 2) := by
    rw [show 2 * Real.pi * (2 / 3) = Real.pi / 3 + Real.pi by ring, Real.sin_add_pi, Real.sin_pi_div_three]
  unfold angle
  congr 3
  · simp only [sum_range_succ, range_zero, sum_empty, Nat.cast_zero, Nat.cast_one, Nat.cast_ofNat, zero_div, mul_zero,
      Real.cos_zero, c1, c2]
    ring
  · simp only [sum_range_succ, range_zero, sum_empty, Nat.cast_zero, Nat.cast_one, Nat.cast_ofNat, zero_div, mul_zero,
      Real.sin_zero, s1, s2]
    ring

theorem polar (z : ℂ) : z.re = ‖z‖ * Real.cos z.arg ∧ z.im = ‖z‖ * Real.sin z.arg := by
  by_cases h : z = 0
  · subst h
    simp
  · have hn : ‖z‖ ≠ 0 := norm_ne_zero_iff.mpr h
    rw [Complex.cos_arg h, Complex.sin_arg]
    constructor <;> field_simp

theorem sqrt3_pos : 0 < Real.sqrt 3 := Real.sqrt_pos.mpr (by norm_num)

/-- The line at sixty degrees. -/
theorem sixty (z : ℂ) : ‖z‖ * Real.sin (z.arg - Real.pi / 3) = z.im / 2 - Real.sqrt 3 / 2 * z.re ∧
    ‖z‖ * Real.sin (z.arg + Real.pi / 3) = z.im / 2 + Real.sqrt 3 / 2 * z.re := by
  obtain ⟨h1, h2⟩ := polar z
  rw [Real.sin_sub, Real.sin_add, Real.cos_pi_div_three, Real.sin_pi_div_three]
  constructor
  · rw [h1, h2]; ring
  · rw [h1, h2]; ring

theorem angle_of_arg (x : Nat → ℝ) (lo hi : ℝ)
    (h : lo * Real.pi ≤ Complex.arg ⟨x 0 - (x 1 + x 2) / 2, Real.sqrt 3 / 2 * (x 1 - x 2)⟩ ∧
      Complex.arg ⟨x 0 - (x 1 + x 2) / 2, Real.sqrt 3 / 2 * (x 1 - x 2)⟩ ≤ hi * Real.pi) :
    lo / 2 ≤ angle x ∧ angle x ≤ hi / 2 := by
  have hp := Real.pi_pos
  rw [angle_eq]
  constructor
  · rw [le_div_iff₀ (by positivity)]
    linarith [h.1]
  · rw [div_le_iff₀ (by positivity)]
    linarith [h.2]

/-- If most is in the bins at the semitones, the tuning is within a sixth of a semitone of zero. -/
theorem angle_in_tune {x : Nat → ℝ} (h1 : x 1 ≤ x 0) (h2 : x 2 ≤ x 0) : |angle x| ≤ 1 / 6 := by
  have hp := Real.pi_pos
  have h3 := sqrt3_pos
  have key := angle_of_arg x (-1 / 3) (1 / 3) (by
    generalize hz : (⟨x 0 - (x 1 + x 2) / 2, Real.sqrt 3 / 2 * (x 1 - x 2)⟩ : ℂ) = z
    have hre : z.re = x 0 - (x 1 + x 2) / 2 := by rw [← hz]
    have him : z.im = Real.sqrt 3 / 2 * (x 1 - x 2) := by rw [← hz]
    by_cases h0 : z = 0
    · rw [h0, Complex.arg_zero]
      constructor <;> linarith
    have hn : 0 < ‖z‖ := norm_pos_iff.mpr h0
    obtain ⟨s1, s2⟩ := sixty z
    rw [hre, him] at s1 s2
    have g1 := Complex.neg_pi_lt_arg z
    have g2 := Complex.arg_le_pi z
    constructor
    · by_contra hc
      have : Real.sin (z.arg + Real.pi / 3) < 0 := Real.sin_neg_of_neg_of_neg_pi_lt (by linarith) (by linarith)
      nlinarith [mul_neg_of_pos_of_neg hn this]
    · by_contra hc
      have : 0 < Real.sin (z.arg - Real.pi / 3) := Real.sin_pos_of_pos_of_lt_pi (by linarith) (by linarith)
      nlinarith [mul_pos hn this])
  rw [abs_le]
  constructor <;> linarith [key.1, key.2]

/-- If most is a third of a semitone higher, the tuning is between a sixth and a half. -/
theorem angle_sharp {x : Nat → ℝ} (h1 : x 0 ≤ x 1) (h2 : x 2 ≤ x 1) (hne : ¬ (x 0 = x 1 ∧ x 1 = x 2)) :
    1 / 6 ≤ angle x ∧ angle x ≤ 1 / 2 := by
  have hp := Real.pi_pos
  have h3 := sqrt3_pos
  have key := angle_of_arg x (1 / 3) 1 (by
    generalize hz : (⟨x 0 - (x 1 + x 2) / 2, Real.sqrt 3 / 2 * (x 1 - x 2)⟩ : ℂ) = z
    have hre : z.re = x 0 - (x 1 + x 2) / 2 := by rw [← hz]
    have him : z.im = Real.sqrt 3 / 2 * (x 1 - x 2) := by rw [← hz]
    have h0 : z ≠ 0 := by
      rintro rfl
      simp only [Complex.zero_re, Complex.zero_im] at hre him
      have : x 1 - x 2 = 0 := by
        rcases mul_eq_zero.mp him.symm with h | h
        · linarith
        · exact h
      exact hne ⟨by linarith, by linarith⟩
    have hn : 0 < ‖z‖ := norm_pos_iff.mpr h0
    obtain ⟨s1, s2⟩ := sixty z
    rw [hre, him] at s1 s2
    have g2 := Complex.arg_le_pi z
    have g3 : 0 ≤ z.arg := Complex.arg_nonneg_iff.mpr (by rw [him]; exact mul_nonneg (by linarith) (by linarith))
    constructor
    · by_contra hc
      have : Real.sin (z.arg - Real.pi / 3) < 0 := Real.sin_neg_of_neg_of_neg_pi_lt (by linarith) (by linarith)
      nlinarith [mul_neg_of_pos_of_neg hn this]
    · linarith)
  constructor <;> linarith [key.1, key.2]

/-- If most is a third of a semitone lower, the tuning is between minus a half and minus a sixth. -/
theorem angle_flat {x : Nat → ℝ} (h1 : x 0 ≤ x 2) (h2 : x 1 < x 2) : -(1 / 2) ≤ angle x ∧ angle x ≤ -(1 / 6) := by
  have hp := Real.pi_pos
  have h3 := sqrt3_pos
  have key := angle_of_arg x (-1) (-1 / 3) (by
    generalize hz : (⟨x 0 - (x 1 + x 2) / 2, Real.sqrt 3 / 2 * (x 1 - x 2)⟩ : ℂ) = z
    have hre : z.re = x 0 - (x 1 + x 2) / 2 := by rw [← hz]
    have him : z.im = Real.sqrt 3 / 2 * (x 1 - x 2) := by rw [← hz]
    have hneg : z.im < 0 := by
      rw [him]
      exact mul_neg_of_pos_of_neg (by linarith) (by linarith)
    have h0 : z ≠ 0 := by
      rintro rfl
      simp at hneg
    have hn : 0 < ‖z‖ := norm_pos_iff.mpr h0
    obtain ⟨s1, s2⟩ := sixty z
    rw [hre, him] at s1 s2
    have g1 := Complex.neg_pi_lt_arg z
    have g3 : z.arg < 0 := Complex.arg_neg_iff.mpr hneg
    constructor
    · linarith
    · by_contra hc
      have : 0 < Real.sin (z.arg + Real.pi / 3) := Real.sin_pos_of_pos_of_lt_pi (by linarith) (by linarith)
      nlinarith [mul_pos hn this])
  constructor <;> linarith [key.1, key.2]

/-- How much of a recording lies in the bins at the semitones (`0`), a third of a semitone above (`1`) and a third
below (`2`), over the lowest 162 bins. -/
noncomputable def share (fs : Int) (bs : Nat) (rollon : ℝ) (blocks : List (T × List ℝ)) (i : Nat) : ℝ :=
  (blocks.map (fun bl => ∑ t ∈ range 54, logSpec fs bs rollon bl.2 (3 * t + i))).sum

theorem globalTuning_share (fs : Int) (bs : Nat) (rollon : ℝ) {blocks : List (T × List ℝ)} (hne : blocks ≠ []) :
    globalTuning (spectra fs bs rollon blocks) = angle (share fs bs rollon blocks) := by
  unfold globalTuning
  have hpos : (0 : ℝ) < blocks.length := by exact_mod_cast List.length_pos_of_ne_nil hne
  rw [← angle_scale (inv_pos.mpr hpos) (share fs bs rollon blocks)]
  apply angle_congr
  intro i _
  unfold share spectra third
  rw [List.map_map, List.length_map, div_eq_inv_mul]
  rfl

/-- In exact arithmetic and with global tuning, every block is read higher by one and the same part of a semitone.
If most of the recording is in the bins at the semitones, this is at most a sixth of a semitone; if most is in the
bins above, it is from a sixth to a half; if most is in the bins below, it is from minus a half to minus a sixth. -/
theorem C77_tuning_nearest {fs : Int} (hfs : 0 < fs) {bs : Nat} (hb : 4 ≤ bs) (params : Params ℝ)
    (hloc : params.tuneLocal = false) {blocks : List (T × List ℝ)} (hbl : ∀ bl ∈ blocks, bs ≤ bl.2.length)
    (hne : blocks ≠ []) (junk : Nat → Nnls.St ℝ) :
    ∃ f τ, runAll exactFns fs bs params blocks junk = .ok (some f) ∧
      (∀ k, k < blocks.length → ∃ bl v, blocks[k]? = some bl ∧ f.tunedlogfreqspec[k]? = some (bl.1, v) ∧
        ∀ l, l < 256 → v.getD l 0 = whitened params.whitening (shifted τ (logSpec fs bs params.rollon bl.2)) l) ∧
      (share fs bs params.rollon blocks 1 ≤ share fs bs params.rollon blocks 0 →
        share fs bs params.rollon blocks 2 ≤ share fs bs params.rollon blocks 0 → |τ| ≤ 1 / 6) ∧
      (share fs bs params.rollon blocks 0 ≤ share fs bs params.rollon blocks 1 →
        share fs bs params.rollon blocks 2 < share fs bs params.rollon blocks 1 → 1 / 6 ≤ τ ∧ τ ≤ 1 / 2) ∧
      (share fs bs params.rollon blocks 0 ≤ share fs bs params.rollon blocks 2 →
        share fs bs params.rollon blocks 1 < share fs bs params.rollon blocks 2 → -(1 / 2) ≤ τ ∧ τ ≤ -(1 / 6)) := by
  obtain ⟨f, e, -, h⟩ := C74_tuned_spectrum hfs hb params hbl junk
  refine ⟨f, globalTuning (spectra fs bs params.rollon blocks), e, ?_, ?_, ?_, ?_⟩
  · intro k hk
    obtain ⟨bl, v, b1, v1, -, v3⟩ := h k hk
    refine ⟨bl, v, b1, v1, ?_⟩
    unfold tuningAt at v3
    rw [hloc] at v3
    exact v3
  · intro h1 h2
    rw [globalTuning_share fs bs _ hne]
    exact angle_in_tune h1 h2
  · intro h1 h2
    rw [globalTuning_share fs bs _ hne]
    exact angle_sharp h1 h2.le (fun h => absurd h.2.symm h2.ne)
  · intro h1 h2
    rw [globalTuning_share fs bs _ hne]
    exact angle_flat h1 h2

/-- A tone of 440 Hz lies mostly in the bins at the semitones. -/
example : 0 < share 1000 1000 0 [((), toneA 100)] 0 ∧
    share 1000 1000 0 [((), toneA 100)] 1 ≤ share 1000 1000 0 [((), toneA 100)] 0 ∧
    share 1000 1000 0 [((), toneA 100)] 2 ≤ share 1000 1000 0 [((), toneA 100)] 0 := by
  have key : ∀ i, i < 3 → ∀ t0, t0 < 54 → (∀ t, t < 54 → t ≠ t0 → (3 * t + i < 146 ∨ 148 < 3 * t + i)) →
      share 1000 1000 0 [((), toneA 100)] i = 100 * spread 1000 1000 440 (3 * t0 + i) := by
    intro i hi t0 ht0 h
    unfold share
    rw [List.map_cons, List.map_nil, List.sum_cons, List.sum_nil, add_zero, sum_eq_single t0]
    · rw [toneA_logSpec (by norm_num) (by norm_num)]
    · intro t ht hne
      have := mem_range.mp ht
      rw [toneA_logSpec (by norm_num) (by norm_num), tone_zero (by omega) (h t this hne), mul_zero]
    · intro h
      exact absurd (mem_range.mpr ht0) h
  rw [key 0 (by omega) 49 (by omega) (by intro t _ _; omega), key 1 (by omega) 49 (by omega) (by intro t _ _; omega),
    key 2 (by omega) 48 (by omega) (by intro t _ _; omega)]
  have h1 := tone_peak (l := 148) (by omega)
  have h2 := tone_peak (l := 146) (by omega)
  exact ⟨mul_pos (by norm_num) tone_pos, mul_le_mul_of_nonneg_left h1 (by norm_num),
    mul_le_mul_of_nonneg_left h2 (by norm_num)⟩

theorem third_up {L M : Nat → ℝ} (h0 : M 0 = 0) (h : ∀ l, M (l + 1) = L l) (hL : L 161 = 0) :
    third M 0 = third L 2 ∧ third M 1 = third L 0 ∧ third M 2 = third L 1 := by
  unfold third
  refine ⟨?_, sum_congr rfl (fun t _ => h _), sum_congr rfl (fun t _ => h _)⟩
  rw [sum_range_succ' (n := 53), sum_range_succ (n := 53)]
  rw [show 3 * 53 + 2 = 161 by norm_num, hL, show 3 * 0 + 0 = 0 by norm_num, h0]
  congr 1
  apply sum_congr rfl
  intro t _
  exact h _

/-- Turning the three weights by one turns the vector by a third of the circle. -/
theorem angle_turn {x y : Nat → ℝ} (h0 : y 0 = x 2) (h1 : y 1 = x 0) (h2 : y 2 = x 1)
    (hne : ¬ (x 0 = x 1 ∧ x 1 = x 2)) (hx : angle x ≤ 1 / 6) : angle y = angle x + 1 / 3 := by
  have hp := Real.pi_pos
  have h3 := sqrt3_pos
  have hsq : Real.sqrt 3 * Real.sqrt 3 = 3 := Real.mul_self_sqrt (by norm_num)
  rw [angle_eq] at hx
  rw [angle_eq, angle_eq, h0, h1, h2]
  generalize hz : (⟨x 0 - (x 1 + x 2) / 2, Real.sqrt 3 / 2 * (x 1 - x 2)⟩ : ℂ) = z at hx
  have hre : z.re = x 0 - (x 1 + x 2) / 2 := by rw [← hz]
  have him : z.im = Real.sqrt 3 / 2 * (x 1 - x 2) := by rw [← hz]
  have hz0 : z ≠ 0 := by
    rintro rfl
    simp only [Complex.zero_re, Complex.zero_im] at hre him
    have : x 1 - x 2 = 0 := by
      rcases mul_eq_zero.mp him.symm with h | h
      · linarith
      · exact h
    exact hne ⟨by linarith, by linarith⟩
  have hω : (⟨x 2 - (x 0 + x 1) / 2, Real.sqrt 3 / 2 * (x 0 - x 1)⟩ : ℂ) = ⟨-1 / 2, Real.sqrt 3 / 2⟩ * z := by
    apply Complex.ext
    · rw [Complex.mul_re, hre, him]
      dsimp only
      linear_combination (x 1 - x 2) / 4 * hsq
    · rw [Complex.mul_im, hre, him]
      dsimp only
      ring
  have harg : Complex.arg ⟨-1 / 2, Real.sqrt 3 / 2⟩ = 2 * Real.pi / 3 := by
    have e : (⟨-1 / 2, Real.sqrt 3 / 2⟩ : ℂ) = Complex.cos ((2 * Real.pi / 3 : ℝ) : ℂ) +
        Complex.sin ((2 * Real.pi / 3 : ℝ) : ℂ) * Complex.I := by
      rw [← Complex.ofReal_cos, ← Complex.ofReal_sin, show 2 * Real.pi / 3 = Real.pi - Real.pi / 3 by ring,
        Real.cos_pi_sub, Real.sin_pi_sub, Real.cos_pi_div_three, Real.sin_pi_div_three]
      apply Complex.ext <;> simp
      ring
    rw [e, Complex.arg_cos_add_sin_mul_I ⟨by linarith, by linarith⟩]
  have hω0 : (⟨-1 / 2, Real.sqrt 3 / 2⟩ : ℂ) ≠ 0 := by
    intro h
    have := congrArg Complex.re h
    norm_num at this
  have g1 := Complex.neg_pi_lt_arg z
  rw [div_le_iff₀ (by positivity)] at hx
  rw [hω, Complex.arg_mul hω0 hz0 ⟨by rw [harg]; linarith, by rw [harg]; linarith⟩, harg]
  field_simp
  ring

/-- A recording whose log-frequency spectra are one bin - a third of a semitone - higher throughout gets a tuning a
third of a semitone higher and is read as much higher, so that the tuned spectra before whitening are those of the
original.  The original is to be less than a sixth of a semitone sharp, to have a preference among the three classes
of bins, and nothing in bin 161, which would be counted no more. -/
theorem C77_sharp_recording_same (Ls Ms : List (Nat → ℝ)) (hlen : Ms.length = Ls.length)
    (h : ∀ (k : Nat) L M, Ls[k]? = some L → Ms[k]? = some M → M 0 = 0 ∧ (∀ l, M (l + 1) = L l) ∧ L 161 = 0)
    (hne : ¬ ((Ls.map (third · 0)).sum = (Ls.map (third · 1)).sum ∧
      (Ls.map (third · 1)).sum = (Ls.map (third · 2)).sum))
    (hsmall : globalTuning Ls ≤ 1 / 6) :
    globalTuning Ms = globalTuning Ls + 1 / 3 ∧
    ∀ (k : Nat) L M, Ls[k]? = some L → Ms[k]? = some M → ∀ l, shifted (globalTuning Ms) M l = shifted (globalTuning Ls) L l := by
  have hsum : ∀ i j, (∀ (k : Nat) L M, Ls[k]? = some L → Ms[k]? = some M → third M i = third L j) →
      (Ms.map (third · i)).sum = (Ls.map (third · j)).sum := by
    intro i j hij
    congr 1
    apply List.ext_getElem (by simp [hlen])
    intro k h1 h2
    simp only [List.length_map] at h1 h2
    rw [List.getElem_map, List.getElem_map]
    exact hij k _ _ (List.getElem?_eq_getElem h2) (List.getElem?_eq_getElem h1)
  have e0 := hsum 0 2 (fun k L M hL hM => (third_up (h k L M hL hM).1 (h k L M hL hM).2.1 (h k L M hL hM).2.2).1)
  have e1 := hsum 1 0 (fun k L M hL hM => (third_up (h k L M hL hM).1 (h k L M hL hM).2.1 (h k L M hL hM).2.2).2.1)
  have e2 := hsum 2 1 (fun k L M hL hM => (third_up (h k L M hL hM).1 (h k L M hL hM).2.1 (h k L M hL hM).2.2).2.2)
  have hpos : (Ls.length : ℝ) ≠ 0 := by
    intro h0
    have h0' : Ls.length = 0 := by exact_mod_cast h0
    rw [List.eq_nil_of_length_eq_zero h0'] at hne
    exact hne ⟨rfl, rfl⟩
  have ht : globalTuning Ms = globalTuning Ls + 1 / 3 := by
    unfold globalTuning at hsmall ⊢
    apply angle_turn _ _ _ _ hsmall
    · rw [e0, hlen]
    · rw [e1, hlen]
    · rw [e2, hlen]
    · rintro ⟨h1, h2⟩
      exact hne ⟨(div_left_inj' hpos).mp h1, (div_left_inj' hpos).mp h2⟩
  refine ⟨ht, ?_⟩
  intro k L M hL hM l
  obtain ⟨-, hup, -⟩ := h k L M hL hM
  rw [ht]
  unfold shifted
  split_ifs with hl
  · have hfl : 0 ≤ ⌊(l : ℝ) + 3 * globalTuning Ls⌋ := by
      have := (angle_floor (fun i => (Ls.map (fun L => third L i)).sum / Ls.length)).1
      change -2 ≤ ⌊3 * globalTuning Ls⌋ at this
      rw [show ((l : ℝ) + 3 * globalTuning Ls) = ((l : ℤ) : ℝ) + 3 * globalTuning Ls by norm_num, Int.floor_intCast_add]
      omega
    unfold lerp
    rw [show (l : ℝ) + 3 * (globalTuning Ls + 1 / 3) = (l : ℝ) + 3 * globalTuning Ls + 1 by ring, Int.floor_add_one,
      Int.fract_add_one]
    generalize ⌊(l : ℝ) + 3 * globalTuning Ls⌋ = q at hfl
    rw [show (q + 1).toNat = q.toNat + 1 by omega, show (q + 1 + 1).toNat = (q + 1).toNat + 1 by omega, hup, hup,
      show (q + 1).toNat = q.toNat + 1 by omega]
  · rfl

/-- One note at MIDI note 60 and the same a third of a semitone higher. -/
example : ¬ (([fun l => if l = 120 then (1 : ℝ) else 0].map (third · 0)).sum =
      ([fun l => if l = 120 then (1 : ℝ) else 0].map (third · 1)).sum ∧
      ([fun l => if l = 120 then (1 : ℝ) else 0].map (third · 1)).sum =
      ([fun l => if l = 120 then (1 : ℝ) else 0].map (third · 2)).sum) ∧
    globalTuning [fun l => if l = 120 then (1 : ℝ) else 0] ≤ 1 / 6 ∧
    ∀ (k : Nat) L M, [fun l => if l = 120 then (1 : ℝ) else 0][k]? = some L →
      [fun l => if l = 121 then (1 : ℝ) else 0][k]? = some M → M 0 = 0 ∧ (∀ l, M (l + 1) = L l) ∧ L 161 = 0 := by
  have t0 : third (fun l => if l = 120 then (1 : ℝ) else 0) 0 = 1 := by
    unfold third
    rw [sum_eq_single 40]
    · norm_num
    · intro t _ ht
      beta_reduce
      rw [if_neg (by omega)]
    · intro h
      exact absurd (mem_range.mpr (by norm_num)) h
  have t1 : ∀ i, i = 1 ∨ i = 2 → third (fun l => if l = 120 then (1 : ℝ) else 0) i = 0 := by
    intro i hi
    unfold third
    apply sum_eq_zero
    intro t _
    beta_reduce
    rw [if_neg (by omega)]
  refine ⟨?_, ?_, ?_⟩
  · simp only [List.map_cons, List.map_nil, List.sum_cons, List.sum_nil, t0, t1 1 (by omega)]
    norm_num
  · unfold globalTuning
    apply le_of_abs_le
    apply angle_in_tune
    · simp only [List.map_cons, List.map_nil, List.sum_cons, List.sum_nil, t0, t1 1 (by omega)]
      norm_num
    · simp only [List.map_cons, List.map_nil, List.sum_cons, List.sum_nil, t0, t1 2 (by omega)]
      norm_num
  · intro k L M hL hM
    cases k with
    | succ k => cases hL
    | zero =>
      cases hL
      cases hM
      refine ⟨by norm_num, ?_, by norm_num⟩
      intro l
      simp only [Nat.reduceEqDiff]

/-! ### C78: the bass noise threshold -/

/-- The energy of the bins up to and including `n`, of all the bins if `n` is the last. -/
noncomputable def upTo (m : Nat → ℝ) (n : Nat) : ℝ := ∑ j ∈ range (n + 1), m j ^ 2

open Classical in
/-- What the parameter description promises: "All bins below the first bin whose cumulative energy exceeds the
quantile [bass noise threshold] x [total energy] will be set to 0." -/
noncomputable def promised (percent : ℝ) (N : Nat) (m : Nat → ℝ) (n : Nat) : ℝ :=
  if ∀ j, j ≤ n → upTo m j ≤ percent / 100 * upTo m (N - 1) then 0 else m n

/-- The magnitudes of a block after the bass noise threshold. -/
noncomputable def thresholded (p : Base ℝ T) (fbuf : List ℝ) : Run (List ℝ) := do
  let r ← magnitudes exactFns p fbuf
  applyRollon exactFns p r.2.2 r.1

theorem thresholded_eq (p : Base ℝ T) {fbuf : List ℝ} (hf : 2 * (p.blockSize / 2) ≤ fbuf.length) :
    ∃ out, thresholded p fbuf = .ok out ∧ out.length = p.blockSize / 2 ∧
      ∀ n, n < p.blockSize / 2 → out.getD n 0 = rolled p.params.rollon p.blockSize fbuf n := by
  obtain ⟨r, e1, h1, -, h3⟩ := magnitudes_exact p hf
  obtain ⟨out, e2, h4, h5⟩ := applyRollon_exact p h1 h3
  refine ⟨out, ?_, h4, h5⟩
  unfold thresholded
  rw [e1, bind_ok, e2]

/-- A threshold of zero changes nothing. -/
theorem C78_zero_changes_nothing (p : Base ℝ T) (h0 : p.params.rollon ≤ 0) {fbuf : List ℝ}
    (hf : 2 * (p.blockSize / 2) ≤ fbuf.length) :
    ∃ out, thresholded p fbuf = .ok out ∧ ∀ n, n < p.blockSize / 2 → out.getD n 0 = magn p.blockSize fbuf n := by
  obtain ⟨out, e, -, h⟩ := thresholded_eq p hf
  refine ⟨out, e, ?_⟩
  intro n hn
  rw [h n hn]
  unfold rolled
  rw [if_neg]
  rintro ⟨h1, -⟩
  linarith

/-- What the threshold does: the bins below some bin are set to zero and the others stay; the third bin and those
after it up to the second beyond the last that goes have less energy together than the threshold allows, and one more
would be too much.  What is missing of the promise is that the two lowest bins are not counted and that the count
runs two bins ahead. -/
theorem C78_threshold_partial (p : Base ℝ T) (h0 : 0 < p.params.rollon) {fbuf : List ℝ}
    (hf : 2 * (p.blockSize / 2) ≤ fbuf.length) :
    ∃ out cut, thresholded p fbuf = .ok out ∧
      (∀ n, n < p.blockSize / 2 → out.getD n 0 = if n < cut then 0 else magn p.blockSize fbuf n) ∧
      (0 < cut → cut + 1 < p.blockSize / 2 ∧ ∑ j ∈ Ico 2 (cut + 2), magn p.blockSize fbuf j ^ 2 <
        p.params.rollon / 100 * ∑ j ∈ range (p.blockSize / 2), magn p.blockSize fbuf j ^ 2) ∧
      (cut + 2 < p.blockSize / 2 →
        p.params.rollon / 100 * ∑ j ∈ range (p.blockSize / 2), magn p.blockSize fbuf j ^ 2 ≤
        ∑ j ∈ Ico 2 (cut + 3), magn p.blockSize fbuf j ^ 2) := by
  classical
  obtain ⟨out, e, -, h⟩ := thresholded_eq p hf
  generalize hN : p.blockSize / 2 = N at *
  have hlim : energy p.blockSize fbuf * p.params.rollon / 100 =
      p.params.rollon / 100 * ∑ j ∈ range N, magn p.blockSize fbuf j ^ 2 := by
    unfold energy
    rw [hN]
    ring
  have hex : ∃ c, ¬ (c + 2 < N ∧ lowEnergy p.blockSize fbuf (c + 2) < energy p.blockSize fbuf * p.params.rollon / 100) :=
    ⟨N, by omega⟩
  have hspec := Nat.find_spec hex
  have hmin : ∀ n, n < Nat.find hex → n + 2 < N ∧
      lowEnergy p.blockSize fbuf (n + 2) < energy p.blockSize fbuf * p.params.rollon / 100 := by
    intro n hn
    exact not_not.mp (Nat.find_min hex hn)
  refine ⟨out, Nat.find hex, e, ?_, ?_, ?_⟩
  · intro n hn
    rw [h n hn]
    unfold rolled
    rw [hN]
    by_cases hc : n < Nat.find hex
    · rw [if_pos hc, if_pos ⟨h0, hmin n hc⟩]
    · rw [if_neg hc, if_neg]
      rintro ⟨-, h1, h2⟩
      apply hspec
      have hle : Nat.find hex ≤ n := by omega
      exact ⟨by omega, lt_of_le_of_lt (lowEnergy_mono p.blockSize fbuf (by omega)) h2⟩
  · intro hc
    obtain ⟨h1, h2⟩ := hmin (Nat.find hex - 1) (by omega)
    refine ⟨by omega, ?_⟩
    rw [← hlim]
    have hq : Nat.find hex - 1 + 2 + 1 = Nat.find hex + 2 := by omega
    generalize Nat.find hex - 1 + 2 = q at h2 hq
    generalize Nat.find hex + 2 = r at hq ⊢
    subst hq
    exact h2
  · intro hc
    rw [← hlim]
    by_contra hlt
    exact hspec ⟨hc, not_le.mp hlt⟩

/-- A block with nearly everything in the second bin. -/
noncomputable def bassy : List ℝ := [0, 0, 5, 0, 0, 0, 1, 0]

/-- Its state: blocks of eight and a threshold of five percent. -/
noncomputable def bassyBase : Base ℝ T := { Base.new exactFns { Params.default exactFns with rollon := 5 } with blockSize := 8 }

/-- The promise is broken: with a threshold of five percent the bin that has more than nine tenths of the energy is
set to zero. -/
theorem C78_promise_violated :
    ∃ out, thresholded (bassyBase : Base ℝ T) bassy = .ok out ∧ out.getD 1 0 = 0 ∧
      promised 5 4 (magn 8 bassy) 1 = 5 := by
  have m : ∀ n, magn 8 bassy n = if n = 1 then 5 else if n = 3 then 1 else 0 := by
    intro n
    unfold magn
    match n with
    | 0 => simp [bassy]
    | 1 =>
      have : Real.sqrt (bassy.getD (2 * 1) 0 ^ 2 + bassy.getD (2 * 1 + 1) 0 ^ 2) = 5 := by
        simp only [bassy, Nat.reduceMul, Nat.reduceAdd, List.getD_cons_succ, List.getD_cons_zero]
        rw [show ((5 : ℝ) ^ 2 + 0 ^ 2) = 5 ^ 2 by norm_num, Real.sqrt_sq (by norm_num)]
      rw [this]
      norm_num
    | 2 => simp [bassy]
    | 3 => simp [bassy]
    | n + 4 =>
      have h1 : ∀ i, bassy.getD (i + 8) 0 = 0 := by
        intro i
        simp [bassy]
      rw [show 2 * (n + 4) = 2 * n + 8 by ring, show 2 * n + 8 + 1 = 2 * n + 1 + 8 by ring, h1, h1]
      simp
  obtain ⟨out, e, -, h⟩ := thresholded_eq (bassyBase : Base ℝ T) (fbuf := bassy) (by simp [bassyBase, bassy])
  refine ⟨out, e, ?_, ?_⟩
  · rw [h 1 (by simp [bassyBase])]
    unfold rolled
    rw [if_pos]
    have hr : (bassyBase : Base ℝ T).params.rollon = 5 := rfl
    have hb : (bassyBase : Base ℝ T).blockSize = 8 := rfl
    rw [hr, hb]
    unfold lowEnergy energy
    simp only [m]
    norm_num [sum_range_succ, sum_Ico_eq_sum_range]
  · unfold promised
    rw [if_neg]
    · rw [m, if_pos rfl]
    · intro h
      have := h 1 le_rfl
      unfold upTo at this
      simp only [m] at this
      norm_num [sum_range_succ] at this

/-! ### C79: the mapping to log frequency -/

/-- In exact arithmetic the matrix that maps Fourier bins to log-frequency bins has no negative entry; a Fourier bin
goes only to log-frequency bins whose pitch - MIDI note 20 plus a third for every bin, within a few ten-thousandths -
is less than a third of a semitone from a frequency less than one Fourier bin away; and every Fourier bin in the range
goes somewhere, to a bin less than a quarter of a semitone off. -/
theorem C79_mapping {fs : Int} (hfs : 0 < fs) {bs size : Nat} (hb : 4 ≤ bs) (hs : nNote * (bs / 2) ≤ size) :
    ∃ (out : List ℝ) (pitch : Nat → ℝ), logFreqMatrix exactFns fs bs size = .ok out ∧
      (∀ l, l < 256 → |pitch l - (20 + (l : ℝ) / 3)| ≤ 0.0002) ∧
      ∀ n, n < bs / 2 →
        (∀ l, l < 256 → 0 ≤ out.getD (n + bs / 2 * l) 0) ∧
        (∀ l, l < 256 → 0 < out.getD (n + bs / 2 * l) 0 →
          ∃ x : ℝ, 0 < x ∧ |x - n * (fs / bs)| < fs / bs ∧ |midi x - pitch l| < 1 / 3) ∧
        (0 < n → pitch 0 ≤ midi (n * (fs / bs)) → midi (n * (fs / bs)) ≤ pitch 255 →
          ∃ l, l < 256 ∧ |midi (n * (fs / bs)) - pitch l| < 1 / 4 ∧ 0 < out.getD (n + bs / 2 * l) 0) := by
  obtain ⟨out, e, -, h⟩ := logFreqMatrix_exact hfs hb hs
  refine ⟨out, fun l => midi (binFreq l), e, fun l hl => midi_bin hl, ?_⟩
  intro n hn
  refine ⟨?_, ?_, ?_⟩
  · intro l hl
    rw [h n l hn hl]
    exact spread_nonneg _ _ _ _
  · intro l hl hpos
    rw [h n l hn hl] at hpos
    exact spread_pos_near hfs (by omega) hpos
  · intro h0 h1 h2
    obtain ⟨l, hl, h3, h4⟩ := spread_covers hfs (by omega) h1 h2 h0
    exact ⟨l, hl, h3, by rw [h n l hn hl]; exact h4⟩

/-- The tone of 440 Hz is in the range. -/
example : midi (binFreq 0) ≤ midi ((440 : Nat) * ((1000 : Int) / (1000 : Nat))) ∧
    midi ((440 : Nat) * ((1000 : Int) / (1000 : Nat))) ≤ midi (binFreq 255) := by
  have h0 := abs_le.mp (midi_bin (l := 0) (by omega))
  have h1 := abs_le.mp (midi_bin (l := 255) (by omega))
  have h2 : midi ((440 : Nat) * ((1000 : Int) / (1000 : Nat))) = 69 := by
    norm_num [midi]
  rw [h2]
  norm_num at h0 h1
  constructor <;> linarith

/-! ### C80: starting again -/

/-- A plug-in that is set up, hears one recording, is asked for its features, is reset, hears another and is asked
again: what it says then. -/
def secondRun (F : Fns D) (fs : Int) (blockSize : Nat) (params : Params D) (first second : List (T × List D))
    (junk1 junk2 : Nat → Nnls.St D) : Run (Option (Features D T)) := do
  let r ← initialise F fs 1 blockSize (Base.new F params)
  if r.1 then do
    let p ← first.foldlM (fun p bl => baseProcess F bl.2 bl.1 p) r.2
    let _ ← getRemainingFeatures F p junk1
    let p ← reset F p
    let p ← second.foldlM (fun p bl => baseProcess F bl.2 bl.1 p) p
    let f ← getRemainingFeatures F p junk2
    pure (some f)
  else pure none

theorem triple {v : List D} (h : v.length = nBPS) : ∃ a b c, v = [a, b, c] := by
  match v, h with
  | [a, b, c], _ => exact ⟨a, b, c, rfl⟩

theorem reset_eq (F : Fns D) {p p0 : Base D T} (h1 : p.meanTunings.length = nBPS) (h2 : p.localTunings.length = nBPS)
    (hp : p0 = { p with
      frameCount := 0
      logSpectrum := []
      meanTunings := List.replicate nBPS (F.lit 0)
      localTunings := List.replicate nBPS (F.lit 0)
      localTuning := [] }) : reset F p = .ok p0 := by
  subst hp
  obtain ⟨a, b, c, g1⟩ := triple h1
  obtain ⟨a', b', c', g2⟩ := triple h2
  clear h1 h2
  cases p
  dsimp only at g1 g2
  subst g1 g2
  rfl

theorem initialise_fresh (F : Fns D) (fs : Int) (bs : Nat) (params : Params D) {b : Bool} {p : Base D T}
    (h : initialise F fs 1 bs (Base.new F params : Base D T) = .ok (b, p)) :
    p.frameCount = 0 ∧ p.logSpectrum = [] ∧ p.meanTunings = List.replicate nBPS (F.lit 0) ∧
      p.localTunings = List.replicate nBPS (F.lit 0) ∧ p.localTuning = [] := by
  unfold initialise at h
  obtain ⟨d, -, h⟩ := bind_eq_ok.mp h
  obtain ⟨hw, -, h⟩ := bind_eq_ok.mp h
  dsimp only at h
  rw [if_neg (by omega)] at h
  obtain ⟨m, -, h⟩ := bind_eq_ok.mp h
  obtain ⟨k, -, h⟩ := bind_eq_ok.mp h
  have h := ok_inj h
  injection h with h3 h4
  subst h4
  exact ⟨rfl, rfl, rfl, rfl, rfl⟩

theorem baseProcess_keeps (F : Fns D) {fbuf : List D} {ts : T} {p q : Base D T} (h : baseProcess F fbuf ts p = .ok q) :
    q = { p with
      frameCount := q.frameCount
      logSpectrum := q.logSpectrum
      meanTunings := q.meanTunings
      localTunings := q.localTunings
      localTuning := q.localTuning } := by
  unfold baseProcess at h
  obtain ⟨r, -, h⟩ := bind_eq_ok.mp h
  obtain ⟨m1, -, h⟩ := bind_eq_ok.mp h
  obtain ⟨m2, -, h⟩ := bind_eq_ok.mp h
  obtain ⟨nm, -, h⟩ := bind_eq_ok.mp h
  obtain ⟨p', hu, h⟩ := bind_eq_ok.mp h
  obtain ⟨t, -, h⟩ := bind_eq_ok.mp h
  have h := ok_inj h
  unfold updateTunings at hu
  obtain ⟨a, -, hu⟩ := bind_eq_ok.mp hu
  obtain ⟨b, -, hu⟩ := bind_eq_ok.mp hu
  have hu := ok_inj hu
  subst hu
  subst h
  rfl

/-- For any arithmetic in which comparisons are those of IEEE numbers and the tuning estimate stays within half a
semitone: after a reset nothing is left of the first recording, and the features of the second are those of a plug-in
that never heard the first. -/
theorem C80_reset_forgets (F : Fns D) (hO : Nnls.Ordered F.toOps) (hT : Tunes F) (fs : Int) {bs : Nat} (hb : 4 ≤ bs)
    (params : Params D) {first second : List (T × List D)} (h1 : ∀ bl ∈ first, bs ≤ bl.2.length)
    (junk1 junk2 : Nat → Nnls.St D) :
    secondRun F fs bs params first second junk1 junk2 = runAll F fs bs params second junk2 := by
  obtain ⟨f, e, -, -, -, -, -, -, p, hp, -, -, p0, e0, e1⟩ := runAll_ok F (signed_true F) hO hT fs hb params h1 junk1
  have hgr : ∃ g, getRemainingFeatures F p junk1 = .ok g := by
    obtain ⟨g, eg, -⟩ := getRemainingFeatures_ok F (signed_true F) hO hT hp.ready junk1
    exact ⟨g, eg⟩
  obtain ⟨g, eg⟩ := hgr
  have hfresh := initialise_fresh F fs bs params e0
  have hkeep : ∀ (l : List (T × List D)) (a b : Base D T), l.foldlM (fun p bl => baseProcess F bl.2 bl.1 p) a = .ok b →
      b = { a with
        frameCount := b.frameCount
        logSpectrum := b.logSpectrum
        meanTunings := b.meanTunings
        localTunings := b.localTunings
        localTuning := b.localTuning } := by
    intro l
    induction l with
    | nil =>
      intro a b h
      have h := ok_inj h
      subst h
      rfl
    | cons x l ih =>
      intro a b h
      rw [List.foldlM_cons] at h
      obtain ⟨c, hc, h⟩ := bind_eq_ok.mp h
      have k1 := baseProcess_keeps F hc
      have k2 := ih c b h
      rw [k1] at k2
      exact k2
  have hr : reset F p = .ok p0 := by
    apply reset_eq F hp.ready.mean hp.ready.loc
    have hk := hkeep first p0 p e1
    obtain ⟨z1, z2, z3, z4, z5⟩ := hfresh
    cases p0
    dsimp only at z1 z2 z3 z4 z5 hk
    subst z1 z2 z3 z4 z5
    rw [hk]
  unfold secondRun runAll
  rw [e0, bind_ok, bind_ok, if_pos rfl, if_pos rfl]
  rw [e1, bind_ok, eg, bind_ok, hr, bind_ok]

/-- With exact arithmetic, for example, and two different tones. -/
example (junk1 junk2 : Nat → Nnls.St ℝ) :
    secondRun exactFns 1000 1000 (Params.default exactFns) [((), toneA 100)] [((), toneA 300)] junk1 junk2 =
      runAll exactFns 1000 1000 (Params.default exactFns) [((), toneA 300)] junk2 :=
  C80_reset_forgets exactFns exact_ordered exact_tunes 1000 (by norm_num) _ (by simp [toneA_length]) _ _

end JKD.Chroma
