import Verif.Lemmas.ChromaTune
/-
A whole run of the chroma plug-in in exact arithmetic: the tuned spectra.
-/

namespace JKD.Chroma

open Finset

variable {T : Type}

/-! ### Specification -/

/-- Linear interpolation. -/
noncomputable def lerp (f : Nat → ℝ) (x : ℝ) : ℝ :=
  (1 - Int.fract x) * f ⌊x⌋.toNat + Int.fract x * f (⌊x⌋ + 1).toNat

/-- The spectrum read `τ` semitones higher, without the two lowest and the three highest bins. -/
noncomputable def shifted (τ : ℝ) (f : Nat → ℝ) (l : Nat) : ℝ :=
  if 2 ≤ l ∧ l < 253 then lerp f (l + 3 * τ) else 0

/-- The log-frequency spectra of the blocks of a recording. -/
noncomputable def spectra (fs : Int) (bs : Nat) (rollon : ℝ) (blocks : List (T × List ℝ)) : List (Nat → ℝ) :=
  blocks.map (fun b => logSpec fs bs rollon b.2)

/-- The tuning of a recording: the angle of the mean over the blocks. -/
noncomputable def globalTuning (Ls : List (Nat → ℝ)) : ℝ := angle (fun i => (Ls.map (fun L => third L i)).sum / Ls.length)

/-- The tuning at block `k`. -/
noncomputable def localTuningAt (Ls : List (Nat → ℝ)) (k : Nat) : ℝ := angle (smoothed (Ls.take (k + 1)))

/-- The tuning used for block `k`. -/
noncomputable def tuningAt (tuneLocal : Bool) (Ls : List (Nat → ℝ)) (k : Nat) : ℝ :=
  if tuneLocal then localTuningAt Ls k else globalTuning Ls

/-! ### Setting up -/

theorem initialise_exact {fs : Int} (hfs : 0 < fs) {bs : Nat} (hb : 4 ≤ bs) (params : Params ℝ) {p : Base ℝ T}
    (e : initialise exactFns fs 1 bs (Base.new exactFns params : Base ℝ T) = .ok (true, p)) :
    p.sinvalues = (List.range nBPS).map (fun i : Nat =>
      exactFns.sin (exactFns.mul (exactFns.mul (exactFns.lit 2) exactFns.pi) (exactFns.div (exactFns.lit (i : Nat)) (exactFns.lit nBPS)))) ∧
    p.cosvalues = (List.range nBPS).map (fun i : Nat =>
      exactFns.cos (exactFns.mul (exactFns.mul (exactFns.lit 2) exactFns.pi) (exactFns.div (exactFns.lit (i : Nat)) (exactFns.lit nBPS)))) ∧
    p.meanTunings = List.replicate 3 0 ∧ p.localTunings = List.replicate 3 0 ∧ p.localTuning = [] ∧
    p.logSpectrum = [] ∧ p.frameCount = 0 ∧
    ∀ g : ℝ × Nat × Nat → ℝ, (p.kernel.map g).sum = ∑ l ∈ range 256, ∑ n ∈ range (bs / 2),
      if 0 < spread fs bs n l then g (spread fs bs n l, n, l) else 0 := by
  unfold initialise at e
  obtain ⟨d, e1, e⟩ := bind_eq_ok.mp e
  obtain ⟨hw, e2, e⟩ := bind_eq_ok.mp e
  rw [if_neg (by omega)] at e
  obtain ⟨temp, e3, e⟩ := bind_eq_ok.mp e
  obtain ⟨ker, e4, e⟩ := bind_eq_ok.mp e
  have hlen : nNote * (bs / 2) ≤ nNote * bs / 2 := by simp only [nNote, nBPS]; omega
  obtain ⟨temp', e3', l3, c3⟩ := logFreqMatrix_exact hfs (size := nNote * bs / 2) hb hlen
  rw [e3] at e3'
  cases e3'
  obtain ⟨ker', e4', c4⟩ := kernel_sum (N := bs / 2) (temp := temp) (by rw [l3]; exact hlen)
  have e4'' := e4.symm.trans e4'
  cases e4''
  cases e
  refine ⟨rfl, rfl, ?_, ?_, rfl, rfl, rfl, ?_⟩
  · change [] ++ List.replicate nBPS (exactFns.lit 0) = _
    simp [nBPS]
  · change [] ++ List.replicate nBPS (exactFns.lit 0) = _
    simp [nBPS]
  · intro g
    rw [show (ker.map g).sum = _ from c4 g]
    apply sum_congr rfl
    intro l hl
    apply sum_congr rfl
    intro n hn
    rw [c3 n l (mem_range.mp hn) (mem_range.mp hl)]

/-! ### Block by block -/

/-- The state of the plug-in after the blocks `done`. -/
structure Running (fs : Int) (bs : Nat) (params : Params ℝ) (done : List (T × List ℝ)) (p : Base ℝ T) : Prop where
  setup : SetUp exactFns (fun x : ℝ => 0 ≤ x) bs params p
  sinv : p.sinvalues = (List.range nBPS).map (fun i : Nat =>
      exactFns.sin (exactFns.mul (exactFns.mul (exactFns.lit 2) exactFns.pi) (exactFns.div (exactFns.lit (i : Nat)) (exactFns.lit nBPS))))
  cosv : p.cosvalues = (List.range nBPS).map (fun i : Nat =>
      exactFns.cos (exactFns.mul (exactFns.mul (exactFns.lit 2) exactFns.pi) (exactFns.div (exactFns.lit (i : Nat)) (exactFns.lit nBPS))))
  kernel : ∀ g : ℝ × Nat × Nat → ℝ, (p.kernel.map g).sum = ∑ l ∈ range 256, ∑ n ∈ range (bs / 2),
      if 0 < spread fs bs n l then g (spread fs bs n l, n, l) else 0
  count : p.frameCount = done.length
  spec : p.logSpectrum = done.map (fun b => (b.1, (List.range 256).map (logSpec fs bs params.rollon b.2)))
  mean : ∀ i, i < 3 → p.meanTunings.getD i 0 =
    ((spectra fs bs params.rollon done).map (fun L => third L i)).sum / done.length
  loc : ∀ i, i < 3 → p.localTunings.getD i 0 = smoothed (spectra fs bs params.rollon done) i
  tun : p.localTuning = (List.range done.length).map (localTuningAt (spectra fs bs params.rollon done))

theorem angle_congr {x y : Nat → ℝ} (h : ∀ i, i < 3 → x i = y i) : angle x = angle y := by
  unfold angle
  congr 3
  · apply sum_congr rfl
    intro i hi
    rw [h i (mem_range.mp hi)]
  · apply sum_congr rfl
    intro i hi
    rw [h i (mem_range.mp hi)]

theorem third_congr {L M : Nat → ℝ} (h : ∀ l, l < 256 → L l = M l) {i : Nat} (hi : i < 3) : third L i = third M i := by
  unfold third
  apply sum_congr rfl
  intro t ht
  have := mem_range.mp ht
  rw [h _ (by omega)]

theorem mapNotes_exact {fs : Int} {bs : Nat} {p : Base ℝ T} (hbs : p.blockSize = bs)
    (hk : ∀ k ∈ p.kernel, (0 : ℝ) ≤ k.1 ∧ k.2.1 < p.blockSize / 2 ∧ k.2.2 < nNote)
    (hg : ∀ g : ℝ × Nat × Nat → ℝ, (p.kernel.map g).sum = ∑ l ∈ range 256, ∑ n ∈ range (bs / 2),
      if 0 < spread fs bs n l then g (spread fs bs n l, n, l) else 0)
    {mag : List ℝ} (hl : mag.length = bs / 2) {rollon : ℝ} {buf : List ℝ}
    (hm : ∀ n, n < bs / 2 → mag.getD n 0 = audible rollon bs buf n) :
    mapNotes exactFns p.kernel mag = .ok ((List.range 256).map (logSpec fs bs rollon buf)) := by
  unfold mapNotes
  obtain ⟨r, e, h1, h2⟩ := mapNotes_sum (kernel := p.kernel) (mag := mag) (v := List.replicate nNote (exactFns.lit 0))
    (by rw [List.length_replicate]; rfl) (by
      intro k hk'
      obtain ⟨-, g2, g3⟩ := hk k hk'
      exact ⟨by omega, g3⟩)
  rw [e]
  congr 1
  apply List.ext_getElem?
  intro l
  by_cases hl' : l < 256
  · have h3 : r[l]? = some (r.getD l 0) := by
      rw [List.getD_eq_getElem?_getD, List.getElem?_eq_getElem (by omega)]
      rfl
    rw [h3, List.getElem?_map, List.getElem?_range hl', h2]
    simp only [Option.map_some]
    congr 1
    have h4 : (List.replicate nNote (exactFns.lit 0)).getD l 0 = 0 := by
      simp only [ex_lit, Rat.cast_zero]
      exact getD_replicate_zero _ _
    rw [h4, zero_add, hg]
    unfold logSpec
    rw [sum_eq_single l]
    · apply sum_congr rfl
      intro n hn
      simp only [if_true]
      rw [hm n (mem_range.mp hn)]
      by_cases hp : 0 < spread fs bs n l
      · rw [if_pos hp]
      · rw [if_neg hp, le_antisymm (not_lt.mp hp) (spread_nonneg _ _ _ _), mul_zero]
    · intro b _ hb
      apply sum_eq_zero
      intro n _
      simp only [if_neg hb, ite_self]
    · intro h
      exact absurd (mem_range.mpr hl') h
  · rw [List.getElem?_eq_none (by omega), List.getElem?_eq_none (by simp; omega)]

theorem smoothed_snoc (Ls : List (Nat → ℝ)) (L : Nat → ℝ) (i : Nat) :
    smoothed (Ls ++ [L]) i = (List.range 54).foldl (fun x t => x * 0.997 + L (3 * t + i) * 0.003) (smoothed Ls i) := by
  unfold smoothed
  rw [List.foldl_append, List.foldl_cons, List.foldl_nil]

theorem running_step {fs : Int} {bs : Nat} {params : Params ℝ} {done : List (T × List ℝ)} {p : Base ℝ T}
    (hp : Running fs bs params done p) {buf : List ℝ} (hbuf : bs ≤ buf.length) (ts : T) :
    ∃ p', baseProcess exactFns buf ts p = .ok p' ∧ Running fs bs params (done ++ [(ts, buf)]) p' := by
  have hbs := hp.setup.blockSize
  have hpar := hp.setup.pars
  obtain ⟨p', nm, e, g1, g2, g4, g3, -, g5, g6, -⟩ := baseProcess_ok exactFns exact_signed exact_tunes hp.setup.ready
    (fbuf := buf) (by omega) ts
  refine ⟨p', e, ?_⟩
  have hset : SetUp exactFns (fun x : ℝ => 0 ≤ x) bs params p' :=
    ⟨g1, by rw [g2, hbs], by rw [g4, hpar], by rw [g5]; exact hp.setup.dict, by rw [g6]; exact hp.setup.hw⟩
  clear g1 g2 g4 g3 g5 g6
  obtain ⟨r, e1, q1, q2, q3⟩ := magnitudes_exact { p with frameCount := p.frameCount + 1 } (fbuf := buf)
    (by dsimp only; omega)
  obtain ⟨m2, e2, l2, c2⟩ := applyRollon_exact { p with frameCount := p.frameCount + 1 } (fbuf := buf) q1 q3
  obtain ⟨m3, e3, l3, c3⟩ := silence_exact { p with frameCount := p.frameCount + 1 } (fbuf := buf) q2 l2 c2
  dsimp only at l3 c3
  rw [hbs] at l3 c3
  have e4 := mapNotes_exact (fs := fs) hbs hp.setup.ready.kernel hp.kernel l3 c3
  rw [hpar] at e4
  obtain ⟨m5, l5, e5, n5, n5', c5, c5'⟩ := updateTunings_exact (nm := (List.range 256).map (logSpec fs bs params.rollon buf))
    (by simp) { p with frameCount := p.frameCount + 1 } hp.setup.ready.mean hp.setup.ready.loc
  have e6 := normalisedTuning_exact
    { p with frameCount := p.frameCount + 1, meanTunings := m5, localTunings := l5 } hp.sinv hp.cosv n5'
  unfold baseProcess at e
  simp only [e1, e2, e3, e4, e5, e6, bind_ok] at e
  cases e
  have hnew : spectra fs bs params.rollon (done ++ [(ts, buf)]) =
      spectra fs bs params.rollon done ++ [logSpec fs bs params.rollon buf] := by simp [spectra]
  have hget : ∀ l, l < 256 → ((List.range 256).map (logSpec fs bs params.rollon buf)).getD l 0 =
      logSpec fs bs params.rollon buf l := fun l hl => getD_map_range hl _
  have hloc : ∀ i, i < 3 → l5.getD i 0 = smoothed (spectra fs bs params.rollon (done ++ [(ts, buf)])) i := by
    intro i hi
    rw [c5' i hi, hnew, smoothed_snoc]
    dsimp only
    rw [hp.loc i hi]
    apply List.foldl_ext
    intro x t ht
    have := List.mem_range.mp ht
    rw [hget _ (by omega)]
  exact {
    setup := hset
    sinv := hp.sinv
    cosv := hp.cosv
    kernel := hp.kernel
    count := by
      change p.frameCount + 1 = _
      rw [hp.count]
      simp
    spec := by
      change p.logSpectrum ++ [(ts, _)] = _
      rw [hp.spec]
      simp
    mean := by
      intro i hi
      change m5.getD i 0 = _
      rw [c5 i hi, hnew, List.map_append, List.sum_append, third_congr hget hi]
      dsimp only
      rw [hp.mean i hi, hp.count]
      simp only [List.length_append, List.length_singleton, List.map_cons, List.map_nil, List.sum_singleton,
        Nat.add_sub_cancel]
      by_cases h0 : done.length = 0
      · have : done = [] := List.eq_nil_of_length_eq_zero h0
        subst this
        simp [spectra]
      · have h1 : (done.length : ℝ) ≠ 0 := by exact_mod_cast h0
        have h2 : ((done.length + 1 : Nat) : ℝ) ≠ 0 := by positivity
        field_simp
    loc := hloc
    tun := by
      change p.localTuning ++ [angle (fun i => l5.getD i 0)] = _
      rw [hp.tun, List.length_append, List.length_singleton, List.range_succ, List.map_append]
      congr 1
      · apply List.map_congr_left
        intro k hk
        have := List.mem_range.mp hk
        unfold localTuningAt
        rw [hnew, List.take_append_of_le_length (by simp [spectra]; omega)]
      · simp only [List.map_cons, List.map_nil]
        congr 1
        unfold localTuningAt
        rw [List.take_of_length_le (by simp [spectra])]
        exact angle_congr hloc }

theorem running_blocks {fs : Int} (hfs : 0 < fs) {bs : Nat} (hb : 4 ≤ bs) {params : Params ℝ}
    {blocks : List (T × List ℝ)} (hbl : ∀ bl ∈ blocks, bs ≤ bl.2.length) {p : Base ℝ T}
    (h : Made exactFns fs bs params blocks p) : Running fs bs params blocks p := by
  obtain ⟨p0, e0, e1⟩ := h
  obtain ⟨p0', e0', r0, b0, pa0, s0, -, d0, w0⟩ := initialise_ok (T := T) exactFns exact_signed fs hb params
  rw [e0] at e0'
  cases e0'
  obtain ⟨i1, i2, i3, i4, i5, i6, i7, i8⟩ := initialise_exact hfs hb params e0
  obtain ⟨p', e1', h'⟩ := foldlM_inv (f := fun p (bl : T × List ℝ) => baseProcess exactFns bl.2 bl.1 p) (l := blocks)
    (b := p0) (fun i (p : Base ℝ T) => Running fs bs params (blocks.take i) p)
    { setup := ⟨r0, b0, pa0, d0, w0⟩
      sinv := i1
      cosv := i2
      kernel := i8
      count := by simpa using i7
      spec := by simpa using i6
      mean := by
        intro i hi
        rw [i3, getD_replicate_zero]
        simp [spectra]
      loc := by
        intro i hi
        rw [i4, getD_replicate_zero]
        simp [spectra, smoothed]
      tun := by simpa using i5 } (by
      intro i bl hi p hp
      obtain ⟨p', e, h⟩ := running_step hp (hbl bl (List.mem_of_getElem? hi)) bl.1
      refine ⟨p', e, ?_⟩
      rw [List.take_add_one, hi]
      exact h)
  rw [e1] at e1'
  cases e1'
  rwa [List.take_of_length_le (le_refl _)] at h'

/-! ### The tuned spectra -/

theorem tuneFrame_exact (τ : ℝ) (hτ : -2 ≤ ⌊3 * τ⌋ ∧ ⌊3 * τ⌋ ≤ 1) {f1 : List ℝ} (hl : f1.length = 256) :
    ∃ f2, tuneFrame exactFns (shiftOf exactFns τ).1 (shiftOf exactFns τ).2 f1 = .ok f2 ∧ f2.length = 256 ∧
      ∀ l, l < 256 → f2.getD l 0 = shifted τ (fun l => f1.getD l 0) l := by
  have hs1 : (shiftOf exactFns τ).1 = ⌊3 * τ⌋ := by
    unfold shiftOf
    simp only [ex_floor, ex_mul, ex_lit]
    push_cast
    rw [mul_comm]
  have hs2 : (shiftOf exactFns τ).2 = Int.fract (3 * τ) := by
    unfold shiftOf
    simp only [ex_floor, ex_mul, ex_lit, ex_sub]
    push_cast
    rw [mul_comm]
    rfl
  rw [hs1, hs2]
  unfold tuneFrame
  obtain ⟨f2, e, h1, h2⟩ := loop_inv (body := fun t f2 => do
    let x ← rd f1 ((t : Int) + 2 + ⌊3 * τ⌋)
    let y ← rd f1 ((t : Int) + 2 + ⌊3 * τ⌋ + 1)
    pure (f2 ++ [exactFns.add (exactFns.mul x (exactFns.sub exactFns.one (Int.fract (3 * τ))))
      (exactFns.mul y (Int.fract (3 * τ)))])) (k := f1.length - 3 - 2) (s := [exactFns.lit 0, exactFns.lit 0])
    (fun k (f2 : List ℝ) => f2.length = k + 2 ∧ ∀ l, l < k + 2 → f2.getD l 0 = shifted τ (fun l => f1.getD l 0) l)
    ⟨rfl, by
      intro l hl
      unfold shifted
      rw [if_neg (by omega)]
      have : l = 0 ∨ l = 1 := by omega
      rcases this with rfl | rfl <;> simp⟩ (by
      rintro t ht f2 ⟨h1, h2⟩
      rw [rd_getD 0 (by omega) (by omega), bind_ok, rd_getD 0 (by omega) (by omega), bind_ok]
      refine ⟨_, rfl, by simp [h1], ?_⟩
      intro l hl'
      by_cases hlt : l < t + 2
      · rw [List.getD_eq_getElem?_getD, List.getElem?_append_left (by omega), ← List.getD_eq_getElem?_getD, h2 l hlt]
      · have : l = t + 2 := by omega
        subst this
        rw [List.getD_eq_getElem?_getD, List.getElem?_append_right (by omega), h1, Nat.sub_self]
        unfold shifted lerp
        rw [if_pos (by omega)]
        have hfl : ⌊((t + 2 : Nat) : ℝ) + 3 * τ⌋ = ((t + 2 : Nat) : Int) + ⌊3 * τ⌋ := Int.floor_natCast_add _ _
        have hfr : Int.fract (((t + 2 : Nat) : ℝ) + 3 * τ) = Int.fract (3 * τ) := Int.fract_natCast_add _ _
        rw [hfl, hfr]
        simp only [List.getElem?_cons_zero, Option.getD_some, ex_add, ex_mul, ex_sub, ex_one]
        push_cast
        ring)
  rw [e, bind_ok]
  refine ⟨_, rfl, by simp [h1, hl], ?_⟩
  intro l hl'
  by_cases hlt : l < 253
  · rw [List.getD_eq_getElem?_getD, List.getElem?_append_left (by omega), ← List.getD_eq_getElem?_getD, h2 l (by omega)]
  · rw [List.getD_eq_getElem?_getD, List.getElem?_append_right (by omega)]
    unfold shifted
    rw [if_neg (by omega)]
    have : l - f2.length = 0 ∨ l - f2.length = 1 ∨ l - f2.length = 2 := by omega
    rcases this with h | h | h <;> rw [h] <;> simp

theorem lerp_congr {f g : Nat → ℝ} (h : ∀ l, l < 256 → f l = g l) {x : ℝ} (h1 : ⌊x⌋ < 255) : lerp f x = lerp g x := by
  unfold lerp
  rw [h _ (by omega), h _ (by omega)]

theorem angle_floor (x : Nat → ℝ) : -2 ≤ ⌊3 * angle x⌋ ∧ ⌊3 * angle x⌋ ≤ 1 := by
  obtain ⟨h1, h2⟩ := arg_bounds (∑ i ∈ range 3, x i * Real.cos (2 * Real.pi * (i / 3)))
    (∑ i ∈ range 3, x i * Real.sin (2 * Real.pi * (i / 3)))
  change -(1 / 2) ≤ angle x at h1
  change angle x ≤ 1 / 2 at h2
  constructor
  · rw [Int.le_floor]
    push_cast
    linarith
  · rw [← Int.lt_add_one_iff, Int.floor_lt]
    push_cast
    linarith

theorem shifted_congr {τ : ℝ} (hτ : ⌊3 * τ⌋ ≤ 1) {f g : Nat → ℝ} (h : ∀ l, l < 256 → f l = g l) (l : Nat) :
    shifted τ f l = shifted τ g l := by
  unfold shifted
  by_cases hc : 2 ≤ l ∧ l < 253
  · rw [if_pos hc, if_pos hc]
    apply lerp_congr h
    rw [Int.floor_natCast_add]
    omega
  · rw [if_neg hc, if_neg hc]

/-- The tuned spectra of a recording. -/
theorem tuned_exact {fs : Int} (hfs : 0 < fs) {bs : Nat} (hb : 4 ≤ bs) {params : Params ℝ}
    {blocks : List (T × List ℝ)} (hbl : ∀ bl ∈ blocks, bs ≤ bl.2.length) {p : Base ℝ T}
    (h : Made exactFns fs bs params blocks p) {f : Features ℝ T} (ht : Tuned exactFns p f) {k : Nat}
    (hk : k < blocks.length) :
    ∃ bl v, blocks[k]? = some bl ∧ f.tunedlogfreqspec[k]? = some (bl.1, v) ∧ v.length = 256 ∧
      ∀ l, l < 256 → v.getD l 0 = whitened params.whitening
        (shifted (tuningAt params.tuneLocal (spectra fs bs params.rollon blocks) k) (logSpec fs bs params.rollon bl.2)) l := by
  have hr := running_blocks hfs hb hbl h
  have hne : p.logSpectrum ≠ [] := by
    rw [hr.spec]
    intro h0
    have := congrArg List.length h0
    simp at this
    subst this
    simp at hk
  obtain ⟨t, r, e1, e2, e3⟩ := ht hne
  rw [normalisedTuning_exact p hr.sinv hr.cosv hr.setup.ready.mean] at e1
  cases e1
  have hglob : angle (fun i => p.meanTunings.getD i 0) = globalTuning (spectra fs bs params.rollon blocks) := by
    unfold globalTuning
    apply angle_congr
    intro i hi
    rw [hr.mean i hi]
    simp [spectra]
  rw [hglob] at e2
  have hhw : p.hw = weights := by rw [hr.setup.hw, hw_exact]
  have hpar := hr.setup.pars
  have key : ∃ r, tuneAll exactFns p (globalTuning (spectra fs bs params.rollon blocks)) = .ok r ∧
      r.1.length = p.logSpectrum.zipIdx.length ∧
      ∀ j, j < p.logSpectrum.zipIdx.length → ∃ bl v, blocks[j]? = some bl ∧ r.1[j]? = some (bl.1, v) ∧ v.length = 256 ∧
      ∀ l, l < 256 → v.getD l 0 = whitened params.whitening
        (shifted (tuningAt params.tuneLocal (spectra fs bs params.rollon blocks) j) (logSpec fs bs params.rollon bl.2)) l := by
    unfold tuneAll
    obtain ⟨r, e, h1, h2⟩ := foldlM_inv (f := fun (r : List (T × List ℝ) × Bool) (fr : (T × List ℝ) × Nat) => do
      let shift ← (if p.params.tuneLocal then do
          let t ← rd p.localTuning fr.2
          pure (shiftOf exactFns t)
        else pure (shiftOf exactFns (globalTuning (spectra fs bs params.rollon blocks))))
      let f2 ← tuneFrame exactFns shift.1 shift.2 fr.1.2
      let w ← whitenFrame exactFns p.hw p.params.whitening f2
      pure (r.1 ++ [(fr.1.1, w.1)], r.2 || w.2)) (l := p.logSpectrum.zipIdx) (b := ([], false))
      (fun i (r : List (T × List ℝ) × Bool) => r.1.length = i ∧ ∀ j, j < i → ∃ bl v, blocks[j]? = some bl ∧
        r.1[j]? = some (bl.1, v) ∧ v.length = 256 ∧ ∀ l, l < 256 → v.getD l 0 = whitened params.whitening
        (shifted (tuningAt params.tuneLocal (spectra fs bs params.rollon blocks) j) (logSpec fs bs params.rollon bl.2)) l)
      ⟨rfl, by intro j hj; omega⟩ (by
        rintro i fr hfr r ⟨h1, h2⟩
        rw [List.getElem?_zipIdx, hr.spec, List.getElem?_map] at hfr
        obtain ⟨b, hb', rfl⟩ := Option.map_eq_some_iff.mp hfr
        obtain ⟨bl, hbi, rfl⟩ := Option.map_eq_some_iff.mp hb'
        have hi : i < blocks.length := (List.getElem?_eq_some_iff.mp hbi).1
        have hshift : (if p.params.tuneLocal then do
            let t ← rd p.localTuning ((0 + i : Nat) : Int)
            pure (shiftOf exactFns t)
          else pure (shiftOf exactFns (globalTuning (spectra fs bs params.rollon blocks)))) =
          Run.ok (shiftOf exactFns (tuningAt params.tuneLocal (spectra fs bs params.rollon blocks) i)) := by
          rw [hpar]
          unfold tuningAt
          by_cases hc : params.tuneLocal = true
          · rw [if_pos hc, if_pos hc, hr.tun, Nat.zero_add,
              rd_nat (by rw [List.getElem?_map, List.getElem?_range hi]; rfl)]
            rfl
          · rw [if_neg hc, if_neg hc]
            rfl
        have hfloor : -2 ≤ ⌊3 * tuningAt params.tuneLocal (spectra fs bs params.rollon blocks) i⌋ ∧
            ⌊3 * tuningAt params.tuneLocal (spectra fs bs params.rollon blocks) i⌋ ≤ 1 := by
          unfold tuningAt
          split_ifs
          · exact angle_floor _
          · exact angle_floor _
        dsimp only
        rw [hshift, bind_ok]
        obtain ⟨f2, e4, l4, c4⟩ := tuneFrame_exact _ hfloor (f1 := (List.range 256).map (logSpec fs bs params.rollon bl.2)) (by simp)
        rw [e4, bind_ok, hhw, hpar]
        obtain ⟨w, e5, l5, c5⟩ := whitenFrame_exact params.whitening l4
        rw [e5, bind_ok]
        refine ⟨_, rfl, by simp [h1], ?_⟩
        intro j hj
        dsimp only
        rw [getElem?_snoc h1]
        by_cases hji : j = i
        · subst hji
          refine ⟨bl, w.1, hbi, if_pos rfl, l5, ?_⟩
          intro l hl
          rw [c5 l hl]
          apply whitened_congr _ hl
          intro l' hl'
          rw [c4 l' hl']
          exact shifted_congr hfloor.2 (fun l hl => getD_map_range hl _) l'
        · rw [if_neg hji]
          exact h2 j (by omega))
    exact ⟨r, e, h1, h2⟩
  obtain ⟨r', e2', h1, h2⟩ := key
  rw [e2] at e2'
  cases e2'
  rw [e3]
  apply h2
  rw [List.length_zipIdx, hr.spec, List.length_map]
  exact hk

end JKD.Chroma
