import Verif.Lemmas.ChromaBound
import Verif.Props.PipelineProps
/-
C101, C102: the values of the chroma plug-in are bounded, so the conversion to `int` is defined for every recording.
-/

namespace JKD.Chroma

open Finset

variable {T : Type}

theorem run_bounded {fs : Int} (hfs : 0 < fs) {bs : Nat} (hb : 4 ≤ bs) (params : Params ℝ)
    (hw0 : 0 ≤ params.whitening) (hw1 : params.whitening ≤ 1) (hs : 0 ≤ params.s)
    {blocks : List (T × List ℝ)} (hbl : ∀ bl ∈ blocks, bs ≤ bl.2.length) (junk : Nat → Nnls.St ℝ) :
    ∃ f, runAll exactFns fs bs params blocks junk = .ok (some f) ∧ ∀ i, i < blocks.length →
      ∃ t f2 r, f.tunedlogfreqspec[i]? = some (t, f2) ∧ f.semitonespectrum[i]? = some (t, r.semitones) ∧
        f.chroma[i]? = some (t, (chromas exactFns params.doNormalizeChroma r).1) ∧
        f.basschroma[i]? = some (t, (chromas exactFns params.doNormalizeChroma r).2.1) ∧ Balanced r ∧
        (∀ l, l < 256 → 0 ≤ f2.getD l 0 ∧ f2.getD l 0 ≤ max (specMax fs bs) 16) ∧
        ∀ t, 0 ≤ r.semitones.getD t 0 ∧ r.semitones.getD t 0 ≤ 16 * max (specMax fs bs) 16 := by
  obtain ⟨f, e, h1, -, -, -, -, -, p, hp, hf, -⟩ := runAll_ok exactFns exact_signed exact_ordered exact_tunes fs hb
    params hbl junk
  obtain ⟨f', e', -, hk⟩ := C74_tuned_spectrum hfs hb params hbl junk
  obtain rfl : f = f' := Option.some.inj (Run.ok.inj (e.symm.trans e'))
  refine ⟨f, e, ?_⟩
  intro i hi
  obtain ⟨bl, f2, -, hfr, q1, hv⟩ := hk i hi
  obtain ⟨-, q2⟩ := h1.2 _ (List.mem_of_getElem? hfr)
  obtain ⟨n, en, k1, k2, k3, -⟩ := hf i bl.1 f2 hfr
  obtain ⟨d1, d2⟩ := profile_dict hp.dict
  have hP : ∀ t l, t < 84 → l < nNote → p.dict.getD (t * nNote + l) 0 = profile p.params.s t l := by
    rw [hp.pars]
    exact d2
  obtain ⟨r, er, g1, -, g3, -⟩ := notesOf_exact d1 d2 (junk i) q1 q2
  rw [en] at er
  cases er
  rw [hp.pars] at k2 k3
  have hB : ∀ l, l < 256 → 0 ≤ f2.getD l 0 ∧ f2.getD l 0 ≤ max (specMax fs bs) 16 := by
    intro l hl
    rw [hv l hl]
    exact whitened_bounds hw0 hw1 (shifted_bounds (logSpec_bounds hfs (by omega) _ _) _) hl
  refine ⟨bl.1, f2, n, hfr, k1, k2, k3, g1, hB, ?_⟩
  intro t
  refine ⟨g3 t, notesOf_bound d1 (by rw [hp.pars]; exact hs) hP (junk i) q1 ?_ hB en t⟩
  exact le_max_of_le_right (by norm_num)

/-- A bound for the values of the chroma vectors, from the sampling rate and the block size alone. -/
noncomputable def chromaMax (fs : Int) (bs : Nat) : ℝ := 112 * max ((bs : ℝ) * (328 * bs / fs + 4.2)) 16

/-- **C101, inside the plug-in.**  In exact arithmetic, with a whitening between 0 and 1 as the parameter's range says,
no value of the chroma or bass chroma is negative or exceeds a bound that depends only on the sampling rate and the
block size - whatever the recording, the other parameters and the contents of uninitialised memory, and whether
or not the solver gives up.  (With a normalisation the values are at most one, C73.) -/
theorem C101_bounded {fs : Int} (hfs : 0 < fs) {bs : Nat} (hb : 4 ≤ bs) (params : Params ℝ)
    (hw0 : 0 ≤ params.whitening) (hw1 : params.whitening ≤ 1) (hs : 0 ≤ params.s) (hn : params.doNormalizeChroma ≤ 0)
    {blocks : List (T × List ℝ)} (hbl : ∀ bl ∈ blocks, bs ≤ bl.2.length) (junk : Nat → Nnls.St ℝ) :
    ∃ f, runAll exactFns fs bs params blocks junk = .ok (some f) ∧
      ∀ out ∈ [f.chroma, f.basschroma], out.length = blocks.length ∧ ∀ fr ∈ out, fr.2.length = 12 ∧
        ∀ x ∈ fr.2, 0 ≤ x ∧ x ≤ chromaMax fs bs := by
  obtain ⟨f, e, h⟩ := run_bounded hfs hb params hw0 hw1 hs hbl junk
  obtain ⟨f', e', -, -, p3, p4, -⟩ := C68_plugin_runs exactFns exact_ordered exact_tunes fs hb params hbl junk
  obtain rfl : f = f' := Option.some.inj (Run.ok.inj (e.symm.trans e'))
  refine ⟨f, e, ?_⟩
  have key : ∀ i, i < blocks.length → ∃ t c b, f.chroma[i]? = some (t, c) ∧ f.basschroma[i]? = some (t, b) ∧
      (∀ x ∈ c, 0 ≤ x ∧ x ≤ chromaMax fs bs) ∧ ∀ x ∈ b, 0 ≤ x ∧ x ≤ chromaMax fs bs := by
    intro i hi
    obtain ⟨t, f2, r, -, -, h2, h3, h5, -, hsem⟩ := h i hi
    have hc : chromas exactFns params.doNormalizeChroma r = (r.chroma, r.basschroma, r.basschroma ++ r.chroma) := by
      unfold chromas
      rw [if_neg]
      simp only [ex_lt, ex_lit, Rat.cast_zero, decide_eq_true_eq, not_lt]
      exact hn
    rw [hc] at h2 h3
    have hmax : 7 * (16 * max (specMax fs bs) 16) = chromaMax fs bs := by
      unfold chromaMax specMax
      ring
    refine ⟨t, r.chroma, r.basschroma, h2, h3, ?_, ?_⟩
    · intro x hx
      obtain ⟨k, hk, rfl⟩ := List.mem_iff_getElem.mp hx
      have h12 : k < 12 := by rw [← h5.c]; exact hk
      have := h5.treble k h12
      rw [List.getElem?_eq_getElem hk] at this
      rw [Option.some.inj this, ← hmax]
      exact foldNotes_bound (fun t ht => ⟨(windows_unit t ht).1, (windows_unit t ht).2.1⟩) hsem h12
    · intro x hx
      obtain ⟨k, hk, rfl⟩ := List.mem_iff_getElem.mp hx
      have h12 : k < 12 := by rw [← h5.b]; exact hk
      have := h5.bass k h12
      rw [List.getElem?_eq_getElem hk] at this
      rw [Option.some.inj this, ← hmax]
      exact foldNotes_bound (fun t ht => (windows_unit t ht).2.2) hsem h12
  have l3 : f.chroma.length = blocks.length := by
    have := congrArg List.length p3.1
    simpa using this
  have l4 : f.basschroma.length = blocks.length := by
    have := congrArg List.length p4.1
    simpa using this
  intro out ho
  simp only [List.mem_cons, List.not_mem_nil, or_false] at ho
  rcases ho with rfl | rfl
  · refine ⟨l3, ?_⟩
    intro fr hfr
    refine ⟨p3.2 fr hfr, ?_⟩
    obtain ⟨i, hi, rfl⟩ := List.mem_iff_getElem.mp hfr
    obtain ⟨t, c, b, e1, -, g, -⟩ := key i (by omega)
    rw [List.getElem?_eq_getElem hi] at e1
    rw [Option.some.inj e1]
    exact g
  · refine ⟨l4, ?_⟩
    intro fr hfr
    refine ⟨p4.2 fr hfr, ?_⟩
    obtain ⟨i, hi, rfl⟩ := List.mem_iff_getElem.mp hfr
    obtain ⟨t, c, b, -, e1, -, g⟩ := key i (by omega)
    rw [List.getElem?_eq_getElem hi] at e1
    rw [Option.some.inj e1]
    exact g

/-- **C101, the bound in numbers.**  At a sampling rate of at least 8 kHz and the plug-in's own block size of 16384
or less, the bound is below the largest `int`. -/
theorem C101_fits_int {fs : Int} (hfs : 8000 ≤ fs) {bs : Nat} (hb : bs ≤ 16384) : chromaMax fs bs < 2147483647 := by
  have h1 : (8000 : ℝ) ≤ fs := by exact_mod_cast hfs
  have h2 : (bs : ℝ) ≤ 16384 := by exact_mod_cast hb
  have h0 : (0 : ℝ) ≤ bs := Nat.cast_nonneg _
  have h3 : 328 * (bs : ℝ) / fs ≤ 328 * 16384 / 8000 := by
    rw [div_le_div_iff₀ (by linarith) (by norm_num)]
    nlinarith
  have h4 : 0 ≤ 328 * (bs : ℝ) / fs := div_nonneg (by linarith) (by linarith)
  have h5 : (bs : ℝ) * (328 * bs / fs + 4.2) ≤ 16384 * (328 * 16384 / 8000 + 4.2) :=
    mul_le_mul h2 (by linarith) (by linarith) (by norm_num)
  have h6 : max ((bs : ℝ) * (328 * bs / fs + 4.2)) 16 ≤ 16384 * (328 * 16384 / 8000 + 4.2) :=
    max_le h5 (by norm_num)
  unfold chromaMax
  generalize max ((bs : ℝ) * (328 * bs / fs + 4.2)) 16 = m at h6
  norm_num at h6 ⊢
  linarith

end JKD.Chroma

namespace JKD
namespace Pipeline

open Chromagram Main Chroma Extract Spec

variable {D S T : Type}

/-! ### Storing features -/

/-- Every value stored in a chromagram has the property `Q`. -/
def Holds (Q : D → Prop) (m : CMap D) : Prop := ∀ fr ∈ m, ∀ x ∈ fr.2, Q x

theorem modify_holds {F : FPU D} {Q : D → Prop} (h0 : Q F.zero) {x : D} (hx : Q x) (t : D) (i : Nat) (m : CMap D)
    (h : Holds Q m) : Holds Q (m.modify F t (fun v => v.set i x)) := by
  have hset : ∀ v : List D, (∀ y ∈ v, Q y) → ∀ y ∈ v.set i x, Q y := by
    intro v hv y hy
    rcases List.mem_or_eq_of_mem_set hy with h | rfl
    · exact hv y h
    · exact hx
  have hz : ∀ y ∈ CMap.zeros F, Q y := by
    intro y hy
    unfold CMap.zeros at hy
    rw [List.eq_of_mem_replicate hy]
    exact h0
  induction m with
  | nil =>
    intro fr hfr
    rw [CMap.modify, List.mem_singleton] at hfr
    rw [hfr]
    exact hset _ hz
  | cons p m ih =>
    obtain ⟨k, v⟩ := p
    have hm : Holds Q m := fun fr hfr => h fr (by simp [hfr])
    have hkv := h (k, v) (by simp)
    rw [CMap.modify]
    split_ifs
    · intro fr hfr
      rcases List.mem_cons.1 hfr with rfl | hfr
      · exact hkv
      · exact ih hm fr hfr
    · intro fr hfr
      rcases List.mem_cons.1 hfr with rfl | hfr
      · exact hset _ hz
      · exact h fr hfr
    · intro fr hfr
      rcases List.mem_cons.1 hfr with rfl | hfr
      · exact hset _ hkv
      · exact hm fr hfr

/-- Features whose timestamps can be read can be stored, and what is stored are their values and zeros. -/
theorem store_holds (F : FPU D) (stof : Str → Res D) (Q : D → Prop) (h0 : Q F.zero) (feats : List (Feature D))
    (hst : ∀ ft ∈ feats, ∃ τ, stof ft.timestamp = .ok τ ∧ F.eq τ τ = true) (hv : ∀ ft ∈ feats, ∀ x ∈ ft.values, Q x) :
    ∃ m, storeFeatures F stof feats = .ok m ∧ Holds Q m := by
  have hval : ∀ (τ : D), F.eq τ τ = true → ∀ (xs : List D) (i : Nat) (m : CMap D), (∀ x ∈ xs, Q x) → Holds Q m →
      ∃ m', forM (xs.zipIdx i) m (fun m p => m.assign F τ ((pcANatural + p.2) % numPitchClasses) p.1) = .ok m' ∧
        Holds Q m' := by
    intro τ hτ xs
    induction xs with
    | nil => intro i m _ hm; exact ⟨m, rfl, hm⟩
    | cons x xs ih =>
      intro i m hx hm
      have hlt : (pcANatural + i) % numPitchClasses < 12 := Nat.mod_lt _ (by decide)
      rw [List.zipIdx_cons, forM_cons, CMap.assign_ok hτ hlt, Res.bind_ok]
      exact ih _ _ (fun y hy => hx y (by simp [hy])) (modify_holds h0 (hx x (by simp)) τ _ m hm)
  have key : ∀ (l : List (Feature D)) (m : CMap D),
      (∀ ft ∈ l, ∃ τ, stof ft.timestamp = .ok τ ∧ F.eq τ τ = true) → (∀ ft ∈ l, ∀ x ∈ ft.values, Q x) → Holds Q m →
      ∃ m', forM l m (fun m ft => do
        let t ← stof ft.timestamp
        forM (ft.values.zipIdx) m (fun m p => m.assign F t ((pcANatural + p.2) % numPitchClasses) p.1)) = .ok m' ∧
        Holds Q m' := by
    intro l
    induction l with
    | nil => intro m _ _ hm; exact ⟨m, rfl, hm⟩
    | cons ft l ih =>
      intro m hs hx hm
      obtain ⟨τ, h1, h2⟩ := hs ft (by simp)
      obtain ⟨m1, e1, hm1⟩ := hval τ h2 ft.values 0 m (hx ft (by simp)) hm
      rw [forM_cons, h1]
      simp only [Res.bind_ok]
      rw [e1, Res.bind_ok]
      exact ih m1 (fun ft h => hs ft (by simp [h])) (fun ft h => hx ft (by simp [h])) hm1
  exact key feats [] hst hv (by intro fr hfr; cases hfr)

/-! ### C102: the program -/

/-- What is needed of the program's arithmetic: a value of the plug-in between zero and the largest `int`, widened to
`double` and rounded down, converts to an `int` and not to a negative one. -/
def Converts (F : FPU D) (widen : ℝ → D) : Prop :=
  widen 0 = F.zero ∧ ∀ x : ℝ, 0 ≤ x → x < 2147483647 → ∃ n, F.toInt (F.floor (widen x)) = some n ∧ 0 ≤ n

/-- **C102.**  For every recording at a sampling rate of at least 8 kHz: the chromagram becomes ready,
every discretised value converts to a non-negative `int`, and the pitch-class sequence is defined, whatever lies behind
the last frame in memory.  (Partial: by the letter of the standard the reading behind the last frame is undefined; and
the plug-in is in exact arithmetic.) -/
theorem C102_every_recording_partial (F : FPU D) (hF : OrderLaws F) (M : MixOps S) (stof : Str → Res D)
    {fs : Int} (hfs : 8000 ≤ fs) {bs : Nat} (hb : 4 ≤ bs) (hb' : bs ≤ 16384) (params : Chroma.Params ℝ)
    (hw0 : 0 ≤ params.whitening) (hw1 : params.whitening ≤ 1) (hs : 0 ≤ params.s) (hn : params.doNormalizeChroma ≤ 0)
    (adapt : List S → List (T × List ℝ)) (stamp : T → Str) (widen : ℝ → D) (junk : Nat → Nnls.St ℝ) (time : Nat → T)
    (hconv : Converts F widen) (hst : ∀ t, ∃ τ, stof (stamp t) = .ok τ ∧ F.eq τ τ = true)
    (f : AudioFile S) (hfr : (f.data.length : Int) ≤ f.frames) (hmax : (f.data.length : Int) ≤ 2147483647)
    (hlen : ∀ bl ∈ adapt (samplesOf M f bs), bs ≤ bl.2.length) (csv : Option Str) (g : List D) :
    ∃ (c : Chromagram D) (os : List Int), construct F M stof (chromaPlugin exactFns fs bs params adapt stamp widen junk time) csv (some f) .audio =
        .ok c ∧ c.status = statusChromaDiscreteReady ∧
      (∀ fr ∈ c.discrete, fr.2.length = 12 ∧ ∀ x ∈ fr.2, ∃ n, F.toInt x = some n ∧ 0 ≤ n) ∧
      getPitchClassSequence F (some g) c = .ok (os.map PitchClass.ofInt) ∧ ∀ o ∈ os, 0 ≤ o ∧ o < 12 := by
  have hr := reader_plugin F M stof exactFns fs hb params adapt stamp widen junk time f hfr hmax
    { status := statusChromaUninitialized, original := [], discrete := [] }
  obtain ⟨fe, e, hbd⟩ := C101_bounded (show 0 < fs by omega) hb params hw0 hw1 hs hn hlen junk
  have hch : chromaOf exactFns fs bs params adapt stamp widen junk (samplesOf M f bs) =
      fe.chroma.map (fun fr => ⟨stamp fr.1, fr.2.map widen⟩) := by
    unfold chromaOf
    rw [e]
  have hfit := C101_fits_int hfs hb'
  obtain ⟨m, hm, hQ⟩ := store_holds F stof (fun x => ∃ n, F.toInt (F.floor x) = some n ∧ 0 ≤ n)
    (by rw [← hconv.1]; exact hconv.2 0 (le_refl _) (by norm_num))
    (fe.chroma.map (fun fr => (⟨stamp fr.1, fr.2.map widen⟩ : Feature D)))
    (by
      intro ft hft
      obtain ⟨fr, -, rfl⟩ := List.mem_map.1 hft
      exact hst fr.1)
    (by
      intro ft hft x hx
      obtain ⟨fr, hfr, rfl⟩ := List.mem_map.1 hft
      obtain ⟨y, hy, rfl⟩ := List.mem_map.1 hx
      have := ((hbd fe.chroma (by simp)).2 fr hfr).2 y hy
      exact hconv.2 y this.1 (lt_of_le_of_lt this.2 hfit))
  rw [hch, hm, Res.bind_ok] at hr
  have hwf := storeFeatures_wf hF stof _ hm
  have hc : construct F M stof (chromaPlugin exactFns fs bs params adapt stamp widen junk time) csv (some f) .audio =
      .ok { status := statusChromaDiscreteReady, original := m
            discrete := m.map (fun fr => (fr.1, fr.2.map F.floor)) } := by
    simp only [construct, hr, Res.bind_ok, if_true]
    rw [C31_discretize hF _ hwf rfl]
  have hsafe : ∀ fr ∈ m.map (fun fr => (fr.1, fr.2.map F.floor)), Safe F fr.2 := by
    intro fr hfr
    obtain ⟨q, hq, rfl⟩ := List.mem_map.1 hfr
    refine ⟨by simpa using hwf.len q hq, ?_⟩
    intro x hx
    obtain ⟨y, hy, rfl⟩ := List.mem_map.1 hx
    exact hQ q hq y hy
  have hseq := C32_sequence_partial (F := F) g { status := statusChromaDiscreteReady, original := m
                                                 discrete := m.map (fun fr => (fr.1, fr.2.map F.floor)) } hsafe
  refine ⟨_, (keepLast F g (((m.map (fun fr => (fr.1, fr.2.map F.floor))).map Prod.snd).splitBy (sameVector F))).flatMap
    (fun run => (List.range 12).flatMap (fun pc =>
      List.replicate (ints F (run.getLast?.getD []) pc - 1).toNat (pc : Int))), hc, rfl, hsafe, ?_, ?_⟩
  · refine hseq.trans ?_
    simp only [frameSpec, List.map_flatMap, List.map_replicate]
  · intro o ho
    obtain ⟨run, -, ho⟩ := List.mem_flatMap.1 ho
    obtain ⟨pc, hpc, ho⟩ := List.mem_flatMap.1 ho
    rw [List.eq_of_mem_replicate ho]
    rw [List.mem_range] at hpc
    omega

/-- **C102, the answer.**  A default run on a recording at a sampling rate of at least 8 kHz either finds no pitch class
in it (then the behaviour is undefined, C42), or dies of `out_of_range` because no key sequence is possible, or prints a
line that dataset_creator.py reads as one of the 24 keys, nothing on standard error, and reports 0.  (Partial: as
above.) -/
theorem C102_answer_partial {Num : D → Prop} (E : Env D S (List S) T) (W : FPLaws E.F Num) (hz : ZeroKills E.F)
    (hF : OrderLaws E.F) (hi₁ : HMM.Iter.Ok E.iter₁) (hi₂ : HMM.Iter.Ok E.iter₂)
    {fs : Int} (hfs : 8000 ≤ fs) {bs : Nat} (hb : 4 ≤ bs) (hb' : bs ≤ 16384) (params : Chroma.Params ℝ)
    (hw0 : 0 ≤ params.whitening) (hw1 : params.whitening ≤ 1) (hs : 0 ≤ params.s) (hn : params.doNormalizeChroma ≤ 0)
    (adapt : List S → List (T × List ℝ)) (stamp : T → Str) (widen : ℝ → D) (junk : Nat → Nnls.St ℝ) (time : Nat → T)
    (hpl : E.pl = chromaPlugin exactFns fs bs params adapt stamp widen junk time)
    (hconv : Converts E.F widen) (hst : ∀ t, ∃ τ, E.stof (stamp t) = .ok τ ∧ E.F.eq τ τ = true)
    (g : List D) (hpast : E.past = some g)
    (o : Options) (p : Parsed D) (hparse : parseArgs E (.ok o) = .ok (.ok p)) (hprob : p.justProbabilities = false)
    (heval : p.justEvaluation = false) (hcfg : Detect.Config.WF p.cfg)
    (ht : p.inputType = some .wav) (hco : p.chromaOnly = false) (f : AudioFile S)
    (hf : E.audioFile p.filename = some f) (hfr : (f.data.length : Int) ≤ f.frames)
    (hmax : (f.data.length : Int) ≤ 2147483647) (hlen : ∀ bl ∈ adapt (samplesOf E.M f bs), bs ≤ bl.2.length) :
    (readInput E p = .ok (.ok []) ∧ main E (.ok o) = .ub) ∨ main E (.ok o) = .throw .outOfRange ∨
    ∃ out k, main E (.ok o) = .ok out ∧ out.code = 0 ∧ out.stderr = [] ∧ IsKey k ∧ Py.parseLabel out.stdout = k := by
  obtain ⟨c, os, hc, hs, -, hseq, hos⟩ := C102_every_recording_partial E.F hF E.M E.stof hfs hb hb' params hw0 hw1 hs hn
    adapt stamp widen junk time hconv hst f hfr hmax hlen (E.csvFile p.filename) g
  have hread := readInput_chroma E p hco .audio (Or.inr ⟨ht, rfl⟩)
  rw [hf, hpl, hc, Res.bind_ok, Res.bind_ok, if_neg (by simp [hs]), hpast] at hread
  rw [getPitchClassSequence] at hseq
  simp only [hseq, Res.bind_ok] at hread
  by_cases hne : os = []
  · left
    subst hne
    exact ⟨hread, C42_empty_violated E o p hparse hcfg hread⟩
  · right
    rcases C39_output E W hz hi₁ hi₂ o p os hparse hprob heval hread hos hne hcfg with h | ⟨out, d, k, h1, h2, h3, -, h4, -, h5⟩
    · exact Or.inl h
    · exact Or.inr ⟨out, k, h1, h2, h3, h4, h5⟩

/-! ### Example -/

/-- For every rounding to `double` that keeps zero: the widening of a `float` is exact, so the values convert. -/
theorem rd_converts (R : RD.Rounding) (h0 : R.rnd 0 = .fin 0) (lg : ℝ → RD) : Converts (RD.fpu R lg) RD.fin := by
  refine ⟨?_, ?_⟩
  · change _ = R.rnd ((0 : Rat) : ℝ)
    rw [Rat.cast_zero, h0]
  · intro x hx hx'
    have h1 : 0 ≤ ⌊x⌋ := Int.floor_nonneg.mpr hx
    have h2 : ⌊x⌋ < 2147483647 := by
      rw [Int.floor_lt]
      exact_mod_cast hx'
    have h3 : RD.trunc ((⌊x⌋ : ℤ) : ℝ) = ⌊x⌋ := by
      unfold RD.trunc
      rw [if_pos (by exact_mod_cast h1), Int.floor_intCast]
    refine ⟨⌊x⌋, ?_, h1⟩
    change (if -2147483648 ≤ RD.trunc ((⌊x⌋ : ℤ) : ℝ) ∧ RD.trunc ((⌊x⌋ : ℤ) : ℝ) ≤ 2147483647 then _ else _) = _
    rw [h3, if_pos ⟨by omega, by omega⟩]

/-- A surrounding with the chroma plug-in in its default setting behind a rectangular window, in which every file is
the same stereo recording in CD quality, and the program computes with the rounding `R`. -/
noncomputable def cdEnv (R : RD.Rounding) (lg : ℝ → RD) (data : List (List ℝ)) (count : Nat → Nat)
    (junk : Nat → Nnls.St ℝ) (E : Env RD ℝ (List ℝ) Nat) : Env RD ℝ (List ℝ) Nat :=
  { E with
    F := RD.fpu R lg, M := realMix, stof := fun _ => .ok (.fin 3), iter₁ := id, iter₂ := id
    pl := chromaPlugin exactFns 44100 16384 (Params.default exactFns)
      (dftAdapter 16384 (fun _ => 1) (fun k i => 2048 * k + i - 8192) count id) (fun _ => ['3']) RD.fin junk id
    audioFile := fun _ => some ⟨data.length, 2, data⟩, past := some []
    junkMajor := List.replicate 12 (.fin 0), junkMinor := List.replicate 12 (.fin 0)
    junkTransition := List.replicate 24 (.fin 0) }

/-- The hypotheses of C101 and C102 hold for any such recording of up to 2^31 - 1 frames and any such rounding. -/
example (R : RD.Rounding) (h0 : R.rnd 0 = .fin 0) (lg : ℝ → RD) (data : List (List ℝ))
    (hd : (data.length : Int) ≤ 2147483647) (count : Nat → Nat) (junk : Nat → Nnls.St ℝ) (E : Env RD ℝ (List ℝ) Nat) :
    main (cdEnv R lg data count junk E) (.ok (Options.default "a_C.wav".toList)) = .ub ∨
    main (cdEnv R lg data count junk E) (.ok (Options.default "a_C.wav".toList)) = .throw .outOfRange ∨
    ∃ out k, main (cdEnv R lg data count junk E) (.ok (Options.default "a_C.wav".toList)) = .ok out ∧
      IsKey k ∧ Py.parseLabel out.stdout = k := by
  have h : extensionType "a_C.wav".toList = .ok (some .wav) := by decide +kernel
  have hp : parseArgs (cdEnv R lg data count junk E) (.ok (Options.default "a_C.wav".toList)) = .ok (.ok
      { filename := "a_C.wav".toList, inputType := some .wav
        cfg := { keyTransition := "exponential10", majorKeyProfile := "sapp", minorKeyProfile := "sapp"
                 customKeyTransition := List.replicate 24 (.fin 0)
                 majorCustomKeyProfile := List.replicate 12 (.fin 0)
                 minorCustomKeyProfile := List.replicate 12 (.fin 0) }
        justEvaluation := false, justProbabilities := false, chromaOnly := false }) := by
    simp only [parseArgs, Options.default, chooseInput, h, Res.bind_ok, chooseProfiles, chooseTransitions]
    rfl
  rcases C102_answer_partial (cdEnv R lg data count junk E) (RD.laws R lg) (RD.zeroKills R h0 lg) (RD.orderLaws R lg)
    (fun L => List.Perm.refl L) (fun L => List.Perm.refl L) (fs := 44100) (by norm_num) (bs := 16384) (by norm_num)
    (by norm_num) (Params.default exactFns) (by simp [Params.default]) (by simp [Params.default])
    (by simp [Params.default]; norm_num) (by simp [Params.default]) _ (fun _ => ['3']) RD.fin junk id rfl
    (rd_converts R h0 lg) (fun _ => ⟨.fin 3, rfl, show RD.eq (.fin 3) (.fin 3) = true by simp [RD.eq]⟩) [] rfl _ _ hp rfl rfl
    ⟨by simp, by simp, by simp⟩ rfl rfl ⟨data.length, 2, data⟩ rfl (le_refl _) hd (dft_length _ _ _ _ _ _) with
    h | h | ⟨out, k, h1, -, -, h2, h3⟩
  · exact Or.inl h.2
  · exact Or.inr (Or.inl h)
  · exact Or.inr (Or.inr ⟨out, k, h1, h2, h3⟩)

end Pipeline
end JKD
