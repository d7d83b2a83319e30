import Verif.Model.Pipeline
import Verif.Props.ExtractProps
import Verif.Props.SpectrumProps
import Mathlib.Analysis.Complex.Trigonometric
/-
C95, C96: from the samples of a recording to the answer of the program, through the chroma plug-in.
-/

namespace JKD
namespace Pipeline

open Chromagram Main Chroma Extract

variable {D S T : Type}

/-! ### What the reader gives the plug-in -/

/-- All samples the plug-in gets: the mono signal, filled up with silence to a whole number of blocks. -/
def samplesOf (M : MixOps S) (f : AudioFile S) (bs : Nat) : List S :=
  (List.range (blockCount f.data.length bs)).flatMap (blockAt M f bs)

theorem feed_plugin {D' : Type} (M : MixOps S) (G : Chroma.Fns D') (fs : Int) (bs : Nat) (params : Chroma.Params D')
    (adapt : List S → List (T × List D')) (stamp : T → Str) (widen : D' → D) (junk : Nat → Nnls.St D')
    (time : Nat → T) (out : Nat) (f : AudioFile S) (ks : List Nat) (s : List S) :
    feed M (chromaPlugin G fs bs params adapt stamp widen junk time) out f ks (s, []) =
      (s ++ ks.flatMap (blockAt M f bs), []) := by
  induction ks generalizing s with
  | nil => simp [feed]
  | cons k ks ih =>
    have := ih (s ++ blockAt M f bs k)
    rw [feed, List.foldl_cons]
    rw [feed] at this
    rw [List.flatMap_cons, ← List.append_assoc, ← this]
    rfl

/-- The reader stores the chroma that the plug-in computes from the samples. -/
theorem reader_plugin {D' : Type} (F : FPU D) (M : MixOps S) (stof : Str → Res D) (G : Chroma.Fns D') (fs : Int) {bs : Nat}
    (hb : 4 ≤ bs) (params : Chroma.Params D') (adapt : List S → List (T × List D')) (stamp : T → Str) (widen : D' → D)
    (junk : Nat → Nnls.St D') (time : Nat → T) (f : AudioFile S) (hfr : (f.data.length : Int) ≤ f.frames)
    (hmax : (f.data.length : Int) ≤ 2147483647) (c : Chromagram D) :
    getChromagramFromAudio F M stof (chromaPlugin G fs bs params adapt stamp widen junk time) (some f) c =
      (storeFeatures F stof (chromaOf G fs bs params adapt stamp widen junk (samplesOf M f bs)) >>= fun m =>
        .ok { c with original := m, status := statusChromaOriginalReady }) := by
  have h := C53_blocks M (chromaPlugin G fs bs params adapt stamp widen junk time) chromaNo f
    (show 0 < bs by omega) hfr hmax
  have e : (chromaPlugin G fs bs params adapt stamp widen junk time).start = ([] : List S) := rfl
  have e2 : (chromaPlugin G fs bs params adapt stamp widen junk time).blocksize = bs := rfl
  rw [e, e2, feed_plugin] at h
  have ho : chromaOutput (chromaPlugin G fs bs params adapt stamp widen junk time).outputs = some chromaNo := by
    change chromaOutput outputs = some 3
    decide
  have hi : (chromaPlugin G fs bs params adapt stamp widen junk time).initialise = true := rfl
  have hr : ∀ s, (chromaPlugin G fs bs params adapt stamp widen junk time).remaining s chromaNo =
      chromaOf G fs bs params adapt stamp widen junk s := by
    intro s
    have hg : ∀ out, (chromaPlugin G fs bs params adapt stamp widen junk time).remaining s out =
        if out = chromaNo then chromaOf G fs bs params adapt stamp widen junk s else [] := fun _ => rfl
    rw [hg, if_pos rfl]
  simp only [getChromagramFromAudio, hi, Bool.not_true, Bool.false_eq_true, if_false, ho, e, h, Res.bind_ok, hr,
    List.nil_append]
  rfl

/-! ### C95: silence -/

/-- No Fourier magnitude of a frame reaches two. -/
def Quiet (bs : Nat) (blocks : List (T × List ℝ)) : Prop :=
  ∀ bl ∈ blocks, ∀ n, n < bs / 2 → Real.sqrt (bl.2.getD (2 * n) 0 ^ 2 + bl.2.getD (2 * n + 1) 0 ^ 2) < 2

/-- Quiet frames have no chroma. -/
theorem chromaOf_quiet {fs : Int} (hfs : 0 < fs) {bs : Nat} (hb : 4 ≤ bs) (params : Chroma.Params ℝ)
    (adapt : List S → List (T × List ℝ)) (stamp : T → Str) (widen : ℝ → D) (junk : Nat → Nnls.St ℝ) (xs : List S)
    (hlen : ∀ bl ∈ adapt xs, bs ≤ bl.2.length) (hq : Quiet bs (adapt xs)) :
    chromaOf exactFns fs bs params adapt stamp widen junk xs =
      (adapt xs).map (fun bl => ⟨stamp bl.1, List.replicate 12 (widen 0)⟩) := by
  obtain ⟨f, e, -, -, h4, -⟩ := runAll_ok exactFns exact_signed exact_ordered exact_tunes fs hb params hlen junk
  have hl : f.chroma.length = (adapt xs).length := by
    have := congrArg List.length h4.1
    simpa using this
  have hch : chromaOf exactFns fs bs params adapt stamp widen junk xs =
      f.chroma.map (fun fr => ⟨stamp fr.1, fr.2.map widen⟩) := by
    unfold chromaOf
    rw [e]
  rw [hch]
  clear hch
  apply List.ext_getElem (by simp [hl])
  intro k h1 h2
  simp only [List.length_map] at h1 h2
  obtain ⟨f', e', -, -, h, -⟩ := C76_silence hfs hb params hlen junk (List.getElem?_eq_getElem h2)
    (fun n hn => hq _ (List.getElem_mem h2) n hn)
  obtain rfl : f = f' := Option.some.inj (Run.ok.inj (e.symm.trans e'))
  rw [List.getElem?_eq_getElem h1] at h
  have h := Option.some.inj h
  rw [List.getElem_map, List.getElem_map, h, List.map_replicate]

/-- What is needed of the program's arithmetic: zero is a number, is its own floor and is the integer zero. -/
structure PlainZero (F : FPU D) : Prop where
  num : F.eq F.zero F.zero = true
  floor : F.floor F.zero = F.zero
  int : F.toInt F.zero = some 0

theorem framesLoop_zeros (F : FPU D) (hz : PlainZero F) (past : Option (List D)) (frames : List (List D))
    (h : ∀ v ∈ frames, v = List.replicate 12 F.zero) :
    framesLoop F past frames [] = .ok [] ∨ framesLoop F past frames [] = .ub := by
  induction frames with
  | nil => left; rfl
  | cons v rest ih =>
    have hv := h v (by simp)
    subst hv
    have hpush : pushFrame F (List.replicate 12 F.zero) [] = .ok [] :=
      pushFrame_onlyC F hz.int F.zero 0 hz.int (le_refl _)
    cases rest with
    | nil =>
      cases past with
      | none => right; rfl
      | some g =>
        left
        rw [framesLoop.eq_def]
        simp only [Res.read, Res.bind_ok, hpush, framesLoop, ite_self]
    | cons w rest =>
      rw [framesLoop.eq_def]
      simp only [Res.bind_ok, hpush, ite_self]
      exact ih (fun v hv => h v (by simp [hv]))

/-- **C95, what is computed.**  A recording whose frames are all quiet gives, in exact arithmetic, a chromagram that
is ready and holds only zeros, and from it no pitch class, whatever lies behind the last frame in memory.
(Partial: by the letter of the standard the reading behind the last frame is undefined.) -/
theorem C95_silence_partial (F : FPU D) (hF : OrderLaws F) (hz : PlainZero F) (M : MixOps S) (stof : Str → Res D)
    {fs : Int} (hfs : 0 < fs) {bs : Nat} (hb : 4 ≤ bs) (params : Chroma.Params ℝ)
    (adapt : List S → List (T × List ℝ)) (stamp : T → Str) (widen : ℝ → D) (junk : Nat → Nnls.St ℝ) (time : Nat → T)
    (hw : widen 0 = F.zero) (hst : ∀ t, ∃ τ, stof (stamp t) = .ok τ ∧ F.eq τ τ = true)
    (f : AudioFile S) (hfr : (f.data.length : Int) ≤ f.frames) (hmax : (f.data.length : Int) ≤ 2147483647)
    (hlen : ∀ bl ∈ adapt (samplesOf M f bs), bs ≤ bl.2.length) (hq : Quiet bs (adapt (samplesOf M f bs)))
    (csv : Option Str) (past : Option (List D)) :
    ∃ c, construct F M stof (chromaPlugin exactFns fs bs params adapt stamp widen junk time) csv (some f) .audio =
        .ok c ∧ c.status = statusChromaDiscreteReady ∧
      (∀ fr ∈ c.original, fr.2 = List.replicate 12 F.zero) ∧
      (getPitchClassSequence F past c = .ok [] ∨ getPitchClassSequence F past c = .ub) ∧
      (past.isSome = true → getPitchClassSequence F past c = .ok []) := by
  have hr := reader_plugin F M stof exactFns fs hb params adapt stamp widen junk time f hfr hmax
    { status := statusChromaUninitialized, original := [], discrete := [] }
  rw [chromaOf_quiet hfs hb params adapt stamp widen junk _ hlen hq, hw] at hr
  -- the features can be stored, and nothing but zeros is stored
  have hok : ∀ (l : List (T × List ℝ)) (m : CMap D), ∃ m', forM
      (l.map (fun bl => (⟨stamp bl.1, List.replicate 12 F.zero⟩ : Feature D))) m (fun m ft => do
        let t ← stof ft.timestamp
        forM (ft.values.zipIdx) m (fun m p =>
          m.assign F t ((pcANatural + p.2) % numPitchClasses) p.1)) = .ok m' := by
    intro l
    induction l with
    | nil => intro m; exact ⟨m, rfl⟩
    | cons bl l ih =>
      intro m
      obtain ⟨τ, h1, h2⟩ := hst bl.1
      have hv : ∀ (xs : List D) (i : Nat) (m : CMap D), ∃ m', forM (xs.zipIdx i) m (fun m p =>
          m.assign F τ ((pcANatural + p.2) % numPitchClasses) p.1) = .ok m' := by
        intro xs
        induction xs with
        | nil => intro i m; exact ⟨m, rfl⟩
        | cons x xs ihx =>
          intro i m
          have hlt : (pcANatural + i) % numPitchClasses < 12 := Nat.mod_lt _ (by decide)
          rw [List.zipIdx_cons, forM_cons, CMap.assign_ok h2 hlt, Res.bind_ok]
          exact ihx _ _
      obtain ⟨m', hm'⟩ := hv (List.replicate 12 F.zero) 0 m
      rw [List.map_cons, forM_cons, h1]
      simp only [Res.bind_ok]
      rw [hm', Res.bind_ok]
      exact ih m'
  obtain ⟨m, hm⟩ := hok (adapt (samplesOf M f bs)) []
  have hm : storeFeatures F stof
      ((adapt (samplesOf M f bs)).map (fun bl => (⟨stamp bl.1, List.replicate 12 F.zero⟩ : Feature D))) = .ok m := hm
  have hconst := store_map F stof (fun _ => F.zero) rfl
    ((adapt (samplesOf M f bs)).map (fun bl => (⟨stamp bl.1, List.replicate 12 F.zero⟩ : Feature D)))
  have hsame : ((adapt (samplesOf M f bs)).map
      (fun bl => (⟨stamp bl.1, List.replicate 12 F.zero⟩ : Feature D))).map (mapFeature (fun _ => F.zero)) =
      (adapt (samplesOf M f bs)).map (fun bl => (⟨stamp bl.1, List.replicate 12 F.zero⟩ : Feature D)) := by
    rw [List.map_map]
    refine List.map_congr_left (fun bl _ => ?_)
    simp [mapFeature]
  rw [hsame, hm, Res.bind_ok] at hconst
  have hconst := Res.ok.inj hconst
  have hwf := storeFeatures_wf hF stof _ hm
  have hzero : ∀ fr ∈ m, fr.2 = List.replicate 12 F.zero := by
    intro fr hfr
    have h12 := hwf.len fr hfr
    rw [hconst] at hfr
    obtain ⟨q, hq, rfl⟩ := List.mem_map.1 hfr
    have hq12 := hwf.len q hq
    rw [List.map_const', hq12]
  rw [hm, Res.bind_ok] at hr
  have hc : construct F M stof (chromaPlugin exactFns fs bs params adapt stamp widen junk time) csv (some f) .audio =
      .ok { status := statusChromaDiscreteReady, original := m
            discrete := m.map (fun fr => (fr.1, fr.2.map F.floor)) } := by
    simp only [construct, hr, Res.bind_ok, if_true]
    rw [C31_discretize hF _ hwf rfl]
  have hdisc : ∀ v ∈ (m.map (fun fr => (fr.1, fr.2.map F.floor))).map Prod.snd, v = List.replicate 12 F.zero := by
    intro v hv
    rw [List.map_map] at hv
    obtain ⟨fr, hfr, rfl⟩ := List.mem_map.1 hv
    simp only [Function.comp, hzero fr hfr, List.map_replicate, hz.floor]
  refine ⟨_, hc, rfl, hzero, framesLoop_zeros F hz past _ hdisc, ?_⟩
  intro hp
  obtain ⟨g, rfl⟩ := Option.isSome_iff_exists.1 hp
  have hsafe : ∀ fr ∈ m.map (fun fr => (fr.1, fr.2.map F.floor)), Safe F fr.2 := by
    intro fr hfr
    rw [hdisc fr.2 (List.mem_map_of_mem hfr)]
    refine ⟨by simp, ?_⟩
    intro x hx
    rw [List.eq_of_mem_replicate hx]
    exact ⟨0, hz.int, le_refl _⟩
  rcases framesLoop_zeros F hz (some g) _ hdisc with h | h
  · exact h
  · have := C32_sequence_partial (F := F) g { status := statusChromaDiscreteReady, original := m
                                              discrete := m.map (fun fr => (fr.1, fr.2.map F.floor)) } hsafe
    rw [getPitchClassSequence] at this
    rw [h] at this
    cases this

/-- **C95 violated.**  The program has no answer for a silent recording, not even an error message: its behaviour is
undefined.  Either the reading behind the last frame already is, or the pitch-class sequence is empty and the search
for the best key sequence reads the first element of it. -/
theorem C95_silence_violated (E : Env D S (List S) T) (hF : OrderLaws E.F) (hz : PlainZero E.F)
    {fs : Int} (hfs : 0 < fs) {bs : Nat} (hb : 4 ≤ bs) (params : Chroma.Params ℝ)
    (adapt : List S → List (T × List ℝ)) (stamp : T → Str) (widen : ℝ → D) (junk : Nat → Nnls.St ℝ) (time : Nat → T)
    (hpl : E.pl = chromaPlugin exactFns fs bs params adapt stamp widen junk time)
    (hw : widen 0 = E.F.zero) (hst : ∀ t, ∃ τ, E.stof (stamp t) = .ok τ ∧ E.F.eq τ τ = true)
    (o : Options) (p : Parsed D) (hparse : parseArgs E (.ok o) = .ok (.ok p)) (hcfg : Detect.Config.WF p.cfg)
    (ht : p.inputType = some .wav) (hco : p.chromaOnly = false) (f : AudioFile S)
    (hf : E.audioFile p.filename = some f) (hfr : (f.data.length : Int) ≤ f.frames)
    (hmax : (f.data.length : Int) ≤ 2147483647)
    (hlen : ∀ bl ∈ adapt (samplesOf E.M f bs), bs ≤ bl.2.length) (hq : Quiet bs (adapt (samplesOf E.M f bs))) :
    main E (.ok o) = .ub := by
  obtain ⟨c, hc, hs, -, hseq, -⟩ := C95_silence_partial E.F hF hz E.M E.stof hfs hb params adapt stamp widen junk time hw
    hst f hfr hmax hlen hq (E.csvFile p.filename) E.past
  have hread := readInput_chroma E p hco .audio (Or.inr ⟨ht, rfl⟩)
  rw [hf, hpl, hc, Res.bind_ok, Res.bind_ok, if_neg (by simp [hs])] at hread
  rcases hseq with h | h
  · rw [getPitchClassSequence] at h
    simp only [h, Res.bind_ok] at hread
    exact C42_empty_violated E o p hparse hcfg hread
  · rw [getPitchClassSequence] at h
    simp only [h, Res.bind_ub] at hread
    simp [main, hparse, hread]

/-! ### A windowed Fourier transform -/

/-- The `i`-th sample a frame is made of: position `pos k i`, silence outside the recording. -/
noncomputable def sampleAt (xs : List ℝ) (j : Int) : ℝ := if j < 0 then 0 else xs.getD j.toNat 0

/-- Real and imaginary part of the `n`-th Fourier coefficient of `bs` values. -/
noncomputable def fourier (bs : Nat) (y : Nat → ℝ) (n : Nat) : ℝ × ℝ :=
  (∑ i ∈ Finset.range bs, y i * Real.cos (2 * Real.pi * n * i / bs),
    -∑ i ∈ Finset.range bs, y i * Real.sin (2 * Real.pi * n * i / bs))

/-- Adapters as those of the Vamp host library: frame `k` consists of the samples at the positions `pos k 0`,
`pos k 1`, ..., multiplied by the window `w` and transformed; how many frames there are depends on the number of
samples. -/
noncomputable def dftAdapter (bs : Nat) (w : Nat → ℝ) (pos : Nat → Nat → Int) (count : Nat → Nat) (time : Nat → T)
    (xs : List ℝ) : List (T × List ℝ) :=
  (List.range (count xs.length)).map (fun k => (time k, (List.range (bs / 2 + 1)).flatMap (fun n =>
    let z := fourier bs (fun i => w i * sampleAt xs (pos k i)) n
    [z.1, z.2])))

theorem pairs_getD (l : List (ℝ × ℝ)) (n : Nat) (hn : n < l.length) :
    (l.flatMap (fun z => [z.1, z.2])).getD (2 * n) 0 = (l.getD n (0, 0)).1 ∧
    (l.flatMap (fun z => [z.1, z.2])).getD (2 * n + 1) 0 = (l.getD n (0, 0)).2 := by
  induction l generalizing n with
  | nil => simp at hn
  | cons z l ih =>
    cases n with
    | zero => simp
    | succ n =>
      have := ih n (by simpa using hn)
      simpa [show 2 * (n + 1) = 2 * n + 1 + 1 by ring] using this

theorem dft_length (bs : Nat) (w : Nat → ℝ) (pos : Nat → Nat → Int) (count : Nat → Nat) (time : Nat → T)
    (xs : List ℝ) : ∀ bl ∈ dftAdapter bs w pos count time xs, bs ≤ bl.2.length := by
  intro bl hbl
  obtain ⟨k, -, rfl⟩ := List.mem_map.1 hbl
  have : ((List.range (bs / 2 + 1)).flatMap (fun n =>
      [(fourier bs (fun i => w i * sampleAt xs (pos k i)) n).1,
        (fourier bs (fun i => w i * sampleAt xs (pos k i)) n).2])).length = 2 * (bs / 2 + 1) := by
    simp [List.length_flatMap, mul_comm]
  simp only [this]
  omega

/-- A Fourier coefficient is at most the sum of the magnitudes. -/
theorem fourier_le (bs : Nat) (y : Nat → ℝ) (n : Nat) :
    Real.sqrt ((fourier bs y n).1 ^ 2 + (fourier bs y n).2 ^ 2) ≤ ∑ i ∈ Finset.range bs, |y i| := by
  set a := (fourier bs y n).1 with ha
  set b := (fourier bs y n).2 with hb
  have hS : 0 ≤ ∑ i ∈ Finset.range bs, |y i| := Finset.sum_nonneg (fun i _ => abs_nonneg _)
  have key : a ^ 2 + b ^ 2 ≤ Real.sqrt (a ^ 2 + b ^ 2) * ∑ i ∈ Finset.range bs, |y i| := by
    have e : a ^ 2 + b ^ 2 = ∑ i ∈ Finset.range bs,
        y i * (a * Real.cos (2 * Real.pi * n * i / bs) - b * Real.sin (2 * Real.pi * n * i / bs)) := by
      have h1 : a ^ 2 = ∑ i ∈ Finset.range bs, a * (y i * Real.cos (2 * Real.pi * n * i / bs)) := by
        rw [← Finset.mul_sum, sq]; rfl
      have h2 : b ^ 2 = ∑ i ∈ Finset.range bs, -(b * (y i * Real.sin (2 * Real.pi * n * i / bs))) := by
        rw [Finset.sum_neg_distrib, ← Finset.mul_sum, sq, ← mul_neg]; rfl
      rw [h1, h2, ← Finset.sum_add_distrib]
      exact Finset.sum_congr rfl (fun i _ => by ring)
    rw [Finset.mul_sum]
    refine e.le.trans (Finset.sum_le_sum (fun i _ => ?_))
    have hcs := Real.sin_sq_add_cos_sq (2 * Real.pi * n * i / bs)
    set co := Real.cos (2 * Real.pi * n * i / bs)
    set si := Real.sin (2 * Real.pi * n * i / bs)
    have h3 : |a * co - b * si| ≤ Real.sqrt (a ^ 2 + b ^ 2) := by
      apply Real.abs_le_sqrt
      nlinarith [sq_nonneg (a * si + b * co)]
    calc y i * (a * co - b * si) ≤ |y i * (a * co - b * si)| := le_abs_self _
      _ = |y i| * |a * co - b * si| := abs_mul _ _
      _ ≤ |y i| * Real.sqrt (a ^ 2 + b ^ 2) := mul_le_mul_of_nonneg_left h3 (abs_nonneg _)
      _ = Real.sqrt (a ^ 2 + b ^ 2) * |y i| := mul_comm _ _
  have hsq : Real.sqrt (a ^ 2 + b ^ 2) * Real.sqrt (a ^ 2 + b ^ 2) = a ^ 2 + b ^ 2 :=
    Real.mul_self_sqrt (by positivity)
  rcases (Real.sqrt_nonneg (a ^ 2 + b ^ 2)).eq_or_lt with h0 | h0
  · rw [← h0]; exact hS
  · rw [← hsq] at key
    exact le_of_mul_le_mul_left (by rw [hsq] at key ⊢; exact key) h0

/-- Quiet samples give quiet frames. -/
theorem dft_quiet (bs : Nat) (w : Nat → ℝ) (pos : Nat → Nat → Int) (count : Nat → Nat) (time : Nat → T)
    (xs : List ℝ) (a : ℝ) (hx : ∀ x ∈ xs, |x| ≤ a) (ha : 0 ≤ a) (hw : a * ∑ i ∈ Finset.range bs, |w i| < 2) :
    Quiet bs (dftAdapter bs w pos count time xs) := by
  intro bl hbl n hn
  obtain ⟨k, -, rfl⟩ := List.mem_map.1 hbl
  have hl : (List.range (bs / 2 + 1)).flatMap (fun n =>
      [(fourier bs (fun i => w i * sampleAt xs (pos k i)) n).1,
        (fourier bs (fun i => w i * sampleAt xs (pos k i)) n).2]) =
      ((List.range (bs / 2 + 1)).map (fourier bs (fun i => w i * sampleAt xs (pos k i)))).flatMap
        (fun z => [z.1, z.2]) := by
    rw [List.flatMap_map]
  obtain ⟨h1, h2⟩ := pairs_getD ((List.range (bs / 2 + 1)).map (fourier bs (fun i => w i * sampleAt xs (pos k i)))) n
    (by simp; omega)
  have hg : ((List.range (bs / 2 + 1)).map (fourier bs (fun i => w i * sampleAt xs (pos k i)))).getD n (0, 0) =
      fourier bs (fun i => w i * sampleAt xs (pos k i)) n := by
    rw [List.getD_eq_getElem?_getD, List.getElem?_map, List.getElem?_range (by omega)]
    rfl
  rw [hg] at h1 h2
  simp only [hl, h1, h2]
  refine lt_of_le_of_lt (fourier_le bs _ n) (lt_of_le_of_lt ?_ hw)
  rw [Finset.mul_sum]
  refine Finset.sum_le_sum (fun i _ => ?_)
  rw [abs_mul, mul_comm]
  refine mul_le_mul_of_nonneg_right ?_ (abs_nonneg _)
  unfold sampleAt
  split
  · simpa using ha
  · rw [List.getD_eq_getElem?_getD]
    cases h : xs[(pos k i).toNat]? with
    | none => simpa using ha
    | some x => exact hx x (List.mem_of_getElem? h)

/-- A louder recording gives louder frames. -/
theorem dft_louder (bs : Nat) (w : Nat → ℝ) (pos : Nat → Nat → Int) (count : Nat → Nat) (time : Nat → T)
    (c : ℝ) (xs : List ℝ) :
    dftAdapter bs w pos count time (xs.map (fun x => c * x)) = louderAll c (dftAdapter bs w pos count time xs) := by
  have hs : ∀ j, sampleAt (xs.map (fun x => c * x)) j = c * sampleAt xs j := by
    intro j
    unfold sampleAt
    split
    · simp
    · rw [List.getD_eq_getElem?_getD, List.getD_eq_getElem?_getD, List.getElem?_map]
      cases xs[j.toNat]? <;> simp
  have hf : ∀ k n, fourier bs (fun i => w i * sampleAt (xs.map (fun x => c * x)) (pos k i)) n =
      (c * (fourier bs (fun i => w i * sampleAt xs (pos k i)) n).1,
        c * (fourier bs (fun i => w i * sampleAt xs (pos k i)) n).2) := by
    intro k n
    simp only [fourier, hs, mul_neg, Finset.mul_sum]
    congr 1
    · exact Finset.sum_congr rfl (fun i _ => by ring)
    · congr 1
      exact Finset.sum_congr rfl (fun i _ => by ring)
  simp only [dftAdapter, louderAll, List.length_map, List.map_map, hf]
  refine List.map_congr_left (fun k _ => ?_)
  simp only [Function.comp, List.map_flatMap, List.map_cons, List.map_nil]

/-! ### Files -/

/-- The average of values within `a` is within `a`. -/
theorem mixSample_abs (a : ℝ) (fr : List ℝ) (h : ∀ x ∈ fr, |x| ≤ a) (ha : 0 ≤ a) :
    |mixSample realMix fr.length fr| ≤ a := by
  rw [C53_average]
  rcases Nat.eq_zero_or_pos fr.length with h0 | hp
  · rw [List.eq_nil_of_length_eq_zero h0]; simpa using ha
  · have hs : |fr.sum| ≤ a * fr.length := by
      clear hp
      induction fr with
      | nil => simp
      | cons x fr ih =>
        have h1 := h x (by simp)
        have h2 := ih (fun y hy => h y (by simp [hy]))
        rw [List.sum_cons, List.length_cons]
        push_cast
        calc |x + fr.sum| ≤ |x| + |fr.sum| := abs_add_le _ _
          _ ≤ a * (fr.length + 1) := by linarith
    have hp' : (0 : ℝ) < fr.length := by exact_mod_cast hp
    rw [abs_div, abs_of_pos hp', div_le_iff₀ hp']
    exact hs

theorem samplesOf_abs (a : ℝ) (ha : 0 ≤ a) (f : AudioFile ℝ) (bs : Nat) (hb : 0 < bs)
    (hfr : ∀ fr ∈ f.data, fr.length = f.channels ∧ ∀ x ∈ fr, |x| ≤ a) :
    ∀ x ∈ samplesOf realMix f bs, |x| ≤ a := by
  intro x hx
  obtain ⟨pad, h, -⟩ := C53_blocks_cover realMix f bs hb
  rw [samplesOf, h] at hx
  rcases List.mem_append.1 hx with hx | hx
  · obtain ⟨fr, hm, rfl⟩ := List.mem_map.1 hx
    have := hfr fr hm
    rw [← this.1]
    exact mixSample_abs a fr this.2 ha
  · rw [List.eq_of_mem_replicate hx]
    simpa [realMix] using ha

/-- **C95 violated, in samples.**  Through a windowed Fourier transform, a recording none of whose samples exceeds
two divided by the sum of the window is silent in this sense: for a window between 0 and 1 of 16384 samples that is
all recordings below 1/8192, 78 decibels under full scale, empty ones included.  The program has no answer. -/
theorem C95_quiet_file_violated (E : Env D ℝ (List ℝ) T) (hF : OrderLaws E.F) (hz : PlainZero E.F) (hM : E.M = realMix)
    {fs : Int} (hfs : 0 < fs) (params : Chroma.Params ℝ) (w : Nat → ℝ) (hw01 : ∀ i, 0 ≤ w i ∧ w i ≤ 1)
    (pos : Nat → Nat → Int) (count : Nat → Nat) (ftime : Nat → T) (stamp : T → Str) (widen : ℝ → D)
    (junk : Nat → Nnls.St ℝ) (time : Nat → T)
    (hpl : E.pl = chromaPlugin exactFns fs 16384 params (dftAdapter 16384 w pos count ftime) stamp widen junk time)
    (hw : widen 0 = E.F.zero) (hst : ∀ t, ∃ τ, E.stof (stamp t) = .ok τ ∧ E.F.eq τ τ = true)
    (o : Options) (p : Parsed D) (hparse : parseArgs E (.ok o) = .ok (.ok p)) (hcfg : Detect.Config.WF p.cfg)
    (ht : p.inputType = some .wav) (hco : p.chromaOnly = false) (f : AudioFile ℝ)
    (hf : E.audioFile p.filename = some f) (hfr : (f.data.length : Int) ≤ f.frames)
    (hmax : (f.data.length : Int) ≤ 2147483647)
    (hquiet : ∀ fr ∈ f.data, fr.length = f.channels ∧ ∀ x ∈ fr, |x| < 1 / 8192) :
    main E (.ok o) = .ub := by
  -- a bound below the limit for the finitely many samples
  obtain ⟨a, ha0, ha1, ha⟩ : ∃ a : ℝ, 0 ≤ a ∧ a < 1 / 8192 ∧ ∀ fr ∈ f.data, ∀ x ∈ fr, |x| ≤ a := by
    have key : ∀ l : List ℝ, (∀ x ∈ l, |x| < 1 / 8192) → ∃ a : ℝ, 0 ≤ a ∧ a < 1 / 8192 ∧ ∀ x ∈ l, |x| ≤ a := by
      intro l
      induction l with
      | nil => intro _; exact ⟨0, le_refl _, by norm_num, by simp⟩
      | cons x l ih =>
        intro h
        obtain ⟨a, h0, h1, h2⟩ := ih (fun y hy => h y (by simp [hy]))
        refine ⟨max a |x|, le_max_of_le_left h0, max_lt h1 (h x (by simp)), ?_⟩
        intro y hy
        rcases List.mem_cons.1 hy with rfl | hy
        · exact le_max_right _ _
        · exact le_max_of_le_left (h2 y hy)
    obtain ⟨a, h0, h1, h2⟩ := key f.data.flatten (by
      intro x hx
      obtain ⟨fr, hm, hxf⟩ := List.mem_flatten.1 hx
      exact (hquiet fr hm).2 x hxf)
    exact ⟨a, h0, h1, fun fr hm x hx => h2 x (List.mem_flatten.2 ⟨fr, hm, hx⟩)⟩
  have hsum : a * ∑ i ∈ Finset.range 16384, |w i| < 2 := by
    have h1 : ∑ i ∈ Finset.range 16384, |w i| ≤ ∑ i ∈ Finset.range 16384, (1 : ℝ) :=
      Finset.sum_le_sum (fun i _ => by rw [abs_of_nonneg (hw01 i).1]; exact (hw01 i).2)
    rw [Finset.sum_const, Finset.card_range, nsmul_eq_mul, mul_one] at h1
    have h2 : a * ∑ i ∈ Finset.range 16384, |w i| ≤ a * (16384 : Nat) := mul_le_mul_of_nonneg_left h1 ha0
    push_cast at h2
    linarith
  refine C95_silence_violated E hF hz hfs (by norm_num) params (dftAdapter 16384 w pos count ftime) stamp widen junk time
    hpl hw hst o p hparse hcfg ht hco f hf hfr hmax (dft_length _ _ _ _ _ _) ?_
  rw [hM]
  exact dft_quiet _ _ _ _ _ _ a (samplesOf_abs a ha0 f 16384 (by norm_num)
    (fun fr hm => ⟨(hquiet fr hm).1, ha fr hm⟩)) ha0 hsum

/-! ### C96: level -/

/-- The recording `c` times as loud. -/
noncomputable def loudFile (c : ℝ) (f : AudioFile ℝ) : AudioFile ℝ :=
  { f with data := f.data.map (fun fr => fr.map (fun x => c * x)) }

theorem mixSample_loud (c : ℝ) (channels : Nat) (fr : List ℝ) :
    mixSample realMix channels (fr.map (fun x => c * x)) = c * mixSample realMix channels fr := by
  have key : ∀ (ks : List Nat) (acc : ℝ), ks.foldl (fun acc k => realMix.add acc
      (realMix.divInt ((fr.map (fun x => c * x)).getD k realMix.zero) channels)) (c * acc) =
      c * ks.foldl (fun acc k => realMix.add acc (realMix.divInt (fr.getD k realMix.zero) channels)) acc := by
    intro ks
    induction ks with
    | nil => intro acc; rfl
    | cons k ks ih =>
      intro acc
      rw [List.foldl_cons, List.foldl_cons, ← ih]
      congr 1
      simp only [realMix, List.getD_eq_getElem?_getD, List.getElem?_map]
      cases fr[k]? with
      | none => simp
      | some x => simp; ring
  have := key (List.range channels) 0
  rw [mul_zero] at this
  exact this

theorem samplesOf_loud (c : ℝ) (f : AudioFile ℝ) (bs : Nat) :
    samplesOf realMix (loudFile c f) bs = (samplesOf realMix f bs).map (fun x => c * x) := by
  have hm : mono realMix (loudFile c f) = (mono realMix f).map (fun x => c * x) := by
    simp only [mono, loudFile, List.map_map]
    exact List.map_congr_left (fun fr _ => mixSample_loud c f.channels fr)
  simp only [samplesOf, List.map_flatMap]
  have hl : (loudFile c f).data.length = f.data.length := by simp [loudFile]
  rw [hl]
  congr 1
  funext k
  simp only [blockAt, hm, List.map_map]
  refine List.map_congr_left (fun i _ => ?_)
  simp only [Function.comp, List.getD_eq_getElem?_getD, List.getElem?_map]
  cases (mono realMix f)[k * bs + i]? <;> simp [realMix]

/-- The frames of a recording can be played `c` times as loud: nothing is limited and no frame falls silent or
comes out of silence; and where the tuned spectrum does not vary at all there is nothing in it. -/
structure Playable (c : ℝ) (fs : Int) (bs : Nat) (params : Chroma.Params ℝ) (blocks : List (T × List ℝ)) : Prop where
  fits : ∀ bl ∈ blocks, Fits c bs bl.2
  flat : ∀ (k : Nat) (bl : T × List ℝ), blocks[k]? = some bl → ∀ l, l < 256 →
    deviation (shifted (tuningAt params.tuneLocal (spectra fs bs params.rollon blocks) k)
      (logSpec fs bs params.rollon bl.2)) l = 0 →
    shifted (tuningAt params.tuneLocal (spectra fs bs params.rollon blocks) k) (logSpec fs bs params.rollon bl.2) l = 0

/-- **C96.**  In exact arithmetic inside the plug-in, with its default whitening and a linear adapter, the program
gives the same answer for a recording played at another level: same output, same messages, same status, and
undefined behaviour if and only if it was before - with every option set that takes the format from the extension,
also `-p`, `-e` and `--chroma-only`. -/
theorem C96_level (E : Env D ℝ (List ℝ) T) (hM : E.M = realMix) {c : ℝ} (hc : 0 < c) {fs : Int} (hfs : 0 < fs) {bs : Nat}
    (hb : 4 ≤ bs) (params : Chroma.Params ℝ) (hwh : params.whitening = 1) (adapt : List ℝ → List (T × List ℝ))
    (hlin : ∀ xs, adapt (xs.map (fun x => c * x)) = louderAll c (adapt xs))
    (hlen : ∀ xs, ∀ bl ∈ adapt xs, bs ≤ bl.2.length) (stamp : T → Str) (widen : ℝ → D) (junk : Nat → Nnls.St ℝ)
    (time : Nat → T) (hpl : E.pl = chromaPlugin exactFns fs bs params adapt stamp widen junk time)
    (hfile : ∀ name f, E.audioFile name = some f → (f.data.length : Int) ≤ f.frames ∧
      (f.data.length : Int) ≤ 2147483647 ∧ Playable c fs bs params (adapt (samplesOf realMix f bs)))
    (parsed : Except Int Options) :
    main { E with audioFile := fun name => (E.audioFile name).map (loudFile c) } parsed = main E parsed := by
  have hread : ∀ name ch, getChromagramFromAudio E.F E.M E.stof E.pl ((E.audioFile name).map (loudFile c)) ch =
      getChromagramFromAudio E.F E.M E.stof E.pl (E.audioFile name) ch := by
    intro name ch
    cases hf : E.audioFile name with
    | none => rfl
    | some f =>
      obtain ⟨h1, h2, h3⟩ := hfile name f hf
      have hl : (loudFile c f).data.length = f.data.length := by simp [loudFile]
      rw [Option.map_some, hpl, hM, reader_plugin E.F realMix E.stof exactFns fs hb params adapt stamp widen junk time f
        h1 h2, reader_plugin E.F realMix E.stof exactFns fs hb params adapt stamp widen junk time (loudFile c f)
        (by rw [hl]; exact h1) (by rw [hl]; exact h2)]
      have : chromaOf exactFns fs bs params adapt stamp widen junk (samplesOf realMix (loudFile c f) bs) =
          chromaOf exactFns fs bs params adapt stamp widen junk (samplesOf realMix f bs) := by
        unfold chromaOf
        rw [samplesOf_loud, hlin, C75_level_irrelevant hc hfs hb params hwh (hlen _) h3.fits h3.flat junk]
      rw [this]
  have hcons : ∀ name ft, construct E.F E.M E.stof E.pl (E.csvFile name) ((E.audioFile name).map (loudFile c)) ft =
      construct E.F E.M E.stof E.pl (E.csvFile name) (E.audioFile name) ft := by
    intro name ft
    cases ft with
    | csv => rfl
    | audio => simp only [construct, hread]
    | other => rfl
  have hp : parseArgs { E with audioFile := fun name => (E.audioFile name).map (loudFile c) } parsed =
      parseArgs E parsed := rfl
  have hi : ∀ p : Parsed D, readInput { E with audioFile := fun name => (E.audioFile name).map (loudFile c) } p =
      readInput E p := by
    intro p
    simp only [readInput, hcons]
  simp only [main, hp, hi]
  rfl

/-! ### Examples -/

theorem tenths_zero : PlainZero tenths where
  num := by decide +kernel
  floor := by decide +kernel
  int := by decide +kernel

/-- A surrounding with the chroma plug-in behind a rectangular window and two frames per recording, in which every
file is a recording of two channels and two frames at the volume `v`. -/
noncomputable def quietEnv (v : ℝ) (junk : Nat → Nnls.St ℝ) (E : Env Int ℝ (List ℝ) Nat) : Env Int ℝ (List ℝ) Nat :=
  { E with
    F := tenths, M := realMix, stof := fun _ => .ok 3
    pl := chromaPlugin exactFns 44100 16384 (Params.default exactFns)
      (dftAdapter 16384 (fun _ => 1) (fun k i => 2048 * k + i - 8192) (fun _ => 2) id) (fun _ => ['3']) (fun x => ⌊x * 10⌋)
      junk id
    audioFile := fun _ => some ⟨2, 2, [[v, -v], [v, v]]⟩
    junkMajor := List.replicate 12 0, junkMinor := List.replicate 12 0, junkTransition := List.replicate 24 0 }

/-- The hypotheses of C95 hold for a recording at a volume of 1/10000, though there is sound in it. -/
example (junk : Nat → Nnls.St ℝ) (E : Env Int ℝ (List ℝ) Nat) :
    main (quietEnv (1 / 10000) junk E) (.ok (Options.default "a_C.wav".toList)) = .ub := by
  have h : extensionType "a_C.wav".toList = .ok (some .wav) := by decide +kernel
  have hp : parseArgs (quietEnv (1 / 10000) junk E) (.ok (Options.default "a_C.wav".toList)) = .ok (.ok
      { filename := "a_C.wav".toList, inputType := some .wav
        cfg := { keyTransition := "exponential10", majorKeyProfile := "sapp", minorKeyProfile := "sapp"
                 customKeyTransition := List.replicate 24 0
                 majorCustomKeyProfile := List.replicate 12 0
                 minorCustomKeyProfile := List.replicate 12 0 }
        justEvaluation := false, justProbabilities := false, chromaOnly := false }) := by
    simp only [parseArgs, Options.default, chooseInput, h, Res.bind_ok, chooseProfiles, chooseTransitions]
    rfl
  have hz : (0 : Int) = tenths.zero := by decide +kernel
  refine C95_quiet_file_violated (quietEnv (1 / 10000) junk E) tenths_orderLaws tenths_zero rfl (by norm_num)
    (Params.default exactFns) (fun _ => 1) (fun _ => by norm_num) _ _ _ (fun _ => ['3']) (fun x => ⌊x * 10⌋) _ _ rfl
    (by simp only [zero_mul, Int.floor_zero]; exact hz) (fun _ => ⟨3, rfl, rfl⟩) _ _ hp ⟨by simp, by simp, by simp⟩ rfl rfl
    ⟨2, 2, [[1 / 10000, -(1 / 10000)], [1 / 10000, 1 / 10000]]⟩ rfl (by simp) (by simp [intMax]) ?_
  intro fr hfr
  simp only [List.mem_cons, List.not_mem_nil, or_false] at hfr
  rcases hfr with rfl | rfl <;> refine ⟨rfl, ?_⟩ <;> intro x hx <;>
    simp only [List.mem_cons, List.not_mem_nil, or_false] at hx <;>
    rcases hx with rfl | rfl <;> norm_num [abs_lt]

/-- A surrounding whose adapter turns every recording into one frame with a tone of 440 Hz, as loud as the first
sample; there are two files, of volumes 100 and 300, and no other. -/
noncomputable def toneEnv (E : Env D ℝ (List ℝ) Unit) (widen : ℝ → D) (junk : Nat → Nnls.St ℝ) : Env D ℝ (List ℝ) Unit :=
  { E with
    M := realMix
    pl := chromaPlugin exactFns 1000 1000 (Params.default exactFns) (fun xs => [((), toneA (xs.getD 0 0))])
      (fun _ => ['3']) widen junk (fun _ => ())
    audioFile := fun name => if name = ['a'] then some ⟨1, 1, [[100]]⟩ else
      if name = ['b'] then some ⟨1, 2, [[400, 200]]⟩ else none }

theorem tone_samples (a : ℝ) (f : AudioFile ℝ) (h : mono realMix f = [a]) :
    (samplesOf realMix f 1000).getD 0 0 = a := by
  obtain ⟨pad, h', -⟩ := C53_blocks_cover realMix f 1000 (by norm_num)
  rw [samplesOf, h', h]
  rfl

/-- The hypotheses of C96 hold: whatever the options and the rest of the surroundings, both files give the same answer
at double the level. -/
example (E : Env D ℝ (List ℝ) Unit) (widen : ℝ → D) (junk : Nat → Nnls.St ℝ) (parsed : Except Int Options) :
    main { toneEnv E widen junk with audioFile := fun name => ((toneEnv E widen junk).audioFile name).map (loudFile 2) } parsed =
      main (toneEnv E widen junk) parsed := by
  have hr : (Params.default exactFns).rollon = 0 := ex_zero
  have hplay : ∀ a : ℝ, 2 ≤ a → 2 * a ≤ 1000 →
      Playable 2 1000 1000 (Params.default exactFns) [((), toneA a)] := by
    intro a h1 h2
    refine ⟨?_, ?_⟩
    · intro bl hbl
      rw [List.mem_singleton.1 hbl]
      exact toneA_fits h1 (by linarith) (by linarith) h2
    · intro k bl hk l _
      have hbl := List.mem_of_getElem? hk
      rw [hr, List.mem_singleton.1 hbl]
      exact toneA_flat h1 (by linarith) (tuningAt_floor _ _ _) l
  refine C96_level (toneEnv E widen junk) rfl (by norm_num) (by norm_num) (bs := 1000) (by norm_num)
    (Params.default exactFns) ex_one (fun xs => [((), toneA (xs.getD 0 0))]) ?_ ?_ _ _ _ _ rfl ?_ parsed
  · intro xs
    have h1 : (xs.map (fun x => 2 * x)).getD 0 0 = 2 * xs.getD 0 0 := by cases xs <;> simp
    rw [h1]
    simp only [louderAll, List.map_cons, List.map_nil]
    congr 2
    unfold toneA
    rw [List.map_append, List.map_cons, List.map_replicate, List.map_replicate, mul_zero]
  · intro xs bl hbl
    rw [List.mem_singleton.1 hbl]
    exact (toneA_length _).ge
  · intro name f hf
    simp only [toneEnv] at hf
    split at hf
    · cases hf
      rw [tone_samples 100 _ (by norm_num [mono, mixSample, realMix])]
      exact ⟨by simp, by simp [intMax], hplay 100 (by norm_num) (by norm_num)⟩
    · split at hf
      · cases hf
        rw [tone_samples 300 _ (by norm_num [mono, mixSample, realMix, List.range_succ])]
        exact ⟨by simp, by simp [intMax], hplay 300 (by norm_num) (by norm_num)⟩
      · cases hf

end Pipeline
end JKD
