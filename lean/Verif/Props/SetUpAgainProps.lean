import Verif.Lemmas.ChromaReal
import Verif.Model.Chordino
/-
C128: setting up the plug-ins: which channel counts are accepted, and what happens to an instance that is set up a
second time (NNLSBase.cpp:351-423, chromamethods.cpp:46-72).
-/

namespace JKD.Chroma

variable {D T : Type}

/-- A host that calls `initialise` once (with any number of channels and any block size, accepted or not) and then
again, and goes on to feed the blocks and collect the features if the second call says `true`
(NNLSBase.cpp:351-423, NNLSChroma.cpp:186-217). -/
def runAgain (F : Fns D) (fs : Int) (params : Params D) (first second : Nat × Nat) (blocks : List (T × List D))
    (junk : Nat → Nnls.St D) : Run (Option (Features D T)) := do
  let r ← initialise F fs first.1 first.2 (Base.new F params)
  let r ← initialise F fs second.1 second.2 r.2
  if r.1 then do
    let p ← blocks.foldlM (fun p bl => baseProcess F bl.2 bl.1 p) r.2
    let f ← getRemainingFeatures F p junk
    pure (some f)
  else pure none

/-- The same for the chord plug-in (Chordino.cpp:239-271). -/
def chordsAgain (F : Fns D) (ext : Option (List Str × List D)) (fs : Int) (params : Params D) (boostN harte : D)
    (first second : Nat × Nat) (blocks : List (Int × List D)) (junk : Nat → Nnls.St D) :
    Run (Option (Chordino.Features D)) := do
  let r ← Chordino.initialise F ext fs first.1 first.2 (Chordino.State.new F params boostN harte)
  let r ← Chordino.initialise F ext fs second.1 second.2 r.2
  if r.1 then do
    let b ← blocks.foldlM (fun p bl => baseProcess F bl.2 bl.1 p) r.2.base
    let f ← Chordino.getRemainingFeatures F { r.2 with base := b } junk
    pure (some f)
  else pure none

/-- An instance that was set up at least once: the vectors are at least as long as they should be. -/
structure Loose (F : Fns D) (p : Base D T) : Prop where
  mean : nBPS ≤ p.meanTunings.length
  loc : nBPS ≤ p.localTunings.length
  sinv : nBPS ≤ p.sinvalues.length
  cosv : nBPS ≤ p.cosvalues.length
  kernel : ∀ k ∈ p.kernel, k.2.1 < p.blockSize / 2 ∧ k.2.2 < nNote
  tun : p.localTuning.length = p.logSpectrum.length
  shift : ∀ t ∈ p.localTuning, -2 ≤ (shiftOf F t).1 ∧ (shiftOf F t).1 ≤ 1
  spec : ∀ f ∈ p.logSpectrum, f.2.length = nNote

theorem loop_ok_length {body : Nat → List D → Run (List D)} {k n : Nat}
    (hb : ∀ i < k, ∀ l : List D, l.length = n → ∃ l', body i l = .ok l' ∧ l'.length = n) (l : List D)
    (hl : l.length = n) : ∃ l', loop body k l = .ok l' ∧ l'.length = n :=
  loop_inv (fun _ (l : List D) => l.length = n) hl (fun i hi l h => hb i hi l h)

/-- Setting up: the window grows by 19 weights; one channel is accepted. -/
theorem initialise_any (F : Fns D) (fs : Int) (ch : Nat) {bs : Nat} (hb : 4 ≤ bs) (p : Base D T)
    (hd : p.dict.length = nNote * 84) (hn : p.logSpectrum = []) (ht : p.localTuning = []) :
    ∃ b p', initialise F fs ch bs p = .ok (b, p') ∧ (b = true ↔ ch = 1) ∧ p'.hw.length = p.hw.length + hamwinlength ∧
      p'.dict.length = nNote * 84 ∧ p'.logSpectrum = [] ∧ p'.localTuning = [] ∧
      (ch = 1 → p'.blockSize = bs ∧ Loose F p') := by
  unfold initialise
  obtain ⟨d, e1, l1⟩ := dictionaryMatrix_ok F p.params.s (dm := p.dict) (by omega)
  simp only [e1, bind_ok]
  obtain ⟨hw, e2, l2⟩ := loop_ok_length (body := fun i hw => do
      let x ← rd hw (i : Int)
      wr hw (i : Int) (F.div x ((List.range hamwinlength).foldl (fun s i => F.add s (hamming F i)) (F.lit 0))))
    (k := hamwinlength) (n := p.hw.length + hamwinlength) (by
      intro i hi l hl
      obtain ⟨x, hx⟩ := getElem?_some_of_lt (v := l) (i := i) (by omega)
      rw [rd_nat hx, bind_ok]
      exact ⟨_, wr_nat _ (by omega), by simpa using hl⟩)
    (p.hw ++ (List.range hamwinlength).map (hamming F)) (by simp)
  rw [e2, bind_ok]
  by_cases hc : ch = 1
  · rw [if_neg (by omega)]
    obtain ⟨temp, e3, l3⟩ := logFreqMatrix_ok F fs (size := nNote * bs / 2) hb (by
      simp only [nNote, nBPS]; omega)
    rw [e3, bind_ok]
    obtain ⟨ker, e4, l4⟩ := loop_inv (body := fun iNote kernel =>
        loop (fun iFFT kernel => do
          let v ← rd temp (iFFT + bs / 2 * iNote : Nat)
          if F.lt (F.lit 0) v then pure (kernel ++ [(v, iFFT, iNote)]) else pure kernel) (bs / 2) kernel)
      (k := nNote) (s := ([] : List (D × Nat × Nat)))
      (fun _ ker => ∀ k ∈ ker, k.2.1 < bs / 2 ∧ k.2.2 < nNote) (by simp) (by
        intro iNote hN ker hk
        apply loop_inv (fun _ (ker : List (D × Nat × Nat)) => ∀ k ∈ ker, k.2.1 < bs / 2 ∧ k.2.2 < nNote) hk
        intro iFFT hF ker hk
        have h5 : iFFT + bs / 2 * iNote < temp.length := by
          rw [l3]
          have h6 : bs / 2 * (iNote + 1) ≤ bs / 2 * nNote := Nat.mul_le_mul_left _ hN
          have h7 : bs / 2 * nNote ≤ nNote * bs / 2 := by simp only [nNote, nBPS]; omega
          have h8 : bs / 2 * (iNote + 1) = bs / 2 * iNote + bs / 2 := by ring
          omega
        obtain ⟨x, hx⟩ := getElem?_some_of_lt h5
        rw [rd_nat hx, bind_ok]
        split_ifs with hc
        · refine ⟨_, rfl, ?_⟩
          intro k hk'
          rcases List.mem_append.mp hk' with h | h
          · exact hk k h
          · rw [List.mem_singleton.mp h]
            exact ⟨hF, hN⟩
        · exact ⟨_, rfl, hk⟩)
    rw [e4, bind_ok]
    refine ⟨true, _, rfl, by simp [hc], l2, by rw [← hd]; exact l1, hn, ht, fun _ => ⟨rfl, ?_⟩⟩
    exact {
      mean := by simp
      loc := by simp
      sinv := by simp
      cosv := by simp
      kernel := l4
      tun := by simp [hn, ht]
      shift := by simp [ht]
      spec := by simp [hn] }
  · rw [if_pos (by omega)]
    exact ⟨false, _, rfl, by simp [hc], l2, by rw [← hd]; exact l1, hn, ht, fun h => absurd h hc⟩

theorem updateTunings_loose (F : Fns D) {nm : List D} (hn : nm.length = nNote) (p : Base D T)
    (h1 : nBPS ≤ p.meanTunings.length) (h2 : nBPS ≤ p.localTunings.length) :
    ∃ m l, updateTunings F nm p = .ok { p with meanTunings := m, localTunings := l } ∧
      nBPS ≤ m.length ∧ nBPS ≤ l.length := by
  unfold updateTunings
  obtain ⟨m1, e1, l1⟩ := loop_ok_length (body := fun i mean => do
      let x ← rd mean (i : Int)
      wr mean (i : Int) (F.mul x (F.mul (F.lit (p.frameCount - 1 : Nat)) (F.div F.one (F.lit p.frameCount)))))
    (k := nBPS) (n := p.meanTunings.length) (by
      intro i hi m hl
      obtain ⟨x, hx⟩ := getElem?_some_of_lt (v := m) (i := i) (by omega)
      rw [rd_nat hx, bind_ok]
      exact ⟨_, wr_nat _ (by omega), by simpa using hl⟩) p.meanTunings rfl
  simp only [e1, bind_ok]
  obtain ⟨r, e2, l2, l3⟩ := loop_inv (body := fun t (r : List D × List D) => do
      let mean ← loop (fun i mean => do
        let x ← rd mean (i : Int)
        let v ← rd nm (nBPS * t + i : Nat)
        wr mean (i : Int) (F.add x (F.mul v (F.div F.one (F.lit p.frameCount))))) nBPS r.1
      let loc ← loop (fun i loc => do
        let x ← rd loc (i : Int)
        let v ← rd nm (nBPS * t + i : Nat)
        wr loc (i : Int) (F.add (F.mul x (F.lit 0.997)) (F.mul v (F.sub F.one (F.lit 0.997))))) nBPS r.2
      pure (mean, loc)) (k := tones) (s := (m1, p.localTunings))
    (fun _ (r : List D × List D) => nBPS ≤ r.1.length ∧ nBPS ≤ r.2.length) ⟨by simp only; omega, h2⟩ (by
      rintro t ht ⟨a, b⟩ ⟨ha, hb⟩
      simp only [tones] at ht
      simp only at ha hb
      obtain ⟨a', ea, la⟩ := loop_ok_length (body := fun i mean => do
          let x ← rd mean (i : Int)
          let v ← rd nm (nBPS * t + i : Nat)
          wr mean (i : Int) (F.add x (F.mul v (F.div F.one (F.lit p.frameCount))))) (k := nBPS) (n := a.length) (by
          intro i hi m hl
          obtain ⟨x, hx⟩ := getElem?_some_of_lt (v := m) (i := i) (by omega)
          obtain ⟨y, hy⟩ := getElem?_some_of_lt (v := nm) (i := nBPS * t + i) (by
            rw [hn]; simp only [nNote, nBPS] at *; omega)
          rw [rd_nat hx, bind_ok, rd_nat hy, bind_ok]
          exact ⟨_, wr_nat _ (by omega), by simpa using hl⟩) a rfl
      obtain ⟨b', eb, lb⟩ := loop_ok_length (body := fun i loc => do
          let x ← rd loc (i : Int)
          let v ← rd nm (nBPS * t + i : Nat)
          wr loc (i : Int) (F.add (F.mul x (F.lit 0.997)) (F.mul v (F.sub F.one (F.lit 0.997))))) (k := nBPS)
        (n := b.length) (by
          intro i hi m hl
          obtain ⟨x, hx⟩ := getElem?_some_of_lt (v := m) (i := i) (by omega)
          obtain ⟨y, hy⟩ := getElem?_some_of_lt (v := nm) (i := nBPS * t + i) (by
            rw [hn]; simp only [nNote, nBPS] at *; omega)
          rw [rd_nat hx, bind_ok, rd_nat hy, bind_ok]
          exact ⟨_, wr_nat _ (by omega), by simpa using hl⟩) b rfl
      refine ⟨(a', b'), ?_, by simp only; omega, by simp only; omega⟩
      simp only [ea, eb, bind_ok]
      rfl)
  simp only [e2, bind_ok]
  exact ⟨r.1, r.2, rfl, l2, l3⟩

theorem normalisedTuning_loose (F : Fns D) (p : Base D T) {sums : List D} (h1 : nBPS ≤ sums.length)
    (h2 : nBPS ≤ p.sinvalues.length) (h3 : nBPS ≤ p.cosvalues.length) :
    ∃ y x, normalisedTuning F p sums = .ok (F.div (F.atan2 y x) (F.mul (F.lit 2) F.pi)) := by
  unfold normalisedTuning
  obtain ⟨r, e, -⟩ := loop_inv (body := fun i (r : D × D) => do
      let m ← rd sums (i : Int)
      let c ← rd p.cosvalues (i : Int)
      let s ← rd p.sinvalues (i : Int)
      pure (F.add r.1 (F.mul m c), F.add r.2 (F.mul m s))) (k := nBPS) (s := (F.lit 0, F.lit 0))
    (fun _ _ => True) trivial (by
      intro i hi r _
      obtain ⟨x, hx⟩ := getElem?_some_of_lt (v := sums) (i := i) (by omega)
      obtain ⟨y, hy⟩ := getElem?_some_of_lt (v := p.cosvalues) (i := i) (by omega)
      obtain ⟨z, hz⟩ := getElem?_some_of_lt (v := p.sinvalues) (i := i) (by omega)
      rw [rd_nat hx, bind_ok, rd_nat hy, bind_ok, rd_nat hz, bind_ok]
      exact ⟨_, rfl, trivial⟩)
  rw [e, bind_ok]
  exact ⟨_, _, rfl⟩

theorem baseProcess_loose (F : Fns D) (hT : Tunes F) {p : Base D T} (hp : Loose F p) {fbuf : List D}
    (hf : 2 * (p.blockSize / 2) ≤ fbuf.length) (ts : T) :
    ∃ p', baseProcess F fbuf ts p = .ok p' ∧ Loose F p' ∧ p'.blockSize = p.blockSize ∧ p'.hw = p.hw ∧
      p'.logSpectrum ≠ [] := by
  have hQ := signed_true F
  unfold baseProcess
  obtain ⟨r, e1, l1, q1⟩ := magnitudes_ok F hQ { p with frameCount := p.frameCount + 1 } (fbuf := fbuf) hf
  obtain ⟨m2, e2, l2, q2⟩ := applyRollon_ok F hQ { p with frameCount := p.frameCount + 1 } r.2.2 l1 q1
  obtain ⟨m3, e3, l3, q3⟩ := silence_ok F hQ { p with frameCount := p.frameCount + 1 } r.2.1 l2 q2
  obtain ⟨nm, e4, l4, q4⟩ := mapNotes_ok F hQ (kernel := p.kernel) (mag := m3)
    (by rw [l3]; exact fun k hk => ⟨trivial, hp.kernel k hk⟩) q3
  obtain ⟨m5, l5, e5, n5, n5'⟩ := updateTunings_loose F l4 { p with frameCount := p.frameCount + 1 } hp.mean hp.loc
  obtain ⟨y, x, e6⟩ := normalisedTuning_loose F
    { p with frameCount := p.frameCount + 1, meanTunings := m5, localTunings := l5 } n5' hp.sinv hp.cosv
  simp only [e1, e2, e3, e4, e5, e6, bind_ok]
  refine ⟨_, rfl, ?_, rfl, rfl, by simp⟩
  exact {
    mean := n5
    loc := n5'
    sinv := hp.sinv
    cosv := hp.cosv
    kernel := hp.kernel
    tun := by simp [hp.tun]
    shift := by
      intro t ht
      rcases List.mem_append.mp ht with h | h
      · exact hp.shift t h
      · rw [List.mem_singleton.mp h]
        exact hT y x
    spec := by
      intro f hf
      rcases List.mem_append.mp hf with h | h
      · exact hp.spec f h
      · rw [List.mem_singleton.mp h]
        exact l4 }

theorem blocks_loose (F : Fns D) (hT : Tunes F) : ∀ (blocks : List (T × List D)) (p : Base D T), Loose F p →
    (∀ bl ∈ blocks, 2 * (p.blockSize / 2) ≤ bl.2.length) →
    ∃ p', blocks.foldlM (fun p bl => baseProcess F bl.2 bl.1 p) p = .ok p' ∧ Loose F p' ∧ p'.hw = p.hw ∧
      (blocks ≠ [] ∨ p.logSpectrum ≠ [] → p'.logSpectrum ≠ []) := by
  intro blocks
  induction blocks with
  | nil => exact fun p hp _ => ⟨p, rfl, hp, rfl, fun h => h.resolve_left (fun h => h rfl)⟩
  | cons bl blocks ih =>
    intro p hp hbl
    obtain ⟨q, e1, hq, b1, w1, n1⟩ := baseProcess_loose F hT hp (hbl bl (by simp)) bl.1
    obtain ⟨p', e2, h2, w2, n2⟩ := ih q hq (fun x hx => by rw [b1]; exact hbl x (by simp [hx]))
    refine ⟨p', ?_, h2, w2.trans w1, fun _ => n2 (Or.inr n1)⟩
    rw [List.foldlM_cons, e1, bind_ok, e2]

/-- With an even number of weights the assertion of `SpecialConvolution` fails on the first frame. -/
theorem tuneAll_even (F : Fns D) {p : Base D T} (hp : Loose F p) {tuning : D}
    (ht : -2 ≤ (shiftOf F tuning).1 ∧ (shiftOf F tuning).1 ≤ 1) (h : p.hw.length % 2 = 0)
    (hne : p.logSpectrum ≠ []) : tuneAll F p tuning = .abort := by
  unfold tuneAll
  cases hl : p.logSpectrum with
  | nil => exact absurd hl hne
  | cons a l =>
    rw [List.zipIdx_cons, List.foldlM_cons]
    have s1 := hp.spec a (by rw [hl]; simp)
    have hs : ∃ t, (if p.params.tuneLocal then do
        let t ← rd p.localTuning ((0 : Nat) : Int)
        pure (shiftOf F t)
      else pure (shiftOf F tuning)) = Run.ok (shiftOf F t) ∧
        -2 ≤ (shiftOf F t).1 ∧ (shiftOf F t).1 ≤ 1 := by
      split_ifs
      · obtain ⟨t, h⟩ := getElem?_some_of_lt (v := p.localTuning) (i := 0) (by rw [hp.tun, hl]; simp)
        rw [rd_nat h, bind_ok]
        exact ⟨t, rfl, hp.shift t (List.mem_of_getElem? h)⟩
      · exact ⟨tuning, rfl, ht⟩
    obtain ⟨t, e1, ht'⟩ := hs
    obtain ⟨f2, e2, l2, q2⟩ := tuneFrame_ok F (signed_true F) s1 (fun _ _ => trivial) ht'
    have e3 : whitenFrame F p.hw p.params.whitening f2 = .abort := by
      unfold whitenFrame specialConvolution
      simp only [h, if_true]
      rfl
    simp only [e1, e2, e3, bind_ok]
    rfl

/-- **C128, channels.**  A new instance that is set up with blocks of at least four samples answers; it accepts one
channel and refuses every other number. -/
theorem C128_channels (F : Fns D) (fs : Int) (ch : Nat) {bs : Nat} (hb : 4 ≤ bs) (params : Params D) :
    ∃ b p, initialise F fs ch bs (Base.new F params : Base D T) = .ok (b, p) ∧ (b = true ↔ ch = 1) := by
  obtain ⟨b, p, h, hc, _⟩ := initialise_any F fs ch hb (Base.new F params : Base D T) (by simp [Base.new]) rfl rfl
  exact ⟨b, p, h, hc⟩

theorem again_abort (F : Fns D) (hT : Tunes F) (p : Base D T) (hw : p.hw.length % 2 = 0) (hp : Loose F p)
    (blocks : List (T × List D)) (hne : blocks ≠ []) (hbl : ∀ bl ∈ blocks, 2 * (p.blockSize / 2) ≤ bl.2.length) :
    ∃ p', blocks.foldlM (fun p bl => baseProcess F bl.2 bl.1 p) p = .ok p' ∧ p'.logSpectrum ≠ [] ∧
      ∃ t, normalisedTuning F p' p'.meanTunings = .ok t ∧ tuneAll F p' t = .abort := by
  obtain ⟨p', e, h, w, n⟩ := blocks_loose F hT blocks p hp hbl
  obtain ⟨y, x, e1⟩ := normalisedTuning_loose F p' h.mean h.sinv h.cosv
  exact ⟨p', e, n (Or.inl hne), _, e1, tuneAll_even F h (hT y x) (by rw [w]; exact hw) (n (Or.inl hne))⟩

/-- **C128, violated: the chroma plug-in.**  A host may set up an instance again, for instance after two channels were
refused.  In every arithmetic, for every first call and for every recording with at least one block, an
instance that is set up again and accepts fails an assertion when the features are collected: it holds 38 window
weights, and their number must be odd.  (Set up once it runs through, `C68_plugin_runs`.) -/
theorem C128_chroma_again_violated (F : Fns D) (hT : Tunes F) (fs : Int) (params : Params D) (ch : Nat) {bs bs' : Nat}
    (hb : 4 ≤ bs) (hb' : 4 ≤ bs') (blocks : List (T × List D)) (hne : blocks ≠ [])
    (hbl : ∀ bl ∈ blocks, bs' ≤ bl.2.length) (junk : Nat → Nnls.St D) :
    runAgain F fs params (ch, bs) (1, bs') blocks junk = .abort := by
  unfold runAgain
  obtain ⟨b, p, e1, _, w1, d1, s1, t1, _⟩ :=
    initialise_any F fs ch hb (Base.new F params : Base D T) (by simp [Base.new]) rfl rfl
  obtain ⟨b', p', e2, c2, w2, _, _, _, g2⟩ := initialise_any F fs 1 hb' p d1 s1 t1
  obtain ⟨g3, g4⟩ := g2 rfl
  simp only [e1, e2, bind_ok]
  rw [if_pos (c2.2 rfl)]
  obtain ⟨q, e3, n3, t, e4, e5⟩ := again_abort F hT p' (by
    rw [w2, w1]; simp [Base.new, hamwinlength, nBPS]) g4 blocks hne (fun bl h => by
      have := hbl bl h
      omega)
  rw [e3, bind_ok]
  unfold getRemainingFeatures
  rw [if_neg (by simpa using n3), e4, bind_ok, e5]
  rfl

/-- In exact arithmetic: two channels are refused, one channel is accepted, and one silent block ends the program. -/
example (params : Params ℝ) (junk : Nat → Nnls.St ℝ) :
    runAgain exactFns 44100 params (2, 16384) (1, 16384) [((), List.replicate 16386 (0 : ℝ))] junk = .abort := by
  refine C128_chroma_again_violated exactFns exact_tunes 44100 params 2 (by norm_num) (by norm_num) _
    (List.cons_ne_nil _ _) ?_ junk
  intro bl h
  rw [List.mem_singleton.1 h, List.length_replicate]
  norm_num

/-- **C128, violated: the chord plug-in.**  It delivers nothing either. -/
theorem C128_chords_again_violated (F : Fns D) (hT : Tunes F) (fs : Int) (params : Params D) (boostN harte : D)
    (ext : Option (List Str × List D)) (ch : Nat) {bs bs' : Nat} (hb : 4 ≤ bs) (hb' : 4 ≤ bs')
    (blocks : List (Int × List D)) (hne : blocks ≠ []) (hbl : ∀ bl ∈ blocks, bs' ≤ bl.2.length)
    (junk : Nat → Nnls.St D) :
    ∀ f, chordsAgain F ext fs params boostN harte (ch, bs) (1, bs') blocks junk ≠ .ok (some f) := by
  intro f h
  obtain ⟨b, p, e1, _, w1, d1, s1, t1, _⟩ :=
    initialise_any F fs ch hb (Base.new F params : Base D Int) (by simp [Base.new]) rfl rfl
  obtain ⟨b', p', e2, c2, w2, _, _, _, g2⟩ := initialise_any F fs 1 hb' p d1 s1 t1
  obtain ⟨g3, g4⟩ := g2 rfl
  unfold chordsAgain at h
  obtain ⟨r, hr, h⟩ := bind_eq_ok.1 h
  obtain ⟨r', hr', h⟩ := bind_eq_ok.1 h
  have hbase : ∀ (ch bs : Nat) (c : Chordino.State D) (r : Bool × Chordino.State D) (b : Bool) (q : Base D Int),
      Chordino.initialise F ext fs ch bs c = .ok r → Chroma.initialise F fs ch bs c.base = .ok (b, q) →
      r.2.base = q := by
    intro ch bs c r b q hr hq
    unfold Chordino.initialise at hr
    rw [hq, bind_ok] at hr
    split at hr
    · obtain ⟨d, _, hr⟩ := bind_eq_ok.1 hr
      cases hr
      rfl
    · cases hr
      rfl
  have hp : r.2.base = p := hbase _ _ _ _ _ _ hr e1
  have hp' : r'.2.base = p' := hbase _ _ _ _ _ _ hr' (by rw [hp]; exact e2)
  split at h
  · obtain ⟨q, e3, n3, t, e4, e5⟩ := again_abort F hT p' (by
      rw [w2, w1]; simp [Base.new, hamwinlength, nBPS]) g4 blocks hne (fun bl h => by
        have := hbl bl h
        omega)
    rw [hp', e3, bind_ok] at h
    obtain ⟨g, hg, h⟩ := bind_eq_ok.1 h
    unfold Chordino.getRemainingFeatures at hg
    simp only at hg
    rw [if_neg (by simpa using n3), e4, bind_ok, e5] at hg
    cases hg
  · cases h

end JKD.Chroma
