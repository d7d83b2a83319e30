import Verif.Props.SpectrumProps
/-
C159: what a parameter of the chroma plug-in has no influence on.
-/

namespace JKD.Chroma

variable {D T : Type}

/-! ### Specification -/

/-- The parameters that concern the spectrum are the same; those of the transcription and of the normalisation may
differ. -/
structure SameSpectrum (q q' : Params D) : Prop where
  rollon : q'.rollon = q.rollon
  tuneLocal : q'.tuneLocal = q.tuneLocal
  whitening : q'.whitening = q.whitening

/-! ### Proof -/

/-- The state without what belongs to the transcription and the normalisation. -/
def bareOf (z : Params D) (p : Base D T) : Base D T :=
  { p with dict := [], params := { z with rollon := p.params.rollon, tuneLocal := p.params.tuneLocal, whitening := p.params.whitening } }

theorem updateTunings_bare (F : Fns D) (z : Params D) (nm : List D) {p q : Base D T} (h : updateTunings F nm p = .ok q) :
    updateTunings F nm (bareOf z p) = .ok (bareOf z q) := by
  unfold updateTunings at h ⊢
  obtain ⟨m, e1, h⟩ := bind_eq_ok.mp h
  obtain ⟨r, e2, h⟩ := bind_eq_ok.mp h
  have h := ok_inj h
  subst h
  dsimp only [bareOf] at e1 e2 ⊢
  rw [e1, bind_ok, e2, bind_ok]
  rfl

theorem baseProcess_bare (F : Fns D) (z : Params D) {fbuf : List D} {ts : T} {p q : Base D T}
    (h : baseProcess F fbuf ts p = .ok q) : baseProcess F fbuf ts (bareOf z p) = .ok (bareOf z q) := by
  unfold baseProcess at h ⊢
  obtain ⟨r, e1, h⟩ := bind_eq_ok.mp h
  obtain ⟨m1, e2, h⟩ := bind_eq_ok.mp h
  obtain ⟨m2, e3, h⟩ := bind_eq_ok.mp h
  obtain ⟨nm, e4, h⟩ := bind_eq_ok.mp h
  obtain ⟨p', e5, h⟩ := bind_eq_ok.mp h
  obtain ⟨t, e6, h⟩ := bind_eq_ok.mp h
  have h := ok_inj h
  subst h
  have e5' := updateTunings_bare F z nm e5
  have e1' : magnitudes F { bareOf z p with frameCount := (bareOf z p).frameCount + 1 } fbuf = .ok r := e1
  have e2' : applyRollon F { bareOf z p with frameCount := (bareOf z p).frameCount + 1 } r.2.2 r.1 = .ok m1 := e2
  have e3' : silence F { bareOf z p with frameCount := (bareOf z p).frameCount + 1 } r.2.1 m1 = .ok m2 := e3
  have e4' : mapNotes F (bareOf z p).kernel m2 = .ok nm := e4
  have e5'' : updateTunings F nm { bareOf z p with frameCount := (bareOf z p).frameCount + 1 } = .ok (bareOf z p') := e5'
  have e6' : normalisedTuning F (bareOf z p') (bareOf z p').localTunings = .ok t := e6
  dsimp only
  rw [e1', bind_ok, e2', bind_ok, e3', bind_ok, e4', bind_ok, e5'', bind_ok, e6', bind_ok]
  rfl

theorem blocks_bare (F : Fns D) (z : Params D) (blocks : List (T × List D)) {p q : Base D T}
    (h : blocks.foldlM (fun p bl => baseProcess F bl.2 bl.1 p) p = .ok q) :
    blocks.foldlM (fun p bl => baseProcess F bl.2 bl.1 p) (bareOf z p) = .ok (bareOf z q) := by
  induction blocks generalizing p with
  | nil =>
    have h := ok_inj h
    subst h
    rfl
  | cons bl blocks ih =>
    rw [List.foldlM_cons] at h ⊢
    obtain ⟨p1, e1, h⟩ := bind_eq_ok.mp h
    rw [baseProcess_bare F z e1, bind_ok]
    exact ih h

theorem initialise_bare (F : Fns D) (z : Params D) (fs : Int) (bs : Nat) {q q' : Params D} (hs : SameSpectrum q q')
    {p p' : Base D T} (h : initialise F fs 1 bs (Base.new F q : Base D T) = .ok (true, p))
    (h' : initialise F fs 1 bs (Base.new F q' : Base D T) = .ok (true, p')) : bareOf z p' = bareOf z p := by
  unfold initialise at h h'
  obtain ⟨d, -, h⟩ := bind_eq_ok.mp h
  obtain ⟨d', -, h'⟩ := bind_eq_ok.mp h'
  obtain ⟨hw, e1, h⟩ := bind_eq_ok.mp h
  obtain ⟨hw', e1', h'⟩ := bind_eq_ok.mp h'
  have := ok_inj (e1.symm.trans e1')
  subst this
  dsimp only at h h'
  rw [if_neg (by omega)] at h h'
  obtain ⟨m, e2, h⟩ := bind_eq_ok.mp h
  obtain ⟨m', e2', h'⟩ := bind_eq_ok.mp h'
  have := ok_inj (e2.symm.trans e2')
  subst this
  obtain ⟨k, e3, h⟩ := bind_eq_ok.mp h
  obtain ⟨k', e3', h'⟩ := bind_eq_ok.mp h'
  have := ok_inj (e3.symm.trans e3')
  subst this
  have h := (Prod.mk.injEq _ _ _ _ ▸ ok_inj h : _ ∧ _).2
  have h' := (Prod.mk.injEq _ _ _ _ ▸ ok_inj h' : _ ∧ _).2
  subst h h'
  unfold bareOf Base.new
  dsimp only
  rw [hs.rollon, hs.tuneLocal, hs.whitening]

/-- The states after the blocks. -/
theorem made_bare (F : Fns D) (z : Params D) {fs : Int} {bs : Nat} {q q' : Params D} (hs : SameSpectrum q q')
    {blocks : List (T × List D)} {p p' : Base D T} (h : Made F fs bs q blocks p) (h' : Made F fs bs q' blocks p') :
    bareOf z p' = bareOf z p := by
  obtain ⟨a, e1, e2⟩ := h
  obtain ⟨a', e1', e2'⟩ := h'
  have h0 := initialise_bare F z fs bs hs e1 e1'
  have g := blocks_bare F z blocks e2
  have g' := blocks_bare F z blocks e2'
  rw [h0] at g'
  exact ok_inj (g'.symm.trans g)

theorem made_spectrum (F : Fns D) {p p' : Base D T} {f f' : Features D T} (z : Params D) (hb : bareOf z p' = bareOf z p)
    (ht : Tuned F p f) (ht' : Tuned F p' f') (hne : p.logSpectrum ≠ []) : f'.tunedlogfreqspec = f.tunedlogfreqspec := by
  have hne' : p'.logSpectrum ≠ [] := by
    have : p'.logSpectrum = p.logSpectrum := by
      have h := congrArg (fun b : Base D T => b.logSpectrum) hb
      exact h
    rw [this]
    exact hne
  obtain ⟨t, r, a1, a2, a3⟩ := ht hne
  obtain ⟨t', r', b1, b2, b3⟩ := ht' hne'
  have c1 : normalisedTuning F (bareOf z p) (bareOf z p).meanTunings = .ok t := a1
  have c1' : normalisedTuning F (bareOf z p') (bareOf z p').meanTunings = .ok t' := b1
  rw [hb] at c1'
  have := ok_inj (c1.symm.trans c1')
  subst this
  have c2 : tuneAll F (bareOf z p) t = .ok r := a2
  have c2' : tuneAll F (bareOf z p') t = .ok r' := b2
  rw [hb] at c2'
  have := ok_inj (c2.symm.trans c2')
  subst this
  rw [a3, b3]

theorem output_ext {Q : D → Prop} {ts : List T} {n m k : Nat} {a b c : List (T × List D)} (ha : Output Q ts n a)
    (hb : Output Q ts m b) (hc : Output Q ts k c)
    (h : ∀ (i : Nat) t f2, c[i]? = some (t, f2) → a[i]? = b[i]?) : a = b := by
  apply List.ext_getElem?
  intro i
  have la := congrArg List.length ha.1
  have lb := congrArg List.length hb.1
  have lc := congrArg List.length hc.1
  simp only [List.length_map] at la lb lc
  by_cases hi : i < c.length
  · exact h i c[i].1 c[i].2 (List.getElem?_eq_getElem hi)
  · rw [List.getElem?_eq_none (by omega), List.getElem?_eq_none (by omega)]

theorem baseProcess_adds (F : Fns D) {fbuf : List D} {ts : T} {p q : Base D T} (h : baseProcess F fbuf ts p = .ok q) :
    q.logSpectrum ≠ [] := by
  unfold baseProcess at h
  obtain ⟨r, -, h⟩ := bind_eq_ok.mp h
  obtain ⟨m1, -, h⟩ := bind_eq_ok.mp h
  obtain ⟨m2, -, h⟩ := bind_eq_ok.mp h
  obtain ⟨nm, -, h⟩ := bind_eq_ok.mp h
  obtain ⟨p', -, h⟩ := bind_eq_ok.mp h
  obtain ⟨t, -, h⟩ := bind_eq_ok.mp h
  have h := ok_inj h
  subst h
  simp

theorem blocks_kept (F : Fns D) (blocks : List (T × List D)) {p q : Base D T} (hne : blocks ≠ [] ∨ p.logSpectrum ≠ [])
    (h : blocks.foldlM (fun p bl => baseProcess F bl.2 bl.1 p) p = .ok q) : q.logSpectrum ≠ [] := by
  induction blocks generalizing p with
  | nil =>
    have h := ok_inj h
    subst h
    rcases hne with hne | hne
    · exact absurd rfl hne
    · exact hne
  | cons bl blocks ih =>
    rw [List.foldlM_cons] at h
    obtain ⟨p1, e1, h⟩ := bind_eq_ok.mp h
    exact ih (Or.inr (baseProcess_adds F e1)) h

theorem tuned_same (F : Fns D) {Q : D → Prop} {bs : Nat} {fs : Int} {q q' : Params D} (hs : SameSpectrum q q')
    {blocks : List (T × List D)} {p p' : Base D T} {f f' : Features D T} {n m : Nat}
    (ho : Output Q (blocks.map Prod.fst) n f.tunedlogfreqspec) (ho' : Output Q (blocks.map Prod.fst) m f'.tunedlogfreqspec)
    (ht : Tuned F p f) (ht' : Tuned F p' f') (h : Made F fs bs q blocks p) (h' : Made F fs bs q' blocks p') :
    f'.tunedlogfreqspec = f.tunedlogfreqspec := by
  by_cases hne : p.logSpectrum = []
  · have hlen : blocks = [] := by
      obtain ⟨a, e1, e2⟩ := h
      cases blocks with
      | nil => rfl
      | cons bl blocks => exact absurd hne (blocks_kept F _ (Or.inl (List.cons_ne_nil _ _)) e2)
    subst hlen
    have e := ho.1
    have e' := ho'.1
    simp only [List.map_nil, List.map_eq_nil_iff] at e e'
    rw [e, e']
  · exact made_spectrum F q (made_bare F q hs h h') ht ht' hne

/-! ### The property -/

/-- **C159 (the spectrum).** In every arithmetic with an order: the spectrum by semitone thirds (`tunedlogfreqspec`) does not depend
on the choice of the transcription, on the shape of its note profiles, on the normalisation of the chroma, or on what
the uninitialised memory contains. -/
theorem C159_spectrum (F : Fns D) (hO : Nnls.Ordered F.toOps) (hT : Tunes F) (fs : Int) {bs : Nat} (hb : 4 ≤ bs)
    {q q' : Params D} (hs : SameSpectrum q q') {blocks : List (T × List D)} (hbl : ∀ bl ∈ blocks, bs ≤ bl.2.length)
    (junk junk' : Nat → Nnls.St D) :
    ∃ f f', runAll F fs bs q blocks junk = .ok (some f) ∧ runAll F fs bs q' blocks junk' = .ok (some f') ∧
      f'.tunedlogfreqspec = f.tunedlogfreqspec := by
  obtain ⟨f, e, o, -, -, -, -, -, p, -, -, ht, hm⟩ := runAll_ok F (signed_true F) hO hT fs hb q hbl junk
  obtain ⟨f', e', o', -, -, -, -, -, p', -, -, ht', hm'⟩ := runAll_ok F (signed_true F) hO hT fs hb q' hbl junk'
  exact ⟨f, f', e, e', tuned_same F hs o o' ht ht' hm hm'⟩

/-- **C159 (the semitone spectrum).** … and the semitone spectrum does not depend on the normalisation of the chroma. -/
theorem C159_semitones (F : Fns D) (hO : Nnls.Ordered F.toOps) (hT : Tunes F) (fs : Int) {bs : Nat} (hb : 4 ≤ bs)
    (q : Params D) (v : D) {blocks : List (T × List D)} (hbl : ∀ bl ∈ blocks, bs ≤ bl.2.length)
    (junk : Nat → Nnls.St D) :
    ∃ f f', runAll F fs bs q blocks junk = .ok (some f) ∧
      runAll F fs bs { q with doNormalizeChroma := v } blocks junk = .ok (some f') ∧
      f'.semitonespectrum = f.semitonespectrum := by
  have hs : SameSpectrum q { q with doNormalizeChroma := v } := ⟨rfl, rfl, rfl⟩
  obtain ⟨f, e, o, s, -, -, -, -, p, hu, hf, ht, hm⟩ := runAll_ok F (signed_true F) hO hT fs hb q hbl junk
  obtain ⟨f', e', o', s', -, -, -, -, p', hu', hf', ht', hm'⟩ :=
    runAll_ok F (signed_true F) hO hT fs hb { q with doNormalizeChroma := v } hbl junk
  have et := tuned_same F hs o o' ht ht' hm hm'
  have ed : p'.dict = p.dict := ok_inj (hu'.dict.symm.trans hu.dict)
  refine ⟨f, f', e, e', output_ext s' s o ?_⟩
  intro i t f2 hi
  obtain ⟨n, g1, g2, -⟩ := hf i t f2 hi
  obtain ⟨n', g1', g2', -⟩ := hf' i t f2 (et ▸ hi)
  have hn : n' = n := by
    unfold notesOf at g1 g1'
    rw [hu'.pars, ed] at g1'
    rw [hu.pars] at g1
    exact ok_inj (g1'.symm.trans g1)
  rw [g2, g2', hn]

/-- **C159 (without the transcription).** With the transcription switched off nothing depends on the shape of the note
profiles or on what the uninitialised memory contains. -/
theorem C159_plain (F : Fns D) (hO : Nnls.Ordered F.toOps) (hT : Tunes F) (fs : Int) {bs : Nat} (hb : 4 ≤ bs)
    (q : Params D) (hoff : F.eq q.useNNLS (F.lit 0) = true) (v : D) {blocks : List (T × List D)}
    (hbl : ∀ bl ∈ blocks, bs ≤ bl.2.length) (junk junk' : Nat → Nnls.St D) :
    ∃ f f', runAll F fs bs q blocks junk = .ok (some f) ∧ runAll F fs bs { q with s := v } blocks junk' = .ok (some f') ∧
      f'.tunedlogfreqspec = f.tunedlogfreqspec ∧ f'.semitonespectrum = f.semitonespectrum ∧ f'.chroma = f.chroma ∧
      f'.basschroma = f.basschroma ∧ f'.bothchroma = f.bothchroma := by
  have hs : SameSpectrum q { q with s := v } := ⟨rfl, rfl, rfl⟩
  obtain ⟨f, e, o, s, c, b, a, -, p, hu, hf, ht, hm⟩ := runAll_ok F (signed_true F) hO hT fs hb q hbl junk
  obtain ⟨f', e', o', s', c', b', a', -, p', hu', hf', ht', hm'⟩ :=
    runAll_ok F (signed_true F) hO hT fs hb { q with s := v } hbl junk'
  have et := tuned_same F hs o o' ht ht' hm hm'
  have key : ∀ (i : Nat) t f2, f.tunedlogfreqspec[i]? = some (t, f2) →
      f'.semitonespectrum[i]? = f.semitonespectrum[i]? ∧ f'.chroma[i]? = f.chroma[i]? ∧
      f'.basschroma[i]? = f.basschroma[i]? ∧ f'.bothchroma[i]? = f.bothchroma[i]? := by
    intro i t f2 hi
    obtain ⟨n, g1, g2, g3, g4, g5⟩ := hf i t f2 hi
    obtain ⟨n', g1', g2', g3', g4', g5'⟩ := hf' i t f2 (et ▸ hi)
    have hn : n' = n := by
      unfold notesOf at g1 g1'
      rw [hu'.pars] at g1'
      rw [hu.pars] at g1
      simp only [if_pos hoff] at g1 g1'
      exact ok_inj (g1'.symm.trans g1)
    have hp : p'.params.doNormalizeChroma = p.params.doNormalizeChroma := by rw [hu'.pars, hu.pars]
    rw [g2, g2', g3, g3', g4, g4', g5, g5', hn, hp]
    exact ⟨rfl, rfl, rfl, rfl⟩
  exact ⟨f, f', e, e', et, output_ext s' s o fun i t f2 hi => (key i t f2 hi).1,
    output_ext c' c o fun i t f2 hi => (key i t f2 hi).2.1, output_ext b' b o fun i t f2 hi => (key i t f2 hi).2.2.1,
    output_ext a' a o fun i t f2 hi => (key i t f2 hi).2.2.2⟩

/-- With exact arithmetic and a tone: the transcription off and another normalisation give the same spectrum as the
parameters as delivered. -/
example (junk junk' : Nat → Nnls.St ℝ) :
    ∃ f f', runAll exactFns 1000 1000 (Params.default exactFns) [((), toneA 100)] junk = .ok (some f) ∧
      runAll exactFns 1000 1000 { Params.default exactFns with useNNLS := 0, s := 0.5, doNormalizeChroma := 2 }
        [((), toneA 100)] junk' = .ok (some f') ∧ f'.tunedlogfreqspec = f.tunedlogfreqspec := by
  have hl : ∀ bl ∈ [((), toneA 100)], 1000 ≤ bl.2.length := by simp [toneA_length]
  have hs : SameSpectrum (Params.default exactFns)
      { Params.default exactFns with useNNLS := 0, s := 0.5, doNormalizeChroma := 2 } := ⟨rfl, rfl, rfl⟩
  have h := C159_spectrum exactFns exact_ordered exact_tunes 1000 (bs := 1000) (by norm_num) hs hl junk junk'
  exact h

/-- The parameters as delivered, without the transcription. -/
noncomputable def delivered : Params ℝ := { Params.default exactFns with useNNLS := 0 }

/-- With the transcription off the shape 0.5 gives the same chroma as the shape delivered. -/
example (junk junk' : Nat → Nnls.St ℝ) :
    ∃ f f', runAll exactFns 1000 1000 delivered [((), toneA 100)] junk = .ok (some f) ∧
      runAll exactFns 1000 1000 { delivered with s := 0.5 } [((), toneA 100)] junk' = .ok (some f') ∧
      f'.chroma = f.chroma := by
  have hl : ∀ bl ∈ [((), toneA 100)], 1000 ≤ bl.2.length := by simp [toneA_length]
  have h0 : exactFns.eq delivered.useNNLS (exactFns.lit 0) = true := by simp [exactFns, delivered]
  have h := C159_plain exactFns exact_ordered exact_tunes 1000 (bs := 1000) (by norm_num) delivered h0 0.5 hl junk junk'
  exact h.imp fun _ h => h.imp fun _ h => ⟨h.1, h.2.1, h.2.2.2.2.1⟩

end JKD.Chroma
