import Verif.Props.ParamEffectProps
import Verif.Props.ChordReportProps
/-
C161: what the parameters of the chord plug-in have no influence on.
-/

namespace JKD.Chordino

open Chroma ChordViterbi

variable {D : Type}

/-! ### Proof -/

theorem remaining_same (F : Fns D) (z : Params D) (c : State D) {p p' : Base D Int} (hb : bareOf z p' = bareOf z p)
    {junk junk' : Nat → Nnls.St D} (hn : ∀ i f2, notesOf F p' (junk' i) f2 = notesOf F p (junk i) f2) :
    getRemainingFeatures F { c with base := p' } junk' = getRemainingFeatures F { c with base := p } junk := by
  have h1 : p'.logSpectrum = p.logSpectrum := by
    have h := congrArg (fun b : Base D Int => b.logSpectrum) hb
    exact h
  have h2 : normalisedTuning F p' p'.meanTunings = normalisedTuning F p p.meanTunings := by
    have h : normalisedTuning F (bareOf z p') (bareOf z p').meanTunings =
      normalisedTuning F (bareOf z p) (bareOf z p).meanTunings := by rw [hb]
    exact h
  have h3 : ∀ t, tuneAll F p' t = tuneAll F p t := by
    intro t
    have h : tuneAll F (bareOf z p') t = tuneAll F (bareOf z p) t := by rw [hb]
    exact h
  unfold getRemainingFeatures
  simp only [h1, h2, h3, hn]

theorem runs_same (F : Fns D) (hO : Nnls.Ordered F.toOps) (hT : Tunes F) (ext : Option (List Str × List D)) (fs : Int)
    {bs : Nat} (hbs : 4 ≤ bs) {q q' : Params D} (hs : SameSpectrum q q') (boostN harte : D)
    {blocks : List (Int × List D)} (hbl : ∀ bl ∈ blocks, bs ≤ bl.2.length) (junk junk' : Nat → Nnls.St D)
    (hn : ∀ p p' : Base D Int, p.params = q → p'.params = q' → (q'.s = q.s → p'.dict = p.dict) →
      ∀ i f2, notesOf F p' (junk' i) f2 = notesOf F p (junk i) f2) :
    runAll F ext fs bs q' boostN harte blocks junk' = runAll F ext fs bs q boostN harte blocks junk := by
  obtain ⟨-, -, -, -, -, -, -, -, p, hu, -, -, hm⟩ := runAll_ok F (signed_true F) hO hT fs hbs q hbl junk
  obtain ⟨-, -, -, -, -, -, -, -, p', hu', -, -, hm'⟩ := runAll_ok F (signed_true F) hO hT fs hbs q' hbl junk'
  have hb := made_bare F q hs hm hm'
  obtain ⟨p0, i1, i2⟩ := hm
  obtain ⟨p0', i1', i2'⟩ := hm'
  have hd : q'.s = q.s → p'.dict = p.dict := by
    intro h
    have := hu'.dict
    rw [h] at this
    exact ok_inj (this.symm.trans hu.dict)
  have key : ∀ c : State D, getRemainingFeatures F { c with base := p' } junk' = getRemainingFeatures F { c with base := p } junk :=
    fun c => remaining_same F q c hb (hn p p' hu.pars hu'.pars hd)
  unfold runAll initialise
  have n : ∀ x, (State.new F x boostN harte).base = Base.new F x := fun _ => rfl
  rw [n, n, i1, i1', bind_ok, bind_ok, if_pos rfl, if_pos rfl]
  have m : chordDictionary F ext (State.new F q' boostN harte).chorddict (State.new F q' boostN harte).chordnotes
      (State.new F q' boostN harte).boostN (State.new F q' boostN harte).harte =
    chordDictionary F ext (State.new F q boostN harte).chorddict (State.new F q boostN harte).chordnotes
      (State.new F q boostN harte).boostN (State.new F q boostN harte).harte := rfl
  rw [m]
  cases chordDictionary F ext (State.new F q boostN harte).chorddict (State.new F q boostN harte).chordnotes
      (State.new F q boostN harte).boostN (State.new F q boostN harte).harte with
  | ub => simp only [bind_ub]
  | abort => simp only [bind_abort]
  | ok d =>
    simp only [bind_ok, pure_eq, if_true, i2, i2']
    have := key { State.new F q boostN harte with chordnames := d.1, chorddict := d.2.1, chordnotes := d.2.2 }
    exact congrArg (fun x => x >>= fun f => Run.ok (some f)) this

/-! ### The property -/

/-- **C161 (normalisation).** What the chord plug-in says does not depend on the normalisation of the chroma. -/
theorem C161_normalisation (F : Fns D) (hO : Nnls.Ordered F.toOps) (hT : Tunes F) (ext : Option (List Str × List D))
    (fs : Int) {bs : Nat} (hb : 4 ≤ bs) (q : Params D) (v boostN harte : D) {blocks : List (Int × List D)}
    (hbl : ∀ bl ∈ blocks, bs ≤ bl.2.length) (junk : Nat → Nnls.St D) :
    runAll F ext fs bs { q with doNormalizeChroma := v } boostN harte blocks junk =
      runAll F ext fs bs q boostN harte blocks junk := by
  have hs : SameSpectrum q { q with doNormalizeChroma := v } := ⟨rfl, rfl, rfl⟩
  refine runs_same F hO hT ext fs hb hs boostN harte hbl junk junk ?_
  intro p p' h1 h2 h3 i f2
  unfold notesOf
  rw [h1, h2, h3 rfl]

/-- **C161 (without the transcription).** With the transcription switched off it does not depend on the shape of the note
profiles, nor on what uninitialised memory contains. -/
theorem C161_plain (F : Fns D) (hO : Nnls.Ordered F.toOps) (hT : Tunes F) (ext : Option (List Str × List D))
    (fs : Int) {bs : Nat} (hb : 4 ≤ bs) (q : Params D) (hoff : F.eq q.useNNLS (F.lit 0) = true) (v boostN harte : D)
    {blocks : List (Int × List D)} (hbl : ∀ bl ∈ blocks, bs ≤ bl.2.length) (junk junk' : Nat → Nnls.St D) :
    runAll F ext fs bs { q with s := v } boostN harte blocks junk' =
      runAll F ext fs bs q boostN harte blocks junk := by
  have hs : SameSpectrum q { q with s := v } := ⟨rfl, rfl, rfl⟩
  refine runs_same F hO hT ext fs hb hs boostN harte hbl junk junk' ?_
  intro p p' h1 h2 _ i f2
  unfold notesOf
  rw [h1, h2]
  simp only [if_pos hoff]

/-- **C161 (which chords).** Whatever the normalisation, the chords are a best sequence (C85) for the chroma as they are without it. -/
theorem C161_chords (fs : Int) {bs : Nat} (hb : 4 ≤ bs) (q : Params ℝ) (boostN harte : ℝ) {blocks : List (Int × List ℝ)}
    (hbl : ∀ bl ∈ blocks, bs ≤ bl.2.length) (hne : blocks ≠ []) (junk : Nat → Nnls.St ℝ) :
    ∃ fc f d p, Chroma.runAll exactFns fs bs { q with doNormalizeChroma := 0 } blocks junk = .ok (some fc) ∧
      runAll exactFns none fs bs q boostN harte blocks junk = .ok (some f) ∧
      chordDictionary exactFns none [] [] boostN harte = .ok d ∧
      Best 217 (fc.bothchroma.map (fun c => share d.2.1 217 c.2)) p ∧
      f.chords = changeList d.1 (blocks.map Prod.fst) p := by
  obtain ⟨fc, f, d, p, h1, h2, h3⟩ := C85_best_sequence fs hb { q with doNormalizeChroma := 0 } le_rfl boostN harte hbl hne junk
  have h := C161_normalisation exactFns exact_ordered exact_tunes none fs hb q 0 boostN harte hbl junk
  exact ⟨fc, f, d, p, h1, h.symm.trans h2, h3⟩

/-- **C161 (silence).** Whatever the normalisation, no chord and no note is reported for silence (C89). -/
theorem C161_silence {fs : Int} (hfs : 0 < fs) {bs : Nat} (hb : 4 ≤ bs) (q : Params ℝ) (boostN harte : ℝ)
    {blocks : List (Int × List ℝ)} (hbl : ∀ bl ∈ blocks, bs ≤ bl.2.length) (hne : blocks ≠ [])
    (hts : Increasing (blocks.map Prod.fst)) (junk : Nat → Nnls.St ℝ)
    (hq : ∀ bl ∈ blocks, ∀ n, n < bs / 2 → Real.sqrt (bl.2.getD (2 * n) 0 ^ 2 + bl.2.getD (2 * n + 1) 0 ^ 2) < 2) :
    ∃ f, runAll exactFns none fs bs q boostN harte blocks junk = .ok (some f) ∧
      f.chords = [((blocks.map Prod.fst).getD 0 0, ['N']), ((blocks.map Prod.fst).getD (blocks.length - 1) 0, ['N'])] ∧
      f.notes = [] := by
  obtain ⟨f, h1, h2⟩ := C89_silence hfs hb { q with doNormalizeChroma := 0 } le_rfl boostN harte hbl hne hts junk hq
  have h := C161_normalisation exactFns exact_ordered exact_tunes none fs hb q 0 boostN harte hbl junk
  exact ⟨f, h.symm.trans h1, h2⟩

/-- A tone, in exact arithmetic: dividing the chroma by their greatest value does not change the chords, of which there
are some. -/
example (junk : Nat → Nnls.St ℝ) :
    ∃ f, runAll exactFns none 1000 1000 { Params.default exactFns with doNormalizeChroma := 1 } 0.1 0 [(0, toneA 100)] junk =
        .ok (some f) ∧
      runAll exactFns none 1000 1000 (Params.default exactFns) 0.1 0 [(0, toneA 100)] junk = .ok (some f) ∧
      f.chords ≠ [] := by
  have hl : ∀ bl ∈ [((0 : Int), toneA 100)], 1000 ≤ bl.2.length := by simp [toneA_length]
  obtain ⟨f, e, -, -, h⟩ := C88_plugin_runs exactFns exact_ordered exact_tunes (ext := none) (fun _ h => by cases h) 1000
    (bs := 1000) (by norm_num) (Params.default exactFns) 0.1 0 hl junk
  have h2 := C161_normalisation exactFns exact_ordered exact_tunes none 1000 (bs := 1000) (by norm_num)
    (Params.default exactFns) 1 0.1 0 hl junk
  exact ⟨f, h2.trans e, e, fun h0 => List.cons_ne_nil _ _ (h.mp h0)⟩

end JKD.Chordino
