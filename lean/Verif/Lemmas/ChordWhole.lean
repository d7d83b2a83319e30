import Verif.Lemmas.ChordRun
/-
A whole run of the chord plug-in, beside a run of the chroma plug-in on the same recording.
-/

namespace JKD.Chordino

open JKD.Chroma JKD.ChordViterbi

variable {D : Type}

/-- An external dictionary gives all the values of all its chord types. -/
def Long (ext : Option (List Str × List D)) : Prop := ∀ e, ext = some e → 24 * e.1.length ≤ e.2.length

theorem typesOf_long (F : Fns D) {ext : Option (List Str × List D)} (h : Long ext) (harte : D) :
    24 * (typesOf F ext harte).1.length ≤ (typesOf F ext harte).2.length := by
  cases ext with
  | some e => exact h e rfl
  | none =>
    unfold typesOf
    dsimp only [Option.getD_none]
    rw [List.length_map]
    split
    · decide +kernel
    · decide +kernel

/-- The sizes of the dictionary. -/
theorem dictionary_sizes (F : Fns D) {ext : Option (List Str × List D)} (h : Long ext) (boostN harte : D) :
    ∃ d, chordDictionary F ext [] [] boostN harte = .ok d ∧
      d.1.length = 12 * (typesOf F ext harte).1.length + 1 ∧ d.2.1.length = 24 * d.1.length ∧
      d.2.2.length = d.1.length ∧ d.2.2.getD (d.1.length - 1) [] = [] ∧ d.1.getD (d.1.length - 1) [] = ['N'] := by
  refine ⟨_, chordDictionary_eq F ext [] [] boostN harte (F.lit 0) (typesOf_long F h harte), ?_, ?_, ?_, ?_, ?_⟩
  · dsimp only
    rw [List.length_append, tab_length]
    rfl
  · dsimp only
    rw [List.nil_append, List.length_append, tab_length, tab_length]
    rfl
  · dsimp only
    rw [List.nil_append, List.length_append, tab_length, List.length_append, tab_length]
    rfl
  · dsimp only
    rw [List.length_append, tab_length]
    simp only [List.nil_append, List.length_singleton, Nat.add_sub_cancel]
    rw [List.getD_eq_getElem?_getD, List.getElem?_append_right (by rw [tab_length]), tab_length]
    simp
  · dsimp only
    rw [List.length_append, tab_length]
    simp only [List.length_singleton, Nat.add_sub_cancel]
    rw [List.getD_eq_getElem?_getD, List.getElem?_append_right (by rw [tab_length]), tab_length]
    simp

theorem viterbi_fit (F : Fns D) {names : List Str} {chordnotes : List (List Int)} {ts : List Int} {g : List (List D)}
    (hN : 0 < names.length) (hno : names.length ≤ chordnotes.length) (hg : g ≠ []) (ht : ts.length = g.length)
    (hrow : ∀ r ∈ g, r.length = names.length) :
    ∃ v, viterbiPath (viterbiOps F) (tab names.length (fun c => if c = names.length - 1 then F.lit 1 else F.lit 0))
        (tab names.length (fun i => tab names.length (fun j => transOf F names.length i j))) g = .ok v ∧
      Fit names chordnotes ts v g.length := by
  have hs : Sized names.length (tab names.length (fun c => if c = names.length - 1 then F.lit 1 else F.lit 0))
      (tab names.length (fun i => tab names.length (fun j => transOf F names.length i j))) g := by
    refine ⟨hN, tab_length _ _, tab_length _ _, ?_, hg, hrow⟩
    intro r hr
    obtain ⟨i, -, rfl⟩ := List.mem_map.1 hr
    exact tab_length _ _
  obtain ⟨v, e, h1, h2, h3, h4, -⟩ := C50_safe (viterbiOps F) hs
  cases g with
  | nil => exact absurd rfl hg
  | cons o0 os =>
    obtain ⟨ds, scs, k1, k2, k3, -, -, e'⟩ := viterbiPath_full (viterbiOps F) o0 os hs
    have hv := res_inj (e.symm.trans e')
    have hd : v.delta = ds := by rw [hv]
    refine ⟨v, e, ⟨by simp, ht, h1, h2, hN, hno, h4, ?_, h3⟩⟩
    intro r hr
    rw [hd] at hr
    obtain ⟨i, hi, rfl⟩ := List.getElem_of_mem hr
    have := k3 i (by omega)
    rw [List.getElem?_eq_getElem hi] at this
    rw [Option.some.inj this]
    exact (rows_length (viterbiOps F) hN o0 _).1

/-- A run of the plug-in. -/
theorem run_ok (F : Fns D) (hO : Nnls.Ordered F.toOps) (hT : Tunes F) {ext : Option (List Str × List D)}
    (hext : Long ext) (fs : Int) {bs : Nat} (hb : 4 ≤ bs) (params : Params D) (boostN harte : D)
    {blocks : List (Int × List D)} (hbl : ∀ bl ∈ blocks, bs ≤ bl.2.length) (junk : Nat → Nnls.St D) (z : D) :
    ∃ fc f d, Chroma.runAll F fs bs params blocks junk = .ok (some fc) ∧
      runAll F ext fs bs params boostN harte blocks junk = .ok (some f) ∧
      chordDictionary F ext [] [] boostN harte = .ok d ∧
      (blocks = [] → f = ⟨[], [], [], []⟩) ∧
      (blocks ≠ [] → ∃ cs v,
        cs.length = blocks.length ∧ (∀ c ∈ cs, c.length = 24) ∧
        (F.lt (F.lit 0) params.doNormalizeChroma = false → cs = fc.bothchroma.map Prod.snd) ∧
        viterbiPath (viterbiOps F) (tab d.1.length (fun c => if c = d.1.length - 1 then F.lit 1 else F.lit 0))
          (tab d.1.length (fun i => tab d.1.length (fun j => transOf F d.1.length i j)))
          (cs.map (salienceOf F d.2.1 z d.1.length)) = .ok v ∧
        Fit d.1 d.2.2 (blocks.map Prod.fst) v blocks.length ∧
        report F d.1 d.2.2 (blocks.map Prod.fst) v blocks.length = .ok f) := by
  obtain ⟨fc, ec, o1, -, -, -, o5, -, p, hs, hfr, htu, p0, i0, i1⟩ :=
    runAll_ok F (signed_true F) hO hT fs hb params hbl junk
  obtain ⟨d, ed, d1, d2, d3, -⟩ := dictionary_sizes F hext boostN harte
  have hN : 0 < d.1.length := by omega
  have hpar := hs.pars
  have hlog : p.logSpectrum.map Prod.fst = blocks.map Prod.fst := by
    have : ∀ (blocks : List (Int × List D)) (p0 p : Base D Int), (∀ bl ∈ blocks, bs ≤ bl.2.length) →
        SetUp F (fun _ => True) bs params p0 →
        blocks.foldlM (fun p bl => baseProcess F bl.2 bl.1 p) p0 = .ok p →
        p.logSpectrum.map Prod.fst = p0.logSpectrum.map Prod.fst ++ blocks.map Prod.fst := by
      intro blocks
      induction blocks with
      | nil =>
        intro p0 p _ _ h
        cases h
        simp
      | cons bl blocks ih =>
        intro p0 p hbl h1 h
        rw [List.foldlM_cons] at h
        have hbs := h1.blockSize
        have hlen := hbl bl (by simp)
        obtain ⟨p', nm, e, g1, g2, g4, g3, -, g5, g6, -⟩ :=
          baseProcess_ok F (signed_true F) hT h1.ready (fbuf := bl.2) (by omega) bl.1
        rw [e, bind_ok] at h
        rw [ih p' p (fun b hb => hbl b (by simp [hb]))
          ⟨g1, by rw [g2, hbs], by rw [g4, h1.pars], by rw [g5]; exact h1.dict, by rw [g6]; exact h1.hw⟩ h, g3]
        simp
    obtain ⟨p0', e0, r0, b0, pa0, s0, -, d0, w0⟩ := initialise_ok (T := Int) F (signed_true F) fs hb params
    have hp0 : p0' = p0 := by
      have := e0.symm.trans i0
      cases this
      rfl
    subst hp0
    rw [this blocks p0' p hbl ⟨r0, b0, pa0, d0, w0⟩ i1, s0]
    simp
  have hlen : p.logSpectrum.length = blocks.length := by
    have := congrArg List.length hlog
    simpa using this
  have hrun : runAll F ext fs bs params boostN harte blocks junk =
      (getRemainingFeatures F { State.new F params boostN harte with
        base := p, chordnames := d.1, chorddict := d.2.1, chordnotes := d.2.2 } junk >>= fun f => pure (some f)) := by
    unfold runAll initialise
    have hbase : (State.new F params boostN harte).base = Base.new F params := rfl
    have hcd : (State.new F params boostN harte).chorddict = [] := rfl
    have hcn : (State.new F params boostN harte).chordnotes = [] := rfl
    have hbn : (State.new F params boostN harte).boostN = boostN := rfl
    have hha : (State.new F params boostN harte).harte = harte := rfl
    rw [hbase, i0, bind_ok, if_pos rfl, hcd, hcn, hbn, hha, ed, bind_ok, pure_eq, bind_ok, if_pos rfl]
    dsimp only
    rw [i1, bind_ok]
    rfl
  rw [hrun]
  by_cases hb0 : blocks = []
  · subst hb0
    have : p.logSpectrum.length = 0 := by simpa using hlen
    refine ⟨fc, ⟨[], [], [], []⟩, d, ec, ?_, ed, fun _ => rfl, fun h => absurd rfl h⟩
    unfold getRemainingFeatures
    rw [if_pos this]
    rfl
  · have hne : p.logSpectrum ≠ [] := by
      intro h
      rw [h] at hlen
      exact hb0 (List.eq_nil_of_length_eq_zero hlen.symm)
    obtain ⟨t, tuned, t1, t2, t3⟩ := htu hne
    rw [t3] at o1
    have htl : tuned.1.length = blocks.length := by
      have := congrArg List.length o1.1
      simpa using this
    have hbl' : fc.bothchroma.length = blocks.length := by
      have := congrArg List.length o5.1
      simpa using this
    obtain ⟨g, eg, cs, hg, hcl, hcr, hcb⟩ := foldlM_inv (f := fun (g : List (List D)) (fr : (Int × List D) × Nat) => do
      let n ← notesOf F p (junk fr.2) fr.1.2
      let row ← chordSalience F d.2.1 d.1.length (n.basschroma ++ n.chroma)
      pure (g ++ [row])) (l := tuned.1.zipIdx) (b := [])
      (fun i (g : List (List D)) => ∃ cs : List (List D), g = cs.map (salienceOf F d.2.1 z d.1.length) ∧ cs.length = i ∧
        (∀ c ∈ cs, c.length = 24) ∧
        (F.lt (F.lit 0) params.doNormalizeChroma = false → cs = (fc.bothchroma.map Prod.snd).take i))
      ⟨[], rfl, rfl, by simp, fun _ => by simp⟩ (by
        rintro i fr hfr' g ⟨cs, hg, hl, hc, hcb⟩
        rw [List.getElem?_zipIdx] at hfr'
        obtain ⟨fr', hf, rfl⟩ := Option.map_eq_some_iff.mp hfr'
        obtain ⟨tt, f2⟩ := fr'
        rw [← t3] at hf
        obtain ⟨n, en, -, -, -, hb⟩ := hfr i tt f2 hf
        rw [t3] at hf
        obtain ⟨s1, s2⟩ := o1.2 _ (List.mem_of_getElem? hf)
        obtain ⟨n', en', nok, -⟩ := notesOf_ok F (signed_true F) hO hs.ready (junk i) s1 s2
        have : n' = n := by
          have := en'.symm.trans en
          cases this
          rfl
        subst this
        have hnl : (n'.basschroma ++ n'.chroma).length = 24 := by
          rw [List.length_append, nok.b, nok.c]
        simp only [Nat.zero_add, en, bind_ok]
        rw [chordSalience_eq F z hN (by omega) hnl, bind_ok]
        refine ⟨_, rfl, cs ++ [n'.basschroma ++ n'.chroma], ?_, ?_, ?_, ?_⟩
        · rw [hg, List.map_append]
          rfl
        · rw [List.length_append, hl]
          rfl
        · intro c hc'
          rcases List.mem_append.mp hc' with h | h
          · exact hc c h
          · rw [List.mem_singleton.mp h]
            exact hnl
        · intro hn
          rw [hcb hn, List.take_add_one, List.getElem?_map, hb, hpar]
          unfold chromas
          rw [hn]
          rfl)
    rw [List.length_zipIdx, htl] at hcl hcb
    rw [List.take_of_length_le (by simp [hbl'])] at hcb
    have hgl : g.length = blocks.length := by rw [hg, List.length_map, hcl]
    have hgne : g ≠ [] := by
      intro h
      rw [h] at hgl
      exact hb0 (List.eq_nil_of_length_eq_zero hgl.symm)
    obtain ⟨v, ev, fit⟩ := viterbi_fit F (names := d.1) (chordnotes := d.2.2) (ts := blocks.map Prod.fst) hN (by omega)
      hgne (by rw [hgl]; simp) (by
        intro r hr
        rw [hg] at hr
        obtain ⟨c, -, rfl⟩ := List.mem_map.1 hr
        exact salienceOf_length _ _ _ _ _)
    rw [hgl] at fit
    obtain ⟨f, ef, -⟩ := report_ok F fit z
    refine ⟨fc, f, d, ec, ?_, ed, fun h => absurd h hb0, fun _ => ⟨cs, v, hcl, hcr, hcb, by rw [← hg]; exact ev, fit, ef⟩⟩
    unfold getRemainingFeatures
    dsimp only
    rw [if_neg (by rw [hlen]; intro h; exact hb0 (List.eq_nil_of_length_eq_zero h)), t1, bind_ok, t2, bind_ok, eg, bind_ok,
      initProb_eq F hN, bind_ok, transProb_eq, bind_ok, ev]
    change (report F d.1 d.2.2 (p.logSpectrum.map Prod.fst) v p.logSpectrum.length >>= _) = _
    rw [hlog, hlen, ef]
    rfl

end JKD.Chordino
