import Verif.Model.Outputs
import Verif.Model.Pipeline
import Verif.Props.SpectrumProps
import Verif.Props.UserChordProps
import Verif.Props.ChordReportProps
/-
C116: the outputs of the two plug-ins are what their descriptions say.
-/

namespace JKD.Outputs

open JKD.Chroma

variable {D T : Type}

/-! ### Specification -/

/-- What a description promises about the features of its output for blocks at given times. -/
structure Keeps (d : Descriptor) (times : List T) (l : List (T × List D)) : Prop where
  /-- every feature has a value for every bin -/
  bins : ∀ f ∈ l, f.2.length = d.binCount
  /-- one feature at each of the times -/
  rate : d.fixedRate = true → l.map Prod.fst = times
  /-- all the bins have names or none -/
  names : d.binNames = [] ∨ d.binNames.length = d.binCount

/-- The range of notes and the pitch class a bin is for, by its name and the identifier of its output.  `true` is the
bass. -/
def binOf (identifier : String) (name : Str) : Option (Bool × Nat) :=
  if "(bass)".toList <:+ name then
    (Chordino.pitchClassOf ((name.take (name.length - 6)).filter (· ≠ ' '))).map (Prod.mk true)
  else (Chordino.pitchClassOf name).map (Prod.mk (decide (identifier = "basschroma")))

/-! ### Proof -/

/-- A block in a run with all outputs. -/
theorem chromaProcess_eq (F : Fns D) {Q : D → Prop} (hQ : Signed F Q) (hT : Tunes F) {p : Base D T} (hp : Ready F Q p)
    {fbuf : List D} (hf : 2 * (p.blockSize / 2) ≤ fbuf.length) (ts : T) :
    ∃ p' nm, baseProcess F fbuf ts p = .ok p' ∧ chromaProcess F fbuf ts p = .ok (p', (ts, nm)) ∧ Ready F Q p' ∧
      p'.blockSize = p.blockSize ∧ p'.logSpectrum = p.logSpectrum ++ [(ts, nm)] := by
  obtain ⟨p', nm, e, h1, h2, -, h3, -⟩ := baseProcess_ok F hQ hT hp hf ts
  refine ⟨p', nm, e, ?_, h1, h2, h3⟩
  unfold chromaProcess
  rw [e, bind_ok]
  have hr : Chroma.rd p'.logSpectrum ((p'.logSpectrum.length : Int) - 1) = .ok (ts, nm) := by
    apply rd_ok
    · rw [h3]
      simp
    · rw [h3]
      simp
  rw [hr, bind_ok]
  rfl

/-- The run with all outputs is the run of `runAll` and the spectra made on the way. -/
theorem runChroma_ok (F : Fns D) {Q : D → Prop} (hQ : Signed F Q) (hO : Nnls.Ordered F.toOps) (hT : Tunes F) (fs : Int)
    {bs : Nat} (hb : 4 ≤ bs) (params : Params D) {blocks : List (T × List D)} (hbl : ∀ bl ∈ blocks, bs ≤ bl.2.length)
    (junk : Nat → Nnls.St D) :
    ∃ f p, Chroma.runAll F fs bs params blocks junk = .ok (some f) ∧ Made F fs bs params blocks p ∧
      Ready F Q p ∧ p.logSpectrum.map Prod.fst = blocks.map Prod.fst ∧
      runChroma F fs bs params blocks junk = .ok (some (chromaFeatures p.logSpectrum f)) := by
  unfold Chroma.runAll runChroma
  obtain ⟨p0, e0, r0, b0, -, s0, -⟩ := initialise_ok (T := T) F hQ fs hb params
  have hfold : ∀ (l : List (T × List D)) (p : Base D T), (∀ bl ∈ l, bs ≤ bl.2.length) → Ready F Q p → p.blockSize = bs →
      ∃ p', l.foldlM (fun p bl => baseProcess F bl.2 bl.1 p) p = .ok p' ∧
        l.foldlM (fun (s : Base D T × List (T × List D)) bl => do
          let r ← chromaProcess F bl.2 bl.1 s.1
          pure (r.1, s.2 ++ [r.2])) (p, p.logSpectrum) = .ok (p', p'.logSpectrum) ∧ Ready F Q p' ∧
        p'.logSpectrum.map Prod.fst = p.logSpectrum.map Prod.fst ++ l.map Prod.fst := by
    intro l
    induction l with
    | nil =>
      intro p _ hp _
      exact ⟨p, rfl, rfl, hp, by simp⟩
    | cons bl l ih =>
      intro p hl hp hbs
      have h1 := hl bl (by simp)
      obtain ⟨p', nm, e1, e2, h2, h3, h4⟩ := chromaProcess_eq F hQ hT hp (fbuf := bl.2) (by omega) bl.1
      obtain ⟨p'', g1, g2, g3, g4⟩ := ih p' (fun b hb => hl b (by simp [hb])) h2 (by rw [h3, hbs])
      refine ⟨p'', ?_, ?_, g3, ?_⟩
      · rw [List.foldlM_cons, e1, bind_ok, g1]
      · rw [List.foldlM_cons, e2, bind_ok, pure_eq, bind_ok, ← h4]
        exact g2
      · rw [g4, h4]
        simp
  obtain ⟨p, e1, e2, hp, ht⟩ := hfold blocks p0 hbl r0 b0
  obtain ⟨f, e3, -⟩ := getRemainingFeatures_ok F hQ hO hT hp junk
  rw [s0] at e2 ht
  refine ⟨f, p, ?_, ⟨p0, e0, e1⟩, hp, by simpa using ht, ?_⟩
  · rw [e0, bind_ok, if_pos rfl, e1, bind_ok, e3, bind_ok]
    rfl
  · rw [e0, bind_ok, if_pos rfl, e2, bind_ok, e3, bind_ok]
    rfl

/-- The outputs the reader of audio files looks through are these. -/
theorem outputs_eq : Pipeline.outputs = chromaOutputs.map Descriptor.identifier := rfl

/-- **C116, the chroma plug-in.**  Any arithmetic, parameters, sampling rate, block size from four up and recording:
every output has one feature for every block, at its time, with as many values as the description says. -/
theorem C116_chroma_outputs (F : Fns D) (hO : Nnls.Ordered F.toOps) (hT : Tunes F) (fs : Int) {bs : Nat} (hb : 4 ≤ bs)
    (params : Params D) {blocks : List (T × List D)} (hbl : ∀ bl ∈ blocks, bs ≤ bl.2.length) (junk : Nat → Nnls.St D) :
    ∃ out, runChroma F fs bs params blocks junk = .ok (some out) ∧
      ∀ n d, chromaOutputs[n]? = some d → d.fixedRate = true ∧ Keeps d (blocks.map Prod.fst) (out n) := by
  obtain ⟨f, p, e, -, hp, ht, er⟩ := runChroma_ok F (signed_true F) hO hT fs hb params hbl junk
  obtain ⟨f', e', h1, h2, h3, h4, h5, -⟩ := runAll_ok F (signed_true F) hO hT fs hb params hbl junk
  rw [e] at e'
  cases e'
  refine ⟨_, er, ?_⟩
  intro n d hd
  have hn : n < 6 := (List.getElem?_eq_some_iff.1 hd).1
  have key : ∀ {m : Nat} {l : List (T × List D)}, Output (fun _ : D => True) (blocks.map Prod.fst) m l →
      (d.binCount = m ∧ d.fixedRate = true ∧ (d.binNames = [] ∨ d.binNames.length = d.binCount)) →
      d.fixedRate = true ∧ Keeps d (blocks.map Prod.fst) l := by
    rintro m l ⟨g1, g2⟩ ⟨k1, k2, k3⟩
    exact ⟨k2, fun f hf => by rw [k1]; exact (g2 f hf).1, fun _ => g1, k3⟩
  have hcases : n = 0 ∨ n = 1 ∨ n = 2 ∨ n = 3 ∨ n = 4 ∨ n = 5 := by omega
  rcases hcases with rfl | rfl | rfl | rfl | rfl | rfl
  · cases hd
    exact key (m := nNote) ⟨ht, hp.spec⟩ ⟨rfl, rfl, Or.inl rfl⟩
  · cases hd
    exact key h1 ⟨rfl, rfl, Or.inl rfl⟩
  · cases hd
    exact key h2 ⟨rfl, rfl, Or.inl rfl⟩
  · cases hd
    exact key h3 ⟨rfl, rfl, Or.inr (by decide +kernel)⟩
  · cases hd
    exact key h4 ⟨rfl, rfl, Or.inr (by decide +kernel)⟩
  · cases hd
    exact key h5 ⟨rfl, rfl, Or.inr (by decide +kernel)⟩

theorem binNames_read : ∀ k, k < 12 →
    (∀ name, binNames.1[k]? = some name → binOf "chroma" name = some (false, (k + 9) % 12) ∧
      binOf "basschroma" name = some (true, (k + 9) % 12)) ∧
    (∀ name, binNames.2[k]? = some name → binOf "bothchroma" name = some (true, (k + 9) % 12)) ∧
    (∀ name, binNames.2[12 + k]? = some name → binOf "bothchroma" name = some (false, (k + 9) % 12)) := by
  have h : ∀ k, k < 12 →
    (binNames.1[k]?).all (fun name => binOf "chroma" name = some (false, (k + 9) % 12) ∧
      binOf "basschroma" name = some (true, (k + 9) % 12)) ∧
    (binNames.2[k]?).all (fun name => binOf "bothchroma" name = some (true, (k + 9) % 12)) ∧
    (binNames.2[12 + k]?).all (fun name => binOf "bothchroma" name = some (false, (k + 9) % 12)) := by
    decide +kernel
  intro k hk
  obtain ⟨h1, h2, h3⟩ := h k hk
  refine ⟨fun name e => ?_, fun name e => ?_, fun name e => ?_⟩
  · rw [e] at h1
    simpa using h1
  · rw [e] at h2
    simpa using h2
  · rw [e] at h3
    simpa using h3

theorem scaled_entries (norm : ℝ) (v : List ℝ) :
    ∃ c, 0 < c ∧ ∀ (k : Nat) (x : ℝ), v[k]? = some x → (scaleBy exactFns norm v)[k]? = some (x / c) := by
  unfold scaleBy
  by_cases h : exactFns.lt (exactFns.lit 0) norm = true
  · refine ⟨norm, ?_, ?_⟩
    · simpa [ex_lt, ex_lit] using h
    · intro k x hx
      rw [if_pos h, List.getElem?_map, hx]
      rfl
  · refine ⟨1, one_pos, ?_⟩
    intro k x hx
    rw [if_neg h, hx, div_one]

theorem chromas_entries (doNormalize : ℝ) (r : Notes ℝ) :
    (∃ c, 0 < c ∧ ∀ (k : Nat) (x : ℝ), r.chroma[k]? = some x → (chromas exactFns doNormalize r).1[k]? = some (x / c)) ∧
    (∃ c, 0 < c ∧ ∀ (k : Nat) (x : ℝ), r.basschroma[k]? = some x → (chromas exactFns doNormalize r).2.1[k]? = some (x / c)) ∧
    (∃ c, 0 < c ∧ ∀ (k : Nat) (x : ℝ), (r.basschroma ++ r.chroma)[k]? = some x →
      (chromas exactFns doNormalize r).2.2[k]? = some (x / c)) := by
  unfold chromas
  dsimp only
  split
  · exact ⟨scaled_entries _ _, scaled_entries _ _, scaled_entries _ _⟩
  · exact ⟨⟨1, one_pos, fun k x hx => by rw [hx, div_one]⟩, ⟨1, one_pos, fun k x hx => by rw [hx, div_one]⟩,
      ⟨1, one_pos, fun k x hx => by rw [hx, div_one]⟩⟩

/-- **C116, the names of the bins.**  In exact arithmetic, in every frame of a chroma output and with any normalisation:
a bin that is named after a pitch class has the amount of this pitch class in the semitone spectrum - weighted with the
bass window, if the name or the identifier says bass, and with the treble window otherwise - divided by a positive
number that is the same for the whole frame. -/
theorem C116_bin_names (fs : Int) {bs : Nat} (hb : 4 ≤ bs) (params : Params ℝ) {blocks : List (T × List ℝ)}
    (hbl : ∀ bl ∈ blocks, bs ≤ bl.2.length) (junk : Nat → Nnls.St ℝ) :
    ∃ out, runChroma exactFns fs bs params blocks junk = .ok (some out) ∧ ∀ i, i < blocks.length →
      ∃ t sem, (out 2)[i]? = some (t, sem) ∧ ∀ n d, chromaOutputs[n]? = some d → d.binNames ≠ [] →
        ∃ v c, (out n)[i]? = some (t, v) ∧ 0 < c ∧ v.length = d.binNames.length ∧
          ∀ (k : Nat) (name : Str), d.binNames[k]? = some name → ∃ low pc, binOf d.identifier name = some (low, pc) ∧
            v[k]? = some (WeightedClass (if low then basswindow else treblewindow) sem pc / c) := by
  obtain ⟨f, p, e, -, -, -, er⟩ := runChroma_ok exactFns exact_signed exact_ordered exact_tunes fs hb params hbl junk
  obtain ⟨f', e', h⟩ := run_frames fs hb params hbl junk
  rw [e] at e'
  cases e'
  obtain ⟨f', e', -, -, o3, o4, o5, -⟩ := runAll_ok exactFns exact_signed exact_ordered exact_tunes fs hb params hbl junk
  rw [e] at e'
  cases e'
  refine ⟨_, er, ?_⟩
  intro i hi
  obtain ⟨t, f2, r, -, h1, h2, h3, h4, -, -, hn, h5, -⟩ := h i hi
  refine ⟨t, r.semitones, h1, ?_⟩
  obtain ⟨⟨c1, p1, q1⟩, ⟨c2, p2, q2⟩, ⟨c3, p3, q3⟩⟩ := chromas_entries params.doNormalizeChroma r
  have g1 : ∀ k, k < 12 → r.chroma[k]? = some (WeightedClass treblewindow r.semitones ((k + 9) % 12)) := by
    intro k hk
    rw [weightedClass_eq _ _ hk]
    exact h5.treble k hk
  have g2 : ∀ k, k < 12 → r.basschroma[k]? = some (WeightedClass basswindow r.semitones ((k + 9) % 12)) := by
    intro k hk
    rw [weightedClass_eq _ _ hk]
    exact h5.bass k hk
  have hlen1 : binNames.1.length = 12 := by decide +kernel
  have hlen2 : binNames.2.length = 24 := by decide +kernel
  intro n d hd hne
  have hn : n < 6 := (List.getElem?_eq_some_iff.1 hd).1
  have hcases : n = 0 ∨ n = 1 ∨ n = 2 ∨ n = 3 ∨ n = 4 ∨ n = 5 := by omega
  rcases hcases with rfl | rfl | rfl | rfl | rfl | rfl
  · cases hd
    exact absurd rfl hne
  · cases hd
    exact absurd rfl hne
  · cases hd
    exact absurd rfl hne
  · cases hd
    refine ⟨_, c1, h2, p1, ?_, ?_⟩
    · exact (o3.2 _ (List.mem_of_getElem? h2)).1.trans hlen1.symm
    · intro k name hk
      have hk' : k < 12 := by rw [← hlen1]; exact (List.getElem?_eq_some_iff.1 hk).1
      exact ⟨false, _, ((binNames_read k hk').1 name hk).1, q1 k _ (g1 k hk')⟩
  · cases hd
    refine ⟨_, c2, h3, p2, ?_, ?_⟩
    · exact (o4.2 _ (List.mem_of_getElem? h3)).1.trans hlen1.symm
    · intro k name hk
      have hk' : k < 12 := by rw [← hlen1]; exact (List.getElem?_eq_some_iff.1 hk).1
      exact ⟨true, _, ((binNames_read k hk').1 name hk).2, q2 k _ (g2 k hk')⟩
  · cases hd
    refine ⟨_, c3, h4, p3, ?_, ?_⟩
    · exact (o5.2 _ (List.mem_of_getElem? h4)).1.trans hlen2.symm
    · intro k name hk
      have hk' : k < 24 := by rw [← hlen2]; exact (List.getElem?_eq_some_iff.1 hk).1
      by_cases hlow : k < 12
      · refine ⟨true, _, (binNames_read k hlow).2.1 name hk, q3 k _ ?_⟩
        rw [List.getElem?_append_left (by rw [h5.b]; exact hlow)]
        exact g2 k hlow
      · obtain ⟨j, rfl⟩ : ∃ j, k = 12 + j := ⟨k - 12, by omega⟩
        have hj : j < 12 := by omega
        refine ⟨false, _, (binNames_read j hj).2.2 name hk, q3 (12 + j) _ ?_⟩
        rw [List.getElem?_append_right (by rw [h5.b]; omega), h5.b, Nat.add_sub_cancel_left]
        exact g1 j hj

/-- **C116, the first output.**  In exact arithmetic the output of every block is its log-frequency spectrum. -/
theorem C116_log_spectrum {fs : Int} (hfs : 0 < fs) {bs : Nat} (hb : 4 ≤ bs) (params : Params ℝ)
    {blocks : List (T × List ℝ)} (hbl : ∀ bl ∈ blocks, bs ≤ bl.2.length) (junk : Nat → Nnls.St ℝ) :
    ∃ out, runChroma exactFns fs bs params blocks junk = .ok (some out) ∧
      out 0 = blocks.map (fun b => (b.1, (List.range 256).map (logSpec fs bs params.rollon b.2))) := by
  obtain ⟨f, p, e, hm, -, -, er⟩ := runChroma_ok exactFns exact_signed exact_ordered exact_tunes fs hb params hbl junk
  exact ⟨_, er, (running_blocks hfs hb hbl hm).spec⟩

/-! ### The chord plug-in -/

theorem notes_range (F : Fns D) {ext : Option (List Str × List D)} (h : Chordino.Long ext) (boostN harte : D) :
    ∃ d, Chordino.chordDictionary F ext [] [] boostN harte = .ok d ∧ ∀ c, ∀ p ∈ d.2.2.getD c [], 45 ≤ p ∧ p ≤ 74 := by
  refine ⟨_, Chordino.chordDictionary_eq F ext [] [] boostN harte (F.lit 0) (Chordino.typesOf_long F h harte), ?_⟩
  intro c p hp
  dsimp only at hp
  rw [List.nil_append, List.getD_eq_getElem?_getD] at hp
  by_cases hc : c < 12 * (Chordino.typesOf F ext harte).1.length
  · rw [List.getElem?_append_left (by rw [Chordino.tab_length]; exact hc), Chordino.tab_get, if_pos hc, Option.getD_some] at hp
    unfold Chordino.notesAt at hp
    have hr : c % 12 < 12 := Nat.mod_lt _ (by norm_num)
    rw [Chordino.mem_notesFor _ _ _ hr] at hp
    rcases hp with ⟨-, h⟩ | ⟨q, -, -, h1, h2, -⟩ | ⟨q, -, -, h1, h2, -⟩
    · omega
    · omega
    · omega
  · rw [List.getElem?_append_right (by rw [Chordino.tab_length]; omega)] at hp
    cases he : ([[]] : List (List Int))[c - (Chordino.tab (12 * (Chordino.typesOf F ext harte).1.length)
        (Chordino.notesAt F harte (Chordino.typesOf F ext harte).2 (F.lit 0))).length]? with
    | none =>
      rw [he] at hp
      cases hp
    | some l =>
      have := List.mem_of_getElem? he
      rw [List.mem_singleton] at this
      subst this
      rw [he] at hp
      cases hp

/-- What a description promises about the features of the chord plug-in. -/
structure ChordKeeps (F : Fns D) (d : Descriptor) (times : List Int) (l : List (Feature D)) : Prop where
  bins : ∀ f ∈ l, f.values.length = d.binCount
  rate : d.fixedRate = true → l.map Feature.timestamp = times
  duration : ∀ f ∈ l, f.duration.isSome = d.hasDuration
  /-- every value is a multiple of the step of quantization between the extents -/
  extents : ∀ a b s, d.extents = some (a, b) → d.quantizeStep = some s → ∀ f ∈ l, ∀ x ∈ f.values,
    ∃ m : Int, x = F.lit (a + m * s) ∧ 0 ≤ m ∧ a + m * s ≤ b

/-- **C116, the chord plug-in.**  Any arithmetic, parameters, sampling rate, block size from four up, recording with
times that go up and dictionary of the user with 24 numbers for each type: every output keeps what its description
says - labels without values, notes with durations and whole numbers from 0 to 127, and one value of harmonic change and
likelihood for every block. -/
theorem C116_chord_outputs (F : Fns D) (hO : Nnls.Ordered F.toOps) (hT : Tunes F) {ext : Option (List Str × List D)}
    (hext : ∀ e, ext = some e → 24 * e.1.length ≤ e.2.length) (fs : Int) {bs : Nat} (hb : 4 ≤ bs) (params : Params D)
    (boostN harte : D) {blocks : List (Int × List D)} (hbl : ∀ bl ∈ blocks, bs ≤ bl.2.length)
    (hts : Chordino.Increasing (blocks.map Prod.fst)) (junk : Nat → Nnls.St D) :
    ∃ f, Chordino.runAll F ext fs bs params boostN harte blocks junk = .ok (some f) ∧
      ∀ n d, chordOutputs[n]? = some d → ChordKeeps F d (blocks.map Prod.fst) (chordFeatures F f n) := by
  obtain ⟨f, ef, c1, c2, -⟩ := Chordino.C88_plugin_runs F hO hT hext fs hb params boostN harte hbl junk
  refine ⟨f, ef, ?_⟩
  have hpitch : ∀ x ∈ f.notes, 45 ≤ x.pitch ∧ x.pitch ≤ 74 := by
    obtain ⟨fc, f', d, -, ef', ed, h0, h⟩ := Chordino.run_ok F hO hT (ext := ext) hext fs hb params boostN harte hbl junk (F.lit 0)
    rw [ef] at ef'
    cases ef'
    by_cases hne : blocks = []
    · rw [h0 hne]
      simp
    · obtain ⟨cs, v, -, -, -, -, fit', er⟩ := h hne
      obtain ⟨f', ef', -, -, -, k4, -⟩ := Chordino.report_ok F fit' (F.lit 0)
      rw [er] at ef'
      cases ef'
      obtain ⟨d', ed', -, -, -, d4, -⟩ := Chordino.dictionary_sizes F (ext := ext) hext boostN harte
      rw [ed] at ed'
      cases ed'
      obtain ⟨d', ed', d5⟩ := notes_range F (ext := ext) hext boostN harte
      rw [ed] at ed'
      cases ed'
      intro x hx
      obtain ⟨a, b, -, -, -, -, hm, -⟩ := (k4 d4 (by
        intro i j h1 h2
        exact hts i j h1 (by simpa using h2))).1 x hx
      exact d5 _ _ hm
  intro n d hd
  have hn : n < 4 := (List.getElem?_eq_some_iff.1 hd).1
  have hcases : n = 0 ∨ n = 1 ∨ n = 2 ∨ n = 3 := by omega
  rcases hcases with rfl | rfl | rfl | rfl
  · cases hd
    refine ⟨?_, fun h => (by cases h), ?_, fun a b s h => (by cases h)⟩
    · intro x hx
      obtain ⟨c, -, rfl⟩ := List.mem_map.1 hx
      rfl
    · intro x hx
      obtain ⟨c, -, rfl⟩ := List.mem_map.1 hx
      rfl
  · cases hd
    refine ⟨?_, fun h => (by cases h), ?_, ?_⟩
    · intro x hx
      obtain ⟨c, -, rfl⟩ := List.mem_map.1 hx
      rfl
    · intro x hx
      obtain ⟨c, -, rfl⟩ := List.mem_map.1 hx
      rfl
    · intro a b s h1 h2 x hx y hy
      cases h1
      cases h2
      obtain ⟨c, hc, rfl⟩ := List.mem_map.1 hx
      obtain ⟨p1, p2⟩ := hpitch c hc
      refine ⟨c.pitch, ?_, by omega, ?_⟩
      · rw [List.mem_singleton.1 hy]
        rw [zero_add, mul_one]
      · have : (c.pitch : Rat) ≤ 74 := by exact_mod_cast p2
        linarith
  · cases hd
    refine ⟨?_, fun _ => ?_, ?_, fun a b s h => (by cases h)⟩
    · intro x hx
      obtain ⟨c, -, rfl⟩ := List.mem_map.1 hx
      rfl
    · rw [← c1]
      exact List.map_map ..
    · intro x hx
      obtain ⟨c, -, rfl⟩ := List.mem_map.1 hx
      rfl
  · cases hd
    refine ⟨?_, fun _ => ?_, ?_, fun a b s h => (by cases h)⟩
    · intro x hx
      obtain ⟨c, -, rfl⟩ := List.mem_map.1 hx
      rfl
    · rw [← c2]
      exact List.map_map ..
    · intro x hx
      obtain ⟨c, -, rfl⟩ := List.mem_map.1 hx
      rfl

/-! ### Examples -/

/-- The bin after D flat in the stacked chroma is for the low notes D. -/
example : binOf "bothchroma" "D  (bass)".toList = some (true, 2) ∧ binOf "bothchroma" "C#".toList = some (false, 1) ∧
    binOf "basschroma" "Eb".toList = some (true, 3) := by decide +kernel

example (junk : Nat → Nnls.St ℝ) :
    ∃ out, runChroma exactFns 44100 4 (Params.default exactFns) [((0 : Int), [0, 0, 3, 4]), (1, [0, 5, 0, 0])] junk =
      .ok (some out) ∧ (out 5).length = 2 := by
  obtain ⟨out, e, h⟩ := C116_chroma_outputs exactFns exact_ordered exact_tunes 44100 (bs := 4) (by norm_num)
    (Params.default exactFns) (blocks := [((0 : Int), [0, 0, 3, 4]), (1, [0, 5, 0, 0])]) (by simp) junk
  refine ⟨out, e, ?_⟩
  have := (h 5 _ rfl).2.rate (h 5 _ rfl).1
  simpa using congrArg List.length this

example (junk : Nat → Nnls.St ℝ) :
    ∃ f, Chordino.runAll exactFns none 44100 4 (Params.default exactFns) 0.1 0 [((0 : Int), [0, 0, 3, 4]), (1, [0, 5, 0, 0])]
      junk = .ok (some f) ∧ (chordFeatures exactFns f 2).map Feature.timestamp = [0, 1] := by
  obtain ⟨f, e, h⟩ := C116_chord_outputs exactFns exact_ordered exact_tunes (ext := none) (by simp) 44100 (bs := 4)
    (by norm_num) (Params.default exactFns) 0.1 0 (blocks := [((0 : Int), [0, 0, 3, 4]), (1, [0, 5, 0, 0])]) (by simp)
    (by
      intro i j h1 h2
      have : i = 0 ∧ j = 1 := by
        simp at h2
        omega
      rw [this.1, this.2]
      decide) junk
  exact ⟨f, e, (h 2 _ rfl).rate rfl⟩

end JKD.Outputs
