import Verif.Model.ChordPipeline
import Verif.Props.PipelineProps
import Verif.Props.ChordReportProps
import Verif.Props.UserChordProps
/-
C156: the list of chords that chordextract prints for a recording.
-/

namespace JKD
namespace Pipeline

open Chromagram Chroma Extract

variable {D S T : Type}

/-! ### Specification -/

/-- The lines of a list of chords: time, colon, label. -/
def lines (stamp : Int → Str) (l : List (Int × Str)) : Str := l.flatMap (fun c => stamp c.1 ++ ": ".toList ++ c.2 ++ ['\n'])

/-! ### Proof -/

theorem feed_chords (M : MixOps S) (G : Fns D) (ext : Option (List Str × List D)) (fs : Int) (bs : Nat)
    (params : Params D) (boostN harte : D) (adapt : List S → List (Int × List D)) (stamp : Int → Str)
    (junk : Nat → Nnls.St D) (time : Nat → T) (out : Nat) (f : AudioFile S) (ks : List Nat) (s : List S) :
    feed M (chordPlugin G ext fs bs params boostN harte adapt stamp junk time) out f ks (s, []) =
      (s ++ ks.flatMap (blockAt M f bs), []) := by
  induction ks generalizing s with
  | nil => simp [feed]
  | cons k ks ih =>
    have := ih (s ++ blockAt M f bs k)
    rw [feed, List.foldl_cons]
    rw [feed] at this
    rw [List.flatMap_cons, ← List.append_assoc, ← this]
    rfl

/-- The text is the labels of the plug-in for the samples of the recording. -/
theorem printed (M : MixOps S) (G : Fns D) (ext : Option (List Str × List D)) (fs : Int) {bs : Nat} (hb : 4 ≤ bs)
    (params : Params D) (boostN harte : D) (adapt : List S → List (Int × List D)) (stamp : Int → Str)
    (junk : Nat → Nnls.St D) (time : Nat → T) (openFile : Str → Option (AudioFile S)) (infile : Str) (f : AudioFile S)
    (hopen : openFile infile = some f) (hfr : (f.data.length : Int) ≤ f.frames)
    (hmax : (f.data.length : Int) ≤ 2147483647) :
    chordExtract M (chordPlugin G ext fs bs params boostN harte adapt stamp junk time) openFile [infile] =
      .ok ⟨(chordsOf G ext fs bs params boostN harte adapt stamp junk 0 (samplesOf M f bs)).flatMap chordLine, 0⟩ := by
  have h := C53_blocks M (chordPlugin G ext fs bs params boostN harte adapt stamp junk time) 0 f (show 0 < bs by omega)
    hfr hmax
  have e : (chordPlugin G ext fs bs params boostN harte adapt stamp junk time).start = ([] : List S) := rfl
  have e2 : (chordPlugin G ext fs bs params boostN harte adapt stamp junk time).blocksize = bs := rfl
  rw [e, e2, feed_chords] at h
  have ho : outputNo "simplechord" (chordPlugin G ext fs bs params boostN harte adapt stamp junk time).outputs = some 0 := by
    change outputNo "simplechord" (Outputs.chordOutputs.map Outputs.Descriptor.identifier) = some 0
    decide
  have hi : (chordPlugin G ext fs bs params boostN harte adapt stamp junk time).initialise = true := rfl
  have hr : ∀ s out, (chordPlugin G ext fs bs params boostN harte adapt stamp junk time).remaining s out =
      chordsOf G ext fs bs params boostN harte adapt stamp junk out s := by
    intro s out
    simp only [chordPlugin]
  simp only [chordExtract, Extract.run, hopen, hi, Bool.not_true, Bool.false_eq_true, if_false, ho, e, h, Res.bind_ok,
    List.nil_append, hr]
  rfl

theorem chordsOf_lines {G : Fns D} {ext : Option (List Str × List D)} {fs : Int} {bs : Nat} {params : Params D}
    {boostN harte : D} {adapt : List S → List (Int × List D)} (stamp : Int → Str) {junk : Nat → Nnls.St D} {xs : List S}
    {f : Chordino.Features D} (h : Chordino.runAll G ext fs bs params boostN harte (adapt xs) junk = .ok (some f)) :
    (chordsOf G ext fs bs params boostN harte adapt stamp junk 0 xs).flatMap chordLine = lines stamp f.chords := by
  unfold chordsOf lines
  rw [h]
  simp only [Outputs.chordFeatures, List.map_map, List.flatMap_map]
  rfl

/-- **C156, the list.**  In exact arithmetic, for a recording of at most `INT_MAX` frames from which the adapters make
at least one block: chordextract succeeds and prints one line for the first chord, one for every change of chord and one
with "N" at the time of the last block, for a sequence of chords that has the highest score for the chroma of the
recording. -/
theorem C156_list (M : MixOps S) (fs : Int) {bs : Nat} (hb : 4 ≤ bs) (params : Params ℝ)
    (hn : params.doNormalizeChroma ≤ 0) (boostN harte : ℝ) (adapt : List S → List (Int × List ℝ)) (stamp : Int → Str)
    (junk : Nat → Nnls.St ℝ) (time : Nat → T) (openFile : Str → Option (AudioFile S)) (infile : Str) (f : AudioFile S)
    (hopen : openFile infile = some f) (hfr : (f.data.length : Int) ≤ f.frames)
    (hmax : (f.data.length : Int) ≤ 2147483647)
    (hlen : ∀ bl ∈ adapt (samplesOf M f bs), bs ≤ bl.2.length) (hne : adapt (samplesOf M f bs) ≠ []) :
    ∃ fc d p, Chroma.runAll exactFns fs bs params (adapt (samplesOf M f bs)) junk = .ok (some fc) ∧
      Chordino.chordDictionary exactFns none [] [] boostN harte = .ok d ∧
      Chordino.Best 217 (fc.bothchroma.map (fun c => Chordino.share d.2.1 217 c.2)) p ∧
      chordExtract M (chordPlugin exactFns none fs bs params boostN harte adapt stamp junk time) openFile [infile] =
        .ok ⟨lines stamp (Chordino.changeList d.1 ((adapt (samplesOf M f bs)).map Prod.fst) p), 0⟩ := by
  obtain ⟨fc, g, d, p, e1, e2, e3, hp, hc⟩ := Chordino.C85_best_sequence fs hb params hn boostN harte hlen hne junk
  refine ⟨fc, d, p, e1, e3, hp, ?_⟩
  rw [printed M exactFns none fs hb params boostN harte adapt stamp junk time openFile infile f hopen hfr hmax,
    chordsOf_lines stamp e2, hc]

/-- **C156, silence.**  A recording whose Fourier magnitudes all stay below two has no chord: two lines are printed, "N"
at the time of the first block and at the time of the last. -/
theorem C156_silence (M : MixOps S) {fs : Int} (hfs : 0 < fs) {bs : Nat} (hb : 4 ≤ bs) (params : Params ℝ)
    (hn : params.doNormalizeChroma ≤ 0) (boostN harte : ℝ) (adapt : List S → List (Int × List ℝ)) (stamp : Int → Str)
    (junk : Nat → Nnls.St ℝ) (time : Nat → T) (openFile : Str → Option (AudioFile S)) (infile : Str) (f : AudioFile S)
    (hopen : openFile infile = some f) (hfr : (f.data.length : Int) ≤ f.frames)
    (hmax : (f.data.length : Int) ≤ 2147483647)
    (hlen : ∀ bl ∈ adapt (samplesOf M f bs), bs ≤ bl.2.length) (hne : adapt (samplesOf M f bs) ≠ [])
    (hts : Chordino.Increasing ((adapt (samplesOf M f bs)).map Prod.fst)) (hq : Quiet bs (adapt (samplesOf M f bs))) :
    ∃ first last, (adapt (samplesOf M f bs)).head? = some first ∧ (adapt (samplesOf M f bs)).getLast? = some last ∧
      chordExtract M (chordPlugin exactFns none fs bs params boostN harte adapt stamp junk time) openFile [infile] =
        .ok ⟨stamp first.1 ++ ": N\n".toList ++ stamp last.1 ++ ": N\n".toList, 0⟩ := by
  obtain ⟨g, e, hc, -⟩ := Chordino.C89_silence hfs hb params hn boostN harte hlen hne hts junk hq
  refine ⟨(adapt (samplesOf M f bs)).head hne, (adapt (samplesOf M f bs)).getLast hne, List.head?_eq_some_head hne,
    List.getLast?_eq_some_getLast hne, ?_⟩
  rw [printed M exactFns none fs hb params boostN harte adapt stamp junk time openFile infile f hopen hfr hmax,
    chordsOf_lines stamp e, hc]
  have h1 : ((adapt (samplesOf M f bs)).map Prod.fst).getD 0 0 = ((adapt (samplesOf M f bs)).head hne).1 := by
    generalize adapt (samplesOf M f bs) = l at hne
    cases l with
    | nil => exact absurd rfl hne
    | cons a l => rfl
  have h2 : ((adapt (samplesOf M f bs)).map Prod.fst).getD ((adapt (samplesOf M f bs)).length - 1) 0 =
      ((adapt (samplesOf M f bs)).getLast hne).1 := by
    have hl : (adapt (samplesOf M f bs)).length - 1 < (adapt (samplesOf M f bs)).length := by
      have := List.length_pos_of_ne_nil hne
      omega
    rw [List.getD_eq_getElem?_getD, List.getElem?_map, List.getElem?_eq_getElem hl, List.getLast_eq_getElem]
    rfl
  rw [h1, h2]
  simp [lines]

/-- Two recordings with the same chroma and the same times have the same chords. -/
theorem same_chords (F : Fns D) (hO : Nnls.Ordered F.toOps) (hT : Tunes F) {ext : Option (List Str × List D)}
    (hext : Chordino.Long ext) (fs : Int) {bs : Nat} (hb : 4 ≤ bs) (params : Params D)
    (hn : F.lt (F.lit 0) params.doNormalizeChroma = false) (boostN harte : D) {blocks blocks' : List (Int × List D)}
    (hbl : ∀ bl ∈ blocks, bs ≤ bl.2.length) (hbl' : ∀ bl ∈ blocks', bs ≤ bl.2.length) (junk : Nat → Nnls.St D)
    (hts : blocks'.map Prod.fst = blocks.map Prod.fst)
    (h : Chroma.runAll F fs bs params blocks' junk = Chroma.runAll F fs bs params blocks junk) :
    Chordino.runAll F ext fs bs params boostN harte blocks' junk =
      Chordino.runAll F ext fs bs params boostN harte blocks junk := by
  obtain ⟨fc, f, d, ec, ef, ed, h0, h1⟩ := Chordino.run_ok F hO hT hext fs hb params boostN harte hbl junk (F.lit 0)
  obtain ⟨fc', f', d', ec', ef', ed', h0', h1'⟩ :=
    Chordino.run_ok F hO hT hext fs hb params boostN harte hbl' junk (F.lit 0)
  rw [ed] at ed'
  cases ed'
  rw [h, ec] at ec'
  cases ec'
  rw [ef, ef']
  have hl : blocks'.length = blocks.length := by simpa using congrArg List.length hts
  by_cases hne : blocks = []
  · have hne' : blocks' = [] := by
      rw [hne] at hl
      exact List.eq_nil_of_length_eq_zero (by simpa using hl)
    rw [h0 hne, h0' hne']
  · have hne' : blocks' ≠ [] := by
      intro h
      rw [h] at hl
      exact hne (List.eq_nil_of_length_eq_zero (by simpa using hl.symm))
    obtain ⟨cs, v, -, -, hcs, ev, -, er⟩ := h1 hne
    obtain ⟨cs', v', -, -, hcs', ev', -, er'⟩ := h1' hne'
    rw [hcs hn] at ev
    rw [hcs' hn, ev] at ev'
    cases ev'
    rw [hts, hl, er] at er'
    cases er'
    rfl

/-- **C156, level.**  With the default whitening and a linear adapter, chordextract prints the same chords for a
recording played at another level, with the built-in chords or those of the user. -/
theorem C156_level {c : ℝ} (hc : 0 < c) {ext : Option (List Str × List ℝ)}
    (hext : ∀ e, ext = some e → 24 * e.1.length ≤ e.2.length) {fs : Int} (hfs : 0 < fs) {bs : Nat} (hb : 4 ≤ bs)
    (params : Params ℝ) (hwh : params.whitening = 1) (hn : params.doNormalizeChroma ≤ 0) (boostN harte : ℝ)
    (adapt : List ℝ → List (Int × List ℝ)) (hlin : ∀ xs, adapt (xs.map (fun x => c * x)) = louderAll c (adapt xs))
    (hlen : ∀ xs, ∀ bl ∈ adapt xs, bs ≤ bl.2.length) (stamp : Int → Str) (junk : Nat → Nnls.St ℝ) (time : Nat → T)
    (openFile : Str → Option (AudioFile ℝ))
    (hfile : ∀ name f, openFile name = some f → (f.data.length : Int) ≤ f.frames ∧
      (f.data.length : Int) ≤ 2147483647 ∧ Playable c fs bs params (adapt (samplesOf realMix f bs))) (args : List Str) :
    chordExtract realMix (chordPlugin exactFns ext fs bs params boostN harte adapt stamp junk time)
        (fun name => (openFile name).map (loudFile c)) args =
      chordExtract realMix (chordPlugin exactFns ext fs bs params boostN harte adapt stamp junk time) openFile args := by
  rcases args with _ | ⟨infile, _ | ⟨b, l⟩⟩
  · rfl
  · cases hf : openFile infile with
    | none => simp only [chordExtract, Extract.run, hf, Option.map_none]
    | some f =>
      obtain ⟨h1, h2, h3⟩ := hfile infile f hf
      have hl : (loudFile c f).data.length = f.data.length := by simp [loudFile]
      rw [printed realMix exactFns ext fs hb params boostN harte adapt stamp junk time openFile infile f hf h1 h2,
        printed realMix exactFns ext fs hb params boostN harte adapt stamp junk time
          (fun name => (openFile name).map (loudFile c)) infile (loudFile c f) (by rw [hf]; rfl)
          (by rw [hl]; exact h1) (by rw [hl]; exact h2)]
      have : Chordino.runAll exactFns ext fs bs params boostN harte (louderAll c (adapt (samplesOf realMix f bs))) junk =
          Chordino.runAll exactFns ext fs bs params boostN harte (adapt (samplesOf realMix f bs)) junk := by
        apply same_chords exactFns exact_ordered exact_tunes hext fs hb params (by simpa using hn) boostN harte
          (hlen _) (by
            intro bl hbm
            obtain ⟨bl', hb', rfl⟩ := List.mem_map.mp hbm
            simpa using hlen _ bl' hb') junk
        · simp [louderAll, List.map_map, Function.comp_def]
        · exact C75_level_irrelevant hc hfs hb params hwh (hlen _) h3.fits h3.flat junk
      unfold chordsOf
      rw [samplesOf_loud, hlin, this]
  · rfl

/-! ### Examples -/

/-- A tone of 440 Hz, in a file whose adapter makes one block of it: at twice the level chordextract prints the same. -/
example (junk : Nat → Nnls.St ℝ) (args : List Str) :
    chordExtract realMix (chordPlugin exactFns none 1000 1000 (Params.default exactFns) 0.1 0
        (fun xs => [(0, toneA (xs.getD 0 0))]) (fun _ => ['0']) junk (fun _ => ()))
        (fun name => (if name = ['a'] then some ⟨1, 1, [[100]]⟩ else none).map (loudFile 2)) args =
      chordExtract realMix (chordPlugin exactFns none 1000 1000 (Params.default exactFns) 0.1 0
        (fun xs => [(0, toneA (xs.getD 0 0))]) (fun _ => ['0']) junk (fun _ => ()))
        (fun name => if name = ['a'] then some ⟨1, 1, [[100]]⟩ else none) args := by
  have hr : (Params.default exactFns).rollon = 0 := ex_zero
  have hd : (Params.default exactFns).doNormalizeChroma ≤ 0 := le_of_eq ex_zero
  refine C156_level (by norm_num) (fun _ h => by cases h) (by norm_num) (bs := 1000) (by norm_num)
    (Params.default exactFns) ex_one hd _ _ (fun xs => [(0, toneA (xs.getD 0 0))]) ?_ ?_ _ _ _ _ ?_ args
  · intro xs
    have h1 : (xs.map (fun x => 2 * x)).getD 0 0 = 2 * xs.getD 0 0 := by cases xs <;> simp
    rw [h1]
    simp only [louderAll, List.map_cons, List.map_nil]
    congr 2
    unfold toneA
    rw [List.map_append, List.map_cons, List.map_replicate, List.map_replicate, mul_zero]
  · intro xs bl hbl
    rw [List.mem_singleton.1 hbl]
    exact (toneA_length _).ge
  · intro name f hf
    split at hf
    · cases hf
      rw [tone_samples 100 _ (by norm_num [mono, mixSample, realMix])]
      refine ⟨by simp, by simp, ?_, ?_⟩
      · intro bl hbl
        rw [List.mem_singleton.1 hbl]
        exact toneA_fits (by norm_num) (by norm_num) (by norm_num) (by norm_num)
      · intro k bl hk l _
        have hbl := List.mem_of_getElem? hk
        rw [hr, List.mem_singleton.1 hbl]
        exact toneA_flat (by norm_num) (by norm_num) (tuningAt_floor _ _ _) l
    · cases hf

/-- Two silent blocks, at the times 0 and 7. -/
example (M : MixOps ℝ) (junk : Nat → Nnls.St ℝ) (f : AudioFile ℝ) (hfr : (f.data.length : Int) ≤ f.frames)
    (hmax : (f.data.length : Int) ≤ 2147483647) :
    chordExtract M (chordPlugin exactFns none 44100 4 (Params.default exactFns) 0.1 0
        (fun _ => [(0, [0, 0, 0, 0]), (7, [0, 0, 0, 0])]) (fun t => if t = 0 then ['0'] else ['7']) junk (fun _ => ()))
        (fun _ => some f) [['a']] = .ok ⟨"0: N\n7: N\n".toList, 0⟩ := by
  obtain ⟨a, b, ha, hb, e⟩ := C156_silence M (fs := 44100) (by norm_num) (bs := 4) (by norm_num) (Params.default exactFns)
    (le_of_eq ex_zero) 0.1 0 (fun _ => [(0, [0, 0, 0, 0]), (7, [0, 0, 0, 0])]) (fun t => if t = 0 then ['0'] else ['7'])
    junk (fun _ => ()) (fun _ => some f) ['a'] f rfl hfr hmax (by simp) (by simp) (by
      intro i j h1 h2
      have : i = 0 ∧ j = 1 := by simp at h2; omega
      rw [this.1, this.2]
      decide) (by
      intro bl hbl n hn
      have hz : bl.2 = [0, 0, 0, 0] := by
        simp only [List.mem_cons, List.not_mem_nil, or_false] at hbl
        rcases hbl with rfl | rfl <;> rfl
      rw [hz]
      have : n = 0 ∨ n = 1 := by omega
      rcases this with rfl | rfl <;> norm_num)
  cases ha
  cases hb
  rw [e]
  rfl

end Pipeline
end JKD
