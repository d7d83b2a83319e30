import Verif.Props.BoundProps
/-
C103: what the program's chromagram of a recording contains.
-/

namespace JKD
namespace Pipeline

open Chromagram Main Chroma Extract Spec

variable {D S T : Type}

/-! ### Specification -/

/-- The frame the program should hold for a semitone spectrum: for each pitch class from C up to B the weighted sum of
the notes of that pitch class, whatever their octave. -/
noncomputable def pitchClassFrame (widen : ℝ → D) (sem : List ℝ) : List D :=
  (List.range 12).map (fun pc => widen (WeightedClass treblewindow sem pc))

/-! ### Proof -/

/-- The order of the plug-in (from A) and that of the program (from C) meet. -/
theorem frame_of_chroma (F : FPU D) (widen : ℝ → D) (s : Str) (τ : D) {c sem : List ℝ}
    (h : ∀ k, k < 12 → c[k]? = some (WeightedClass treblewindow sem ((k + 9) % 12))) :
    (featureRow ⟨s, c.map widen⟩ τ).frame F = pitchClassFrame widen sem := by
  unfold Row.frame pitchClassFrame featureRow
  refine List.map_congr_left ?_
  intro pc hpc
  rw [List.mem_range] at hpc
  have h1 := h ((pc + 3) % 12) (Nat.mod_lt _ (by decide))
  have h2 : ((pc + 3) % 12 + 9) % 12 = pc := by omega
  rw [h2] at h1
  simp only [List.map_map, List.getD_eq_getElem?_getD, List.getElem?_map, h1, Option.map_some, Option.getD_some,
    Function.comp]

/-- **C103.**  For every recording whose blocks have increasing times: without normalisation the program's chromagram
holds exactly one frame for each block, in order, and entry `pc` of the frame (0 is C) is the sum of the block's semitone
spectrum over the MIDI notes of pitch class `pc`, weighted with the treble window; the discrete chromagram holds these
values rounded down.  (The plug-in is in exact arithmetic.) -/
theorem C103_content (F : FPU D) (hF : OrderLaws F) (M : MixOps S) (stof : Str → Res D)
    (fs : Int) {bs : Nat} (hb : 4 ≤ bs) (params : Chroma.Params ℝ) (hn : params.doNormalizeChroma ≤ 0)
    (adapt : List S → List (T × List ℝ)) (stamp : T → Str) (widen : ℝ → D) (junk : Nat → Nnls.St ℝ) (time : Nat → T)
    (τ : T → D) (hst : ∀ t, stof (stamp t) = .ok (τ t) ∧ F.eq (τ t) (τ t) = true)
    (f : AudioFile S) (hfr : (f.data.length : Int) ≤ f.frames) (hmax : (f.data.length : Int) ≤ 2147483647)
    (hlen : ∀ bl ∈ adapt (samplesOf M f bs), bs ≤ bl.2.length)
    (hinc : (adapt (samplesOf M f bs)).Pairwise (fun a b => F.lt (τ a.1) (τ b.1) = true)) (csv : Option Str) :
    ∃ fe c, Chroma.runAll exactFns fs bs params (adapt (samplesOf M f bs)) junk = .ok (some fe) ∧
      fe.semitonespectrum.map Prod.fst = (adapt (samplesOf M f bs)).map Prod.fst ∧
      construct F M stof (chromaPlugin exactFns fs bs params adapt stamp widen junk time) csv (some f) .audio = .ok c ∧
      c.status = statusChromaDiscreteReady ∧
      c.original = fe.semitonespectrum.map (fun fr => (τ fr.1, pitchClassFrame widen fr.2)) ∧
      c.discrete = fe.semitonespectrum.map (fun fr => (τ fr.1, (pitchClassFrame widen fr.2).map F.floor)) := by
  have hr := reader_plugin F M stof exactFns fs hb params adapt stamp widen junk time f hfr hmax
    { status := statusChromaUninitialized, original := [], discrete := [] }
  obtain ⟨fe, e, hbd⟩ := C70_chroma_folds fs hb params hn hlen junk
  obtain ⟨f', e', -, p2, p3, -⟩ := C68_plugin_runs exactFns exact_ordered exact_tunes fs hb params hlen junk
  obtain rfl : fe = f' := Option.some.inj (Run.ok.inj (e.symm.trans e'))
  have hch : chromaOf exactFns fs bs params adapt stamp widen junk (samplesOf M f bs) =
      (fe.chroma.map (fun fr => ((⟨stamp fr.1, fr.2.map widen⟩ : Feature D), τ fr.1))).map Prod.fst := by
    unfold chromaOf
    rw [e, List.map_map]
    rfl
  have hpw : ∀ {A : Type} (l : List (T × A)), l.map Prod.fst = (adapt (samplesOf M f bs)).map Prod.fst →
      l.Pairwise (fun a b => F.lt (τ a.1) (τ b.1) = true) := by
    intro A l hl
    have : (l.map Prod.fst).Pairwise (fun a b => F.lt (τ a) (τ b) = true) := by
      rw [hl, List.pairwise_map]
      exact hinc
    rwa [List.pairwise_map] at this
  obtain ⟨m, h1, h2, h3⟩ := C53_features F hF stof
    (fe.chroma.map (fun fr => ((⟨stamp fr.1, fr.2.map widen⟩ : Feature D), τ fr.1)))
    (by
      intro p hp
      obtain ⟨fr, hfr, rfl⟩ := List.mem_map.1 hp
      exact ⟨(hst fr.1).1, (hst fr.1).2, by simpa using p3.2 fr hfr⟩)
    (by
      rw [List.pairwise_map]
      exact (hpw _ p3.1).imp (fun h => Or.inl h))
  have l2 : fe.semitonespectrum.length = (adapt (samplesOf M f bs)).length := by
    simpa using congrArg List.length p2.1
  have l3 : fe.chroma.length = (adapt (samplesOf M f bs)).length := by
    simpa using congrArg List.length p3.1
  have hmap : (fe.chroma.map (fun fr => ((⟨stamp fr.1, fr.2.map widen⟩ : Feature D), τ fr.1))).map
      (fun p => (p.2, (featureRow p.1 p.2).frame F)) =
      fe.semitonespectrum.map (fun fr => (τ fr.1, pitchClassFrame widen fr.2)) := by
    apply List.ext_getElem?
    intro i
    by_cases hi : i < (adapt (samplesOf M f bs)).length
    · obtain ⟨t, sem, c, b, g1, g2, -, -, g3⟩ := hbd i hi
      simp only [List.getElem?_map, g1, g2, Option.map_some]
      rw [frame_of_chroma F widen (stamp t) (τ t) (fun k hk => (g3 k hk).1)]
    · rw [List.getElem?_eq_none (by simp; omega), List.getElem?_eq_none (by simp; omega)]
  rw [hmap] at h3
  have hm : m = fe.semitonespectrum.map (fun fr => (τ fr.1, pitchClassFrame widen fr.2)) := by
    refine CMap.eq_of_perm hF h2 ?_ h3
    rw [CMap.Sorted, List.pairwise_map]
    exact hpw _ p2.1
  rw [hch, h1, Res.bind_ok] at hr
  have hwf := storeFeatures_wf hF stof _ h1
  refine ⟨fe, { status := statusChromaDiscreteReady, original := m
                discrete := m.map (fun fr => (fr.1, fr.2.map F.floor)) }, e, p2.1, ?_, rfl, hm, ?_⟩
  · simp only [construct, hr, Res.bind_ok, if_true]
    rw [C31_discretize hF _ hwf rfl]
  · rw [hm, List.map_map]
    rfl

/-! ### Example -/

/-- The spectrum of a single A4 (MIDI note 69): only entry 9 of the frame is not zero, and it is the weight of that
note. -/
example : pitchClassFrame (D := ℝ) id ((List.replicate 84 0).set 48 1) =
    (List.replicate 12 0).set 9 (((treblewindow.getD 48 0 : Rat) : ℝ)) := by
  apply List.ext_getElem
  · simp [pitchClassFrame]
  · intro pc h1 h2
    have hpc : pc < 12 := by simpa [pitchClassFrame] using h1
    simp only [pitchClassFrame, List.getElem_map, List.getElem_range, id]
    unfold WeightedClass
    rw [Finset.sum_filter, Finset.sum_eq_single 69]
    · rw [List.getElem_set]
      by_cases h : pc = 9
      · subst h
        simp
      · rw [if_neg (by omega), if_neg (by omega), List.getElem_replicate]
    · intro m hm hne
      rw [Finset.mem_Icc] at hm
      have : ((List.replicate 84 (0 : ℝ)).set 48 1).getD (m - 21) 0 = 0 := by
        rw [List.getD_eq_getElem?_getD, List.getElem?_set_ne (by omega), List.getElem?_replicate]
        split_ifs <;> rfl
      rw [this]
      simp
    · intro h
      exact absurd (Finset.mem_Icc.mpr ⟨by norm_num, by norm_num⟩) h

/-- The hypotheses hold for any stereo recording in CD quality behind the plug-in in its default setting, when the
blocks are numbered and a block's number is its printed and re-read time. -/
example (R : RD.Rounding) (lg : ℝ → RD) (data : List (List ℝ)) (hd : (data.length : Int) ≤ 2147483647)
    (n : Nat) (junk : Nat → Nnls.St ℝ) (stof : Str → Res RD) (stamp : Nat → Str)
    (hst : ∀ t, stof (stamp t) = .ok (.fin (t : ℝ))) :
    ∃ c, construct (RD.fpu R lg) realMix stof (chromaPlugin exactFns 44100 16384 (Params.default exactFns)
        (dftAdapter 16384 (fun _ => 1) (fun k i => 2048 * k + i - 8192) (fun _ => n) id) stamp RD.fin junk id) none
        (some ⟨data.length, 2, data⟩) .audio = .ok c ∧ c.original.length = n := by
  obtain ⟨fe, c, h1, h2, h3, -, h4, -⟩ := C103_content (RD.fpu R lg) (RD.orderLaws R lg) realMix stof 44100
    (bs := 16384) (by norm_num) (Params.default exactFns) (by simp [Params.default])
    (dftAdapter 16384 (fun _ => 1) (fun k i => 2048 * k + i - 8192) (fun _ => n) id) stamp RD.fin junk id
    (fun t => .fin (t : ℝ)) (fun t => ⟨hst t, show RD.eq (.fin _) (.fin _) = true by simp [RD.eq]⟩)
    ⟨data.length, 2, data⟩ (le_refl _) hd (dft_length _ _ _ _ _ _) (by
      unfold dftAdapter
      rw [List.pairwise_map]
      refine List.pairwise_lt_range.imp ?_
      intro a b hab
      show RD.lt (.fin _) (.fin _) = true
      simpa [RD.lt] using hab) none
  refine ⟨c, h3, ?_⟩
  rw [h4, List.length_map]
  have := congrArg List.length h2
  simpa [dftAdapter] using this

end Pipeline
end JKD
