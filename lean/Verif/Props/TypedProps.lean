import Verif.Props.CustomProps
import Verif.Props.KeyRoundProps
import Verif.Props.MidiMoveProps
/-
C151: typed-in tables in double arithmetic.
-/

namespace JKD.Detect

open Spec HMM RD

/-- **Specification.**  The first model with given numbers: 24 transitions, and a profile for major and one for minor keys. -/
noncomputable def given (go maj min : List ℝ) : Tables ℝ where
  init k := if k ∈ keys then 1 / 24 else 0
  trans j k := if j ∈ keys ∧ k ∈ keys then go.getD (slot j k) 0 else 0
  emis k o := if k ∈ keys ∧ o ∈ pcs then KeyProfile.emis maj min 0 k o else 0

/-- **Specification.**  The evidence that local keys `ls` are for the key `k`. -/
noncomputable def speaks (go : List ℝ) (ls : List Int) (k : Int) : ℝ := (ls.map (fun l => go.getD (slot k l) 0)).prod

theorem entry_getD (lg : ℝ → RD) {xs : List ℝ} {as : List RD} (h : List.Forall₂ Entry xs as) (i : Nat) :
    Entry (xs.getD i 0) (as.getD i (ieee lg).zero) := by
  induction h generalizing i with
  | nil => simpa using entry_zero lg
  | cons h _ ih =>
    cases i with
    | zero => exact h
    | succ i => simpa using ih i

theorem stored_given1 (lg : ℝ → RD) (cfg : Config RD) (go maj min : List ℝ) (hg : List.Forall₂ Entry go (transArray (ieee lg) cfg))
    (hM : List.Forall₂ Entry maj (profArrays (ieee lg) cfg).1) (hm : List.Forall₂ Entry min (profArrays (ieee lg) cfg).2) (os : List Int) :
    Stored (given go maj min) ((stage1 (ieee lg) cfg os).tables (ieee lg)) where
  init k := entry_init lg k
  trans j k := by
    change Entry (if j ∈ keys ∧ k ∈ keys then _ else _) (rd2 (ieee lg) (transMap (ieee lg) (transArray (ieee lg) cfg)) j k)
    unfold transMap
    by_cases hk : j ∈ keys ∧ k ∈ keys
    · rw [rd2_tab (ieee lg) keys keys _ hk.1 hk.2, if_pos hk]
      exact entry_getD lg hg _
    · rw [rd2_tab_not (ieee lg) keys keys _ hk, if_neg hk]
      exact entry_zero lg
  emis k o := by
    change Entry (if k ∈ keys ∧ o ∈ pcs then _ else _) (rd2 (ieee lg) (emisMap (ieee lg) (profArrays (ieee lg) cfg)) k o)
    unfold emisMap
    by_cases hk : k ∈ keys ∧ o ∈ pcs
    · rw [rd2_tab (ieee lg) keys pcs _ hk.1 hk.2, if_pos hk]
      unfold KeyProfile.emis
      split
      · exact entry_getD lg hM _
      · exact entry_getD lg hm _
    · rw [rd2_tab_not (ieee lg) keys pcs _ hk, if_neg hk]
      exact entry_zero lg

theorem stored_given2 (lg : ℝ → RD) (cfg : Config RD) (go : List ℝ) (hg : List.Forall₂ Entry go (transArray (ieee lg) cfg))
    (ls : List Int) :
    Stored (real2 (fun k l => go.getD (slot k l) 0)) ((stage2 (ieee lg) cfg ls).tables (ieee lg)) where
  init k := entry_init lg k
  trans j k := by
    unfold real2
    dsimp only
    by_cases hk : j ∈ keys ∧ k ∈ keys
    · rw [stage2_trans (ieee lg) cfg ls (mem_keys.1 hk.1) (mem_keys.1 hk.2), if_pos hk]
      by_cases hjk : j = k
      · rw [if_pos hjk, if_pos hjk]
        have := entry_ofRat lg 1 (Or.inr ⟨by norm_num, le_refl _⟩)
        rwa [Rat.cast_one] at this
      · rw [if_neg hjk, if_neg hjk]
        exact entry_zero lg
    · rw [if_neg hk]
      have : ((stage2 (ieee lg) cfg ls).tables (ieee lg)).trans j k = (ieee lg).zero :=
        rd2_tab_not (ieee lg) keys keys _ hk
      rw [this]
      exact entry_zero lg
  emis k o := by
    change Entry (if k ∈ keys ∧ o ∈ keys then _ else _) (rd2 (ieee lg) (transMap (ieee lg) (transArray (ieee lg) cfg)) k o)
    unfold transMap
    by_cases hk : k ∈ keys ∧ o ∈ keys
    · rw [rd2_tab (ieee lg) keys keys _ hk.1 hk.2, if_pos hk]
      exact entry_getD lg hg _
    · rw [rd2_tab_not (ieee lg) keys keys _ hk, if_neg hk]
      exact entry_zero lg

/-- **C151, the analysis.**  Let the doubles in the tables store the numbers `go`, `maj` and `min`, each zero or between `2⁻⁴⁹⁰` and
`2⁴⁹⁰`.  Then the analysis of up to `2⁴⁰` notes ends with `out_of_range` exactly when no sequence of keys is possible, or no key is
possible for the local keys that were found; otherwise it finds a possible sequence of keys and a possible key, both best up to the
factor `10 ^ (2 slack)`. -/
theorem C151_tables {η : ℝ} (lg : ℝ → RD) (hlg : LogClose η lg) (iter₁ iter₂ : Iter RD) (hi₁ : iter₁.Ok) (hi₂ : iter₂.Ok)
    (cfg : Config RD) (hc : Config.WF cfg) (go maj min : List ℝ) (hg : List.Forall₂ Entry go (transArray (ieee lg) cfg))
    (hM : List.Forall₂ Entry maj (profArrays (ieee lg) cfg).1) (hm : List.Forall₂ Entry min (profArrays (ieee lg) cfg).2)
    (os : List Int) (ho : ∀ o ∈ os, 0 ≤ o ∧ o < 12) (hne : os ≠ []) (hn : os.length ≤ 2 ^ 40) :
    (detect (ieee lg) iter₁ iter₂ cfg (os.map PitchClass.ofInt) = .throw .outOfRange ∧
      ∀ ks : List Int, ks.length = os.length → (∀ k ∈ ks, IsKey k) → prob (given go maj min) os ks = 0) ∨
    ∃ ls : List Int, ls.length = os.length ∧ (∀ l ∈ ls, IsKey l) ∧ 0 < prob (given go maj min) os ls ∧
      (∀ ks : List Int, ks.length = os.length → (∀ k ∈ ks, IsKey k) →
        prob (given go maj min) os ks ≤ (10 : ℝ) ^ (2 * slack η os.length) * prob (given go maj min) os ls) ∧
      ((detect (ieee lg) iter₁ iter₂ cfg (os.map PitchClass.ofInt) = .throw .outOfRange ∧ ∀ k, IsKey k → speaks go ls k = 0) ∨
        ∃ d k, detect (ieee lg) iter₁ iter₂ cfg (os.map PitchClass.ofInt) = .ok (.ok d) ∧ d.localKeys = ls.map Key.ofInt ∧
          d.mainKey = Key.ofInt k ∧ IsKey k ∧ 0 < speaks go ls k ∧
          ∀ k', IsKey k' → speaks go ls k' ≤ (10 : ℝ) ^ (2 * slack η os.length) * speaks go ls k) := by
  have W := RD.laws RD.binary64 lg
  change FPLaws (ieee lg) _ at W
  have hz : ZeroKills (ieee lg) := RD.zeroKills RD.binary64 rnd64_zero lg
  have hS1 := stored_given1 lg cfg go maj min hg hM hm os
  have possible : ∀ {t : Tables ℝ} {T : Tables RD}, Stored t T → ∀ os ks : List Int, ks.length = os.length → os.length ≤ 2 ^ 40 →
      0 < prob t os ks → Possible (ieee lg) T os ks := by
    intro t T hS os ks hl hn hp
    obtain ⟨s, hs, _⟩ := score_close hlg hS os ks hl hn hp
    unfold Possible
    rw [hs]
    rfl
  have first : ∀ (p1 : List Int) (h1 : HMM RD), RunOk (ieee lg) (fun a => a ≠ RD.nan) (stage1 (ieee lg) cfg os).fresh h1 p1 →
      p1.length = os.length ∧ (∀ l ∈ p1, IsKey l) ∧ 0 < prob (given go maj min) os p1 ∧
      ∀ ks : List Int, ks.length = os.length → (∀ k ∈ ks, IsKey k) →
        prob (given go maj min) os ks ≤ (10 : ℝ) ^ (2 * slack η os.length) * prob (given go maj min) os p1 := by
    intro p1 h1 R1
    have hl1 : p1.length = os.length := R1.isPath.1
    have hT1 := (stage1 (ieee lg) cfg os).tables_fresh (ieee lg) (stage1_wf (ieee lg) cfg os)
    have hposs := R1.possible
    rw [hT1] at hposs
    have hpp : 0 < prob (given go maj min) os p1 := prob_pos_of_possible hS1 os p1 hposs
    refine ⟨hl1, fun l h => mem_keys.1 (R1.isPath.2 l h), hpp, ?_⟩
    intro ks hkl hkk
    rcases (prob_nonneg hS1.nonneg os ks).eq_or_lt with e | e
    · rw [← e]
      exact mul_nonneg (Real.rpow_nonneg (by norm_num) _) hpp.le
    · refine prob_near hlg hS1 os p1 ks hl1 hkl hn hpp ?_
      have hb := R1.best ks ⟨hkl, fun x hx => mem_keys.2 (hkk x hx)⟩
      rw [hT1] at hb
      exact hb (possible hS1 os ks hkl hn e)
  rcases detect_spec W iter₁ iter₂ hi₁ hi₂ cfg hc os ho hne with
    ⟨ht, hno | ⟨p1, h1, hr1, R1, hno⟩⟩ | ⟨p1, h1, p2, h2, k, hr1, R1, hr2, R2, hh, hk, hd⟩
  · left
    refine ⟨ht, fun ks hkl hkk => ?_⟩
    rcases (prob_nonneg hS1.nonneg os ks).eq_or_lt with e | e
    · exact e.symm
    · exact absurd (possible hS1 os ks hkl hn e) (hno ks ⟨hkl, fun x hx => mem_keys.2 (hkk x hx)⟩)
  · right
    obtain ⟨hl1, hm1, hpp, hbest⟩ := first p1 h1 R1
    have hp1 : p1 ≠ [] := by
      rintro rfl; exact hne (List.length_eq_zero_iff.1 hl1.symm)
    refine ⟨p1, hl1, hm1, hpp, hbest, Or.inl ⟨ht, fun k hk => ?_⟩⟩
    have hS2 := stored_given2 lg cfg go hg p1
    have h0 := prob_nonneg hS2.nonneg p1 (List.replicate p1.length k)
    rcases h0.eq_or_lt with e | e
    · rw [prob_const _ k hk p1 hp1 hm1] at e
      unfold speaks
      linarith
    · refine absurd (possible hS2 p1 _ (by simp) (by rw [hl1]; exact hn) e) (hno _ ⟨List.length_replicate, ?_⟩)
      intro x hx
      rw [List.eq_of_mem_replicate hx]
      exact mem_keys.2 hk
  · right
    obtain ⟨hl1, hm1, hpp, hbest⟩ := first p1 h1 R1
    have hp1 : p1 ≠ [] := by
      rintro rfl; exact hne (List.length_eq_zero_iff.1 hl1.symm)
    have hS2 := stored_given2 lg cfg go hg p1
    obtain ⟨k1, hk1, hks, hbest2, hvec⟩ := (C25_constant W hz iter₂ hi₂ cfg p1 hp1).2 h2 hr2
    have hk2 : h2.getKeySequence = p2.map Key.ofInt := by
      have := R2.keySeq
      unfold getKeySequence
      simpa [Problem.fresh, build] using this
    have hp2 : p2 = List.replicate p1.length k1 := by
      rw [hk2] at hks
      have hk2' : ∀ s ∈ p2, s = k1 := by
        intro s hs
        have h1 : Key.getInt (Key.ofInt s) ∈ List.replicate p1.length (Res.ok k1) := by
          rw [← hks]
          exact List.mem_map.2 ⟨_, List.mem_map.2 ⟨s, hs, rfl⟩, rfl⟩
        have h2 := (List.mem_replicate.1 h1).2
        rw [Key.getInt_ofInt (mem_keys.1 (R2.isPath.2 s hs))] at h2
        exact Res.ok.inj h2
      have hlen : p2.length = p1.length := by
        have := congrArg List.length hks
        simpa using this
      exact List.eq_replicate_iff.2 ⟨hlen, hk2'⟩
    have hkk : k = k1 := by
      have : k ∈ p2 := List.mem_of_head? hh
      rw [hp2] at this
      exact List.eq_of_mem_replicate this
    subst hkk
    have hT2 := (stage2 (ieee lg) cfg p1).tables_fresh (ieee lg) (stage2_wf (ieee lg) cfg p1)
    have hposs := R2.possible
    rw [hT2, hp2] at hposs
    have hpk : 0 < prob (real2 (fun k l => go.getD (slot k l) 0)) p1 (List.replicate p1.length k) := prob_pos_of_possible hS2 p1 _ hposs
    refine ⟨p1, hl1, hm1, hpp, hbest, Or.inr ⟨_, k, hd, rfl, rfl, hk1, ?_, ?_⟩⟩
    · rw [prob_const _ k hk1 p1 hp1 hm1] at hpk
      unfold speaks
      linarith
    · intro k' hk'
      have := prob_near hlg hS2 p1 (List.replicate p1.length k) (List.replicate p1.length k') (by simp) (by simp)
        (by rw [hl1]; exact hn) hpk (hbest2 k' hk')
      rw [prob_const _ k' hk' p1 hp1 hm1, prob_const _ k hk1 p1 hp1 hm1, hl1] at this
      unfold speaks
      nlinarith

end JKD.Detect

namespace JKD.Main

open Spec HMM RD Detect

theorem typed_arrays {D : Type} (F : FPU D) (t a b : List D) : transArray F ⟨"custom", "custom", "custom", t, a, b⟩ = t ∧
    profArrays F ⟨"custom", "custom", "custom", t, a, b⟩ = (a, b) := by
  constructor
  · simp [transArray, KeyTransition.specTable]
  · simp [profArrays, profArgs, KeyProfile.Args.arrays, KeyProfile.Args.spec, KeyProfile.specTable]

/-- **C151.**  A MIDI file of up to `2⁴⁰` notes, analysed with typed-in profiles and transitions: 24 numbers each, stored in doubles,
each zero or between `2⁻⁴⁹⁰` and `2⁴⁹⁰`.  The program dies of `out_of_range` only if no sequence of keys is possible for the notes, or
no key for the best sequence of keys it found; otherwise it prints a key that is best for that sequence.  Best means: up to the factor
`10 ^ (2 slack)`, by the numbers that were typed in. -/
theorem C151_typed {S P T : Type} {η : ℝ} (lg : ℝ → RD) (hlg : LogClose η lg) (E : Env RD S P T) (hF : E.F = ieee lg)
    (hi₁ : Iter.Ok E.iter₁) (hi₂ : Iter.Ok E.iter₂) (hs : E.strictMidi = false)
    (hj : E.junkMajor.length = 12 ∧ E.junkMinor.length = 12 ∧ E.junkTransition.length = 24)
    (o : Options) (hf : o.inputformat = none) (he : o.evaluate = false) (hp : o.probabilities = false)
    (file ext : Str) (hargs : o.args = [file]) (hx : HasExtension file ext) (hl : file.length < npos)
    (hm : ext.map Char.toLower = "mid".toList ∨ ext.map Char.toLower = "midi".toList)
    (K Tr : Str) (hK : o.customkeyprofiles = some K) (hT : o.customkeytransitions = some Tr)
    (maj min go : List ℝ) (hlen : maj.length = 12 ∧ min.length = 12 ∧ go.length = 24)
    (hprof : List.Forall₂ Entry (maj ++ min) (E.nums K)) (hgo : List.Forall₂ Entry go (E.nums Tr))
    (hw : ∀ ev ∈ E.midiEvents file, Midi.WellFormed ev) (os : List Int)
    (hos : os = ((E.midiEvents file).filterMap Midi.sounding).map (fun p : Nat => ((p % 12 : Nat) : Int))) (hne : os ≠ [])
    (hn : os.length ≤ 2 ^ 40) :
    (main E (.ok o) = .throw .outOfRange ∧
      ∀ ks : List Int, ks.length = os.length → (∀ k ∈ ks, IsKey k) → prob (given go maj min) os ks = 0) ∨
    ∃ ls : List Int, ls.length = os.length ∧ (∀ l ∈ ls, IsKey l) ∧ 0 < prob (given go maj min) os ls ∧
      (∀ ks : List Int, ks.length = os.length → (∀ k ∈ ks, IsKey k) →
        prob (given go maj min) os ks ≤ (10 : ℝ) ^ (2 * slack η os.length) * prob (given go maj min) os ls) ∧
      ((main E (.ok o) = .throw .outOfRange ∧ ∀ k, IsKey k → speaks go ls k = 0) ∨
        ∃ k line, main E (.ok o) = .ok { stdout := line, stderr := [], code := 0 } ∧ keyLine (Key.ofInt k) = .ok line ∧ IsKey k ∧
          0 < speaks go ls k ∧ ∀ k', IsKey k' → speaks go ls k' ≤ (10 : ℝ) ^ (2 * slack η os.length) * speaks go ls k) := by
  have lK : (E.nums K).length = 24 := by
    rw [← hprof.length_eq, List.length_append, hlen.1, hlen.2.1]
  have lT : (E.nums Tr).length = 24 := by rw [← hgo.length_eq, hlen.2.2]
  have cK := (C37_profiles E o K hK hj.1 hj.2.1).1 lK
  have cT := (C37_transitions_partial E o Tr hT hj.2.2).1 lT
  have fM : List.Forall₂ Entry maj ((E.nums K).take 12) := by
    have := List.forall₂_take 12 hprof
    rwa [List.take_left' hlen.1] at this
  have fm : List.Forall₂ Entry min ((E.nums K).drop 12) := by
    have := List.forall₂_drop 12 hprof
    rwa [List.drop_left' hlen.1] at this
  obtain ⟨aT, aP⟩ := typed_arrays (ieee lg) (E.nums Tr) ((E.nums K).take 12) ((E.nums K).drop 12)
  have hwf : Config.WF (⟨"custom", "custom", "custom", E.nums Tr, (E.nums K).take 12, (E.nums K).drop 12⟩ : Config RD) :=
    ⟨lT, by simp [lK], by simp [lK]⟩
  have hparse : parseArgs E (.ok o) = .ok (.ok (midiParsed o file
      ⟨"custom", "custom", "custom", E.nums Tr, (E.nums K).take 12, (E.nums K).drop 12⟩)) := by
    simp only [parseArgs, hargs, (C36_extension_partial E o file ext hf hx hl).2.2.1 hm, cK, cT, Res.bind_ok]
    rfl
  have hread : readInput E (midiParsed o file
      ⟨"custom", "custom", "custom", E.nums Tr, (E.nums K).take 12, (E.nums K).drop 12⟩) = .ok (.ok (os.map PitchClass.ofInt)) := by
    have := Midi.C34_events_partial (E.midiEvents file) hw
    simp only [readInput, midiParsed, Res.bind_ok, if_true, hs, this]
    rw [if_neg (by simp [Midi.getStatus, Midi.construct]), hos, List.map_map]
    rfl
  have h0 : ∀ x ∈ os, 0 ≤ x ∧ x < 12 := by
    intro x hx
    rw [hos] at hx
    obtain ⟨p, _, rfl⟩ := List.mem_map.1 hx
    have : p % 12 < 12 := Nat.mod_lt _ (by decide)
    omega
  have hcfg : (midiParsed o file (⟨"custom", "custom", "custom", E.nums Tr, (E.nums K).take 12, (E.nums K).drop 12⟩ : Config RD)).cfg =
    ⟨"custom", "custom", "custom", E.nums Tr, (E.nums K).take 12, (E.nums K).drop 12⟩ := rfl
  have dead : detect (ieee lg) E.iter₁ E.iter₂ ⟨"custom", "custom", "custom", E.nums Tr, (E.nums K).take 12, (E.nums K).drop 12⟩
      (os.map PitchClass.ofInt) = .throw .outOfRange → main E (.ok o) = .throw .outOfRange := by
    intro h
    simp only [main, hparse, hread, Res.bind_ok, hF, hcfg, h, Res.bind_throw]
  rcases C151_tables lg hlg E.iter₁ E.iter₂ hi₁ hi₂ _ hwf go maj min (by rw [aT]; exact hgo) (by rw [aP]; exact fM) (by rw [aP]; exact fm)
    os h0 hne hn with ⟨h, h1⟩ | ⟨ls, h1, h2, h3, h4, ⟨h5, h6⟩ | ⟨d, k, h5, h6, h7, h8, h9, h10⟩⟩
  · exact Or.inl ⟨dead h, h1⟩
  · exact Or.inr ⟨ls, h1, h2, h3, h4, Or.inl ⟨dead h5, h6⟩⟩
  · obtain ⟨line, hline, _⟩ := C39_parse_label k h8
    refine Or.inr ⟨ls, h1, h2, h3, h4, Or.inr ⟨k, line, ?_, hline, h8, h9, h10⟩⟩
    have hpr : printResult E (midiParsed o file
        (⟨"custom", "custom", "custom", E.nums Tr, (E.nums K).take 12, (E.nums K).drop 12⟩ : Config RD)) d = .ok line := by
      simp [printResult, midiParsed, he, hp, h7, hline]
    simp only [main, hparse, hread, Res.bind_ok, hF, hcfg, h5, hpr, Res.pure_eq]

/-! ### Cases -/

/-- Numbers that were typed in and are stored by rounding meet the hypotheses: zero, or between `1 / 144442221` and one. -/
example (lg : ℝ → RD) (qs : List Rat) (h : ∀ q ∈ qs, q = 0 ∨ ((1 / 144442221 : Rat) ≤ q ∧ q ≤ 1)) :
    List.Forall₂ Entry (qs.map (fun q : Rat => (q : ℝ))) (qs.map (ieee lg).ofRat) := by
  induction qs with
  | nil => exact .nil
  | cons q qs ih => exact .cons (entry_ofRat lg q (h q (by simp))) (ih (fun q hq => h q (by simp [hq])))

/-- A profile that only allows the tonic: the note C is possible in C major and impossible in D major. -/
example (go : List ℝ) : prob (given go (1 :: List.replicate 11 0) (1 :: List.replicate 11 0)) [0] [0] = 1 / 24 ∧
    prob (given go (1 :: List.replicate 11 0) (1 :: List.replicate 11 0)) [0] [2] = 0 := by
  have k0 : (0 : Int) ∈ keys ∧ (0 : Int) ∈ pcs := by decide
  have k2 : (2 : Int) ∈ keys := by decide
  have d0 : KeyProfile.degree 0 0 = 0 := by decide
  have d2 : KeyProfile.degree 2 0 = 10 := by decide
  have m0 : Spec.isMajor 0 = true := by decide
  have m2 : Spec.isMajor 2 = true := by decide
  constructor
  · simp [prob, extendProb, given, KeyProfile.emis, k0, d0, m0]
  · simp [prob, extendProb, given, KeyProfile.emis, k0, d2, m2]

end JKD.Main
