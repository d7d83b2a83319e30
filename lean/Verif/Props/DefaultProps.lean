import Verif.FP.Tame
import Verif.Props.MainProps
import Verif.Props.MidiProps
import Verif.Props.ScalingProps
import Verif.Props.GlobalKeyProps
/-
C40, C54: when detection is sure to find a key.
-/

namespace JKD.Detect

open Spec HMM

variable {D : Type}

section
variable {F : FPU D} {Pos Small Good : D → Prop} (A : Tame F Pos Small Good)
include A

theorem extend_good (T : Tables D) (g : Int → Int) (acc : D) (ha : Good acc) (k : Int) (os : List Int)
    (ht : ∀ j, j = k ∨ (∃ o ∈ os, j = g o) → ∀ o ∈ os, Pos (T.trans j (g o)))
    (he : ∀ o ∈ os, Pos (T.emis (g o) o)) : Good (extend F T acc k os (os.map g)) := by
  induction os generalizing acc k with
  | nil => exact ha
  | cons o os ih =>
    rw [List.map_cons, extend]
    apply ih
    · exact A.add _ _ ha (A.log _ _ (ht k (Or.inl rfl) o (by simp)) (he o (by simp)))
    · intro j hj o' ho'
      refine ht j ?_ o' (by simp [ho'])
      rcases hj with rfl | ⟨o'', h1, rfl⟩
      · exact Or.inr ⟨o, by simp, rfl⟩
      · exact Or.inr ⟨o'', by simp [h1], rfl⟩
    · intro o' ho'; exact he o' (by simp [ho'])

/-- A path along moderate positive probabilities is possible, however long. -/
theorem possible_path (T : Tables D) (g : Int → Int) (os : List Int) (hne : os ≠ [])
    (hi : ∀ o ∈ os, Pos (T.init (g o))) (ht : ∀ o ∈ os, ∀ o' ∈ os, Pos (T.trans (g o) (g o')))
    (he : ∀ o ∈ os, Pos (T.emis (g o) o)) : Possible F T os (os.map g) := by
  cases os with
  | nil => exact absurd rfl hne
  | cons o os =>
    unfold Possible
    apply A.above
    rw [List.map_cons, score]
    apply extend_good A
    · exact A.start _ (A.log _ _ (hi o (by simp)) (he o (by simp)))
    · intro j hj o' ho'
      rcases hj with rfl | ⟨o'', h1, rfl⟩
      · exact ht o (by simp) o' (by simp [ho'])
      · exact ht o'' (by simp [h1]) o' (by simp [ho'])
    · intro o' ho'; exact he o' (by simp [ho'])

/-- The second model always has a possible path when every transition is positive. -/
theorem stage2_possible_of_pos (h24 : Pos (F.ofRat (1 / 24))) (h1 : Pos (F.ofRat 1)) (cfg : Config D)
    (hc : Config.WF cfg) (ht : ∀ x ∈ transArray F cfg, Pos x) (ls : List Int) (hl : ∀ l ∈ ls, IsKey l)
    (hne : ls ≠ []) (k : Int) (hk : IsKey k) :
    Possible F ((stage2 F cfg ls).tables F) ls (List.replicate ls.length k) := by
  have e : List.replicate ls.length k = ls.map (fun _ => k) := by
    rw [List.map_const']
  rw [e]
  apply possible_path A _ _ _ hne
  · intro o _
    have : ((stage2 F cfg ls).tables F).init k = F.ofRat (1 / 24) := rd_tab F keys _ (mem_keys.2 hk)
    rw [this]; exact h24
  · intro o _ o' _
    rw [stage2_trans F cfg ls hk hk, if_pos rfl]; exact h1
  · intro o ho
    have : ((stage2 F cfg ls).tables F).emis k o = (transArray F cfg).getD (slot k o) F.zero :=
      rd2_tab F keys keys _ (mem_keys.2 hk) (mem_keys.2 (hl o ho))
    rw [this]
    have hlt : slot k o < (transArray F cfg).length := by rw [transArray_len F cfg hc]; exact KeyTransition.slot_lt
    rw [List.getD_eq_getElem?_getD, List.getElem?_eq_getElem hlt]
    exact ht _ (List.getElem_mem hlt)

/-- **C40, general form.**  If all entries of the chosen transition array and some entry of the chosen major
profile are moderate positive numbers, every non-empty pitch-class sequence yields a key: detection ends
normally, with no exception and no undefined behaviour. -/
theorem C40_general {Num : D → Prop} (W : FPLaws F Num) (h24 : Pos (F.ofRat (1 / 24)))
    (h1 : Pos (F.ofRat 1)) (iter₁ iter₂ : Iter D) (hi₁ : iter₁.Ok) (hi₂ : iter₂.Ok) (cfg : Config D)
    (hc : Config.WF cfg) (ht : ∀ x ∈ transArray F cfg, Pos x)
    (hp : ∃ x ∈ (profArrays F cfg).1, Pos x) (os : List Int) (ho : ∀ o ∈ os, 0 ≤ o ∧ o < 12)
    (hne : os ≠ []) :
    ∃ d k, detect F iter₁ iter₂ cfg (os.map PitchClass.ofInt) = .ok (.ok d) ∧ IsKey k ∧
      d.mainKey = Key.ofInt k ∧ d.localKeys.length = os.length := by
  obtain ⟨x, hx, hpx⟩ := hp
  obtain ⟨i, hi, hix⟩ := List.getElem_of_mem hx
  have hi12 : i < 12 := by rw [(profArrays_len F cfg hc).1] at hi; exact hi
  -- the major key in which the observed pitch class has degree `i`
  have hg : ∀ o ∈ os, IsKey ((o - i) % 12) ∧ Spec.isMajor ((o - i) % 12) = true ∧
      KeyProfile.degree ((o - i) % 12) o = i := by
    intro o hoo
    have := ho o hoo
    refine ⟨by unfold IsKey; omega, by unfold Spec.isMajor; simp; omega, ?_⟩
    unfold KeyProfile.degree
    omega
  have htr : ∀ a b, IsKey a → IsKey b → Pos ((transArray F cfg).getD (slot a b) F.zero) := by
    intro a b _ _
    have hlt : slot a b < (transArray F cfg).length := by rw [transArray_len F cfg hc]; exact KeyTransition.slot_lt
    rw [List.getD_eq_getElem?_getD, List.getElem?_eq_getElem hlt]
    exact ht _ (List.getElem_mem hlt)
  have hposs1 : Possible F ((stage1 F cfg os).tables F) os (os.map (fun o => (o - i) % 12)) := by
    apply possible_path A _ _ _ hne
    · intro o hoo
      have : ((stage1 F cfg os).tables F).init ((o - i) % 12) = F.ofRat (1 / 24) :=
        rd_tab F keys _ (mem_keys.2 (hg o hoo).1)
      rw [this]; exact h24
    · intro o hoo o' hoo'
      have : ((stage1 F cfg os).tables F).trans ((o - i) % 12) ((o' - i) % 12) =
          (transArray F cfg).getD (slot ((o - i) % 12) ((o' - i) % 12)) F.zero :=
        rd2_tab F keys keys _ (mem_keys.2 (hg o hoo).1) (mem_keys.2 (hg o' hoo').1)
      rw [this]
      exact htr _ _ (hg o hoo).1 (hg o' hoo').1
    · intro o hoo
      have hpc : o ∈ pcs := by rw [mem_pcs]; exact ho o hoo
      have : ((stage1 F cfg os).tables F).emis ((o - i) % 12) o =
          KeyProfile.emis (profArrays F cfg).1 (profArrays F cfg).2 F.zero ((o - i) % 12) o :=
        rd2_tab F keys pcs _ (mem_keys.2 (hg o hoo).1) hpc
      rw [this]
      unfold KeyProfile.emis
      rw [(hg o hoo).2.1, (hg o hoo).2.2, if_pos rfl, List.getD_eq_getElem?_getD, List.getElem?_eq_getElem hi]
      simpa [hix] using hpx
  have hpath : (stage1 F cfg os).IsPath (os.map (fun o => (o - i) % 12)) := by
    refine ⟨by simp [stage1], ?_⟩
    intro k hk
    obtain ⟨o, hoo, rfl⟩ := List.mem_map.1 hk
    exact mem_keys.2 (hg o hoo).1
  rcases detect_spec W iter₁ iter₂ hi₁ hi₂ cfg hc os ho hne with
    ⟨_, hno | ⟨p1, h1', _, R1, hno⟩⟩ | ⟨p1, h1', p2, h2, k, _, R1, _, _, _, hk, hd⟩
  · exact absurd hposs1 (hno _ hpath)
  · exfalso
    have hl : p1.length = os.length := R1.isPath.1
    have hp1 : p1 ≠ [] := by
      rintro rfl
      exact hne (List.length_eq_zero_iff.1 hl.symm)
    have hkeys : ∀ l ∈ p1, IsKey l := fun l hl => mem_keys.1 (R1.isPath.2 l hl)
    refine hno (List.replicate p1.length 0) ⟨by simp [stage2], ?_⟩ (stage2_possible_of_pos A h24 h1 cfg hc ht p1 hkeys hp1 0
      (by unfold IsKey; omega))
    intro k hk
    rw [List.eq_of_mem_replicate hk]
    exact mem_keys.2 (by unfold IsKey; omega)
  · exact ⟨_, k, hd, mem_keys.1 hk, rfl, by simp; exact R1.isPath.1⟩

end

/-! ### The command-line choices -/

theorem trans_choice (F : FPU D) (cfg : Config D) (h : cfg.keyTransition ∈ transitionChoices) :
    ∀ x ∈ transArray F cfg, ∃ q : Rat, x = F.ofRat q ∧ 1 / 144442221 ≤ q ∧ q ≤ 1 := by
  have key : ∀ s ∈ transitionChoices, s ≠ "custom" ∧
      ∃ p ∈ KeyTransition.builtins, KeyTransition.builtins.find? (fun p => p.1 == s) = some p ∧
        ∀ q ∈ p.2, (1 / 144442221 : Rat) ≤ q ∧ q ≤ 1 := by decide +kernel
  obtain ⟨h1, p, _, h2, h3⟩ := key _ h
  intro x hx
  unfold transArray KeyTransition.specTable at hx
  rw [if_neg h1, h2] at hx
  simp only [Option.map_some, Option.getD_some] at hx
  obtain ⟨q, hq, rfl⟩ := List.mem_map.1 hx
  exact ⟨q, rfl, h3 q hq⟩

theorem profile_choice (F : FPU D) (cfg : Config D) (h : cfg.majorKeyProfile ∈ profileChoices)
    (h' : cfg.minorKeyProfile ∈ profileChoices) :
    ∃ x ∈ (profArrays F cfg).1, ∃ q : Rat, x = F.ofRat q ∧ 1 / 144442221 ≤ q ∧ q ≤ 1 := by
  have key : ∀ s ∈ profileChoices, s ≠ "custom" ∧
      (∃ p ∈ KeyProfile.majBuiltins, KeyProfile.majBuiltins.find? (fun p => p.1 == s) = some p ∧
        ∃ q ∈ p.2, (1 / 144442221 : Rat) ≤ q ∧ q ≤ 1) ∧
      (KeyProfile.minBuiltins.find? (fun p => p.1 == s)).isSome = true := by decide +kernel
  obtain ⟨h1, ⟨p, _, h2, q, hq, h3⟩, _⟩ := key _ h
  obtain ⟨h1', _, h2'⟩ := key _ h'
  obtain ⟨p', h2'⟩ := Option.isSome_iff_exists.1 h2'
  refine ⟨F.ofRat q, ?_, q, rfl, h3⟩
  unfold profArrays KeyProfile.Args.arrays KeyProfile.Args.spec profArgs KeyProfile.specTable
  simp only
  rw [if_neg h1, if_neg h1', h2, h2']
  simp only [Option.map_some]
  exact List.mem_map.2 ⟨q, hq, rfl⟩

/-- What `-M`, `-m` and `-t` accept (and their defaults). -/
structure Chosen (cfg : Config D) : Prop where
  wf : Config.WF cfg
  major : cfg.majorKeyProfile ∈ profileChoices
  minor : cfg.minorKeyProfile ∈ profileChoices
  trans : cfg.keyTransition ∈ transitionChoices

/-- **C40 for IEEE-754 doubles.**  With the profiles and transitions the command line offers (the defaults
among them), whatever the unfilled custom arrays hold and whatever the hash order, every non-empty
pitch-class sequence of any length yields a key.  Assumption on the C library: `log10` of a positive double
is finite and of moderate size. -/
theorem C40_binary64 (lg : ℝ → RD) (hlg : RD.LogOk lg) (iter₁ iter₂ : Iter RD) (hi₁ : iter₁.Ok)
    (hi₂ : iter₂.Ok) (cfg : Config RD) (hc : Chosen cfg) (os : List Int) (ho : ∀ o ∈ os, 0 ≤ o ∧ o < 12)
    (hne : os ≠ []) :
    ∃ d k, detect (RD.ieee lg) iter₁ iter₂ cfg (os.map PitchClass.ofInt) = .ok (.ok d) ∧ IsKey k ∧
      d.mainKey = Key.ofInt k ∧ d.localKeys.length = os.length := by
  have hq : ∀ q : Rat, 1 / 144442221 ≤ q → q ≤ 1 → RD.PosDouble ((RD.ieee lg).ofRat q) := by
    intro q h1 h2
    have a : (2 : ℝ) ^ (-500 : ℤ) ≤ (q : ℝ) := by
      have e1 : ((1 / 144442221 : Rat) : ℝ) ≤ (q : ℝ) := Rat.cast_le.2 h1
      refine le_trans ?_ e1
      push_cast
      calc (2 : ℝ) ^ (-500 : ℤ) ≤ 2 ^ (-30 : ℤ) := zpow_le_zpow_right₀ (by norm_num) (by norm_num)
        _ ≤ 1 / 144442221 := by norm_num
    have b : (q : ℝ) ≤ (2 : ℝ) ^ (500 : ℤ) := by
      have e1 : (q : ℝ) ≤ ((1 : Rat) : ℝ) := Rat.cast_le.2 h2
      refine e1.trans ?_
      push_cast
      calc (1 : ℝ) = 2 ^ (0 : ℤ) := by norm_num
        _ ≤ 2 ^ (500 : ℤ) := zpow_le_zpow_right₀ (by norm_num) (by norm_num)
    obtain ⟨t, ht, h3, h4⟩ := RD.rnd64_between (by norm_num) (by norm_num) a b
    exact ⟨t, ht, h3, h4⟩
  apply C40_general (RD.tame_ieee lg hlg) (RD.laws RD.binary64 lg) (hq _ (by norm_num) (by norm_num))
    (hq _ (by norm_num) (by norm_num)) iter₁ iter₂ hi₁ hi₂ cfg hc.wf _ _ os ho hne
  · intro x hx
    obtain ⟨q, rfl, h1, h2⟩ := trans_choice _ cfg hc.trans x hx
    exact hq q h1 h2
  · obtain ⟨x, hx, q, rfl, h1, h2⟩ := profile_choice (RD.ieee lg) cfg hc.major hc.minor
    exact ⟨_, hx, hq q h1 h2⟩

/-- **C40 in exact arithmetic.** -/
theorem C40_exact (iter₁ iter₂ : Iter RD) (hi₁ : iter₁.Ok) (hi₂ : iter₂.Ok) (cfg : Config RD)
    (hc : Chosen cfg) (os : List Int) (ho : ∀ o ∈ os, 0 ≤ o ∧ o < 12) (hne : os ≠ []) :
    ∃ d k, detect RD.exact iter₁ iter₂ cfg (os.map PitchClass.ofInt) = .ok (.ok d) ∧ IsKey k ∧
      d.mainKey = Key.ofInt k ∧ d.localKeys.length = os.length := by
  have W := RD.laws RD.exactRounding (fun r => .fin (Real.logb 10 r))
  change FPLaws RD.exact _ at W
  have hq : ∀ q : Rat, 1 / 144442221 ≤ q → ∃ r, RD.exact.ofRat q = .fin r ∧ 0 < r := by
    intro q h1
    refine ⟨q, rfl, ?_⟩
    have : (0 : Rat) < q := lt_of_lt_of_le (by norm_num) h1
    exact_mod_cast this
  apply C40_general RD.tame_exact W (hq _ (by norm_num)) (hq _ (by norm_num)) iter₁ iter₂ hi₁ hi₂ cfg hc.wf _ _
    os ho hne
  · intro x hx
    obtain ⟨q, rfl, h1, _⟩ := trans_choice _ cfg hc.trans x hx
    exact hq q h1
  · obtain ⟨x, hx, q, rfl, h1, _⟩ := profile_choice RD.exact cfg hc.major hc.minor
    exact ⟨_, hx, hq q h1⟩

/-- The defaults are such a choice; and a correctly rounded `log10` satisfies the assumption. -/
example (junk : List RD) (hj : junk.length = 24) :
    Chosen { keyTransition := "exponential10", majorKeyProfile := "sapp", minorKeyProfile := "sapp"
             customKeyTransition := junk, majorCustomKeyProfile := junk.take 12
             minorCustomKeyProfile := junk.drop 12 } ∧
    RD.LogOk (fun r => RD.rnd64 (Real.logb 10 r)) :=
  ⟨⟨⟨hj, by simp [hj], by simp [hj]⟩, (by decide : "sapp" ∈ profileChoices), (by decide : "sapp" ∈ profileChoices),
    (by decide : "exponential10" ∈ transitionChoices)⟩, RD.logOk_rounded⟩

/-! ### C54: the second model -/

/-- **C54 (partial).**  When every entry of the transition array is a positive number, the second model finds
a key for every non-empty sequence of local keys.  Missing: tables with zeros, see `C54_zero_violated`. -/
theorem C54_second_partial {F : FPU D} {Pos Small Good : D → Prop} (A : Tame F Pos Small Good)
    {Num : D → Prop} (W : FPLaws F Num) (h24 : Pos (F.ofRat (1 / 24))) (h1 : Pos (F.ofRat 1))
    (iter : Iter D) (hi : iter.Ok) (cfg : Config D) (hc : Config.WF cfg)
    (ht : ∀ x ∈ transArray F cfg, Pos x) (ls : List Int) (hl : ∀ l ∈ ls, IsKey l) (hne : ls ≠ []) :
    ∃ h, runViterbi F iter (stage2 F cfg ls).fresh = .ok h := by
  rcases fresh_spec W iter hi _ (stage2_wf F cfg ls) hne with ⟨hno, _⟩ | ⟨_, h, hr, _⟩
  · exfalso
    refine hno (List.replicate ls.length 0) ⟨by simp [stage2], ?_⟩
      (stage2_possible_of_pos A h24 h1 cfg hc ht ls hl hne 0 (by unfold IsKey; omega))
    intro k hk
    rw [List.eq_of_mem_replicate hk]
    exact mem_keys.2 (by unfold IsKey; omega)
  · exact ⟨h, hr⟩

theorem run_possible {F : FPU D} {Num : D → Prop} (P : Problem D) (hP : P.WF) {h : HMM D}
    {p : List Int} (R : RunOk F Num P.fresh h p) : P.IsPath p ∧ Possible F (P.tables F) P.obs p := by
  have h := R.possible
  rw [P.tables_fresh F hP] at h
  exact ⟨R.isPath, h⟩

/-- Keys always move up a fifth (major to major, minor to minor); every pitch class is heard in every key. -/
noncomputable def upAFifth : Config RD :=
  ⟨"custom", "custom", "custom", (List.replicate 24 (.fin 0)).set 7 (.fin 1), List.replicate 12 (.fin 1),
    List.replicate 12 (.fin 1)⟩

theorem upAFifth_wf : Config.WF upAFifth := ⟨by simp [upAFifth], by simp [upAFifth], by simp [upAFifth]⟩

theorem upAFifth_trans (a b : Int) : (transArray RD.exact upAFifth).getD (slot a b) RD.exact.zero =
    if slot a b = 7 then .fin 1 else .fin 0 := by
  have h : transArray RD.exact upAFifth = (List.replicate 24 (.fin 0)).set 7 (.fin 1) := rfl
  rw [h]
  have hs : slot a b < 24 := KeyTransition.slot_lt
  rw [List.getD_eq_getElem?_getD, List.getElem?_set]
  by_cases e : slot a b = 7
  · simp [e]
  · rw [if_neg (fun h => e h.symm), if_neg e, List.getElem?_replicate_of_lt hs]
    rfl

theorem exact_alive_right (a w : RD) (h : RD.exact.lt RD.exact.negInf (RD.exact.add a w) = true) :
    RD.exact.lt RD.exact.negInf w = true := by
  change RD.lt .ninf (RD.add RD.exactRounding a w) = true at h
  change RD.lt .ninf w = true
  cases a <;> cases w <;> simp_all [RD.add, RD.lt]

/-- **C54 violated.**  A custom transition array under which the first model finds local keys, but no global
key can have them: the second model throws. -/
theorem C54_zero_violated (iter₁ iter₂ : Iter RD) (hi₁ : iter₁.Ok) (hi₂ : iter₂.Ok) :
    (∃ h, runViterbi RD.exact iter₁ (stage1 RD.exact upAFifth [0, 0]).fresh = .ok h) ∧
    detect RD.exact iter₁ iter₂ upAFifth ([0, 0].map PitchClass.ofInt) = .throw .outOfRange := by
  have W := RD.laws RD.exactRounding (fun r => .fin (Real.logb 10 r))
  change FPLaws RD.exact _ at W
  have A := RD.tame_exact
  have k0 : (0 : Int) ∈ keys := by decide
  have k7 : (7 : Int) ∈ keys := by decide
  have htr : ∀ os a b, a ∈ keys → b ∈ keys →
      ((stage1 RD.exact upAFifth os).tables RD.exact).trans a b = if slot a b = 7 then .fin 1 else .fin 0 :=
    fun os a b ha hb => (rd2_tab RD.exact keys keys _ ha hb).trans (upAFifth_trans a b)
  have hpos : ∃ r : ℝ, RD.fin 1 = RD.fin r ∧ 0 < r := ⟨1, rfl, one_pos⟩
  have hposs : Possible RD.exact ((stage1 RD.exact upAFifth [0, 0]).tables RD.exact) [0, 0] [0, 7] := by
    have hinit : ((stage1 RD.exact upAFifth [0, 0]).tables RD.exact).init 0 = RD.exact.ofRat (1 / 24) :=
      rd_tab RD.exact keys _ k0
    have he0 : ((stage1 RD.exact upAFifth [0, 0]).tables RD.exact).emis 0 0 = .fin 1 := by
      refine (rd2_tab RD.exact keys pcs _ k0 (by decide : (0 : Int) ∈ pcs)).trans ?_
      rfl
    have he7 : ((stage1 RD.exact upAFifth [0, 0]).tables RD.exact).emis 7 0 = .fin 1 := by
      refine (rd2_tab RD.exact keys pcs _ k7 (by decide : (0 : Int) ∈ pcs)).trans ?_
      rfl
    unfold Possible
    apply A.above
    simp only [score, extend]
    apply A.add
    · apply A.start
      apply A.log
      · rw [hinit]
        exact ⟨_, exact_ofRat _, by norm_num⟩
      · rw [he0]; exact hpos
    · apply A.log
      · rw [htr _ _ _ k0 k7, if_pos (by decide)]; exact hpos
      · rw [he7]; exact hpos
  have hpath : (stage1 RD.exact upAFifth [0, 0]).IsPath [0, 7] :=
    ⟨rfl, by intro k hk; simp at hk; rcases hk with rfl | rfl; exacts [k0, k7]⟩
  -- the second model has no possible path
  have hdead : ∀ p1, (stage1 RD.exact upAFifth [0, 0]).IsPath p1 →
      Possible RD.exact ((stage1 RD.exact upAFifth [0, 0]).tables RD.exact) [0, 0] p1 →
      ∀ ks, (stage2 RD.exact upAFifth p1).IsPath ks →
        ¬ Possible RD.exact ((stage2 RD.exact upAFifth p1).tables RD.exact) p1 ks := by
    intro p1 hp1 hq ks hks hq2
    obtain ⟨a, b, rfl⟩ : ∃ a b, p1 = [a, b] := List.length_eq_two.1 hp1.1
    have ha : a ∈ keys := hp1.2 a (by simp)
    have hb : b ∈ keys := hp1.2 b (by simp)
    have hab : slot a b = 7 := by
      by_contra hne
      unfold Possible at hq
      simp only [score, extend] at hq
      rw [htr _ _ _ ha hb, if_neg hne, ← exact_zero, exact_zeroKills] at hq
      exact absurd hq (by simp)
    obtain ⟨c, d, rfl⟩ : ∃ c d, ks = [c, d] := List.length_eq_two.1 hks.1
    have hc : c ∈ keys := hks.2 c (by simp)
    have hcd := stage2_possible W exact_zeroKills upAFifth _ _ hks hq2 c (by simp)
    have : d = c := by simpa using hcd
    subst this
    have he : ∀ k l, k ∈ keys → l ∈ keys → ((stage2 RD.exact upAFifth [a, b]).tables RD.exact).emis k l =
        if slot k l = 7 then .fin 1 else .fin 0 :=
      fun k l hk hl => (rd2_tab RD.exact keys keys _ hk hl).trans (upAFifth_trans k l)
    have alive : ∀ x l, l ∈ keys → RD.exact.lt RD.exact.negInf (RD.exact.log10 (RD.exact.mul x
        (((stage2 RD.exact upAFifth [a, b]).tables RD.exact).emis d l))) = true → slot d l = 7 := by
      intro x l hl h
      by_contra hne
      rw [he d l hc hl, if_neg hne, ← exact_zero, mul_zero_dead] at h
      exact absurd h (by simp)
    unfold Possible at hq2
    simp only [score, extend] at hq2
    have h1 := alive _ a ha (W.add_negInf _ _ hq2)
    have h2 := alive _ b hb (exact_alive_right _ _ hq2)
    have key : ∀ a ∈ keys, ∀ b ∈ keys, ∀ d ∈ keys, slot a b = 7 → slot d a = 7 → slot d b ≠ 7 := by
      decide +kernel
    exact key a ha b hb d hc hab h1 h2
  have hne : ([0, 0] : List Int) ≠ [] := by simp
  constructor
  · rcases fresh_spec W iter₁ hi₁ _ (stage1_wf RD.exact upAFifth [0, 0]) hne with ⟨hno, _⟩ | ⟨_, h, hr, _⟩
    · exact absurd hposs (hno _ hpath)
    · exact ⟨h, hr⟩
  · have h12 : ∀ o ∈ ([0, 0] : List Int), 0 ≤ o ∧ o < 12 := by decide
    rcases detect_spec W iter₁ iter₂ hi₁ hi₂ upAFifth upAFifth_wf [0, 0] h12 hne with
      ⟨ht, _⟩ | ⟨p1, h1', p2, h2, k, _, R1, _, R2, _⟩
    · exact ht
    · have q1 := run_possible _ (stage1_wf _ _ _) R1
      have q2 := run_possible _ (stage2_wf _ _ _) R2
      exact absurd q2.2 (hdead p1 q1.1 q1.2 p2 q2.1)

end JKD.Detect

namespace JKD.Main

open Spec

variable {S P T : Type}

/-- The configuration of an accepted command line without `-R`-style custom arrays. -/
theorem parse_cfg {D : Type} (E : Env D S P T) (o : Options) (p : Parsed D) (hk : o.customkeyprofiles = none)
    (ht : o.customkeytransitions = none) (hp : parseArgs E (.ok o) = .ok (.ok p)) :
    p.cfg = { keyTransition := o.keytransition, majorKeyProfile := o.majorprofile
              minorKeyProfile := o.minorprofile, customKeyTransition := E.junkTransition
              majorCustomKeyProfile := E.junkMajor, minorCustomKeyProfile := E.junkMinor } ∧
    p.justProbabilities = o.probabilities ∧ p.justEvaluation = o.evaluate := by
  unfold parseArgs at hp
  simp only at hp
  split at hp
  · obtain ⟨r, hr, hp⟩ := Res.bind_eq_ok.1 hp
    cases r with
    | error out => simp at hp
    | ok it =>
      simp only [chooseProfiles, hk, chooseTransitions, ht, Res.bind_ok, Res.pure_eq, Res.ok.injEq,
        Except.ok.injEq] at hp
      subst hp
      exact ⟨rfl, rfl, rfl⟩
  · simp at hp

/-- **C40, whole program, IEEE-754 doubles.**  With no custom arrays, neither `-e` nor `-p`, and an input that
delivers at least one pitch class, the program prints one key line and reports 0.  Nothing depends on the
uninitialised custom arrays. -/
theorem C40_main (lg : ℝ → RD) (hlg : RD.LogOk lg) (E : Env RD S P T) (hF : E.F = RD.ieee lg)
    (hi₁ : HMM.Iter.Ok E.iter₁) (hi₂ : HMM.Iter.Ok E.iter₂)
    (hj : E.junkMajor.length = 12 ∧ E.junkMinor.length = 12 ∧ E.junkTransition.length = 24)
    (o : Options) (ho : o.Valid) (hk : o.customkeyprofiles = none) (ht : o.customkeytransitions = none)
    (he : o.evaluate = false) (hpr : o.probabilities = false) (p : Parsed RD)
    (hparse : parseArgs E (.ok o) = .ok (.ok p)) (os : List Int) (hos : ∀ q ∈ os, 0 ≤ q ∧ q < 12)
    (hne : os ≠ []) (hread : readInput E p = .ok (.ok (os.map PitchClass.ofInt))) :
    ∃ k line, IsKey k ∧ keyLine (Key.ofInt k) = .ok line ∧
      main E (.ok o) = .ok { stdout := line, stderr := [], code := 0 } := by
  obtain ⟨hcfg, hp1, hp2⟩ := parse_cfg E o p hk ht hparse
  have hch : Detect.Chosen p.cfg := by
    rw [hcfg]
    exact ⟨⟨hj.2.2, hj.1, hj.2.1⟩, ho.major, ho.minor, ho.trans⟩
  obtain ⟨d, k, hd, hkk, hm, _⟩ := Detect.C40_binary64 lg hlg E.iter₁ E.iter₂ hi₁ hi₂ p.cfg hch os hos hne
  obtain ⟨t, hl, _⟩ := C39_line k hkk
  refine ⟨k, _, hkk, hl, ?_⟩
  have hpr' : printResult E p d = keyLine (Key.ofInt k) := by
    simp [printResult, hp1, hp2, he, hpr, hm]
  simp only [main, hparse, hread, Res.bind_ok, hF, hd, hpr', hl, Res.pure_eq]

/-- **C40, MIDI files with the default options** (`midi.cc`'s missing `return` read as returning the vector,
see C34): every file with extension `mid` or `midi` whose merged track has at least one sounding note-on event
yields a key line and status 0, however long it is. -/
theorem C40_midi (lg : ℝ → RD) (hlg : RD.LogOk lg) (E : Env RD S P T) (hF : E.F = RD.ieee lg)
    (hi₁ : HMM.Iter.Ok E.iter₁) (hi₂ : HMM.Iter.Ok E.iter₂)
    (hj : E.junkMajor.length = 12 ∧ E.junkMinor.length = 12 ∧ E.junkTransition.length = 24)
    (hs : E.strictMidi = false) (file ext : Str) (hext : HasExtension file ext) (hlen : file.length < npos)
    (hmid : ext.map Char.toLower = "mid".toList ∨ ext.map Char.toLower = "midi".toList)
    (hwf : ∀ ev ∈ E.midiEvents file, Midi.WellFormed ev)
    (hsound : ∃ ev ∈ E.midiEvents file, Midi.sounding ev ≠ none) :
    ∃ k line, IsKey k ∧ keyLine (Key.ofInt k) = .ok line ∧
      main E (.ok (Options.default file)) = .ok { stdout := line, stderr := [], code := 0 } := by
  have hin := (C36_extension_partial E (Options.default file) file ext rfl hext hlen).2.2.1 hmid
  have hv : (Options.default file).Valid := ⟨(by intro f hf; cases hf), (by decide : "sapp" ∈ profileChoices),
    (by decide : "sapp" ∈ profileChoices), (by decide : "exponential10" ∈ transitionChoices)⟩
  let p : Parsed RD := {
    filename := file, inputType := some .midi
    cfg := { keyTransition := "exponential10", majorKeyProfile := "sapp", minorKeyProfile := "sapp"
             customKeyTransition := E.junkTransition, majorCustomKeyProfile := E.junkMajor
             minorCustomKeyProfile := E.junkMinor }
    justEvaluation := false, justProbabilities := false, chromaOnly := false }
  have hparse : parseArgs E (.ok (Options.default file)) = .ok (.ok p) := by
    have ha : (Options.default file).args = [file] := rfl
    simp only [parseArgs, ha, hin, Res.bind_ok]
    rfl
  let ps := (E.midiEvents file).filterMap Midi.sounding
  let os : List Int := ps.map (fun p => ((p % 12 : Nat) : Int))
  have hread : readInput E p = .ok (.ok (os.map PitchClass.ofInt)) := by
    have := Midi.C34_events_partial (E.midiEvents file) hwf
    have hp : p.inputType = some .midi := rfl
    have hf : p.filename = file := rfl
    simp only [readInput, hp, hf, Res.bind_ok, if_true, hs, this]
    rw [if_neg (by simp [Midi.getStatus, Midi.construct])]
    simp [os, ps, Function.comp_def]
  have hos : ∀ q ∈ os, 0 ≤ q ∧ q < 12 := by
    intro q hq
    obtain ⟨n, _, rfl⟩ := List.mem_map.1 hq
    have : n % 12 < 12 := Nat.mod_lt _ (by decide)
    omega
  have hne : os ≠ [] := by
    obtain ⟨ev, hev, h⟩ := hsound
    obtain ⟨n, hn⟩ := Option.ne_none_iff_exists'.1 h
    have hm : ((n % 12 : Nat) : Int) ∈ os := List.mem_map.2 ⟨n, List.mem_filterMap.2 ⟨ev, hev, hn⟩, rfl⟩
    exact List.ne_nil_of_mem hm
  exact C40_main lg hlg E hF hi₁ hi₂ hj _ hv rfl rfl rfl rfl p hparse os hos hne hread

end JKD.Main
