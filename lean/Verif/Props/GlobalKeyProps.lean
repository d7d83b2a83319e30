import Verif.Props.TransposeProps
import Mathlib.Algebra.BigOperators.Group.List.Basic
import Verif.FP.Binary64
/-
C25, C26: the second model and the global key.
-/

namespace JKD.Detect

open Spec HMM

variable {D : Type}

theorem slot_zero {j k : Int} (hj : IsKey j) (hk : IsKey k) : slot j k = 0 ↔ j = k := by
  unfold IsKey at hj hk
  unfold slot
  split <;> split <;> omega

theorem zeroArray_getD (F : FPU D) (i : Nat) (hi : i < 24) :
    (zeroArray F).getD i F.zero = if i = 0 then F.ofRat 1 else F.zero := by
  have : ∀ i < 24, KeyTransition.zeroTable[i]? = some (if i = 0 then 1 else 0) := by decide
  unfold zeroArray
  rw [List.getD_eq_getElem?_getD, List.getElem?_map, this i hi]
  by_cases h : i = 0 <;> simp [h, FPU.zero]

/-- The transitions of the second model: stay with weight 1, move with weight 0. -/
theorem stage2_trans (F : FPU D) (cfg : Config D) (os : List Int) {j k : Int} (hj : IsKey j) (hk : IsKey k) :
    ((stage2 F cfg os).tables F).trans j k = if j = k then F.ofRat 1 else F.zero := by
  refine (rd2_tab F keys keys _ (mem_keys.2 hj) (mem_keys.2 hk)).trans ?_
  rw [zeroArray_getD F _ KeyTransition.slot_lt]
  simp only [slot_zero hj hk]

section
variable {F : FPU D} {Num : D → Prop} (W : FPLaws F Num)
include W

theorem extend_acc (T : Tables D) (acc : D) (prev : Int) (os ks : List Int)
    (h : F.lt F.negInf (extend F T acc prev os ks) = true) : F.lt F.negInf acc = true := by
  induction os generalizing acc prev ks with
  | nil => simpa [extend] using h
  | cons o os ih =>
    cases ks with
    | nil => simpa [extend] using h
    | cons k ks => exact W.add_negInf _ _ (ih _ _ _ h)

theorem possible_constant (hz : ZeroKills F) (T : Tables D)
    (ht : ∀ j k, IsKey j → IsKey k → j ≠ k → T.trans j k = F.zero) (acc : D) (prev : Int) (hp : IsKey prev)
    (os ks : List Int) (hl : ks.length = os.length) (hk : ∀ k ∈ ks, IsKey k)
    (h : F.lt F.negInf (extend F T acc prev os ks) = true) : ks = List.replicate os.length prev := by
  induction os generalizing acc prev ks with
  | nil => simpa using List.length_eq_zero_iff.1 hl
  | cons o os ih =>
    cases ks with
    | nil => simp at hl
    | cons k ks =>
      simp only [extend] at h
      have hk0 := hk k (by simp)
      have hpk : prev = k := by
        by_cases e : prev = k
        · exact e
        · have h1 := extend_acc W T _ _ _ _ h
          rw [ht prev k hp hk0 e, hz] at h1
          exact absurd h1 (by simp)
      subst hpk
      rw [ih _ prev hp ks (by simpa using hl) (fun k h => hk k (by simp [h])) h]
      rfl

/-- Only constant key sequences are possible in the second model. -/
theorem stage2_possible (hz : ZeroKills F) (cfg : Config D) (os ks : List Int)
    (hks : (stage2 F cfg os).IsPath ks) (h : Possible F ((stage2 F cfg os).tables F) os ks) :
    ∀ k ∈ ks, ks = List.replicate os.length k := by
  have hm : ∀ k ∈ ks, IsKey k := fun k h => mem_keys.1 (hks.2 k h)
  have hl : ks.length = os.length := hks.1
  cases os with
  | nil => rw [List.length_nil, List.length_eq_zero_iff] at hl; subst hl; simp
  | cons o os =>
    cases ks with
    | nil => simp at hl
    | cons k ks =>
      have : ks = List.replicate os.length k :=
        possible_constant W hz _ (fun i j hi hj hne => by rw [stage2_trans F cfg _ hi hj, if_neg hne]) _ k
          (hm k (by simp)) os ks (by simpa using hl) (fun k h => hm k (by simp [h])) h
      subst this
      intro l hl'
      rcases List.mem_cons.1 hl' with rfl | h2
      · rfl
      · rw [List.eq_of_mem_replicate h2]; rfl

/-- **C25.** For every configuration and every non-empty sequence of local keys, if the second model's
run finishes (it throws exactly when no constant key sequence is possible), its key sequence is one key repeated
once per local key; no other key repeated has a greater score; and the score reported for each key is
that of repeating this key (not above minus infinity if this is impossible). -/
theorem C25_constant (hz : ZeroKills F) (iter : Iter D) (hi : iter.Ok) (cfg : Config D) (ls : List Int)
    (hne : ls ≠ []) :
    (runViterbi F iter (stage2 F cfg ls).fresh = .throw .outOfRange ↔
      ∀ k, IsKey k → ¬ Possible F ((stage2 F cfg ls).tables F) ls (List.replicate ls.length k)) ∧
    ∀ h, runViterbi F iter (stage2 F cfg ls).fresh = .ok h →
      ∃ k, IsKey k ∧ h.getKeySequence.map Key.getInt = List.replicate ls.length (.ok k) ∧
        (∀ k', IsKey k' →
          F.lt (score F ((stage2 F cfg ls).tables F) ls (List.replicate ls.length k))
            (score F ((stage2 F cfg ls).tables F) ls (List.replicate ls.length k')) = false) ∧
        ∀ k', IsKey k' → ∃ v, h.getProbabilityVector[k'.toNat]? = some v ∧
          (Possible F ((stage2 F cfg ls).tables F) ls (List.replicate ls.length k') →
            v = score F ((stage2 F cfg ls).tables F) ls (List.replicate ls.length k')) ∧
          (¬ Possible F ((stage2 F cfg ls).tables F) ls (List.replicate ls.length k') →
            F.lt F.negInf v = false) := by
  have hW := stage2_wf F cfg ls
  have hn : 0 < ls.length := List.length_pos_iff.2 hne
  have hconst : ∀ k, IsKey k → (stage2 F cfg ls).IsPath (List.replicate ls.length k) := by
    intro k hk
    refine ⟨List.length_replicate, ?_⟩
    intro x hx
    rw [List.eq_of_mem_replicate hx]; exact mem_keys.2 hk
  constructor
  · rw [(C21_throws_iff W iter hi _ hW hne).1]
    constructor
    · intro h k hk; exact h _ (hconst k hk)
    · intro h ks hks hp
      have hkl : ks.length = ls.length := hks.1
      have hks0 : ks ≠ [] := by rintro rfl; simp at hkl; omega
      have hmem := List.head_mem hks0
      have he := stage2_possible W hz cfg ls ks hks hp _ hmem
      refine h (ks.head hks0) (mem_keys.1 (hks.2 _ hmem)) ?_
      rw [← he]; exact hp
  · intro h hr
    rcases fresh_spec W iter hi _ hW hne with ⟨_, h0⟩ | ⟨p, g, ho1, R⟩
    · rw [hr] at h0; cases h0
    rw [hr] at ho1; injection ho1 with e1; subst e1
    have hT := Problem.tables_fresh F _ hW
    have hpos : Possible F ((stage2 F cfg ls).tables F) ls p := by
      have := R.possible; rw [hT] at this; exact this
    have hpath : (stage2 F cfg ls).IsPath p := R.isPath
    have hpl : p.length = ls.length := hpath.1
    have hp0 : p ≠ [] := by rintro rfl; simp at hpl; omega
    have hmem := List.head_mem hp0
    have he := stage2_possible W hz cfg ls p hpath hpos _ hmem
    obtain ⟨k, hkdef⟩ : ∃ k, k = p.head hp0 := ⟨_, rfl⟩
    rw [← hkdef] at he hmem
    have hk : IsKey k := mem_keys.1 (hpath.2 _ hmem)
    refine ⟨k, hk, ?_, ?_, ?_⟩
    · have hks : h.getKeySequence = p.map Key.ofInt := by
        have := R.keySeq
        unfold getKeySequence
        simpa [Problem.fresh, build] using this
      rw [hks, he, List.map_replicate, List.map_replicate, Key.getInt_ofInt hk]
    · intro k' hk'
      rw [← he]
      have hb := R.best _ (hconst k' hk')
      rw [hT] at hb
      cases hlt : F.lt (score F ((stage2 F cfg ls).tables F) ls p)
          (score F ((stage2 F cfg ls).tables F) ls (List.replicate ls.length k')) with
      | false => rfl
      | true =>
        have := hb (W.lt_trans _ _ _ hpos hlt)
        exact absurd (hlt.symm.trans this) (by simp)
    · intro k' hk'
      obtain ⟨v, hv, hup, _, hor, _⟩ := R.vec k' (mem_keys.2 hk')
      rw [hT] at hup hor
      have hrep : ∀ m : Nat, List.replicate (m + 1) k' = List.replicate m k' ++ [k'] := by
        intro m; rw [List.replicate_succ']
      obtain ⟨m, hm⟩ : ∃ m, ls.length = m + 1 := ⟨ls.length - 1, by omega⟩
      -- a possible path ending in `k'` is constantly `k'`
      have hend : ∀ ks, (stage2 F cfg ls).IsPath (ks ++ [k']) →
          Possible F ((stage2 F cfg ls).tables F) ls (ks ++ [k']) →
          ks ++ [k'] = List.replicate ls.length k' :=
        fun ks h1 h2 => stage2_possible W hz cfg ls _ h1 h2 k' (by simp)
      refine ⟨v, hv, ?_, ?_⟩
      · intro hpk
        have hcp : (stage2 F cfg ls).IsPath (List.replicate m k' ++ [k']) := by
          rw [← hrep, ← hm]; exact hconst k' hk'
        have hcs : Possible F ((stage2 F cfg ls).tables F) ls (List.replicate m k' ++ [k']) := by
          rw [← hrep, ← hm]; exact hpk
        obtain ⟨hnum, hge⟩ := hup (List.replicate m k') hcp hcs
        rcases hor with rfl | ⟨ks, h1, h2⟩
        · have : F.lt F.negInf (score F ((stage2 F cfg ls).tables F) ls (List.replicate m k' ++ [k'])) = false := hge
          exact absurd (hcs.symm.trans this) (by simp)
        · have h2' : score F ((stage2 F cfg ls).tables F) ls (ks ++ [k']) = v := h2
          have hvpos : F.lt F.negInf v = true := by
            rcases W.lt_cotrans _ v _ hnum hcs with h3 | h3
            · exact h3
            · exact absurd (h3.symm.trans hge) (by simp)
          rw [← hend ks h1 (by unfold Possible; rw [h2']; exact hvpos)]
          exact h2'.symm
      · intro hnp
        cases hvpos : F.lt F.negInf v with
        | false => rfl
        | true =>
          rcases hor with rfl | ⟨ks, h1, h2⟩
          · exact absurd (hvpos.symm.trans (W.not_lt_negInf _)) (by simp)
          · have h2' : score F ((stage2 F cfg ls).tables F) ls (ks ++ [k']) = v := h2
            have := hend ks h1 (by unfold Possible; rw [h2']; exact hvpos)
            rw [this] at h2'
            exact absurd (by unfold Possible; rw [h2']; exact hvpos) hnp

/-- **C25 (in the program).** When detection succeeds, the global key sequence is the main key repeated
once per observed pitch class. -/
theorem C25_detection (hz : ZeroKills F) (iter₁ iter₂ : Iter D) (hi₁ : iter₁.Ok) (hi₂ : iter₂.Ok)
    (cfg : Config D) (h : Config.WF cfg) (os : List Int) (ho : ∀ o ∈ os, 0 ≤ o ∧ o < 12) (hne : os ≠ [])
    (d : Detection D) (hd : detect F iter₁ iter₂ cfg (os.map PitchClass.ofInt) = .ok (.ok d)) :
    ∃ k ls, IsKey k ∧ d.mainKey.getInt = .ok k ∧
      d.globalKeys.map Key.getInt = List.replicate os.length (.ok k) ∧
      d.localKeys.map Key.getInt = ls.map Res.ok ∧ ls.length = os.length ∧ (∀ l ∈ ls, IsKey l) ∧
      ∀ k', IsKey k' →
        F.lt (score F ((stage2 F cfg ls).tables F) ls (List.replicate ls.length k))
          (score F ((stage2 F cfg ls).tables F) ls (List.replicate ls.length k')) = false := by
  rcases detect_spec W iter₁ iter₂ hi₁ hi₂ cfg h os ho hne with
    ⟨ht, _⟩ | ⟨r1, h1, r2, h2, k, _, R1, hr2, R2, hh, hk, hd'⟩
  · rw [hd] at ht; cases ht
  · have hl1 : r1.length = os.length := R1.isPath.1
    have hm1 : ∀ k ∈ r1, IsKey k := fun k h => mem_keys.1 (R1.isPath.2 k h)
    have hr1 : r1 ≠ [] := by
      rintro rfl; exact hne (List.length_eq_zero_iff.1 hl1.symm)
    rw [hd] at hd'
    injection hd' with hd'; injection hd' with hd'
    subst hd'
    obtain ⟨k0, hk0, hks, hbest, _⟩ := (C25_constant W hz iter₂ hi₂ cfg r1 hr1).2 h2 hr2
    have hk2 : h2.getKeySequence = r2.map Key.ofInt := by
      have := R2.keySeq
      unfold getKeySequence
      simpa [Problem.fresh, build] using this
    have hkk : k = k0 := by
      cases hr : r2 with
      | nil => rw [hr] at hh; simp at hh
      | cons a rest =>
        rw [hr] at hh
        simp only [List.head?_cons, Option.some.injEq] at hh
        subst hh
        rw [hk2, hr, hl1] at hks
        have hpos : 0 < os.length := List.length_pos_iff.2 hne
        obtain ⟨m, hm⟩ : ∃ m, os.length = m + 1 := ⟨os.length - 1, by omega⟩
        rw [hm, List.replicate_succ] at hks
        simp only [List.map_cons, List.cons.injEq] at hks
        have := hks.1
        rw [Key.getInt_ofInt (mem_keys.1 hk)] at this
        injection this
    subst hkk
    refine ⟨k, r1, hk0, Key.getInt_ofInt hk0, ?_, ?_, hl1, hm1, hbest⟩
    · rw [← hl1, ← hks, hk2]
    · simp only [List.map_map]
      apply List.map_congr_left
      intro k hk
      exact Key.getInt_ofInt (hm1 k hk)

end

/-! ### Exact arithmetic -/

open RD in
/-- The transition probabilities the configuration selects, as real numbers: `e x y` is the entry of
the transition map for going from key `x` to key `y`, and it is non-negative. -/
structure RealTransitions (cfg : Config RD) (e : Int → Int → ℝ) : Prop where
  entry : ∃ m, ((KeyTransition.mk2 RD.exact cfg.keyTransition cfg.customKeyTransition).getMap RD.exact).1 =
    .ok m ∧ ∀ x y, IsKey x → IsKey y → KeyTransition.entry m x y = some (.fin (e x y))
  nonneg : ∀ x y, IsKey x → IsKey y → 0 ≤ e x y

/-- The second model as real numbers. -/
noncomputable def real2 (e : Int → Int → ℝ) : Tables ℝ where
  init k := if k ∈ keys then 1 / 24 else 0
  trans j k := if j ∈ keys ∧ k ∈ keys then (if j = k then 1 else 0) else 0
  emis k o := if k ∈ keys ∧ o ∈ keys then e k o else 0

theorem exact_ofRat (q : Rat) : RD.exact.ofRat q = .fin (q : ℝ) := rfl

theorem exact_zero : RD.exact.zero = .fin 0 := by
  change RD.fin ((0 : Rat) : ℝ) = .fin 0
  rw [Rat.cast_zero]

theorem real2_nonneg {cfg : Config RD} {e : Int → Int → ℝ} (h : RealTransitions cfg e) : NonNeg (real2 e) where
  init := by intro k; unfold real2; dsimp only; split <;> norm_num
  trans := by intro j k; unfold real2; dsimp only; split <;> [split; skip] <;> norm_num
  emis := by
    intro k o; unfold real2; dsimp only
    split
    · rename_i hh; exact h.nonneg _ _ (mem_keys.1 hh.1) (mem_keys.1 hh.2)
    · exact le_refl 0

theorem rd_tab_not (F : FPU D) (ks : List Int) (f : Int → D) {k : Int} (h : k ∉ ks) :
    rd F (tab ks f) k = F.zero := by
  unfold rd; rw [get?_tab, if_neg h]; rfl

theorem rd2_tab_not (F : FPU D) (ks ls : List Int) (f : Int → Int → D) {a b : Int} (h : ¬ (a ∈ ks ∧ b ∈ ls)) :
    rd2 F (tab ks (fun x => tab ls (f x))) a b = F.zero := by
  unfold rd2
  rw [get?_tab]
  by_cases ha : a ∈ ks
  · rw [if_pos ha]
    exact rd_tab_not F ls (f a) (fun hb => h ⟨ha, hb⟩)
  · rw [if_neg ha]; rfl

theorem real2_tables {cfg : Config RD} (hc : Config.WF cfg) {e : Int → Int → ℝ} (h : RealTransitions cfg e)
    (ls : List Int) : (stage2 RD.exact cfg ls).tables RD.exact = finTables (real2 e) := by
  obtain ⟨m, hm, hent⟩ := h.entry
  rw [transitions_eq RD.exact cfg hc] at hm
  injection hm with hm
  subst hm
  have hi : ((stage2 RD.exact cfg ls).tables RD.exact).init = (finTables (real2 e)).init := by
    funext k
    by_cases hk : k ∈ keys
    · refine (rd_tab RD.exact keys (fun _ => RD.exact.ofRat (1 / 24)) hk).trans ?_
      simp only [finTables, real2, if_pos hk, exact_ofRat]
      norm_num
    · refine (rd_tab_not RD.exact keys (fun _ => RD.exact.ofRat (1 / 24)) hk).trans ?_
      simp only [finTables, real2, if_neg hk, exact_zero]
  have ht : ((stage2 RD.exact cfg ls).tables RD.exact).trans = (finTables (real2 e)).trans := by
    funext j k
    by_cases hk : j ∈ keys ∧ k ∈ keys
    · rw [stage2_trans RD.exact cfg ls (mem_keys.1 hk.1) (mem_keys.1 hk.2)]
      simp only [finTables, real2, if_pos hk, exact_ofRat, exact_zero]
      split <;> simp
    · refine (rd2_tab_not RD.exact keys keys _ hk).trans ?_
      simp only [finTables, real2, if_neg hk, exact_zero]
  have he : ((stage2 RD.exact cfg ls).tables RD.exact).emis = (finTables (real2 e)).emis := by
    funext k o
    by_cases hk : k ∈ keys ∧ o ∈ keys
    · refine (rd2_tab RD.exact keys keys _ hk.1 hk.2).trans ?_
      have := hent k o (mem_keys.1 hk.1) (mem_keys.1 hk.2)
      rw [transMap, KeyTransition.entry_tab _ (mem_keys.1 hk.1) (mem_keys.1 hk.2)] at this
      simp only [finTables, real2, if_pos hk]
      injection this
    · refine (rd2_tab_not RD.exact keys keys _ hk).trans ?_
      simp only [finTables, real2, if_neg hk, exact_zero]
  cases hA : (stage2 RD.exact cfg ls).tables RD.exact with
  | mk i t m =>
    rw [hA] at hi ht he
    dsimp only at hi ht he
    rw [hi, ht, he]

theorem extendProb_const (e : Int → Int → ℝ) (k : Int) (hk : IsKey k) (acc : ℝ) (os : List Int)
    (ho : ∀ o ∈ os, IsKey o) :
    extendProb (real2 e) acc k os (List.replicate os.length k) = acc * (os.map (e k)).prod := by
  induction os generalizing acc with
  | nil => simp [extendProb]
  | cons o os ih =>
    have h1 : (real2 e).trans k k = 1 := by simp [real2, mem_keys.2 hk]
    have h2 : (real2 e).emis k o = e k o := by
      simp [real2, mem_keys.2 hk, mem_keys.2 (ho o (by simp))]
    rw [List.length_cons, List.replicate_succ]
    simp only [extendProb]
    rw [h1, h2, ih _ (fun o h => ho o (by simp [h])), List.map_cons, List.prod_cons]
    ring

theorem prob_const (e : Int → Int → ℝ) (k : Int) (hk : IsKey k) (os : List Int) (hne : os ≠ [])
    (ho : ∀ o ∈ os, IsKey o) :
    prob (real2 e) os (List.replicate os.length k) = 1 / 24 * (os.map (e k)).prod := by
  cases os with
  | nil => exact absurd rfl hne
  | cons o os =>
    have h1 : (real2 e).init k = 1 / 24 := by simp [real2, mem_keys.2 hk]
    have h2 : (real2 e).emis k o = e k o := by
      simp [real2, mem_keys.2 hk, mem_keys.2 (ho o (by simp))]
    rw [List.length_cons, List.replicate_succ]
    simp only [prob]
    rw [h1, h2, extendProb_const e k hk _ os (fun o h => ho o (by simp [h])), List.map_cons, List.prod_cons]
    ring

theorem exact_zeroKills : ZeroKills RD.exact := RD.zeroKills RD.exactRounding rfl _

/-- `P(local keys | global key k)` up to the common factor: the product over the local keys `l` of the
transition probability `k → l`. -/
noncomputable def evidence (e : Int → Int → ℝ) (ls : List Int) (k : Int) : ℝ := (ls.map (e k)).prod

/-- **C25 in exact arithmetic.** The second model throws iff every key has evidence zero.  Otherwise the
score it reports for key `k` is `log10(evidence(k) / 24)`, minus infinity if the evidence is zero, and
the global key is a key of greatest evidence. -/
theorem C25_exact (iter : Iter RD) (hi : iter.Ok) (cfg : Config RD) (hc : Config.WF cfg)
    (e : Int → Int → ℝ) (he : RealTransitions cfg e) (ls : List Int) (hl : ∀ k ∈ ls, IsKey k) (hne : ls ≠ []) :
    (runViterbi RD.exact iter (stage2 RD.exact cfg ls).fresh = .throw .outOfRange ↔
      ∀ k, IsKey k → evidence e ls k = 0) ∧
    ∀ h, runViterbi RD.exact iter (stage2 RD.exact cfg ls).fresh = .ok h →
      (∃ k, IsKey k ∧ h.getKeySequence.map Key.getInt = List.replicate ls.length (.ok k) ∧
        ∀ k', IsKey k' → evidence e ls k' ≤ evidence e ls k) ∧
      ∀ k, IsKey k → h.getProbabilityVector[k.toNat]? = some (RD.elog (1 / 24 * evidence e ls k)) := by
  have hT := real2_tables hc he ls
  have hN := real2_nonneg he
  have hev : ∀ k, IsKey k → 0 ≤ evidence e ls k := by
    intro k hk
    apply List.prod_nonneg
    intro x hx
    obtain ⟨l, hlm, rfl⟩ := List.mem_map.1 hx
    exact he.nonneg k l hk (hl l hlm)
  have hsc : ∀ k, IsKey k → score RD.exact ((stage2 RD.exact cfg ls).tables RD.exact) ls
      (List.replicate ls.length k) = RD.elog (1 / 24 * evidence e ls k) := by
    intro k hk
    rw [hT, RD.score_exact hN, prob_const e k hk ls hne hl]
    rfl
  have hpos : ∀ k, IsKey k → (Possible RD.exact ((stage2 RD.exact cfg ls).tables RD.exact) ls
      (List.replicate ls.length k) ↔ 0 < evidence e ls k) := by
    intro k hk
    unfold Possible
    rw [hsc k hk, RD.negInf_lt_elog (by have := hev k hk; positivity)]
    constructor <;> intro h <;> linarith
  obtain ⟨h1, h2⟩ := C25_constant (RD.laws RD.exactRounding (fun r => .fin (Real.logb 10 r))) exact_zeroKills
    iter hi cfg ls hne
  change (runViterbi RD.exact iter (stage2 RD.exact cfg ls).fresh = .throw .outOfRange ↔
    ∀ k, IsKey k → ¬ Possible RD.exact ((stage2 RD.exact cfg ls).tables RD.exact) ls
      (List.replicate ls.length k)) at h1
  refine ⟨h1.trans ?_, ?_⟩
  · constructor
    · intro h k hk
      have := h k hk
      rw [hpos k hk, not_lt] at this
      exact le_antisymm this (hev k hk)
    · intro h k hk hp
      rw [hpos k hk, h k hk] at hp
      exact lt_irrefl _ hp
  · intro h hr
    obtain ⟨k, hk, hks, hbest, hvec⟩ := h2 h hr
    refine ⟨⟨k, hk, hks, ?_⟩, ?_⟩
    · intro k' hk'
      have := hbest k' hk'
      change RD.exact.lt (score RD.exact ((stage2 RD.exact cfg ls).tables RD.exact) ls _)
        (score RD.exact ((stage2 RD.exact cfg ls).tables RD.exact) ls _) = false at this
      rw [hsc k hk, hsc k' hk', RD.not_lt_elog (by have := hev k hk; positivity)
        (by have := hev k' hk'; positivity)] at this
      linarith
    · intro k' hk'
      obtain ⟨v, hv, hv1, hv2⟩ := hvec k' hk'
      rw [hv]
      rcases (hev k' hk').eq_or_lt with h0 | h0
      · have hno : ¬ Possible RD.exact ((stage2 RD.exact cfg ls).tables RD.exact) ls
            (List.replicate ls.length k') := by
          rw [hpos k' hk', ← h0]; exact lt_irrefl _
        have hv3 := hv2 hno
        change RD.exact.lt RD.exact.negInf v = false at hv3
        have hsome : ∃ ks, (stage2 RD.exact cfg ls).IsPath ks ∧ 0 < prob (real2 e) ls ks := by
          have hok := (C21_throws_iff (RD.laws RD.exactRounding (fun r => .fin (Real.logb 10 r))) iter hi _
            (stage2_wf RD.exact cfg ls) hne).2.1.1 ⟨h, hr⟩
          obtain ⟨ks, hk1, hk2⟩ := hok
          change Possible RD.exact ((stage2 RD.exact cfg ls).tables RD.exact) ls ks at hk2
          rw [hT, RD.possible_exact hN] at hk2
          exact ⟨ks, hk1, hk2⟩
        obtain ⟨h', hr', hC⟩ := C20_exact iter hi _ (stage2_wf RD.exact cfg ls) hne (real2 e) hN hT hsome
        rw [hr] at hr'
        injection hr' with hr'
        subst hr'
        obtain ⟨ks, _, hw, _⟩ := hC k' (mem_keys.2 hk')
        rw [hv] at hw
        injection hw with hw
        have hp0 := prob_nonneg hN (stage2 RD.exact cfg ls).obs (ks ++ [k'])
        rw [hw] at hv3
        have hz : prob (real2 e) (stage2 RD.exact cfg ls).obs (ks ++ [k']) = 0 := by
          rcases hp0.eq_or_lt with h | h
          · exact h.symm
          · exact absurd (((RD.negInf_lt_elog hp0).2 h).symm.trans hv3) (by simp)
        rw [hw, hz, ← h0, mul_zero]
      · have := hv1 ((hpos k' hk').2 h0)
        rw [this]
        exact congrArg some (hsc k' hk')

/-- **C26.** In exact arithmetic, reordering the local keys changes neither whether the second model
throws nor any of the 24 scores it reports. -/
theorem C26_order_irrelevant (iter iter' : Iter RD) (hi : iter.Ok) (hi' : iter'.Ok) (cfg : Config RD)
    (hc : Config.WF cfg) (e : Int → Int → ℝ) (he : RealTransitions cfg e) (ls ls' : List Int)
    (hl : ∀ k ∈ ls, IsKey k) (hne : ls ≠ []) (hp : ls.Perm ls') :
    (runViterbi RD.exact iter (stage2 RD.exact cfg ls).fresh = .throw .outOfRange ↔
      runViterbi RD.exact iter' (stage2 RD.exact cfg ls').fresh = .throw .outOfRange) ∧
    ∀ h h', runViterbi RD.exact iter (stage2 RD.exact cfg ls).fresh = .ok h →
      runViterbi RD.exact iter' (stage2 RD.exact cfg ls').fresh = .ok h' →
      h'.getProbabilityVector = h.getProbabilityVector := by
  have hl' : ∀ k ∈ ls', IsKey k := fun k hk => hl k (hp.mem_iff.2 hk)
  have hne' : ls' ≠ [] := by rintro rfl; exact hne hp.eq_nil
  have hev : ∀ k, evidence e ls k = evidence e ls' k := fun k => (hp.map (e k)).prod_eq
  obtain ⟨a1, a2⟩ := C25_exact iter hi cfg hc e he ls hl hne
  obtain ⟨b1, b2⟩ := C25_exact iter' hi' cfg hc e he ls' hl' hne'
  constructor
  · rw [a1, b1]
    simp only [hev]
  · intro h h' hr hr'
    have va := (a2 h hr).2
    have vb := (b2 h' hr').2
    have len : ∀ (it : Iter RD) (l : List Int) (g : HMM RD), it.Ok → l ≠ [] →
        runViterbi RD.exact it (stage2 RD.exact cfg l).fresh = .ok g → g.probVec.length = 24 := by
      intro it l g hit hln hrun
      rcases fresh_spec (RD.laws RD.exactRounding (fun r => .fin (Real.logb 10 r))) it hit _
        (stage2_wf RD.exact cfg l) hln with ⟨_, h0⟩ | ⟨p, g', ho1, R⟩
      · change runViterbi RD.exact it (stage2 RD.exact cfg l).fresh = .throw .outOfRange at h0
        rw [hrun] at h0; cases h0
      · change runViterbi RD.exact it (stage2 RD.exact cfg l).fresh = .ok g' at ho1
        rw [hrun] at ho1; injection ho1 with e1; rw [e1]; exact R.vecLen
    have la := len iter ls h hi hne hr
    have lb := len iter' ls' h' hi' hne' hr'
    apply List.ext_getElem?
    intro i
    by_cases hi24 : i < 24
    · have ha := va (i : Int) ⟨by omega, by omega⟩
      have hb := vb (i : Int) ⟨by omega, by omega⟩
      rw [Int.toNat_natCast] at ha hb
      rw [ha, hb, hev]
    · unfold getProbabilityVector
      rw [List.getElem?_eq_none (by omega), List.getElem?_eq_none (by omega)]

/-- **C26 (count form).** The evidence for a key is the product over the 24 keys of the transition
probability raised to the number of times the key occurs among the local keys. -/
theorem C26_counts (e : Int → Int → ℝ) (ls : List Int) (hl : ∀ k ∈ ls, IsKey k) (k : Int) :
    evidence e ls k = (keys.map (fun l => e k l ^ ls.count l)).prod := by
  unfold evidence
  induction ls with
  | nil => simp
  | cons a ls ih =>
    have hsplit : ∀ ks : List Int, ks.Nodup → (ks.map (fun l => e k l ^ (a :: ls).count l)).prod =
        (if a ∈ ks then e k a else 1) * (ks.map (fun l => e k l ^ ls.count l)).prod := by
      intro ks hnd
      induction ks with
      | nil => simp
      | cons b ks ih2 =>
        obtain ⟨hb, hnd'⟩ := List.nodup_cons.1 hnd
        rw [List.map_cons, List.prod_cons, ih2 hnd', List.map_cons, List.prod_cons]
        by_cases hab : a = b
        · subst hab
          rw [if_neg hb, if_pos (by simp), List.count_cons_self, pow_succ]
          ring
        · rw [List.count_cons_of_ne hab]
          by_cases ha : a ∈ ks
          · rw [if_pos ha, if_pos (by simp [ha])]; ring
          · rw [if_neg ha, if_neg (by simp [ha, hab])]; ring
    rw [List.map_cons, List.prod_cons, ih (fun k h => hl k (by simp [h])), hsplit keys (by decide),
      if_pos (mem_keys.2 (hl a (by simp)))]

/-- **C26 (the key).** In exact arithmetic, if one key has strictly greatest evidence, every reordering
of the local keys yields this global key. -/
theorem C26_same_key (iter : Iter RD) (hi : iter.Ok) (cfg : Config RD)
    (hc : Config.WF cfg) (e : Int → Int → ℝ) (he : RealTransitions cfg e) (ls ls' : List Int)
    (hl : ∀ k ∈ ls, IsKey k) (hne : ls ≠ []) (hp : ls.Perm ls') (k : Int) (hk : IsKey k)
    (hbest : ∀ k', IsKey k' → k' ≠ k → evidence e ls k' < evidence e ls k) :
    ∃ h, runViterbi RD.exact iter (stage2 RD.exact cfg ls').fresh = .ok h ∧
      h.getKeySequence.map Key.getInt = List.replicate ls.length (.ok k) := by
  have hl' : ∀ k ∈ ls', IsKey k := fun k hk => hl k (hp.mem_iff.2 hk)
  have hne' : ls' ≠ [] := by rintro rfl; exact hne hp.eq_nil
  have hev : ∀ k, evidence e ls k = evidence e ls' k := fun k => (hp.map (e k)).prod_eq
  obtain ⟨b1, b2⟩ := C25_exact iter hi cfg hc e he ls' hl' hne'
  rcases fresh_spec (RD.laws RD.exactRounding (fun r => .fin (Real.logb 10 r))) iter hi _
    (stage2_wf RD.exact cfg ls') hne' with ⟨_, h0⟩ | ⟨p, g', ho1, _⟩
  · exfalso
    have hz := b1.1 h0
    -- some other key would have smaller, hence negative, evidence
    obtain ⟨k', hk', hkk⟩ : ∃ k', IsKey k' ∧ k' ≠ k := by
      by_cases h : k = 0
      · exact ⟨1, by decide, by omega⟩
      · exact ⟨0, by decide, by omega⟩
    have := hbest k' hk' hkk
    rw [hev, hev, hz k hk, hz k' hk'] at this
    exact lt_irrefl _ this
  · change runViterbi RD.exact iter (stage2 RD.exact cfg ls').fresh = .ok g' at ho1
    obtain ⟨⟨k0, hk0, hks, hmax⟩, _⟩ := b2 g' ho1
    refine ⟨g', ho1, ?_⟩
    have : k0 = k := by
      by_contra hne
      have h1 := hbest k0 hk0 hne
      have h2 := hmax k hk
      rw [hev, hev] at h1
      linarith
    subst this
    rw [hks, hp.length_eq]

/-! ### The hypotheses are met -/

/-- Non-negative finite tables satisfy `RealTransitions`. -/
theorem realTransitions_of_array (cfg : Config RD) (hc : Config.WF cfg) (l : List ℝ)
    (hl : transArray RD.exact cfg = l.map RD.fin) (hn : ∀ x ∈ l, 0 ≤ x) :
    RealTransitions cfg (fun x y => l.getD (slot x y) 0) where
  entry := by
    refine ⟨_, transitions_eq RD.exact cfg hc, ?_⟩
    intro x y hx hy
    rw [transMap, KeyTransition.entry_tab _ hx hy, hl]
    have hlen : l.length = 24 := by
      have := transArray_len RD.exact cfg hc
      rw [hl, List.length_map] at this; exact this
    have hlt : slot x y < l.length := by rw [hlen]; exact KeyTransition.slot_lt
    simp [List.getD_eq_getElem?_getD, List.getElem?_eq_getElem hlt]
  nonneg := by
    intro x y _ _
    rw [List.getD_eq_getElem?_getD]
    cases h : l[slot x y]? with
    | none => simp
    | some v => exact hn v (List.mem_of_getElem? h)

/-- Every built-in transition table satisfies `RealTransitions`. -/
theorem realTransitions_builtin (cfg : Config RD) (hc : Config.WF cfg) (p : String × List Rat)
    (hp : p ∈ KeyTransition.builtins) (hk : cfg.keyTransition = p.1) :
    RealTransitions cfg (fun x y => (p.2.map (fun q : Rat => (q : ℝ))).getD (slot x y) 0) := by
  apply realTransitions_of_array cfg hc
  · have h1 : ∀ p ∈ KeyTransition.builtins, p.1 ≠ "custom" ∧
        KeyTransition.builtins.find? (fun q => q.1 == p.1) = some p := by decide +kernel
    unfold transArray KeyTransition.specTable
    rw [hk, if_neg (h1 p hp).1, (h1 p hp).2]
    simp only [Option.map_some, Option.getD_some, List.map_map]
    rfl
  · have h2 : ∀ p ∈ KeyTransition.builtins, ∀ q ∈ p.2, (0 : Rat) ≤ q := by decide +kernel
    intro x hx
    obtain ⟨q, hq, rfl⟩ := List.mem_map.1 hx
    exact_mod_cast h2 p hp q hq

/-- The default configuration (`-t exponential10`). -/
example (cfg : Config RD) (hc : Config.WF cfg) (hk : cfg.keyTransition = "exponential10") :
    ∃ e, RealTransitions cfg e ∧ e 0 0 ≠ e 0 1 := by
  refine ⟨_, realTransitions_builtin cfg hc ("exponential10", KeyTransition.exponential10) (by
    simp [KeyTransition.builtins]) hk, ?_⟩
  have h : KeyTransition.exponential10[0]? ≠ KeyTransition.exponential10[1]? := by decide +kernel
  obtain ⟨a, ha⟩ : ∃ a, KeyTransition.exponential10[0]? = some a := ⟨_, rfl⟩
  obtain ⟨b, hb⟩ : ∃ b, KeyTransition.exponential10[1]? = some b := ⟨_, rfl⟩
  rw [ha, hb] at h
  have s0 : slot 0 0 = 0 := by decide
  have s1 : slot 0 1 = 1 := by decide
  simp only [s0, s1, List.getD_eq_getElem?_getD, List.getElem?_map, ha, hb, Option.map_some, Option.getD_some]
  intro hab
  exact h (congrArg some (Rat.cast_injective hab))

/-- **C25 for IEEE-754 doubles**, whatever the C library's `log10` returns. -/
theorem C25_binary64 (lg : ℝ → RD) (iter₁ iter₂ : Iter RD) (hi₁ : iter₁.Ok) (hi₂ : iter₂.Ok)
    (cfg : Config RD) (h : Config.WF cfg) (os : List Int) (ho : ∀ o ∈ os, 0 ≤ o ∧ o < 12) (hne : os ≠ [])
    (d : Detection RD) (hd : detect (RD.ieee lg) iter₁ iter₂ cfg (os.map PitchClass.ofInt) = .ok (.ok d)) :
    ∃ k, IsKey k ∧ d.mainKey.getInt = .ok k ∧
      d.globalKeys.map Key.getInt = List.replicate os.length (.ok k) := by
  have h0 : RD.binary64.rnd 0 = .fin 0 := by
    change RD.rnd64 0 = .fin 0
    unfold RD.rnd64 RD.rndMag
    rw [if_pos (le_refl 0), RD.rndPos_zero, if_pos (by positivity)]
  obtain ⟨k, _, h1, h2, h3, _⟩ := C25_detection (RD.laws RD.binary64 lg) (RD.zeroKills RD.binary64 h0 lg)
    iter₁ iter₂ hi₁ hi₂ cfg h os ho hne d hd
  exact ⟨k, h1, h2, h3⟩

end JKD.Detect
