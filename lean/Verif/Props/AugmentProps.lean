import Verif.Props.TransposeProps
import Verif.Props.GlobalKeyProps
import Verif.Props.ScalingProps
import Verif.Props.ScalingPyProps
/-
C104: the training rows made by transposing features are the features of the transposed piece.
-/

namespace JKD.Py

variable {D : Type}

theorem moved_nil (t : Nat) : Moved t ([] : List D) [] := ⟨rfl, by simp⟩

/-- Moving block by block. -/
theorem moved_append {t n : Nat} {a a' b b' : List D} (ha : a.length = 12 * n) (h : Moved t a a') (h' : Moved t b b') :
    Moved t (a ++ b) (a' ++ b') := by
  have hl := h.1
  refine ⟨by simp [h.1, h'.1], ?_⟩
  intro i hi
  rw [List.length_append] at hi
  by_cases hia : i < a.length
  · have hm : moved t i < a'.length := by
      rw [hl]
      unfold moved
      have : (i + t) % 12 < 12 := Nat.mod_lt _ (by decide)
      omega
    rw [List.getElem?_append_left hm, List.getElem?_append_left hia]
    exact h.2 i hia
  · have hm : moved t i = a'.length + moved t (i - a.length) := by
      rw [hl]
      unfold moved
      have h1 : (i + t) % 12 = (i - a.length + t) % 12 := by omega
      omega
    rw [hm, List.getElem?_append_right (by omega), Nat.add_sub_cancel_left, List.getElem?_append_right (by omega)]
    exact h'.2 _ (by omega)

theorem moved_map {K : Type} (f : D → K) {t : Nat} {a a' : List D} (h : Moved t a a') : Moved t (a.map f) (a'.map f) := by
  refine ⟨by simp [h.1], ?_⟩
  intro i hi
  rw [List.getElem?_map, List.getElem?_map, h.2 i (by simpa using hi)]

end JKD.Py

namespace JKD.Detect

open Spec HMM Py

variable {D : Type}

/-! ### Specification -/

/-- `x` is the feature vector of an ensemble with the members `cfgs` for the pitch classes `os`: the 24 scores of the
first member's run, then those of the second, and so on.  `it₁` and `it₂` are the hash-map orders of the runs. -/
def Features (F : FPU D) (it₁ it₂ : Config D → Iter D) (cfgs : List (Config D)) (os : List Int) (x : List D) : Prop :=
  ∃ ds : List (Detection D), x = ds.flatMap Detection.probabilities ∧
    List.Forall₂ (fun cfg d => detect F (it₁ cfg) (it₂ cfg) cfg (os.map PitchClass.ofInt) = .ok (.ok d)) cfgs ds

/-- For this member the first stage has a strictly best sequence of local keys, and with these every key is possible as
global key - as it is when no transition probability is zero. -/
def Decided (F : FPU D) (os : List Int) (cfg : Config D) : Prop :=
  Config.WF cfg ∧ ∃ ls, UniqueBest F (stage1 F cfg os) ls ∧
    ∀ k, IsKey k → Possible F ((stage2 F cfg ls).tables F) ls (List.replicate ls.length k)

/-! ### Proof -/

section
variable {F : FPU D} {Num : D → Prop} (W : FPLaws F Num)
include W

theorem scores_of_unique (hz : ZeroKills F) (iter₁ iter₂ : Iter D) (hi₁ : iter₁.Ok) (hi₂ : iter₂.Ok) (cfg : Config D)
    (h : Config.WF cfg) (os : List Int) (ho : ∀ o ∈ os, 0 ≤ o ∧ o < 12) (hne : os ≠ []) (ls : List Int)
    (hu : UniqueBest F (stage1 F cfg os) ls)
    (hp : ∀ k, IsKey k → Possible F ((stage2 F cfg ls).tables F) ls (List.replicate ls.length k)) :
    ∃ d, detect F iter₁ iter₂ cfg (os.map PitchClass.ofInt) = .ok (.ok d) ∧ d.probabilities.length = 24 ∧
      ∀ k, IsKey k → d.probabilities[k.toNat]? =
        some (score F ((stage2 F cfg ls).tables F) ls (List.replicate ls.length k)) := by
  have hlne : ls ≠ [] := by
    have hl : ls.length = os.length := hu.1.1
    rintro rfl
    exact hne (List.length_eq_zero_iff.1 hl.symm)
  have hconst : (stage2 F cfg ls).IsPath (List.replicate ls.length 0) := by
    refine ⟨List.length_replicate, ?_⟩
    intro x hx
    rw [List.eq_of_mem_replicate hx]
    exact mem_keys.2 (by decide)
  rcases detect_spec W iter₁ iter₂ hi₁ hi₂ cfg h os ho hne with
    ⟨_, hno | ⟨r1, h1, _, R1, hno⟩⟩ | ⟨r1, h1, r2, h2, k, _, R1, hr2, R2, hh, hk, hd⟩
  · exact absurd hu.2.1 (hno ls hu.1)
  · obtain rfl := unique_run _ (stage1_wf F cfg os) ls hu r1 h1 R1
    exact absurd (hp 0 (by decide)) (hno _ hconst)
  · obtain rfl := unique_run _ (stage1_wf F cfg os) ls hu r1 h1 R1
    refine ⟨_, hd, R2.vecLen, ?_⟩
    obtain ⟨k0, -, -, -, hv⟩ := (C25_constant W hz iter₂ hi₂ cfg r1 hlne).2 h2 hr2
    intro k' hk'
    obtain ⟨v, e1, e2, -⟩ := hv k' hk'
    refine Eq.trans e1 ?_
    rw [e2 (hp k' hk')]

omit W in
theorem decided_transposed (t : Int) {os : List Int} (ho : ∀ o ∈ os, 0 ≤ o ∧ o < 12) {cfg : Config D} {ls : List Int}
    (hu : UniqueBest F (stage1 F cfg os) ls) :
    UniqueBest F (stage1 F cfg (os.map (transposePc t))) (ls.map (transposeKey t)) ∧
    ∀ k, IsKey k → score F ((stage2 F cfg (ls.map (transposeKey t))).tables F) (ls.map (transposeKey t))
        (List.replicate ls.length (transposeKey t k)) =
      score F ((stage2 F cfg ls).tables F) ls (List.replicate ls.length k) := by
  refine ⟨(iso1 F cfg t os ho).uniqueBest hu, ?_⟩
  intro k hk
  have := (iso2 F cfg t ls hu.1.2).score (List.replicate ls.length k) (by
    refine ⟨List.length_replicate, ?_⟩
    intro x hx
    rw [List.eq_of_mem_replicate hx]
    exact mem_keys.2 hk)
  rw [List.map_replicate] at this
  exact this

/-- One member: the 24 scores of the transposed piece are the 24 scores of the piece, moved - bit for bit. -/
theorem member_moved (hz : ZeroKills F) (i₁ i₂ i₁' i₂' : Iter D) (h₁ : i₁.Ok) (h₂ : i₂.Ok) (h₁' : i₁'.Ok) (h₂' : i₂'.Ok)
    (cfg : Config D) (t : Nat) (os : List Int) (ho : ∀ o ∈ os, 0 ≤ o ∧ o < 12) (hne : os ≠ [])
    (hdec : Decided F os cfg) :
    ∃ d d', detect F i₁ i₂ cfg (os.map PitchClass.ofInt) = .ok (.ok d) ∧
      detect F i₁' i₂' cfg ((os.map (transposePc t)).map PitchClass.ofInt) = .ok (.ok d') ∧
      d.probabilities.length = 24 ∧ Moved t d.probabilities d'.probabilities := by
  obtain ⟨hc, ls, hu, hp⟩ := hdec
  obtain ⟨hu', hs⟩ := decided_transposed (F := F) (t : Int) ho hu
  have ho' : ∀ o ∈ os.map (transposePc (t : Int)), 0 ≤ o ∧ o < 12 := by
    intro o hom
    obtain ⟨x, _, rfl⟩ := List.mem_map.1 hom
    exact mem_pcs.1 (transposePc_mem _)
  obtain ⟨d, e, l, g⟩ := scores_of_unique W hz i₁ i₂ h₁ h₂ cfg hc os ho hne ls hu hp
  obtain ⟨d', e', l', g'⟩ := scores_of_unique W hz i₁' i₂' h₁' h₂' cfg hc (os.map (transposePc t)) ho' (by simpa using hne)
    (ls.map (transposeKey t)) hu' (by
      intro k hk
      obtain ⟨r, hr, rfl⟩ := transposeKey_surj (t : Int) k (mem_keys.2 hk)
      have hr' := mem_keys.1 hr
      unfold Possible
      rw [List.length_map, hs r hr']
      exact hp r hr')
  refine ⟨d, d', e, e', l, by rw [l, l'], ?_⟩
  intro i hi
  rw [l] at hi
  have hk : IsKey (i : Int) := by unfold IsKey; omega
  have hm : (transposeKey (t : Int) (i : Int)).toNat = moved t i := by
    rw [← label_eq (i : Int) hk t]
    unfold moved
    omega
  have a := g (i : Int) hk
  have b := g' (transposeKey (t : Int) (i : Int)) (Key.transposeKey_isKey _ _)
  rw [List.length_map, hs (i : Int) hk, hm] at b
  rw [b, ← a]
  rfl

/-- **C104, features.**  An ensemble of any members, any piece for which each member has a strictly best sequence of
local keys and every global key is possible, any key label, any transposition `t`: the features of the transposed
piece are row `t` of what `dataset.transpose` makes of the features of the piece, bit for bit and whatever the
hash-map orders of all the runs, and label `t` is the transposed label. -/
theorem C104_features (hz : ZeroKills F) (it₁ it₂ it₁' it₂' : Config D → Iter D)
    (hit : ∀ cfg, (it₁ cfg).Ok ∧ (it₂ cfg).Ok ∧ (it₁' cfg).Ok ∧ (it₂' cfg).Ok) (cfgs : List (Config D)) (t : Nat) (ht : t < 12)
    (os : List Int) (ho : ∀ o ∈ os, 0 ≤ o ∧ o < 12) (hne : os ≠ []) (hdec : ∀ cfg ∈ cfgs, Decided F os cfg)
    (y : Int) (hy : IsKey y) :
    ∃ x x' feats labels, Features F it₁ it₂ cfgs os x ∧ Features F it₁' it₂' cfgs (os.map (transposePc t)) x' ∧
      x.length = 24 * cfgs.length ∧ Moved t x x' ∧
      transpose x y = .ok (feats, labels) ∧ feats[t]? = some x' ∧ labels[t]? = some (transposeKey t y) := by
  have key : ∃ x x', Features F it₁ it₂ cfgs os x ∧ Features F it₁' it₂' cfgs (os.map (transposePc t)) x' ∧
      x.length = 24 * cfgs.length ∧ Moved t x x' := by
    induction cfgs with
    | nil => exact ⟨[], [], ⟨[], rfl, .nil⟩, ⟨[], rfl, .nil⟩, rfl, moved_nil t⟩
    | cons cfg cfgs ih =>
      obtain ⟨x, x', ⟨ds, hx, hf⟩, ⟨ds', hx', hf'⟩, hl, hm⟩ := ih (fun c hc => hdec c (by simp [hc]))
      obtain ⟨h1, h2, h3, h4⟩ := hit cfg
      obtain ⟨d, d', e, e', l, m⟩ := member_moved W hz (it₁ cfg) (it₂ cfg) (it₁' cfg) (it₂' cfg) h1 h2 h3 h4 cfg t os ho hne
        (hdec cfg (by simp))
      refine ⟨d.probabilities ++ x, d'.probabilities ++ x', ⟨d :: ds, by rw [hx, List.flatMap_cons], .cons e hf⟩,
        ⟨d' :: ds', by rw [hx', List.flatMap_cons], .cons e' hf'⟩, ?_, moved_append (n := 2) (by omega) m hm⟩
      rw [List.length_append, l, hl, List.length_cons]
      omega
  obtain ⟨x, x', f1, f2, hl, hm⟩ := key
  obtain ⟨feats, labels, e, -, -, hrow⟩ := C43_transpose x (2 * cfgs.length) (by omega) y hy
  obtain ⟨r1, x'', r2, r3⟩ := hrow t ht
  obtain rfl := Moved.unique (n := 2 * cfgs.length) (by omega) hm r3
  exact ⟨x, x', feats, labels, f1, f2, hl, hm, e, r2, r1⟩

/-- **C104, with scaling.**  What the ensemble script hands to the classifier for the transposed piece is exactly row
`t` of what the trainer made from the piece: printing and reading back the scores (`read`, any function), scaling, and
then transposing (trainer) or transposing the music first (script).  The scaler is in exact arithmetic. -/
theorem C104_training_row {K : Type} [Field K] [LinearOrder K] [IsStrictOrderedRing K] (tiny : K → Bool) (read : D → K)
    (hz : ZeroKills F) (it₁ it₂ it₁' it₂' : Config D → Iter D)
    (hit : ∀ cfg, (it₁ cfg).Ok ∧ (it₂ cfg).Ok ∧ (it₁' cfg).Ok ∧ (it₂' cfg).Ok) (cfgs : List (Config D)) (hcf : cfgs ≠ [])
    (t : Nat) (ht : t < 12)
    (os : List Int) (ho : ∀ o ∈ os, 0 ≤ o ∧ o < 12) (hne : os ≠ []) (hdec : ∀ cfg ∈ cfgs, Decided F os cfg)
    (y : Int) (hy : IsKey y) :
    ∃ x x' xs xs' feats labels, Features F it₁ it₂ cfgs os x ∧ Features F it₁' it₂' cfgs (os.map (transposePc t)) x' ∧
      featureScaling tiny [x.map read] = .ok [xs] ∧ featureScaling tiny [x'.map read] = .ok [xs'] ∧
      transpose xs y = .ok (feats, labels) ∧ feats[t]? = some xs' ∧ labels[t]? = some (transposeKey t y) := by
  obtain ⟨x, x', -, -, f1, f2, hl, hm, -⟩ := C104_features W hz it₁ it₂ it₁' it₂' hit cfgs t ht os ho hne hdec y hy
  have hn : 0 < cfgs.length := List.length_pos_iff.2 hcf
  obtain ⟨xs, xs', e1, e2, m⟩ := C59_commutes tiny cfgs.length hn t (x.map read) (x'.map read) (by simpa using hl)
    (moved_map read hm)
  have hxs : xs.length = 24 * cfgs.length := by
    obtain ⟨X, g1, -, g2, -⟩ := scaling_blocks tiny [x.map read] (by simp) cfgs.length hn (by simpa using hl)
    rw [e1] at g1
    cases g1
    exact g2 xs (by simp)
  obtain ⟨feats, labels, e, -, -, hrow⟩ := C43_transpose xs (2 * cfgs.length) (by omega) y hy
  obtain ⟨r1, x'', r2, r3⟩ := hrow t ht
  obtain rfl := Moved.unique (n := 2 * cfgs.length) (by omega) m r3
  exact ⟨x, x', xs, xs', feats, labels, f1, f2, e1, e2, e, r2, r1⟩

end

/-! ### Example -/

/-- With positive transition probabilities every global key is possible. -/
theorem possible_of_positive {cfg : Config RD} (hc : Config.WF cfg) {e : Int → Int → ℝ} (he : RealTransitions cfg e)
    (hpos : ∀ x y, IsKey x → IsKey y → 0 < e x y) {ls : List Int} (hl : ∀ k ∈ ls, IsKey k) (hne : ls ≠ []) (k : Int)
    (hk : IsKey k) :
    Possible RD.exact ((stage2 RD.exact cfg ls).tables RD.exact) ls (List.replicate ls.length k) := by
  have h0 : 0 < (ls.map (e k)).prod := by
    apply List.prod_pos
    intro x hx
    obtain ⟨l, hlm, rfl⟩ := List.mem_map.1 hx
    exact hpos k l hk (hl l hlm)
  unfold Possible
  rw [real2_tables hc he, RD.score_exact (real2_nonneg he), prob_const e k hk ls hne hl, RD.negInf_lt_elog (by positivity)]
  positivity

/-- The default transitions with profiles in which only the tonic of a major key is ever played. -/
noncomputable def tonicOnly : Config RD :=
  ⟨"exponential10", "custom", "custom", List.replicate 24 (.fin 0), .fin 1 :: List.replicate 11 (.fin 0),
    List.replicate 12 (.fin 0)⟩

/-- The piece that consists of one C is decided for this member. -/
theorem tonicOnly_decided : Decided RD.exact [0] tonicOnly := by
  have hc : Config.WF tonicOnly := ⟨by simp [tonicOnly], by simp [tonicOnly], by simp [tonicOnly]⟩
  have he := realTransitions_builtin tonicOnly hc ("exponential10", KeyTransition.exponential10)
    (by simp [KeyTransition.builtins]) rfl
  refine ⟨hc, [0], ?_, ?_⟩
  · have h0 : (0 : Int) ∈ keys := by decide
    have hemis : ∀ k ∈ keys, ((stage1 RD.exact tonicOnly [0]).tables RD.exact).emis k 0 =
        if k = 0 then .fin 1 else RD.exact.zero := fun k hk => onlyTonic_emis [0] hk
    have hinit : ∀ k ∈ keys, ((stage1 RD.exact tonicOnly [0]).tables RD.exact).init k = RD.exact.ofRat (1 / 24) :=
      fun k hk => rd_tab RD.exact keys (fun _ => RD.exact.ofRat (1 / 24)) hk
    have hobs : (stage1 RD.exact tonicOnly [0]).obs = [0] := rfl
    have hst : (stage1 RD.exact tonicOnly [0]).states = keys := rfl
    generalize hP : stage1 RD.exact tonicOnly [0] = P at hemis hinit hobs hst
    have hsc : score RD.exact (P.tables RD.exact) P.obs [0] = .fin (Real.logb 10 (1 / 24)) := by
      rw [hobs]
      simp only [score, extend]
      rw [hinit 0 h0, hemis 0 h0, if_pos rfl, exact_ofRat, fin_mul]
      have e1 : (((1 / 24 : Rat) : ℝ)) * 1 = 1 / 24 := by norm_num
      rw [e1]
      exact RD.elog_pos (by norm_num)
    refine ⟨⟨by rw [hobs], by rw [hst]; intro k hk; simp at hk; subst hk; exact h0⟩, ?_, ?_⟩
    · unfold Possible
      rw [hsc]
      rfl
    · intro ks hks hne
      have hl : ks.length = 1 := by rw [hks.1, hobs]; rfl
      obtain ⟨a, rfl⟩ := List.length_eq_one_iff.1 hl
      have ha : a ∈ keys := by rw [← hst]; exact hks.2 a (by simp)
      have ha0 : a ≠ 0 := by rintro rfl; exact hne rfl
      have hni : score RD.exact (P.tables RD.exact) P.obs [a] = .ninf := by
        rw [hobs]
        simp only [score, extend]
        rw [hinit a ha, hemis a ha, if_neg ha0, exact_ofRat, exact_zero, fin_mul, mul_zero]
        exact RD.elog_zero
      rw [hni, hsc]
      rfl
  · intro k hk
    refine possible_of_positive hc he ?_ (by simp; decide) (by simp) k hk
    intro x y hx hy
    have h24 : (KeyTransition.exponential10).length = 24 := by decide +kernel
    have hq : ∀ q ∈ KeyTransition.exponential10, (0 : Rat) < q := by decide +kernel
    have hlt : slot x y < KeyTransition.exponential10.length := by rw [h24]; exact KeyTransition.slot_lt
    simp only [List.getD_eq_getElem?_getD, List.getElem?_map, List.getElem?_eq_getElem hlt, Option.map_some,
      Option.getD_some]
    exact_mod_cast hq _ (List.getElem_mem hlt)

/-- The hypotheses are met: an ensemble of two members, moved up a fifth. -/
example (y : Int) (hy : IsKey y) : ∃ x x' feats labels, Features RD.exact (fun _ => id) (fun _ => id) [tonicOnly, tonicOnly] [0] x ∧
    Features RD.exact (fun _ => id) (fun _ => id) [tonicOnly, tonicOnly] [7] x' ∧ x.length = 48 ∧
    transpose x y = .ok (feats, labels) ∧ feats[7]? = some x' ∧ labels[7]? = some (transposeKey 7 y) := by
  obtain ⟨x, x', fe, la, h1, h2, h3, -, h4, h5, h6⟩ := C104_features
    (RD.laws RD.exactRounding (fun r => .fin (Real.logb 10 r))) exact_zeroKills (fun _ => id) (fun _ => id) (fun _ => id)
    (fun _ => id) (fun _ => ⟨fun L => List.Perm.refl L, fun L => List.Perm.refl L, fun L => List.Perm.refl L,
      fun L => List.Perm.refl L⟩) [tonicOnly, tonicOnly] 7 (by decide) [0] (by simp) (by simp)
    (by intro c hc; simp at hc; subst hc; exact tonicOnly_decided) y hy
  exact ⟨x, x', fe, la, h1, h2, h3, h4, h5, h6⟩

end JKD.Detect
