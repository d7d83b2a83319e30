import Verif.Lemmas.Detect
import Verif.Lemmas.Iso
/-
C24: key detection commutes with transposition.
-/

namespace JKD.Detect

open Spec HMM

variable {D : Type}

theorem slot_transpose (t x y : Int) (hx : IsKey x) (hy : IsKey y) :
    slot (transposeKey t x) (transposeKey t y) = slot x y := by
  unfold IsKey at hx hy
  unfold slot transposeKey Spec.isMajor tonic
  by_cases h1 : x < 12 <;> by_cases h2 : y < 12 <;>
    simp only [h1, h2, decide_true, decide_false, if_true, Bool.false_eq_true, if_false] <;>
    split <;> split <;> omega

theorem emis_transpose (a b : List D) (d : D) (t x pc : Int) :
    KeyProfile.emis a b d (transposeKey t x) (transposePc t pc) = KeyProfile.emis a b d x pc := by
  have e1 : Spec.isMajor (transposeKey t x) = Spec.isMajor x := by
    unfold transposeKey Spec.isMajor tonic
    by_cases hx12 : x < 12 <;> simp [hx12] <;> omega
  have e2 : KeyProfile.degree (transposeKey t x) (transposePc t pc) = KeyProfile.degree x pc := by
    unfold KeyProfile.degree transposePc transposeKey Spec.isMajor tonic
    by_cases hx12 : x < 12 <;>
      simp only [hx12, decide_true, decide_false, if_true, Bool.false_eq_true, if_false] <;> omega
  unfold KeyProfile.emis
  rw [e1, e2]

theorem transposeKey_mem (t : Int) {n : Int} : transposeKey t n ∈ keys :=
  mem_keys.2 (Key.transposeKey_isKey t n)

theorem transposePc_mem (t : Int) {n : Int} : transposePc t n ∈ pcs := by
  rw [mem_pcs]; unfold transposePc; omega

theorem transposeKey_inj (t : Int) (s : Int) (hs : s ∈ keys) (r : Int) (hr : r ∈ keys)
    (h : transposeKey t s = transposeKey t r) : s = r := by
  rw [mem_keys] at hs hr
  unfold IsKey at hs hr
  unfold transposeKey Spec.isMajor tonic at h
  by_cases h1 : s < 12 <;> by_cases h2 : r < 12 <;>
    simp only [h1, h2, decide_true, decide_false, if_true, Bool.false_eq_true, if_false] at h <;> omega

theorem transposeKey_surj (t : Int) (s : Int) (hs : s ∈ keys) : ∃ r ∈ keys, transposeKey t r = s := by
  refine ⟨transposeKey (-t) s, transposeKey_mem _, ?_⟩
  rw [mem_keys] at hs
  unfold IsKey at hs
  unfold transposeKey Spec.isMajor tonic
  by_cases h1 : s < 12
  · simp only [h1, decide_true, if_true]
    split <;> rename_i h <;> simp only [decide_eq_true_eq] at h <;> omega
  · simp only [h1, decide_false, Bool.false_eq_true, if_false]
    split <;> rename_i h <;> simp only [decide_eq_true_eq] at h <;> omega

theorem iso1 (F : FPU D) (cfg : Config D) (t : Int) (os : List Int) (ho : ∀ o ∈ os, 0 ≤ o ∧ o < 12) :
    Iso F (stage1 F cfg os) (stage1 F cfg (os.map (transposePc t))) (transposeKey t) where
  obs := List.length_map _
  states := fun _ _ => transposeKey_mem t
  inj := transposeKey_inj t
  surj := transposeKey_surj t
  score := by
    intro ks hks
    refine score_relabel F _ _ (transposeKey t) (transposePc t) keys pcs ?_ ?_ ?_ os ks
      (fun o h => mem_pcs.2 (ho o h)) hks.2
    · intro k hk
      exact (rd_tab F keys (fun _ => F.ofRat (1 / 24)) (transposeKey_mem t)).trans
        (rd_tab F keys (fun _ => F.ofRat (1 / 24)) hk).symm
    · intro j hj k hk
      refine (rd2_tab F keys keys _ (transposeKey_mem t) (transposeKey_mem t)).trans
        (Eq.trans ?_ (rd2_tab F keys keys _ hj hk).symm)
      rw [slot_transpose t j k (mem_keys.1 hj) (mem_keys.1 hk)]
    · intro k hk o hO
      refine (rd2_tab F keys pcs _ (transposeKey_mem t) (transposePc_mem t)).trans
        (Eq.trans ?_ (rd2_tab F keys pcs _ hk hO).symm)
      exact emis_transpose _ _ _ t k o

theorem iso2 (F : FPU D) (cfg : Config D) (t : Int) (os : List Int) (ho : ∀ o ∈ os, o ∈ keys) :
    Iso F (stage2 F cfg os) (stage2 F cfg (os.map (transposeKey t))) (transposeKey t) where
  obs := List.length_map _
  states := fun _ _ => transposeKey_mem t
  inj := transposeKey_inj t
  surj := transposeKey_surj t
  score := by
    have hs : ∀ a : List D, ∀ j ∈ keys, ∀ k ∈ keys,
        rd2 F (transMap F a) (transposeKey t j) (transposeKey t k) = rd2 F (transMap F a) j k := by
      intro a j hj k hk
      refine (rd2_tab F keys keys _ (transposeKey_mem t) (transposeKey_mem t)).trans
        (Eq.trans ?_ (rd2_tab F keys keys _ hj hk).symm)
      rw [slot_transpose t j k (mem_keys.1 hj) (mem_keys.1 hk)]
    intro ks hks
    refine score_relabel F _ _ (transposeKey t) (transposeKey t) keys keys ?_ (hs _) (hs _) os ks ho hks.2
    intro k hk
    exact (rd_tab F keys (fun _ => F.ofRat (1 / 24)) (transposeKey_mem t)).trans
      (rd_tab F keys (fun _ => F.ofRat (1 / 24)) hk).symm

/-! ### Statement vocabulary -/

/-- A best state sequence: possible, and no other has a greater score. -/
def Best (F : FPU D) (P : Problem D) (ks : List Int) : Prop :=
  P.IsPath ks ∧ Possible F (P.tables F) P.obs ks ∧
    ∀ ks', P.IsPath ks' → F.lt (score F (P.tables F) P.obs ks) (score F (P.tables F) P.obs ks') = false

/-- A strictly best state sequence: every other has a smaller score. -/
def UniqueBest (F : FPU D) (P : Problem D) (ks : List Int) : Prop :=
  P.IsPath ks ∧ Possible F (P.tables F) P.obs ks ∧
    ∀ ks', P.IsPath ks' → ks' ≠ ks →
      F.lt (score F (P.tables F) P.obs ks') (score F (P.tables F) P.obs ks) = true

theorem _root_.JKD.HMM.Iso.best {F : FPU D} {P P' : Problem D} {f : Int → Int} (I : Iso F P P' f)
    {ks : List Int} (hks : P.IsPath ks) : Best F P ks ↔ Best F P' (ks.map f) := by
  constructor
  · rintro ⟨h1, h2, h3⟩
    refine ⟨I.path h1, (I.possible h1).2 h2, ?_⟩
    intro ks' hk'
    obtain ⟨ls, hl, rfl⟩ := I.path' hk'
    rw [I.score ks h1, I.score ls hl]
    exact h3 ls hl
  · rintro ⟨h1, h2, h3⟩
    refine ⟨hks, (I.possible hks).1 h2, ?_⟩
    intro ls hl
    have := h3 (ls.map f) (I.path hl)
    rw [I.score ks hks, I.score ls hl] at this
    exact this

theorem _root_.JKD.HMM.Iso.uniqueBest {F : FPU D} {P P' : Problem D} {f : Int → Int} (I : Iso F P P' f)
    {ks : List Int} (h : UniqueBest F P ks) : UniqueBest F P' (ks.map f) := by
  obtain ⟨h1, h2, h3⟩ := h
  refine ⟨I.path h1, (I.possible h1).2 h2, ?_⟩
  intro ks' hk' hne
  obtain ⟨ls, hl, rfl⟩ := I.path' hk'
  rw [I.score ks h1, I.score ls hl]
  exact h3 ls hl (by rintro rfl; exact hne rfl)

/-- The two models of the theorems below are the ones `main` constructs (src/justkeydding.cc:193-223,
231-238): `stage1` from the observed pitch classes, `stage2` from observed keys. -/
theorem C24_models (F : FPU D) (cfg : Config D) (h : Config.WF cfg) (os ks : List Int)
    (ho : ∀ o ∈ os, 0 ≤ o ∧ o < 12) (hk : ∀ k ∈ ks, IsKey k) :
    ∃ i t e z kp, initialProbabilities F = .ok i ∧
      ((KeyTransition.mk2 F cfg.keyTransition cfg.customKeyTransition).getMap F).1 = .ok t ∧
      (KeyProfile.mk4 F cfg.majorKeyProfile cfg.minorKeyProfile cfg.majorCustomKeyProfile
        cfg.minorCustomKeyProfile).getMap F = .ok (e, kp) ∧
      ((KeyTransition.mk1 F "zero").getMap F).1 = .ok z ∧
      ofPitchClasses (os.map PitchClass.ofInt) Key.all i t e = .ok (stage1 F cfg os).fresh ∧
      ofKeys (ks.map Key.ofInt) Key.all i z t = .ok (stage2 F cfg ks).fresh := by
  obtain ⟨kp, he⟩ := emissions_eq F cfg h
  refine ⟨_, _, _, _, kp, initial_eq F, transitions_eq F cfg h, he, zero_eq F, ?_,
    ofKeys_eq F cfg ks (fun k hm => mem_keys.2 (hk k hm))⟩
  rw [KeyProfile.all_eq]
  exact (C18_constructors (stage1 F cfg os) (fun s hs => mem_keys.1 hs)).1 ho

/-- **C24 (set of optima).** For every configuration, including custom tables with arbitrary entries,
every number of semitones `t` and every pitch-class sequence: a key sequence is a best one for the
first model iff its transposition is a best one for the transposed observations, with bit for bit the
same score; and every best one for the transposed observations arises this way. -/
theorem C24_optimal_sets (F : FPU D) (cfg : Config D) (t : Int) (os : List Int)
    (ho : ∀ o ∈ os, 0 ≤ o ∧ o < 12) :
    (∀ ks, (stage1 F cfg os).IsPath ks →
      (Best F (stage1 F cfg os) ks ↔
        Best F (stage1 F cfg (os.map (transposePc t))) (ks.map (transposeKey t))) ∧
      score F ((stage1 F cfg (os.map (transposePc t))).tables F) (os.map (transposePc t))
          (ks.map (transposeKey t)) = score F ((stage1 F cfg os).tables F) os ks) ∧
    (∀ ks', Best F (stage1 F cfg (os.map (transposePc t))) ks' →
      ∃ ks, Best F (stage1 F cfg os) ks ∧ ks' = ks.map (transposeKey t)) := by
  have I := iso1 F cfg t os ho
  refine ⟨fun ks hks => ⟨I.best hks, I.score ks hks⟩, ?_⟩
  intro ks' hb
  obtain ⟨ks, hk, rfl⟩ := I.path' hb.1
  exact ⟨ks, (I.best hk).2 hb, rfl⟩

section
variable {F : FPU D} {Num : D → Prop} (W : FPLaws F Num)
include W

/-- **C24 (first model).** Running the first model on transposed observations throws iff it throws on
the original ones; otherwise the maximum probabilities are equal as values and so are the entries of
the probability vectors of corresponding keys.  The two runs may iterate their hash maps in different
orders. -/
theorem C24_first_model (iter iter' : Iter D) (hi : iter.Ok) (hi' : iter'.Ok) (cfg : Config D) (t : Int)
    (os : List Int) (ho : ∀ o ∈ os, 0 ≤ o ∧ o < 12) (hne : os ≠ []) :
    (runViterbi F iter (stage1 F cfg os).fresh = .throw .outOfRange ↔
      runViterbi F iter' (stage1 F cfg (os.map (transposePc t))).fresh = .throw .outOfRange) ∧
    ∀ h h', runViterbi F iter (stage1 F cfg os).fresh = .ok h →
      runViterbi F iter' (stage1 F cfg (os.map (transposePc t))).fresh = .ok h' →
      (∃ m m', h.getMaximumProbability = .ok m ∧ h'.getMaximumProbability = .ok m' ∧
        F.lt m m' = false ∧ F.lt m' m = false) ∧
      ∀ k, IsKey k → ∃ v v', h.getProbabilityVector[k.toNat]? = some v ∧
        h'.getProbabilityVector[(transposeKey t k).toNat]? = some v' ∧
        F.lt v v' = false ∧ F.lt v' v = false := by
  have I := iso1 F cfg t os ho
  have hne' : os.map (transposePc t) ≠ [] := by simpa using hne
  have hW := stage1_wf F cfg os
  have hW' := stage1_wf F cfg (os.map (transposePc t))
  constructor
  · rw [(C21_throws_iff W iter hi _ hW hne).1, (C21_throws_iff W iter' hi' _ hW' hne').1]
    have := I.possible_iff
    constructor
    · intro h1 ks' hk hp
      obtain ⟨ks, h3, h4⟩ := this.1 ⟨ks', hk, hp⟩
      exact h1 ks h3 h4
    · intro h1 ks hk hp
      obtain ⟨ks', h3, h4⟩ := this.2 ⟨ks, hk, hp⟩
      exact h1 ks' h3 h4
  · intro h h' hr hr'
    rcases fresh_spec W iter hi _ hW hne with ⟨_, h0⟩ | ⟨p, g, ho1, R⟩
    · rw [hr] at h0; cases h0
    rcases fresh_spec W iter' hi' _ hW' hne' with ⟨_, h0⟩ | ⟨p', g', ho2, R'⟩
    · rw [hr'] at h0; cases h0
    rw [hr] at ho1; injection ho1 with e1; subst e1
    rw [hr'] at ho2; injection ho2 with e2; subst e2
    refine ⟨⟨_, _, by rw [getMaximumProbability, R.maxProb]; rfl,
      by rw [getMaximumProbability, R'.maxProb]; rfl, ?_, ?_⟩, ?_⟩
    · obtain ⟨q, hq, hqe⟩ := I.path' R'.isPath
      have hp' := R'.possible
      have hb := R.best q hq
      rw [Problem.tables_fresh F _ hW] at hb ⊢
      rw [Problem.tables_fresh F _ hW'] at hp' ⊢
      have hs := I.score q hq
      rw [hqe] at hs
      have hs' : score F ((stage1 F cfg (os.map (transposePc t))).tables F)
        (stage1 F cfg (os.map (transposePc t))).fresh.obs p' =
          score F ((stage1 F cfg os).tables F) (stage1 F cfg os).fresh.obs q := hs
      rw [hs']
      refine hb ?_
      unfold Possible at hp' ⊢
      rw [hs'] at hp'
      exact hp'
    · have hpth : (stage1 F cfg os).IsPath p := R.isPath
      have hs : score F ((stage1 F cfg (os.map (transposePc t))).tables F)
        (stage1 F cfg (os.map (transposePc t))).fresh.obs (p.map (transposeKey t)) =
          score F ((stage1 F cfg os).tables F) (stage1 F cfg os).fresh.obs p := I.score p hpth
      have hp := R.possible
      have hb := R'.best (p.map (transposeKey t)) (I.path hpth)
      rw [Problem.tables_fresh F _ hW] at hp ⊢
      rw [Problem.tables_fresh F _ hW'] at hb ⊢
      rw [hs] at hb
      refine hb ?_
      unfold Possible at hp ⊢
      rw [hs]; exact hp
    · intro k hk
      exact I.vec W hW hW' R R' (mem_keys.2 hk)

omit W in
theorem unique_run (P : Problem D) (hP : P.WF)
    (p : List Int) (hu : UniqueBest F P p) (q : List Int) (h : HMM D)
    (R : RunOk F Num P.fresh h q) : q = p := by
  by_cases he : q = p
  · exact he
  · have h1 := hu.2.2 q R.isPath he
    have h2 := R.best p hu.1
    rw [Problem.tables_fresh F _ hP] at h2
    have h3 := h2 hu.2.1
    exact absurd (h1.symm.trans h3) (by simp)

/-- **C24 (whole detection).** If both stages have a strictly best key sequence for the pitch classes
`os`, then for `os` transposed by `t` semitones the program reports the transposed local keys, the
transposed global key and the correspondingly permuted scores — whatever the four hash-map iteration
orders are. -/
theorem C24_detection (iter₁ iter₂ iter₁' iter₂' : Iter D) (hi₁ : iter₁.Ok) (hi₂ : iter₂.Ok)
    (hi₁' : iter₁'.Ok) (hi₂' : iter₂'.Ok) (cfg : Config D) (h : Config.WF cfg) (t : Int)
    (os : List Int) (ho : ∀ o ∈ os, 0 ≤ o ∧ o < 12) (hne : os ≠ []) (p1 p2 : List Int)
    (hu1 : UniqueBest F (stage1 F cfg os) p1) (hu2 : UniqueBest F (stage2 F cfg p1) p2) :
    ∃ d d' k, detect F iter₁ iter₂ cfg (os.map PitchClass.ofInt) = .ok (.ok d) ∧
      detect F iter₁' iter₂' cfg ((os.map (transposePc t)).map PitchClass.ofInt) = .ok (.ok d') ∧
      d.localKeys.map Key.getInt = p1.map Res.ok ∧
      d'.localKeys.map Key.getInt = (p1.map (transposeKey t)).map Res.ok ∧
      p2.head? = some k ∧ d.mainKey.getInt = .ok k ∧ d'.mainKey.getInt = .ok (transposeKey t k) ∧
      ∀ k, IsKey k → ∃ v v', d.probabilities[k.toNat]? = some v ∧
        d'.probabilities[(transposeKey t k).toNat]? = some v' ∧
        F.lt v v' = false ∧ F.lt v' v = false := by
  have I1 := iso1 F cfg t os ho
  have hk1 : ∀ k ∈ p1, k ∈ keys := hu1.1.2
  have I2 := iso2 F cfg t p1 hk1
  have ho' : ∀ o ∈ os.map (transposePc t), 0 ≤ o ∧ o < 12 := by
    intro o hom
    obtain ⟨x, _, rfl⟩ := List.mem_map.1 hom
    exact mem_pcs.1 (transposePc_mem t)
  have hne' : os.map (transposePc t) ≠ [] := by simpa using hne
  have hp1ne : p1 ≠ [] := by
    have hl : p1.length = os.length := hu1.1.1
    rintro rfl
    exact hne (List.length_eq_zero_iff.1 hl.symm)
  have hu1' := I1.uniqueBest hu1
  have hu2' := I2.uniqueBest hu2
  have hgi : ∀ l : List Int, (∀ k ∈ l, k ∈ keys) → (l.map Key.ofInt).map Key.getInt = l.map Res.ok := by
    intro l hl
    rw [List.map_map]
    apply List.map_congr_left
    intro k hk
    exact Key.getInt_ofInt (mem_keys.1 (hl k hk))
  have run : ∀ (it1 it2 : Iter D), it1.Ok → it2.Ok → ∀ (ws : List Int), (∀ o ∈ ws, 0 ≤ o ∧ o < 12) → ws ≠ [] →
      ∀ q1 q2, UniqueBest F (stage1 F cfg ws) q1 → UniqueBest F (stage2 F cfg q1) q2 →
      ∃ h2 k, RunOk F Num (stage2 F cfg q1).fresh h2 q2 ∧ q2.head? = some k ∧ k ∈ keys ∧
        detect F it1 it2 cfg (ws.map PitchClass.ofInt) =
        .ok (.ok { localKeys := q1.map Key.ofInt, globalKeys := q2.map Key.ofInt
                   probabilities := h2.probVec, mainKey := Key.ofInt k }) := by
    intro it1 it2 hit1 hit2 ws hws hwne q1 q2 hq1 hq2
    have hqne : q1 ≠ [] := by
      have hl : q1.length = ws.length := hq1.1.1
      rintro rfl
      exact hwne (List.length_eq_zero_iff.1 hl.symm)
    rcases detect_spec W it1 it2 hit1 hit2 cfg h ws hws hwne with
      ⟨_, hno | ⟨r1, h1, _, R1, hno⟩⟩ | ⟨r1, h1, r2, h2, k, _, R1, _, R2, hh, hk, hd⟩
    · exact absurd hq1.2.1 (hno q1 hq1.1)
    · obtain rfl := unique_run _ (stage1_wf F cfg ws) q1 hq1 r1 h1 R1
      exact absurd hq2.2.1 (hno q2 hq2.1)
    · obtain rfl := unique_run _ (stage1_wf F cfg ws) q1 hq1 r1 h1 R1
      obtain rfl := unique_run _ (stage2_wf F cfg r1) q2 hq2 r2 h2 R2
      exact ⟨h2, k, R2, hh, hk, hd⟩
  obtain ⟨h2, k, R2, hh, hk, hd⟩ := run iter₁ iter₂ hi₁ hi₂ os ho hne p1 p2 hu1 hu2
  obtain ⟨h2', k', R2', hh', hk', hd'⟩ := run iter₁' iter₂' hi₁' hi₂' _ ho' hne' _ _ hu1' hu2'
  have hkk : k' = transposeKey t k := by
    rw [List.head?_map, hh] at hh'
    simpa using hh'.symm
  subst hkk
  refine ⟨_, _, k, hd, hd', hgi p1 hk1, hgi _ ?_, hh, Key.getInt_ofInt (mem_keys.1 hk),
    Key.getInt_ofInt (mem_keys.1 hk'), ?_⟩
  · intro k hk
    obtain ⟨x, _, rfl⟩ := List.mem_map.1 hk
    exact transposeKey_mem t
  · intro k hk
    exact I2.vec W (stage2_wf F cfg p1) (stage2_wf F cfg _) R2 R2' (mem_keys.2 hk)

end

end JKD.Detect
