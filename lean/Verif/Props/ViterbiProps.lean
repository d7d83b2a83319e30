import Verif.Lemmas.HmmCtor
import Verif.Props.KeyProps
import Verif.Props.PitchClassProps
import Verif.FP.Binary64
import Verif.FP.ExactScore
/-
C18-C23 and C52: the hidden Markov model.
-/

namespace JKD.HMM

open Spec

variable {D : Type}

/-- The arguments a client gives to a `HiddenMarkovModel` constructor, with pitch classes and keys
named by their numbers. -/
structure Problem (D : Type) where
  obs : List Int
  states : List Int
  init : IMap D
  trans : IMap (IMap D)
  emis : IMap (IMap D)

/-- What the C++ types guarantee: the states are defined keys and the maps have unique keys. -/
structure Problem.WF (P : Problem D) : Prop where
  states : ∀ s ∈ P.states, IsKey s
  init : MapOk P.init
  trans : MapOk2 P.trans
  emis : MapOk2 P.emis

/-- The model the client means: an entry missing from a map is probability zero. -/
def Problem.tables (F : FPU D) (P : Problem D) : Tables D :=
  { init := rd F P.init, trans := rd2 F P.trans, emis := rd2 F P.emis }

/-- The freshly constructed object. -/
def Problem.fresh (P : Problem D) : HMM D := build P.obs P.states P.init P.trans P.emis

/-- `ks` is a candidate answer: one state per observation. -/
def Problem.IsPath (P : Problem D) (ks : List Int) : Prop := Spec.IsPath P.states P.obs ks

/-- Iteration orders of a hash map. -/
abbrev Iter (D : Type) := IMap (Node D) → List (Int × Node D)

/-- An iteration order visits every entry once. -/
def Iter.Ok (iter : Iter D) : Prop := ∀ L, (iter L).Perm L

theorem Problem.tables_fresh (F : FPU D) (P : Problem D) (hP : P.WF) :
    P.fresh.tables F = P.tables F := tables_build F _ _ _ _ _ hP.init hP.trans hP.emis

/-- **C18 (constructors).** Both constructors, given defined keys (and pitch classes), produce the
object `fresh`, not yet run. -/
theorem C18_constructors (P : Problem D) (hs : ∀ s ∈ P.states, IsKey s) :
    ((∀ o ∈ P.obs, 0 ≤ o ∧ o < 12) →
      ofPitchClasses (P.obs.map PitchClass.ofInt) (P.states.map Key.ofInt) P.init P.trans P.emis =
        .ok P.fresh) ∧
    ((∀ o ∈ P.obs, IsKey o) →
      ofKeys (P.obs.map Key.ofInt) (P.states.map Key.ofInt) P.init P.trans P.emis = .ok P.fresh) ∧
    P.fresh.getStatus = 7 ∧ P.fresh.getKeySequence = [] := by
  have hk : ∀ l : List Int, (∀ s ∈ l, IsKey s) → keyInts (l.map Key.ofInt) = .ok l := by
    intro l hl
    apply keyInts_ok
    rw [List.map_map]
    apply List.map_congr_left
    intro s hsm
    exact Key.getInt_ofInt (hl s hsm)
  refine ⟨?_, ?_, rfl, rfl⟩
  · intro ho
    have : pcInts (P.obs.map PitchClass.ofInt) = .ok P.obs := by
      apply pcInts_ok
      rw [List.map_map]
      apply List.map_congr_left
      intro o hom
      exact ((PitchClass.C01_ofInt o).1 (ho o hom)).1
    simp only [ofPitchClasses, this, hk _ hs, Res.bind_ok, Res.pure_eq, Problem.fresh]
  · intro ho
    simp only [ofKeys, hk _ ho, hk _ hs, Res.bind_ok, Res.pure_eq, Problem.fresh]

section
variable {F : FPU D} {Num : D → Prop} (W : FPLaws F Num)
include W

theorem fresh_spec (iter : Iter D) (hiter : iter.Ok) (P : Problem D) (hP : P.WF) (hobs : P.obs ≠ []) :
    ((∀ ks, P.IsPath ks → ¬ Possible F (P.tables F) P.obs ks) ∧
      runViterbi F iter P.fresh = .throw .outOfRange) ∨
    (∃ path h', runViterbi F iter P.fresh = .ok h' ∧ RunOk F Num P.fresh h' path) := by
  have := run_spec W iter hiter P.fresh hP.states hobs
  rw [P.tables_fresh F hP] at this
  exact this

theorem fresh_ok (iter : Iter D) (hiter : iter.Ok) (P : Problem D) (hP : P.WF) (hobs : P.obs ≠ [])
    (hpos : ∃ ks, P.IsPath ks ∧ Possible F (P.tables F) P.obs ks) :
    ∃ path h', runViterbi F iter P.fresh = .ok h' ∧ RunOk F Num P.fresh h' path := by
  rcases fresh_spec W iter hiter P hP hobs with ⟨h, _⟩ | h
  · obtain ⟨ks, h1, h2⟩ := hpos
    exact absurd h2 (h ks h1)
  · exact h

/-- **C18.** On a non-empty observation sequence for which some state sequence has a score above minus
infinity, `runViterbi` finishes normally; the key sequence has exactly one defined key per observation,
each of them one of the model's states, and the status is `HIDDENMARKOVMODEL_VITERBI_READY`. -/
theorem C18_one_key_per_observation (iter : Iter D) (hiter : iter.Ok) (P : Problem D) (hP : P.WF)
    (hobs : P.obs ≠ []) (hpos : ∃ ks, P.IsPath ks ∧ Possible F (P.tables F) P.obs ks) :
    ∃ h', runViterbi F iter P.fresh = .ok h' ∧ h'.getStatus = 8 ∧
      h'.getKeySequence.length = P.obs.length ∧
      ∀ k ∈ h'.getKeySequence, ∃ n ∈ P.states, k.getInt = .ok n := by
  obtain ⟨path, h', h1, h2⟩ := fresh_ok W iter hiter P hP hobs hpos
  have hk : h'.getKeySequence = path.map Key.ofInt := by
    have := h2.keySeq
    unfold getKeySequence
    simpa [Problem.fresh, build] using this
  refine ⟨h', h1, h2.status, ?_, ?_⟩
  · rw [hk, List.length_map]; exact h2.isPath.1
  · intro k hkm
    rw [hk] at hkm
    obtain ⟨n, hn, rfl⟩ := List.mem_map.1 hkm
    have hns := h2.isPath.2 n hn
    exact ⟨n, hns, Key.getInt_ofInt (hP.states n hns)⟩

/-- **C19.** The detected sequence is one best state sequence: no other state sequence has a larger
score.  (Every table content is allowed, including NaN, infinities and negative entries.) -/
theorem C19_optimal (iter : Iter D) (hiter : iter.Ok) (P : Problem D) (hP : P.WF)
    (hobs : P.obs ≠ []) (hpos : ∃ ks, P.IsPath ks ∧ Possible F (P.tables F) P.obs ks) :
    ∃ h' path, runViterbi F iter P.fresh = .ok h' ∧
      h'.getKeySequence.map Key.getInt = path.map Res.ok ∧ P.IsPath path ∧
      Possible F (P.tables F) P.obs path ∧
      ∀ ks, P.IsPath ks →
        F.lt (score F (P.tables F) P.obs path) (score F (P.tables F) P.obs ks) = false := by
  obtain ⟨path, h', h1, h2⟩ := fresh_ok W iter hiter P hP hobs hpos
  have hT := P.tables_fresh F hP
  have hk : h'.getKeySequence = path.map Key.ofInt := by
    have := h2.keySeq
    unfold getKeySequence
    simpa [Problem.fresh, build] using this
  have hp := h2.possible
  have hb := h2.best
  rw [hT] at hp hb
  refine ⟨h', path, h1, ?_, h2.isPath, hp, ?_⟩
  · rw [hk, List.map_map]
    apply List.map_congr_left
    intro n hn
    exact Key.getInt_ofInt (hP.states n (h2.isPath.2 n hn))
  · intro ks hks
    cases hlt : F.lt (score F (P.tables F) P.obs path) (score F (P.tables F) P.obs ks) with
    | false => rfl
    | true =>
      have h3 := hb ks hks (W.lt_trans _ _ _ hp hlt)
      exact hlt.symm.trans h3

/-- **C20.** The probability vector has 24 entries.  The entry of a state `s` is a best score among the
state sequences that end in `s`: none of them is larger, and the entry is the score of one of them, or
minus infinity when none of them is possible.  Entries of non-states are 0. -/
theorem C20_probability_vector (iter : Iter D) (hiter : iter.Ok) (P : Problem D) (hP : P.WF)
    (hobs : P.obs ≠ []) (hpos : ∃ ks, P.IsPath ks ∧ Possible F (P.tables F) P.obs ks) :
    ∃ h', runViterbi F iter P.fresh = .ok h' ∧ h'.getProbabilityVector.length = 24 ∧
      (∀ s ∈ P.states, ∃ v, h'.getProbabilityVector[s.toNat]? = some v ∧
        (∀ ks, P.IsPath (ks ++ [s]) → F.lt v (score F (P.tables F) P.obs (ks ++ [s])) = false) ∧
        ((∃ ks, P.IsPath (ks ++ [s]) ∧ score F (P.tables F) P.obs (ks ++ [s]) = v) ∨
          (v = F.negInf ∧ ∀ ks, P.IsPath (ks ++ [s]) → ¬ Possible F (P.tables F) P.obs (ks ++ [s])))) ∧
      (∀ i : Nat, i < 24 → (i : Int) ∉ P.states → h'.getProbabilityVector[i]? = some F.zero) := by
  obtain ⟨path, h', h1, h2⟩ := fresh_ok W iter hiter P hP hobs hpos
  have hT := P.tables_fresh F hP
  refine ⟨h', h1, h2.vecLen, ?_, ?_⟩
  · intro s hs
    obtain ⟨v, hv, hup, _, hor, _⟩ := h2.vec s hs
    rw [hT] at hup hor
    have hupper : ∀ ks, P.IsPath (ks ++ [s]) → F.lt v (score F (P.tables F) P.obs (ks ++ [s])) = false := by
      intro ks hks
      cases hlt : F.lt v (score F (P.tables F) P.obs (ks ++ [s])) with
      | false => rfl
      | true =>
        have hnum := (W.lt_num _ _ hlt).1
        have hp : Possible F (P.tables F) P.obs (ks ++ [s]) := by
          unfold Possible
          rcases W.lt_cotrans _ F.negInf _ W.num_negInf hlt with h3 | h3
          · rw [W.not_lt_negInf] at h3; exact absurd h3 (by simp)
          · exact h3
        exact hlt.symm.trans (hup ks hks hp).2
    refine ⟨v, hv, hupper, ?_⟩
    rcases hor with hor | hor
    · right
      refine ⟨hor, ?_⟩
      intro ks hks hp
      have := (hup ks hks hp).2
      rw [hor] at this
      unfold Possible at hp
      exact absurd (hp.symm.trans this) (by simp)
    · exact Or.inl hor
  · intro i hi hns
    have h3 := h2.vecOther i hns
    have h4 : (List.replicate 24 F.zero)[i]? = some F.zero := List.getElem?_replicate_of_lt hi
    rw [h4] at h3
    exact h3

/-- **C20.** The maximum probability is the score of the detected sequence; it is the entry of the
probability vector at the last key of the sequence, and no entry of a state is larger. -/
theorem C20_maximum (iter : Iter D) (hiter : iter.Ok) (P : Problem D) (hP : P.WF)
    (hobs : P.obs ≠ []) (hpos : ∃ ks, P.IsPath ks ∧ Possible F (P.tables F) P.obs ks) :
    ∃ h' path s m, runViterbi F iter P.fresh = .ok h' ∧
      h'.getKeySequence.map Key.getInt = path.map Res.ok ∧
      h'.getMaximumProbability = .ok m ∧ m = score F (P.tables F) P.obs path ∧
      path.getLast? = some s ∧ s ∈ P.states ∧ h'.getProbabilityVector[s.toNat]? = some m ∧
      ∀ s' ∈ P.states, ∃ v, h'.getProbabilityVector[s'.toNat]? = some v ∧ F.lt m v = false := by
  obtain ⟨path, h', h1, h2⟩ := fresh_ok W iter hiter P hP hobs hpos
  have hT := P.tables_fresh F hP
  have hk : h'.getKeySequence = path.map Key.ofInt := by
    have := h2.keySeq
    unfold getKeySequence
    simpa [Problem.fresh, build] using this
  obtain ⟨s, hs, hl, hv⟩ := h2.attained
  refine ⟨h', path, s, _, h1, ?_, ?_, rfl, hl, hs, ?_, ?_⟩
  · rw [hk, List.map_map]
    apply List.map_congr_left
    intro n hn
    exact Key.getInt_ofInt (hP.states n (h2.isPath.2 n hn))
  · unfold getMaximumProbability
    rw [h2.maxProb, hT]
    rfl
  · rw [hT] at hv; exact hv
  · intro s' hs'
    obtain ⟨v, hv', _, _, _, hle⟩ := h2.vec s' hs'
    rw [hT] at hle
    exact ⟨v, hv', hle⟩

/-- **C21.** On a non-empty observation sequence `runViterbi` throws `std::out_of_range` exactly when no
state sequence is possible; otherwise it finishes normally.  It never has undefined behaviour. -/
theorem C21_throws_iff (iter : Iter D) (hiter : iter.Ok) (P : Problem D) (hP : P.WF) (hobs : P.obs ≠ []) :
    (runViterbi F iter P.fresh = .throw .outOfRange ↔
      ∀ ks, P.IsPath ks → ¬ Possible F (P.tables F) P.obs ks) ∧
    ((∃ h', runViterbi F iter P.fresh = .ok h') ↔
      ∃ ks, P.IsPath ks ∧ Possible F (P.tables F) P.obs ks) ∧
    runViterbi F iter P.fresh ≠ .ub := by
  rcases fresh_spec W iter hiter P hP hobs with ⟨h1, h2⟩ | ⟨path, h', h1, h2⟩
  · refine ⟨⟨fun _ => h1, fun _ => h2⟩, ⟨?_, ?_⟩, by rw [h2]; simp⟩
    · rintro ⟨h', h3⟩; rw [h2] at h3; cases h3
    · rintro ⟨ks, h3, h4⟩; exact absurd h4 (h1 ks h3)
  · have hp := h2.possible
    rw [P.tables_fresh F hP] at hp
    refine ⟨⟨?_, ?_⟩, ⟨fun _ => ⟨path, h2.isPath, hp⟩, fun _ => ⟨h', h1⟩⟩, by rw [h1]; simp⟩
    · intro h3; rw [h1] at h3; cases h3
    · intro h3; exact absurd hp (h3 path h2.isPath)

/-- **C22 (partial).** `runViterbi` has no undefined behaviour on every *non-empty* observation
sequence, whatever the tables, and also when it is called again on the same object any number of
times.  Missing: the empty sequence, see `C22_empty_violated`. -/
theorem C22_safe_partial (iter : Nat → Iter D) (hiter : ∀ n, (iter n).Ok) (P : Problem D) (hP : P.WF)
    (hobs : P.obs ≠ []) (n : Nat) :
    forM (List.range n) P.fresh (fun h i => runViterbi F (iter i) h) ≠ .ub := by
  have aux : ∀ (l : List Nat) (h : HMM D), h.obs = P.obs → h.states = P.states →
      forM l h (fun h i => runViterbi F (iter i) h) ≠ .ub := by
    intro l
    induction l with
    | nil => intro h _ _; simp
    | cons a l ih =>
      intro h ho hs
      simp only [forM_cons]
      rcases run_spec W (iter a) (hiter a) h (by rw [hs]; exact hP.states) (by rw [ho]; exact hobs) with
        ⟨_, h2⟩ | ⟨path, h', h1, h2⟩
      · rw [h2]; simp
      · rw [h1, Res.bind_ok]
        exact ih h' (h2.frame.1.trans ho) (h2.frame.2.1.trans hs)
  exact aux _ _ rfl rfl

end

/-- **C22 (negation).** On an empty observation sequence `runViterbi` is undefined behaviour, for every
model. -/
theorem C22_empty_violated (F : FPU D) (iter : Iter D) (P : Problem D) (h : P.obs = []) :
    runViterbi F iter P.fresh = .ub := by
  simp [runViterbi, Problem.fresh, build, h]

section
variable {F : FPU D} {Num : D → Prop} (W : FPLaws F Num)
include W

/-- **C23 (what happens).** Running again on the same object prepends a new best sequence to the
*reverse* of what was there; with the same iteration order it is the same best sequence.  Maximum
probability, vector and status are those of the first run. -/
theorem C23_rerun_partial (iter : Iter D) (hiter : iter.Ok) (P : Problem D) (hP : P.WF)
    (hobs : P.obs ≠ []) (h1 h2 : HMM D) (hr1 : runViterbi F iter P.fresh = .ok h1)
    (hr2 : runViterbi F iter h1 = .ok h2) :
    h2.getKeySequence = h1.getKeySequence ++ h1.getKeySequence.reverse ∧
    h2.getMaximumProbability = h1.getMaximumProbability ∧
    h2.getProbabilityVector = h1.getProbabilityVector ∧ h2.getStatus = h1.getStatus := by
  rcases fresh_spec W iter hiter P hP hobs with ⟨_, h⟩ | ⟨path, h', ho, hR⟩
  · rw [hr1] at h; cases h
  rw [hr1] at ho
  injection ho with ho
  subst ho
  -- the second run sees the same observations, states and tables
  have hframe := hR.frame
  have key : ∀ (g g' : HMM D), g'.obs = g.obs → g'.states = g.states → g'.init = g.init →
      g'.trans = g.trans → g'.emis = g.emis → ∀ r, runViterbi F iter g = .ok r →
      ∃ ks, r.keySeq = (g.keySeq ++ ks).reverse ∧ runViterbi F iter g' =
        .ok { r with keySeq := (g'.keySeq ++ ks).reverse } := by
    intro g g' e1 e2 e3 e4 e5 r hr
    have hback : ∀ (vit : List (IMap (Node D))) (st : BT D) (r : BT D), backtrack F iter vit st = .ok r →
        ∃ ks, r.keys = st.keys ++ ks ∧ ∀ k0, backtrack F iter vit { st with keys := k0 } =
          .ok { r with keys := k0 ++ ks } := by
      intro vit
      induction vit with
      | nil =>
        intro st r h
        simp only [backtrack, Res.ok.injEq] at h
        subst h
        exact ⟨[], by simp, fun k0 => by simp [backtrack]⟩
      | cons L vit ih =>
        intro st r h
        have hscan : ∀ (l : List (Int × Node D)) (s s' : BT D), scan F l s = .ok s' →
            s'.keys = s.keys ∧ ∀ k0, scan F l { s with keys := k0 } = .ok { s' with keys := k0 } := by
          intro l
          induction l with
          | nil => intro s s' h; simp only [scan, forM_nil, Res.ok.injEq] at h; subst h; simp [scan]
          | cons p l ihl =>
            intro s s' h
            unfold scan at h ⊢
            simp only [forM_cons] at h ⊢
            cases hset : setAt s.probs p.1 p.2.prob with
            | ub => simp [hset] at h
            | throw e => simp [hset] at h
            | ok probs =>
              simp only [hset, Res.bind_ok] at h ⊢
              cases hlt : F.lt s.max p.2.prob with
              | true =>
                simp only [hlt, if_true, Res.pure_eq, Res.bind_ok] at h ⊢
                obtain ⟨h1, h2⟩ := ihl _ _ h
                exact ⟨h1, fun k0 => h2 k0⟩
              | false =>
                simp only [hlt, Bool.false_eq_true, if_false, Res.pure_eq, Res.bind_ok] at h ⊢
                obtain ⟨h1, h2⟩ := ihl _ _ h
                exact ⟨h1, fun k0 => h2 k0⟩
        unfold backtrack at h ⊢
        by_cases hl : st.last = -1
        · simp only [hl, if_true] at h ⊢
          cases hsc : scan F (iter L) st with
          | ub => simp [hsc] at h
          | throw e => simp [hsc] at h
          | ok s1 =>
            obtain ⟨hk1, hk2⟩ := hscan _ _ _ hsc
            simp only [hsc, Res.bind_ok] at h
            cases hg : L.get? s1.last with
            | none => simp [hg] at h
            | some n =>
              simp only [hg] at h
              obtain ⟨ks, h3, h4⟩ := ih _ _ h
              refine ⟨Key.ofInt s1.last :: ks, by simp [h3, hk1], fun k0 => ?_⟩
              have := hk2 k0
              simp only [hl] at this
              rw [this]
              simp only [Res.bind_ok, hg]
              have := h4 (k0 ++ [Key.ofInt s1.last])
              simpa using this
        · simp only [hl, if_false, Res.bind_ok] at h ⊢
          cases hg : L.get? st.last with
          | none => simp [hg] at h
          | some n =>
            simp only [hg] at h
            obtain ⟨ks, h3, h4⟩ := ih _ _ h
            refine ⟨Key.ofInt st.last :: ks, by simp [h3], fun k0 => ?_⟩
            simp only
            have := h4 (k0 ++ [Key.ofInt st.last])
            simpa using this
    have hfl : ∀ o, firstLayer F g' o = firstLayer F g o := by
      intro o; unfold firstLayer; rw [e2, e3, e5]
    have hnl : ∀ L o, nextLayer F g' L o = nextLayer F g L o := by
      intro L o; unfold nextLayer nextNode; rw [e2, e4, e5]
    have hly : ∀ os L vit, layers F g' os L vit = layers F g os L vit := by
      intro os
      induction os with
      | nil => intro L vit; rfl
      | cons o os ih => intro L vit; simp only [layers, hnl, ih]
    unfold runViterbi at hr ⊢
    rw [e1]
    cases hob : g.obs with
    | nil => rw [hob] at hr; cases hr
    | cons o os =>
      rw [hob] at hr
      simp only [hfl, hly] at hr ⊢
      cases hbt : backtrack F iter (layers F g os (firstLayer F g o) [firstLayer F g o])
          { last := -1, max := F.negInf, probs := List.replicate 24 F.zero, keys := g.keySeq } with
      | ub => rw [hbt] at hr; cases hr
      | throw e => rw [hbt] at hr; cases hr
      | ok s =>
        obtain ⟨ks, hk, hk2⟩ := hback _ _ _ hbt
        rw [hbt] at hr
        simp only [Res.bind_ok, Res.pure_eq, Res.ok.injEq] at hr
        refine ⟨ks, by rw [← hr, hk], ?_⟩
        have := hk2 g'.keySeq
        simp only at this
        rw [this, ← hr]
        simp only [Res.bind_ok, Res.pure_eq, e2, e3, e4, e5]
  obtain ⟨f1, f2, f3, f4, f5⟩ := hframe
  obtain ⟨ks, hk1, hk2⟩ := key P.fresh h1 f1 f2 f3 f4 f5 h1 hr1
  rw [hr2] at hk2
  injection hk2 with hk2
  have hks : h1.keySeq = ks.reverse := by
    have : P.fresh.keySeq = [] := rfl
    rw [hk1, this, List.nil_append]
  refine ⟨?_, ?_, ?_, ?_⟩
  · unfold getKeySequence
    rw [hk2]
    simp only [List.reverse_append]
    rw [← hks]
  · rw [hk2]; rfl
  · rw [hk2]; rfl
  · rw [hk2]; rfl

/-- **C23 (negation).** Whenever a run succeeds on a non-empty sequence, running the object again
succeeds and *changes* the key sequence: it doubles its length. -/
theorem C23_rerun_violated (iter : Iter D) (hiter : iter.Ok) (P : Problem D) (hP : P.WF)
    (hobs : P.obs ≠ []) (h1 : HMM D) (hr1 : runViterbi F iter P.fresh = .ok h1) :
    ∃ h2, runViterbi F iter h1 = .ok h2 ∧ h2.getKeySequence ≠ h1.getKeySequence ∧
      h2.getKeySequence.length = 2 * P.obs.length := by
  rcases fresh_spec W iter hiter P hP hobs with ⟨_, h⟩ | ⟨path, h', ho, hR⟩
  · rw [hr1] at h; cases h
  rw [hr1] at ho
  injection ho with ho
  subst ho
  obtain ⟨f1, f2, f3, f4, f5⟩ := hR.frame
  have hk : h1.keySeq = path.map Key.ofInt := by
    have := hR.keySeq
    simpa [Problem.fresh, build] using this
  have hlen : h1.keySeq.length = P.obs.length := by
    rw [hk, List.length_map]; exact hR.isPath.1
  rcases run_spec W iter hiter h1 (by rw [f2]; exact hP.states) (by rw [f1]; exact hobs) with
    ⟨hno, _⟩ | ⟨path2, h2, hr2, hR2⟩
  · have htab : h1.tables F = P.fresh.tables F := by unfold tables; rw [f3, f4, f5]
    rw [htab, f1, f2] at hno
    exact absurd hR.possible (hno path hR.isPath)
  · refine ⟨h2, hr2, ?_, ?_⟩
    · intro he
      have := (C23_rerun_partial W iter hiter P hP hobs h1 h2 hr1 hr2).1
      rw [he] at this
      have hl := congrArg List.length this
      simp only [List.length_append, List.length_reverse] at hl
      unfold getKeySequence at hl
      rw [hlen] at hl
      have : P.obs.length ≠ 0 := by simpa using hobs
      omega
    · rw [(C23_rerun_partial W iter hiter P hP hobs h1 h2 hr1 hr2).1]
      simp only [List.length_append, List.length_reverse]
      unfold getKeySequence
      omega

/-- **C52.** Which outcome (normal or exception), the probability vector and the maximum probability do
not depend on the hash map's iteration order (the maximum, as a value: two doubles none of which is
less than the other). -/
theorem C52_order_independent (iter iter' : Iter D) (hiter : iter.Ok) (hiter' : iter'.Ok) (P : Problem D)
    (hP : P.WF) (hobs : P.obs ≠ []) :
    (runViterbi F iter P.fresh = .throw .outOfRange ↔ runViterbi F iter' P.fresh = .throw .outOfRange) ∧
    ∀ h, runViterbi F iter P.fresh = .ok h → ∃ h' m m', runViterbi F iter' P.fresh = .ok h' ∧
      h'.getProbabilityVector = h.getProbabilityVector ∧ h'.getStatus = h.getStatus ∧
      h.getMaximumProbability = .ok m ∧ h'.getMaximumProbability = .ok m' ∧
      F.lt m m' = false ∧ F.lt m' m = false := by
  have e1 := (C21_throws_iff W iter hiter P hP hobs).1
  have e2 := (C21_throws_iff W iter' hiter' P hP hobs).1
  refine ⟨e1.trans e2.symm, ?_⟩
  intro h hr
  rcases fresh_spec W iter hiter P hP hobs with ⟨_, h0⟩ | ⟨path, h1, ho, hR⟩
  · rw [hr] at h0; cases h0
  rw [hr] at ho
  injection ho with ho
  subst ho
  rcases fresh_spec W iter' hiter' P hP hobs with ⟨hno, _⟩ | ⟨path', h', ho', hR'⟩
  · have hp := hR.possible
    rw [P.tables_fresh F hP] at hp
    exact absurd hp (hno path hR.isPath)
  refine ⟨h', _, _, ho', ?_, ?_, ?_, ?_, hR.best path' hR'.isPath hR'.possible,
    hR'.best path hR.isPath hR.possible⟩
  · exact hR'.vecEq.trans hR.vecEq.symm
  · exact hR'.status.trans hR.status.symm
  · unfold getMaximumProbability; rw [hR.maxProb]; rfl
  · unfold getMaximumProbability; rw [hR'.maxProb]; rfl

/-- **C52.** When the best state sequence is unique, the detected sequence does not depend on the
iteration order either: it is that sequence. -/
theorem C52_unique_best (iter : Iter D) (hiter : iter.Ok) (P : Problem D)
    (hP : P.WF) (hobs : P.obs ≠ []) (best : List Int) (hb : P.IsPath best)
    (hpos : Possible F (P.tables F) P.obs best)
    (huniq : ∀ ks, P.IsPath ks → ks ≠ best →
      F.lt (score F (P.tables F) P.obs ks) (score F (P.tables F) P.obs best) = true) :
    ∃ h, runViterbi F iter P.fresh = .ok h ∧ h.getKeySequence.map Key.getInt = best.map Res.ok := by
  obtain ⟨h', path, h1, h2, h3, _, h5⟩ := C19_optimal W iter hiter P hP hobs ⟨best, hb, hpos⟩
  by_cases he : path = best
  · subst he; exact ⟨h', h1, h2⟩
  · have := huniq path h3 he
    rw [h5 best hb] at this
    exact absurd this (by simp)

end

/-! ### IEEE-754 binary64, exact arithmetic -/

/-- **C18-C21 for IEEE-754 binary64** (round to nearest even), with any implementation of `log10` on
positive numbers and any table contents. -/
theorem C19_binary64 (lg : ℝ → RD) (iter : Iter RD) (hiter : iter.Ok) (P : Problem RD) (hP : P.WF)
    (hobs : P.obs ≠ []) (hpos : ∃ ks, P.IsPath ks ∧ Possible (RD.ieee lg) (P.tables (RD.ieee lg)) P.obs ks) :
    ∃ h' path, runViterbi (RD.ieee lg) iter P.fresh = .ok h' ∧
      h'.getKeySequence.map Key.getInt = path.map Res.ok ∧ P.IsPath path ∧
      ∀ ks, P.IsPath ks →
        (RD.ieee lg).lt (score (RD.ieee lg) (P.tables (RD.ieee lg)) P.obs path)
          (score (RD.ieee lg) (P.tables (RD.ieee lg)) P.obs ks) = false := by
  obtain ⟨h', path, h1, h2, h3, _, h5⟩ := C19_optimal (RD.laws RD.binary64 lg) iter hiter P hP hobs hpos
  exact ⟨h', path, h1, h2, h3, h5⟩

/-- **C19 in exact arithmetic: maximum probability.** The detected sequence maximises the textbook
product initial · emission · Π transition · emission over all state sequences. -/
theorem C19_exact (iter : Iter RD) (hiter : iter.Ok) (P : Problem RD) (hP : P.WF) (hobs : P.obs ≠ [])
    (t : Tables ℝ) (ht : NonNeg t) (hT : P.tables RD.exact = finTables t)
    (hpos : ∃ ks, P.IsPath ks ∧ 0 < prob t P.obs ks) :
    ∃ h' path, runViterbi RD.exact iter P.fresh = .ok h' ∧
      h'.getKeySequence.map Key.getInt = path.map Res.ok ∧ P.IsPath path ∧ 0 < prob t P.obs path ∧
      ∀ ks, P.IsPath ks → prob t P.obs ks ≤ prob t P.obs path := by
  obtain ⟨ks0, hk0, hp0⟩ := hpos
  obtain ⟨h', path, h1, h2, h3, h4, h5⟩ :=
    C19_optimal (RD.laws RD.exactRounding _) iter hiter P hP hobs
      ⟨ks0, hk0, by
        change Possible RD.exact (P.tables RD.exact) P.obs ks0
        rw [hT]; exact (RD.possible_exact ht _ _).2 hp0⟩
  change Possible RD.exact (P.tables RD.exact) P.obs path at h4
  rw [hT] at h4
  refine ⟨h', path, h1, h2, h3, (RD.possible_exact ht _ _).1 h4, ?_⟩
  intro ks hks
  have h6 := h5 ks hks
  change RD.exact.lt (score RD.exact (P.tables RD.exact) P.obs path)
    (score RD.exact (P.tables RD.exact) P.obs ks) = false at h6
  rw [hT, RD.score_exact ht, RD.score_exact ht,
    RD.not_lt_elog (prob_nonneg ht _ _) (prob_nonneg ht _ _)] at h6
  exact h6

/-- **C20 in exact arithmetic.** The entry of a state is the logarithm of the largest probability of a
state sequence ending there (minus infinity for probability 0). -/
theorem C20_exact (iter : Iter RD) (hiter : iter.Ok) (P : Problem RD) (hP : P.WF) (hobs : P.obs ≠ [])
    (t : Tables ℝ) (ht : NonNeg t) (hT : P.tables RD.exact = finTables t)
    (hpos : ∃ ks, P.IsPath ks ∧ 0 < prob t P.obs ks) :
    ∃ h', runViterbi RD.exact iter P.fresh = .ok h' ∧
      ∀ s ∈ P.states, ∃ ks, P.IsPath (ks ++ [s]) ∧
        h'.getProbabilityVector[s.toNat]? = some (RD.elog (prob t P.obs (ks ++ [s]))) ∧
        ∀ ks', P.IsPath (ks' ++ [s]) → prob t P.obs (ks' ++ [s]) ≤ prob t P.obs (ks ++ [s]) := by
  obtain ⟨ks0, hk0, hp0⟩ := hpos
  obtain ⟨h', h1, _, h2, _⟩ :=
    C20_probability_vector (RD.laws RD.exactRounding _) iter hiter P hP hobs
      ⟨ks0, hk0, by
        change Possible RD.exact (P.tables RD.exact) P.obs ks0
        rw [hT]; exact (RD.possible_exact ht _ _).2 hp0⟩
  refine ⟨h', h1, ?_⟩
  intro s hs
  obtain ⟨v, hv, hup, hor⟩ := h2 s hs
  change ∀ ks, P.IsPath (ks ++ [s]) →
    RD.exact.lt v (score RD.exact (P.tables RD.exact) P.obs (ks ++ [s])) = false at hup
  change (∃ ks, P.IsPath (ks ++ [s]) ∧ score RD.exact (P.tables RD.exact) P.obs (ks ++ [s]) = v) ∨
    (v = RD.exact.negInf ∧ ∀ ks, P.IsPath (ks ++ [s]) →
      ¬ Possible RD.exact (P.tables RD.exact) P.obs (ks ++ [s])) at hor
  rw [hT] at hup hor
  rcases hor with ⟨ks, hks, hsc⟩ | ⟨hv', hno⟩
  · rw [RD.score_exact ht] at hsc
    refine ⟨ks, hks, by rw [hsc]; exact hv, ?_⟩
    intro ks' hks'
    have := hup ks' hks'
    rwa [RD.score_exact ht, ← hsc, RD.not_lt_elog (prob_nonneg ht _ _) (prob_nonneg ht _ _)] at this
  · -- all sequences have probability 0; take any of them
    have hz : ∀ ks, P.IsPath (ks ++ [s]) → prob t P.obs (ks ++ [s]) = 0 := by
      intro ks hks
      have := hno ks hks
      rw [RD.possible_exact ht, not_lt] at this
      exact le_antisymm this (prob_nonneg ht _ _)
    have hlen : 0 < P.obs.length := List.length_pos_iff.2 hobs
    have hex : P.IsPath (List.replicate (P.obs.length - 1) s ++ [s]) := by
      refine ⟨by simp; omega, ?_⟩
      intro k hk
      simp only [List.mem_append, List.mem_replicate, List.mem_singleton] at hk
      rcases hk with ⟨_, rfl⟩ | rfl <;> exact hs
    refine ⟨_, hex, ?_, ?_⟩
    · rw [hz _ hex, RD.elog_zero, hv, hv']; rfl
    · intro ks' hks'
      rw [hz _ hks', hz _ hex]

/-- **C21 in exact arithmetic.** The exception is thrown exactly when every state sequence has
probability zero. -/
theorem C21_exact (iter : Iter RD) (hiter : iter.Ok) (P : Problem RD) (hP : P.WF) (hobs : P.obs ≠ [])
    (t : Tables ℝ) (ht : NonNeg t) (hT : P.tables RD.exact = finTables t) :
    runViterbi RD.exact iter P.fresh = .throw .outOfRange ↔
      ∀ ks, P.IsPath ks → prob t P.obs ks = 0 := by
  have h := (C21_throws_iff (RD.laws RD.exactRounding (fun r => .fin (Real.logb 10 r))) iter hiter P hP hobs).1
  change runViterbi RD.exact iter P.fresh = .throw .outOfRange ↔
    ∀ ks, P.IsPath ks → ¬ Possible RD.exact (P.tables RD.exact) P.obs ks at h
  rw [h, hT]
  constructor
  · intro h1 ks hks
    have := h1 ks hks
    rw [RD.possible_exact ht, not_lt] at this
    exact le_antisymm this (prob_nonneg ht _ _)
  · intro h1 ks hks
    rw [RD.possible_exact ht, h1 ks hks]
    exact lt_irrefl 0

/-! ### A concrete case -/

/-- Two keys, C major and F major, with the same tables; the single observation is C. -/
def tieProblem (p : D) : Problem D :=
  { obs := [0], states := [0, 5], init := [(0, p), (5, p)]
    trans := [(0, [(0, p), (5, p)]), (5, [(0, p), (5, p)])]
    emis := [(0, [(0, p)]), (5, [(0, p)])] }

theorem tie_wf (p : D) : (tieProblem p).WF := by
  refine ⟨?_, ?_, ⟨?_, ?_⟩, ⟨?_, ?_⟩⟩ <;>
    simp [tieProblem, IsKey, MapOk, AMap.keys]

/-- **C52 (negation).** The detected key sequence does depend on the iteration order when there are
ties: here visiting the states in one order yields C major and in the other order F major. -/
theorem C52_ties_violated {F : FPU D} {Num : D → Prop} (W : FPLaws F Num) (p : D)
    (hp : F.lt F.negInf (F.log10 (F.mul p p)) = true) :
    ∃ (iter iter' : Iter D), iter.Ok ∧ iter'.Ok ∧ ∃ h h',
      runViterbi F iter (tieProblem p).fresh = .ok h ∧
      runViterbi F iter' (tieProblem p).fresh = .ok h' ∧
      h.getKeySequence.map Key.getInt = [.ok 0] ∧ h'.getKeySequence.map Key.getInt = [.ok 5] := by
  have hirr := W.lt_irrefl (F.log10 (F.mul p p))
  refine ⟨fun L => L, fun L => L.reverse, fun L => List.Perm.refl L, fun L => List.reverse_perm L, ?_⟩
  have hfl : firstLayer F (tieProblem p).fresh 0 =
      [(0, ⟨F.log10 (F.mul p p), -1⟩), (5, ⟨F.log10 (F.mul p p), -1⟩)] := rfl
  have hrun : ∀ iter : Iter D, runViterbi F iter (tieProblem p).fresh = (do
      let s ← backtrack F iter [firstLayer F (tieProblem p).fresh 0]
        { last := -1, max := F.negInf, probs := List.replicate 24 F.zero, keys := [] }
      return { (tieProblem p).fresh with
        keySeq := s.keys.reverse, maxProb := some s.max, probVec := s.probs
        status := statusHmmViterbiReady }) := fun _ => rfl
  have hset : ∀ (l : List D) (k : Int) (v : D), l.length = 24 → 0 ≤ k → k < 24 →
      setAt l k v = .ok (l.set k.toNat v) := by
    intro l k v hl h0 h1
    unfold setAt
    rw [if_pos ⟨h0, by omega⟩]
  let v := F.log10 (F.mul p p)
  let r0 : List D := List.replicate 24 F.zero
  have s1 : scan F [((0 : Int), (⟨v, -1⟩ : Node D)), (5, ⟨v, -1⟩)]
      { last := -1, max := F.negInf, probs := r0, keys := [] } =
      .ok { last := 0, max := v, probs := (r0.set 0 v).set 5 v, keys := [] } := by
    unfold scan
    simp only [forM_cons, forM_nil]
    rw [hset r0 0 _ (by simp [r0]) (by omega) (by omega)]
    simp only [Res.bind_ok, v, hp, if_true, Res.pure_eq]
    rw [hset _ 5 _ (by simp [r0]) (by omega) (by omega)]
    simp only [Res.bind_ok, hirr, Bool.false_eq_true, if_false]
    rfl
  have s2 : scan F [((5 : Int), (⟨v, -1⟩ : Node D)), (0, ⟨v, -1⟩)]
      { last := -1, max := F.negInf, probs := r0, keys := [] } =
      .ok { last := 5, max := v, probs := (r0.set 5 v).set 0 v, keys := [] } := by
    unfold scan
    simp only [forM_cons, forM_nil]
    rw [hset r0 5 _ (by simp [r0]) (by omega) (by omega)]
    simp only [Res.bind_ok, v, hp, if_true, Res.pure_eq]
    rw [hset _ 0 _ (by simp [r0]) (by omega) (by omega)]
    simp only [Res.bind_ok, hirr, Bool.false_eq_true, if_false]
    rfl
  refine ⟨{ (tieProblem p).fresh with
      keySeq := [Key.ofInt 0], maxProb := some v, probVec := (r0.set 0 v).set 5 v
      status := statusHmmViterbiReady },
    { (tieProblem p).fresh with
      keySeq := [Key.ofInt 5], maxProb := some v, probVec := (r0.set 5 v).set 0 v
      status := statusHmmViterbiReady }, ?_, ?_, ?_, ?_⟩
  · rw [hrun, hfl]
    simp only [backtrack, if_true]
    have := s1
    simp only [v, r0] at this
    rw [this]
    rfl
  · rw [hrun, hfl]
    simp only [backtrack, if_true]
    have := s2
    simp only [v, r0] at this
    have hrev : List.reverse [((0 : Int), (⟨F.log10 (F.mul p p), -1⟩ : Node D)),
        (5, ⟨F.log10 (F.mul p p), -1⟩)] =
      [((5 : Int), (⟨F.log10 (F.mul p p), -1⟩ : Node D)), (0, ⟨F.log10 (F.mul p p), -1⟩)] := rfl
    rw [hrev, this]
    rfl
  · simp only [getKeySequence, List.map_cons, List.map_nil]
    rw [Key.getInt_ofInt (by decide)]
  · simp only [getKeySequence, List.map_cons, List.map_nil]
    rw [Key.getInt_ofInt (by decide)]

/-- The hypotheses of C18-C21, C23 and C52 are met: two states, one observation, exact arithmetic. -/
example : (tieProblem (RD.fin (1 / 2))).WF ∧ (tieProblem (RD.fin (1 / 2))).obs ≠ [] ∧
    (∃ ks, (tieProblem (RD.fin (1 / 2))).IsPath ks ∧
      Possible RD.exact ((tieProblem (RD.fin (1 / 2))).tables RD.exact) [0] ks) ∧
    RD.exact.lt RD.exact.negInf (RD.exact.log10 (RD.exact.mul (RD.fin (1 / 2)) (RD.fin (1 / 2)))) = true := by
  have hv : RD.exact.lt RD.exact.negInf
      (RD.exact.log10 (RD.exact.mul (RD.fin (1 / 2)) (RD.fin (1 / 2)))) = true := by
    change RD.exact.lt RD.exact.negInf (RD.elog (1 / 2 * (1 / 2))) = true
    rw [RD.negInf_lt_elog (by norm_num)]
    norm_num
  refine ⟨tie_wf _, by simp [tieProblem], ⟨[5], ⟨rfl, by simp [tieProblem]⟩, ?_⟩, hv⟩
  unfold Possible
  exact hv

end JKD.HMM
