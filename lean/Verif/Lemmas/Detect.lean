import Verif.Model.Detect
import Verif.Props.TransitionProps
import Verif.Props.ProfileProps
import Verif.Props.ViterbiProps
/-
Closed forms for the two models built in `main`.
-/

namespace JKD.Detect

open Spec HMM

variable {D : Type}

/-- The C++ types of the custom arrays (`std::array<double, 24>`, `std::array<double, 12>`). -/
structure Config.WF (cfg : Config D) : Prop where
  trans : cfg.customKeyTransition.length = 24
  maj : cfg.majorCustomKeyProfile.length = 12
  min : cfg.minorCustomKeyProfile.length = 12

/-- The transition array the configuration selects. -/
def transArray (F : FPU D) (cfg : Config D) : List D :=
  (KeyTransition.specTable F cfg.keyTransition cfg.customKeyTransition).getD (List.replicate 24 F.zero)

/-- The profile arguments of the configuration. -/
def profArgs (cfg : Config D) : KeyProfile.Args D :=
  ⟨cfg.majorKeyProfile, cfg.minorKeyProfile, cfg.majorCustomKeyProfile, cfg.minorCustomKeyProfile⟩

/-- The two profile arrays the configuration selects. -/
def profArrays (F : FPU D) (cfg : Config D) : List D × List D := (profArgs cfg).arrays F

/-- Initial probabilities as a map. -/
def initMap (F : FPU D) : IMap D := tab keys (fun _ => F.ofRat (1 / 24))

/-- Transition probabilities as a map. -/
def transMap (F : FPU D) (a : List D) : IMap (IMap D) :=
  tab keys (fun x => tab keys (fun y => a.getD (slot x y) F.zero))

/-- Emission probabilities as a map. -/
def emisMap (F : FPU D) (ab : List D × List D) : IMap (IMap D) :=
  tab keys (fun n => tab pcs (KeyProfile.emis ab.1 ab.2 F.zero n))

/-- The first model, for observed pitch classes `os`. -/
def stage1 (F : FPU D) (cfg : Config D) (os : List Int) : Problem D :=
  { obs := os, states := keys, init := initMap F, trans := transMap F (transArray F cfg)
    emis := emisMap F (profArrays F cfg) }

/-- The "zero" array. -/
def zeroArray (F : FPU D) : List D := KeyTransition.zeroTable.map F.ofRat

/-- The second model, for observed keys `os`. -/
def stage2 (F : FPU D) (cfg : Config D) (os : List Int) : Problem D :=
  { obs := os, states := keys, init := initMap F, trans := transMap F (zeroArray F)
    emis := transMap F (transArray F cfg) }

theorem transTable_len (F : FPU D) (s : String) (c : List D) (hc : c.length = 24) (a : List D)
    (h : KeyTransition.specTable F s c = some a) : a.length = 24 := by
  unfold KeyTransition.specTable at h
  split at h
  · injection h with h; rw [← h]; exact hc
  · cases hf : KeyTransition.builtins.find? (fun p => p.1 == s) with
    | none => simp [hf] at h
    | some p =>
      simp only [hf, Option.map_some, Option.some.injEq] at h
      rw [← h, List.length_map]
      exact (KeyTransition.C17_builtin_tables.1 p (List.mem_of_find?_eq_some hf)).1

theorem transArray_len (F : FPU D) (cfg : Config D) (h : Config.WF cfg) : (transArray F cfg).length = 24 := by
  unfold transArray
  cases hs : KeyTransition.specTable F cfg.keyTransition cfg.customKeyTransition with
  | none => simp
  | some a => exact transTable_len F _ _ h.trans a hs

theorem zeroArray_len (F : FPU D) : (zeroArray F).length = 24 := by
  unfold zeroArray
  rw [List.length_map]
  decide

theorem profArrays_len (F : FPU D) (cfg : Config D) (h : Config.WF cfg) :
    (profArrays F cfg).1.length = 12 ∧ (profArrays F cfg).2.length = 12 :=
  KeyProfile.arrays_len F (profArgs cfg) h.maj h.min

/-- A row built key by key. -/
theorem forM_tab {V : Type} (g : Int → V) (f : IMap V → Key → Res (IMap V))
    (hf : ∀ m, ∀ n ∈ keys, f m (Key.ofInt n) = .ok (m.set n (g n))) (ns : List Int) (hk : ∀ n ∈ ns, n ∈ keys)
    (hnd : ns.Nodup) (done : List Int) (hdis : ∀ n ∈ ns, n ∉ done) :
    forM (ns.map Key.ofInt) (tab done g) f = .ok (tab (done ++ ns) g) := by
  induction ns generalizing done with
  | nil => simp
  | cons n ns ih =>
    have hset : (tab done g).set n (g n) = tab (done ++ [n]) g := by
      rw [KeyProfile.set_not_mem]
      · simp [tab]
      · simp only [AMap.keys, tab, List.map_map]
        intro hmem
        obtain ⟨z, hz, rfl⟩ := List.mem_map.1 hmem
        exact hdis _ (by simp) hz
    have hrest : ∀ m ∈ ns, m ∉ done ++ [n] := by
      intro m hm hmem
      rcases List.mem_append.1 hmem with h | h
      · exact hdis m (by simp [hm]) h
      · simp only [List.mem_singleton] at h
        subst h
        exact (List.nodup_cons.1 hnd).1 hm
    rw [List.map_cons, forM_cons, hf _ n (hk n (by simp)), Res.bind_ok, hset,
      ih (fun m hm => hk m (by simp [hm])) (List.nodup_cons.1 hnd).2 _ hrest]
    simp

theorem initial_eq (F : FPU D) : initialProbabilities F = .ok (initMap F) := by
  unfold initialProbabilities initMap
  have harr : ((KeyTransition.mk1 F "symmetrical").getArray F).1 =
      List.replicate 24 (F.ofRat (1 / 24)) := by
    have hs : KeyTransition.specTable F "symmetrical" (List.replicate 24 F.zero) =
        some (List.replicate 24 (F.ofRat (1 / 24))) := by
      have : KeyTransition.builtins.find? (fun p => p.1 == "symmetrical") =
          some ("symmetrical", KeyTransition.symmetrical) := by decide +kernel
      unfold KeyTransition.specTable
      rw [if_neg (by decide), this]
      unfold KeyTransition.symmetrical
      rw [Option.map_some, List.map_replicate]
    exact ((KeyTransition.C17_selection F "symmetrical" (List.replicate 24 F.zero) []).1 _ hs).2.1
  simp only [harr, KeyProfile.all_eq]
  have := forM_tab (fun _ => F.ofRat (1 / 24)) (fun m k => (do
    let n ← k.getInt
    let v ← Res.read (List.replicate 24 (F.ofRat (1 / 24)))[n.toNat]?
    return m.set n v)) (by
      intro m n hn
      have hk := mem_keys.1 hn
      rw [Key.getInt_ofInt hk, Res.bind_ok, List.getElem?_replicate_of_lt (by unfold IsKey at hk; omega)]
      rfl) keys (fun _ h => h) (by decide) [] (by simp)
  exact this

theorem transitions_eq (F : FPU D) (cfg : Config D) (h : Config.WF cfg) :
    ((KeyTransition.mk2 F cfg.keyTransition cfg.customKeyTransition).getMap F).1 =
      .ok (transMap F (transArray F cfg)) := by
  have hl := transArray_len F cfg h
  have key : ((KeyTransition.mk2 F cfg.keyTransition cfg.customKeyTransition).getMap F).1 =
      KeyTransition.mapOf (transArray F cfg) := by
    have := KeyTransition.C17_selection F cfg.keyTransition cfg.customKeyTransition []
    unfold transArray
    cases hs : KeyTransition.specTable F cfg.keyTransition cfg.customKeyTransition with
    | none => exact (this.2 hs).2.2
    | some a => exact (this.1 a hs).2.2
  rw [key, KeyTransition.mapOf_eq _ hl F.zero]
  rfl

theorem zero_eq (F : FPU D) :
    ((KeyTransition.mk1 F "zero").getMap F).1 = .ok (transMap F (zeroArray F)) := by
  have hs : KeyTransition.specTable F "zero" (List.replicate 24 F.zero) = some (zeroArray F) := by
    have : KeyTransition.builtins.find? (fun p => p.1 == "zero") =
        some ("zero", KeyTransition.zeroTable) := by decide +kernel
    unfold KeyTransition.specTable
    rw [if_neg (by decide), this]
    rfl
  have := ((KeyTransition.C17_selection F "zero" (List.replicate 24 F.zero) []).1 _ hs).2.2
  rw [KeyTransition.mapOf_eq _ (zeroArray_len F) F.zero] at this
  exact this

theorem emissions_eq (F : FPU D) (cfg : Config D) (h : Config.WF cfg) :
    ∃ kp, (KeyProfile.mk4 F cfg.majorKeyProfile cfg.minorKeyProfile cfg.majorCustomKeyProfile
      cfg.minorCustomKeyProfile).getMap F = .ok (emisMap F (profArrays F cfg), kp) := by
  obtain ⟨h1, h2⟩ := profArrays_len F cfg h
  obtain ⟨kp, hk, _⟩ := KeyProfile.getMap_eq F _ _ _ _ _ h1 h2 F.zero
    (KeyProfile.hinv_view F (profArgs cfg) _ (KeyProfile.hinv_build F (profArgs cfg)))
  exact ⟨kp, hk⟩

theorem tab_keys {V : Type} (ks : List Int) (f : Int → V) : AMap.keys (tab ks f) = ks := by
  simp [AMap.keys, tab, Function.comp_def]

theorem mapOk_tab {V : Type} (ks : List Int) (hk : ks.Nodup) (f : Int → V) : MapOk (tab ks f) := by
  unfold MapOk; rw [tab_keys]; exact hk

theorem mapOk2_tab {V : Type} (ks ls : List Int) (hk : ks.Nodup) (hl : ls.Nodup) (f : Int → Int → V) :
    MapOk2 (tab ks (fun x => tab ls (f x))) := by
  refine ⟨mapOk_tab ks hk _, ?_⟩
  intro p hp
  obtain ⟨x, _, rfl⟩ := List.mem_map.1 hp
  exact mapOk_tab ls hl _

theorem stage1_wf (F : FPU D) (cfg : Config D) (os : List Int) : (stage1 F cfg os).WF :=
  ⟨fun _ h => mem_keys.1 h, mapOk_tab _ (by decide) _, mapOk2_tab _ _ (by decide) (by decide) _,
    mapOk2_tab _ _ (by decide) (by decide) _⟩

theorem stage2_wf (F : FPU D) (cfg : Config D) (os : List Int) : (stage2 F cfg os).WF :=
  ⟨fun _ h => mem_keys.1 h, mapOk_tab _ (by decide) _, mapOk2_tab _ _ (by decide) (by decide) _,
    mapOk2_tab _ _ (by decide) (by decide) _⟩

theorem rd_tab (F : FPU D) (ks : List Int) (f : Int → D) {k : Int} (h : k ∈ ks) : rd F (tab ks f) k = f k := by
  unfold rd; rw [get?_tab, if_pos h]; rfl

theorem rd2_tab (F : FPU D) (ks ls : List Int) (f : Int → Int → D) {a b : Int} (ha : a ∈ ks) (hb : b ∈ ls) :
    rd2 F (tab ks (fun x => tab ls (f x))) a b = f a b := by
  unfold rd2; rw [get?_tab, if_pos ha]; exact rd_tab F ls (f a) hb

/-- The detection as two Viterbi runs on the two models. -/
theorem detect_eq (F : FPU D) (iter₁ iter₂ : Iter D) (cfg : Config D) (h : Config.WF cfg) (os : List Int)
    (ho : ∀ o ∈ os, 0 ≤ o ∧ o < 12) :
    detect F iter₁ iter₂ cfg (os.map PitchClass.ofInt) = (do
      let h1 ← runViterbi F iter₁ (stage1 F cfg os).fresh
      if h1.getStatus ≠ statusHmmViterbiReady then
        return .error h1.getStatus
      else
        let hmm2 ← ofKeys h1.getKeySequence Key.all (initMap F) (transMap F (zeroArray F))
          (transMap F (transArray F cfg))
        let hmm2 ← runViterbi F iter₂ hmm2
        match hmm2.getKeySequence with
        | [] => .ub
        | k :: _ =>
          return .ok { localKeys := h1.getKeySequence, globalKeys := hmm2.getKeySequence
                       probabilities := hmm2.getProbabilityVector, mainKey := k }) := by
  unfold detect
  obtain ⟨kp, he⟩ := emissions_eq F cfg h
  have hp : ofPitchClasses (os.map PitchClass.ofInt) Key.all (initMap F) (transMap F (transArray F cfg))
      (emisMap F (profArrays F cfg)) = .ok (stage1 F cfg os).fresh := by
    rw [KeyProfile.all_eq]
    exact (C18_constructors (stage1 F cfg os) (fun s hs => mem_keys.1 hs)).1 ho
  simp only [initial_eq, transitions_eq F cfg h, he, Res.bind_ok, hp, zero_eq]
  rfl

theorem ofKeys_eq (F : FPU D) (cfg : Config D) (ks : List Int) (hk : ∀ k ∈ ks, k ∈ keys) :
    ofKeys (ks.map Key.ofInt) Key.all (initMap F) (transMap F (zeroArray F)) (transMap F (transArray F cfg)) =
      .ok (stage2 F cfg ks).fresh := by
  rw [KeyProfile.all_eq]
  exact (C18_constructors (stage2 F cfg ks) (fun s hs => mem_keys.1 hs)).2.1 (fun o ho => mem_keys.1 (hk o ho))

section
variable {F : FPU D} {Num : D → Prop} (W : FPLaws F Num)
include W

/-- What detection does on a non-empty pitch-class sequence. -/
theorem detect_spec (iter₁ iter₂ : Iter D) (hi₁ : iter₁.Ok) (hi₂ : iter₂.Ok) (cfg : Config D)
    (h : Config.WF cfg) (os : List Int) (ho : ∀ o ∈ os, 0 ≤ o ∧ o < 12) (hne : os ≠ []) :
    (detect F iter₁ iter₂ cfg (os.map PitchClass.ofInt) = .throw .outOfRange ∧
      ((∀ ks, (stage1 F cfg os).IsPath ks → ¬ Possible F ((stage1 F cfg os).tables F) os ks) ∨
        ∃ p1 h1, runViterbi F iter₁ (stage1 F cfg os).fresh = .ok h1 ∧
          RunOk F Num (stage1 F cfg os).fresh h1 p1 ∧
          ∀ ks, (stage2 F cfg p1).IsPath ks → ¬ Possible F ((stage2 F cfg p1).tables F) p1 ks)) ∨
    ∃ p1 h1 p2 h2 k, runViterbi F iter₁ (stage1 F cfg os).fresh = .ok h1 ∧
      RunOk F Num (stage1 F cfg os).fresh h1 p1 ∧
      runViterbi F iter₂ (stage2 F cfg p1).fresh = .ok h2 ∧
      RunOk F Num (stage2 F cfg p1).fresh h2 p2 ∧
      p2.head? = some k ∧ k ∈ keys ∧
      detect F iter₁ iter₂ cfg (os.map PitchClass.ofInt) =
        .ok (.ok { localKeys := p1.map Key.ofInt, globalKeys := p2.map Key.ofInt
                   probabilities := h2.probVec, mainKey := Key.ofInt k }) := by
  rw [detect_eq F iter₁ iter₂ cfg h os ho]
  rcases fresh_spec W iter₁ hi₁ (stage1 F cfg os) (stage1_wf F cfg os) hne with ⟨hno, ht⟩ | ⟨p1, h1, hr1, R1⟩
  · left
    rw [ht]
    exact ⟨rfl, Or.inl hno⟩
  · have hk1 : h1.getKeySequence = p1.map Key.ofInt := by
      have := R1.keySeq
      unfold getKeySequence
      simpa [Problem.fresh, build] using this
    have hmem : ∀ k ∈ p1, k ∈ keys := R1.isPath.2
    have hp1 : p1 ≠ [] := by
      have hl : p1.length = os.length := R1.isPath.1
      rintro rfl
      exact hne (List.length_eq_zero_iff.1 hl.symm)
    rw [hr1]
    simp only [Res.bind_ok]
    rw [if_neg (by rw [not_not]; exact R1.status), hk1, ofKeys_eq F cfg p1 hmem]
    simp only [Res.bind_ok]
    rcases fresh_spec W iter₂ hi₂ (stage2 F cfg p1) (stage2_wf F cfg p1) hp1 with
      ⟨hno, ht⟩ | ⟨p2, h2, hr2, R2⟩
    · left
      rw [ht]
      exact ⟨rfl, Or.inr ⟨p1, h1, rfl, R1, hno⟩⟩
    · right
      have hk2 : h2.getKeySequence = p2.map Key.ofInt := by
        have := R2.keySeq
        unfold getKeySequence
        simpa [Problem.fresh, build] using this
      cases hp2 : p2 with
      | nil =>
        have hl : p2.length = p1.length := R2.isPath.1
        rw [hp2] at hl
        exact absurd (List.length_eq_zero_iff.1 hl.symm) hp1
      | cons k rest =>
        refine ⟨p1, h1, k :: rest, h2, k, rfl, R1, hr2, hp2 ▸ R2, rfl, R2.isPath.2 k (by simp [hp2]), ?_⟩
        rw [hr2, Res.bind_ok, hk2, hp2]
        rfl

end

end JKD.Detect
