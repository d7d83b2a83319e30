import Verif.Model.PyWhole
import Verif.Props.TrainerProps
import Verif.Props.EnsembleProps
import Verif.Props.LabelProps
import Verif.Props.AugmentProps
/-
C107: from folders of annotated music to the answer of the ensemble script.
-/

namespace JKD.Py

open Spec

variable {K : Type}

/-! ### Specification -/

/-- A folder of annotated music. -/
structure Folder where
  path : Str
  name : Str
  bases : List Str
  ext : Str → Str
  annotations : Str → Option Str
  key : Str → Str
  splits : AMap Str (List Str)

/-- The path of a piece. -/
def Folder.file (F : Folder) (b : Str) : Str := F.path ++ "/features/".toList ++ (b ++ '.' :: F.ext b)

/-- The first line of its annotation. -/
def Folder.line (F : Folder) (b : Str) : Str := (F.key b).takeWhile (fun c => c ≠ '\n' && c ≠ '\r')

/-- All pieces have different base names, known extensions and an annotation that can be read as a key. -/
structure Folder.Good (F : Folder) : Prop where
  some : F.bases ≠ []
  nodup : F.bases.Nodup
  ext : ∀ b ∈ F.bases, F.ext b ∈ ["mid", "csv", "wav"].map String.toList
  key : ∀ b ∈ F.bases, F.annotations (b ++ ".key".toList) = .some (F.key b) ∧ F.key b ≠ []
  label : ∀ b ∈ F.bases, IsKey (parseLabel (F.line b))
  splits : (AMap.keys F.splits).Nodup ∧ ∀ k ∈ AMap.keys F.splits, GoodSplit k

/-- What the data-set program writes for it. -/
def Folder.written (R : Runner K) (kp : Store K) (F : Folder) : PyRes (List (Str × Content K)) :=
  creatorMain R kp F.path F.name (F.bases.map (fun b => b ++ '.' :: F.ext b)) (.some F.annotations) F.splits

/-- The files of the folder in a directory are those written for it. -/
def Folder.In (R : Runner K) (kp : Store K) (F : Folder) (dir : List (Str × Content K)) : Prop :=
  ∃ w, F.written R kp = .ok w ∧ ∀ p, (p ∈ dir ∧ F.name <+: p.1) ↔ p ∈ w

/-! ### Steps -/

/-- A second call gives what a new object gives. -/
theorem evaluate_again (R : Runner K) (kp : Store K) (profiles transitions : List Str) (file : Str) (xs : List (List K))
    (e : Ensembler) (kp' : Store K) (h : (Ensembler.new profiles transitions).evaluate R kp file false = .ok (xs, e, kp'))
    (file' : Str) : e.evaluate R kp' file' false = (Ensembler.new profiles transitions).evaluate R kp file' false := by
  unfold Ensembler.evaluate Ensembler.new Ensembler.getEnsemble at h
  simp only [Bool.false_eq_true, if_false] at h
  obtain ⟨ys, -, h2⟩ := PyRes.bind_eq_ok.1 h
  cases h2
  rfl

theorem evaluateFlat_ok (R : Runner K) (penalty : K) (hR : Numeric R penalty) (kp : Store K) (ps ts : List Str) (file : Str) :
    ∃ x, evaluateFlat R kp (Ensembler.new ps ts) file false = .ok x ∧ x.length = 24 * (ps.length * ts.length) := by
  obtain ⟨xs, e, h1, h2, -⟩ := C45_plain R penalty hR kp ps ts file
  refine ⟨flat xs, ?_, h2⟩
  unfold evaluateFlat
  rw [h1]
  rfl

theorem good_profiles : ∀ m ∈ creatorProfiles, GoodName m := by
  intro m hm
  simp only [creatorProfiles, List.map_cons, List.map_nil, List.mem_cons, List.not_mem_nil, or_false] at hm
  rcases hm with rfl | rfl | rfl | rfl | rfl | rfl | rfl | rfl | rfl | rfl <;>
    exact ⟨by decide, by decide, by decide, by decide, by decide⟩

theorem good_transitions : ∀ m ∈ creatorTransitions, GoodName m := by
  intro m hm
  simp only [creatorTransitions, List.map_cons, List.map_nil, List.mem_cons, List.not_mem_nil, or_false] at hm
  rcases hm with rfl | rfl | rfl <;> exact ⟨by decide, by decide, by decide, by decide, by decide⟩

/-- The metadata of every data set of the program. -/
def defaultEnsemble : Ensemble := ⟨creatorProfiles, creatorTransitions, false⟩

/-- What is stored for a folder. -/
theorem stored (R : Runner K) (penalty : K) (hR : Numeric R penalty) (kp : Store K) (F : Folder) (hF : F.Good)
    (dir : List (Str × Content K)) (hdir : F.In R kp dir) :
    ∃ s : Stored K, s.Is (loadDataset F.name dir) ∧ s.Ok 30 ∧ s.ensemble = defaultEnsemble ∧
      ∃ x : Str → List K, (∀ b, evaluateFlat R kp (Ensembler.new creatorProfiles creatorTransitions) (F.file b) false = .ok (x b)) ∧
        s.X = F.bases.map x ∧ s.y = F.bases.map (fun b => parseLabel (F.line b)) := by
  choose x hx hxl using fun b => evaluateFlat_ok R penalty hR kp creatorProfiles creatorTransitions (F.file b)
  obtain ⟨c, c', h1, h2, h3⟩ := distinct_run (fun f => evaluateFlat R kp (Ensembler.new creatorProfiles creatorTransitions)
    (F.path ++ "/features/".toList ++ f) false) F.name F.bases hF.some hF.nodup F.ext hF.ext x (fun b _ => hx b) F.annotations
    F.key hF.key F.splits
  obtain ⟨w, hw, hd⟩ := hdir
  have hw' : w = c'.write creatorProfiles creatorTransitions false := by
    unfold Folder.written creatorMain at hw
    rw [h1, PyRes.bind_ok, h2] at hw
    cases hw
    rfl
  have hname : c'.name = F.name := by rw [h3]
  subst hw'
  obtain ⟨l, g1, g2, g3⟩ := C61_round_trip c' creatorProfiles creatorTransitions false (by rw [h3]) (by rw [h3]; exact hF.splits.1)
    (by rw [h3]; exact hF.splits.2) defaultEnsemble
    (C62_round_trip _ _ (by decide) (by decide) good_profiles good_transitions) dir (by rw [hname]; exact hd)
  rw [hname] at g1 g3
  refine ⟨⟨defaultEnsemble, F.bases.map x, F.bases.map (fun b => parseLabel (F.line b))⟩, ⟨l, g1, g2, ?_, ?_⟩, ?_, rfl, x, hx, rfl, rfl⟩
  · refine (g3 _ _).2 (Or.inl ⟨rfl, ?_⟩)
    rw [h3]
    simp [Creator.write, Function.comp_def]
  · refine (g3 _ _).2 (Or.inr (Or.inl ⟨rfl, ?_⟩))
    rw [h3]
    simp [Creator.write, Function.comp_def, hF.some, Folder.line]
  · refine ⟨by simpa using hF.some, ?_, by simp, ?_⟩
    · intro y hy
      obtain ⟨b, -, rfl⟩ := List.mem_map.1 hy
      rw [hxl b]
      decide
    · intro y hy
      obtain ⟨b, hb, rfl⟩ := List.mem_map.1 hy
      exact hF.label b hb

theorem same_members : scriptProfiles = creatorProfiles ∧ scriptTransitions = creatorTransitions := by decide

theorem moved_zero {n : Nat} {x x' : List K} (hx : x.length = 12 * n) (h : Moved 0 x x') : x' = x :=
  (Moved.unique hx (t := 0) (x := x) ⟨rfl, fun i _ => by
    have : moved 0 i = i := by unfold moved; omega
    rw [this]⟩ h).symm

/-- The pieces of some folders, in order. -/
def allPieces (Fs : List Folder) : List (Folder × Str) := Fs.flatMap (fun F => F.bases.map (fun b => (F, b)))

section

variable [Field K] [LinearOrder K] [IsStrictOrderedRing K]

omit [Field K] [LinearOrder K] [IsStrictOrderedRing K] in
/-- The stored data of some folders. -/
theorem all_stored (R : Runner K) (penalty : K) (hR : Numeric R penalty) (kp : Store K) (dir : List (Str × Content K)) :
    ∀ Fs : List Folder, (∀ F ∈ Fs, F.Good ∧ F.In R kp dir) →
    ∃ ss : List (Stored K), List.Forall₂ Stored.Is ss (Fs.map (fun F => loadDataset F.name dir)) ∧ ss.length = Fs.length ∧
      (∀ s ∈ ss, s.Ok 30 ∧ s.ensemble = defaultEnsemble) ∧ (pieces ss).length = (allPieces Fs).length ∧
      ∀ (m : Nat) (F : Folder) (b : Str), (allPieces Fs)[m]? = some (F, b) →
        ∃ x, evaluateFlat R kp (Ensembler.new creatorProfiles creatorTransitions) (F.file b) false = .ok x ∧
          (pieces ss)[m]? = some (x, parseLabel (F.line b)) := by
  intro Fs
  induction Fs with
  | nil => intro _; exact ⟨[], .nil, rfl, by simp, rfl, by intro m F b h; simp [allPieces] at h⟩
  | cons F Fs ih =>
    intro h
    obtain ⟨ss, i1, i2, i3, i4, i5⟩ := ih (fun F hF => h F (by simp [hF]))
    obtain ⟨s, h1, h2, h3, x, h4, h5, h6⟩ := stored R penalty hR kp F (h F (by simp)).1 dir (h F (by simp)).2
    have hz : s.X.zip s.y = F.bases.map (fun b => (x b, parseLabel (F.line b))) := by
      rw [h5, h6, List.zip_map', List.map_congr_left]
      intro _ _; rfl
    have hp : pieces (s :: ss) = F.bases.map (fun b => (x b, parseLabel (F.line b))) ++ pieces ss := by
      unfold pieces
      rw [List.flatMap_cons, hz]
    have ha : allPieces (F :: Fs) = F.bases.map (fun b => (F, b)) ++ allPieces Fs := by
      unfold allPieces
      rw [List.flatMap_cons]
    refine ⟨s :: ss, .cons h1 i1, by simp [i2], ?_, by rw [hp, ha]; simp [i4], ?_⟩
    · intro s' hs'
      rcases List.mem_cons.1 hs' with rfl | hs'
      · exact ⟨h2, h3⟩
      · exact i3 s' hs'
    · intro m G b hm
      rw [ha] at hm
      rw [hp]
      by_cases hlt : m < F.bases.length
      · rw [List.getElem?_append_left (by simpa using hlt), List.getElem?_map] at hm ⊢
        obtain ⟨b', hb', e⟩ := Option.map_eq_some_iff.1 hm
        cases e
        exact ⟨x b, h4 b, by rw [hb']; rfl⟩
      · rw [List.getElem?_append_right (by simpa using hlt), List.length_map] at hm ⊢
        exact i5 _ G b hm

/-- **C107.**  Any folders of annotated music, in any order, whatever the program prints for the pieces: the classifier
is fitted to twelve rows per piece; the first of them is, number for number, the row that the ensemble script hands to
the classifier for the same piece, with the annotated key as label, and row `t` is that row moved up `t` semitones with
the label moved up `t` semitones. -/
theorem C107_same_row (R : Runner K) (penalty : K) (hR : Numeric R penalty) (kp : Store K) (tiny : K → Bool)
    (dir : List (Str × Content K)) (Fs : List Folder) (hne : Fs ≠ []) (h : ∀ F ∈ Fs, F.Good ∧ F.In R kp dir) :
    ∃ X y, trainingSet tiny (Fs.map (fun F => loadDataset F.name dir)) = .ok (X, y) ∧
      X.length = 12 * (allPieces Fs).length ∧ y.length = 12 * (allPieces Fs).length ∧
      ∀ (m : Nat) (F : Folder) (b : Str), (allPieces Fs)[m]? = some (F, b) →
        ∃ row, scriptRow R tiny kp (F.file b) = .ok [row] ∧ row.length = 720 ∧
          X[12 * m]? = some row ∧ y[12 * m]? = some (parseLabel (F.line b)) ∧
          ∀ t < 12, y[12 * m + t]? = some (transposeKey t (parseLabel (F.line b))) ∧
            ∃ row', X[12 * m + t]? = some row' ∧ Moved t row row' := by
  obtain ⟨ss, i1, i2, i3, i4, i5⟩ := all_stored R penalty hR kp dir Fs h
  obtain ⟨X, y, h1, h2, h3, h4⟩ := C105_training_set tiny 30 (by decide) defaultEnsemble ss (by
    intro h0
    rw [h0] at i2
    exact hne (List.length_eq_zero_iff.1 i2.symm)) _ i1 i3
  refine ⟨X, y, h1, by rw [h2, i4], by rw [h3, i4], ?_⟩
  intro m F b hm
  obtain ⟨x, e1, e2⟩ := i5 m F b hm
  obtain ⟨row, -, r1, -, -⟩ := (h4 m 0 x _ e2 (by decide)).2
  have hxl : x.length = 24 * 30 := by
    obtain ⟨x', q1, q2⟩ := evaluateFlat_ok R penalty hR kp creatorProfiles creatorTransitions (F.file b)
    rw [e1] at q1
    cases q1
    rw [q2]
    decide
  have hrl : row.length = 24 * 30 := by
    obtain ⟨X', s1, -, s2, -⟩ := scaling_rowwise tiny [x] (by simp) 30 (by decide) (by simpa using hxl)
    rw [r1] at s1
    cases s1
    exact s2 row (by simp)
  have hall : ∀ t < 12, y[12 * m + t]? = some (transposeKey t (parseLabel (F.line b))) ∧
      ∃ row', X[12 * m + t]? = some row' ∧ Moved t row row' := by
    intro t ht
    obtain ⟨a1, x', x'', a2, a3, a4⟩ := h4 m t x _ e2 ht
    rw [r1] at a2
    cases a2
    exact ⟨a1, x'', a3, a4⟩
  have hlab : IsKey (parseLabel (F.line b)) := by
    have hmem := List.mem_of_getElem? hm
    obtain ⟨G, hG, hmem⟩ := List.mem_flatMap.1 hmem
    obtain ⟨b', hb', e⟩ := List.mem_map.1 hmem
    cases e
    exact (h F hG).1.label b hb'
  refine ⟨row, ?_, hrl, ?_, ?_, hall⟩
  · unfold scriptRow
    rw [same_members.1, same_members.2, e1, PyRes.bind_ok, r1]
  · obtain ⟨row', b1, b2⟩ := (hall 0 (by decide)).2
    rw [moved_zero (n := 60) (by rw [hrl]) b2] at b1
    exact b1
  · have := (hall 0 (by decide)).1
    rw [Nat.add_zero] at this
    rw [this]
    congr 1
    unfold IsKey at hlab
    unfold transposeKey Spec.tonic Spec.isMajor
    simp only [decide_eq_true_eq, Nat.cast_zero, add_zero]
    split <;> omega

/-- **C107, answers.**  If the classifier answers every training row with its label, then the ensemble script prints
the annotated key for every piece of every folder. -/
theorem C107_perfect (R : Runner K) (penalty : K) (hR : Numeric R penalty) (kp : Store K) (tiny : K → Bool)
    (dir : List (Str × Content K)) (Fs : List Folder) (h : ∀ F ∈ Fs, F.Good ∧ F.In R kp dir) (predict : List K → Int)
    (hfit : ∀ X y, trainingSet tiny (Fs.map (fun F => loadDataset F.name dir)) = .ok (X, y) →
      ∀ (i : Nat) (x : List K) (l : Int), X[i]? = some x → y[i]? = some l → predict x = l)
    (F : Folder) (hF : F ∈ Fs) (b : Str) (hb : b ∈ F.bases) :
    scriptMain R tiny kp predict (F.file b) = .ok (keyName (parseLabel (F.line b))) := by
  obtain ⟨X, y, h1, -, -, h4⟩ := C107_same_row R penalty hR kp tiny dir Fs (List.ne_nil_of_mem hF) h
  have hmem : (F, b) ∈ allPieces Fs := List.mem_flatMap.2 ⟨F, hF, List.mem_map.2 ⟨b, hb, rfl⟩⟩
  obtain ⟨m, hm⟩ := List.mem_iff_getElem?.1 hmem
  obtain ⟨row, e1, -, e2, e3, -⟩ := h4 m F b hm
  unfold scriptMain
  rw [e1, PyRes.bind_ok]
  simp only [List.headD_cons]
  rw [hfit X y h1 _ row _ e2 e3]
  rfl

end

/-! ### A directory -/

theorem write_prefix (c : Creator K) (ps ts : List Str) (mixed : Bool) : ∀ p ∈ c.write ps ts mixed, c.name <+: p.1 := by
  intro p hp
  unfold Creator.write at hp
  split at hp
  · simp at hp
  · simp only [List.mem_cons, List.mem_append, List.mem_flatMap] at hp
    rcases hp with rfl | rfl | hp | ⟨q, -, hp⟩
    · exact List.prefix_append _ _
    · exact List.prefix_append _ _
    · split at hp
      · simp at hp
      · rw [List.mem_singleton] at hp
        subst hp
        exact List.prefix_append _ _
    · unfold Creator.writeSplit at hp
      simp only at hp
      split at hp
      · simp at hp
      · rcases List.mem_cons.1 hp with rfl | hp
        · rw [List.append_assoc]; exact List.prefix_append _ _
        · split at hp
          · simp at hp
          · rw [List.mem_singleton] at hp
            subst hp
            rw [List.append_assoc]
            exact List.prefix_append _ _

theorem written_ok (R : Runner K) (penalty : K) (hR : Numeric R penalty) (kp : Store K) (F : Folder) (hF : F.Good) :
    ∃ w, F.written R kp = .ok w ∧ ∀ p ∈ w, F.name <+: p.1 := by
  choose x hx hxl using fun b => evaluateFlat_ok R penalty hR kp creatorProfiles creatorTransitions (F.file b)
  obtain ⟨c, c', h1, h2, h3⟩ := distinct_run (fun f => evaluateFlat R kp (Ensembler.new creatorProfiles creatorTransitions)
    (F.path ++ "/features/".toList ++ f) false) F.name F.bases hF.some hF.nodup F.ext hF.ext x (fun b _ => hx b) F.annotations
    F.key hF.key F.splits
  refine ⟨c'.write creatorProfiles creatorTransitions false, ?_, ?_⟩
  · unfold Folder.written creatorMain
    rw [h1, PyRes.bind_ok, h2]
    rfl
  · have := write_prefix c' creatorProfiles creatorTransitions false
    rwa [show c'.name = F.name by rw [h3]] at this

/-- **C107, the directory.**  The hypothesis about the directory is met when the data sets are written to an empty one
and no name is the beginning of another. -/
theorem C107_directory (R : Runner K) (penalty : K) (hR : Numeric R penalty) (kp : Store K) (Fs : List Folder)
    (h : ∀ F ∈ Fs, F.Good) (hsep : ∀ F ∈ Fs, ∀ G ∈ Fs, F.name <+: G.name → F = G) :
    ∃ ws : List (List (Str × Content K)), List.Forall₂ (fun F w => F.written R kp = .ok w) Fs ws ∧
      ∀ F ∈ Fs, F.In R kp ws.flatten := by
  have key : ∀ Gs : List Folder, (∀ F ∈ Gs, F ∈ Fs) →
      ∃ ws : List (List (Str × Content K)), List.Forall₂ (fun F w => F.written R kp = .ok w) Gs ws := by
    intro Gs
    induction Gs with
    | nil => intro _; exact ⟨[], .nil⟩
    | cons G Gs ih =>
      intro hG
      obtain ⟨ws, hws⟩ := ih (fun F hF => hG F (by simp [hF]))
      obtain ⟨w, hw, -⟩ := written_ok R penalty hR kp G (h G (hG G (by simp)))
      exact ⟨w :: ws, .cons hw hws⟩
  obtain ⟨ws, hws⟩ := key Fs (fun _ h => h)
  refine ⟨ws, hws, ?_⟩
  have hmem : ∀ w ∈ ws, ∃ G ∈ Fs, G.written R kp = .ok w := by
    clear key h hsep
    induction hws with
    | nil => simp
    | cons hw _ ih =>
      intro w hw'
      rcases List.mem_cons.1 hw' with rfl | hw'
      · exact ⟨_, by simp, hw⟩
      · obtain ⟨G, hG, e⟩ := ih w hw'
        exact ⟨G, by simp [hG], e⟩
  have hmem' : ∀ G ∈ Fs, ∃ w ∈ ws, G.written R kp = .ok w := by
    clear key h hsep hmem
    induction hws with
    | nil => simp
    | cons hw _ ih =>
      intro G hG
      rcases List.mem_cons.1 hG with rfl | hG
      · exact ⟨_, by simp, hw⟩
      · obtain ⟨w, hw', e⟩ := ih G hG
        exact ⟨w, by simp [hw'], e⟩
  intro F hF
  obtain ⟨w, hw, hpre⟩ := written_ok R penalty hR kp F (h F hF)
  refine ⟨w, hw, ?_⟩
  intro p
  constructor
  · rintro ⟨hp, hpn⟩
    obtain ⟨w', hw', hp⟩ := List.mem_flatten.1 hp
    obtain ⟨G, hG, e⟩ := hmem w' hw'
    obtain ⟨w'', e', hpre'⟩ := written_ok R penalty hR kp G (h G hG)
    rw [e] at e'
    cases e'
    have : F = G := by
      rcases List.prefix_or_prefix_of_prefix hpn (hpre' p hp) with h1 | h1
      · exact hsep F hF G hG h1
      · exact (hsep G hG F hF h1).symm
    subst this
    rw [hw] at e
    cases e
    exact hp
  · intro hp
    obtain ⟨w', hw', e⟩ := hmem' F hF
    rw [hw] at e
    cases e
    exact ⟨List.mem_flatten.2 ⟨w, hw', hp⟩, hpre p hp⟩

/-! ### Example -/

/-- A folder with two pieces and a split. -/
def twoPieces : Folder where
  path := "data/albrecht".toList
  name := "albrecht".toList
  bases := [['1'], ['2']]
  ext := fun _ => "mid".toList
  annotations := fun n => if n = "1.key".toList then some "G major\n".toList else if n = "2.key".toList then some "c#".toList else none
  key := fun b => if b = ['1'] then "G major\n".toList else "c#".toList
  splits := [("test".toList, [['2']])]

theorem test_split : GoodSplit "test".toList := ⟨by decide, by decide, by
  rintro ⟨a, b, h⟩
  have := congrArg List.length h
  have h4 : (lower "test".toList).length = 4 := by decide
  have h9 : "_features".toList.length = 9 := by decide
  rw [h4, List.length_append, List.length_append, h9] at this
  omega⟩

theorem twoPieces_keys : AMap.keys twoPieces.splits = ["test".toList] := rfl

theorem twoPieces_good : twoPieces.Good where
  some := by decide
  nodup := by decide
  ext := by decide
  key := by decide
  label := by decide +kernel
  splits := by
    rw [twoPieces_keys]
    refine ⟨List.nodup_singleton _, ?_⟩
    intro k hk
    rw [List.mem_singleton.1 hk]
    exact test_split

/-- A program that prints 24 words for some runs and nothing for others. -/
def someRunner : Runner ℚ where
  output := fun file _ _ => if file = twoPieces.file ['1'] then (List.range 24).map (fun i => if i = 7 then ['1'] else ['0']) else []
  toFloat := fun w => if w = ['0'] then some 0 else if w = ['1'] then some 1 else if w = "-1000000".toList then some (-1000000) else none
  kt := fun _ => none

theorem someRunner_numeric : Numeric someRunner (-1000000) where
  penalty := by decide +kernel
  words := by
    intro file kp kt _ w hw
    unfold someRunner at hw ⊢
    simp only at hw ⊢
    split at hw
    · obtain ⟨i, -, rfl⟩ := List.mem_map.1 hw
      split
      · exact ⟨1, by decide⟩
      · exact ⟨0, by decide⟩
    · simp at hw

/-- The hypotheses of C107 hold for the folder and a directory; the label of the first piece is G major. -/
example : ∃ dir : List (Str × Content ℚ), (∀ F ∈ [twoPieces], F.Good ∧ F.In someRunner (fun _ => none) dir) ∧
    ∃ X y, trainingSet (fun r : ℚ => decide (r = 0)) [loadDataset "albrecht".toList dir] = .ok (X, y) ∧ X.length = 24 ∧
      y[0]? = some 7 := by
  obtain ⟨ws, -, h⟩ := C107_directory someRunner _ someRunner_numeric (fun _ => none) [twoPieces]
    (by simpa using twoPieces_good) (by simp)
  have h' : ∀ F ∈ [twoPieces], F.Good ∧ F.In someRunner (fun _ => none) ws.flatten := by
    intro F hF
    exact ⟨by rw [List.mem_singleton.1 hF]; exact twoPieces_good, h F hF⟩
  refine ⟨ws.flatten, h', ?_⟩
  obtain ⟨X, y, h1, h2, -, h4⟩ := C107_same_row someRunner _ someRunner_numeric (fun _ => none) (fun r : ℚ => decide (r = 0))
    ws.flatten [twoPieces] (by simp) h'
  obtain ⟨row, -, -, -, e, -⟩ := h4 0 twoPieces ['1'] rfl
  exact ⟨X, y, h1, by rw [h2]; rfl, by rw [e]; decide +kernel⟩

end JKD.Py
