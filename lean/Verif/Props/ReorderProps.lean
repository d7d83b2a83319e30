import Verif.Props.ClassifierProps
/-
C154: neither the order nor the keys of the training pieces matter.
-/

namespace JKD.Py

open Spec Finset

/-! ### Rows moved up -/

/-- A row moved up `t` semitones. -/
def moveUp (t : Nat) (x : List ℝ) : List ℝ := (List.range x.length).map (fun i => x.getD (12 * (i / 12) + (i + 11 * t) % 12) 0)

theorem moveUp_moved {n : Nat} (t : Nat) {x : List ℝ} (hx : x.length = 24 * n) : Moved t x (moveUp t x) := by
  unfold moveUp
  refine ⟨by simp, ?_⟩
  intro i hi
  rw [hx] at hi
  rw [List.getElem?_map, hx, List.getElem?_range (moved_lt t n i hi)]
  simp only [Option.map_some]
  rw [show 12 * (moved t i / 12) + (moved t i + 11 * t) % 12 = i by unfold moved; omega, List.getD_eq_getElem?_getD,
    List.getElem?_eq_getElem (by omega)]
  rfl

theorem moveUp_unique {n t : Nat} {x x' : List ℝ} (hx : x.length = 24 * n) (h : Moved t x x') : x' = moveUp t x :=
  Moved.unique (n := 2 * n) (by omega) h (moveUp_moved t hx)

theorem moved_trans {n t u : Nat} {x a b : List ℝ} (hx : x.length = 24 * n) (ha : Moved t x a) (hb : Moved u a b) :
    Moved ((u + t) % 12) x b := by
  refine ⟨by rw [hb.1, ha.1], ?_⟩
  intro i hi
  have hi' := hi
  rw [hx] at hi
  rw [← ha.2 i hi', ← hb.2 (moved t i) (by rw [ha.1, hx]; exact moved_lt t n i hi)]
  congr 1
  unfold moved
  omega

/-! ### Augmented pieces -/

/-- **Specification.**  The twelve labelled rows of a piece. -/
def twelve (p : List ℝ × Int) : List (List ℝ × Int) := (List.range 12).map (fun u : Nat => (moveUp u p.1, transposeKey u p.2))

/-- **Specification.**  The same piece in another key: row and label are moved by the same number of semitones. -/
def OtherKey (p q : List ℝ × Int) : Prop := ∃ t : Nat, Moved t p.1 q.1 ∧ q.2 = transposeKey t p.2

theorem rotate_perm (t : Nat) : ((List.range 12).map (fun u => (u + t) % 12)).Perm (List.range 12) := by
  have key : ∀ t < 12, ((List.range 12).map (fun u => (u + t) % 12)).Perm (List.range 12) := by decide
  have e : (List.range 12).map (fun u => (u + t) % 12) = (List.range 12).map (fun u => (u + t % 12) % 12) := by
    refine List.map_congr_left ?_
    intro u _
    omega
  rw [e]
  exact key _ (Nat.mod_lt _ (by decide))

theorem twelve_otherKey {n : Nat} {p q : List ℝ × Int} (hp : p.1.length = 24 * n) (h : OtherKey p q) : (twelve q).Perm (twelve p) := by
  obtain ⟨t, hm, hl⟩ := h
  have e : twelve q = ((List.range 12).map (fun u => (u + t) % 12)).map (fun u : Nat => (moveUp u p.1, transposeKey u p.2)) := by
    unfold twelve
    rw [List.map_map]
    refine List.map_congr_left ?_
    intro u _
    have hq : q.1.length = 24 * n := by rw [hm.1, hp]
    simp only [Function.comp_apply]
    rw [hl, transposeKey_twice u t p.2, ← moveUp_unique hp (moved_trans hp hm (moveUp_moved u hq)), Nat.add_comm t u]
  rw [e]
  exact (rotate_perm t).map _

theorem flatMap_twelve_perm {n : Nat} {ps qs : List (List ℝ × Int)} (h : List.Forall₂ OtherKey ps qs) (hl : ∀ p ∈ ps, p.1.length = 24 * n) :
    (qs.flatMap twelve).Perm (ps.flatMap twelve) := by
  induction h with
  | nil => exact List.Perm.refl _
  | cons hpq _ ih =>
    rw [List.flatMap_cons, List.flatMap_cons]
    exact (twelve_otherKey (hl _ (by simp)) hpq).append (ih (fun p hp => hl p (by simp [hp])))

theorem flatMap_getElem {α β : Type} (f : α → List β) (l : List α) (hf : ∀ a ∈ l, (f a).length = 12) (m u : Nat) (hu : u < 12) :
    (l.flatMap f)[12 * m + u]? = l[m]?.bind (fun a => (f a)[u]?) := by
  induction l generalizing m with
  | nil => simp
  | cons a l ih =>
    have ha := hf a (by simp)
    rw [List.flatMap_cons]
    cases m with
    | zero =>
      rw [List.getElem?_append_left (by omega)]
      simp
    | succ m =>
      rw [List.getElem?_append_right (by omega), ha, show 12 * (m + 1) + u - 12 = 12 * m + u by omega, ih (fun a h => hf a (by simp [h]))]
      simp

/-- Twelve rows per piece. -/
theorem zip_eq_twelve {n : Nat} {X : List (List ℝ)} {y : List Int} (ps : List (List ℝ × Int)) (hl : ∀ p ∈ ps, p.1.length = 24 * n)
    (hX : X.length = 12 * ps.length) (hy : y.length = 12 * ps.length)
    (h : ∀ (m : Nat) (p : List ℝ × Int), ps[m]? = some p → ∀ u < 12, y[12 * m + u]? = some (transposeKey u p.2) ∧
      ∃ x', X[12 * m + u]? = some x' ∧ Moved u p.1 x') : X.zip y = ps.flatMap twelve := by
  have hf : ∀ p ∈ ps, (twelve p).length = 12 := fun p _ => by simp [twelve]
  apply List.ext_getElem?
  intro j
  have hj : j = 12 * (j / 12) + j % 12 := by omega
  rw [hj, flatMap_getElem twelve ps hf (j / 12) (j % 12) (by omega)]
  cases hp : ps[j / 12]? with
  | none =>
    rw [List.getElem?_eq_none_iff] at hp
    rw [Option.bind_none, List.getElem?_eq_none_iff, List.length_zip, hX, hy]
    omega
  | some p =>
    obtain ⟨h1, x', h2, h3⟩ := h _ p hp (j % 12) (by omega)
    rw [moveUp_unique (hl p (List.mem_of_getElem? hp)) h3] at h2
    have hzip : (X.zip y)[12 * (j / 12) + j % 12]? = some (moveUp (j % 12) p.1, transposeKey ((j % 12 : Nat) : Int) p.2) :=
      List.getElem?_zip_eq_some.2 ⟨h2, h1⟩
    rw [Option.bind_some, hzip]
    unfold twelve
    rw [List.getElem?_map, List.getElem?_range (by omega)]
    rfl

/-! ### Equal objectives -/

theorem fitted_apart {ε C : ℝ} (hC : 0 ≤ C) {d : Nat} {X X' : List (List ℝ)} {y y' : List Int} (hne : y ≠ []) (hc : y.toFinset = y'.toFinset)
    (hp : (X.zip y).Perm (X'.zip y')) {W V : Int → Nat → ℝ} (hW : Fitted ε C d X y W) (hV : Fitted ε C d X' y' V) :
    apart y.toFinset d W V ≤ 8 * ε := by
  have he : ∀ U, objective C y'.toFinset d (X'.zip y') U = objective C y.toFinset d (X.zip y) U := by
    intro U
    unfold objective
    rw [← hc, (hp.map _).sum_eq]
  have h1 := hW (halfway W V)
  have h2 := hV (halfway W V)
  rw [he, he] at h2
  have h3 := objective_halfway hC y.toFinset (by simpa using hne) d (X.zip y) W V
  linarith

theorem apart_decision (classes : Finset Int) (d : Nat) (W V : Int → Nat → ℝ) {b : ℝ} (h : apart classes d W V ≤ b) (x : List ℝ) (k : Int)
    (hk : k ∈ classes) : |decision d W k x - decision d V k x| ≤ √(b * ∑ i ∈ range d, x.getD i 0 ^ 2) := by
  have e : decision d W k x - decision d V k x = ∑ i ∈ range d, (W k i - V k i) * x.getD i 0 := by
    unfold decision
    rw [← Finset.sum_sub_distrib]
    refine Finset.sum_congr rfl ?_
    intro i _
    ring
  rw [e]
  apply Real.abs_le_sqrt
  refine (Finset.sum_mul_sq_le_sq_mul_sq _ _ _).trans (mul_le_mul_of_nonneg_right ?_ (Finset.sum_nonneg (fun i _ => sq_nonneg _)))
  refine le_trans ?_ h
  exact Finset.single_le_sum (f := fun k => ∑ i ∈ range d, (W k i - V k i) ^ 2)
    (fun k _ => Finset.sum_nonneg (fun i _ => sq_nonneg _)) hk

/-! ### C154 -/

/-- The labelled rows of the pieces of some folders. -/
def Rows (R : Runner ℝ) (kp : Store ℝ) (tiny : ℝ → Bool) (Fs : List Folder) (ps : List (List ℝ × Int)) : Prop :=
  List.Forall₂ (fun (q : Folder × Str) p => scriptRow R tiny kp (q.1.file q.2) = .ok [p.1] ∧ p.2 = parseLabel (q.1.line q.2)) (allPieces Fs) ps

theorem trained_rows (R : Runner ℝ) (penalty : ℝ) (hR : Numeric R penalty) (kp : Store ℝ) (tiny : ℝ → Bool)
    (dir : List (Str × Content ℝ)) (Fs : List Folder) (hne : Fs ≠ []) (h : ∀ F ∈ Fs, F.Good ∧ F.In R kp dir) :
    ∃ X y, trainingSet tiny (Fs.map (fun F => loadDataset F.name dir)) = .ok (X, y) ∧
      ∀ ps, Rows R kp tiny Fs ps → X.zip y = ps.flatMap twelve ∧ y = (ps.flatMap twelve).map Prod.snd ∧ ∀ p ∈ ps, p.1.length = 24 * 30 := by
  obtain ⟨X, y, h1, h2, h3, h4⟩ := C107_same_row R penalty hR kp tiny dir Fs hne h
  refine ⟨X, y, h1, ?_⟩
  intro ps hps
  have hl : ∀ p ∈ ps, p.1.length = 24 * 30 := by
    intro p hp
    obtain ⟨i, hi, rfl⟩ := List.getElem_of_mem hp
    have hi' : i < (allPieces Fs).length := by rw [hps.length_eq]; exact hi
    exact scriptRow_length R penalty hR kp tiny _ _ (hps.get hi' hi).1
  have hz : X.zip y = ps.flatMap twelve := by
    refine zip_eq_twelve (n := 30) ps hl (by rw [h2, hps.length_eq]) (by rw [h3, hps.length_eq]) ?_
    intro m p hm u hu
    have hmlt : m < ps.length := (List.getElem?_eq_some_iff.1 hm).1
    have hmlt' : m < (allPieces Fs).length := by rw [hps.length_eq]; exact hmlt
    have hrel := hps.get hmlt' hmlt
    rw [List.getElem?_eq_getElem hmlt] at hm
    cases hm
    simp only [List.get_eq_getElem] at hrel
    obtain ⟨row, e1, -, -, -, hall⟩ := h4 m (allPieces Fs)[m].1 (allPieces Fs)[m].2 (List.getElem?_eq_getElem hmlt')
    have := hrel.1
    rw [e1] at this
    cases this
    rw [hrel.2]
    exact hall u hu
  refine ⟨hz, ?_, hl⟩
  rw [← hz, List.map_snd_zip (by rw [h2, h3])]

/-- **C154.**  Two trainings, on folders with the same pieces in any order, distributed among the folders in any way, each piece in any
key: weights fitted up to `ε` give every row the same decision values up to the bound, and the same answer if a key leads by more than
twice the bound. -/
theorem C154_same_classifier (R : Runner ℝ) (penalty : ℝ) (hR : Numeric R penalty) (kp : Store ℝ) (tiny : ℝ → Bool)
    (dir dir' : List (Str × Content ℝ)) (Fs Fs' : List Folder) (hne : Fs ≠ []) (hne' : Fs' ≠ []) (h : ∀ F ∈ Fs, F.Good ∧ F.In R kp dir)
    (h' : ∀ F ∈ Fs', F.Good ∧ F.In R kp dir') (ps qs : List (List ℝ × Int)) (hps : Rows R kp tiny Fs ps) (hqs : Rows R kp tiny Fs' qs)
    (ms : List (List ℝ × Int)) (hm : List.Forall₂ OtherKey ps ms) (hperm : ms.Perm qs) :
    ∃ X y X' y', trainingSet tiny (Fs.map (fun F => loadDataset F.name dir)) = .ok (X, y) ∧
      trainingSet tiny (Fs'.map (fun F => loadDataset F.name dir')) = .ok (X', y') ∧ (∀ k, k ∈ y ↔ k ∈ y') ∧
      ∀ (ε C : ℝ) (W V : Int → Nat → ℝ), 0 ≤ C → Fitted ε C 720 X y W → Fitted ε C 720 X' y' V → ∀ (x : List ℝ) (k : Int), k ∈ y →
        |decision 720 W k x - decision 720 V k x| ≤ √(8 * ε * ∑ i ∈ range 720, x.getD i 0 ^ 2) ∧
        ((∀ j ∈ y, j ≠ k → decision 720 W j x + 2 * √(8 * ε * ∑ i ∈ range 720, x.getD i 0 ^ 2) < decision 720 W k x) →
          ∀ a b, Answer y.toFinset 720 W x a → Answer y'.toFinset 720 V x b → a = k ∧ b = k) := by
  obtain ⟨X, y, h1, h2⟩ := trained_rows R penalty hR kp tiny dir Fs hne h
  obtain ⟨X', y', h1', h2'⟩ := trained_rows R penalty hR kp tiny dir' Fs' hne' h'
  obtain ⟨e1, e2, e3⟩ := h2 ps hps
  obtain ⟨e1', e2', -⟩ := h2' qs hqs
  have hp : (ps.flatMap twelve).Perm (qs.flatMap twelve) := (flatMap_twelve_perm hm e3).symm.trans (hperm.flatMap_right _)
  have hy : y.Perm y' := by
    rw [e2, e2']
    exact hp.map _
  have hcl : y.toFinset = y'.toFinset := List.toFinset_eq_of_perm _ _ hy
  refine ⟨X, y, X', y', h1, h1', fun k => hy.mem_iff, ?_⟩
  intro ε C W V hC hW hV x
  have hdiff : ∀ k ∈ y, |decision 720 W k x - decision 720 V k x| ≤ √(8 * ε * ∑ i ∈ range 720, x.getD i 0 ^ 2) := by
    intro k hk
    exact apart_decision y.toFinset 720 W V
      (fitted_apart hC (List.ne_nil_of_mem hk) hcl (by rw [e1, e1']; exact hp) hW hV) x k (List.mem_toFinset.2 hk)
  intro k hk
  refine ⟨hdiff k hk, ?_⟩
  intro hlead a b ha hb
  have hs := Real.sqrt_nonneg (8 * ε * ∑ i ∈ range 720, x.getD i 0 ^ 2)
  constructor
  · by_contra hn
    have h1 := hlead a (List.mem_toFinset.1 ha.1) hn
    have h2 := (ha.2 k (List.mem_toFinset.2 hk)).1
    linarith
  · by_contra hn
    have hby : b ∈ y := by
      have := hb.1
      rw [← hcl] at this
      exact List.mem_toFinset.1 this
    have h1 := hlead b hby hn
    have h2 := (hb.2 k (by rw [← hcl]; exact List.mem_toFinset.2 hk)).1
    have h3 := abs_le.1 (hdiff k hk)
    have h4 := abs_le.1 (hdiff b hby)
    linarith [h3.2, h4.1]

/-- The labelled row of a piece. -/
noncomputable def labelledRow (R : Runner ℝ) (kp : Store ℝ) (tiny : ℝ → Bool) (q : Folder × Str) : List ℝ × Int :=
  ((match scriptRow R tiny kp (q.1.file q.2) with | .ok (r :: _) => r | _ => []), parseLabel (q.1.line q.2))

/-- Every piece has its row. -/
theorem rows_labelled (R : Runner ℝ) (penalty : ℝ) (hR : Numeric R penalty) (kp : Store ℝ) (tiny : ℝ → Bool) (dir : List (Str × Content ℝ))
    (Fs : List Folder) (hne : Fs ≠ []) (h : ∀ F ∈ Fs, F.Good ∧ F.In R kp dir) :
    Rows R kp tiny Fs ((allPieces Fs).map (labelledRow R kp tiny)) ∧ ∀ q ∈ allPieces Fs, IsKey (parseLabel (q.1.line q.2)) := by
  obtain ⟨X, y, -, -, -, h4⟩ := C107_same_row R penalty hR kp tiny dir Fs hne h
  constructor
  · refine List.forall₂_map_right_iff.2 (List.forall₂_same.2 ?_)
    intro q hq
    obtain ⟨m, hm⟩ := List.mem_iff_getElem?.1 hq
    obtain ⟨row, e, -⟩ := h4 m q.1 q.2 hm
    unfold labelledRow
    rw [e]
    exact ⟨rfl, rfl⟩
  · intro q hq
    obtain ⟨m, hm⟩ := List.mem_iff_getElem?.1 hq
    obtain ⟨row, -, -, -, e3, hall⟩ := h4 m q.1 q.2 hm
    have := (hall 0 (by decide)).1
    rw [Nat.add_zero, e3] at this
    rw [Option.some.inj this]
    exact Key.transposeKey_isKey _ _

end JKD.Py

namespace JKD.Script

open Py Main Spec Detect

/-- **Specification.**  The second piece is the first one in another key, or in the same one: its music is transposed and so is its
annotation. -/
def SamePiece {D S P T : Type} (E : Env D S P T) (fmt : ℝ → Str) (kt kp : Store ℝ) (q q' : Folder × Str) : Prop :=
  (q'.1.file q'.2 = q.1.file q.2 ∧ q'.1.line q'.2 = q.1.line q.2) ∨
  ∃ (t : Nat) (os : List Int), (∀ o ∈ os, 0 ≤ o ∧ o < 12) ∧ os ≠ [] ∧ Reads E (q.1.file q.2) os ∧
    Reads E (q'.1.file q'.2) (os.map (transposePc t)) ∧ (∀ cfg ∈ members E fmt kt kp, Decided E.F os cfg) ∧
    parseLabel (q'.1.line q'.2) = transposeKey t (parseLabel (q.1.line q.2))

/-- **C154.**  Training on the same pieces in another order, distributed among folders in another way, and some of them in another key
(if no member of the ensemble is undecided about them) gives a classifier with the same answers: the script prints the same key for
every file for which one key leads by more than the bound. -/
theorem C154_same_answers {D S P T : Type} {Num : D → Prop} (E : Env D S P T) (W : FPLaws E.F Num) (hi₁ : HMM.Iter.Ok E.iter₁)
    (hi₂ : HMM.Iter.Ok E.iter₂) (crash : Str) (fmt : ℝ → Str) (toFloat : Str → Option ℝ) (kt : Store ℝ) (kp : Store ℝ)
    (hT : Tables E fmt kt kp) (penalty : ℝ) (hpen : toFloat "-1000000".toList = some penalty) (read : D → ℝ)
    (hr : Readable E toFloat read) (hz : ZeroKills E.F) (tiny : ℝ → Bool) (dir dir' : List (Str × Content ℝ)) (Fs Fs' : List Folder)
    (hne : Fs ≠ []) (hne' : Fs' ≠ []) (hR : Numeric (programRunner E crash fmt toFloat kt) penalty)
    (h : ∀ F ∈ Fs, F.Good ∧ F.In (programRunner E crash fmt toFloat kt) kp dir)
    (h' : ∀ F ∈ Fs', F.Good ∧ F.In (programRunner E crash fmt toFloat kt) kp dir')
    (pcs : List (Folder × Str)) (hsame : List.Forall₂ (SamePiece E fmt kt kp) (allPieces Fs) pcs) (hperm : pcs.Perm (allPieces Fs')) :
    ∃ X y X' y', trainingSet tiny (Fs.map (fun F => loadDataset F.name dir)) = .ok (X, y) ∧
      trainingSet tiny (Fs'.map (fun F => loadDataset F.name dir')) = .ok (X', y') ∧
      ∀ (ε C : ℝ) (w v : Int → Nat → ℝ) (predict predict' : List ℝ → Int), 0 ≤ C → Fitted ε C 720 X y w → Fitted ε C 720 X' y' v →
        (∀ x, x.length = 720 → Answer y.toFinset 720 w x (predict x)) → (∀ x, x.length = 720 → Answer y'.toFinset 720 v x (predict' x)) →
        ∀ (file : Str) (row : List ℝ), scriptRow (programRunner E crash fmt toFloat kt) tiny kp file = .ok [row] →
          ∀ k ∈ y, (∀ j ∈ y, j ≠ k → decision 720 w j row + 2 * √(8 * ε * ∑ i ∈ Finset.range 720, row.getD i 0 ^ 2) < decision 720 w k row) →
            scriptMain (programRunner E crash fmt toFloat kt) tiny kp predict file = .ok (keyName k) ∧
            scriptMain (programRunner E crash fmt toFloat kt) tiny kp predict' file = .ok (keyName k) := by
  obtain ⟨r1, k1⟩ := rows_labelled _ penalty hR kp tiny dir Fs hne h
  obtain ⟨r2, -⟩ := rows_labelled _ penalty hR kp tiny dir' Fs' hne' h'
  have hrel : List.Forall₂ OtherKey ((allPieces Fs).map (labelledRow (programRunner E crash fmt toFloat kt) kp tiny))
      (pcs.map (labelledRow (programRunner E crash fmt toFloat kt) kp tiny)) := by
    rw [List.forall₂_map_left_iff, List.forall₂_map_right_iff]
    have hrow : ∀ q ∈ allPieces Fs, ∃ row, scriptRow (programRunner E crash fmt toFloat kt) tiny kp (q.1.file q.2) = .ok [row] := by
      intro q hq
      exact ⟨_, (List.forall₂_same.1 (List.forall₂_map_right_iff.1 r1) q hq).1⟩
    revert k1 hrow
    clear r1 r2 hperm
    generalize allPieces Fs = l at hsame ⊢
    induction hsame with
    | nil => exact fun _ _ => .nil
    | @cons q q' l l' hq _ ih =>
      intro hk hrow
      refine .cons ?_ (ih (fun q h => hk q (by simp [h])) (fun q h => hrow q (by simp [h])))
      rcases hq with ⟨e1, e2⟩ | ⟨t, os, ho, hos, hf, hf', hdec, hlab⟩
      · refine ⟨0, ?_, ?_⟩
        · unfold labelledRow
          rw [e1]
          exact ⟨rfl, fun i hi => by rw [show moved 0 i = i by unfold moved; omega]⟩
        · have hk0 := hk q (by simp)
          unfold labelledRow
          rw [e2]
          simp only
          unfold IsKey at hk0
          unfold transposeKey Spec.tonic Spec.isMajor
          simp only [decide_eq_true_eq, Nat.cast_zero, add_zero]
          split <;> omega
      · obtain ⟨row, row', s1, s2, hmv⟩ := C114_row_moved E W hi₁ hi₂ crash fmt toFloat kt kp hT penalty hpen read hr hz tiny
          (q.1.file q.2) (q'.1.file q'.2) t os ho hos hf hf' hdec
        refine ⟨t, ?_, ?_⟩
        · unfold labelledRow
          rw [s1, s2]
          exact hmv
        · exact hlab
  obtain ⟨X, y, X', y', h1, h2, -, h3⟩ := C154_same_classifier _ penalty hR kp tiny dir dir' Fs Fs' hne hne' h h' _ _ r1 r2 _ hrel (hperm.map _)
  refine ⟨X, y, X', y', h1, h2, ?_⟩
  intro ε C w v predict predict' hC hw hv hp hp' file row hrow k hk hlead
  have l1 := scriptRow_length _ penalty hR kp tiny file row hrow
  obtain ⟨a1, a2⟩ := (h3 ε C w v hC hw hv row k hk).2 hlead _ _ (hp row l1) (hp' row l1)
  unfold scriptMain
  rw [hrow, PyRes.bind_ok, PyRes.bind_ok]
  simp only [List.headD_cons]
  rw [a1, a2]
  exact ⟨rfl, rfl⟩

/-- Two pieces in one order and in the other one, the second of them a fifth higher. -/
example (x : List ℝ) (hx : x.length = 720) :
    List.Forall₂ OtherKey [(List.replicate 720 0, 0), (x, 2)] [(List.replicate 720 0, 0), (moveUp 7 x, 9)] ∧
      [(List.replicate 720 (0 : ℝ), (0 : Int)), (moveUp 7 x, 9)].Perm [(moveUp 7 x, 9), (List.replicate 720 0, 0)] := by
  refine ⟨.cons ⟨0, ⟨rfl, fun i _ => by rw [show moved 0 i = i by unfold moved; omega]⟩, by decide⟩
    (.cons ⟨7, moveUp_moved (n := 30) 7 hx, show (9 : Int) = transposeKey 7 2 by decide⟩ .nil), List.Perm.swap _ _ _⟩

end JKD.Script
