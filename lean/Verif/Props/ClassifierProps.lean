import Verif.Model.PyClassifier
import Verif.Props.ScriptMoveProps
import Mathlib.Analysis.SpecialFunctions.Log.Basic
import Mathlib.Topology.Order.Compact
/-
C153: the fitted classifier treats all keys alike.
-/

namespace JKD.Py

open Spec Finset

/-! ### Sums -/

theorem sum_self_map {α : Type} [DecidableEq α] (s : Finset α) (f : α → α) (h : ∀ a ∈ s, f a ∈ s) (hi : Set.InjOn f s) (g : α → ℝ) :
    ∑ a ∈ s, g (f a) = ∑ a ∈ s, g a := by
  have e : s.image f = s := Finset.eq_of_subset_of_card_le (Finset.image_subset_iff.2 h) (by rw [Finset.card_image_of_injOn hi])
  calc ∑ a ∈ s, g (f a) = ∑ b ∈ s.image f, g b := (Finset.sum_image hi).symm
    _ = _ := by rw [e]

theorem list_sum_eq {α : Type} (l : List α) (f : α → ℝ) (g : Nat → ℝ) (h : ∀ (i : Nat) (a : α), l[i]? = some a → g i = f a) :
    (l.map f).sum = ∑ i ∈ range l.length, g i := by
  induction l generalizing g with
  | nil => simp
  | cons a l ih =>
    rw [List.map_cons, List.sum_cons, List.length_cons, Finset.sum_range_succ', ih (fun i => g (i + 1)) (fun i b hb => h (i + 1) b (by simpa using hb)),
      h 0 a (by simp)]
    ring

theorem sum_twelves (N : Nat) (g : Nat → ℝ) : ∑ i ∈ range (12 * N), g i = ∑ m ∈ range N, ∑ u ∈ range 12, g (12 * m + u) := by
  induction N with
  | zero => simp
  | succ N ih => rw [Finset.sum_range_succ, ← ih, Nat.mul_succ, Finset.sum_range_add]

/-! ### Moving keys and features -/

theorem transposeKey_inj (t : Int) : Set.InjOn (transposeKey t) {k | IsKey k} := by
  intro a ha b hb h
  simp only [Set.mem_ofPred_eq, IsKey] at ha hb
  unfold transposeKey Spec.tonic Spec.isMajor at h
  simp only [decide_eq_true_eq] at h
  split at h <;> split at h <;> omega

theorem transposeKey_twice (t u : Nat) (l : Int) :
    transposeKey t (transposeKey u l) = transposeKey (((u + t) % 12 : Nat) : Int) l := by
  unfold transposeKey Spec.tonic Spec.isMajor
  simp only [decide_eq_true_eq]
  push_cast
  split <;> split <;> omega

theorem moved_lt (t n i : Nat) (h : i < 24 * n) : moved t i < 24 * n := by unfold moved; omega

theorem moved_injOn (t n : Nat) : Set.InjOn (moved t) (range (24 * n) : Finset Nat) := by
  intro a _ b _ h
  unfold moved at h
  omega

/-- Moving by `u + t` is moving by `u` and then by `t`. -/
theorem moved_step {n t u : Nat} {x a b : List ℝ} (hx : x.length = 24 * n) (ha : Moved u x a) (hb : Moved ((u + t) % 12) x b) :
    Moved t a b := by
  refine ⟨by rw [ha.1, hb.1], ?_⟩
  intro i hi
  rw [ha.1, hx] at hi
  -- the place `i` of `a` comes from the place `j` of `x`
  obtain ⟨j, hj, rfl⟩ : ∃ j, j < 24 * n ∧ moved u j = i := by
    refine ⟨12 * (i / 12) + (i + 12 * u - u) % 12, by omega, ?_⟩
    unfold moved
    omega
  rw [ha.2 j (by rw [hx]; exact hj), ← hb.2 j (by rw [hx]; exact hj)]
  congr 1
  unfold moved
  omega

theorem moved_getD {t : Nat} {x x' : List ℝ} (h : Moved t x x') (i : Nat) (hi : i < x.length) :
    x'.getD (moved t i) 0 = x.getD i 0 := by
  rw [List.getD_eq_getElem?_getD, List.getD_eq_getElem?_getD, h.2 i hi]

/-- The weights seen from `t` semitones higher. -/
def shifted (t : Nat) (W : Int → Nat → ℝ) : Int → Nat → ℝ := fun k i => W (transposeKey t k) (moved t i)

theorem decision_shifted {n t : Nat} (W : Int → Nat → ℝ) (k : Int) {x x' : List ℝ} (hx : x.length = 24 * n) (h : Moved t x x') :
    decision (24 * n) (shifted t W) k x = decision (24 * n) W (transposeKey t k) x' := by
  unfold decision shifted
  rw [← sum_self_map (range (24 * n)) (moved t) (fun i hi => mem_range.2 (moved_lt t n i (mem_range.1 hi))) (moved_injOn t n)
    (fun i => W (transposeKey t k) i * x'.getD i 0)]
  refine Finset.sum_congr rfl ?_
  intro i hi
  rw [moved_getD h i (by rw [hx]; exact mem_range.1 hi)]

/-! ### Convexity -/

theorem log_sum_exp_mid (s : Finset Int) (hs : s.Nonempty) (a b : Int → ℝ) :
    Real.log (∑ k ∈ s, Real.exp ((a k + b k) / 2)) ≤ (Real.log (∑ k ∈ s, Real.exp (a k)) + Real.log (∑ k ∈ s, Real.exp (b k))) / 2 := by
  have pos : ∀ f : Int → ℝ, 0 < ∑ k ∈ s, Real.exp (f k) := fun f => Finset.sum_pos (fun k _ => Real.exp_pos _) hs
  have cs : (∑ k ∈ s, Real.exp ((a k + b k) / 2)) ^ 2 ≤ (∑ k ∈ s, Real.exp (a k)) * ∑ k ∈ s, Real.exp (b k) := by
    have := Finset.sum_mul_sq_le_sq_mul_sq s (fun k => Real.exp (a k / 2)) (fun k => Real.exp (b k / 2))
    have e1 : ∀ c : ℝ, Real.exp (c / 2) ^ 2 = Real.exp c := by
      intro c
      rw [← Real.exp_nat_mul]
      congr 1
      push_cast
      ring
    have e2 : ∀ k, Real.exp (a k / 2) * Real.exp (b k / 2) = Real.exp ((a k + b k) / 2) := by
      intro k
      rw [← Real.exp_add]
      congr 1
      ring
    simpa only [e1, e2] using this
  have := Real.log_le_log (pow_pos (pos _) 2) cs
  rw [Real.log_pow, Real.log_mul (pos a).ne' (pos b).ne'] at this
  push_cast at this
  linarith

/-- The weights half way between two others. -/
noncomputable def halfway (W V : Int → Nat → ℝ) : Int → Nat → ℝ := fun k i => (W k i + V k i) / 2

theorem decision_halfway (d : Nat) (W V : Int → Nat → ℝ) (k : Int) (x : List ℝ) :
    decision d (halfway W V) k x = (decision d W k x + decision d V k x) / 2 := by
  unfold decision halfway
  rw [← Finset.sum_add_distrib, Finset.sum_div]
  refine Finset.sum_congr rfl ?_
  intro i _
  ring

/-- The squared distance of weights. -/
noncomputable def apart (classes : Finset Int) (d : Nat) (W V : Int → Nat → ℝ) : ℝ := ∑ k ∈ classes, ∑ i ∈ range d, (W k i - V k i) ^ 2

theorem objective_halfway {C : ℝ} (hC : 0 ≤ C) (classes : Finset Int) (hne : classes.Nonempty) (d : Nat) (rows : List (List ℝ × Int))
    (W V : Int → Nat → ℝ) :
    objective C classes d rows (halfway W V) ≤
      (objective C classes d rows W + objective C classes d rows V) / 2 - apart classes d W V / 8 := by
  have hsq : ∑ k ∈ classes, ∑ i ∈ range d, halfway W V k i ^ 2 =
      ((∑ k ∈ classes, ∑ i ∈ range d, W k i ^ 2) + ∑ k ∈ classes, ∑ i ∈ range d, V k i ^ 2) / 2 - apart classes d W V / 4 := by
    unfold apart halfway
    rw [← Finset.sum_add_distrib, Finset.sum_div, Finset.sum_div, ← Finset.sum_sub_distrib]
    refine Finset.sum_congr rfl ?_
    intro k _
    rw [← Finset.sum_add_distrib, Finset.sum_div, Finset.sum_div, ← Finset.sum_sub_distrib]
    refine Finset.sum_congr rfl ?_
    intro i _
    ring
  have hrow : ∀ p, rowLoss classes d (halfway W V) p ≤ (rowLoss classes d W p + rowLoss classes d V p) / 2 := by
    intro p
    unfold rowLoss
    simp only [decision_halfway]
    have := log_sum_exp_mid classes hne (fun k => decision d W k p.1) (fun k => decision d V k p.1)
    linarith
  have hrows : (rows.map (rowLoss classes d (halfway W V))).sum ≤
      ((rows.map (rowLoss classes d W)).sum + (rows.map (rowLoss classes d V)).sum) / 2 := by
    induction rows with
    | nil => simp
    | cons p rows ih =>
      simp only [List.map_cons, List.sum_cons]
      have := hrow p
      linarith
  unfold objective
  rw [hsq]
  have := mul_le_mul_of_nonneg_left hrows hC
  linarith

/-! ### The rows are closed under transposition -/

/-- **Specification.**  Twelve rows for each of `N` pieces: a row of `24 n` numbers and a key, moved up `0 … 11` semitones. -/
def Augmented (n N : Nat) (X : List (List ℝ)) (y : List Int) : Prop :=
  X.length = 12 * N ∧ y.length = 12 * N ∧ ∀ m < N, ∃ (x : List ℝ) (l : Int), x.length = 24 * n ∧ IsKey l ∧
    ∀ u < 12, y[12 * m + u]? = some (transposeKey u l) ∧ ∃ x', X[12 * m + u]? = some x' ∧ Moved u x x'

theorem Augmented.label {n N : Nat} {X : List (List ℝ)} {y : List Int} (h : Augmented n N X y) {k : Int} (hk : k ∈ y) :
    ∃ m < N, ∃ u : Nat, u < 12 ∧ ∃ l, IsKey l ∧ k = transposeKey u l ∧ ∀ u < 12, y[12 * m + u]? = some (transposeKey u l) := by
  obtain ⟨h1, h2, h3⟩ := h
  obtain ⟨i, hi, rfl⟩ := List.getElem_of_mem hk
  rw [h2] at hi
  obtain ⟨x, l, -, hl, hu⟩ := h3 (i / 12) (by omega)
  have := (hu (i % 12) (by omega)).1
  rw [show 12 * (i / 12) + i % 12 = i by omega, List.getElem?_eq_getElem (by omega)] at this
  exact ⟨i / 12, by omega, i % 12, by omega, l, hl, by simpa using this, fun u h => (hu u h).1⟩

theorem Augmented.isKey {n N : Nat} {X : List (List ℝ)} {y : List Int} (h : Augmented n N X y) {k : Int} (hk : k ∈ y) : IsKey k := by
  obtain ⟨m, _, u, _, l, _, rfl, _⟩ := h.label hk
  exact Key.transposeKey_isKey _ _

theorem Augmented.closed {n N : Nat} {X : List (List ℝ)} {y : List Int} (h : Augmented n N X y) (t : Nat) {k : Int} (hk : k ∈ y) :
    transposeKey t k ∈ y := by
  obtain ⟨m, _, u, _, l, hl, rfl, hu⟩ := h.label hk
  rw [transposeKey_twice t u l]
  exact List.mem_of_getElem? (hu ((u + t) % 12) (by omega))

theorem Augmented.sum_classes {n N : Nat} {X : List (List ℝ)} {y : List Int} (h : Augmented n N X y) (t : Nat) (g : Int → ℝ) :
    ∑ k ∈ y.toFinset, g (transposeKey t k) = ∑ k ∈ y.toFinset, g k := by
  refine sum_self_map _ _ ?_ ?_ g
  · intro k hk
    exact List.mem_toFinset.2 (h.closed t (List.mem_toFinset.1 hk))
  · intro a ha b hb
    exact transposeKey_inj t (h.isKey (List.mem_toFinset.1 ha)) (h.isKey (List.mem_toFinset.1 hb))

theorem Augmented.rowLoss_shifted {n N : Nat} {X : List (List ℝ)} {y : List Int} (h : Augmented n N X y) (t : Nat) (W : Int → Nat → ℝ)
    {x x' : List ℝ} (hx : x.length = 24 * n) (hm : Moved t x x') (l : Int) :
    rowLoss y.toFinset (24 * n) (shifted t W) (x, l) = rowLoss y.toFinset (24 * n) W (x', transposeKey t l) := by
  unfold rowLoss
  simp only [decision_shifted W _ hx hm]
  rw [h.sum_classes t (fun k => Real.exp (decision (24 * n) W k x'))]

/-- The objective does not change when the weights are moved. -/
theorem Augmented.objective_shifted {n N : Nat} {X : List (List ℝ)} {y : List Int} (h : Augmented n N X y) (C : ℝ) (t : Nat)
    (W : Int → Nat → ℝ) :
    objective C y.toFinset (24 * n) (X.zip y) (shifted t W) = objective C y.toFinset (24 * n) (X.zip y) W := by
  have hsq : ∑ k ∈ y.toFinset, ∑ i ∈ range (24 * n), shifted t W k i ^ 2 = ∑ k ∈ y.toFinset, ∑ i ∈ range (24 * n), W k i ^ 2 := by
    rw [← h.sum_classes t (fun k => ∑ i ∈ range (24 * n), W k i ^ 2)]
    refine Finset.sum_congr rfl ?_
    intro k _
    unfold shifted
    exact sum_self_map (range (24 * n)) (moved t) (fun i hi => mem_range.2 (moved_lt t n i (mem_range.1 hi))) (moved_injOn t n)
      (fun i => W (transposeKey t k) i ^ 2)
  have hlen : (X.zip y).length = 12 * N := by rw [List.length_zip, h.1, h.2.1, min_self]
  have hsum : ∀ V : Int → Nat → ℝ, ((X.zip y).map (rowLoss y.toFinset (24 * n) V)).sum =
      ∑ m ∈ range N, ∑ u ∈ range 12, rowLoss y.toFinset (24 * n) V (X.getD (12 * m + u) [], y.getD (12 * m + u) 0) := by
    intro V
    rw [list_sum_eq (X.zip y) _ (fun i => rowLoss y.toFinset (24 * n) V (X.getD i [], y.getD i 0)), hlen, sum_twelves]
    intro i p hp
    rw [List.getElem?_zip_eq_some] at hp
    simp only [List.getD_eq_getElem?_getD, hp.1, hp.2, Option.getD_some]
  have hrows : ((X.zip y).map (rowLoss y.toFinset (24 * n) (shifted t W))).sum = ((X.zip y).map (rowLoss y.toFinset (24 * n) W)).sum := by
    rw [hsum, hsum]
    refine Finset.sum_congr rfl ?_
    intro m hm
    obtain ⟨x, l, hx, hl, hu⟩ := h.2.2 m (mem_range.1 hm)
    rw [← sum_self_map (range 12) (fun u => (u + t) % 12) (fun u _ => mem_range.2 (by omega))
      (by
        intro a ha b hb hab
        have := mem_range.1 ha
        have := mem_range.1 hb
        simp only at hab
        omega)
      (fun u => rowLoss y.toFinset (24 * n) W (X.getD (12 * m + u) [], y.getD (12 * m + u) 0))]
    refine Finset.sum_congr rfl ?_
    intro u hu'
    obtain ⟨a1, xa, a2, a3⟩ := hu u (mem_range.1 hu')
    obtain ⟨b1, xb, b2, b3⟩ := hu ((u + t) % 12) (by omega)
    simp only [List.getD_eq_getElem?_getD, a1, a2, b1, b2, Option.getD_some]
    rw [← transposeKey_twice t u l]
    exact h.rowLoss_shifted t W (by rw [a3.1, hx]) (moved_step hx a3 b3) _
  unfold objective
  rw [hsq, hrows]

/-! ### C153 -/

/-- Fitted weights hardly change when they are moved. -/
theorem Augmented.apart_le {n N : Nat} {X : List (List ℝ)} {y : List Int} (h : Augmented n N X y) (hN : y ≠ []) {ε C : ℝ} (hC : 0 ≤ C)
    {W : Int → Nat → ℝ} (hW : Fitted ε C (24 * n) X y W) (t : Nat) : apart y.toFinset (24 * n) W (shifted t W) ≤ 8 * ε := by
  have h1 := hW (halfway W (shifted t W))
  have h2 := objective_halfway hC y.toFinset (by simpa using hN) (24 * n) (X.zip y) W (shifted t W)
  rw [h.objective_shifted C t W] at h2
  linarith

/-- **C153, decision values.**  Weights fitted to augmented rows, up to `ε`: the decision value of the transposed key for a
transposed row is that of the key for the row, up to the square root of `8 ε` times the sum of the squared features. -/
theorem C153_decision {n N : Nat} {X : List (List ℝ)} {y : List Int} (h : Augmented n N X y) {ε C : ℝ} (hC : 0 ≤ C)
    {W : Int → Nat → ℝ} (hW : Fitted ε C (24 * n) X y W) (t : Nat) (x x' : List ℝ) (hx : x.length = 24 * n) (hm : Moved t x x') (k : Int)
    (hk : k ∈ y) :
    |decision (24 * n) W (transposeKey t k) x' - decision (24 * n) W k x| ≤ √(8 * ε * ∑ i ∈ range (24 * n), x.getD i 0 ^ 2) := by
  have ha := h.apart_le (List.ne_nil_of_mem hk) hC hW t
  rw [← decision_shifted W k hx hm]
  have e : decision (24 * n) (shifted t W) k x - decision (24 * n) W k x =
      -∑ i ∈ range (24 * n), (W k i - shifted t W k i) * x.getD i 0 := by
    unfold decision
    rw [← Finset.sum_sub_distrib, ← Finset.sum_neg_distrib]
    refine Finset.sum_congr rfl ?_
    intro i _
    ring
  rw [e, abs_neg]
  apply Real.abs_le_sqrt
  refine (Finset.sum_mul_sq_le_sq_mul_sq _ _ _).trans (mul_le_mul_of_nonneg_right ?_ (Finset.sum_nonneg (fun i _ => sq_nonneg _)))
  refine le_trans ?_ ha
  unfold apart
  exact Finset.single_le_sum (f := fun k => ∑ i ∈ range (24 * n), (W k i - shifted t W k i) ^ 2)
    (fun k _ => Finset.sum_nonneg (fun i _ => sq_nonneg _)) (List.mem_toFinset.2 hk)

/-- **C153, answers.**  If a key leads by more than twice that much for a row, it is the answer for the row, and the transposed key is the
answer for the transposed row. -/
theorem C153_answer {n N : Nat} {X : List (List ℝ)} {y : List Int} (h : Augmented n N X y) {ε C : ℝ} (hC : 0 ≤ C)
    {W : Int → Nat → ℝ} (hW : Fitted ε C (24 * n) X y W) (t : Nat) (x x' : List ℝ) (hx : x.length = 24 * n) (hm : Moved t x x') (k : Int)
    (hk : k ∈ y) (hlead : ∀ j ∈ y, j ≠ k → decision (24 * n) W j x + 2 * √(8 * ε * ∑ i ∈ range (24 * n), x.getD i 0 ^ 2) <
      decision (24 * n) W k x) (a a' : Int) (ha : Answer y.toFinset (24 * n) W x a) (ha' : Answer y.toFinset (24 * n) W x' a') :
    a = k ∧ a' = transposeKey t k := by
  have hs := Real.sqrt_nonneg (8 * ε * ∑ i ∈ range (24 * n), x.getD i 0 ^ 2)
  constructor
  · by_contra hn
    have h1 := hlead a (List.mem_toFinset.1 ha.1) hn
    have h2 := (ha.2 k (List.mem_toFinset.2 hk)).1
    linarith
  · by_contra hn
    -- the answer is a transposed class
    obtain ⟨j, hj, rfl⟩ : ∃ j ∈ y, transposeKey t j = a' := by
      have hmem := List.mem_toFinset.1 ha'.1
      refine ⟨transposeKey ((11 * t : Nat) : Int) a', h.closed _ hmem, ?_⟩
      have hik := h.isKey hmem
      rw [transposeKey_twice t (11 * t) a', show (11 * t + t) % 12 = 0 by omega]
      unfold IsKey at hik
      unfold transposeKey Spec.tonic Spec.isMajor
      simp only [decide_eq_true_eq, Nat.cast_zero, add_zero]
      split <;> omega
    have hjk : j ≠ k := by rintro rfl; exact hn rfl
    have h1 := hlead j hj hjk
    have h2 := (ha'.2 (transposeKey t k) (List.mem_toFinset.2 (h.closed t hk))).1
    have h3 := abs_le.1 (C153_decision h hC hW t x x' hx hm k hk)
    have h4 := abs_le.1 (C153_decision h hC hW t x x' hx hm j hj)
    linarith [h3.1, h4.2]

/-- **C153, exact minimum.**  Weights of the smallest objective: the decision values of transposed rows are the transposed ones. -/
theorem C153_exact {n N : Nat} {X : List (List ℝ)} {y : List Int} (h : Augmented n N X y) {C : ℝ} (hC : 0 ≤ C)
    {W : Int → Nat → ℝ} (hW : Fitted 0 C (24 * n) X y W) (t : Nat) (x x' : List ℝ) (hx : x.length = 24 * n) (hm : Moved t x x') (k : Int)
    (hk : k ∈ y) : decision (24 * n) W (transposeKey t k) x' = decision (24 * n) W k x := by
  have := C153_decision h hC hW t x x' hx hm k hk
  rw [mul_zero, zero_mul, Real.sqrt_zero] at this
  exact sub_eq_zero.1 (abs_nonpos_iff.1 this)

/-- **C153, no evidence.**  Weights of the smallest objective, and a row that is the same in all transpositions, so that it speaks for no
tonic: the answer is C major or C minor.  Hence the lead that `C153_answer` asks for cannot be left out: the answer for the transposed row,
which is the same row, is not the transposed key. -/
theorem C153_no_evidence {n N : Nat} {X : List (List ℝ)} {y : List Int} (h : Augmented n N X y) {C : ℝ} (hC : 0 ≤ C)
    {W : Int → Nat → ℝ} (hW : Fitted 0 C (24 * n) X y W) (x : List ℝ) (hx : x.length = 24 * n) (hm : ∀ t < 12, Moved t x x) (a : Int)
    (ha : Answer y.toFinset (24 * n) W x a) : a = 0 ∨ a = 12 := by
  have hy := List.mem_toFinset.1 ha.1
  have hk := h.isKey hy
  unfold IsKey at hk
  obtain ⟨t, ht, e⟩ : ∃ t : Nat, t < 12 ∧ transposeKey t a = if a < 12 then 0 else 12 := by
    refine ⟨((12 - a % 12) % 12).toNat, by omega, ?_⟩
    unfold transposeKey Spec.tonic Spec.isMajor
    simp only [decide_eq_true_eq]
    split <;> omega
  have hd := C153_exact h hC hW t x x hx (hm t ht) a hy
  have := (ha.2 _ (List.mem_toFinset.2 (h.closed t hy))).2 hd
  rw [e] at this
  split at this <;> omega

/-- **C153, classes.**  There are at least twelve classes, so that the model is the multinomial one. -/
theorem C153_classes {n N : Nat} {X : List (List ℝ)} {y : List Int} (h : Augmented n N X y) (hN : 0 < N) : 12 ≤ y.toFinset.card := by
  obtain ⟨x, l, -, -, hu⟩ := h.2.2 0 hN
  have hsub : (range 12).image (fun u : Nat => transposeKey u l) ⊆ y.toFinset := by
    intro k hk
    obtain ⟨u, hu', rfl⟩ := mem_image.1 hk
    exact List.mem_toFinset.2 (List.mem_of_getElem? (hu u (mem_range.1 hu')).1)
  have hc : ((range 12).image (fun u : Nat => transposeKey u l)).card = 12 := by
    rw [Finset.card_image_of_injOn]
    · simp
    · intro a ha b hb hab
      have := mem_range.1 ha
      have := mem_range.1 hb
      unfold transposeKey Spec.tonic Spec.isMajor at hab
      simp only [decide_eq_true_eq] at hab
      split at hab <;> omega
  rw [← hc]
  exact Finset.card_le_card hsub

theorem objective_rows {C : ℝ} (hC : 0 ≤ C) (d : Nat) (X : List (List ℝ)) (y : List Int) (W : Int → Nat → ℝ) :
    0 ≤ C * ((X.zip y).map (rowLoss y.toFinset d W)).sum := by
  refine mul_nonneg hC (List.sum_nonneg ?_)
  intro v hv
  obtain ⟨p, hp, rfl⟩ := List.mem_map.1 hv
  unfold rowLoss
  rw [sub_nonneg, Real.le_log_iff_exp_le (Finset.sum_pos (fun k _ => Real.exp_pos _)
    ⟨p.2, List.mem_toFinset.2 (List.of_mem_zip (show (p.1, p.2) ∈ X.zip y from hp)).2⟩)]
  exact Finset.single_le_sum (f := fun k => Real.exp (decision d W k p.1)) (fun k _ => (Real.exp_pos _).le)
    (List.mem_toFinset.2 (List.of_mem_zip (show (p.1, p.2) ∈ X.zip y from hp)).2)

theorem objective_nonneg {C : ℝ} (hC : 0 ≤ C) (d : Nat) (X : List (List ℝ)) (y : List Int) (W : Int → Nat → ℝ) :
    0 ≤ objective C y.toFinset d (X.zip y) W := by
  unfold objective
  exact add_nonneg (div_nonneg (Finset.sum_nonneg (fun k _ => Finset.sum_nonneg (fun i _ => sq_nonneg _))) (by norm_num))
    (objective_rows hC d X y W)

theorem objective_congr (C : ℝ) (d : Nat) (X : List (List ℝ)) (y : List Int) (W V : Int → Nat → ℝ)
    (h : ∀ k ∈ y, ∀ i < d, W k i = V k i) : objective C y.toFinset d (X.zip y) W = objective C y.toFinset d (X.zip y) V := by
  have hd : ∀ k ∈ y, ∀ x, decision d W k x = decision d V k x := by
    intro k hk x
    refine Finset.sum_congr rfl ?_
    intro i hi
    rw [h k hk i (mem_range.1 hi)]
  have hs : ∑ k ∈ y.toFinset, ∑ i ∈ range d, W k i ^ 2 = ∑ k ∈ y.toFinset, ∑ i ∈ range d, V k i ^ 2 := by
    refine Finset.sum_congr rfl (fun k hk => Finset.sum_congr rfl (fun i hi => ?_))
    rw [h k (List.mem_toFinset.1 hk) i (mem_range.1 hi)]
  have hr : (X.zip y).map (rowLoss y.toFinset d W) = (X.zip y).map (rowLoss y.toFinset d V) := by
    refine List.map_congr_left ?_
    rintro ⟨x, l⟩ hp
    unfold rowLoss
    rw [hd l (List.of_mem_zip hp).2, Finset.sum_congr rfl (fun k hk => by rw [hd k (List.mem_toFinset.1 hk)])]
  unfold objective
  rw [hs, hr]

theorem objective_continuous (C : ℝ) (d : Nat) (X : List (List ℝ)) (y : List Int) :
    Continuous (objective C y.toFinset d (X.zip y)) := by
  have ev : ∀ k i, Continuous (fun W : Int → Nat → ℝ => W k i) := fun k i => (continuous_apply i).comp (continuous_apply k)
  have hd : ∀ k x, Continuous (fun W : Int → Nat → ℝ => decision d W k x) := fun k x =>
    continuous_finsetSum _ (fun i _ => (ev k i).mul continuous_const)
  have hr : ∀ p ∈ X.zip y, Continuous (fun W => rowLoss y.toFinset d W p) := by
    intro p hp
    refine Continuous.sub (Continuous.log (continuous_finsetSum _ (fun k _ => Real.continuous_exp.comp (hd k p.1))) ?_) (hd p.2 p.1)
    intro W
    exact (Finset.sum_pos (fun k _ => Real.exp_pos _)
      ⟨p.2, List.mem_toFinset.2 (List.of_mem_zip (show (p.1, p.2) ∈ X.zip y from hp)).2⟩).ne'
  have hrs : Continuous (fun W => ((X.zip y).map (rowLoss y.toFinset d W)).sum) := by
    revert hr
    generalize X.zip y = rows
    intro hr
    induction rows with
    | nil => simpa using continuous_const
    | cons p rows ih =>
      simp only [List.map_cons, List.sum_cons]
      exact (hr p (by simp)).add (ih (fun q hq => hr q (by simp [hq])))
  unfold objective
  exact ((continuous_finsetSum _ (fun k _ => continuous_finsetSum _ (fun i _ => (ev k i).pow 2))).div_const 2).add
    (continuous_const.mul hrs)

/-- Weights with the smallest objective exist. -/
theorem fitted_exact {C : ℝ} (hC : 0 ≤ C) (d : Nat) (X : List (List ℝ)) (y : List Int) : ∃ W, Fitted 0 C d X y W := by
  set f := objective C y.toFinset d (X.zip y) with hf
  set M : ℝ := f (fun _ _ => 0) + 2 with hM
  have h0 : 0 ≤ f (fun _ _ => 0) := objective_nonneg hC d X y _
  have hM0 : 2 ≤ M := by linarith
  let box : Set (Int → Nat → ℝ) := Set.pi Set.univ (fun _ => Set.pi Set.univ (fun _ => Set.Icc (-M) M))
  have hbox : IsCompact box := isCompact_univ_pi (fun _ => isCompact_univ_pi (fun _ => isCompact_Icc))
  have hz : (fun _ _ => 0) ∈ box := fun k _ i _ => ⟨by simp only; linarith, by simp only; linarith⟩
  obtain ⟨W, hW, hmin⟩ := hbox.exists_isMinOn ⟨_, hz⟩ (objective_continuous C d X y).continuousOn
  refine ⟨W, fun W' => ?_⟩
  rw [add_zero]
  by_cases hb : ∀ k ∈ y, ∀ i < d, |W' k i| ≤ M
  · rw [objective_congr C d X y W' (fun k i => if k ∈ y ∧ i < d then W' k i else 0) (fun k hk i hi => by rw [if_pos ⟨hk, hi⟩])]
    refine hmin ?_
    intro k _ i _
    by_cases h : k ∈ y ∧ i < d
    · have := abs_le.1 (hb k h.1 i h.2)
      simp only [if_pos h]
      exact this
    · simp only [if_neg h]
      exact ⟨by linarith, by linarith⟩
  · push Not at hb
    obtain ⟨k, hk, i, hi, hlt⟩ := hb
    have h1 : W' k i ^ 2 ≤ ∑ k ∈ y.toFinset, ∑ i ∈ range d, W' k i ^ 2 :=
      (Finset.single_le_sum (f := fun i => W' k i ^ 2) (fun i _ => sq_nonneg _) (mem_range.2 hi)).trans
        (Finset.single_le_sum (f := fun k => ∑ i ∈ range d, W' k i ^ 2) (fun k _ => Finset.sum_nonneg (fun i _ => sq_nonneg _))
          (List.mem_toFinset.2 hk))
    have h2 : (∑ k ∈ y.toFinset, ∑ i ∈ range d, W' k i ^ 2) / 2 ≤ f W' := by
      have := objective_nonneg hC d X y W'
      rw [hf]
      unfold objective
      have h3 : 0 ≤ C * ((X.zip y).map (rowLoss y.toFinset d W')).sum := by
        have := objective_rows hC d X y W'
        exact this
      linarith
    have h3 : M ^ 2 < W' k i ^ 2 := by
      rw [← sq_abs (W' k i)]
      exact pow_lt_pow_left₀ hlt (by linarith) (by norm_num)
    have h4 : f W ≤ f (fun _ _ => 0) := hmin hz
    have : f W ≤ f W' := by nlinarith
    exact this

/-- One piece in C major whose scores favour C: its twelve rows are closed under transposition. -/
theorem onePiece_augmented : Augmented 1 1 ((List.range 12).map (fun t => (List.range 24).map (fun i => if i = t then (1 : ℝ) else -1)))
    ((List.range 12).map (fun t : Nat => (t : Int))) := by
  refine ⟨by simp, by simp, ?_⟩
  intro m hm
  obtain rfl : m = 0 := by omega
  refine ⟨(List.range 24).map (fun i => if i = 0 then (1 : ℝ) else -1), 0, by simp, by decide, ?_⟩
  intro u hu
  constructor
  · rw [List.getElem?_map, List.getElem?_range (by omega)]
    simp only [Option.map_some, Option.some.injEq]
    unfold transposeKey Spec.tonic Spec.isMajor
    simp only [decide_eq_true_eq]
    split <;> omega
  · refine ⟨_, by rw [List.getElem?_map, List.getElem?_range (by omega)]; rfl, by simp, ?_⟩
    intro i hi
    rw [List.length_map, List.length_range] at hi
    rw [List.getElem?_map, List.getElem?_map, List.getElem?_range (by unfold moved; omega), List.getElem?_range hi]
    simp only [Option.map_some, Option.some.injEq, Nat.mul_zero, Nat.zero_add]
    have : moved u i = u ↔ i = 0 := by unfold moved; omega
    simp only [this]

/-- Twelve equal scores for the major keys and twelve for the minor keys speak for no tonic. -/
example : ∀ t < 12, Moved t (List.replicate 12 (1 : ℝ) ++ List.replicate 12 0) (List.replicate 12 (1 : ℝ) ++ List.replicate 12 0) := by
  intro t _
  refine ⟨rfl, fun i hi => ?_⟩
  simp only [List.length_append, List.length_replicate] at hi
  by_cases h : i < 12
  · rw [List.getElem?_append_left (by simp [moved]; omega), List.getElem?_append_left (by simp; omega),
      List.getElem?_replicate_of_lt (by unfold moved; omega), List.getElem?_replicate_of_lt (by omega)]
  · rw [List.getElem?_append_right (by simp [moved]; omega), List.getElem?_append_right (by simp; omega),
      List.getElem?_replicate_of_lt (by simp [moved]; omega), List.getElem?_replicate_of_lt (by simp; omega)]

/-- A classifier fitted to them exists, and its decision values move with the rows. -/
example : ∃ W, Fitted 0 0.7 24 ((List.range 12).map (fun t => (List.range 24).map (fun i => if i = t then (1 : ℝ) else -1)))
      ((List.range 12).map (fun t : Nat => (t : Int))) W ∧
    ∀ (t : Nat) (x x' : List ℝ), x.length = 24 → Moved t x x' → decision 24 W (transposeKey t 0) x' = decision 24 W 0 x := by
  obtain ⟨W, hW⟩ := fitted_exact (C := 0.7) (by norm_num) 24 ((List.range 12).map (fun t => (List.range 24).map (fun i => if i = t then (1 : ℝ) else -1)))
    ((List.range 12).map (fun t : Nat => (t : Int)))
  exact ⟨W, hW, fun t x x' hx hm => C153_exact onePiece_augmented (by norm_num) hW t x x' hx hm 0 (by simp)⟩

/-! ### From folders of annotated music -/

/-- What the trainer makes of folders of annotated music is closed under transposition. -/
theorem trained_augmented (R : Runner ℝ) (penalty : ℝ) (hR : Numeric R penalty) (kp : Store ℝ) (tiny : ℝ → Bool)
    (dir : List (Str × Content ℝ)) (Fs : List Folder) (hne : Fs ≠ []) (h : ∀ F ∈ Fs, F.Good ∧ F.In R kp dir) :
    ∃ X y, trainingSet tiny (Fs.map (fun F => loadDataset F.name dir)) = .ok (X, y) ∧ Augmented 30 (allPieces Fs).length X y := by
  obtain ⟨X, y, h1, h2, h3, h4⟩ := C107_same_row R penalty hR kp tiny dir Fs hne h
  refine ⟨X, y, h1, h2, h3, ?_⟩
  intro m hm
  obtain ⟨row, -, hl, -, e3, hall⟩ := h4 m _ _ (List.getElem?_eq_getElem hm)
  refine ⟨row, _, hl, ?_, hall⟩
  have := (hall 0 (by decide)).1
  rw [Nat.add_zero, e3] at this
  rw [Option.some.inj this]
  exact Key.transposeKey_isKey _ _

theorem scriptRow_length (R : Runner ℝ) (penalty : ℝ) (hR : Numeric R penalty) (kp : Store ℝ) (tiny : ℝ → Bool) (file : Str)
    (row : List ℝ) (h : scriptRow R tiny kp file = .ok [row]) : row.length = 24 * 30 := by
  obtain ⟨x, q1, q2⟩ := evaluateFlat_ok R penalty hR kp scriptProfiles scriptTransitions file
  unfold scriptRow at h
  rw [q1, PyRes.bind_ok] at h
  have hxl : x.length = 24 * 30 := by
    rw [q2]
    decide
  obtain ⟨X', s1, -, s2, -⟩ := scaling_rowwise tiny [x] (by simp) 30 (by decide) (by simpa using hxl)
  rw [h] at s1
  cases s1
  exact s2 row (by simp)

end JKD.Py

namespace JKD.Script

open Py Main Spec Detect

/-- **C153.**  The classifier was fitted to any folders of annotated music, up to `ε`.  For any music, in the folders or not, about which
no member of the ensemble is undecided, and any transposed version of it, in any format: if one key leads by more than the bound, the
script prints it for the music and the transposed key for the transposed version. -/
theorem C153_transposed_music {D S P T : Type} {Num : D → Prop} (E : Env D S P T) (W : FPLaws E.F Num) (hi₁ : HMM.Iter.Ok E.iter₁)
    (hi₂ : HMM.Iter.Ok E.iter₂) (crash : Str) (fmt : ℝ → Str) (toFloat : Str → Option ℝ) (kt : Store ℝ) (kp : Store ℝ)
    (hT : Tables E fmt kt kp) (penalty : ℝ) (hpen : toFloat "-1000000".toList = some penalty) (read : D → ℝ)
    (hr : Readable E toFloat read) (hz : ZeroKills E.F) (tiny : ℝ → Bool) (dir : List (Str × Content ℝ)) (Fs : List Folder) (hFs : Fs ≠ [])
    (hR : Numeric (programRunner E crash fmt toFloat kt) penalty)
    (h : ∀ F ∈ Fs, F.Good ∧ F.In (programRunner E crash fmt toFloat kt) kp dir) :
    ∃ X y, trainingSet tiny (Fs.map (fun F => loadDataset F.name dir)) = .ok (X, y) ∧
      ∀ (ε C : ℝ) (w : Int → Nat → ℝ) (predict : List ℝ → Int), 0 ≤ C → Fitted ε C 720 X y w →
        (∀ x, x.length = 720 → Answer y.toFinset 720 w x (predict x)) →
        ∀ (file file' : Str) (t : Nat) (os : List Int), (∀ o ∈ os, 0 ≤ o ∧ o < 12) → os ≠ [] → Reads E file os →
          Reads E file' (os.map (transposePc t)) → (∀ cfg ∈ members E fmt kt kp, Decided E.F os cfg) →
          ∃ row, scriptRow (programRunner E crash fmt toFloat kt) tiny kp file = .ok [row] ∧ row.length = 720 ∧
            ∀ k ∈ y, (∀ j ∈ y, j ≠ k → decision 720 w j row + 2 * √(8 * ε * ∑ i ∈ Finset.range 720, row.getD i 0 ^ 2) < decision 720 w k row) →
              scriptMain (programRunner E crash fmt toFloat kt) tiny kp predict file = .ok (keyName k) ∧
              scriptMain (programRunner E crash fmt toFloat kt) tiny kp predict file' = .ok (keyName (transposeKey t k)) := by
  obtain ⟨X, y, h1, h2⟩ := trained_augmented _ penalty hR kp tiny dir Fs hFs h
  refine ⟨X, y, h1, ?_⟩
  intro ε C w predict hC hw hp file file' t os ho hne hfile hfile' hdec
  obtain ⟨row, row', s1, s2, hmv⟩ := C114_row_moved E W hi₁ hi₂ crash fmt toFloat kt kp hT penalty hpen read hr hz tiny
    file file' t os ho hne hfile hfile' hdec
  have l1 := scriptRow_length _ penalty hR kp tiny file row s1
  have l2 := scriptRow_length _ penalty hR kp tiny file' row' s2
  refine ⟨row, s1, l1, ?_⟩
  intro k hk hlead
  obtain ⟨e1, e2⟩ := C153_answer h2 hC hw t row row' l1 hmv k hk hlead _ _ (hp row l1) (hp row' l2)
  unfold scriptMain
  rw [s1, s2, PyRes.bind_ok, PyRes.bind_ok]
  simp only [List.headD_cons]
  rw [e1, e2]
  exact ⟨rfl, rfl⟩

end JKD.Script
