import Verif.Props.ChordViterbiProps
import Verif.FP.Error
import Mathlib.Data.Real.Basic
import Mathlib.Algebra.Order.Ring.Pow
import Mathlib.Data.Finset.Max
import Mathlib.Tactic.Positivity
import Mathlib.Tactic.NormNum
import Mathlib.Tactic.IntervalCases
/-
C120: the chord smoother `ViterbiPath` in rounded arithmetic.
-/

namespace JKD.ChordViterbi

open RD (Close)

variable {D : Type}

/-- What is asked of the arithmetic: on non-negative numbers, a result that is zero or between `τ` and `Ω` (neither
underflow nor overflow) is off by a relative error of at most `ε`.  `fin x` is the number `x`. -/
structure Near (O : Ops D) (fin : ℝ → D) (ε τ Ω : ℝ) : Prop where
  zero : O.zero = fin 0
  gt : ∀ x y, O.gt (fin x) (fin y) = decide (y < x)
  mul : ∀ x y, 0 ≤ x → 0 ≤ y → (x * y = 0 ∨ τ ≤ x * y) → x * y ≤ Ω → ∃ z, O.mul (fin x) (fin y) = fin z ∧ Close ε (x * y) z
  add : ∀ x y, 0 ≤ x → 0 ≤ y → (x + y = 0 ∨ τ ≤ x + y) → x + y ≤ Ω → ∃ z, O.add (fin x) (fin y) = fin z ∧ Close ε (x + y) z
  div : ∀ x y, 0 ≤ x → 0 < y → (x / y = 0 ∨ τ ≤ x / y) → x / y ≤ Ω → ∃ z, O.div (fin x) (fin y) = fin z ∧ Close ε (x / y) z

/-- The tables as the function's arguments. -/
def vecF (fin : ℝ → D) (n : Nat) (f : Nat → ℝ) : List D := (List.range n).map (fun i => fin (f i))
def matF (fin : ℝ → D) (n : Nat) (f : Nat → Nat → ℝ) : List (List D) := (List.range n).map (fun i => vecF fin n (f i))

theorem vecF_getD (fin : ℝ → D) (n : Nat) (f : Nat → ℝ) (i : Nat) (hi : i < n) (d : D) :
    (vecF fin n f).getD i d = fin (f i) := by
  unfold vecF
  rw [List.getD_eq_getElem?_getD]
  simp [hi]

theorem matF_entry (O : Ops D) (fin : ℝ → D) (n : Nat) (f : Nat → Nat → ℝ) (i j : Nat) (hi : i < n) (hj : j < n) :
    entry O (matF fin n f) i j = fin (f i j) := by
  unfold entry matF
  have : ((List.range n).map (fun i => vecF fin n (f i))).getD i [] = vecF fin n (f i) := by
    rw [List.getD_eq_getElem?_getD]; simp [hi]
  rw [this, vecF_getD fin n _ j hj]

section
variable {O : Ops D} {fin : ℝ → D} {ε τ Ω : ℝ} (H : Near O fin ε τ Ω)
include H

/-- The loop `pick` on numbers: the greatest value and one index that has it, if positive. -/
theorem pick_near (n : Nat) (cur : Nat → D) (c : Nat → ℝ) (hc : ∀ i < n, cur i = fin (c i)) :
    ∃ v, (pick O n cur).2 = fin v ∧ 0 ≤ v ∧ (∀ i < n, c i ≤ v) ∧
      (0 < v → ∃ i : Nat, i < n ∧ (pick O n cur).1 = (i : Int) ∧ c i = v) := by
  have key : ∀ (l : List Nat) (b : Int × D) (v : ℝ), (∀ i ∈ l, i < n) → b.2 = fin v → 0 ≤ v →
      (0 < v → ∃ i : Nat, i < n ∧ b.1 = (i : Int) ∧ c i = v) →
      ∃ v', (l.foldl (fun b i => if O.gt (cur i) b.2 then ((i : Int), cur i) else b) b).2 = fin v' ∧
        v ≤ v' ∧ (∀ i ∈ l, c i ≤ v') ∧ (0 < v' → ∃ i : Nat, i < n ∧
          (l.foldl (fun b i => if O.gt (cur i) b.2 then ((i : Int), cur i) else b) b).1 = (i : Int) ∧ c i = v') := by
    intro l
    induction l with
    | nil => intro b v _ hb _ h; exact ⟨v, hb, le_refl _, by simp, h⟩
    | cons i l ih =>
      intro b v hl hb hv h
      have hi : i < n := hl i (by simp)
      rw [List.foldl_cons]
      have hgt : O.gt (cur i) b.2 = decide (v < c i) := by rw [hc i hi, hb, H.gt]
      rw [hgt]
      by_cases hlt : v < c i
      · simp only [hlt, decide_true, if_true]
        obtain ⟨v', h1, h2, h3, h4⟩ := ih ((i : Int), cur i) (c i) (fun i h => hl i (by simp [h])) (hc i hi)
          (hv.trans hlt.le) (fun _ => ⟨i, hi, rfl, rfl⟩)
        refine ⟨v', h1, hlt.le.trans h2, ?_, h4⟩
        intro k hk
        rcases List.mem_cons.1 hk with rfl | hk
        · exact h2
        · exact h3 k hk
      · simp only [hlt, decide_false, Bool.false_eq_true, if_false]
        obtain ⟨v', h1, h2, h3, h4⟩ := ih b v (fun i h => hl i (by simp [h])) hb hv h
        refine ⟨v', h1, h2, ?_, h4⟩
        intro k hk
        rcases List.mem_cons.1 hk with rfl | hk
        · exact (not_lt.1 hlt).trans h2
        · exact h3 k hk
  obtain ⟨v, h1, h2, h3, h4⟩ := key (List.range n) ((n : Int) - 1, O.zero) 0
    (fun i h => List.mem_range.1 h) H.zero (le_refl _) (fun h => absurd h (lt_irrefl _))
  exact ⟨v, h1, h2, fun i hi => h3 i (List.mem_range.2 hi), h4⟩

/-- A rounded sum of numbers that are zero or at least `l₀`. -/
theorem sum_near (hε : 0 ≤ ε) (hε1 : ε ≤ 1) (N : Nat) (l₀ B : ℝ) (hl₀ : 0 < l₀) (hτ : τ ≤ (1 - ε) ^ N * l₀)
    (hB : (1 + ε) ^ N * B ≤ Ω) (l : List ℝ) :
    ∀ (s e : ℝ) (k : Nat), (∀ u ∈ l, u = 0 ∨ l₀ ≤ u) → (e = 0 ∨ l₀ ≤ e) → (1 - ε) ^ k * e ≤ s → s ≤ (1 + ε) ^ k * e →
      e + l.sum ≤ B → k + l.length ≤ N →
      ∃ s', (l.map fin).foldl O.add (fin s) = fin s' ∧ (1 - ε) ^ (k + l.length) * (e + l.sum) ≤ s' ∧
        s' ≤ (1 + ε) ^ (k + l.length) * (e + l.sum) := by
  have ha0 : 0 ≤ 1 - ε := by linarith
  have ha1 : 1 - ε ≤ 1 := by linarith
  have hb1 : 1 ≤ 1 + ε := by linarith
  induction l with
  | nil => intro s e k _ _ h1 h2 _ _; exact ⟨s, rfl, by simpa using h1, by simpa using h2⟩
  | cons u l ih =>
    intro s e k hl he h1 h2 hsum hk
    rw [List.length_cons] at hk
    rw [List.sum_cons] at hsum
    have hu : u = 0 ∨ l₀ ≤ u := hl u (by simp)
    have hu0 : 0 ≤ u := by rcases hu with h | h <;> linarith
    have he0 : 0 ≤ e := by rcases he with h | h <;> linarith
    have hak : 0 ≤ (1 - ε) ^ k := pow_nonneg ha0 k
    have hbk : 1 ≤ (1 + ε) ^ k := one_le_pow₀ hb1
    have hs0 : 0 ≤ s := (mul_nonneg hak he0).trans h1
    have hls : 0 ≤ l.sum := List.sum_nonneg (fun x hx => by rcases hl x (by simp [hx]) with h | h <;> linarith)
    have x1 : (1 - ε) ^ k * (e + u) ≤ s + u := by
      have : (1 - ε) ^ k * u ≤ 1 * u := mul_le_mul_of_nonneg_right (pow_le_one₀ ha0 ha1) hu0
      linarith
    have x2 : s + u ≤ (1 + ε) ^ k * (e + u) := by
      have : 1 * u ≤ (1 + ε) ^ k * u := mul_le_mul_of_nonneg_right hbk hu0
      linarith
    have hbig : s + u = 0 ∨ τ ≤ s + u := by
      by_cases hz : e + u = 0
      · left
        rw [hz, mul_zero] at x2
        linarith
      · right
        have hge : l₀ ≤ e + u := by
          rcases he with h | h
          · rcases hu with h' | h'
            · exact absurd (by rw [h, h']; simp) hz
            · linarith
          · linarith
        calc τ ≤ (1 - ε) ^ N * l₀ := hτ
          _ ≤ (1 - ε) ^ k * l₀ := mul_le_mul_of_nonneg_right (pow_le_pow_of_le_one ha0 ha1 (by omega)) hl₀.le
          _ ≤ (1 - ε) ^ k * (e + u) := mul_le_mul_of_nonneg_left hge hak
          _ ≤ s + u := x1
    have hΩ : s + u ≤ Ω := by
      calc s + u ≤ (1 + ε) ^ k * (e + u) := x2
        _ ≤ (1 + ε) ^ N * B := mul_le_mul (pow_le_pow_right₀ hb1 (by omega)) (by linarith) (by linarith) (by positivity)
        _ ≤ Ω := hB
    obtain ⟨z, hz, hz1, hz2⟩ := H.add s u hs0 hu0 hbig hΩ
    obtain ⟨s', i1, i2, i3⟩ := ih z (e + u) (k + 1) (fun x hx => hl x (by simp [hx])) (by
        rcases he with h | h
        · rcases hu with h' | h'
          · left; rw [h, h']; simp
          · right; linarith
        · right; linarith)
      (by
        calc (1 - ε) ^ (k + 1) * (e + u) = (1 - ε) * ((1 - ε) ^ k * (e + u)) := by ring
          _ ≤ (1 - ε) * (s + u) := mul_le_mul_of_nonneg_left x1 ha0
          _ ≤ z := hz1)
      (by
        calc z ≤ (1 + ε) * (s + u) := hz2
          _ ≤ (1 + ε) * ((1 + ε) ^ k * (e + u)) := mul_le_mul_of_nonneg_left x2 (by linarith)
          _ = (1 + ε) ^ (k + 1) * (e + u) := by ring)
      (by linarith) (by omega)
    refine ⟨s', ?_, ?_, ?_⟩
    · rw [List.map_cons, List.foldl_cons, hz, i1]
    · rw [List.sum_cons, List.length_cons, show k + (l.length + 1) = k + 1 + l.length by omega, ← add_assoc e]
      exact i2
    · rw [List.sum_cons, List.length_cons, show k + (l.length + 1) = k + 1 + l.length by omega, ← add_assoc e]
      exact i3

/-- Scaling a row `u` of numbers that are zero or between `l₀` and `3`, not all of them zero. -/
theorem scale_near (hε : 0 ≤ ε) (n : Nat) (hn : ((n : ℝ) + 3) * ε ≤ 1 / 8) (u : Nat → ℝ) (l₀ : ℝ) (hl₀ : 0 < l₀)
    (hu : ∀ j < n, u j = 0 ∨ l₀ ≤ u j) (hu3 : ∀ j < n, u j ≤ 3) (hex : ∃ j < n, 0 < u j) (hτ : τ ≤ l₀ / (4 * n))
    (hΩ : 4 * n ≤ Ω) :
    ∃ S : ℝ, total O (vecF fin n u) = fin S ∧ 0 < S ∧ ∃ d : Nat → ℝ,
      (vecF fin n u).map (fun x => O.div x (fin S)) = vecF fin n d ∧
      (∀ j < n, Close ε (u j / S) (d j) ∧ d j ≤ 2 ∧ (d j = 0 ∨ l₀ / (5 * n) ≤ d j)) ∧ ∃ j < n, 1 / (4 * n) ≤ d j := by
  obtain ⟨j0, hj0, hpos⟩ := hex
  have hn1 : (1 : ℝ) ≤ n := by exact_mod_cast (by omega : 1 ≤ n)
  have hε8 : ε ≤ 1 / 8 := by nlinarith
  have ha0 : 0 ≤ 1 - ε := by linarith
  have hbern : (7 : ℝ) / 8 ≤ (1 - ε) ^ (n + 3) := by
    have := one_add_mul_le_pow (a := -ε) (by linarith) (n + 3)
    push_cast at this
    have e : (1 + -ε) = 1 - ε := by ring
    rw [e] at this
    linarith
  have han : (7 : ℝ) / 8 ≤ (1 - ε) ^ n := hbern.trans (pow_le_pow_of_le_one ha0 (by linarith) (by omega))
  have hbn : (1 + ε) ^ (n + 3) ≤ 8 / 7 := by
    have h1 : (1 + ε) ^ (n + 3) * (1 - ε) ^ (n + 3) ≤ 1 := by
      rw [← mul_pow]
      exact pow_le_one₀ (mul_nonneg (by linarith) ha0) (by nlinarith)
    have hb0 : 0 ≤ (1 + ε) ^ (n + 3) := by positivity
    nlinarith
  have hbn' : (1 + ε) ^ n ≤ 8 / 7 := (pow_le_pow_right₀ (by linarith) (by omega)).trans hbn
  have hb1 : 1 + ε ≤ 8 / 7 := by
    have : (1 + ε) ^ 1 ≤ (1 + ε) ^ (n + 3) := pow_le_pow_right₀ (by linarith) (by omega)
    rw [pow_one] at this
    exact this.trans hbn
  have ha1 : 7 / 8 ≤ 1 - ε := by linarith
  have hu0 : ∀ j < n, 0 ≤ u j := fun j hj => by rcases hu j hj with h | h <;> linarith
  set U := ((List.range n).map u).sum with hU
  have hle : ∀ j < n, u j ≤ U := by
    intro j hj
    apply List.single_le_sum
    · intro x hx
      obtain ⟨i, hi, rfl⟩ := List.mem_map.1 hx
      exact hu0 i (List.mem_range.1 hi)
    · exact List.mem_map.2 ⟨j, List.mem_range.2 hj, rfl⟩
  have hUpos : 0 < U := lt_of_lt_of_le hpos (hle j0 hj0)
  have hUup : ∀ M, (∀ j < n, u j ≤ M) → U ≤ n * M := by
    intro M hM
    have := List.sum_le_card_nsmul ((List.range n).map u) M (by
      intro x hx
      obtain ⟨i, hi, rfl⟩ := List.mem_map.1 hx
      exact hM i (List.mem_range.1 hi))
    simpa using this
  have hU3 : U ≤ n * 3 := hUup 3 hu3
  have hτ' : τ ≤ (1 - ε) ^ n * l₀ := by
    have : l₀ / (4 * n) ≤ l₀ / 4 := div_le_div_of_nonneg_left hl₀.le (by norm_num) (by linarith)
    nlinarith
  obtain ⟨S, hS, hS1, hS2⟩ := sum_near H hε (by linarith) n l₀ (n * 3) hl₀ hτ' (by nlinarith) ((List.range n).map u) 0 0 0 (by
      intro x hx
      obtain ⟨i, hi, rfl⟩ := List.mem_map.1 hx
      exact hu i (List.mem_range.1 hi)) (Or.inl rfl) (by simp) (by simp) (by simpa using hU3) (by simp)
  simp only [List.length_map, List.length_range, zero_add, ← hU] at hS1 hS2
  have hSlo : 7 / 8 * U ≤ S := (mul_le_mul_of_nonneg_right han hUpos.le).trans hS1
  have hShi : S ≤ 8 / 7 * U := hS2.trans (mul_le_mul_of_nonneg_right hbn' hUpos.le)
  have hSpos : 0 < S := by nlinarith
  have htot : total O (vecF fin n u) = fin S := by
    unfold total vecF
    rw [H.zero, ← hS, List.map_map]
    rfl
  have hS12 : S ≤ 8 / 7 * (n * 3) := hShi.trans (by linarith)
  -- the quotients
  have hq : ∀ j < n, ∃ z, O.div (fin (u j)) (fin S) = fin z ∧ Close ε (u j / S) z := by
    intro j hj
    refine H.div (u j) S (hu0 j hj) hSpos ?_ ?_
    · rcases hu j hj with h | h
      · left; rw [h]; simp
      · right
        refine hτ.trans ?_
        rw [div_le_div_iff₀ (by positivity) hSpos]
        nlinarith
    · have : u j / S ≤ 2 := by
        rw [div_le_iff₀ hSpos]
        have := hle j hj
        nlinarith
      linarith
  choose! d hd1 hd2 using hq
  refine ⟨S, htot, hSpos, d, ?_, ?_, ?_⟩
  · unfold vecF
    rw [List.map_map]
    exact List.map_congr_left (fun j hj => hd1 j (List.mem_range.1 hj))
  · intro j hj
    have hq2 : u j / S ≤ 8 / 7 := by
      rw [div_le_iff₀ hSpos]
      have := hle j hj
      nlinarith
    have hq0 : 0 ≤ u j / S := div_nonneg (hu0 j hj) hSpos.le
    refine ⟨hd2 j hj, ?_, ?_⟩
    · have := (hd2 j hj).2
      nlinarith
    · rcases hu j hj with h | h
      · left
        have := hd2 j hj
        rw [h, zero_div] at this
        have h1 := this.1
        have h2 := this.2
        rw [mul_zero] at h1 h2
        linarith
      · right
        have h1 : l₀ / (8 / 7 * (n * 3)) ≤ u j / S :=
          div_le_div₀ (hu0 j hj) h hSpos hS12
        have h2 : 7 / 8 * (l₀ / (8 / 7 * (n * 3))) ≤ d j :=
          (mul_le_mul ha1 h1 (by positivity) ha0).trans (hd2 j hj).1
        refine le_trans ?_ h2
        rw [show 7 / 8 * (l₀ / (8 / 7 * ((n : ℝ) * 3))) = l₀ * (49 / 192) / n by field_simp; norm_num,
          show l₀ / (5 * (n : ℝ)) = l₀ * (1 / 5) / n by field_simp]
        apply div_le_div_of_nonneg_right _ (by linarith)
        nlinarith
  · obtain ⟨m, hm, hmax⟩ := Finset.exists_max_image (Finset.range n) u ⟨j0, Finset.mem_range.2 hj0⟩
    have hm' := Finset.mem_range.1 hm
    have hmU : U ≤ n * u m := hUup (u m) (fun j hj => hmax j (Finset.mem_range.2 hj))
    refine ⟨m, hm', ?_⟩
    have hnp : (0 : ℝ) < n := by linarith
    have h1 : 7 / (8 * n) ≤ u m / S := by
      rw [div_le_div_iff₀ (by positivity) hSpos]
      nlinarith
    have h2 : 7 / 8 * (7 / (8 * n)) ≤ d m := (mul_le_mul ha1 h1 (by positivity) ha0).trans (hd2 m hm').1
    refine le_trans ?_ h2
    rw [show 7 / 8 * (7 / (8 * (n : ℝ))) = (49 / 64) / n by field_simp; norm_num, show 1 / (4 * (n : ℝ)) = (1 / 4) / n by field_simp]
    apply div_le_div_of_nonneg_right _ hnp.le
    norm_num

end

/-- **Specification.**  Tables without numbers that are close to zero: probabilities are zero or at least `β`, transitions are
possible between all states, and in every frame some state is possible. -/
structure Moderate (β : ℝ) (n : Nat) (ini : Nat → ℝ) (tr : Nat → Nat → ℝ) (ob0 : Nat → ℝ) (os : List (Nat → ℝ)) : Prop where
  hini : ∀ i < n, (ini i = 0 ∨ β ≤ ini i) ∧ ini i ≤ 1
  htr : ∀ i < n, ∀ j < n, β ≤ tr i j ∧ tr i j ≤ 1
  hob0 : ∀ i < n, (ob0 i = 0 ∨ β ≤ ob0 i) ∧ ob0 i ≤ 1
  hos : ∀ o ∈ os, ∀ i < n, (o i = 0 ∨ β ≤ o i) ∧ o i ≤ 1
  first : ∃ i < n, 0 < ini i * ob0 i
  next : ∀ o ∈ os, ∃ i < n, 0 < o i

/-- What is known after the frames `os`. -/
def GoodF (fin : ℝ → D) (ε β : ℝ) (n : Nat) (ini : Nat → ℝ) (tr : Nat → Nat → ℝ) (ob0 : Nat → ℝ) (os : List (Nat → ℝ))
    (row : List D) (psis : List (List Int)) : Prop :=
  ∃ (c : ℝ) (d : Nat → ℝ), 0 < c ∧ row = vecF fin n d ∧ (∃ m < n, 1 / (4 * n) ≤ d m) ∧ ∀ j < n,
    (d j = 0 ∨ β ^ 2 / (40 * n ^ 2) ≤ d j) ∧ d j ≤ 2 ∧
    (∀ p, Ends n os.length j p → (1 - ε) ^ (3 * os.length + 2) * (c * weight ini tr ob0 os p) ≤ d j) ∧
    (0 < d j → ∃ p, Ends n os.length j p ∧ (trace psis j) = (p.reverse.map Int.ofNat) ∧
      d j ≤ (1 + ε) ^ (3 * os.length + 2) * (c * weight ini tr ob0 os p))

section
variable {O : Ops D} {fin : ℝ → D} {ε τ Ω β : ℝ} (H : Near O fin ε τ Ω) (n : Nat) (ini : Nat → ℝ) (tr : Nat → Nat → ℝ)
  (ob0 : Nat → ℝ) (hε : 0 ≤ ε) (hn : ((n : ℝ) + 3) * ε ≤ 1 / 8) (hn1 : 0 < n) (hβ : 0 < β) (hβ1 : β ≤ 1)
  (hτ : τ ≤ β ^ 3 / (40 * n ^ 2)) (hΩ : 4 * n ≤ Ω)
include H hε hn hn1 hβ hβ1 hτ hΩ

theorem goodF_first (hini : ∀ i < n, (ini i = 0 ∨ β ≤ ini i) ∧ ini i ≤ 1) (hob0 : ∀ i < n, (ob0 i = 0 ∨ β ≤ ob0 i) ∧ ob0 i ≤ 1)
    (hex : ∃ i < n, 0 < ini i * ob0 i) :
    GoodF fin ε β n ini tr ob0 [] (firstRow O n (vecF fin n ini) (vecF fin n ob0)) [] := by
  have hN : (1 : ℝ) ≤ n := by exact_mod_cast hn1
  have hε8 : ε ≤ 1 / 8 := by nlinarith
  have h0 : ∀ (x : ℝ), (x = 0 ∨ β ≤ x) → 0 ≤ x := fun x h => by rcases h with h | h <;> linarith
  have hβ32 : β ^ 3 ≤ β ^ 2 := by
    have : β ^ 2 * β ≤ β ^ 2 * 1 := mul_le_mul_of_nonneg_left hβ1 (by positivity)
    calc β ^ 3 = β ^ 2 * β := by ring
      _ ≤ β ^ 2 * 1 := this
      _ = β ^ 2 := by ring
  have hτn : τ ≤ β ^ 2 / (40 * n ^ 2) := hτ.trans (div_le_div_of_nonneg_right hβ32 (by positivity))
  have hsq : β ^ 2 / (40 * n ^ 2) ≤ β ^ 2 / (40 * n) := by
    apply div_le_div_of_nonneg_left (by positivity) (by positivity)
    nlinarith
  have hτ1 : τ ≤ β ^ 2 := by
    refine hτn.trans (hsq.trans (div_le_self (by positivity) (by linarith)))
  have hm : ∀ i < n, ∃ z, O.mul (fin (ini i)) (fin (ob0 i)) = fin z ∧ Close ε (ini i * ob0 i) z := by
    intro i hi
    have hi0 := h0 _ (hini i hi).1
    have ho0 := h0 _ (hob0 i hi).1
    refine H.mul _ _ hi0 ho0 ?_ ?_
    · rcases (hini i hi).1 with h | h
      · left; rw [h, zero_mul]
      · rcases (hob0 i hi).1 with h' | h'
        · left; rw [h', mul_zero]
        · right
          refine hτ1.trans ?_
          rw [pow_two]
          exact mul_le_mul h h' hβ.le hi0
    · have : ini i * ob0 i ≤ 1 * 1 := mul_le_mul (hini i hi).2 (hob0 i hi).2 ho0 (by norm_num)
      linarith
  choose! u hu1 hu2 using hm
  have hraw : rawFirst O n (vecF fin n ini) (vecF fin n ob0) = vecF fin n u := by
    unfold rawFirst
    refine List.map_congr_left (fun i hi => ?_)
    have hi := List.mem_range.1 hi
    rw [vecF_getD fin n ini i hi, vecF_getD fin n ob0 i hi, hu1 i hi]
  have hcase : ∀ j < n, u j = 0 ∨ 7 / 8 * β ^ 2 ≤ u j := by
    intro j hj
    have hc := hu2 j hj
    rcases (hini j hj).1 with h | h
    · left
      have h1 := hc.1
      have h2 := hc.2
      rw [h, zero_mul, mul_zero] at h1 h2
      linarith
    · rcases (hob0 j hj).1 with h' | h'
      · left
        have h1 := hc.1
        have h2 := hc.2
        rw [h', mul_zero, mul_zero] at h1 h2
        linarith
      · right
        have : β ^ 2 ≤ ini j * ob0 j := by
          rw [pow_two]
          exact mul_le_mul h h' hβ.le (by linarith)
        exact (mul_le_mul (by linarith) this (by positivity) (by linarith)).trans hc.1
  have hu3 : ∀ j < n, u j ≤ 3 := by
    intro j hj
    have hj0 := h0 _ (hini j hj).1
    have ho0 := h0 _ (hob0 j hj).1
    have : ini j * ob0 j ≤ 1 * 1 := mul_le_mul (hini j hj).2 (hob0 j hj).2 ho0 (by norm_num)
    have := (hu2 j hj).2
    nlinarith
  obtain ⟨S, hS, hSpos, d, hd, hdj, hdm⟩ := scale_near H hε n hn u (7 / 8 * β ^ 2) (by positivity) hcase hu3 (by
      obtain ⟨i, hi, hp⟩ := hex
      refine ⟨i, hi, lt_of_lt_of_le ?_ (hu2 i hi).1⟩
      exact mul_pos (by linarith) hp) (by
      refine hτn.trans (hsq.trans ?_)
      rw [div_le_div_iff₀ (by positivity) (by positivity)]
      have : 0 < β ^ 2 * n := by positivity
      nlinarith) hΩ
  refine ⟨1 / S, d, by positivity, ?_, hdm, ?_⟩
  · unfold firstRow
    rw [hraw, hS, hd]
  · intro k hk
    obtain ⟨c1, c2, c3⟩ := hdj k hk
    have ha0 : 0 ≤ 1 - ε := by linarith
    refine ⟨?_, c2, ?_, ?_⟩
    · rcases c3 with h | h
      · exact Or.inl h
      · refine Or.inr (le_trans (hsq.trans ?_) h)
        rw [div_le_div_iff₀ (by positivity) (by positivity)]
        have : 0 < β ^ 2 * n := by positivity
        nlinarith
    · rintro p ⟨hl, _, hh⟩
      obtain ⟨s, rfl⟩ := List.length_eq_one_iff.1 hl
      have : s = k := by simpa using hh
      subst this
      simp only [weight, List.length_nil, Nat.mul_zero, Nat.zero_add]
      calc (1 - ε) ^ 2 * (1 / S * (ini s * ob0 s)) = (1 - ε) * ((1 - ε) * (ini s * ob0 s) / S) := by ring
        _ ≤ (1 - ε) * (u s / S) :=
          mul_le_mul_of_nonneg_left (div_le_div_of_nonneg_right (hu2 s hk).1 hSpos.le) ha0
        _ ≤ d s := c1.1
    · intro _
      refine ⟨[k], ⟨rfl, by simpa using hk, rfl⟩, rfl, ?_⟩
      simp only [weight, List.length_nil, Nat.mul_zero, Nat.zero_add]
      calc d k ≤ (1 + ε) * (u k / S) := c1.2
        _ ≤ (1 + ε) * ((1 + ε) * (ini k * ob0 k) / S) :=
          mul_le_mul_of_nonneg_left (div_le_div_of_nonneg_right (hu2 k hk).2 hSpos.le) (by linarith)
        _ = (1 + ε) ^ 2 * (1 / S * (ini k * ob0 k)) := by ring

theorem goodF_next (htr : ∀ i < n, ∀ j < n, β ≤ tr i j ∧ tr i j ≤ 1) (os : List (Nat → ℝ)) (o : Nat → ℝ)
    (ho : ∀ i < n, (o i = 0 ∨ β ≤ o i) ∧ o i ≤ 1) (hex : ∃ i < n, 0 < o i) (row : List D) (psis : List (List Int))
    (h : GoodF fin ε β n ini tr ob0 os row psis) :
    GoodF fin ε β n ini tr ob0 (o :: os) (nextRow O n (matF fin n tr) row (vecF fin n o))
      (psiRow O n (matF fin n tr) row (vecF fin n o) :: psis) := by
  obtain ⟨c, d, hc, rfl, ⟨m, hm, hdm⟩, hd⟩ := h
  have hN : (1 : ℝ) ≤ n := by exact_mod_cast hn1
  have hε8 : ε ≤ 1 / 8 := by nlinarith
  have ha0 : 0 ≤ 1 - ε := by linarith
  have hd0 : ∀ i < n, 0 ≤ d i := fun i hi => by
    rcases (hd i hi).1 with h | h
    · exact h.ge
    · exact le_trans (by positivity) h
  have ho0 : ∀ i < n, 0 ≤ o i := fun i hi => by rcases (ho i hi).1 with h | h <;> linarith
  have hβ32 : β ^ 3 ≤ β ^ 2 := by
    have : β ^ 2 * β ≤ β ^ 2 * 1 := mul_le_mul_of_nonneg_left hβ1 (by positivity)
    calc β ^ 3 = β ^ 2 * β := by ring
      _ ≤ β ^ 2 * 1 := this
      _ = β ^ 2 := by ring
  have hτn : τ ≤ β ^ 2 / (40 * n ^ 2) := hτ.trans (div_le_div_of_nonneg_right hβ32 (by positivity))
  have hsq : β ^ 2 / (40 * n ^ 2) ≤ β ^ 2 / (40 * n) := by
    apply div_le_div_of_nonneg_left (by positivity) (by positivity)
    nlinarith
  -- products with transitions
  have hm1 : ∀ i < n, ∀ j < n, ∃ z, O.mul (fin (d i)) (fin (tr i j)) = fin z ∧ Close ε (d i * tr i j) z := by
    intro i hi j hj
    have ht0 : 0 ≤ tr i j := hβ.le.trans (htr i hi j hj).1
    refine H.mul _ _ (hd0 i hi) ht0 ?_ ?_
    · rcases (hd i hi).1 with h | h
      · left; rw [h, zero_mul]
      · right
        refine hτ.trans ?_
        calc β ^ 3 / (40 * n ^ 2) = β ^ 2 / (40 * n ^ 2) * β := by ring
          _ ≤ d i * tr i j := mul_le_mul h (htr i hi j hj).1 hβ.le (hd0 i hi)
    · have : d i * tr i j ≤ 2 * 1 := mul_le_mul (hd i hi).2.1 (htr i hi j hj).2 ht0 (by norm_num)
      linarith
  choose! z hz1 hz2 using hm1
  have hcur : ∀ j < n, ∀ i < n, O.mul ((vecF fin n d).getD i O.zero) (entry O (matF fin n tr) i j) = fin (z i j) := by
    intro j hj i hi
    rw [vecF_getD fin n d i hi, matF_entry O fin n tr i j hi hj, hz1 i hi j hj]
  have hchoice : ∀ j < n, ∃ v, (choice O n (matF fin n tr) (vecF fin n d) (vecF fin n o) j).2 = fin v ∧ 0 ≤ v ∧
      (0 < o j → ∀ i < n, z i j ≤ v) ∧
      (0 < v → ∃ i : Nat, i < n ∧ (choice O n (matF fin n tr) (vecF fin n d) (vecF fin n o) j).1 = (i : Int) ∧
        z i j = v) := by
    intro j hj
    have hg : O.gt ((vecF fin n o).getD j O.zero) O.zero = decide (0 < o j) := by
      rw [vecF_getD fin n o j hj, H.zero, H.gt]
    unfold choice
    rw [hg]
    by_cases hoj : 0 < o j
    · simp only [hoj, decide_true, if_true]
      obtain ⟨v, h1, h2, h3, h4⟩ := pick_near H n _ (fun i => z i j) (hcur j hj)
      exact ⟨v, h1, h2, fun _ => h3, h4⟩
    · simp only [hoj, decide_false, Bool.false_eq_true, if_false]
      exact ⟨0, H.zero, le_refl _, fun h => h.elim, fun h => absurd h (lt_irrefl _)⟩
  choose! v hv1 hv2 hv3 hv4 using hchoice
  have hvlo : ∀ j < n, 0 < o j → 7 / 8 * (1 / (4 * n) * β) ≤ v j := by
    intro j hj hoj
    have h1 : 1 / (4 * n) * β ≤ d m * tr m j := mul_le_mul hdm (htr m hm j hj).1 hβ.le (hd0 m hm)
    exact ((mul_le_mul (by linarith) h1 (by positivity) ha0).trans (hz2 m hm j hj).1).trans (hv3 j hj hoj m hm)
  have hvhi : ∀ j < n, v j ≤ 9 / 4 := by
    intro j hj
    rcases (hv2 j hj).eq_or_lt with h | h
    · rw [← h]; norm_num
    · obtain ⟨i, hi, -, e⟩ := hv4 j hj h
      rw [← e]
      have ht0 : 0 ≤ tr i j := hβ.le.trans (htr i hi j hj).1
      have : d i * tr i j ≤ 2 * 1 := mul_le_mul (hd i hi).2.1 (htr i hi j hj).2 ht0 (by norm_num)
      have := (hz2 i hi j hj).2
      nlinarith
  -- products with observations
  have hm2 : ∀ j < n, ∃ u, O.mul (fin (v j)) (fin (o j)) = fin u ∧ Close ε (v j * o j) u := by
    intro j hj
    refine H.mul _ _ (hv2 j hj) (ho0 j hj) ?_ ?_
    · rcases (ho j hj).1 with h | h
      · left; rw [h, mul_zero]
      · right
        have hoj : 0 < o j := lt_of_lt_of_le hβ h
        refine hτn.trans (hsq.trans ?_)
        refine le_trans ?_ (mul_le_mul (hvlo j hj hoj) h hβ.le (hv2 j hj))
        rw [show 7 / 8 * (1 / (4 * (n : ℝ)) * β) * β = β ^ 2 * (7 / 32) / n by field_simp; norm_num,
          show β ^ 2 / (40 * (n : ℝ)) = β ^ 2 * (1 / 40) / n by field_simp]
        apply div_le_div_of_nonneg_right _ (by linarith)
        apply mul_le_mul_of_nonneg_left (by norm_num) (by positivity)
    · have : v j * o j ≤ 9 / 4 * 1 := mul_le_mul (hvhi j hj) (ho j hj).2 (ho0 j hj) (by norm_num)
      linarith
  choose! u hu1 hu2 using hm2
  have hraw : rawRow O n (matF fin n tr) (vecF fin n d) (vecF fin n o) = vecF fin n u := by
    unfold rawRow
    refine List.map_congr_left (fun j hj => ?_)
    have hj := List.mem_range.1 hj
    rw [hv1 j hj, vecF_getD fin n o j hj, hu1 j hj]
  have hlow : ∀ j < n, 0 < o j → 49 / 256 * (β ^ 2 / n) ≤ u j := by
    intro j hj hoj
    have h : β ≤ o j := by
      rcases (ho j hj).1 with h | h
      · rw [h] at hoj; exact absurd hoj (lt_irrefl _)
      · exact h
    have h1 := mul_le_mul (hvlo j hj hoj) h hβ.le (hv2 j hj)
    have h2 : 7 / 8 * (7 / 8 * (1 / (4 * n) * β) * β) ≤ u j :=
      (mul_le_mul (by linarith) h1 (by positivity) ha0).trans (hu2 j hj).1
    refine le_trans (le_of_eq ?_) h2
    field_simp
    norm_num
  have hcase : ∀ j < n, u j = 0 ∨ 49 / 256 * (β ^ 2 / n) ≤ u j := by
    intro j hj
    rcases (ho j hj).1 with h | h
    · left
      have h1 := (hu2 j hj).1
      have h2 := (hu2 j hj).2
      rw [h, mul_zero, mul_zero] at h1 h2
      linarith
    · exact Or.inr (hlow j hj (lt_of_lt_of_le hβ h))
  have hu3 : ∀ j < n, u j ≤ 3 := by
    intro j hj
    have : v j * o j ≤ 9 / 4 * 1 := mul_le_mul (hvhi j hj) (ho j hj).2 (ho0 j hj) (by norm_num)
    have := (hu2 j hj).2
    nlinarith
  have hupos : ∃ j < n, 0 < u j := by
    obtain ⟨j, hj, hoj⟩ := hex
    exact ⟨j, hj, lt_of_lt_of_le (by positivity) (hlow j hj hoj)⟩
  obtain ⟨S, hS, hSpos, d', hd', hdj, hdm'⟩ := scale_near H hε n hn u (49 / 256 * (β ^ 2 / n)) (by positivity) hcase hu3 hupos (by
      refine hτn.trans ?_
      rw [show 49 / 256 * (β ^ 2 / (n : ℝ)) / (4 * n) = β ^ 2 * (49 / 1024) / n ^ 2 by field_simp; norm_num,
        show β ^ 2 / (40 * (n : ℝ) ^ 2) = β ^ 2 * (1 / 40) / n ^ 2 by field_simp]
      apply div_le_div_of_nonneg_right _ (by positivity)
      apply mul_le_mul_of_nonneg_left (by norm_num) (by positivity)) hΩ
  refine ⟨c / S, d', by positivity, ?_, hdm', ?_⟩
  · unfold nextRow
    simp only
    rw [hraw, hS, H.zero, H.gt]
    simp only [hSpos, decide_true, if_true]
    exact hd'
  · intro j hj
    obtain ⟨c1, c2, c3⟩ := hdj j hj
    refine ⟨?_, c2, ?_, ?_⟩
    · rcases c3 with h | h
      · exact Or.inl h
      · refine Or.inr (le_trans ?_ h)
        rw [show 49 / 256 * (β ^ 2 / (n : ℝ)) / (5 * n) = β ^ 2 * (49 / 1280) / n ^ 2 by field_simp; norm_num,
          show β ^ 2 / (40 * (n : ℝ) ^ 2) = β ^ 2 * (1 / 40) / n ^ 2 by field_simp]
        apply div_le_div_of_nonneg_right _ (by positivity)
        apply mul_le_mul_of_nonneg_left (by norm_num) (by positivity)
    · rintro p ⟨hl, hs, hh⟩
      rcases p with _ | ⟨t, _ | ⟨s, p⟩⟩
      · simp at hl
      · simp at hl
      · have : t = j := by simpa using hh
        subst this
        have hsn : s < n := hs s (by simp)
        rw [weight_cons, List.length_cons]
        have hd'0 : 0 ≤ d' t := by
          rcases c3 with h | h
          · exact h.ge
          · exact le_trans (by positivity) h
        rcases (ho0 t hj).eq_or_lt with h0 | h0
        · rw [← h0]; simpa using hd'0
        · have h1 := (hd s hsn).2.2.1 (s :: p) ⟨by simpa using hl, fun x hx => hs x (by simp [hx]), rfl⟩
          have h2 := hv3 t hj h0 s hsn
          have ht0 : 0 ≤ tr s t := hβ.le.trans (htr s hsn t hj).1
          calc (1 - ε) ^ (3 * (os.length + 1) + 2) * (c / S * (weight ini tr ob0 os (s :: p) * tr s t * o t))
              = (1 - ε) * ((1 - ε) * ((1 - ε) * ((1 - ε) ^ (3 * os.length + 2) * (c * weight ini tr ob0 os (s :: p)) * tr s t) * o t) / S) := by
                ring
            _ ≤ (1 - ε) * ((1 - ε) * ((1 - ε) * (d s * tr s t) * o t) / S) := by
                refine mul_le_mul_of_nonneg_left (div_le_div_of_nonneg_right (mul_le_mul_of_nonneg_left
                  (mul_le_mul_of_nonneg_right (mul_le_mul_of_nonneg_left (mul_le_mul_of_nonneg_right h1 ht0) ha0) h0.le)
                  ha0) hSpos.le) ha0
            _ ≤ (1 - ε) * ((1 - ε) * (v t * o t) / S) := by
                refine mul_le_mul_of_nonneg_left (div_le_div_of_nonneg_right (mul_le_mul_of_nonneg_left
                  (mul_le_mul_of_nonneg_right ((hz2 s hsn t hj).1.trans h2) h0.le) ha0) hSpos.le) ha0
            _ ≤ (1 - ε) * (u t / S) :=
                mul_le_mul_of_nonneg_left (div_le_div_of_nonneg_right (hu2 t hj).1 hSpos.le) ha0
            _ ≤ d' t := c1.1
    · intro hpj
      have huj : 0 < u j := by
        by_contra hneg
        have : u j = 0 := by
          rcases hcase j hj with h | h
          · exact h
          · exact absurd (lt_of_lt_of_le (by positivity) h) hneg
        have := c1.2
        rw [‹u j = 0›, zero_div, mul_zero] at this
        linarith
      have hvo : 0 < v j * o j := by
        by_contra hneg
        have h1 := (hu2 j hj).2
        nlinarith
      have hvj : 0 < v j := by
        rcases (hv2 j hj).eq_or_lt with h | h
        · rw [← h] at hvo; simp at hvo
        · exact h
      obtain ⟨i, hi, hi1, hi2⟩ := hv4 j hj hvj
      have hzu := (hz2 i hi j hj).2
      have ht0 : 0 ≤ tr i j := hβ.le.trans (htr i hi j hj).1
      have hdi : 0 < d i := by
        rcases (hd0 i hi).eq_or_lt with h | h
        · rw [← h, zero_mul, mul_zero] at hzu
          rw [hi2] at hzu
          linarith
        · exact h
      obtain ⟨p, hp, hpt, hpw⟩ := (hd i hi).2.2.2 hdi
      obtain ⟨hpl, hpn, hph⟩ := hp
      rcases p with _ | ⟨s, p⟩
      · simp at hph
      have : s = i := by simpa using hph
      subst this
      refine ⟨j :: s :: p, ⟨by simpa using hpl, ?_, rfl⟩, ?_, ?_⟩
      · intro x hx
        rcases List.mem_cons.1 hx with rfl | hx
        · exact hj
        · exact hpn x hx
      · have hrow : (psiRow O n (matF fin n tr) (vecF fin n d) (vecF fin n o)).getD j 0 = (s : Int) := by
          unfold psiRow
          rw [List.getD_eq_getElem?_getD]
          simp [hj, hi1]
        simp only [trace, Int.toNat_natCast, hrow, hpt]
        simp
      · rw [weight_cons, List.length_cons]
        have hb0 : 0 ≤ 1 + ε := by linarith
        rw [hi2] at hzu
        calc d' j ≤ (1 + ε) * (u j / S) := c1.2
          _ ≤ (1 + ε) * ((1 + ε) * (v j * o j) / S) :=
              mul_le_mul_of_nonneg_left (div_le_div_of_nonneg_right (hu2 j hj).2 hSpos.le) hb0
          _ ≤ (1 + ε) * ((1 + ε) * ((1 + ε) * (d s * tr s j) * o j) / S) :=
              mul_le_mul_of_nonneg_left (div_le_div_of_nonneg_right (mul_le_mul_of_nonneg_left
                (mul_le_mul_of_nonneg_right hzu (ho0 j hj)) hb0) hSpos.le) hb0
          _ ≤ (1 + ε) * ((1 + ε) * ((1 + ε) * ((1 + ε) ^ (3 * os.length + 2) * (c * weight ini tr ob0 os (s :: p)) * tr s j) * o j) / S) :=
              mul_le_mul_of_nonneg_left (div_le_div_of_nonneg_right (mul_le_mul_of_nonneg_left
                (mul_le_mul_of_nonneg_right (mul_le_mul_of_nonneg_left (mul_le_mul_of_nonneg_right hpw ht0) hb0)
                  (ho0 j hj)) hb0) hSpos.le) hb0
          _ = (1 + ε) ^ (3 * (os.length + 1) + 2) * (c / S * (weight ini tr ob0 os (s :: p) * tr s j * o j)) := by ring

/-- **C120, rounding.**  For tables without numbers close to zero, in any arithmetic with a relative error of at most `ε` per
operation, the path returned for `m + 1` frames is a state path, and its probability is the greatest one up to a factor
of `((1 - ε) / (1 + ε)) ^ (3 m + 2)`.  That `delta` is scaled in every frame neither hurts nor underflows. -/
theorem C120_rounding (os : List (Nat → ℝ)) (hM : Moderate β n ini tr ob0 os) :
    ∃ (r : Result D) (p : List Nat), viterbiPath O (vecF fin n ini) (matF fin n tr) (vecF fin n ob0 :: os.map (vecF fin n)) = .ok r ∧
      r.path = p.map Int.ofNat ∧ p.length = os.length + 1 ∧ (∀ s ∈ p, s < n) ∧
      ∀ p' : List Nat, p'.length = os.length + 1 → (∀ s ∈ p', s < n) →
        (1 - ε) ^ (3 * os.length + 2) * weight ini tr ob0 os.reverse p'.reverse ≤
          (1 + ε) ^ (3 * os.length + 2) * weight ini tr ob0 os.reverse p.reverse := by
  have hgood : ∀ (os : List (Nat → ℝ)), (∀ o ∈ os, ∀ i < n, (o i = 0 ∨ β ≤ o i) ∧ o i ≤ 1) → (∀ o ∈ os, ∃ i < n, 0 < o i) →
      GoodF fin ε β n ini tr ob0 os
        (rows O n (vecF fin n ini) (matF fin n tr) (vecF fin n ob0) (os.map (vecF fin n))).1
        (rows O n (vecF fin n ini) (matF fin n tr) (vecF fin n ob0) (os.map (vecF fin n))).2 := by
    intro os
    induction os with
    | nil =>
      intro _ _
      exact goodF_first H n ini tr ob0 hε hn hn1 hβ hβ1 hτ hΩ hM.hini hM.hob0 hM.first
    | cons o os ih =>
      intro h1 h2
      exact goodF_next H n ini tr ob0 hε hn hn1 hβ hβ1 hτ hΩ hM.htr os o (h1 o (by simp)) (h2 o (by simp)) _ _
        (ih (fun o h => h1 o (by simp [h])) (fun o h => h2 o (by simp [h])))
  have hsz : Sized n (vecF fin n ini) (matF fin n tr) (vecF fin n ob0 :: os.map (vecF fin n)) := by
    refine ⟨hn1, by simp [vecF], by simp [matF], ?_, by simp, ?_⟩
    · intro r hr
      obtain ⟨i, _, rfl⟩ := List.mem_map.1 hr
      simp [vecF]
    · intro r hr
      rcases List.mem_cons.1 hr with rfl | hr
      · simp [vecF]
      · obtain ⟨i, _, rfl⟩ := List.mem_map.1 hr
        simp [vecF]
  obtain ⟨ds, scs, _, _, hrun⟩ := viterbiPath_eq O _ _ hsz
  have hG := hgood os.reverse (fun o h => hM.hos o (by simpa using h)) (fun o h => hM.next o (by simpa using h))
  rw [List.map_reverse] at hG
  obtain ⟨c, d, hc, hrow, ⟨m, hm, hdm⟩, hd⟩ := hG
  rw [hrow] at hrun
  obtain ⟨v, hv1, hv2, hv3, hv4⟩ := pick_near H n (fun i => (vecF fin n d).getD i O.zero) d
    (fun i hi => vecF_getD fin n d i hi _)
  rw [List.length_reverse] at hd
  have hlast : ∀ p' : List Nat, p'.length = os.length + 1 → (∀ s ∈ p', s < n) →
      (1 - ε) ^ (3 * os.length + 2) * (c * weight ini tr ob0 os.reverse p'.reverse) ≤ v := by
    intro p' hl hs
    cases hrev : p'.reverse with
    | nil => rw [List.reverse_eq_nil_iff] at hrev; simp [hrev] at hl
    | cons j l =>
      have hjm : j ∈ p' := by rw [← List.mem_reverse, hrev]; simp
      have hj : j < n := hs j hjm
      refine ((hd j hj).2.2.1 (j :: l) ⟨?_, ?_, rfl⟩).trans (hv3 j hj)
      · rw [← hrev]; simpa using hl
      · intro x hx
        rw [← hrev] at hx
        exact hs x (by simpa using hx)
  have hvpos : 0 < v := lt_of_lt_of_le (lt_of_lt_of_le (by positivity) hdm) (hv3 m hm)
  obtain ⟨i, hi, hi1, hi2⟩ := hv4 hvpos
  obtain ⟨p, ⟨hpl, hpn, _⟩, hpt, hpw⟩ := (hd i hi).2.2.2 (by rw [hi2]; exact hvpos)
  refine ⟨_, p.reverse, hrun, ?_, by simpa using hpl, fun s h => hpn s (by simpa using h), ?_⟩
  · simp only [hi1, hpt]
  · intro p' hl hs
    have h1 := hlast p' hl hs
    rw [← hi2] at h1
    rw [List.reverse_reverse]
    have h2 := h1.trans hpw
    refine le_of_mul_le_mul_left ?_ hc
    calc c * ((1 - ε) ^ (3 * os.length + 2) * weight ini tr ob0 os.reverse p'.reverse)
        = (1 - ε) ^ (3 * os.length + 2) * (c * weight ini tr ob0 os.reverse p'.reverse) := by ring
      _ ≤ (1 + ε) ^ (3 * os.length + 2) * (c * weight ini tr ob0 os.reverse p) := h2
      _ = c * ((1 + ε) ^ (3 * os.length + 2) * weight ini tr ob0 os.reverse p) := by ring

end

/-! ### Doubles -/

open RD

open Classical in
/-- IEEE-754 division in binary64 (the sign of a zero divisor is not modelled). -/
noncomputable def div64 : RD → RD → RD
  | nan, _ => nan
  | _, nan => nan
  | fin r, fin s => if s = 0 then (if r = 0 then nan else if 0 < r then pinf else ninf) else rnd64 (r / s)
  | fin _, _ => fin 0
  | pinf, fin s => if 0 ≤ s then pinf else ninf
  | ninf, fin s => if 0 ≤ s then ninf else pinf
  | _, _ => nan

/-- The arithmetic of `ViterbiPath` on `double` (viterbi.cpp works on `vector<double>`). -/
noncomputable def doubles : Ops RD where
  zero := fin 0
  ofNat n := rnd64 n
  add := RD.add binary64
  mul := RD.mul binary64
  div := div64
  gt a b := RD.lt b a

/-- Doubles are such an arithmetic. -/
theorem near_doubles : Near doubles fin ((2 : ℝ) ^ (-53 : ℤ)) ((2 : ℝ) ^ (-1022 : ℤ)) ((2 : ℝ) ^ (1023 : ℤ)) where
  zero := rfl
  gt x y := by simp [doubles, RD.lt]
  mul x y _ _ h1 h2 := rnd64_close h1 h2
  add x y _ _ h1 h2 := rnd64_close h1 h2
  div x y _ hy h1 h2 := by
    obtain ⟨z, e, hz⟩ := rnd64_close h1 h2
    refine ⟨z, ?_, hz⟩
    change div64 (fin x) (fin y) = fin z
    simp only [div64, hy.ne', if_false, e]

/-- Exact arithmetic is such an arithmetic, without error and without bounds. -/
theorem near_exact (Ω : ℝ) : Near (Ops.mk 0 (fun n => (n : ℝ)) (· + ·) (· * ·) (· / ·) (fun a b => decide (b < a)))
    id 0 0 Ω where
  zero := rfl
  gt x y := rfl
  mul x y _ _ _ _ := ⟨_, rfl, by simp [Close]⟩
  add x y _ _ _ _ := ⟨_, rfl, by simp [Close]⟩
  div x y _ _ _ _ := ⟨_, rfl, by simp [Close]⟩

theorem beta_pow {β : ℝ} {n : Nat} (hβ : (2 : ℝ) ^ (-300 : ℤ) ≤ β) (hn1 : 0 < n) (hn : n ≤ 2 ^ 40) :
    (2 : ℝ) ^ (-1022 : ℤ) ≤ β ^ 3 / (40 * n ^ 2) := by
  have hN : (1 : ℝ) ≤ n := by exact_mod_cast hn1
  have hN2 : (n : ℝ) ≤ 2 ^ 40 := by exact_mod_cast hn
  rw [le_div_iff₀ (by positivity)]
  have h1 : ((2 : ℝ) ^ (-300 : ℤ)) ^ 3 ≤ β ^ 3 := pow_le_pow_left₀ (two_zpow_pos _).le hβ 3
  have h2 : (n : ℝ) ^ 2 ≤ (2 ^ 40) ^ 2 := pow_le_pow_left₀ (by linarith) hN2 2
  refine le_trans ?_ h1
  calc (2 : ℝ) ^ (-1022 : ℤ) * (40 * (n : ℝ) ^ 2) ≤ 2 ^ (-1022 : ℤ) * (2 ^ 6 * (2 ^ 40) ^ 2) := by
        apply mul_le_mul_of_nonneg_left _ (two_zpow_pos _).le
        apply mul_le_mul (by norm_num) h2 (by positivity) (by norm_num)
    _ = 2 ^ (-936 : ℤ) := by
        rw [show (2 : ℝ) ^ 6 * (2 ^ 40) ^ 2 = 2 ^ (86 : ℤ) by norm_num, ← zpow_add₀ (by norm_num : (2 : ℝ) ≠ 0)]
        norm_num
    _ ≤ 2 ^ (-900 : ℤ) := zpow_le_zpow_right₀ (by norm_num) (by norm_num)
    _ = ((2 : ℝ) ^ (-300 : ℤ)) ^ 3 := by
        rw [← zpow_natCast, ← zpow_mul]
        norm_num

/-- **C120, in doubles.**  Up to `2⁴⁰` chords and for probabilities that are zero or at least `2⁻³⁰⁰`, no path of chords is more
probable than the returned one by more than a factor `(1 + 2⁻⁵¹) ^ (3 m + 2)`, for `m + 1` frames. -/
theorem C120_double {β : ℝ} (n : Nat) (ini : Nat → ℝ) (tr : Nat → Nat → ℝ) (ob0 : Nat → ℝ) (os : List (Nat → ℝ))
    (hn1 : 0 < n) (hn : n ≤ 2 ^ 40) (hβ : (2 : ℝ) ^ (-300 : ℤ) ≤ β) (hβ1 : β ≤ 1) (hM : Moderate β n ini tr ob0 os) :
    ∃ (r : Result RD) (p : List Nat),
      viterbiPath doubles (vecF fin n ini) (matF fin n tr) (vecF fin n ob0 :: os.map (vecF fin n)) = .ok r ∧
      r.path = p.map Int.ofNat ∧ p.length = os.length + 1 ∧ (∀ s ∈ p, s < n) ∧
      ∀ p' : List Nat, p'.length = os.length + 1 → (∀ s ∈ p', s < n) →
        weight ini tr ob0 os.reverse p'.reverse ≤
          (1 + (2 : ℝ) ^ (-51 : ℤ)) ^ (3 * os.length + 2) * weight ini tr ob0 os.reverse p.reverse := by
  have hN2 : (n : ℝ) ≤ 2 ^ 40 := by exact_mod_cast hn
  have hβ0 : 0 < β := (two_zpow_pos _).trans_le hβ
  have hΩ : 4 * (n : ℝ) ≤ 2 ^ (1023 : ℤ) := by
    have : (2 : ℝ) ^ (42 : ℤ) ≤ 2 ^ (1023 : ℤ) := zpow_le_zpow_right₀ (by norm_num) (by norm_num)
    refine le_trans ?_ this
    have : (2 : ℝ) ^ (42 : ℤ) = 4 * 2 ^ 40 := by norm_num
    rw [this]
    linarith
  have hε : ((n : ℝ) + 3) * 2 ^ (-53 : ℤ) ≤ 1 / 8 := by
    have h1 : ((n : ℝ) + 3) * 2 ^ (-53 : ℤ) ≤ (2 ^ 40 + 3) * 2 ^ (-53 : ℤ) :=
      mul_le_mul_of_nonneg_right (by linarith) (two_zpow_pos _).le
    refine h1.trans (by norm_num)
  obtain ⟨r, p, h1, h2, h3, h4, h5⟩ := C120_rounding near_doubles n ini tr ob0 (two_zpow_pos _).le hε hn1 hβ0 hβ1
    (beta_pow hβ hn1 hn) hΩ os hM
  refine ⟨r, p, h1, h2, h3, h4, fun p' hl hs => ?_⟩
  have h6 := h5 p' hl hs
  have hw : 0 ≤ weight ini tr ob0 os.reverse p.reverse := by
    by_contra hneg
    have hneg := not_le.1 hneg
    have hself := h5 p h3 h4
    have hlt : (1 - (2 : ℝ) ^ (-53 : ℤ)) ^ (3 * os.length + 2) < (1 + (2 : ℝ) ^ (-53 : ℤ)) ^ (3 * os.length + 2) :=
      pow_lt_pow_left₀ (by norm_num) (by norm_num) (by omega)
    nlinarith
  have hpos : (0 : ℝ) < (1 - (2 : ℝ) ^ (-53 : ℤ)) ^ (3 * os.length + 2) := pow_pos (by norm_num) _
  refine le_of_mul_le_mul_left ?_ hpos
  refine h6.trans ?_
  rw [← mul_assoc, ← mul_pow]
  refine mul_le_mul_of_nonneg_right (pow_le_pow_left₀ (by norm_num) (by norm_num) _) hw

/-- **C120, a clear winner.**  If one path of chords is more probable than every other one by more than that factor, rounding does
not matter: it is the path returned. -/
theorem C120_winner {β : ℝ} (n : Nat) (ini : Nat → ℝ) (tr : Nat → Nat → ℝ) (ob0 : Nat → ℝ) (os : List (Nat → ℝ))
    (hn1 : 0 < n) (hn : n ≤ 2 ^ 40) (hβ : (2 : ℝ) ^ (-300 : ℤ) ≤ β) (hβ1 : β ≤ 1) (hM : Moderate β n ini tr ob0 os)
    (best : List Nat) (hl : best.length = os.length + 1) (hs : ∀ s ∈ best, s < n)
    (hbest : ∀ p' : List Nat, p'.length = os.length + 1 → (∀ s ∈ p', s < n) → p' ≠ best →
      (1 + (2 : ℝ) ^ (-51 : ℤ)) ^ (3 * os.length + 2) * weight ini tr ob0 os.reverse p'.reverse <
        weight ini tr ob0 os.reverse best.reverse) :
    ∃ r : Result RD, viterbiPath doubles (vecF fin n ini) (matF fin n tr) (vecF fin n ob0 :: os.map (vecF fin n)) = .ok r ∧
      r.path = best.map Int.ofNat := by
  obtain ⟨r, p, h1, h2, h3, h4, h5⟩ := C120_double n ini tr ob0 os hn1 hn hβ hβ1 hM
  refine ⟨r, h1, ?_⟩
  by_cases h : p = best
  · rw [h2, h]
  · exact absurd (h5 best hl hs) (not_le.2 (hbest p h3 h4 h))

/-- Two chords, three frames: the tables meet the hypotheses. -/
example : Moderate (1 / 10) 2 (fun i => if i = 1 then 1 else 0) (fun i j => if i = j then 9 / 10 else 1 / 10)
    (fun _ => 1 / 2) [fun i => if i = 0 then 8 / 10 else 1 / 10, fun i => if i = 0 then 1 else 0] := by
  refine ⟨?_, ?_, ?_, ?_, ⟨1, by norm_num, by norm_num⟩, ?_⟩
  · intro i hi; interval_cases i <;> norm_num
  · intro i hi j hj; interval_cases i <;> interval_cases j <;> norm_num
  · intro i _; norm_num
  · intro o ho i hi
    simp only [List.mem_cons, List.not_mem_nil, or_false] at ho
    rcases ho with rfl | rfl <;> interval_cases i <;> norm_num
  · intro o ho
    simp only [List.mem_cons, List.not_mem_nil, or_false] at ho
    rcases ho with rfl | rfl <;> exact ⟨0, by norm_num, by norm_num⟩

/-- On these tables the path is "no chord" and then the first chord twice: it beats all others clearly. -/
example : ∃ r : Result RD, viterbiPath doubles (vecF fin 2 (fun i => if i = 1 then 1 else 0))
      (matF fin 2 (fun i j => if i = j then 9 / 10 else 1 / 10))
      (vecF fin 2 (fun _ => 1 / 2) :: [fun i => if i = 0 then 8 / 10 else 1 / 10, fun i => if i = 0 then 1 else 0].map (vecF fin 2)) = .ok r ∧
    r.path = [1, 0, 0] := by
  refine C120_winner (β := 1 / 10) 2 _ _ _ _ (by norm_num) (by norm_num) ?_ (by norm_num) ?_ [1, 0, 0] rfl (by simp) ?_
  · exact le_trans (zpow_le_zpow_right₀ (by norm_num) (by norm_num : (-300 : ℤ) ≤ -4)) (by norm_num)
  · refine ⟨?_, ?_, ?_, ?_, ⟨1, by norm_num, by norm_num⟩, ?_⟩
    · intro i hi; interval_cases i <;> norm_num
    · intro i hi j hj; interval_cases i <;> interval_cases j <;> norm_num
    · intro i _; norm_num
    · intro o ho i hi
      simp only [List.mem_cons, List.not_mem_nil, or_false] at ho
      rcases ho with rfl | rfl <;> interval_cases i <;> norm_num
    · intro o ho
      simp only [List.mem_cons, List.not_mem_nil, or_false] at ho
      rcases ho with rfl | rfl <;> exact ⟨0, by norm_num, by norm_num⟩
  · intro p' hl hs hne
    match p', hl, hs, hne with
    | [a, b, c], _, hs, hne =>
      have ha : a < 2 := hs a (by simp)
      have hb : b < 2 := hs b (by simp)
      have hc : c < 2 := hs c (by simp)
      interval_cases a <;> interval_cases b <;> interval_cases c <;>
        first | exact absurd rfl hne | (simp [weight]; try norm_num)

end JKD.ChordViterbi
