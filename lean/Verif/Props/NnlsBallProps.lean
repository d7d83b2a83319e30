import Verif.Props.NnlsProps
import Verif.Lemmas.NnlsBall
/-
C100: the non-negative least squares solver never overshoots, not even when it gives up.
-/

namespace JKD.Nnls

open Finset

/-- **C100.**  In exact arithmetic, whatever is reported: the square of the distance from the right-hand side and the
square of the length of the combination found add up to at most the square of the length of the right-hand side - so
the answer is never worse than no answer, and the combination never longer than its target.  After a success the two
add up exactly. -/
theorem C100_pythagoras (m n : Nat) (hm : 1 ≤ m) (hn : 1 ≤ n) (s : St ℝ) (rnorm : ℝ) :
    ∃ r, call exact m n s rnorm = .ok r ∧ NonNeg n r.x ∧
      Misfit m n s.a s.b r.x + ∑ l ∈ Icc 1 m, (∑ j ∈ Icc 1 n, s.a l j * r.x j) ^ 2 ≤ ∑ l ∈ Icc 1 m, s.b l ^ 2 ∧
      (r.mode = 1 →
        Misfit m n s.a s.b r.x + ∑ l ∈ Icc 1 m, (∑ j ∈ Icc 1 n, s.a l j * r.x j) ^ 2 = ∑ l ∈ Icc 1 m, s.b l ^ 2) := by
  obtain ⟨t, e1, e2, e3, e4, e5⟩ := nnls_ball m n hn s
  obtain ⟨f1, f2, -, -⟩ := finish_fields m n t
  refine ⟨_, by unfold call; rw [if_neg (by omega)]; exact e1, ?_, ?_⟩
  · intro j h1 h2
    rw [f1]
    exact x_nonneg e2 e3 h1 h2
  · have e : ∑ l ∈ Icc 1 m, s.b l ^ 2 = Misfit m n s.a s.b t.x +
        ∑ l ∈ Icc 1 m, (∑ j ∈ Icc 1 n, s.a l j * t.x j) ^ 2 +
        2 * ∑ l ∈ Icc 1 m, image n s.a t.x l * (s.b l - image n s.a t.x l) := by
      unfold Misfit
      rw [Finset.mul_sum, ← Finset.sum_add_distrib, ← Finset.sum_add_distrib]
      apply Finset.sum_congr rfl
      intro l _
      unfold image
      ring
    rw [f1, f2, e]
    unfold Ball at e4
    refine ⟨by linarith, ?_⟩
    intro h
    rw [e5 h]
    ring

/-- **C100, the coefficients.**  If no entry of the matrix is negative, as in the dictionary of note profiles, no
coefficient can make its column alone longer than the right-hand side. -/
theorem C100_coefficients (m n : Nat) (hm : 1 ≤ m) (hn : 1 ≤ n) (s : St ℝ) (rnorm : ℝ)
    (ha : ∀ l j, 1 ≤ l → l ≤ m → 1 ≤ j → j ≤ n → 0 ≤ s.a l j) :
    ∃ r, call exact m n s rnorm = .ok r ∧ NonNeg n r.x ∧
      ∀ j, 1 ≤ j → j ≤ n → ∑ l ∈ Icc 1 m, (s.a l j * r.x j) ^ 2 ≤ ∑ l ∈ Icc 1 m, s.b l ^ 2 := by
  obtain ⟨r, e, h1, h2, -⟩ := C100_pythagoras m n hm hn s rnorm
  refine ⟨r, e, h1, ?_⟩
  intro j g1 g2
  have hm : 0 ≤ Misfit m n s.a s.b r.x := Finset.sum_nonneg (fun l _ => sq_nonneg _)
  refine le_trans ?_ (by linarith : ∑ l ∈ Icc 1 m, (∑ j ∈ Icc 1 n, s.a l j * r.x j) ^ 2 ≤ ∑ l ∈ Icc 1 m, s.b l ^ 2)
  apply Finset.sum_le_sum
  intro l hl
  rw [Finset.mem_Icc] at hl
  have h0 : ∀ k ∈ Icc 1 n, 0 ≤ s.a l k * r.x k := by
    intro k hk
    rw [Finset.mem_Icc] at hk
    exact mul_nonneg (ha l k hl.1 hl.2 hk.1 hk.2) (h1 k hk.1 hk.2)
  exact pow_le_pow_left₀ (h0 j (Finset.mem_Icc.mpr ⟨g1, g2⟩))
    (Finset.single_le_sum (f := fun k => s.a l k * r.x k) h0 (Finset.mem_Icc.mpr ⟨g1, g2⟩)) 2

/-- Two columns that both have something of the right-hand side `(2, 2)`. -/
noncomputable def twoColumns (s : St ℝ) : St ℝ := { s with a := fun l j => if j ≤ l then 1 else 0, b := fun _ => 2 }

/-- The hypotheses hold: the first coefficient, whose column is `(1, 1)`, is at most 2. -/
example (s : St ℝ) (rnorm : ℝ) : ∃ r, call exact 2 2 (twoColumns s) rnorm = .ok r ∧ r.x 1 ^ 2 ≤ 4 := by
  obtain ⟨r, e, -, h⟩ := C100_coefficients 2 2 (by norm_num) (by norm_num) (twoColumns s) rnorm (by
    intro l j _ _ _ _
    unfold twoColumns
    simp only
    split_ifs <;> norm_num)
  refine ⟨r, e, ?_⟩
  have := h 1 (by norm_num) (by norm_num)
  simp only [twoColumns, Finset.sum_Icc_succ_top (by norm_num : 1 ≤ 1 + 1), Finset.Icc_self, Finset.sum_singleton] at this
  norm_num at this
  linarith

end JKD.Nnls
