import Verif.Lemmas.NnlsStep
/-
The state `nnls` ends in satisfies the optimality conditions.
-/

namespace JKD.Nnls

open Finset

/-- A combination of the right-hand side and the columns. -/
noncomputable def comb (n : Nat) (s : St ℝ) (u : Nat → ℝ) : Nat → ℝ := fun l => ∑ p ∈ Icc 0 n, u p * vec s p l

theorem dot_comb (m n : Nat) (s : St ℝ) (u v : Nat → ℝ) :
    dot m (comb n s u) (comb n s v) = ∑ p ∈ Icc 0 n, ∑ q ∈ Icc 0 n, u p * v q * dot m (vec s p) (vec s q) := by
  unfold dot comb
  calc ∑ l ∈ Icc 1 m, (∑ p ∈ Icc 0 n, u p * vec s p l) * ∑ q ∈ Icc 0 n, v q * vec s q l
      = ∑ l ∈ Icc 1 m, ∑ p ∈ Icc 0 n, ∑ q ∈ Icc 0 n, u p * vec s p l * (v q * vec s q l) := by
        apply Finset.sum_congr rfl
        intro l _
        rw [Finset.sum_mul_sum]
    _ = ∑ p ∈ Icc 0 n, ∑ q ∈ Icc 0 n, ∑ l ∈ Icc 1 m, u p * vec s p l * (v q * vec s q l) := by
        rw [Finset.sum_comm]
        apply Finset.sum_congr rfl
        intro p _
        rw [Finset.sum_comm]
    _ = _ := by
        apply Finset.sum_congr rfl
        intro p _
        apply Finset.sum_congr rfl
        intro q _
        rw [Finset.mul_sum]
        apply Finset.sum_congr rfl
        intro l _
        ring

theorem Gram.comb {m n : Nat} {s s0 : St ℝ} (h : Gram m n s s0) (u v : Nat → ℝ) :
    dot m (comb n s u) (comb n s v) = dot m (comb n s0 u) (comb n s0 v) := by
  rw [dot_comb, dot_comb]
  apply Finset.sum_congr rfl
  intro p hp
  apply Finset.sum_congr rfl
  intro q hq
  rw [Finset.mem_Icc] at hp hq
  rw [h p q hp.2 hq.2]

/-- The residual `b - A z`. -/
noncomputable def resid (n : Nat) (a : Nat → Nat → ℝ) (b z : Nat → ℝ) (l : Nat) : ℝ :=
  b l - ∑ j ∈ Icc 1 n, a l j * z j

theorem resid_eq_comb (n : Nat) (s : St ℝ) (z : Nat → ℝ) :
    resid n s.a s.b z = comb n s (fun p => if p = 0 then 1 else - z p) := by
  funext l
  unfold resid comb
  rw [sum_Icc_head (Nat.zero_le n)]
  beta_reduce
  rw [if_pos rfl, vec_zero, one_mul, sub_eq_add_neg, ← Finset.sum_neg_distrib]
  congr 1
  apply Finset.sum_congr rfl
  intro j hj
  rw [Finset.mem_Icc] at hj
  rw [if_neg (by omega), vec_pos _ (by omega)]
  unfold St.col
  ring

theorem col_eq_comb {n : Nat} (s : St ℝ) {j : Nat} (h1 : 1 ≤ j) (h2 : j ≤ n) :
    s.col j = comb n s (fun p => if p = j then 1 else 0) := by
  funext l
  unfold comb
  beta_reduce
  rw [Finset.sum_eq_single j]
  · rw [if_pos rfl, one_mul, vec_pos _ h1]
  · intro b _ hb
    rw [if_neg hb, zero_mul]
  · intro h
    rw [Finset.mem_Icc] at h
    omega

theorem Gram.resid {m n : Nat} {s s0 : St ℝ} (h : Gram m n s s0) (z : Nat → ℝ) :
    dot m (resid n s.a s.b z) (resid n s.a s.b z) = dot m (resid n s0.a s0.b z) (resid n s0.a s0.b z) := by
  rw [resid_eq_comb, resid_eq_comb]
  exact h.comb _ _

theorem Gram.grad {m n : Nat} {s s0 : St ℝ} (h : Gram m n s s0) (z : Nat → ℝ) {j : Nat} (h1 : 1 ≤ j) (h2 : j ≤ n) :
    dot m (s.col j) (JKD.Nnls.resid n s.a s.b z) = dot m (s0.col j) (JKD.Nnls.resid n s0.a s0.b z) := by
  rw [resid_eq_comb, resid_eq_comb, col_eq_comb s h1 h2, col_eq_comb s0 h1 h2]
  exact h.comb _ _

/-- Sums over the columns can be taken in the order of `index`. -/
theorem sum_index {m n : Nat} {s : St ℝ} (hs : Shape m n s) (f : Nat → ℝ) :
    ∑ c ∈ Icc 1 n, f c = ∑ q ∈ Icc 1 n, f (s.index q) := by
  symm
  refine Finset.sum_bij (fun q _ => s.index q) ?_ ?_ ?_ ?_
  · intro q hq
    rw [Finset.mem_Icc] at hq ⊢
    exact hs.rng q hq.1 hq.2
  · intro q hq r hr e
    rw [Finset.mem_Icc] at hq hr
    exact shape_inj hs hq.1 hq.2 hr.1 hr.2 e
  · intro c hc
    rw [Finset.mem_Icc] at hc
    obtain ⟨q, a, b, e⟩ := shape_surj hs hc.1 hc.2
    exact ⟨q, by rw [Finset.mem_Icc]; exact ⟨a, b⟩, e⟩
  · intro q _
    rfl

/-- The residual in the final coordinates. -/
theorem resid_final {m n : Nat} {s s0 : St ℝ} (hs : Shape m n s) (hB : Base m n s0 s)
    (hS : Solves s (fun q => s.x (s.index q))) (l : Nat) (h1 : 1 ≤ l)
    (h2 : l ≤ m) : resid n s.a s.b s.x l = if l ≤ s.nsetp then 0 else s.b l := by
  unfold resid
  rw [sum_index hs (fun c => s.a l c * s.x c)]
  have hle := hs.le_n
  have hcut : ∑ q ∈ Icc 1 n, s.a l (s.index q) * s.x (s.index q) =
      ∑ q ∈ Icc 1 s.nsetp, s.a l (s.index q) * s.x (s.index q) := by
    symm
    apply Finset.sum_subset (Finset.Icc_subset_Icc_right hle)
    intro q hq hq'
    rw [Finset.mem_Icc] at hq hq'
    rw [hB.xz q (by omega) hq.2, mul_zero]
  rw [hcut]
  by_cases h : l ≤ s.nsetp
  · rw [if_pos h, hS l h1 h, sub_self]
  · rw [if_neg h, Finset.sum_eq_zero, sub_zero]
    intro q hq
    rw [Finset.mem_Icc] at hq
    rw [(hB.tri q hq.1 hq.2).1 l (by omega) h2, zero_mul]

theorem sum_tail {k m : Nat} (f : Nat → ℝ) :
    ∑ l ∈ Icc 1 m, (if l ≤ k then 0 else f l) = ∑ l ∈ Icc (k + 1) m, f l := by
  symm
  have h1 : ∑ l ∈ Icc (k + 1) m, f l = ∑ l ∈ Icc (k + 1) m, (if l ≤ k then 0 else f l) := by
    apply Finset.sum_congr rfl
    intro l hl
    rw [Finset.mem_Icc] at hl
    rw [if_neg (by omega)]
  rw [h1]
  apply Finset.sum_subset (Finset.Icc_subset_Icc_left (by omega))
  intro l hl hl'
  rw [Finset.mem_Icc] at hl hl'
  rw [if_pos (by omega)]

/-- The gradient in the final coordinates. -/
theorem grad_final {m n : Nat} {s s0 : St ℝ} (hs : Shape m n s) (hB : Base m n s0 s)
    (hS : Solves s (fun q => s.x (s.index q))) (c : Nat) :
    dot m (s.col c) (resid n s.a s.b s.x) = ∑ l ∈ Icc (s.nsetp + 1) m, s.a l c * s.b l := by
  rw [← sum_tail]
  unfold dot
  apply Finset.sum_congr rfl
  intro l hl
  rw [Finset.mem_Icc] at hl
  rw [resid_final hs hB hS l hl.1 hl.2]
  by_cases h : l ≤ s.nsetp
  · rw [if_pos h, if_pos h, mul_zero]
  · rw [if_neg h, if_neg h]
    rfl

theorem grad_pos {m n : Nat} {s s0 : St ℝ} (hs : Shape m n s) (hB : Base m n s0 s)
    (hS : Solves s (fun q => s.x (s.index q))) {q : Nat} (h1 : 1 ≤ q)
    (h2 : q ≤ s.nsetp) : dot m (s.col (s.index q)) (resid n s.a s.b s.x) = 0 := by
  rw [grad_final hs hB hS]
  apply Finset.sum_eq_zero
  intro l hl
  rw [Finset.mem_Icc] at hl
  rw [(hB.tri q h1 h2).1 l (by omega) hl.2, zero_mul]

theorem x_nonneg {m n : Nat} {s s0 : St ℝ} (hs : Shape m n s) (hK : InvK m n s0 s) {c : Nat} (h1 : 1 ≤ c)
    (h2 : c ≤ n) : 0 ≤ s.x c := by
  obtain ⟨q, a, b, rfl⟩ := shape_surj hs h1 h2
  rcases Nat.lt_or_ge s.nsetp q with h | h
  · rw [hK.base.xz q h b]
  · exact hK.nonneg q a h

theorem InvI.toK {m n : Nat} {s s0 : St ℝ} (h : InvI m n s0 s) : InvK m n s0 s :=
  ⟨h.base, fun q a b => (h.pos q a b).le⟩

/-- The dual vector handed back. -/
theorem finish_w {m n : Nat} {s s0 : St ℝ} (hs : Shape m n s) (hE : InvE m n s0 s) {c : Nat} (h1 : 1 ≤ c)
    (h2 : c ≤ n) :
    (finish exact m n s).w c = dot m (s.col c) (resid n s.a s.b s.x) ∧ (finish exact m n s).w c ≤ 0 ∧
      s.x c * (finish exact m n s).w c = 0 := by
  have hnp := hs.npp1
  have hlm := hs.le_m
  unfold finish
  by_cases h : s.npp1 ≤ m
  · rw [if_pos h]
    simp only
    obtain ⟨q, a, b, rfl⟩ := shape_surj hs h1 h2
    rcases Nat.lt_or_ge s.nsetp q with h3 | h3
    · obtain ⟨e1, e2⟩ := hE.dual (by omega) q h3 b
      refine ⟨?_, e2, by rw [hE.inv.base.xz q h3 b, zero_mul]⟩
      rw [grad_final hs hE.inv.base hE.inv.sol, e1]
    · rw [hE.inv.base.wz q a h3, grad_pos hs hE.inv.base hE.inv.sol a h3]
      simp
  · rw [if_neg h]
    simp only
    rw [copy_eq (fun _ => exact.zero) s.w 1 n]
    simp only
    rw [if_pos ⟨h1, h2⟩, grad_final hs hE.inv.base hE.inv.sol, Finset.Icc_eq_empty (by omega), Finset.sum_empty]
    simp

theorem finish_rnorm {m n : Nat} {s s0 : St ℝ} (hs : Shape m n s) (hE : InvE m n s0 s) :
    (finish exact m n s).rnorm = Real.sqrt (dot m (resid n s.a s.b s.x) (resid n s.a s.b s.x)) := by
  have hnp := hs.npp1
  have hlm := hs.le_m
  have hd : dot m (resid n s.a s.b s.x) (resid n s.a s.b s.x) =
      ∑ l ∈ Icc (s.nsetp + 1) m, s.b l * s.b l := by
    rw [← sum_tail]
    unfold dot
    apply Finset.sum_congr rfl
    intro l hl
    rw [Finset.mem_Icc] at hl
    rw [resid_final hs hE.inv.base hE.inv.sol l hl.1 hl.2]
    by_cases h : l ≤ s.nsetp
    · rw [if_pos h, if_pos h, mul_zero]
    · rw [if_neg h, if_neg h]
  rw [hd]
  unfold finish
  by_cases h : s.npp1 ≤ m
  · rw [if_pos h]
    simp only
    rw [exact_sum, exact_zero, zero_add, hnp]
    rfl
  · rw [if_neg h]
    simp only
    rw [Finset.Icc_eq_empty (by omega), Finset.sum_empty]
    rfl

/-- The optimality conditions suffice. -/
theorem kkt_optimal {m n : Nat} (a : Nat → Nat → ℝ) (b x z : Nat → ℝ) (hz : ∀ j, 1 ≤ j → j ≤ n → 0 ≤ z j)
    (h1 : ∀ j, 1 ≤ j → j ≤ n → dot m (fun l => a l j) (resid n a b x) ≤ 0)
    (h2 : ∀ j, 1 ≤ j → j ≤ n → x j * dot m (fun l => a l j) (resid n a b x) = 0) :
    dot m (resid n a b x) (resid n a b x) ≤ dot m (resid n a b z) (resid n a b z) := by
  have hr : ∀ l, resid n a b z l = resid n a b x l - ∑ j ∈ Icc 1 n, a l j * (z j - x j) := by
    intro l
    unfold resid
    have : ∑ j ∈ Icc 1 n, a l j * (z j - x j) = ∑ j ∈ Icc 1 n, a l j * z j - ∑ j ∈ Icc 1 n, a l j * x j := by
      rw [← Finset.sum_sub_distrib]
      apply Finset.sum_congr rfl
      intro j _
      ring
    rw [this]
    ring
  have hcross : ∑ l ∈ Icc 1 m, resid n a b x l * ∑ j ∈ Icc 1 n, a l j * (z j - x j) ≤ 0 := by
    have e : ∑ l ∈ Icc 1 m, resid n a b x l * ∑ j ∈ Icc 1 n, a l j * (z j - x j) =
        ∑ j ∈ Icc 1 n, (z j - x j) * dot m (fun l => a l j) (resid n a b x) := by
      unfold dot
      simp only [Finset.mul_sum]
      rw [Finset.sum_comm]
      apply Finset.sum_congr rfl
      intro j _
      apply Finset.sum_congr rfl
      intro l _
      ring
    rw [e]
    apply Finset.sum_nonpos
    intro j hj
    rw [Finset.mem_Icc] at hj
    have := h2 j hj.1 hj.2
    have := h1 j hj.1 hj.2
    have := hz j hj.1 hj.2
    nlinarith
  have hexp : dot m (resid n a b z) (resid n a b z) = dot m (resid n a b x) (resid n a b x) -
      2 * ∑ l ∈ Icc 1 m, resid n a b x l * ∑ j ∈ Icc 1 n, a l j * (z j - x j) +
      ∑ l ∈ Icc 1 m, (∑ j ∈ Icc 1 n, a l j * (z j - x j)) ^ 2 := by
    unfold dot
    rw [Finset.mul_sum, ← Finset.sum_sub_distrib, ← Finset.sum_add_distrib]
    apply Finset.sum_congr rfl
    intro l _
    rw [hr l]
    ring
  have hsq : 0 ≤ ∑ l ∈ Icc 1 m, (∑ j ∈ Icc 1 n, a l j * (z j - x j)) ^ 2 :=
    Finset.sum_nonneg (fun l _ => sq_nonneg _)
  rw [hexp]
  linarith

/-- The state the run starts from satisfies the invariant. -/
theorem start_inv (m n : Nat) (hn : 1 ≤ n) (s : St ℝ) : InvI m n s (start exact n s) := by
  rw [start_eq exact n s hn]
  refine ⟨⟨?_, ?_, ?_, ?_⟩, ?_, ?_⟩
  · intro p q _ _
    rfl
  · intro q h1 h2
    simp only at h2
    omega
  · intro q h1 h2
    simp only at h1 ⊢
    rw [if_pos (by split_ifs <;> omega)]
    rfl
  · intro q h1 h2
    simp only at h2
    omega
  · intro q h1 h2
    simp only at h2
    omega
  · intro q h1 h2
    simp only at h2
    omega

/-- The whole run. -/
theorem nnls_exact (m n : Nat) (hn : 1 ≤ n) (s : St ℝ) :
    ∃ t, nnls exact m n s = .ok (finish exact m n t) ∧ Shape m n t ∧
      ((t.mode = 1 ∧ InvE m n s t) ∨ (t.mode = 3 ∧ InvK m n s t)) :=
  nnls_total exact_ordered (exact_rules m n s) hn s (start_inv m n hn s)

theorem finish_fields (m n : Nat) (t : St ℝ) :
    (finish exact m n t).x = t.x ∧ (finish exact m n t).mode = t.mode ∧ (finish exact m n t).a = t.a ∧
      (finish exact m n t).b = t.b := by
  unfold finish
  split_ifs <;> exact ⟨rfl, rfl, rfl, rfl⟩

end JKD.Nnls
