import Verif.Lemmas.NnlsKkt
import Mathlib.Algebra.Order.BigOperators.Ring.Finset
/-
In exact arithmetic the coefficients of `nnls` stay in the ball that has the right-hand side for a diameter.
-/

namespace JKD.Nnls

open Finset

/-- The combination `A z` of the columns. -/
noncomputable def image (n : Nat) (a : Nat → Nat → ℝ) (z : Nat → ℝ) (l : Nat) : ℝ := ∑ j ∈ Icc 1 n, a l j * z j

/-- `A z` is in the ball with the diameter `b`. -/
def Ball (m n : Nat) (s0 : St ℝ) (z : Nat → ℝ) : Prop :=
  0 ≤ ∑ l ∈ Icc 1 m, image n s0.a z l * (s0.b l - image n s0.a z l)

theorem image_congr {n : Nat} {a : Nat → Nat → ℝ} {y z : Nat → ℝ} (h : ∀ j, 1 ≤ j → j ≤ n → y j = z j) :
    image n a y = image n a z := by
  funext l
  unfold image
  apply Finset.sum_congr rfl
  intro j hj
  rw [Finset.mem_Icc] at hj
  rw [h j hj.1 hj.2]

theorem Ball.congr {m n : Nat} {s0 : St ℝ} {y z : Nat → ℝ} (hy : Ball m n s0 y)
    (h : ∀ j, 1 ≤ j → j ≤ n → y j = z j) : Ball m n s0 z := by
  unfold Ball at *
  rwa [← image_congr h]

theorem image_mix (n : Nat) (a : Nat → Nat → ℝ) (x z : Nat → ℝ) (t : ℝ) (l : Nat) :
    image n a (fun j => x j + t * (z j - x j)) l = image n a x l + t * (image n a z l - image n a x l) := by
  unfold image
  rw [← Finset.sum_sub_distrib, Finset.mul_sum, ← Finset.sum_add_distrib]
  apply Finset.sum_congr rfl
  intro j _
  ring

theorem Ball.mix {m n : Nat} {s0 : St ℝ} {x z : Nat → ℝ} (hx : Ball m n s0 x) (hz : Ball m n s0 z) {t : ℝ}
    (h0 : 0 ≤ t) (h1 : t ≤ 1) : Ball m n s0 (fun j => x j + t * (z j - x j)) := by
  unfold Ball at *
  have e : ∑ l ∈ Icc 1 m, image n s0.a (fun j => x j + t * (z j - x j)) l *
        (s0.b l - image n s0.a (fun j => x j + t * (z j - x j)) l) =
      (1 - t) * ∑ l ∈ Icc 1 m, image n s0.a x l * (s0.b l - image n s0.a x l) +
        t * ∑ l ∈ Icc 1 m, image n s0.a z l * (s0.b l - image n s0.a z l) +
        t * (1 - t) * ∑ l ∈ Icc 1 m, (image n s0.a z l - image n s0.a x l) ^ 2 := by
    rw [Finset.mul_sum, Finset.mul_sum, Finset.mul_sum, ← Finset.sum_add_distrib, ← Finset.sum_add_distrib]
    apply Finset.sum_congr rfl
    intro l _
    rw [image_mix]
    ring
  rw [e]
  have hs : 0 ≤ ∑ l ∈ Icc 1 m, (image n s0.a z l - image n s0.a x l) ^ 2 := Finset.sum_nonneg (fun l _ => sq_nonneg _)
  have h2 : 0 ≤ 1 - t := by linarith
  positivity

theorem ball_dot (m n : Nat) (s0 : St ℝ) (z : Nat → ℝ) :
    ∑ l ∈ Icc 1 m, image n s0.a z l * (s0.b l - image n s0.a z l) =
      ∑ j ∈ Icc 1 n, z j * dot m (s0.col j) (resid n s0.a s0.b z) := by
  unfold dot resid
  simp only [Finset.mul_sum]
  rw [Finset.sum_comm]
  apply Finset.sum_congr rfl
  intro l _
  unfold image
  rw [Finset.sum_mul]
  apply Finset.sum_congr rfl
  intro j _
  unfold St.col
  ring

/-- A least squares solution on the positive set is on the boundary. -/
theorem solved_boundary {m n : Nat} {s s0 : St ℝ} (hs : Shape m n s) (hB : Base m n s0 s)
    (hS : Solves s (fun q => s.x (s.index q))) :
    ∑ l ∈ Icc 1 m, image n s0.a s.x l * (s0.b l - image n s0.a s.x l) = 0 := by
  rw [ball_dot]
  apply Finset.sum_eq_zero
  intro j hj
  rw [Finset.mem_Icc] at hj
  obtain ⟨q, a, b, rfl⟩ := shape_surj hs hj.1 hj.2
  rcases Nat.lt_or_ge s.nsetp q with h | h
  · rw [hB.xz q h b, zero_mul]
  · rw [← hB.gram.grad s.x hj.1 hj.2, grad_pos hs hB hS a h, mul_zero]

theorem solved_ball {m n : Nat} {s s0 : St ℝ} (hs : Shape m n s) (hB : Base m n s0 s)
    (hS : Solves s (fun q => s.x (s.index q))) : Ball m n s0 s.x := (solved_boundary hs hB hS).ge

theorem taken_x {m n : Nat} {s : St ℝ} (hs : Shape m n s) (hm : s.nsetp < m) (hn : s.nsetp < n) {t : St ℝ} {iz : Nat}
    (hsel : select exact m n (n + 1) (dual exact m n s) = .ok (.inr (t, iz, t.index iz))) :
    (solve exact (accept exact m n t iz (t.index iz))).x = s.x := by
  have hiz := hs.iz1
  obtain ⟨w, e1, hw1, hw2⟩ := dual_fields hs hn
  rw [e1] at hsel
  rcases select_exact hs hm hn w hw1 n with ⟨h, _⟩ | ⟨T, cl, up, zz, t', iz', h1, h2, h3, h4, -⟩
  · rw [h] at hsel
    simp at hsel
  rw [h4] at hsel
  simp only [Out.ok.injEq, Sum.inr.injEq, Prod.mk.injEq] at hsel
  obtain ⟨rfl, rfl, -⟩ := hsel
  have hst : Shape m n t' := hs.congr (by rw [h3]) (by rw [h3]) (by rw [h3]) (by rw [h3])
  have htz : t'.iz1 = s.iz1 := by rw [h3]
  have htx : t'.x = s.x := by rw [h3]
  obtain ⟨a1, a2, a3, a4⟩ := accept_cond hst (by omega) h2 _ rfl
  rw [accept_eq exact m n t' iz' (t'.index iz') _ rfl (by omega) (by omega) a4
    (fun q r b c d => a2 q r (by omega) c d)]
  exact htx

/-- At the head of the secondary loop the coefficients `zz` are on the boundary, too. -/
theorem zz_ball {m n : Nat} {s s0 : St ℝ} (hs : Shape m n s) (hJ : InvJ m n s0 s) :
    ∃ z : Nat → ℝ, Ball m n s0 z ∧ (∀ q, 1 ≤ q → q ≤ s.nsetp → z (s.index q) = s.zz q) ∧
      ∀ q, s.nsetp < q → q ≤ n → z (s.index q) = s.x (s.index q) := by
  obtain ⟨x, e, h1, h2⟩ := writeX_spec hs (fun ip _ => s.zz ip)
    (fun ip s => { s with x := set s.x (s.index ip) (s.zz ip) }) (fun _ _ => rfl)
  refine ⟨x, ?_, h1, h2⟩
  have := solved_ball (s := { s with x := x }) (s0 := s0) (hs.congr rfl rfl rfl rfl)
    ⟨hJ.base.gram.of_eq rfl rfl, hJ.base.tri, fun q g1 g2 => (h2 q g1 g2).trans (hJ.base.xz q g1 g2), hJ.base.wz⟩ (by
      intro l g1 g2
      refine Eq.trans ?_ (hJ.sol l g1 g2)
      apply Finset.sum_congr rfl
      intro q hq
      rw [Finset.mem_Icc] at hq
      change s.a l (s.index q) * x (s.index q) = _
      rw [h1 q hq.1 hq.2])
  exact this

theorem interpolate_ball {m n : Nat} {s s0 : St ℝ} (hs : Shape m n s) (hJ : InvJ m n s0 s) (hb : Ball m n s0 s.x)
    {jj : Nat} (h : (stepLength exact s).2 = some jj) :
    Ball m n s0 (interpolate exact s (stepLength exact s).1).x ∧
      (interpolate exact s (stepLength exact s).1).x ((interpolate exact s (stepLength exact s).1).index jj) = 0 := by
  obtain ⟨k1, k2⟩ := stepLength_spec exact_ordered s
  rw [h] at k2
  simp only [exact_lt, exact_le, exact_zero, exact_div, exact_neg, exact_sub, decide_eq_true_eq,
    decide_eq_false_iff_not, not_lt] at k1 k2
  obtain ⟨b1, b2, b3, b4, -⟩ := k2
  generalize (stepLength exact s).1 = alpha at k1 b4
  have hxj := (hJ.pos jj b1 b2).resolve_right (by linarith)
  have ha0 : 0 ≤ alpha := by
    rw [b4]
    exact div_nonneg_of_nonpos (by linarith) (by linarith)
  have ha1 : alpha ≤ 1 := by
    rw [b4, div_le_iff_of_neg (by linarith)]
    linarith
  obtain ⟨x, e, h1, h2⟩ := writeX_spec hs (fun ip v => v + alpha * (s.zz ip - v))
    (fun ip s =>
      let l := s.index ip
      { s with x := set s.x l (exact.add (s.x l) (exact.mul alpha (exact.sub (s.zz ip) (s.x l)))) })
    (fun _ _ => rfl)
  obtain ⟨z, z1, z2, z3⟩ := zz_ball hs hJ
  unfold interpolate
  rw [e]
  refine ⟨(hb.mix z1 ha0 ha1).congr ?_, ?_⟩
  · intro j g1 g2
    obtain ⟨q, a, b, rfl⟩ := shape_surj hs g1 g2
    change _ = x (s.index q)
    rcases Nat.lt_or_ge s.nsetp q with h | h
    · rw [h2 q h b, z3 q h b]
      ring
    · rw [h1 q a h, z2 q a h]
  · change x (s.index jj) = 0
    rw [h1 jj b1 b2, b4]
    have : s.zz jj - s.x (s.index jj) ≠ 0 := by linarith
    field_simp
    ring

theorem remove_ball {m n : Nat} {s s0 : St ℝ} (hs : Shape m n s) (hb : Ball m n s0 s.x) {jj : Nat} (h1 : 1 ≤ jj)
    (h2 : jj ≤ s.nsetp) (h : s.x (s.index jj) = 0) : Ball m n s0 (remove exact n s jj).x := by
  obtain ⟨a, b, e⟩ := remove_fields exact hs h1 h2
  rw [e]
  apply hb.congr
  intro j _ _
  simp only
  by_cases hj : j = s.index jj
  · rw [hj, h, set_same]
    rfl
  · rw [set_ne _ _ hj]

/-- The rules for the run of `nnls` in exact arithmetic, with the ball. -/
theorem ball_rules (m n : Nat) (s0 : St ℝ) :
    Rules exact m n (InvI m n s0) (fun s => InvJ m n s0 s ∧ Ball m n s0 s.x)
      (fun s jj => InvK m n s0 s ∧ Ball m n s0 s.x ∧ s.x (s.index jj) = 0)
      (fun s => InvE m n s0 s ∧ Ball m n s0 s.x) (fun s => InvK m n s0 s ∧ Ball m n s0 s.x) where
  quit s hs hI h := ⟨(exact_rules m n s0).quit s hs hI h, solved_ball hs hI.base hI.sol⟩
  none_left s t hs hI hm hn hsel ht := by
    have hE := (exact_rules m n s0).none_left s t hs hI hm hn hsel ht
    exact ⟨hE, solved_ball ht hE.inv.base hE.inv.sol⟩
  taken s t iz hs hI hm hn hsel h1 h2 h3 h4 := by
    refine ⟨(exact_rules m n s0).taken s t iz hs hI hm hn hsel h1 h2 h3 h4, ?_⟩
    rw [taken_x hs hm hn hsel]
    exact solved_ball hs hI.base hI.sol
  count s k hJ := ⟨(exact_rules m n s0).count s k hJ.1, hJ.2⟩
  over s hs hJ := ⟨(exact_rules m n s0).over s hs hJ.1, hJ.2⟩
  feasible s hs hJ h := feasible_exact hs hJ.1 h
  infeasible s jj hs hJ h _ _ := ⟨infeasible_exact hs hJ.1 h, interpolate_ball hs hJ.1 hJ.2 h⟩
  more s jj jj' hs hK h1 h2 h3 := by
    have hk := remove_exact hs hK.1 h1 h2
    refine ⟨hk, remove_ball hs hK.2.1 h1 h2 hK.2.2, ?_⟩
    obtain ⟨c1, c2, c3⟩ := firstBad_some h3
    simp only [exact_le, exact_zero, decide_eq_true_eq] at c3
    exact le_antisymm c3 (hk.nonneg _ c1 c2)
  back s jj hs hK h1 h2 h :=
    ⟨back_exact (remove_shape exact hs h1 h2) (remove_exact hs hK.1 h1 h2) h, remove_ball hs hK.2.1 h1 h2 hK.2.2⟩

/-- However the run ends, the coefficients are in the ball; after a success they are on its boundary. -/
theorem nnls_ball (m n : Nat) (hn : 1 ≤ n) (s : St ℝ) :
    ∃ t, nnls exact m n s = .ok (finish exact m n t) ∧ Shape m n t ∧ InvK m n s t ∧ Ball m n s t.x ∧
      (t.mode = 1 → ∑ l ∈ Icc 1 m, image n s.a t.x l * (s.b l - image n s.a t.x l) = 0) := by
  obtain ⟨t, e1, e2, e3⟩ := nnls_total exact_ordered (ball_rules m n s) hn s (start_inv m n hn s)
  refine ⟨t, e1, e2, ?_⟩
  rcases e3 with ⟨-, h⟩ | ⟨h', h⟩
  · exact ⟨h.1.inv.toK, h.2, fun _ => solved_boundary e2 h.1.inv.base h.1.inv.sol⟩
  · exact ⟨h.1, h.2, fun h1 => by omega⟩

end JKD.Nnls
