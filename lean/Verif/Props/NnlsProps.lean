import Verif.Lemmas.NnlsKkt
import Verif.Lemmas.NnlsFloat
import Mathlib.Tactic.NormNum
/-
C64-C67: the non-negative least squares solver.
-/

namespace JKD.Nnls

open Finset

variable {D : Type}

/-! ### Specification -/

/-- `‖A z - b‖²` for the `m × n` matrix `A`. -/
noncomputable def Misfit (m n : Nat) (a : Nat → Nat → ℝ) (b z : Nat → ℝ) : ℝ :=
  ∑ l ∈ Icc 1 m, (∑ j ∈ Icc 1 n, a l j * z j - b l) ^ 2

/-- No coefficient is negative. -/
def NonNeg (n : Nat) (z : Nat → ℝ) : Prop := ∀ j, 1 ≤ j → j ≤ n → 0 ≤ z j

/-- `z` is a solution of the non-negative least squares problem. -/
def Optimal (m n : Nat) (a : Nat → Nat → ℝ) (b z : Nat → ℝ) : Prop :=
  NonNeg n z ∧ ∀ y, NonNeg n y → Misfit m n a b z ≤ Misfit m n a b y

/-- The components of `Aᵀ (b - A z)`. -/
noncomputable def Gradient (m n : Nat) (a : Nat → Nat → ℝ) (b z : Nat → ℝ) (j : Nat) : ℝ :=
  ∑ l ∈ Icc 1 m, a l j * (b l - ∑ k ∈ Icc 1 n, a l k * z k)

theorem misfit_eq (m n : Nat) (a : Nat → Nat → ℝ) (b z : Nat → ℝ) :
    Misfit m n a b z = dot m (resid n a b z) (resid n a b z) := by
  unfold Misfit dot resid
  apply Finset.sum_congr rfl
  intro l _
  ring

/-! ### C64: the solver stops, stays inside its arrays and reports -/

/-- For any arithmetic whose comparisons are those of IEEE numbers - not-a-number included, whatever the
operations return - the solver comes to an end, never subscripts outside an array, and reports success or an
exhausted iteration count; non-positive dimensions are reported as such and nothing is touched. -/
theorem C64_nnls_returns {O : Ops D} (hO : Ordered O) (m n : Int) (s : St D) (rnorm : D) :
    ∃ r, call O m n s rnorm = .ok r ∧
      (0 < m → 0 < n → r.mode = 1 ∨ r.mode = 3) ∧
      (m ≤ 0 ∨ n ≤ 0 → r.mode = 2 ∧ r.x = s.x ∧ r.w = s.w ∧ r.rnorm = rnorm ∧ r.a = s.a ∧ r.b = s.b) := by
  unfold call
  by_cases h : m ≤ 0 ∨ n ≤ 0
  · rw [if_pos h]
    exact ⟨_, rfl, by intro h1 h2; omega, fun _ => ⟨rfl, rfl, rfl, rfl, rfl, rfl⟩⟩
  · rw [if_neg h]
    have R : Rules O m.toNat n.toNat (fun _ => True) (fun _ => True) (fun _ _ => True) (fun _ => True)
        (fun _ => True) :=
      ⟨fun _ _ _ _ => trivial, fun _ _ _ _ _ _ _ _ => trivial, fun _ _ _ _ _ _ _ _ _ _ _ _ => trivial,
        fun _ _ _ => trivial, fun _ _ _ => trivial, fun _ _ _ _ => trivial, fun _ _ _ _ _ _ _ => trivial,
        fun _ _ _ _ _ _ _ _ => trivial, fun _ _ _ _ _ _ _ => trivial⟩
    obtain ⟨t, e1, -, e3⟩ := nnls_total hO R (by omega : 1 ≤ n.toNat) s trivial
    refine ⟨_, e1, ?_, fun h' => absurd h' h⟩
    intro _ _
    have : (finish O m.toNat n.toNat t).mode = t.mode := by unfold finish; split_ifs <;> rfl
    rw [this]
    rcases e3 with h | h
    · exact Or.inl h.1
    · exact Or.inr h.1

/-! ### C65: nothing negative comes out -/

/-- Under any rounding of the reals that is monotone and symmetric - in particular rounding to the nearest
`float`, as long as nothing overflows - the coefficients handed back are not negative. -/
theorem C65_nnls_nonnegative (R : Rounding) (m n : Nat) (hm : 1 ≤ m) (hn : 1 ≤ n) (s : St R.F) (rnorm : R.F) :
    ∃ r, call R.ops m n s rnorm = .ok r ∧ ∀ j, 1 ≤ j → j ≤ n → 0 ≤ (r.x j).1 := by
  obtain ⟨r, e, -, h⟩ := nnls_signs R.ordered R.signs m n hn s
  refine ⟨r, ?_, ?_⟩
  · unfold call
    rw [if_neg (by omega)]
    exact e
  · intro j h1 h2
    rcases h j h1 h2 with h3 | h3
    · rw [h3]
      exact le_refl (0 : ℝ)
    · simp only [Rounding.ops, decide_eq_false_iff_not, not_le] at h3
      exact h3.le

/-- Cutting off after three decimals is such a rounding. -/
noncomputable def truncation : Rounding where
  rnd x := if 0 ≤ x then (⌊1000 * x⌋ : ℝ) / 1000 else - ((⌊1000 * (-x)⌋ : ℝ) / 1000)
  mono x y h := by
    have hf : ∀ u v : ℝ, u ≤ v → (⌊1000 * u⌋ : ℝ) ≤ (⌊1000 * v⌋ : ℝ) := fun u v h =>
      Int.cast_le.mpr (Int.floor_le_floor (by linarith))
    have hn : ∀ u : ℝ, 0 ≤ u → (0 : ℝ) ≤ (⌊1000 * u⌋ : ℝ) := fun u h => by
      have : (0 : ℤ) ≤ ⌊1000 * u⌋ := Int.floor_nonneg.mpr (by linarith)
      exact_mod_cast this
    beta_reduce
    split_ifs with h1 h2 h2
    · have := hf x y h
      linarith
    · linarith
    · have := hn (-x) (by linarith)
      have := hn y h2
      linarith
    · have := hf (-y) (-x) (by linarith)
      linarith
  idem x := by
    have hn : ∀ u : ℝ, 0 ≤ u → (0 : ℝ) ≤ (⌊1000 * u⌋ : ℝ) := fun u h => by
      have : (0 : ℤ) ≤ ⌊1000 * u⌋ := Int.floor_nonneg.mpr (by linarith)
      exact_mod_cast this
    have hi : ∀ k : ℤ, ⌊1000 * ((k : ℝ) / 1000)⌋ = k := fun k => by
      rw [mul_div_cancel₀ _ (by norm_num)]
      exact Int.floor_intCast k
    beta_reduce
    by_cases h1 : 0 ≤ x
    · have := hn x h1
      rw [if_pos h1, if_pos (by linarith), hi]
    · have h2 := hn (-x) (by linarith)
      rw [if_neg h1]
      rcases h2.lt_or_eq with h3 | h3
      · rw [if_neg (by linarith), neg_neg, hi]
      · rw [← h3]
        simp
  odd x := by
    beta_reduce
    rcases lt_trichotomy x 0 with h | h | h
    · rw [if_pos (by linarith), if_neg (by linarith), neg_neg]
    · subst h
      simp
    · rw [if_neg (by linarith), if_pos h.le, neg_neg]
  one := by
    rw [if_pos (by norm_num), mul_one, show (1000 : ℝ) = ((1000 : ℤ) : ℝ) by norm_num, Int.floor_intCast]
    norm_num
  two := by
    rw [if_pos (by norm_num), show (1000 : ℝ) * 2 = ((2000 : ℤ) : ℝ) by norm_num, Int.floor_intCast]
    norm_num

/-! ### C66: success means optimality -/

/-- In exact arithmetic the coefficients handed back are never negative, and when success is reported they are
a solution of the problem that was posed: no other non-negative vector comes closer to the right-hand side. -/
theorem C66_nnls_optimal (m n : Nat) (hm : 1 ≤ m) (hn : 1 ≤ n) (s : St ℝ) (rnorm : ℝ) :
    ∃ r, call exact m n s rnorm = .ok r ∧ NonNeg n r.x ∧ (r.mode = 1 → Optimal m n s.a s.b r.x) := by
  obtain ⟨t, e1, e2, e3⟩ := nnls_exact m n hn s
  obtain ⟨f1, f2, -, -⟩ := finish_fields m n t
  refine ⟨_, by unfold call; rw [if_neg (by omega)]; exact e1, ?_, ?_⟩
  · intro j h1 h2
    rw [f1]
    rcases e3 with ⟨-, h⟩ | ⟨-, h⟩
    · exact x_nonneg e2 h.inv.toK h1 h2
    · exact x_nonneg e2 h h1 h2
  · rw [f2]
    intro h1
    rcases e3 with ⟨-, h⟩ | ⟨h3, -⟩
    · refine ⟨?_, ?_⟩
      · intro j h2 h3
        rw [f1]
        exact x_nonneg e2 h.inv.toK h2 h3
      · intro y hy
        rw [misfit_eq, misfit_eq, f1, ← h.inv.base.gram.resid, ← h.inv.base.gram.resid]
        apply kkt_optimal _ _ _ _ hy
        · intro j h2 h3
          obtain ⟨k1, k2, k3⟩ := finish_w e2 h h2 h3
          rw [k1] at k2
          exact k2
        · intro j h2 h3
          obtain ⟨k1, k2, k3⟩ := finish_w e2 h h2 h3
          rw [k1] at k3
          exact k3
    · omega

/-! ### C67: what else is handed back -/

/-- On success the dual vector is the gradient of the problem posed, it is nowhere positive, it vanishes where
the coefficient does not, and `rnorm` is the distance of `A x` from `b`. -/
theorem C67_nnls_certificate (m n : Nat) (hm : 1 ≤ m) (hn : 1 ≤ n) (s : St ℝ) (rnorm : ℝ) :
    ∃ r, call exact m n s rnorm = .ok r ∧ (r.mode = 1 →
      r.rnorm = Real.sqrt (Misfit m n s.a s.b r.x) ∧
      ∀ j, 1 ≤ j → j ≤ n → r.w j = Gradient m n s.a s.b r.x j ∧ r.w j ≤ 0 ∧ (0 < r.x j → r.w j = 0)) := by
  obtain ⟨t, e1, e2, e3⟩ := nnls_exact m n hn s
  obtain ⟨f1, f2, -, -⟩ := finish_fields m n t
  refine ⟨_, by unfold call; rw [if_neg (by omega)]; exact e1, ?_⟩
  rw [f1, f2]
  intro h1
  rcases e3 with ⟨-, h⟩ | ⟨h3, -⟩
  · refine ⟨?_, ?_⟩
    · rw [misfit_eq, ← h.inv.base.gram.resid]
      exact finish_rnorm e2 h
    · intro j h2 h3
      obtain ⟨k1, k2, k3⟩ := finish_w e2 h h2 h3
      refine ⟨?_, k2, ?_⟩
      · rw [k1, h.inv.base.gram.grad _ h2 h3]
        rfl
      · intro hx
        rcases mul_eq_zero.mp k3 with h4 | h4
        · linarith
        · exact h4
  · omega

/-- Whatever the outcome, the matrix and right-hand side left behind pose the same problem as the ones handed
in: every vector misses by the same amount. -/
theorem C67_nnls_rotated (m n : Nat) (hm : 1 ≤ m) (hn : 1 ≤ n) (s : St ℝ) (rnorm : ℝ) :
    ∃ r, call exact m n s rnorm = .ok r ∧ ∀ z, Misfit m n r.a r.b z = Misfit m n s.a s.b z := by
  obtain ⟨t, e1, e2, e3⟩ := nnls_exact m n hn s
  obtain ⟨-, -, f3, f4⟩ := finish_fields m n t
  refine ⟨_, by unfold call; rw [if_neg (by omega)]; exact e1, ?_⟩
  intro z
  rw [misfit_eq, misfit_eq, f3, f4]
  rcases e3 with ⟨-, h⟩ | ⟨-, h⟩
  · exact h.inv.base.gram.resid z
  · exact h.base.gram.resid z

/-! ### A concrete case -/

/-- One column, one row: `2 x = 6`. -/
noncomputable def sample : St ℝ where
  a _ _ := 2
  b _ := 6
  x _ := 77
  w _ := 77
  zz _ := 77
  index _ := 77
  iz1 := 77
  nsetp := 77
  npp1 := 77
  iter := 77
  mode := 77
  up := 77

theorem forUp_one {S : Type} (body : Nat → S → S) (s : S) : forUp 1 1 body s = body 1 s := rfl

theorem forUp_two_one {S : Type} (body : Nat → S → S) (s : S) : forUp 2 1 body s = s := rfl

theorem sample_select : select exact 1 1 2 (dual exact 1 1 (start exact 1 sample)) = .ok (.inr ({ sample with
    x := set (fun _ => 77) 1 0
    w := set (fun _ => 77) 1 12
    zz := set (fun _ => 77) 1 6
    index := set (fun _ => 77) 1 1
    iz1 := 1
    nsetp := 0
    npp1 := 1
    iter := 0
    mode := 1
    a := setCol sample.a 1 (fun _ => 2) }, 1, 1)) := by
  unfold select
  simp only [dual, start, forUp_one, findMax, sample, Ops.sum]
  simp only [set_same]
  norm_num [trial, h12Construct, h12Apply, forUp_one, St.col, setCol, set_same, exact_zero, exact_mul]
  rfl

/-- What is left after the column has been taken in. -/
noncomputable def sampleIn : St ℝ := { sample with
  x := set (fun _ => 77) 1 0
  w := set (set (fun _ => 77) 1 12) 1 0
  zz := set (fun _ => 77) 1 6
  index := set (set (set (fun _ => 77) 1 1) 1 1) 1 1
  iz1 := 2
  nsetp := 1
  npp1 := 2
  iter := 0
  mode := 1
  b := set (fun _ => 6) 1 6
  a := setCol sample.a 1 (fun _ => 2) }

theorem sample_accept : accept exact 1 1 { sample with
    x := set (fun _ => 77) 1 0
    w := set (fun _ => 77) 1 12
    zz := set (fun _ => 77) 1 6
    index := set (fun _ => 77) 1 1
    iz1 := 1
    nsetp := 0
    npp1 := 1
    iter := 0
    mode := 1
    a := setCol sample.a 1 (fun _ => 2) } 1 1 = sampleIn := rfl

theorem sampleIn_cols : colsOk 1 sampleIn.index 1 1 = true := by
  unfold colsOk
  rw [decide_eq_true_iff]
  intro q h1 h2
  have : q = 1 := by omega
  subst this
  exact ⟨by omega, by omega, by decide, by decide⟩

theorem sample_secondary : ∃ t, secondary exact 1 1 5 (solve exact sampleIn) = .ok t ∧ t.mode = 1 ∧ t.x 1 = 3 ∧
    t.iz1 = 2 := by
  have hz : (solve exact sampleIn).zz 1 = 3 := by
    simp only [solve, sampleIn, forUp_one, set_same, sample, setCol]
    norm_num [forUp_one, set]
  have hr : stepLength exact { solve exact sampleIn with iter := 1 } = (exact.two, none) := by
    unfold stepLength
    change (if exact.le ((solve exact sampleIn).zz 1) exact.zero = true then _ else _) = _
    rw [hz, if_neg (by norm_num)]
    rfl
  unfold secondary
  change ∃ t, (if 3 < 1 then _ else if 1 ≤ 1 ∧ colsOk 1 sampleIn.index 1 1 = true then
    (if exact.eq (stepLength exact { solve exact sampleIn with iter := 1 }).1 exact.two = true then
      Out.ok { solve exact sampleIn with
        iter := 1
        x := set sampleIn.x (sampleIn.index 1) ((solve exact sampleIn).zz 1) } else _) else _) = Out.ok t ∧ _
  rw [if_neg (by omega), if_pos ⟨by omega, sampleIn_cols⟩, hr, if_pos (by simp)]
  refine ⟨_, rfl, rfl, ?_, rfl⟩
  change set sampleIn.x (sampleIn.index 1) ((solve exact sampleIn).zz 1) 1 = 3
  rw [show sampleIn.index 1 = 1 from rfl, set_same, hz]

theorem sample_main : ∃ t, main exact 1 1 5 (start exact 1 sample) = .ok t ∧ t.mode = 1 ∧ t.x 1 = 3 := by
  unfold main
  rw [if_neg (by simp [start, forUp_one]), if_pos (by
    refine ⟨?_, by simp [start, forUp_one]⟩
    exact colsOk_of (start_shape exact 1 1 sample (by omega)) (by simp [start, forUp_one]) (by omega))]
  rw [sample_select]
  obtain ⟨t, e1, e2, e3, e4⟩ := sample_secondary
  refine ⟨t, ?_, e2, e3⟩
  simp only [Out.bind]
  rw [if_pos (by omega), sample_accept, if_pos ⟨sampleIn_cols, by decide⟩]
  rw [show 3 * 1 + 2 - sampleIn.iter = 5 from rfl, e1]
  simp only
  rw [if_neg (by omega)]
  unfold main
  rw [if_pos (by omega)]

/-- The solver succeeds on it, so the conclusions of C66 and C67 are reached. -/
example : ∃ r, call exact 1 1 sample 0 = .ok r ∧ r.mode = 1 ∧ r.x 1 = 3 := by
  obtain ⟨t, e1, e2, e3⟩ := sample_main
  refine ⟨finish exact 1 1 t, ?_, ?_, ?_⟩
  · unfold call nnls
    rw [if_neg (by omega)]
    change (main exact 1 1 5 (start exact 1 sample)).bind _ = _
    rw [e1]
    rfl
  · rw [(finish_fields 1 1 t).2.1, e2]
  · rw [(finish_fields 1 1 t).1, e3]

/-- The hypotheses of C64 and C65 are met by the truncating arithmetic. -/
example : Ordered truncation.ops ∧ Signs truncation.ops := ⟨truncation.ordered, truncation.signs⟩

end JKD.Nnls
