import Verif.Lemmas.ChromaFrames
/-
The running weighted mean and the whitening in exact arithmetic.
-/

namespace JKD.Chroma

open Finset

theorem foldl_sum (n : Nat) (g : Nat → ℝ) :
    (List.range n).foldl (fun s m => exactFns.add s (g m)) 0 = ∑ m ∈ range n, g m := by
  induction n with
  | zero => simp
  | succ n ih => rw [List.range_succ, List.foldl_append, ih, sum_range_succ]; rfl

/-- The weighted mean around bin `i` of a vector. -/
noncomputable def Around (v : Nat → ℝ) (kernel : List ℝ) (i : Nat) : ℝ :=
  ∑ m ∈ range kernel.length, v (i + kernel.length / 2 - m) * kernel.getD m 0

theorem convAt_exact (v kernel : List ℝ) (i : Nat) :
    convAt exactFns v kernel i = Around (fun l => v.getD l 0) kernel i := by
  unfold convAt Around
  exact foldl_sum _ _

/-- The nearest bin whose window lies inside a vector of 256 bins. -/
def inner (K j : Nat) : Nat := max (K / 2) (min j (255 - K / 2))

theorem conv_exact {v kernel : List ℝ} (hodd : kernel.length % 2 = 1) (hlen : kernel.length ≤ 256)
    (hv : v.length = 256) :
    ∃ Z, specialConvolution exactFns v kernel = .ok Z ∧ Z.length = 256 ∧
      ∀ j, j < 256 → Z[j]? = some (Around (fun l => v.getD l 0) kernel (inner kernel.length j)) := by
  obtain ⟨Z, e, h1, h2⟩ := conv_spec exactFns v kernel hodd (by omega) (by rw [hv]; rfl)
  refine ⟨Z, e, h1, ?_⟩
  intro j hj
  rw [h2 j hj, if_pos (by omega), hv, convAt_exact]
  rfl

/-! ### The window -/

/-- The Hamming window of 19 values. -/
noncomputable def window (i : Nat) : ℝ := 0.54 - 0.46 * Real.cos (2 * Real.pi * i / 18)

/-- Scaled so that the sum is one. -/
noncomputable def weight (i : Nat) : ℝ := window i / ∑ j ∈ range 19, window j

theorem window_pos (i : Nat) : 0 < window i := by
  unfold window
  have := Real.cos_le_one (2 * Real.pi * i / 18)
  norm_num
  linarith

theorem window_sum_pos : 0 < ∑ j ∈ range 19, window j :=
  sum_pos (fun i _ => window_pos i) ⟨0, mem_range.mpr (by omega)⟩

theorem weight_pos (i : Nat) : 0 < weight i := div_pos (window_pos i) window_sum_pos

theorem weight_sum : ∑ i ∈ range 19, weight i = 1 := by
  unfold weight
  rw [← sum_div, div_self window_sum_pos.ne']

theorem hamming_exact (i : Nat) : hamming exactFns i = window i := by
  unfold hamming window
  simp only [ex_sub, ex_lit, ex_mul, ex_cos, ex_div, ex_pi, hamwinlength, nBPS]
  push_cast
  norm_num

/-- What the plug-in's window is. -/
noncomputable def weights : List ℝ := (List.range 19).map weight

theorem hw_exact : (List.range hamwinlength).map (fun i => exactFns.div (hamming exactFns i)
    ((List.range hamwinlength).foldl (fun s i => exactFns.add s (hamming exactFns i)) (exactFns.lit 0))) = weights := by
  have h19 : hamwinlength = 19 := rfl
  rw [h19]
  unfold weights
  have h0 : exactFns.lit 0 = 0 := by simp
  rw [h0]
  apply List.map_congr_left
  intro i _
  rw [foldl_sum 19 (fun i => hamming exactFns i)]
  simp only [hamming_exact, ex_div]
  rfl

theorem weights_length : weights.length = 19 := by simp [weights]

theorem weights_get {m : Nat} (hm : m < 19) : weights.getD m 0 = weight m := by
  unfold weights
  rw [List.getD_eq_getElem?_getD, List.getElem?_map, List.getElem?_range hm]
  rfl

/-! ### Whitening -/

/-- The weighted mean of the nineteen bins around bin `j`, or around the nearest bin that has so many neighbours. -/
noncomputable def mean (v : Nat → ℝ) (j : Nat) : ℝ :=
  ∑ m ∈ range 19, v (max 9 (min j 246) + 9 - m) * weight m

/-- The weighted standard deviation: the squares are taken of the distances from the means at the bins themselves. -/
noncomputable def deviation (v : Nat → ℝ) (j : Nat) : ℝ := Real.sqrt (mean (fun l => (v l - mean v l) ^ 2) j)

/-- What whitening with exponent `w` makes of a spectrum. -/
noncomputable def whitened (w : ℝ) (v : Nat → ℝ) (j : Nat) : ℝ :=
  if 0 < deviation v j then max 0 (v j - mean v j) / deviation v j ^ w else v j

theorem around_weights (v : Nat → ℝ) (j : Nat) : Around v weights (inner 19 j) = mean v j := by
  unfold Around mean inner
  rw [weights_length]
  apply sum_congr rfl
  intro m hm
  rw [weights_get (mem_range.mp hm)]

theorem mean_congr {v u : Nat → ℝ} (h : ∀ l, l < 256 → v l = u l) (j : Nat) : mean v j = mean u j := by
  unfold mean
  apply sum_congr rfl
  intro m hm
  rw [h _ (by have := mem_range.mp hm; omega)]

theorem deviation_congr {v u : Nat → ℝ} (h : ∀ l, l < 256 → v l = u l) (j : Nat) : deviation v j = deviation u j := by
  unfold deviation
  rw [mean_congr (u := fun l => (u l - mean u l) ^ 2)]
  intro l hl
  rw [h l hl, mean_congr h]

theorem whitened_congr {w : ℝ} {v u : Nat → ℝ} (h : ∀ l, l < 256 → v l = u l) {j : Nat} (hj : j < 256) :
    whitened w v j = whitened w u j := by
  unfold whitened
  rw [deviation_congr h, mean_congr h, h j hj]

theorem mean_bounds {v : Nat → ℝ} {lo hi : ℝ} (h : ∀ l, l < 256 → lo ≤ v l ∧ v l ≤ hi) (j : Nat) :
    lo ≤ mean v j ∧ mean v j ≤ hi := by
  have h1 : lo = ∑ m ∈ range 19, lo * weight m := by rw [← mul_sum, weight_sum, mul_one]
  have h2 : hi = ∑ m ∈ range 19, hi * weight m := by rw [← mul_sum, weight_sum, mul_one]
  unfold mean
  constructor
  · rw [h1]
    apply sum_le_sum
    intro m hm
    have := mem_range.mp hm
    exact mul_le_mul_of_nonneg_right (h _ (by omega)).1 (weight_pos m).le
  · rw [h2]
    apply sum_le_sum
    intro m hm
    have := mem_range.mp hm
    exact mul_le_mul_of_nonneg_right (h _ (by omega)).2 (weight_pos m).le

theorem whitenFrame_exact (w : ℝ) {f2 : List ℝ} (hl : f2.length = 256) :
    ∃ r, whitenFrame exactFns weights w f2 = .ok r ∧ r.1.length = 256 ∧
      ∀ j, j < 256 → r.1.getD j 0 = whitened w (fun l => f2.getD l 0) j := by
  unfold whitenFrame
  have hn : nNote = 256 := rfl
  obtain ⟨mu, e1, l1, c1⟩ := conv_exact (v := f2) (kernel := weights) (by rw [weights_length]) (by rw [weights_length]; omega) hl
  have c1' : ∀ j, j < 256 → mu[j]? = some (mean (fun l => f2.getD l 0) j) := by
    intro j hj
    rw [c1 j hj, weights_length, around_weights]
  have e2 : loop (fun i sq => do
      let x ← rd f2 (i : Int)
      let m ← rd mu (i : Int)
      pure (sq ++ [exactFns.mul (exactFns.sub x m) (exactFns.sub x m)])) nNote [] =
      .ok ((List.range 256).map (fun l => (f2.getD l 0 - mean (fun l => f2.getD l 0) l) ^ 2)) := by
    obtain ⟨sq, e, h⟩ := loop_inv (body := fun i sq => do
      let x ← rd f2 (i : Int)
      let m ← rd mu (i : Int)
      pure (sq ++ [exactFns.mul (exactFns.sub x m) (exactFns.sub x m)])) (k := nNote) (s := [])
      (fun i (sq : List ℝ) => sq = (List.range i).map (fun l => (f2.getD l 0 - mean (fun l => f2.getD l 0) l) ^ 2)) rfl (by
        rintro i hi sq rfl
        rw [rd_nat' 0 (by omega), bind_ok, rd_nat (c1' i (by omega)), bind_ok]
        refine ⟨_, rfl, ?_⟩
        rw [List.range_succ, List.map_append]
        simp only [ex_mul, ex_sub, List.map_cons, List.map_nil]
        rw [pow_two])
    rw [e, h, hn]
  obtain ⟨sd, e3, l3, c3⟩ := conv_exact
    (v := (List.range 256).map (fun l => (f2.getD l 0 - mean (fun l => f2.getD l 0) l) ^ 2)) (kernel := weights)
    (by rw [weights_length]) (by rw [weights_length]; omega) (by simp)
  have c3' : ∀ j, j < 256 → sd[j]? = some (mean (fun l => (f2.getD l 0 - mean (fun l => f2.getD l 0) l) ^ 2) j) := by
    intro j hj
    rw [c3 j hj, weights_length, around_weights]
    refine congrArg some (mean_congr ?_ j)
    intro l hl
    rw [List.getD_eq_getElem?_getD, List.getElem?_map, List.getElem?_range hl]
    rfl
  rw [e1, bind_ok, e2, bind_ok, e3, bind_ok]
  obtain ⟨r, e, h1, h2⟩ := loop_inv (body := fun i (r : List ℝ × Bool) => do
      let v ← rd sd (i : Int)
      let v := exactFns.sqrt v
      let f2 ← (if exactFns.lt (exactFns.lit 0) v then do
          let x ← rd r.1 (i : Int)
          let m ← rd mu (i : Int)
          wr r.1 (i : Int) (if exactFns.lt (exactFns.lit 0) (exactFns.sub x m) then
            exactFns.div (exactFns.sub x m) (exactFns.pow v w) else exactFns.lit 0)
        else pure r.1)
      let x ← rd f2 (i : Int)
      pure (f2, r.2 || exactFns.lt x (exactFns.lit 0))) (k := nNote) (s := (f2, false))
    (fun i (r : List ℝ × Bool) => r.1.length = 256 ∧ ∀ j, r.1.getD j 0 =
      if j < i then whitened w (fun l => f2.getD l 0) j else f2.getD j 0) ⟨hl, by intro j; simp⟩ (by
      rintro i hi r ⟨h1, h2⟩
      rw [rd_nat (c3' i (by omega)), bind_ok]
      have hdev : exactFns.sqrt (mean (fun l => (f2.getD l 0 - mean (fun l => f2.getD l 0) l) ^ 2) i) =
        deviation (fun l => f2.getD l 0) i := rfl
      simp only [hdev]
      have hx : r.1.getD i 0 = f2.getD i 0 := by rw [h2, if_neg (by omega)]
      by_cases hc : 0 < deviation (fun l => f2.getD l 0) i
      · rw [if_pos (by simpa using hc), rd_nat' 0 (by omega), bind_ok, rd_nat (c1' i (by omega)), bind_ok,
          wr_nat _ (by omega), bind_ok, rd_nat' 0 (by rw [List.length_set]; omega), bind_ok]
        refine ⟨_, rfl, by simpa using h1, ?_⟩
        intro j
        simp only
        rw [getD_set (by omega)]
        by_cases hji : j = i
        · subst hji
          rw [if_pos rfl, if_pos (Nat.lt_succ_self j), hx]
          unfold whitened
          rw [if_pos hc]
          by_cases hp : 0 < f2.getD j 0 - mean (fun l => f2.getD l 0) j
          · rw [if_pos (by simpa using hp), max_eq_right hp.le]
            rfl
          · rw [if_neg (by simpa using hp), max_eq_left (not_lt.mp hp), zero_div]
            simp
        · rw [if_neg hji, h2]
          by_cases hlt : j < i
          · rw [if_pos hlt, if_pos (by omega)]
          · rw [if_neg hlt, if_neg (by omega)]
      · rw [if_neg (by simpa using hc), pure_bind, rd_nat' 0 (by omega), bind_ok]
        refine ⟨_, rfl, h1, ?_⟩
        intro j
        simp only
        rw [h2]
        by_cases hji : j = i
        · subst hji
          rw [if_neg (by omega), if_pos (by omega)]
          unfold whitened
          rw [if_neg hc]
        · by_cases hlt : j < i
          · rw [if_pos hlt, if_pos (by omega)]
          · rw [if_neg hlt, if_neg (by omega)])
  refine ⟨r, e, h1, ?_⟩
  intro j hj
  rw [h2, if_pos (by omega)]

end JKD.Chroma
