import Verif.Lemmas.ChromaWhite
/-
C72: the convolution behind the running mean of the tuned spectrum.
-/

namespace JKD.Chroma

open Finset

/-! ### Specification -/

/-- The usual convolution of `v` and `k` at position `n` (both with first index zero). -/
noncomputable def Usual (v k : List ℝ) (n : Nat) : ℝ :=
  ∑ ab ∈ (range v.length ×ˢ range k.length).filter (fun ab => ab.1 + ab.2 = n), v.getD ab.1 0 * k.getD ab.2 0

/-- What the documentation of `SpecialConvolution` promises (chromamethods.cpp:38-44): as long as the convolvee,
the valid values of the convolution centred, and the first and last valid values repeated at the ends. -/
structure Documented (v k Z : List ℝ) : Prop where
  length : Z.length = v.length
  valid : ∀ n, k.length - 1 ≤ n → n < v.length → Z[n - k.length / 2]? = some (Usual v k n)
  below : ∀ j, j < k.length / 2 → Z[j]? = some (Usual v k (k.length - 1))
  above : ∀ j, v.length - k.length / 2 ≤ j → j < v.length → Z[j]? = some (Usual v k (v.length - 1))

theorem usual_around {v k : List ℝ} {i : Nat} (hodd : k.length % 2 = 1) (h1 : k.length / 2 ≤ i)
    (h2 : i + k.length / 2 < v.length) :
    Usual v k (i + k.length / 2) = Around (fun l => v.getD l 0) k i := by
  unfold Usual Around
  symm
  apply sum_bij (fun m _ => (i + k.length / 2 - m, m))
  · intro m hm
    simp only [mem_range, mem_filter, mem_product] at *
    omega
  · intro a _ b _ e
    exact (Prod.mk.inj e).2
  · rintro ⟨a, b⟩ hab
    simp only [mem_range, mem_filter, mem_product] at hab
    exact ⟨b, mem_range.mpr hab.1.2, by rw [Prod.mk.injEq]; omega⟩
  · intro m _
    rfl

/-! ### C72 -/

/-- In exact arithmetic, for a convolvee of 256 values - the only kind the plug-in has - and a kernel of odd length
not longer than that, `SpecialConvolution` does what its documentation says. -/
theorem C72_convolution_partial {v k : List ℝ} (hv : v.length = 256) (hodd : k.length % 2 = 1) (hk : k.length ≤ 256) :
    ∃ Z, specialConvolution exactFns v k = .ok Z ∧ Documented v k Z := by
  obtain ⟨Z, e, hl, h⟩ := conv_exact hodd hk hv
  refine ⟨Z, e, ?_⟩
  have key : ∀ j i, j < 256 → inner k.length j = i → k.length / 2 ≤ i → i + k.length / 2 < 256 →
      Z[j]? = some (Usual v k (i + k.length / 2)) := by
    intro j i hj hi h1 h2
    rw [h j hj, hi, usual_around hodd h1 (by omega)]
  exact {
    length := by rw [hl, hv]
    valid := by
      intro n h1 h2
      have := key (n - k.length / 2) (n - k.length / 2) (by omega) (by unfold inner; omega) (by omega) (by omega)
      rw [this]
      congr 2
      omega
    below := by
      intro j hj
      have := key j (k.length / 2) (by omega) (by unfold inner; omega) (by omega) (by omega)
      rw [this]
      congr 2
      omega
    above := by
      intro j h1 h2
      have := key j (255 - k.length / 2) (by omega) (by unfold inner; omega) (by omega) (by omega)
      rw [this]
      congr 2
      omega }

/-- For other lengths it does not: the result has always 256 values. -/
theorem C72_length_violated :
    ∃ v k : List ℝ, k.length % 2 = 1 ∧ k.length ≤ v.length ∧
      ∃ Z, specialConvolution exactFns v k = .ok Z ∧ ¬ Documented v k Z := by
  obtain ⟨Z, e, hl, -⟩ := conv_spec exactFns [1, 2, 3] [(1 : ℝ)] (by rfl) (by decide) (by decide)
  refine ⟨[1, 2, 3], [1], by rfl, by decide, Z, e, ?_⟩
  intro h
  have := h.length
  rw [hl] at this
  revert this
  decide

theorem loop_ub {S : Type} {body : Nat → S → Run S} (P : Nat → S → Prop) {k n : Nat} {s : S} (hn : n < k)
    (h0 : P 0 s) (hs : ∀ i, i < n → ∀ s, P i s → ∃ s', body i s = .ok s' ∧ P (i + 1) s')
    (hu : ∀ s, P n s → body n s = .ub) : loop body k s = .ub := by
  induction k with
  | zero => omega
  | succ k ih =>
    change (loop body k s >>= body k) = _
    by_cases h : n < k
    · rw [ih h]
      rfl
    · have : n = k := by omega
      subst this
      obtain ⟨s', e, hp⟩ := loop_inv P h0 hs
      rw [e, bind_ok, hu s' hp]

/-- For a convolvee longer than 256 it writes outside its result, whatever the kernel of one value. -/
theorem C72_long_violated {v : List ℝ} (hv : 256 < v.length) (x : ℝ) : specialConvolution exactFns v [x] = .ub := by
  unfold specialConvolution
  simp only [List.length_singleton]
  rw [if_neg (by decide)]
  have hin : ∀ t, t < v.length → ∃ s, loop (fun m s => do
        let c ← rd v (((1 - 1 + t : Nat) : Int) - (m : Nat))
        let k ← rd [x] (m : Nat)
        pure (exactFns.add s (exactFns.mul c k))) 1 exactFns.zero = .ok s := by
    intro t ht
    obtain ⟨s, e, -⟩ := loop_inv (body := fun m s => do
        let c ← rd v (((1 - 1 + t : Nat) : Int) - (m : Nat))
        let k ← rd [x] (m : Nat)
        pure (exactFns.add s (exactFns.mul c k))) (k := 1) (s := exactFns.zero) (fun _ _ => True) trivial (by
      intro m hm s _
      rw [rd_getD 0 (by omega) (by omega), bind_ok, rd_nat' 0 (by simpa using hm), bind_ok]
      exact ⟨_, rfl, trivial⟩)
    exact ⟨s, e⟩
  rw [loop_ub (n := 256) (fun _ (Z : List ℝ) => Z.length = 256) (by omega) (by rw [List.length_replicate]; rfl)]
  · rfl
  · intro t ht Z hl
    obtain ⟨s, e⟩ := hin t (by omega)
    rw [e, bind_ok, wr_ok _ (by omega) (by omega)]
    exact ⟨_, rfl, by simpa using hl⟩
  · intro Z hl
    obtain ⟨s, e⟩ := hin 256 (by omega)
    rw [e, bind_ok]
    unfold wr
    rw [if_neg]
    rw [hl]
    decide

/-- With the plug-in's window the convolution is a weighted mean: whatever bounds the values of a spectrum bounds
the result, and a constant spectrum is left alone. -/
theorem C72_running_mean {T : Type} (fs : Int) {bs : Nat} (hb : 4 ≤ bs) (params : Params ℝ) {v : List ℝ}
    (hv : v.length = 256) {lo hi : ℝ} (h : ∀ x ∈ v, lo ≤ x ∧ x ≤ hi) :
    ∃ p Z, initialise exactFns fs 1 bs (Base.new exactFns params : Base ℝ T) = .ok (true, p) ∧
      specialConvolution exactFns v p.hw = .ok Z ∧ Z.length = 256 ∧ ∀ x ∈ Z, lo ≤ x ∧ x ≤ hi := by
  obtain ⟨p, e, -, -, -, -, -, -, hw⟩ := initialise_ok (T := T) exactFns exact_signed fs hb params
  rw [hw_exact] at hw
  obtain ⟨Z, e2, hl, hZ⟩ := conv_exact (v := v) (kernel := weights) (by rw [weights_length])
    (by rw [weights_length]; omega) hv
  refine ⟨p, Z, e, by rw [hw]; exact e2, hl, ?_⟩
  intro x hx
  obtain ⟨j, hj⟩ := List.mem_iff_getElem?.mp hx
  have hj' : j < 256 := by
    rw [← hl]
    exact (List.getElem?_eq_some_iff.mp hj).1
  rw [hZ j hj', weights_length, around_weights] at hj
  cases hj
  apply mean_bounds
  intro l hl'
  apply h
  rw [List.getD_eq_getElem?_getD, List.getElem?_eq_getElem (by omega)]
  exact List.getElem_mem _

/-- The hypotheses are met: a spectrum with one peak. -/
example : ((List.replicate 256 (0 : ℝ)).set 100 1).length = 256 ∧
    ∀ x ∈ (List.replicate 256 (0 : ℝ)).set 100 1, 0 ≤ x ∧ x ≤ 1 := by
  refine ⟨by rw [List.length_set, List.length_replicate], ?_⟩
  intro x hx
  rcases List.mem_or_eq_of_mem_set hx with h | rfl
  · rw [(List.mem_replicate.mp h).2]
    norm_num
  · norm_num

end JKD.Chroma
