import Verif.Lemmas.ChromaLoop
/-
What `SpecialConvolution` computes.
-/

namespace JKD.Chroma

variable {D T S α β : Type}

/-- The scalar product of the kernel, reversed, with the part of `v` centred at `i`, added up in the order of
the code. -/
def convAt (F : Fns D) (v kernel : List D) (i : Nat) : D :=
  (List.range kernel.length).foldl (fun s m =>
    F.add s (F.mul (v.getD (i + kernel.length / 2 - m) F.zero) (kernel.getD m F.zero))) F.zero

theorem rd_getD {v : List D} {i : Int} (z : D) (h0 : 0 ≤ i) (h : i.toNat < v.length) :
    rd v i = .ok (v.getD i.toNat z) := by
  rw [rd_lt h0 h, List.getD_eq_getElem?_getD, List.getElem?_eq_getElem h]
  rfl

theorem rd_nat' {v : List D} {i : Nat} (z : D) (h : i < v.length) : rd v (i : Int) = .ok (v.getD i z) :=
  rd_getD z (by omega) (by simpa using h)

theorem getElem?_set' {v : List D} {i j : Nat} {x : D} (hi : i < v.length) :
    (v.set i x)[j]? = if j = i then some x else v[j]? := by
  rw [List.getElem?_set]
  by_cases h : i = j
  · subst h
    rw [if_pos rfl, if_pos hi, if_pos rfl]
  · rw [if_neg h, if_neg (Ne.symm h)]

/-- For an odd kernel not longer than the convolvee, and a convolvee not longer than 256. -/
theorem conv_spec (F : Fns D) (v kernel : List D) (hodd : kernel.length % 2 = 1)
    (hlen : kernel.length ≤ v.length) (hv : v.length ≤ nNote) :
    ∃ Z, specialConvolution F v kernel = .ok Z ∧ Z.length = nNote ∧ ∀ j, j < nNote →
      Z[j]? = some (if j < v.length then
        convAt F v kernel (max (kernel.length / 2) (min j (v.length - 1 - kernel.length / 2))) else F.zero) := by
  generalize hL : v.length = L at *
  generalize hK : kernel.length = K at *
  generalize hh : K / 2 = h at *
  have hK2 : K = 2 * h + 1 := by omega
  unfold specialConvolution
  simp only [hL, hK, hh]
  rw [if_neg (by omega)]
  obtain ⟨Z1, e1, l1, p1⟩ := loop_inv (body := fun t Z => do
      let s ← loop (fun m s => do
        let c ← rd v (((K - 1 + t : Nat) : Int) - m)
        let k ← rd kernel m
        pure (F.add s (F.mul c k))) K F.zero
      wr Z (((K - 1 + t : Nat) : Int) - (h : Nat)) s) (k := L - (K - 1)) (s := List.replicate nNote F.zero)
    (fun t Z => Z.length = nNote ∧ ∀ j, j < nNote → Z[j]? = some (if h ≤ j ∧ j < h + t then convAt F v kernel j
      else F.zero))
    (by
      refine ⟨by simp, ?_⟩
      intro j hj
      rw [if_neg (by omega), List.getElem?_replicate, if_pos hj])
    (by
      rintro t ht Z ⟨l, p⟩
      have hi : loop (fun m s => do
          let c ← rd v (((K - 1 + t : Nat) : Int) - m)
          let k ← rd kernel m
          pure (F.add s (F.mul c k))) K F.zero = .ok (convAt F v kernel (h + t)) := by
        rw [loop_eq (fun m s => F.add s (F.mul (v.getD (h + t + h - m) F.zero) (kernel.getD m F.zero)))]
        · unfold convAt
          rw [hK, hh]
        · intro m hm s
          rw [rd_getD F.zero (by omega) (by omega), rd_getD F.zero (by omega) (by omega)]
          rw [show (((K - 1 + t : Nat) : Int) - m).toNat = h + t + h - m by omega,
            show ((m : Int)).toNat = m by omega]
          rfl
      rw [hi, bind_ok]
      refine ⟨_, wr_ok _ (by omega) (by rw [l]; omega), by simpa using l, ?_⟩
      intro j hj
      rw [show (((K - 1 + t : Nat) : Int) - (h : Nat)).toNat = h + t by omega, getElem?_set' (by rw [l]; omega)]
      by_cases hjt : j = h + t
      · rw [if_pos hjt, if_pos (by omega), hjt]
      · rw [if_neg hjt, p j hj]
        congr 1
        by_cases hc : h ≤ j ∧ j < h + t
        · rw [if_pos hc, if_pos (by omega)]
        · rw [if_neg hc, if_neg (by omega)])
  obtain ⟨Z2, e2, l2, p2⟩ := loop_inv (body := fun n Z => do
      let z ← rd Z ((h : Nat) : Int)
      wr Z (n : Int) z) (k := h) (s := Z1)
    (fun n Z => Z.length = nNote ∧ ∀ j, j < nNote → Z[j]? = some (if j < n then convAt F v kernel h
      else if h ≤ j ∧ j < L - h then convAt F v kernel j else F.zero))
    (by
      refine ⟨l1, ?_⟩
      intro j hj
      rw [if_neg (by omega), p1 j hj, show h + (L - (K - 1)) = L - h by omega])
    (by
      rintro n hn Z ⟨l, p⟩
      have hz := p h (by omega)
      rw [if_neg (by omega), if_pos (by omega)] at hz
      rw [rd_nat hz, bind_ok]
      refine ⟨_, wr_nat _ (by rw [l]; omega), by simpa using l, ?_⟩
      intro j hj
      rw [getElem?_set' (by rw [l]; omega)]
      by_cases hjn : j = n
      · rw [if_pos hjn, if_pos (by omega)]
      · rw [if_neg hjn, p j hj]
        congr 1
        by_cases hc : j < n
        · rw [if_pos hc, if_pos (by omega)]
        · rw [if_neg hc, if_neg (by omega : ¬ j < n + 1)])
  obtain ⟨Z3, e3, l3, p3⟩ := loop_inv (body := fun t Z => do
      let z ← rd Z ((L : Int) - (h : Nat) - 1)
      wr Z (((L + t : Nat) : Int) - (h : Nat)) z) (k := h) (s := Z2)
    (fun t Z => Z.length = nNote ∧ ∀ j, j < nNote → Z[j]? = some (if j < h then convAt F v kernel h
      else if j < L - h then convAt F v kernel j
      else if j < L - h + t then convAt F v kernel (L - 1 - h) else F.zero))
    (by
      refine ⟨l2, ?_⟩
      intro j hj
      rw [p2 j hj]
      congr 1
      split_ifs <;> first | rfl | omega)
    (by
      rintro t ht Z ⟨l, p⟩
      have hz := p (L - 1 - h) (by omega)
      have hz' : Z[L - 1 - h]? = some (convAt F v kernel (L - 1 - h)) := by
        rw [hz]
        congr 1
        split_ifs with h1 h2 h3
        · rw [show L - 1 - h = h by omega]
        · rfl
        · rfl
        · omega
      rw [rd_ok (by omega) (by rw [show ((L : Int) - (h : Nat) - 1).toNat = L - 1 - h by omega]; exact hz'), bind_ok]
      refine ⟨_, wr_ok _ (by omega) (by rw [l]; omega), by simpa using l, ?_⟩
      intro j hj
      rw [show (((L + t : Nat) : Int) - (h : Nat)).toNat = L - h + t by omega, getElem?_set' (by rw [l]; omega)]
      by_cases hjt : j = L - h + t
      · rw [if_pos hjt, if_neg (by omega), if_neg (by omega), if_pos (by omega)]
      · rw [if_neg hjt, p j hj]
        congr 1
        split_ifs <;> first | rfl | omega)
  refine ⟨Z3, ?_, l3, ?_⟩
  · rw [e1, bind_ok, e2, bind_ok]
    exact e3
  · intro j hj
    rw [p3 j hj]
    congr 1
    split_ifs with h1 h2 h3 h4
    · rw [show max h (min j (L - 1 - h)) = h by omega]
    · omega
    · rw [show max h (min j (L - 1 - h)) = j by omega]
    · omega
    · rw [show max h (min j (L - 1 - h)) = L - 1 - h by omega]
    · omega
    · omega
    · rfl

end JKD.Chroma
