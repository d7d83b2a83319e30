import Verif.Lemmas.ChromaMap
import Mathlib.Analysis.SpecialFunctions.Complex.Arg
/-
The log-frequency spectrum of a block and the tuning estimates in exact arithmetic.
-/

namespace JKD.Chroma

open Finset

variable {T : Type}

/-! ### Specification -/

/-- The log-frequency spectrum of a block. -/
noncomputable def logSpec (fs : Int) (bs : Nat) (rollon : ℝ) (buf : List ℝ) (l : Nat) : ℝ :=
  ∑ n ∈ range (bs / 2), audible rollon bs buf n * spread fs bs n l

/-- The total of a spectrum in the bins at the semitones (`0`), a third of a semitone above (`1`) and a third below
(`2`), up to bin 161. -/
noncomputable def third (L : Nat → ℝ) (i : Nat) : ℝ := ∑ t ∈ range 54, L (3 * t + i)

/-- The totals of all the blocks so far in exponential smoothing: every bin used counts 0.3 percent. -/
noncomputable def smoothed (Ls : List (Nat → ℝ)) (i : Nat) : ℝ :=
  Ls.foldl (fun x L => (List.range 54).foldl (fun x t => x * 0.997 + L (3 * t + i) * 0.003) x) 0

/-- The angle, as a part of the full circle, of three weights on the third roots of unity. -/
noncomputable def angle (x : Nat → ℝ) : ℝ :=
  Complex.arg ⟨∑ i ∈ range 3, x i * Real.cos (2 * Real.pi * (i / 3)), ∑ i ∈ range 3, x i * Real.sin (2 * Real.pi * (i / 3))⟩ /
    (2 * Real.pi)

/-! ### The kernel -/

theorem kernel_sum {N : Nat} {temp : List ℝ} (ht : 256 * N ≤ temp.length) :
    ∃ ker, loop (fun iNote kernel =>
      loop (fun iFFT kernel => do
        let v ← rd temp (iFFT + N * iNote : Nat)
        if exactFns.lt (exactFns.lit 0) v then pure (kernel ++ [(v, iFFT, iNote)]) else pure kernel) N kernel)
      nNote [] = .ok ker ∧ ∀ g : ℝ × Nat × Nat → ℝ, (ker.map g).sum = ∑ l ∈ range 256, ∑ n ∈ range N,
        if 0 < temp.getD (n + N * l) 0 then g (temp.getD (n + N * l) 0, n, l) else 0 := by
  obtain ⟨ker, e, h⟩ := loop_inv (body := fun iNote kernel =>
      loop (fun iFFT kernel => do
        let v ← rd temp (iFFT + N * iNote : Nat)
        if exactFns.lt (exactFns.lit 0) v then pure (kernel ++ [(v, iFFT, iNote)]) else pure kernel) N kernel)
    (k := nNote) (s := []) (fun k (ker : List (ℝ × Nat × Nat)) => ∀ g : ℝ × Nat × Nat → ℝ, (ker.map g).sum =
      ∑ l ∈ range k, ∑ n ∈ range N,
        if 0 < temp.getD (n + N * l) 0 then g (temp.getD (n + N * l) 0, n, l) else 0) (by intro g; simp) (by
      intro l hl ker hk
      obtain ⟨ker', e, h⟩ := loop_inv (body := fun iFFT kernel => do
        let v ← rd temp (iFFT + N * l : Nat)
        if exactFns.lt (exactFns.lit 0) v then pure (kernel ++ [(v, iFFT, l)]) else pure kernel) (k := N) (s := ker)
        (fun k (ker' : List (ℝ × Nat × Nat)) => ∀ g : ℝ × Nat × Nat → ℝ, (ker'.map g).sum = (ker.map g).sum +
          ∑ n ∈ range k, if 0 < temp.getD (n + N * l) 0 then g (temp.getD (n + N * l) 0, n, l) else 0)
        (by intro g; simp) (by
          intro n hn ker' hk'
          have hin : n + N * l < temp.length := by
            have h6 : N * (l + 1) ≤ N * 256 := Nat.mul_le_mul_left _ hl
            have h8 : N * (l + 1) = N * l + N := by ring
            omega
          rw [rd_nat' 0 hin, bind_ok]
          by_cases hc : 0 < temp.getD (n + N * l) 0
          · rw [if_pos (by simpa using hc)]
            refine ⟨_, rfl, ?_⟩
            intro g
            rw [List.map_append, List.sum_append, hk' g, sum_range_succ, if_pos hc]
            simp [add_assoc]
          · rw [if_neg (by simpa using hc)]
            refine ⟨_, rfl, ?_⟩
            intro g
            rw [hk' g, sum_range_succ, if_neg hc, add_zero])
      refine ⟨ker', e, ?_⟩
      intro g
      rw [h g, hk g, sum_range_succ])
  exact ⟨ker, e, h⟩

theorem mapNotes_sum {kernel : List (ℝ × Nat × Nat)} {mag v : List ℝ} (hv : v.length = 256)
    (hk : ∀ k ∈ kernel, k.2.1 < mag.length ∧ k.2.2 < 256) :
    ∃ r, kernel.foldlM (fun nm k => do
        let m ← rd mag (k.2.1 : Int)
        let o ← rd nm (k.2.2 : Int)
        wr nm (k.2.2 : Int) (exactFns.add o (exactFns.mul m k.1))) v = .ok r ∧ r.length = 256 ∧
      ∀ l, r.getD l 0 = v.getD l 0 + (kernel.map (fun k => if k.2.2 = l then mag.getD k.2.1 0 * k.1 else 0)).sum := by
  induction kernel generalizing v with
  | nil => exact ⟨v, rfl, hv, by simp⟩
  | cons k kernel ih =>
    obtain ⟨h1, h2⟩ := hk k (by simp)
    rw [List.foldlM_cons, rd_nat' 0 h1, bind_ok, rd_nat' 0 (by omega), bind_ok, wr_nat _ (by omega), bind_ok]
    obtain ⟨r, e, h3, h4⟩ := ih (v := v.set k.2.2 (exactFns.add (v.getD k.2.2 0) (exactFns.mul (mag.getD k.2.1 0) k.1)))
      (by simpa using hv) (fun k' h => hk k' (by simp [h]))
    refine ⟨r, e, h3, ?_⟩
    intro l
    rw [h4, getD_set (by omega), List.map_cons, List.sum_cons]
    by_cases h : l = k.2.2
    · subst h
      rw [if_pos rfl, if_pos rfl]
      simp only [ex_add, ex_mul]
      ring
    · rw [if_neg h, if_neg (fun h' => h h'.symm), zero_add]

/-! ### The tuning estimates -/

theorem loop_update (g : Nat → ℝ → ℝ) {k : Nat} {v : List ℝ} (hk : k ≤ v.length) :
    ∃ r, loop (fun i (v : List ℝ) => do
        let x ← rd v (i : Int)
        wr v (i : Int) (g i x)) k v = .ok r ∧ r.length = v.length ∧
      ∀ j, r.getD j 0 = if j < k then g j (v.getD j 0) else v.getD j 0 := by
  apply loop_inv (fun k (r : List ℝ) => r.length = v.length ∧
    ∀ j, r.getD j 0 = if j < k then g j (v.getD j 0) else v.getD j 0) ⟨rfl, by simp⟩
  rintro i hi r ⟨h1, h2⟩
  rw [rd_nat' 0 (by omega), bind_ok]
  refine ⟨_, wr_nat _ (by omega), by simpa using h1, ?_⟩
  intro j
  rw [getD_set (by omega)]
  by_cases h : j = i
  · subst h
    rw [if_pos rfl, if_pos (by omega), h2, if_neg (by omega)]
  · rw [if_neg h, h2]
    by_cases h' : j < i
    · rw [if_pos h', if_pos (by omega)]
    · rw [if_neg h', if_neg (by omega)]

theorem updateTunings_exact {nm : List ℝ} (hn : nm.length = 256) (p : Base ℝ T)
    (h1 : p.meanTunings.length = 3) (h2 : p.localTunings.length = 3) :
    ∃ m l, updateTunings exactFns nm p = .ok { p with meanTunings := m, localTunings := l } ∧
      m.length = 3 ∧ l.length = 3 ∧
      (∀ i, i < 3 → m.getD i 0 = p.meanTunings.getD i 0 * (((p.frameCount - 1 : Nat) : ℝ) * (1 / p.frameCount)) +
        third (fun l => nm.getD l 0) i * (1 / p.frameCount)) ∧
      (∀ i, i < 3 → l.getD i 0 = (List.range 54).foldl (fun x t => x * 0.997 + nm.getD (3 * t + i) 0 * 0.003)
        (p.localTunings.getD i 0)) := by
  unfold updateTunings
  obtain ⟨m1, e1, l1, c1⟩ := loop_update (fun _ x => exactFns.mul x (exactFns.mul (exactFns.lit (p.frameCount - 1 : Nat))
    (exactFns.div exactFns.one (exactFns.lit p.frameCount)))) (k := nBPS) (v := p.meanTunings) (by rw [h1]; decide)
  dsimp only
  rw [e1, bind_ok]
  obtain ⟨r, e2, r1, r2, r3, r4⟩ := loop_inv (body := fun t (r : List ℝ × List ℝ) => do
      let mean ← loop (fun i (mean : List ℝ) => do
        let x ← rd mean (i : Int)
        let v ← rd nm (nBPS * t + i : Nat)
        wr mean (i : Int) (exactFns.add x (exactFns.mul v (exactFns.div exactFns.one (exactFns.lit p.frameCount))))) nBPS r.1
      let loc ← loop (fun i (loc : List ℝ) => do
        let x ← rd loc (i : Int)
        let v ← rd nm (nBPS * t + i : Nat)
        wr loc (i : Int) (exactFns.add (exactFns.mul x (exactFns.lit 0.997))
          (exactFns.mul v (exactFns.sub exactFns.one (exactFns.lit 0.997))))) nBPS r.2
      pure (mean, loc)) (k := tones) (s := (m1, p.localTunings))
    (fun k (r : List ℝ × List ℝ) => r.1.length = 3 ∧ r.2.length = 3 ∧
      (∀ i, i < 3 → r.1.getD i 0 = m1.getD i 0 + (∑ t ∈ range k, nm.getD (3 * t + i) 0) * (1 / p.frameCount)) ∧
      (∀ i, i < 3 → r.2.getD i 0 = (List.range k).foldl (fun x t => x * 0.997 + nm.getD (3 * t + i) 0 * 0.003)
        (p.localTunings.getD i 0))) ⟨by rw [l1, h1], h2, by simp, by simp⟩ (by
      rintro t ht r ⟨g1, g2, g3, g4⟩
      have ht' : t < 54 := ht
      have hin : ∀ i, i < nBPS → rd nm (nBPS * t + i : Nat) = .ok (nm.getD (3 * t + i) 0) := by
        intro i hi
        have : i < 3 := hi
        exact rd_nat' 0 (by simp only [nBPS]; omega)
      obtain ⟨m2, e3, l3, c3⟩ := loop_update (fun i x => exactFns.add x (exactFns.mul (nm.getD (3 * t + i) 0)
        (exactFns.div exactFns.one (exactFns.lit p.frameCount)))) (k := nBPS) (v := r.1) (by rw [g1]; decide)
      obtain ⟨m3, e4, l4, c4⟩ := loop_update (fun i x => exactFns.add (exactFns.mul x (exactFns.lit 0.997))
          (exactFns.mul (nm.getD (3 * t + i) 0) (exactFns.sub exactFns.one (exactFns.lit 0.997)))) (k := nBPS) (v := r.2)
        (by rw [g2]; decide)
      rw [loop_congr (body' := fun i (v : List ℝ) => do
        let x ← rd v (i : Int)
        wr v (i : Int) (exactFns.add x (exactFns.mul (nm.getD (3 * t + i) 0)
          (exactFns.div exactFns.one (exactFns.lit p.frameCount))))) _ _ (by
          intro i hi s
          simp only [hin i hi, bind_ok]), e3, bind_ok]
      rw [loop_congr (body' := fun i (v : List ℝ) => do
        let x ← rd v (i : Int)
        wr v (i : Int) (exactFns.add (exactFns.mul x (exactFns.lit 0.997))
          (exactFns.mul (nm.getD (3 * t + i) 0) (exactFns.sub exactFns.one (exactFns.lit 0.997))))) _ _ (by
          intro i hi s
          simp only [hin i hi, bind_ok]), e4, bind_ok]
      refine ⟨_, rfl, by rw [l3, g1], by rw [l4, g2], ?_, ?_⟩
      · intro i hi
        dsimp only
        rw [c3, if_pos (show i < nBPS from hi), g3 i hi, sum_range_succ]
        simp
        ring
      · intro i hi
        dsimp only
        rw [c4, if_pos (show i < nBPS from hi), g4 i hi, List.range_succ, List.foldl_append]
        simp only [ex_add, ex_mul, ex_lit, ex_sub, ex_one, List.foldl_cons, List.foldl_nil]
        norm_num)
  rw [e2, bind_ok]
  refine ⟨r.1, r.2, rfl, r1, r2, ?_, r4⟩
  intro i hi
  rw [r3 i hi, c1, if_pos (show i < nBPS from hi)]
  simp only [ex_mul, ex_lit, ex_div, ex_one, Rat.cast_natCast]
  rfl

theorem normalisedTuning_exact (p : Base ℝ T)
    (hs : p.sinvalues = (List.range nBPS).map (fun i : Nat =>
      exactFns.sin (exactFns.mul (exactFns.mul (exactFns.lit 2) exactFns.pi) (exactFns.div (exactFns.lit (i : Nat)) (exactFns.lit nBPS)))))
    (hc : p.cosvalues = (List.range nBPS).map (fun i : Nat =>
      exactFns.cos (exactFns.mul (exactFns.mul (exactFns.lit 2) exactFns.pi) (exactFns.div (exactFns.lit (i : Nat)) (exactFns.lit nBPS)))))
    {sums : List ℝ} (h : sums.length = 3) :
    normalisedTuning exactFns p sums = .ok (angle (fun i => sums.getD i 0)) := by
  unfold normalisedTuning
  have e : loop (fun i (r : ℝ × ℝ) => do
      let m ← rd sums (i : Int)
      let c ← rd p.cosvalues (i : Int)
      let s ← rd p.sinvalues (i : Int)
      pure (exactFns.add r.1 (exactFns.mul m c), exactFns.add r.2 (exactFns.mul m s))) nBPS (exactFns.lit 0, exactFns.lit 0) =
      .ok (∑ i ∈ range 3, sums.getD i 0 * Real.cos (2 * Real.pi * (i / 3)),
        ∑ i ∈ range 3, sums.getD i 0 * Real.sin (2 * Real.pi * (i / 3))) := by
    obtain ⟨r, e, h'⟩ := loop_inv (body := fun i (r : ℝ × ℝ) => do
      let m ← rd sums (i : Int)
      let c ← rd p.cosvalues (i : Int)
      let s ← rd p.sinvalues (i : Int)
      pure (exactFns.add r.1 (exactFns.mul m c), exactFns.add r.2 (exactFns.mul m s))) (k := nBPS)
      (s := (exactFns.lit 0, exactFns.lit 0)) (fun k (r : ℝ × ℝ) =>
        r = (∑ i ∈ range k, sums.getD i 0 * Real.cos (2 * Real.pi * (i / 3)),
          ∑ i ∈ range k, sums.getD i 0 * Real.sin (2 * Real.pi * (i / 3)))) (by simp) (by
        rintro i hi r rfl
        have hi' : i < 3 := hi
        rw [rd_nat' 0 (by omega), bind_ok, hc, hs, rd_nat (by rw [List.getElem?_map, List.getElem?_range hi]; rfl), bind_ok,
          rd_nat (by rw [List.getElem?_map, List.getElem?_range hi]; rfl), bind_ok]
        refine ⟨_, rfl, ?_⟩
        rw [sum_range_succ, sum_range_succ]
        simp [nBPS])
    rw [e, h']
    rfl
  rw [e, bind_ok]
  unfold angle
  simp

end JKD.Chroma
