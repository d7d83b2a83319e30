import Verif.Lemmas.ChromaWhite
/-
One block of the chroma plug-in in exact arithmetic: from the Fourier spectrum to the log-frequency spectrum.
-/

namespace JKD.Chroma

open Finset

variable {T : Type}

/-! ### Specification -/

/-- The magnitude of Fourier bin `n`, never more than the block size. -/
noncomputable def magn (bs : Nat) (buf : List ℝ) (n : Nat) : ℝ :=
  min (bs : ℝ) (Real.sqrt (buf.getD (2 * n) 0 ^ 2 + buf.getD (2 * n + 1) 0 ^ 2))

/-- Some bin reaches the magnitude two. -/
def Loud (bs : Nat) (buf : List ℝ) : Prop := ∃ n, n < bs / 2 ∧ 2 ≤ magn bs buf n

/-- The energy of all the bins. -/
noncomputable def energy (bs : Nat) (buf : List ℝ) : ℝ := ∑ n ∈ range (bs / 2), magn bs buf n ^ 2

/-- The energy of the bins from the third up to bin `n`. -/
noncomputable def lowEnergy (bs : Nat) (buf : List ℝ) (n : Nat) : ℝ := ∑ j ∈ Ico 2 (n + 1), magn bs buf j ^ 2

open Classical in
/-- The magnitudes without the bass, if a threshold is set. -/
noncomputable def rolled (rollon : ℝ) (bs : Nat) (buf : List ℝ) (n : Nat) : ℝ :=
  if 0 < rollon ∧ n + 2 < bs / 2 ∧ lowEnergy bs buf (n + 2) < energy bs buf * rollon / 100 then 0
  else magn bs buf n

open Classical in
/-- The magnitudes that are mapped on. -/
noncomputable def audible (rollon : ℝ) (bs : Nat) (buf : List ℝ) (n : Nat) : ℝ :=
  if Loud bs buf then rolled rollon bs buf n else 0

/-! ### The magnitudes -/

theorem rpow_lit_two (x : ℝ) : exactFns.pow x (exactFns.lit 2) = x ^ 2 := by
  simp only [ex_pow, ex_lit]
  norm_num

theorem magnitudes_exact (p : Base ℝ T) {fbuf : List ℝ} (hf : 2 * (p.blockSize / 2) ≤ fbuf.length) :
    ∃ r, magnitudes exactFns p fbuf = .ok r ∧
      r.1 = (List.range (p.blockSize / 2)).map (magn p.blockSize fbuf) ∧
      (r.2.1 < 2 ↔ ¬ Loud p.blockSize fbuf) ∧
      (0 < p.params.rollon → r.2.2 = energy p.blockSize fbuf) := by
  unfold magnitudes
  obtain ⟨r, e, h1, h2, h3⟩ := loop_inv (body := fun iBin (r : List ℝ × ℝ × ℝ) => do
    let re ← rd fbuf (2 * iBin : Nat)
    let im ← rd fbuf (2 * iBin + 1 : Nat)
    let m := exactFns.sqrt (exactFns.add (exactFns.mul re re) (exactFns.mul im im))
    let m := if exactFns.lt (exactFns.mul (exactFns.lit p.blockSize) exactFns.one) m then exactFns.lit p.blockSize else m
    let maxmag := if exactFns.lt r.2.1 m then m else r.2.1
    let energysum := if exactFns.lt (exactFns.lit 0) p.params.rollon then
      exactFns.add r.2.2 (exactFns.pow m (exactFns.lit 2)) else r.2.2
    pure (r.1 ++ [m], maxmag, energysum)) (k := p.blockSize / 2) (s := ([], exactFns.lit (-10000), exactFns.lit 0))
    (fun i (r : List ℝ × ℝ × ℝ) => r.1 = (List.range i).map (magn p.blockSize fbuf) ∧
      (r.2.1 < 2 ↔ ∀ n, n < i → magn p.blockSize fbuf n < 2) ∧
      (0 < p.params.rollon → r.2.2 = ∑ n ∈ range i, magn p.blockSize fbuf n ^ 2))
    ⟨rfl, by
      simp only [ex_lit]
      norm_num, by intro _; simp⟩ (by
    rintro i hi r ⟨h1, h2, h3⟩
    rw [rd_nat' 0 (by omega), bind_ok, rd_nat' 0 (by omega), bind_ok]
    have hm : (if exactFns.lt (exactFns.mul (exactFns.lit p.blockSize) exactFns.one)
        (exactFns.sqrt (exactFns.add (exactFns.mul (fbuf.getD (2 * i) 0) (fbuf.getD (2 * i) 0))
          (exactFns.mul (fbuf.getD (2 * i + 1) 0) (fbuf.getD (2 * i + 1) 0)))) then exactFns.lit p.blockSize else
        (exactFns.sqrt (exactFns.add (exactFns.mul (fbuf.getD (2 * i) 0) (fbuf.getD (2 * i) 0))
          (exactFns.mul (fbuf.getD (2 * i + 1) 0) (fbuf.getD (2 * i + 1) 0))))) = magn p.blockSize fbuf i := by
      simp only [ex_lt, ex_mul, ex_lit, ex_one, mul_one, ex_sqrt, ex_add, decide_eq_true_eq, Rat.cast_natCast]
      unfold magn
      rw [← pow_two, ← pow_two]
      by_cases hc : (p.blockSize : ℝ) < Real.sqrt (fbuf.getD (2 * i) 0 ^ 2 + fbuf.getD (2 * i + 1) 0 ^ 2)
      · rw [if_pos hc, min_eq_left hc.le]
      · rw [if_neg hc, min_eq_right (not_lt.mp hc)]
    dsimp only
    rw [hm]
    refine ⟨_, rfl, ?_, ?_, ?_⟩
    · dsimp only
      rw [h1, List.range_succ, List.map_append]
      rfl
    · dsimp only
      have h5 : (∀ n, n < i + 1 → magn p.blockSize fbuf n < 2) ↔
          (∀ n, n < i → magn p.blockSize fbuf n < 2) ∧ magn p.blockSize fbuf i < 2 := by
        constructor
        · intro h
          exact ⟨fun n hn => h n (by omega), h i (by omega)⟩
        · rintro ⟨g1, g2⟩ n hn
          by_cases h : n = i
          · rw [h]; exact g2
          · exact g1 n (by omega)
      rw [h5, ← h2]
      by_cases hc : r.2.1 < magn p.blockSize fbuf i
      · rw [if_pos (by simpa using hc)]
        constructor
        · intro h
          exact ⟨by linarith, h⟩
        · exact fun h => h.2
      · rw [if_neg (by simpa using hc)]
        constructor
        · intro h
          exact ⟨h, by linarith⟩
        · exact fun h => h.1
    · intro hp
      dsimp only
      rw [if_pos (by simpa using hp), rpow_lit_two, h3 hp, sum_range_succ]
      rfl)
  refine ⟨r, e, h1, ?_, ?_⟩
  · rw [h2]
    unfold Loud
    push Not
    rfl
  · intro hp
    rw [h3 hp]
    rfl

/-! ### The bass threshold and silence -/

theorem getD_map_range {n i : Nat} (hi : i < n) (g : Nat → ℝ) : ((List.range n).map g).getD i 0 = g i := by
  rw [List.getD_eq_getElem?_getD, List.getElem?_map, List.getElem?_range hi]
  rfl

theorem lowEnergy_mono (bs : Nat) (buf : List ℝ) {a b : Nat} (h : a ≤ b) : lowEnergy bs buf a ≤ lowEnergy bs buf b := by
  apply sum_le_sum_of_subset_of_nonneg
  · intro x hx
    simp only [mem_Ico] at *
    omega
  · intro x _ _
    positivity

theorem lowEnergy_succ (bs : Nat) (buf : List ℝ) {i : Nat} (h : 2 ≤ i) :
    ∑ j ∈ Ico 2 i, magn bs buf j ^ 2 + magn bs buf i ^ 2 = lowEnergy bs buf i := by
  unfold lowEnergy
  rw [sum_Ico_succ_top h]

theorem rollonLoop_exact (bs : Nat) (buf : List ℝ) (limit : ℝ) (k : Nat) {i : Nat} (h2 : 2 ≤ i)
    (hk : i + k = bs / 2 ∨ k = 0 ∧ i = 2 ∧ bs / 2 < 2) {mag : List ℝ} (hl : mag.length = bs / 2)
    (hm : ∀ n, n < bs / 2 → mag.getD n 0 = if n + 2 < i then 0 else magn bs buf n)
    (hlow : ∀ j, 2 ≤ j → j < i → lowEnergy bs buf j < limit) :
    ∃ r, rollonLoop exactFns limit k i (∑ j ∈ Ico 2 i, magn bs buf j ^ 2) mag = .ok r ∧ r.length = bs / 2 ∧
      ∀ n, n < bs / 2 → r.getD n 0 =
        if n + 2 < bs / 2 ∧ lowEnergy bs buf (n + 2) < limit then 0 else magn bs buf n := by
  induction k generalizing i mag with
  | zero =>
    refine ⟨mag, rfl, hl, ?_⟩
    intro n hn
    rw [hm n hn]
    by_cases h : n + 2 < bs / 2
    · rw [if_pos (by omega), if_pos ⟨h, hlow _ (by omega) (by omega)⟩]
    · rw [if_neg (by omega), if_neg (fun h' => h h'.1)]
  | succ k ih =>
    unfold rollonLoop
    rw [rd_nat' 0 (by omega), bind_ok, hm i (by omega), if_neg (show ¬ i + 2 < i by omega)]
    rw [rpow_lit_two, ex_add, lowEnergy_succ bs buf h2]
    by_cases hc : lowEnergy bs buf i < limit
    · rw [if_pos (by simpa using hc), wr_ok _ (by omega) (by omega), bind_ok]
      have h3 : lowEnergy bs buf i = ∑ j ∈ Ico 2 (i + 1), magn bs buf j ^ 2 := rfl
      rw [h3]
      apply ih (by omega) (by omega) (by simpa using hl)
      · intro n hn
        rw [getD_set (by omega)]
        by_cases h : n + 2 = i
        · rw [if_pos (by omega), if_pos (by omega)]
          simp
        · rw [if_neg (by omega), hm n hn]
          by_cases h' : n + 2 < i
          · rw [if_pos h', if_pos (by omega)]
          · rw [if_neg h', if_neg (by omega)]
      · intro j hj hji
        by_cases h : j = i
        · rw [h]; exact hc
        · exact hlow j hj (by omega)
    · rw [if_neg (by simpa using hc)]
      refine ⟨mag, rfl, hl, ?_⟩
      intro n hn
      rw [hm n hn]
      by_cases h : n + 2 < i
      · rw [if_pos h, if_pos ⟨by omega, hlow _ (by omega) h⟩]
      · rw [if_neg h, if_neg]
        rintro ⟨-, h'⟩
        have := lowEnergy_mono bs buf (show i ≤ n + 2 by omega)
        linarith

theorem applyRollon_exact (p : Base ℝ T) {fbuf : List ℝ} {e : ℝ} {mag : List ℝ}
    (hm : mag = (List.range (p.blockSize / 2)).map (magn p.blockSize fbuf))
    (he : 0 < p.params.rollon → e = energy p.blockSize fbuf) :
    ∃ r, applyRollon exactFns p e mag = .ok r ∧ r.length = p.blockSize / 2 ∧
      ∀ n, n < p.blockSize / 2 → r.getD n 0 = rolled p.params.rollon p.blockSize fbuf n := by
  unfold applyRollon
  by_cases hp : 0 < p.params.rollon
  · rw [if_pos (by simpa using hp)]
    have h0 : exactFns.lit 0 = ∑ j ∈ Ico 2 2, magn p.blockSize fbuf j ^ 2 := by simp
    rw [h0]
    obtain ⟨r, e1, h1, h2⟩ := rollonLoop_exact p.blockSize fbuf
      (exactFns.div (exactFns.mul e p.params.rollon) (exactFns.lit 100)) (p.blockSize / 2 - 2) (i := 2) (le_refl 2)
      (by omega) (mag := mag) (by rw [hm]; simp) (by
        intro n hn
        rw [hm, getD_map_range hn, if_neg (by omega)]) (by intro j h1 h2; omega)
    refine ⟨r, e1, h1, ?_⟩
    intro n hn
    rw [h2 n hn]
    unfold rolled
    have h3 : exactFns.div (exactFns.mul e p.params.rollon) (exactFns.lit 100) =
        energy p.blockSize fbuf * p.params.rollon / 100 := by
      rw [he hp]
      simp
    rw [h3]
    by_cases hc : n + 2 < p.blockSize / 2 ∧ lowEnergy p.blockSize fbuf (n + 2) <
        energy p.blockSize fbuf * p.params.rollon / 100
    · rw [if_pos hc, if_pos ⟨hp, hc⟩]
    · rw [if_neg hc, if_neg (fun h => hc h.2)]
  · rw [if_neg (by simpa using hp)]
    refine ⟨_, rfl, by rw [hm]; simp, ?_⟩
    intro n hn
    rw [hm, getD_map_range hn]
    unfold rolled
    rw [if_neg (fun h => hp h.1)]

theorem silence_exact (p : Base ℝ T) {fbuf : List ℝ} {m : ℝ} (hm : m < 2 ↔ ¬ Loud p.blockSize fbuf) {mag : List ℝ}
    (hl : mag.length = p.blockSize / 2)
    (h : ∀ n, n < p.blockSize / 2 → mag.getD n 0 = rolled p.params.rollon p.blockSize fbuf n) :
    ∃ r, silence exactFns p m mag = .ok r ∧ r.length = p.blockSize / 2 ∧
      ∀ n, n < p.blockSize / 2 → r.getD n 0 = audible p.params.rollon p.blockSize fbuf n := by
  unfold silence
  by_cases hc : m < 2
  · rw [if_pos (by simpa using hc)]
    obtain ⟨r, e, h1, h2⟩ := loop_inv (body := fun i magnitude => wr magnitude (i : Int) (exactFns.lit 0))
      (k := p.blockSize / 2) (s := mag)
      (fun i (r : List ℝ) => r.length = p.blockSize / 2 ∧ ∀ n, n < i → r.getD n 0 = 0) ⟨hl, by intro n hn; omega⟩ (by
        rintro i hi r ⟨h1, h2⟩
        refine ⟨_, wr_nat _ (by omega), by simpa using h1, ?_⟩
        intro n hn
        rw [getD_set (by omega)]
        by_cases hni : n = i
        · rw [if_pos hni]; simp
        · rw [if_neg hni, h2 n (by omega)])
    refine ⟨r, e, h1, ?_⟩
    intro n hn
    rw [h2 n hn]
    unfold audible
    rw [if_neg (hm.mp hc)]
  · rw [if_neg (by simpa using hc)]
    refine ⟨mag, rfl, hl, ?_⟩
    intro n hn
    rw [h n hn]
    unfold audible
    rw [if_pos]
    by_contra h'
    exact hc (hm.mpr h')

end JKD.Chroma
