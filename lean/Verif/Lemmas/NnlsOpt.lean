import Verif.Lemmas.NnlsReal
/-
The invariants of `nnls` in exact arithmetic.
-/

namespace JKD.Nnls

open Finset

/-- The right-hand side (`p = 0`) and the columns of the matrix (`p ≥ 1`). -/
noncomputable def vec (s : St ℝ) (p : Nat) : Nat → ℝ := if p = 0 then s.b else s.col p

/-- All scalar products among the columns and the right-hand side are those of `s0`. -/
def Gram (m n : Nat) (s s0 : St ℝ) : Prop :=
  ∀ p q, p ≤ n → q ≤ n → dot m (vec s p) (vec s q) = dot m (vec s0 p) (vec s0 q)

theorem Gram.step {m n : Nat} {s s' s0 : St ℝ} (h : Gram m n s s0) {T : (Nat → ℝ) → Nat → ℝ} (hT : Isom m T)
    (hv : ∀ p, p ≤ n → ∀ l, 1 ≤ l → l ≤ m → vec s' p l = T (vec s p) l) : Gram m n s' s0 := by
  intro p q hp hq
  rw [← h p q hp hq, ← hT (vec s p) (vec s q)]
  exact dot_congr (hv p hp) (hv q hq)

/-- The columns of the positive set are triangular with nonzero diagonal. -/
def Tri (m : Nat) (s : St ℝ) : Prop :=
  ∀ q, 1 ≤ q → q ≤ s.nsetp → (∀ l, q < l → l ≤ m → s.a l (s.index q) = 0) ∧ s.a q (s.index q) ≠ 0

/-- What holds throughout. -/
structure Base (m n : Nat) (s0 s : St ℝ) : Prop where
  gram : Gram m n s s0
  tri : Tri m s
  xz : ∀ q, s.nsetp < q → q ≤ n → s.x (s.index q) = 0
  wz : ∀ q, 1 ≤ q → q ≤ s.nsetp → s.w (s.index q) = 0

theorem shape_inj {m n : Nat} {s : St ℝ} (h : Shape m n s) {q r : Nat} (h1 : 1 ≤ q) (h2 : q ≤ n) (h3 : 1 ≤ r)
    (h4 : r ≤ n) (e : s.index q = s.index r) : q = r := by
  rcases Nat.lt_trichotomy q r with hlt | heq | hlt
  · exact absurd e (h.inj q r h1 hlt h4)
  · exact heq
  · exact absurd e.symm (h.inj r q h3 hlt h2)

/-- Every column is stored in `index`. -/
theorem shape_surj {m n : Nat} {s : St ℝ} (h : Shape m n s) {c : Nat} (h1 : 1 ≤ c) (h2 : c ≤ n) :
    ∃ q, 1 ≤ q ∧ q ≤ n ∧ s.index q = c := by
  have hsub : (Icc 1 n).image s.index ⊆ Icc 1 n := by
    intro y hy
    rw [Finset.mem_image] at hy
    obtain ⟨q, hq, rfl⟩ := hy
    rw [Finset.mem_Icc] at hq ⊢
    exact h.rng q hq.1 hq.2
  have hcard : ((Icc 1 n).image s.index).card = (Icc 1 n).card := by
    apply Finset.card_image_of_injOn
    intro q hq r hr e
    rw [Finset.mem_coe, Finset.mem_Icc] at hq hr
    exact shape_inj h hq.1 hq.2 hr.1 hr.2 e
  have heq := Finset.eq_of_subset_of_card_le hsub (by rw [hcard])
  have hc : c ∈ (Icc 1 n).image s.index := by rw [heq, Finset.mem_Icc]; exact ⟨h1, h2⟩
  rw [Finset.mem_image] at hc
  obtain ⟨q, hq, e⟩ := hc
  rw [Finset.mem_Icc] at hq
  exact ⟨q, hq.1, hq.2, e⟩

/-! ### taking a column in -/

theorem dot_split {m p : Nat} (h1 : 1 ≤ p) (h2 : p ≤ m) (f g : Nat → ℝ) :
    dot m f g = ∑ l ∈ Ico 1 p, f l * g l + ∑ l ∈ Icc p m, f l * g l := by
  unfold dot
  have := Finset.sum_Ico_consecutive (fun l => f l * g l) h1 (by omega : p ≤ m + 1)
  rw [show Icc 1 m = Ico 1 (m + 1) from by ext l; simp only [Finset.mem_Ico, Finset.mem_Icc]; omega,
    show Icc p m = Ico p (m + 1) from by ext l; simp only [Finset.mem_Ico, Finset.mem_Icc]; omega, this]

/-- A column whose dual component is positive is accepted. -/
theorem trial_exact {m : Nat} (s : St ℝ) (hp : 1 ≤ s.npp1) (hpm : s.npp1 ≤ m) (j : Nat)
    (hw : 0 < ∑ l ∈ Icc s.npp1 m, s.a l j * s.b l) :
    ∃ (T : (Nat → ℝ) → Nat → ℝ) (cl up : ℝ) (zz : Nat → ℝ) (t : St ℝ),
      t = { s with a := setCol s.a j (set (s.col j) s.npp1 cl), up := up, zz := zz } ∧
      trial exact m s j = .inl t ∧ Isom m T ∧ (∀ l, 1 ≤ l → l ≤ m → zz l = T s.b l) ∧
      (∀ c, h12Apply exact s.npp1 (s.npp1 + 1) m (t.col j) t.up c = T c) ∧
      (∀ c l, l < s.npp1 → T c l = c l) ∧
      (∀ c, (∀ l, s.npp1 ≤ l → l ≤ m → c l = 0) → T c = c) ∧ T (s.col j) s.npp1 = cl ∧
      (∀ l, s.npp1 < l → l ≤ m → T (s.col j) l = 0) ∧ cl ≠ 0 ∧ 0 < zz s.npp1 / cl := by
  -- the transformation, its effect on the column, and the new pivot
  have hcon : ∃ (T : (Nat → ℝ) → Nat → ℝ) (cl up : ℝ),
      h12Construct exact s.npp1 (s.npp1 + 1) m (s.col j) s.up = (set (s.col j) s.npp1 cl, up) ∧ Isom m T ∧
      (∀ c, h12Apply exact s.npp1 (s.npp1 + 1) m (set (s.col j) s.npp1 cl) up c = T c) ∧
      (∀ c l, l < s.npp1 → T c l = c l) ∧ (∀ c, (∀ l, s.npp1 ≤ l → l ≤ m → c l = 0) → T c = c) ∧
      (∀ c c', (∀ l, 1 ≤ l → l ≤ m → c l = c' l) → ∀ l, 1 ≤ l → l ≤ m → T c l = T c' l) ∧
      T (s.col j) s.npp1 = cl ∧ (∀ l, s.npp1 < l → l ≤ m → T (s.col j) l = 0) := by
    rcases Nat.lt_or_ge s.npp1 m with hlt | hge
    · have hN : 0 < ∑ l ∈ Icc s.npp1 m, s.col j l ^ 2 := by
        rcases (Finset.sum_nonneg (fun l (_ : l ∈ Icc s.npp1 m) => sq_nonneg (s.col j l))).lt_or_eq with h | h
        · exact h
        · exfalso
          have hz := (Finset.sum_eq_zero_iff_of_nonneg
            (fun l (_ : l ∈ Icc s.npp1 m) => sq_nonneg (s.col j l))).mp h.symm
          rw [Finset.sum_eq_zero (fun l hl => by
            have : s.a l j = 0 := by
              have := hz l hl
              simpa [St.col] using this
            rw [this, zero_mul])] at hw
          exact absurd hw (lt_irrefl _)
      obtain ⟨cl, e1, e2, e3⟩ := h12Construct_exact hp (by omega : s.npp1 + 1 ≤ m) (s.col j) s.up hN
      have happ := h12Apply_exact hp (by omega : s.npp1 + 1 ≤ m) (set (s.col j) s.npp1 cl) (s.col j s.npp1 - cl)
        (by rw [set_same]; exact e3)
      rw [set_same] at happ
      obtain ⟨i1, i2, i3⟩ := hh_spec hp hpm (s.col j) cl e2 e3
        (h12Apply exact s.npp1 (s.npp1 + 1) m (set (s.col j) s.npp1 cl) (s.col j s.npp1 - cl)) happ
      refine ⟨_, cl, s.col j s.npp1 - cl, e1, i1, fun c => rfl, ?_, ?_, ?_, i3, i2⟩
      · intro c l hl
        rw [happ]
        simp only [hvec]
        rw [if_neg (by omega), if_neg (by omega), mul_zero, add_zero]
      · intro c hc
        rw [happ]
        have : dot m c (hvec s.npp1 m (set (s.col j) s.npp1 cl) (s.col j s.npp1 - cl)) = 0 := by
          rw [dot_hvec hp hpm, hc s.npp1 (Nat.le_refl _) hpm, zero_mul, zero_add]
          apply Finset.sum_eq_zero
          intro l hl
          rw [Finset.mem_Icc] at hl
          rw [hc l (by omega) hl.2, zero_mul]
        rw [this]
        simp
      · intro c c' h l h1 h2
        rw [happ, happ]
        simp only
        rw [h l h1 h2, dot_congr h (fun _ _ _ => rfl)]
    · have hpe : s.npp1 = m := by omega
      refine ⟨id, s.col j s.npp1, s.up, ?_, fun f g => rfl, ?_, fun _ _ _ => rfl, fun _ _ => rfl,
        fun c c' h l h1 h2 => h l h1 h2, rfl, ?_⟩
      · unfold h12Construct
        rw [if_pos (by omega)]
        congr 1
        funext l
        unfold set
        split_ifs with h
        · rw [h]
        · rfl
      · intro c
        unfold h12Apply
        rw [if_pos (by omega)]
        rfl
      · intro l h1 h2
        omega
  obtain ⟨T, cl, up, hc, hT, hap, hlow, hfix, hcg, hTp, hTz⟩ := hcon
  have hzz := hap (forUp 1 m (fun l zz => set zz l (s.b l)) s.zz)
  rw [copy_eq] at hzz
  have hzb : ∀ l, 1 ≤ l → l ≤ m →
      T (fun l => if 1 ≤ l ∧ l ≤ m then s.b l else s.zz l) l = T s.b l :=
    hcg _ _ (by intro l h1 h2; rw [if_pos ⟨h1, h2⟩])
  -- the pivot and the test value
  have hprod : cl * T s.b s.npp1 = ∑ l ∈ Icc s.npp1 m, s.a l j * s.b l := by
    have h1 := hT (s.col j) s.b
    rw [dot_split hp hpm, dot_split hp hpm] at h1
    have h2 : ∑ l ∈ Ico 1 s.npp1, T (s.col j) l * T s.b l = ∑ l ∈ Ico 1 s.npp1, s.col j l * s.b l := by
      apply Finset.sum_congr rfl
      intro l hl
      rw [Finset.mem_Ico] at hl
      rw [hlow _ _ hl.2, hlow _ _ hl.2]
    have h3 : ∑ l ∈ Icc s.npp1 m, T (s.col j) l * T s.b l = cl * T s.b s.npp1 := by
      rw [Finset.sum_eq_single s.npp1]
      · rw [hTp]
      · intro l hl hne
        rw [Finset.mem_Icc] at hl
        rw [hTz l (by omega) hl.2, zero_mul]
      · intro hne
        exact absurd (Finset.mem_Icc.mpr ⟨Nat.le_refl _, hpm⟩) hne
    rw [h2, h3] at h1
    have : ∑ l ∈ Icc s.npp1 m, s.col j l * s.b l = ∑ l ∈ Icc s.npp1 m, s.a l j * s.b l := rfl
    linarith
  have hcl : cl ≠ 0 := by
    rintro rfl
    rw [zero_mul] at hprod
    rw [← hprod] at hw
    exact absurd hw (lt_irrefl _)
  have hz : 0 < T s.b s.npp1 / cl := by
    have : T s.b s.npp1 / cl = (cl * T s.b s.npp1) / cl ^ 2 := by field_simp
    rw [this, hprod]
    positivity
  refine ⟨T, cl, up, T (fun l => if 1 ≤ l ∧ l ≤ m then s.b l else s.zz l), _, rfl, ?_, hT, hzb, ?_, hlow, hfix,
    hTp, hTz, hcl, ?_⟩
  · unfold trial
    simp only
    rw [hc]
    simp only
    rw [copy_eq]
    have hcol : ({ s with a := setCol s.a j (set (s.col j) s.npp1 cl), up := up } : St ℝ).col j =
        set (s.col j) s.npp1 cl := by
      funext l
      simp [St.col, setCol]
    rw [hcol, hzz]
    have hpiv : setCol s.a j (set (s.col j) s.npp1 cl) s.npp1 j = cl := by simp [setCol]
    rw [hpiv]
    rw [if_pos (by
      simp only [exact_lt, exact_sub, exact_add, exact_mul, exact_abs, exact_zero, exact_hundredth,
        decide_eq_true_eq, add_sub_cancel_left]
      have := abs_pos.mpr hcl
      positivity)]
    rw [if_pos (by
      simp only [exact_lt, exact_div, exact_zero, decide_eq_true_eq]
      rw [hzb s.npp1 hp hpm]
      exact hz)]
  · intro c
    have : ({ s with
        a := setCol s.a j (set (s.col j) s.npp1 cl)
        up := up
        zz := T (fun l => if 1 ≤ l ∧ l ≤ m then s.b l else s.zz l) } : St ℝ).col j = set (s.col j) s.npp1 cl := by
      funext l
      simp [St.col, setCol]
    rw [this]
    exact hap c
  · rw [hzb s.npp1 hp hpm]
    exact hz


/-! ### the triangular solve -/

theorem subLoop_eq (k : Nat) (f : Nat → ℝ) (g : Nat → ℝ) :
    forUp 1 k (fun ii zz => set zz ii (exact.sub (zz ii) (exact.mul (f ii) (zz (k + 1))))) g =
      fun l => if 1 ≤ l ∧ l ≤ k then g l - f l * g (k + 1) else g l := by
  have key := forUp_induct (lo := 1) (hi := k) (s := g)
    (body := fun ii zz => set zz ii (exact.sub (zz ii) (exact.mul (f ii) (zz (k + 1)))))
    (fun i t => t = fun l => if 1 ≤ l ∧ l < i then g l - f l * g (k + 1) else g l) (by omega)
    (by funext l; rw [if_neg (by omega)])
    (by
      intro i t h1 h2 ht
      subst ht
      funext l
      by_cases hl : l = i
      · subst hl
        rw [set_same, if_pos (by omega)]
        simp only [exact_sub, exact_mul]
        rw [if_neg (by omega), if_neg (by omega)]
      · rw [set_ne _ _ hl]
        by_cases h3 : 1 ≤ l ∧ l < i
        · rw [if_pos h3, if_pos (by omega)]
        · rw [if_neg h3, if_neg (by omega)])
  rw [key]
  funext l
  by_cases h3 : 1 ≤ l ∧ l ≤ k
  · rw [if_pos (by omega), if_pos h3]
  · rw [if_neg (by omega), if_neg h3]

theorem sum_Icc_head {k n : Nat} (h : k ≤ n) (f : Nat → ℝ) :
    ∑ q ∈ Icc k n, f q = f k + ∑ q ∈ Icc (k + 1) n, f q := by
  rw [← Finset.add_sum_Ioc_eq_sum_Icc h,
    show Ioc k n = Icc (k + 1) n from by ext l; simp only [Finset.mem_Ioc, Finset.mem_Icc]; omega]

/-- The solve solves the triangular system. -/
theorem solve_exact {m : Nat} (s : St ℝ) (htri : Tri m s) (hm : s.nsetp ≤ m) :
    ∀ l, 1 ≤ l → l ≤ s.nsetp →
      ∑ q ∈ Icc 1 s.nsetp, s.a l (s.index q) * (solve exact s).zz q = s.zz l := by
  unfold solve
  simp only
  generalize hN : s.nsetp = N at *
  have key := forUp_induct (lo := 1) (hi := N) (s := (s.zz, 0))
    (body := fun l (r : (Nat → ℝ) × Nat) =>
      let ip := N + 1 - l
      let zz := if l ≠ 1 then
          forUp 1 ip (fun ii zz => set zz ii (exact.sub (zz ii) (exact.mul (s.a ii r.2) (zz (ip + 1))))) r.1
        else r.1
      let jj := s.index ip
      (set zz ip (exact.div (zz ip) (s.a ip jj)), jj))
    (fun i r => (i ≠ 1 → r.2 = s.index (N + 2 - i)) ∧
      (∀ ii, N + 1 - i < ii → ii ≤ N → ∑ q ∈ Icc ii N, s.a ii (s.index q) * r.1 q = s.zz ii) ∧
      (∀ ii, 1 ≤ ii → ii ≤ N + 1 - i →
        r.1 ii + ∑ q ∈ Icc (N + 3 - i) N, s.a ii (s.index q) * r.1 q = s.zz ii))
    (by omega)
    (by
      refine ⟨by simp, by intro ii h1 h2; omega, ?_⟩
      intro ii h1 h2
      rw [Finset.Icc_eq_empty (by omega)]
      simp)
    (by
      rintro i ⟨zz, jj⟩ h1 h2 ⟨ht0, ht1, ht2⟩
      simp only at ht0 ht1 ht2 ⊢
      obtain ⟨k, hk⟩ : ∃ k, N + 1 - i = k := ⟨_, rfl⟩
      have hk1 : 1 ≤ k := by omega
      have hkN : k ≤ N := by omega
      rw [hk] at ht1 ht2
      rw [show N + 3 - i = k + 2 by omega] at ht2
      rw [hk, show N + 1 - (i + 1) = k - 1 by omega, show N + 2 - (i + 1) = k by omega,
        show N + 3 - (i + 1) = k + 1 by omega]
      -- the vector after the subtraction
      obtain ⟨y, hy⟩ : ∃ y, (if i ≠ 1 then
          forUp 1 k (fun ii zz => set zz ii (exact.sub (zz ii) (exact.mul (s.a ii jj) (zz (k + 1))))) zz
        else zz) = y := ⟨_, rfl⟩
      rw [hy]
      have hyhigh : ∀ q, k < q → y q = zz q := by
        intro q hq
        rw [← hy]
        by_cases hi : i ≠ 1
        · rw [if_pos hi, subLoop_eq]
          simp only
          rw [if_neg (by omega)]
        · rw [if_neg hi]
      have hylow : ∀ ii, 1 ≤ ii → ii ≤ k →
          y ii + ∑ q ∈ Icc (k + 1) N, s.a ii (s.index q) * zz q = s.zz ii := by
        intro ii h3 h4
        have := ht2 ii h3 h4
        rw [← hy]
        by_cases hi : i ≠ 1
        · rw [if_pos hi, subLoop_eq]
          simp only
          rw [if_pos ⟨h3, h4⟩, sum_Icc_head (by omega : k + 1 ≤ N), ht0 hi,
            show N + 2 - i = k + 1 by omega]
          linarith
        · rw [if_neg hi, Finset.Icc_eq_empty (by omega)]
          rw [Finset.Icc_eq_empty (by omega)] at this
          exact this
      have hd := (htri k hk1 (by omega)).2
      have hsumk : ∀ (ii lo : Nat), k < lo →
          ∑ q ∈ Icc lo N, s.a ii (s.index q) * set y k (exact.div (y k) (s.a k (s.index k))) q =
            ∑ q ∈ Icc lo N, s.a ii (s.index q) * zz q := by
        intro ii lo hlo
        apply Finset.sum_congr rfl
        intro q hq
        rw [Finset.mem_Icc] at hq
        rw [set_ne _ _ (by omega), hyhigh q (by omega)]
      refine ⟨fun _ => rfl, ?_, ?_⟩
      · intro ii h3 h4
        rcases Nat.lt_or_ge k ii with h5 | h5
        · rw [hsumk ii ii h5]
          exact ht1 ii h5 h4
        · have : ii = k := by omega
          subst this
          rw [sum_Icc_head h4, set_same, hsumk _ _ (by omega), exact_div]
          have := hylow ii hk1 (Nat.le_refl _)
          rw [mul_div_cancel₀ _ hd]
          exact this
      · intro ii h3 h4
        rw [set_ne _ _ (by omega), hsumk _ _ (by omega)]
        exact hylow ii h3 (by omega))
  intro l h1 h2
  have h3 := key.2.1 l (by omega) h2
  rw [← h3]
  symm
  apply Finset.sum_subset (Finset.Icc_subset_Icc_left h1)
  intro q hq hq'
  rw [Finset.mem_Icc] at hq hq'
  rw [(htri q hq.1 (by omega)).1 l (by omega) (by omega), zero_mul]

/-! ### writing coefficients -/

/-- A loop that stores `f ip` (computed from the old value) in the coefficients of the positive set. -/
theorem writeX_spec {m n : Nat} {s : St ℝ} (hs : Shape m n s) (f : Nat → ℝ → ℝ)
    (body : Nat → St ℝ → St ℝ)
    (hbody : ∀ i x, body i { s with x := x } = { s with x := set x (s.index i) (f i (x (s.index i))) }) :
    ∃ x, forUp 1 s.nsetp body s = { s with x := x } ∧
      (∀ q, 1 ≤ q → q ≤ s.nsetp → x (s.index q) = f q (s.x (s.index q))) ∧
      (∀ q, s.nsetp < q → q ≤ n → x (s.index q) = s.x (s.index q)) := by
  have hle := hs.le_n
  have key := forUp_induct (lo := 1) (hi := s.nsetp) (s := s) (body := body)
    (fun i t => ∃ x, t = { s with x := x } ∧
      (∀ q, 1 ≤ q → q < i → x (s.index q) = f q (s.x (s.index q))) ∧
      (∀ q, i ≤ q → q ≤ n → x (s.index q) = s.x (s.index q)))
    (by omega) ⟨s.x, rfl, by intro q h1 h2; omega, by intro q h1 h2; rfl⟩
    (by
      rintro i t h1 h2 ⟨x, rfl, hx1, hx2⟩
      rw [hbody]
      refine ⟨_, rfl, ?_, ?_⟩
      · intro q h3 h4
        rcases Nat.lt_or_ge q i with h5 | h5
        · rw [set_ne _ _ (hs.inj q i h3 h5 (by omega)), hx1 q h3 h5]
        · have : q = i := by omega
          subst this
          rw [set_same, hx2 q (Nat.le_refl _) (by omega)]
      · intro q h3 h4
        rw [set_ne _ _ (fun e => hs.inj i q h1 (by omega) h4 e.symm), hx2 q (by omega) h4])
  obtain ⟨x, e, h1, h2⟩ := key
  exact ⟨x, e, fun q a b => h1 q a (by omega), fun q a b => h2 q (by omega) b⟩

/-! ### taking a column out -/

theorem vec_zero (s : St ℝ) : vec s 0 = s.b := by simp [vec]

theorem vec_pos (s : St ℝ) {p : Nat} (h : 1 ≤ p) : vec s p = s.col p := by
  unfold vec
  rw [if_neg (by omega)]

/-- The loop over `rotate`: scalar products are kept and the columns right of the removed one move up. -/
theorem rotLoop_exact {m n : Nat} {s s0 : St ℝ} (hs : Shape m n s) (hg : Gram m n s s0) (ht : Tri m s)
    {jj : Nat} (h1 : 1 ≤ jj) (h2 : jj ≤ s.nsetp) :
    Gram m n (forUp (jj + 1) s.nsetp (rotate exact n) s) s0 ∧
      (∀ q, 1 ≤ q → q < jj → (∀ l, q < l → l ≤ m →
          (forUp (jj + 1) s.nsetp (rotate exact n) s).a l (s.index q) = 0) ∧
        (forUp (jj + 1) s.nsetp (rotate exact n) s).a q (s.index q) ≠ 0) ∧
      (∀ q, jj ≤ q → q < s.nsetp → (∀ l, q < l → l ≤ m →
          (forUp (jj + 1) s.nsetp (rotate exact n) s).a l (s.index (q + 1)) = 0) ∧
        (forUp (jj + 1) s.nsetp (rotate exact n) s).a q (s.index (q + 1)) ≠ 0) := by
  have hln := hs.le_n
  have hlm := hs.le_m
  have key := forUp_induct (lo := jj + 1) (hi := s.nsetp) (s := s) (body := rotate exact n)
    (fun i t => (∀ q, i ≤ q → t.index q = s.index q) ∧ Gram m n t s0 ∧
      (∀ q, 1 ≤ q → q < jj → (∀ l, q < l → l ≤ m → t.a l (s.index q) = 0) ∧ t.a q (s.index q) ≠ 0) ∧
      (∀ q, jj ≤ q → q + 1 < i →
        (∀ l, q < l → l ≤ m → t.a l (s.index (q + 1)) = 0) ∧ t.a q (s.index (q + 1)) ≠ 0) ∧
      (∀ q, i ≤ q → q ≤ s.nsetp → (∀ l, q < l → l ≤ m → t.a l (s.index q) = 0) ∧ t.a q (s.index q) ≠ 0))
    (by omega)
    ⟨fun _ _ => rfl, hg, fun q a b => ht q a (by omega), by intro q a b; omega,
      fun q a b => ht q (by omega) b⟩
    (by
      rintro i t hi1 hi2 ⟨hidx, hgr, hA, hB, hC⟩
      rw [rotate_eq exact n i t (by omega)]
      have hii : t.index i = s.index i := hidx i (Nat.le_refl _)
      rw [hii]
      generalize hgg : g1 exact (t.a (i - 1) (s.index i)) (t.a i (s.index i)) = g
      obtain ⟨g1', g2', g3', g4'⟩ := g1_spec (t.a (i - 1) (s.index i)) (t.a i (s.index i))
      rw [hgg] at g1' g2' g3' g4'
      obtain ⟨cc, ss, sig⟩ := g
      simp only at g1' g2' g3' g4' ⊢
      obtain ⟨hCi0, hCi⟩ := hC i (Nat.le_refl _) hi2
      have hr := hs.rng i (by omega) (by omega)
      have hsig : sig ≠ 0 := by
        rintro rfl
        have h3 : 0 < t.a i (s.index i) ^ 2 := by positivity
        nlinarith [sq_nonneg (t.a (i - 1) (s.index i))]
      -- entries of the columns other than the rotated one
      have hother : ∀ c, c ≠ s.index i → 1 ≤ c → c ≤ n → ∀ r,
          (if c = s.index i then
            (if r = i then (0 : ℝ) else if r = i - 1 then (g1 exact (t.a (i - 1) c) (t.a i c)).2.2 else t.a r c)
          else if 1 ≤ c ∧ c ≤ n then rot exact cc ss (i - 1) i (t.col c) r else t.a r c) =
            rot exact cc ss (i - 1) i (t.col c) r := by
        intro c a b d r
        rw [if_neg a, if_pos ⟨b, d⟩]
      have hrot0 : ∀ (c : Nat) (r : Nat), t.a (i - 1) c = 0 → t.a i c = 0 → t.a r c = 0 →
          rot exact cc ss (i - 1) i (t.col c) r = 0 := by
        intro c r a b d
        unfold rot St.col
        simp only [exact_add, exact_mul, exact_neg, a, b, d]
        simp
      have hrotne : ∀ (c : Nat) (r : Nat), r ≠ i → r ≠ i - 1 →
          rot exact cc ss (i - 1) i (t.col c) r = t.a r c := by
        intro c r a b
        unfold rot
        rw [if_neg a, if_neg b]
        rfl
      refine ⟨?_, ?_, ?_, ?_, ?_⟩
      · intro q hq
        rw [set_ne _ _ (by omega)]
        exact hidx q (by omega)
      · refine hgr.step (T := rot exact cc ss (i - 1) i)
          (rot_isom (by omega) (by omega) (by omega) (by omega) (by omega) g1') ?_
        intro p hp l hl1 hl2
        rcases Nat.eq_zero_or_pos p with h0 | h0
        · subst h0
          rw [vec_zero, vec_zero]
        · rw [vec_pos _ h0, vec_pos _ h0]
          by_cases hpi : p = s.index i
          · subst hpi
            unfold St.col
            simp only [if_true, exact_zero]
            unfold rot
            simp only [exact_add, exact_mul, exact_neg]
            split_ifs with h3 h4
            · exact g3'.symm
            · rw [hgg]; exact g2'.symm
            · rfl
          · unfold St.col
            rw [exact_zero]
            exact hother p hpi h0 hp l
      · intro q h3 h4
        have hne : s.index q ≠ s.index i := hs.inj q i h3 (by omega) (by omega)
        have hrq := hs.rng q h3 (by omega)
        obtain ⟨z1, z2⟩ := hA q h3 h4
        constructor
        · intro l h5 h6
          rw [exact_zero, hother _ hne hrq.1 hrq.2]
          exact hrot0 _ _ (z1 _ (by omega) (by omega)) (z1 _ (by omega) (by omega)) (z1 l h5 h6)
        · rw [exact_zero, hother _ hne hrq.1 hrq.2, hrotne _ _ (by omega) (by omega)]
          exact z2
      · intro q h3 h4
        rcases Nat.lt_or_ge (q + 1) i with h5 | h5
        · have hne : s.index (q + 1) ≠ s.index i := hs.inj _ i (by omega) h5 (by omega)
          have hrq := hs.rng (q + 1) (by omega) (by omega)
          obtain ⟨z1, z2⟩ := hB q h3 h5
          constructor
          · intro l h6 h7
            rw [exact_zero, hother _ hne hrq.1 hrq.2]
            exact hrot0 _ _ (z1 _ (by omega) (by omega)) (z1 _ (by omega) (by omega)) (z1 l h6 h7)
          · rw [exact_zero, hother _ hne hrq.1 hrq.2, hrotne _ _ (by omega) (by omega)]
            exact z2
        · have hqi : q + 1 = i := by omega
          subst hqi
          simp only [if_true, exact_zero, Nat.add_sub_cancel] at hgg ⊢
          constructor
          · intro l h6 h7
            by_cases h8 : l = q + 1
            · rw [if_pos h8]
            · rw [if_neg h8, if_neg (by omega)]
              exact hCi0 l (by omega) h7
          · rw [if_neg (by omega), hgg]
            exact hsig
      · intro q h3 h4
        have hne : s.index q ≠ s.index i := fun e => hs.inj i q (by omega) (by omega) (by omega) e.symm
        have hrq := hs.rng q (by omega) (by omega)
        obtain ⟨z1, z2⟩ := hC q (by omega) h4
        constructor
        · intro l h6 h7
          rw [exact_zero, hother _ hne hrq.1 hrq.2, hrotne _ _ (by omega) (by omega)]
          exact z1 l h6 h7
        · rw [exact_zero, hother _ hne hrq.1 hrq.2, hrotne _ _ (by omega) (by omega)]
          exact z2)
  exact ⟨key.2.1, key.2.2.1, fun q a b => key.2.2.2.1 q a (by omega)⟩

end JKD.Nnls
