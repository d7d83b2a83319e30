import Verif.Lemmas.NnlsOpt
/-
The steps of `nnls` in exact arithmetic keep its invariants.
-/

namespace JKD.Nnls

open Finset

/-- The columns of the positive set with the coefficients `y` reproduce the right-hand side in the first rows. -/
def Solves (s : St ℝ) (y : Nat → ℝ) : Prop :=
  ∀ l, 1 ≤ l → l ≤ s.nsetp → ∑ q ∈ Icc 1 s.nsetp, s.a l (s.index q) * y q = s.b l

/-- At the head of the main loop. -/
structure InvI (m n : Nat) (s0 s : St ℝ) : Prop where
  base : Base m n s0 s
  pos : ∀ q, 1 ≤ q → q ≤ s.nsetp → 0 < s.x (s.index q)
  sol : Solves s (fun q => s.x (s.index q))

/-- At the head of the secondary loop. -/
structure InvJ (m n : Nat) (s0 s : St ℝ) : Prop where
  base : Base m n s0 s
  nonneg : ∀ q, 1 ≤ q → q ≤ s.nsetp → 0 ≤ s.x (s.index q)
  pos : ∀ q, 1 ≤ q → q ≤ s.nsetp → 0 < s.x (s.index q) ∨ 0 < s.zz q
  sol : Solves s s.zz

/-- While columns are taken out. -/
structure InvK (m n : Nat) (s0 s : St ℝ) : Prop where
  base : Base m n s0 s
  nonneg : ∀ q, 1 ≤ q → q ≤ s.nsetp → 0 ≤ s.x (s.index q)

/-- After a successful end. -/
structure InvE (m n : Nat) (s0 s : St ℝ) : Prop where
  inv : InvI m n s0 s
  dual : s.nsetp < m → ∀ q, s.nsetp < q → q ≤ n →
    s.w (s.index q) = ∑ l ∈ Icc (s.nsetp + 1) m, s.a l (s.index q) * s.b l ∧ s.w (s.index q) ≤ 0

theorem Gram.of_eq {m n : Nat} {s t s0 : St ℝ} (h : Gram m n s s0) (ha : t.a = s.a) (hb : t.b = s.b) :
    Gram m n t s0 := by
  intro p q hp hq
  rw [← h p q hp hq]
  unfold vec St.col
  rw [ha, hb]

/-! ### the dual vector and the choice of the column -/

theorem dual_fields {m n : Nat} {s : St ℝ} (hs : Shape m n s) (hn : s.nsetp < n) :
    ∃ w, dual exact m n s = { s with w := w } ∧
      (∀ q, s.nsetp < q → q ≤ n → w (s.index q) = ∑ l ∈ Icc (s.nsetp + 1) m, s.a l (s.index q) * s.b l) ∧
      (∀ q, 1 ≤ q → q ≤ s.nsetp → w (s.index q) = s.w (s.index q)) := by
  have h1 := hs.iz1
  rw [dual_eq exact m n s (by omega) (by omega)]
  refine ⟨_, rfl, ?_, ?_⟩
  · intro q h2 h3
    rw [if_pos ⟨q, by omega, h3, rfl⟩, exact_sum, exact_zero, zero_add, hs.npp1]
    rfl
  · intro q h2 h3
    rw [if_neg]
    rintro ⟨r, h4, h5, h6⟩
    exact hs.inj q r h2 (by omega) h5 h6.symm

/-- What the choice of the column leads to. -/
theorem select_exact {m n : Nat} {s : St ℝ} (hs : Shape m n s) (hm : s.nsetp < m) (hn : s.nsetp < n)
    (w : Nat → ℝ)
    (hw : ∀ q, s.nsetp < q → q ≤ n → w (s.index q) = ∑ l ∈ Icc (s.nsetp + 1) m, s.a l (s.index q) * s.b l)
    (fuel : Nat) :
    (select exact m n (fuel + 1) { s with w := w } = .ok (.inl { s with w := w }) ∧
      ∀ q, s.nsetp < q → q ≤ n → w (s.index q) ≤ 0) ∨
    ∃ (T : (Nat → ℝ) → Nat → ℝ) (cl up : ℝ) (zz : Nat → ℝ) (t : St ℝ) (iz : Nat),
      s.nsetp < iz ∧ iz ≤ n ∧
      t = { s with
        w := w
        a := setCol s.a (s.index iz) (set (s.col (s.index iz)) s.npp1 cl)
        up := up
        zz := zz } ∧
      select exact m n (fuel + 1) { s with w := w } = .ok (.inr (t, iz, t.index iz)) ∧
      Isom m T ∧ (∀ l, 1 ≤ l → l ≤ m → zz l = T s.b l) ∧
      (∀ c, h12Apply exact s.npp1 (s.npp1 + 1) m (t.col (s.index iz)) t.up c = T c) ∧
      (∀ c l, l < s.npp1 → T c l = c l) ∧
      (∀ c, (∀ l, s.npp1 ≤ l → l ≤ m → c l = 0) → T c = c) ∧ T (s.col (s.index iz)) s.npp1 = cl ∧
      (∀ l, s.npp1 < l → l ≤ m → T (s.col (s.index iz)) l = 0) ∧ cl ≠ 0 ∧ 0 < zz s.npp1 / cl := by
  have hiz := hs.iz1
  have hnp := hs.npp1
  obtain ⟨f1, f2⟩ := findMax_spec exact_ordered n { s with w := w } (by simp only; omega)
  unfold select
  simp only
  generalize hr : findMax exact n { s with w := w } = r at f1 f2
  obtain ⟨r1, r2⟩ := r
  simp only [exact_lt, exact_zero] at f1 f2
  dsimp only
  by_cases hle : r1 ≤ 0
  · left
    rw [if_pos (show exact.le r1 exact.zero = true by simpa using hle)]
    refine ⟨rfl, ?_⟩
    intro q h1 h2
    have := f1 q (by omega) h2
    simp only [decide_eq_false_iff_not, not_lt] at this
    exact this.trans hle
  · right
    rw [if_neg (show ¬ exact.le r1 exact.zero = true by simpa using hle)]
    cases r2 with
    | none =>
      simp only at f2
      exact absurd (le_of_eq f2) hle
    | some iz =>
      simp only [decide_eq_true_eq] at f2
      obtain ⟨g1, g2, g3, g4⟩ := f2
      have hrg := hs.rng iz (by omega) g2
      simp only
      rw [if_pos ⟨by omega, g2, hrg.1, hrg.2, by omega, by omega, by omega⟩]
      obtain ⟨T, cl, up, zz, t, e1, e2, e3, e4, e5, e6, e7, e8, e9, e10, e11⟩ :=
        trial_exact (m := m) { s with w := w } (by simp only; omega) (by simp only; omega) (s.index iz) (by
          simp only
          rw [hnp, ← hw iz (by omega) g2]
          exact g4)
      refine ⟨T, cl, up, zz, t, iz, by omega, g2, e1, ?_, e3, e4, e5, e6, e7, e8, e9, e10, e11⟩
      rw [e2]

open scoped Classical in
/-- Taking the chosen column in. -/
theorem taken_exact {m n : Nat} {s s0 : St ℝ} (hs : Shape m n s) (hI : InvI m n s0 s) (hm : s.nsetp < m)
    (hn : s.nsetp < n) {t : St ℝ} {iz : Nat}
    (hsel : select exact m n (n + 1) (dual exact m n s) = .ok (.inr (t, iz, t.index iz))) :
    InvJ m n s0 (solve exact (accept exact m n t iz (t.index iz))) := by
  have hiz := hs.iz1
  have hnp := hs.npp1
  obtain ⟨w, e1, hw1, hw2⟩ := dual_fields hs hn
  rw [e1] at hsel
  rcases select_exact hs hm hn w hw1 n with ⟨h, _⟩ | ⟨T, cl, up, zz, t', iz', h1, h2, h3, h4, h5, h6, h7, h8, h9,
    h10, h11, h12, h13⟩
  · rw [h] at hsel
    simp at hsel
  rw [h4] at hsel
  simp only [Out.ok.injEq, Sum.inr.injEq, Prod.mk.injEq] at hsel
  obtain ⟨rfl, rfl, -⟩ := hsel
  have hst : Shape m n t' := hs.congr (by rw [h3]) (by rw [h3]) (by rw [h3]) (by rw [h3])
  have hti : t'.index = s.index := by rw [h3]
  have htz : t'.iz1 = s.iz1 := by rw [h3]
  have htn : t'.npp1 = s.npp1 := by rw [h3]
  have hta : t'.a = setCol s.a (s.index iz') (set (s.col (s.index iz')) s.npp1 cl) := by rw [h3]
  have htx : t'.x = s.x := by rw [h3]
  have htw : t'.w = w := by rw [h3]
  have htzz : t'.zz = zz := by rw [h3]
  have htp : t'.nsetp = s.nsetp := by rw [h3]
  rw [hti]
  generalize hj : s.index iz' = j at *
  generalize hidx : set (set t'.index iz' (t'.index t'.iz1)) t'.iz1 j = idx
  have hidx' : idx = set (set t'.index iz' (t'.index t'.iz1)) t'.iz1 (t'.index iz') := by
    rw [← hidx, hti, hj]
  obtain ⟨a1, a2, a3, a4⟩ := accept_cond hst (by omega) h2 idx hidx'
  rw [hti, hj] at a3 a4
  rw [accept_eq exact m n t' iz' j idx hidx.symm (by omega) (by omega) a4
    (fun q r b c d => a2 q r (by omega) c d)]
  have hshape := solve_shape exact (accept_shape exact hst (by omega) (by omega : t'.iz1 ≤ iz') h2)
  rw [hti, hj, accept_eq exact m n t' iz' j idx hidx.symm (by omega) (by omega) a4
    (fun q r b c d => a2 q r (by omega) c d)] at hshape
  -- positions
  have hlow : ∀ q, q < s.npp1 → idx q = s.index q := by
    intro q h
    rw [← hidx, set_ne _ _ (by omega), set_ne _ _ (by omega), hti]
  have hp : idx s.npp1 = j := by rw [← a3]; congr 1; omega
  have hhigh : ∀ q, s.npp1 < q → q ≤ n → ∃ r, s.nsetp < r ∧ r ≤ n ∧ idx q = s.index r := by
    intro q h h'
    by_cases hq : q = iz'
    · subst hq
      refine ⟨s.iz1, by omega, by omega, ?_⟩
      rw [← hidx, set_ne _ _ (by omega), set_same, hti, htz]
    · refine ⟨q, by omega, h', ?_⟩
      rw [← hidx, set_ne _ _ (by omega), set_ne _ _ hq, hti]
  have hlowne : ∀ q, 1 ≤ q → q < s.npp1 → s.index q ≠ j := by
    intro q h h'
    rw [← hj]
    exact hs.inj q iz' h (by omega) h2
  have hlowAt : ∀ q, 1 ≤ q → q < s.npp1 → ¬ At idx (t'.iz1 + 1) n (s.index q) := by
    rintro q h h' ⟨r, b, c, d⟩
    rw [← hlow q h'] at d
    exact a2 q r h (by omega) c d.symm
  -- the entries of the new matrix
  generalize hA : (fun r c =>
    if c = j then (if t'.npp1 + 1 ≤ r ∧ r ≤ m then exact.zero else t'.a r j)
    else if At idx (t'.iz1 + 1) n c then h12Apply exact t'.npp1 (t'.npp1 + 1) m (t'.col j) t'.up (t'.col c) r
    else t'.a r c) = A
  have hA1 : ∀ r, A r j = if s.npp1 + 1 ≤ r ∧ r ≤ m then 0 else if r = s.npp1 then cl else s.a r j := by
    intro r
    rw [← hA]
    simp only [if_true, exact_zero]
    rw [htn, hta]
    unfold setCol set St.col
    simp
  have hcolne : ∀ c, c ≠ j → t'.col c = s.col c := by
    intro c hc
    unfold St.col
    rw [hta]
    unfold setCol
    simp [hc]
  have hA2 : ∀ c r, c ≠ j → At idx (t'.iz1 + 1) n c → A r c = T (s.col c) r := by
    intro c r hc hc'
    rw [← hA]
    simp only
    rw [if_neg hc, if_pos hc', hcolne c hc, htn, h7]
  have hA3 : ∀ c r, c ≠ j → ¬ At idx (t'.iz1 + 1) n c → A r c = s.a r c := by
    intro c r hc hc'
    rw [← hA]
    simp only
    rw [if_neg hc, if_neg hc']
    have := congrFun (hcolne c hc) r
    exact this
  have htri : Tri m { t' with
      b := fun l => if 1 ≤ l ∧ l ≤ m then t'.zz l else t'.b l
      index := idx
      iz1 := t'.iz1 + 1
      nsetp := t'.npp1
      npp1 := t'.npp1 + 1
      a := A
      w := set t'.w j exact.zero } := by
    intro q g1 g2
    simp only at g2 ⊢
    rcases Nat.lt_or_ge q s.npp1 with g3 | g3
    · rw [hlow q g3]
      obtain ⟨z1, z2⟩ := hI.base.tri q g1 (by omega)
      have hne := hlowne q g1 g3
      have hat := hlowAt q g1 g3
      exact ⟨fun l a b => by rw [hA3 _ _ hne hat]; exact z1 l a b, by rw [hA3 _ _ hne hat]; exact z2⟩
    · have : q = s.npp1 := by omega
      subst this
      rw [hp]
      refine ⟨fun l a b => by rw [hA1, if_pos ⟨a, b⟩], ?_⟩
      rw [hA1, if_neg (by omega), if_pos rfl]
      exact h12
  have hsol := solve_exact _ htri (by simp only; omega)
  have hsolve : Solves (solve exact { t' with
      b := fun l => if 1 ≤ l ∧ l ≤ m then t'.zz l else t'.b l
      index := idx
      iz1 := t'.iz1 + 1
      nsetp := t'.npp1
      npp1 := t'.npp1 + 1
      a := A
      w := set t'.w j exact.zero }) (solve exact { t' with
      b := fun l => if 1 ≤ l ∧ l ≤ m then t'.zz l else t'.b l
      index := idx
      iz1 := t'.iz1 + 1
      nsetp := t'.npp1
      npp1 := t'.npp1 + 1
      a := A
      w := set t'.w j exact.zero }).zz := by
    intro l g1 g2
    refine (hsol l g1 g2).trans ?_
    change t'.zz l = if 1 ≤ l ∧ l ≤ m then t'.zz l else t'.b l
    have g2' : l ≤ t'.npp1 := g2
    rw [if_pos ⟨g1, by omega⟩]
  constructor
  · constructor
    · refine hI.base.gram.step h5 ?_
      intro p g1 l g2 g3
      rcases Nat.eq_zero_or_pos p with g4 | g4
      · subst g4
        rw [vec_zero, vec_zero]
        change (if 1 ≤ l ∧ l ≤ m then t'.zz l else t'.b l) = T s.b l
        rw [if_pos ⟨g2, g3⟩, htzz]
        exact h6 l g2 g3
      · rw [vec_pos _ g4, vec_pos _ g4]
        change A l p = T (s.col p) l
        by_cases g5 : p = j
        · subst g5
          rw [hA1]
          rcases Nat.lt_trichotomy l s.npp1 with g6 | g6 | g6
          · rw [if_neg (by omega), if_neg (by omega), h8 _ _ g6]
            rfl
          · rw [if_neg (by omega), if_pos g6, g6]
            exact h10.symm
          · rw [if_pos (by omega)]
            exact (h11 l g6 g3).symm
        · by_cases g6 : At idx (t'.iz1 + 1) n p
          · exact hA2 p l g5 g6
          · rw [hA3 p l g5 g6]
            obtain ⟨q, b1, b2, b3⟩ := shape_surj hs g4 g1
            have hq : q < s.npp1 := by
              by_contra hcon
              apply g6
              by_cases hq : q = s.iz1
              · refine ⟨iz', ?_, h2, ?_⟩
                · rcases Nat.lt_or_ge t'.iz1 iz' with g7 | g7
                  · omega
                  · exact absurd (by rw [← b3, ← hj, hq]; congr 1; omega) g5
                · have hne : iz' ≠ t'.iz1 := by
                    intro e
                    exact g5 (by rw [← b3, ← hj, hq]; congr 1; omega)
                  rw [← hidx, set_ne _ _ hne, set_same, hti, htz, ← hq, b3]
              · refine ⟨q, by omega, b2, ?_⟩
                have hne : q ≠ iz' := by
                  intro e
                  exact g5 (by rw [← b3, ← hj, e])
                rw [← hidx, set_ne _ _ (by omega), set_ne _ _ hne, hti, b3]
            have := h9 (s.col p) (by
              intro l' c1 c2
              have := (hI.base.tri q b1 (by omega)).1 l' (by omega) c2
              rw [b3] at this
              exact this)
            rw [this]
            rfl
    · exact htri
    · intro q g1 g2
      change t'.x (idx q) = 0
      have g1' : t'.npp1 < q := g1
      obtain ⟨r, b1, b2, b3⟩ := hhigh q (by omega) g2
      rw [b3, htx]
      exact hI.base.xz r b1 b2
    · intro q g1 g2
      change set t'.w j exact.zero (idx q) = 0
      have g2' : q ≤ t'.npp1 := g2
      rcases Nat.lt_or_ge q s.npp1 with g3 | g3
      · rw [hlow q g3, set_ne _ _ (hlowne q g1 g3), htw, hw2 q g1 (by omega)]
        exact hI.base.wz q g1 (by omega)
      · have : q = s.npp1 := by omega
        rw [this, hp, set_same]
        rfl
  · intro q g1 g2
    change 0 ≤ t'.x (idx q)
    have g2' : q ≤ t'.npp1 := g2
    rw [htx]
    rcases Nat.lt_or_ge q s.npp1 with g3 | g3
    · rw [hlow q g3]
      exact (hI.pos q g1 (by omega)).le
    · have : q = s.npp1 := by omega
      rw [this, hp, ← hj, hI.base.xz iz' h1 h2]
  · intro q g1 g2
    have g2' : q ≤ t'.npp1 := g2
    rcases Nat.lt_or_ge q s.npp1 with g3 | g3
    · left
      change 0 < t'.x (idx q)
      rw [htx, hlow q g3]
      exact hI.pos q g1 (by omega)
    · right
      have hq : q = s.npp1 := by omega
      subst hq
      have := hsol s.npp1 g1 (by simp only; omega)
      simp only at this
      rw [htn] at this
      rw [Finset.sum_eq_single s.npp1] at this
      · rw [hp, hA1, if_neg (by omega), if_pos rfl] at this
        rw [← htzz] at h13
        rw [← htn] at h13 this ⊢
        rw [← this, mul_div_cancel_left₀ _ h12] at h13
        exact h13
      · intro r c1 c2
        rw [Finset.mem_Icc] at c1
        have := (htri r c1.1 (by simp only; omega)).1 s.npp1 (by omega) (by omega)
        simp only at this
        rw [this, zero_mul]
      · intro hc
        rw [Finset.mem_Icc] at hc
        omega
  · exact hsolve

/-! ### the secondary loop -/

theorem feasible_exact {m n : Nat} {s s0 : St ℝ} (hs : Shape m n s) (hJ : InvJ m n s0 s)
    (h : exact.eq (stepLength exact s).1 exact.two = true) :
    InvI m n s0 (forUp 1 s.nsetp (fun ip s => { s with x := set s.x (s.index ip) (s.zz ip) }) s) := by
  obtain ⟨x, e, h1, h2⟩ := writeX_spec hs (fun ip _ => s.zz ip)
    (fun ip s => { s with x := set s.x (s.index ip) (s.zz ip) }) (fun _ _ => rfl)
  rw [e]
  have hz : ∀ q, 1 ≤ q → q ≤ s.nsetp → 0 < s.zz q := by
    intro q g1 g2
    by_contra hcon
    rw [not_lt] at hcon
    have hx := (hJ.pos q g1 g2).resolve_right (by linarith)
    have := (stepLength_spec exact_ordered s).1 q g1 g2 (by simpa using hcon)
    simp only [exact_eq, exact_two, decide_eq_true_eq] at h
    rw [h] at this
    simp only [exact_lt, exact_div, exact_neg, exact_sub, decide_eq_false_iff_not, not_lt] at this
    rw [le_div_iff_of_neg (by linarith)] at this
    linarith
  constructor
  · refine ⟨hJ.base.gram.of_eq rfl rfl, hJ.base.tri, ?_, hJ.base.wz⟩
    intro q g1 g2
    exact (h2 q g1 g2).trans (hJ.base.xz q g1 g2)
  · intro q g1 g2
    change 0 < x (s.index q)
    rw [h1 q g1 g2]
    exact hz q g1 g2
  · intro l g1 g2
    refine Eq.trans ?_ (hJ.sol l g1 g2)
    apply Finset.sum_congr rfl
    intro q hq
    rw [Finset.mem_Icc] at hq
    change s.a l (s.index q) * x (s.index q) = _
    rw [h1 q hq.1 hq.2]

theorem infeasible_exact {m n : Nat} {s s0 : St ℝ} (hs : Shape m n s) (hJ : InvJ m n s0 s) {jj : Nat}
    (h : (stepLength exact s).2 = some jj) : InvK m n s0 (interpolate exact s (stepLength exact s).1) := by
  obtain ⟨k1, k2⟩ := stepLength_spec exact_ordered s
  rw [h] at k2
  simp only [exact_lt, exact_le, exact_zero, exact_div, exact_neg, exact_sub, decide_eq_true_eq,
    decide_eq_false_iff_not, not_lt] at k1 k2
  obtain ⟨b1, b2, b3, b4, -⟩ := k2
  generalize (stepLength exact s).1 = alpha at k1 b4
  have hxj := (hJ.pos jj b1 b2).resolve_right (by linarith)
  have ha0 : 0 ≤ alpha := by
    rw [b4]
    exact div_nonneg_of_nonpos (by linarith) (by linarith)
  have ha1 : alpha ≤ 1 := by
    rw [b4, div_le_iff_of_neg (by linarith)]
    linarith
  obtain ⟨x, e, h1, h2⟩ := writeX_spec hs (fun ip v => v + alpha * (s.zz ip - v))
    (fun ip s =>
      let l := s.index ip
      { s with x := set s.x l (exact.add (s.x l) (exact.mul alpha (exact.sub (s.zz ip) (s.x l)))) })
    (fun _ _ => rfl)
  unfold interpolate
  rw [e]
  constructor
  · refine ⟨hJ.base.gram.of_eq rfl rfl, hJ.base.tri, ?_, hJ.base.wz⟩
    intro q g1 g2
    exact (h2 q g1 g2).trans (hJ.base.xz q g1 g2)
  · intro q g1 g2
    change 0 ≤ x (s.index q)
    rw [h1 q g1 g2]
    have hx := hJ.nonneg q g1 g2
    rcases lt_or_ge 0 (s.zz q) with hz | hz
    · nlinarith [mul_nonneg ha0 hz.le, mul_nonneg (sub_nonneg.mpr ha1) hx]
    · have hx := (hJ.pos q g1 g2).resolve_right (by linarith)
      have := k1 q g1 g2 hz
      rw [le_div_iff_of_neg (by linarith)] at this
      linarith

theorem remove_ab (n : Nat) (s : St ℝ) (jj : Nat) :
    (remove exact n s jj).a = (forUp (jj + 1) s.nsetp (rotate exact n)
        { s with x := set s.x (s.index jj) exact.zero }).a ∧
      (remove exact n s jj).b = (forUp (jj + 1) s.nsetp (rotate exact n)
        { s with x := set s.x (s.index jj) exact.zero }).b := by
  unfold remove
  simp only
  by_cases hj : jj ≠ s.nsetp
  · rw [if_pos hj]
    exact ⟨rfl, rfl⟩
  · rw [if_neg hj, forUp_empty (by omega)]
    exact ⟨rfl, rfl⟩

theorem remove_exact {m n : Nat} {s s0 : St ℝ} (hs : Shape m n s) (hK : InvK m n s0 s) {jj : Nat} (h1 : 1 ≤ jj)
    (h2 : jj ≤ s.nsetp) : InvK m n s0 (remove exact n s jj) := by
  have hn := hs.le_n
  obtain ⟨a, b, e⟩ := remove_fields exact hs h1 h2
  obtain ⟨ea, eb⟩ := remove_ab n s jj
  obtain ⟨r1, r2, r3⟩ := rotLoop_exact (s := { s with x := set s.x (s.index jj) exact.zero }) (s0 := s0)
    (hs.congr rfl rfl rfl rfl) (hK.base.gram.of_eq rfl rfl) hK.base.tri h1 h2
  have hidx : ∀ q, 1 ≤ q → q ≤ s.nsetp - 1 → ∃ r, 1 ≤ r ∧ r ≤ s.nsetp ∧ r ≠ jj ∧
      (if jj ≤ q ∧ q < s.nsetp then s.index (q + 1) else if q = s.nsetp then s.index jj else s.index q) =
        s.index r := by
    intro q g1 g2
    by_cases g3 : jj ≤ q
    · exact ⟨q + 1, by omega, by omega, by omega, by rw [if_pos (by omega)]⟩
    · exact ⟨q, g1, by omega, by omega, by rw [if_neg (by omega), if_neg (by omega)]⟩
  have hne : ∀ r, 1 ≤ r → r ≤ n → r ≠ jj → s.index r ≠ s.index jj := by
    intro r g1 g2 g3 g4
    exact g3 (shape_inj hs g1 g2 h1 (by omega) g4)
  constructor
  · constructor
    · exact r1.of_eq ea eb
    · intro q g1 g2
      have hi : (remove exact n s jj).index q = (if jj ≤ q ∧ q < s.nsetp then s.index (q + 1)
        else if q = s.nsetp then s.index jj else s.index q) := by rw [e]
      have hp : (remove exact n s jj).nsetp = s.nsetp - 1 := by rw [e]
      rw [hp] at g2
      rw [hi, ea]
      by_cases g3 : jj ≤ q
      · rw [if_pos (by omega)]
        exact r3 q g3 (by simp only; omega)
      · rw [if_neg (by omega), if_neg (by omega)]
        exact r2 q g1 (by omega)
    · rw [e]
      intro q g1 g2
      simp only at g1 ⊢
      rcases Nat.lt_or_ge s.nsetp q with g3 | g3
      · rw [if_neg (by omega), if_neg (by omega), set_ne _ _ (hne q (by omega) g2 (by omega))]
        exact hK.base.xz q g3 g2
      · rw [if_neg (by omega), if_pos (by omega), set_same]
        rfl
    · rw [e]
      intro q g1 g2
      simp only at g2 ⊢
      obtain ⟨r, b1, b2, b3, b4⟩ := hidx q g1 g2
      rw [b4]
      exact hK.base.wz r b1 b2
  · rw [e]
    intro q g1 g2
    simp only at g2 ⊢
    obtain ⟨r, b1, b2, b3, b4⟩ := hidx q g1 g2
    rw [b4, set_ne _ _ (hne r b1 (by omega) b3)]
    exact hK.nonneg r b1 b2

theorem back_exact {m n : Nat} {s s0 : St ℝ} (hs : Shape m n s) (hK : InvK m n s0 s)
    (h : firstBad exact s = none) :
    InvJ m n s0 (solve exact { s with zz := forUp 1 m (fun i zz => set zz i (s.b i)) s.zz }) := by
  have hm := hs.le_m
  have hpos := firstBad_none h
  simp only [exact_le, exact_zero, decide_eq_false_iff_not, not_le] at hpos
  have hsol := solve_exact (m := m) { s with zz := forUp 1 m (fun i zz => set zz i (s.b i)) s.zz }
    hK.base.tri hm
  refine ⟨⟨hK.base.gram.of_eq rfl rfl, hK.base.tri, hK.base.xz, hK.base.wz⟩, hK.nonneg,
    fun q a b => Or.inl (hpos q a b), ?_⟩
  intro l g1 g2
  refine (hsol l g1 g2).trans ?_
  change forUp 1 m (fun i zz => set zz i (s.b i)) s.zz l = s.b l
  have g2' : l ≤ s.nsetp := g2
  rw [copy_eq]
  simp only
  rw [if_pos (by omega)]

/-- The rules for the run of `nnls` in exact arithmetic. -/
theorem exact_rules (m n : Nat) (s0 : St ℝ) :
    Rules exact m n (InvI m n s0) (InvJ m n s0) (fun s _ => InvK m n s0 s) (InvE m n s0) (InvK m n s0) where
  quit := by
    intro s hs hI h
    have := hs.iz1
    exact ⟨hI, fun h1 q h2 h3 => by omega⟩
  none_left := by
    intro s t hs hI hm hn hsel _
    obtain ⟨w, e1, hw1, hw2⟩ := dual_fields hs hn
    rw [e1] at hsel
    rcases select_exact hs hm hn w hw1 n with ⟨h, h'⟩ | ⟨T, cl, up, zz, t', iz', h1, h2, h3, h4, -⟩
    · rw [h] at hsel
      simp only [Out.ok.injEq, Sum.inl.injEq] at hsel
      subst hsel
      refine ⟨⟨⟨hI.base.gram.of_eq rfl rfl, hI.base.tri, hI.base.xz, ?_⟩, hI.pos, hI.sol⟩, ?_⟩
      · intro q g1 g2
        exact (hw2 q g1 g2).trans (hI.base.wz q g1 g2)
      · intro _ q g1 g2
        exact ⟨hw1 q g1 g2, h' q g1 g2⟩
    · rw [h4] at hsel
      simp at hsel
  taken := by
    intro s t iz hs hI hm hn hsel _ _ _ _
    exact taken_exact hs hI hm hn hsel
  count := by
    intro s k hJ
    exact ⟨⟨hJ.base.gram.of_eq rfl rfl, hJ.base.tri, hJ.base.xz, hJ.base.wz⟩, hJ.nonneg, hJ.pos, hJ.sol⟩
  over := by
    intro s hs hJ
    exact ⟨⟨hJ.base.gram.of_eq rfl rfl, hJ.base.tri, hJ.base.xz, hJ.base.wz⟩, hJ.nonneg⟩
  feasible := fun s hs hJ h => feasible_exact hs hJ h
  infeasible := fun s jj hs hJ h _ _ => infeasible_exact hs hJ h
  more := fun s jj jj' hs hK h1 h2 _ => remove_exact hs hK h1 h2
  back := fun s jj hs hK h1 h2 h => back_exact (remove_shape exact hs h1 h2) (remove_exact hs hK h1 h2) h

end JKD.Nnls
