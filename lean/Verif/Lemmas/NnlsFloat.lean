import Verif.Lemmas.NnlsRun
import Mathlib.Data.Real.Sqrt
import Mathlib.Algebra.Order.Floor.Ring
import Mathlib.Algebra.Order.Round
import Mathlib.Tactic.Linarith
import Mathlib.Tactic.FieldSimp
/-
The signs of the coefficients under rounding.
-/

namespace JKD.Nnls

variable {D : Type}

/-- What the signs depend on. -/
structure Signs (O : Ops D) : Prop where
  lt_not_le : ∀ x, O.lt O.zero x = true → O.le x O.zero = false
  step : ∀ x z, O.le x O.zero = false → O.le z O.zero = true →
    O.lt (O.div (O.neg x) (O.sub z x)) O.two = true
  eq_two_only : ∀ x, O.eq x O.two = true → x = O.two

theorem trial_x (O : Ops D) (m : Nat) (s : St D) (j : Nat) :
    match trial O m s j with
    | .inl t => t.x = s.x ∧ t.index = s.index ∧ t.npp1 = s.npp1 ∧ t.nsetp = s.nsetp ∧
        O.lt O.zero (O.div (t.zz t.npp1) (t.a t.npp1 j)) = true
    | .inr t => t.x = s.x ∧ t.index = s.index ∧ t.npp1 = s.npp1 ∧ t.nsetp = s.nsetp := by
  unfold trial
  simp only
  generalize O.lt O.zero (O.sub _ _) = c1
  cases c1
  · simp
  · simp only [if_true]
    generalize hc : O.lt O.zero (O.div _ _) = c2
    cases c2
    · simp
    · simp only [if_true]
      exact ⟨trivial, trivial, trivial, trivial, hc⟩

theorem select_taken (O : Ops D) (m n : Nat) : ∀ (fuel : Nat) (s t : St D) (iz j : Nat),
    select O m n fuel s = .ok (.inr (t, iz, j)) →
    t.x = s.x ∧ t.index = s.index ∧ t.npp1 = s.npp1 ∧ t.nsetp = s.nsetp ∧ j = t.index iz ∧
      O.lt O.zero (O.div (t.zz t.npp1) (t.a t.npp1 j)) = true := by
  intro fuel
  induction fuel with
  | zero => intro s t iz j h; simp [select] at h
  | succ fuel ih =>
    intro s t iz j h
    unfold select at h
    simp only at h
    by_cases hc : O.le (findMax O n s).1 O.zero = true
    · rw [if_pos hc] at h
      simp at h
    · rw [if_neg hc] at h
      cases hr : (findMax O n s).2 with
      | none => rw [hr] at h; simp at h
      | some k =>
        rw [hr] at h
        simp only at h
        by_cases hg : 1 ≤ k ∧ k ≤ n ∧ 1 ≤ s.index k ∧ s.index k ≤ n ∧ 1 ≤ s.npp1 ∧ s.npp1 ≤ m ∧ s.nsetp ≤ m
        · rw [if_pos hg] at h
          have ht := trial_x O m s (s.index k)
          cases htr : trial O m s (s.index k) with
          | inl u =>
            rw [htr] at h ht
            simp only [Out.ok.injEq, Sum.inr.injEq, Prod.mk.injEq] at h
            obtain ⟨rfl, rfl, rfl⟩ := h
            obtain ⟨h1, h2, h3, h4, h5⟩ := ht
            refine ⟨h1, h2, h3, h4, rfl, ?_⟩
            rw [h2]
            exact h5
          | inr u =>
            rw [htr] at h ht
            obtain ⟨h1, h2, h3, h4⟩ := ht
            obtain ⟨g1, g2, g3, g4, g5⟩ := ih u t iz j h
            exact ⟨g1.trans h1, g2.trans h2, g3.trans h3, g4.trans h4, g5⟩
        · rw [if_neg hg] at h
          simp at h

theorem select_none (O : Ops D) (m n : Nat) : ∀ (fuel : Nat) (s t : St D),
    select O m n fuel s = .ok (.inl t) → t.x = s.x ∧ t.index = s.index ∧ t.nsetp = s.nsetp := by
  intro fuel
  induction fuel with
  | zero => intro s t h; simp [select] at h
  | succ fuel ih =>
    intro s t h
    unfold select at h
    simp only at h
    by_cases hc : O.le (findMax O n s).1 O.zero = true
    · rw [if_pos hc] at h
      simp only [Out.ok.injEq, Sum.inl.injEq] at h
      subst h
      exact ⟨rfl, rfl, rfl⟩
    · rw [if_neg hc] at h
      cases hr : (findMax O n s).2 with
      | none => rw [hr] at h; simp at h
      | some k =>
        rw [hr] at h
        simp only at h
        by_cases hg : 1 ≤ k ∧ k ≤ n ∧ 1 ≤ s.index k ∧ s.index k ≤ n ∧ 1 ≤ s.npp1 ∧ s.npp1 ≤ m ∧ s.nsetp ≤ m
        · rw [if_pos hg] at h
          have ht := trial_x O m s (s.index k)
          cases htr : trial O m s (s.index k) with
          | inl u => rw [htr] at h; simp at h
          | inr u =>
            rw [htr] at h ht
            obtain ⟨h1, h2, h3, h4⟩ := ht
            obtain ⟨g1, g2, g3⟩ := ih u t h
            exact ⟨g1.trans h1, g2.trans h2, g3.trans h4⟩
        · rw [if_neg hg] at h
          simp at h

/-- The last unknown of the triangular system is found first and not touched again. -/
theorem solve_top (O : Ops D) (s : St D) (h : 1 ≤ s.nsetp) :
    (solve O s).zz s.nsetp = O.div (s.zz s.nsetp) (s.a s.nsetp (s.index s.nsetp)) := by
  unfold solve
  simp only
  generalize s.nsetp = N at *
  have key := forUp_induct (lo := 1) (hi := N) (s := (s.zz, 0))
    (body := fun l (r : (Nat → D) × Nat) =>
      let ip := N + 1 - l
      let zz := if l ≠ 1 then
          forUp 1 ip (fun ii zz => set zz ii (O.sub (zz ii) (O.mul (s.a ii r.2) (zz (ip + 1))))) r.1
        else r.1
      let jj := s.index ip
      (set zz ip (O.div (zz ip) (s.a ip jj)), jj))
    (fun i r => (i = 1 → r.1 = s.zz) ∧ (1 < i → r.1 N = O.div (s.zz N) (s.a N (s.index N))))
    (by omega) ⟨fun _ => rfl, by omega⟩
    (by
      rintro i ⟨zz, jj⟩ h1 h2 ⟨ht0, ht1⟩
      simp only at ht0 ht1 ⊢
      refine ⟨by omega, fun _ => ?_⟩
      by_cases hi : i = 1
      · subst hi
        rw [if_neg (by simp), show N + 1 - 1 = N by omega, set_same, ht0 rfl]
      · rw [if_pos hi, set_ne _ _ (by omega), ← ht1 (by omega)]
        exact forUp_induct (lo := 1) (hi := N + 1 - i) (s := zz) (fun _ t => t N = zz N) (by omega) rfl
          (fun k t a b c => by rw [set_ne _ _ (by omega), c]))
  exact key.2 (by omega)

/-- Writing coefficients of the positive set (any arithmetic). -/
theorem writeX_spec' {m n : Nat} {s : St D} (hs : Shape m n s) (f : Nat → D → D)
    (body : Nat → St D → St D)
    (hbody : ∀ i x, body i { s with x := x } = { s with x := set x (s.index i) (f i (x (s.index i))) }) :
    ∃ x, forUp 1 s.nsetp body s = { s with x := x } ∧
      (∀ q, 1 ≤ q → q ≤ s.nsetp → x (s.index q) = f q (s.x (s.index q))) ∧
      (∀ q, s.nsetp < q → q ≤ n → x (s.index q) = s.x (s.index q)) := by
  have hle := hs.le_n
  have key := forUp_induct (lo := 1) (hi := s.nsetp) (s := s) (body := body)
    (fun i t => ∃ x, t = { s with x := x } ∧
      (∀ q, 1 ≤ q → q < i → x (s.index q) = f q (s.x (s.index q))) ∧
      (∀ q, i ≤ q → q ≤ n → x (s.index q) = s.x (s.index q)))
    (by omega) ⟨s.x, rfl, by intro q h1 h2; omega, by intro q h1 h2; rfl⟩
    (by
      rintro i t h1 h2 ⟨x, rfl, hx1, hx2⟩
      rw [hbody]
      refine ⟨_, rfl, ?_, ?_⟩
      · intro q h3 h4
        rcases Nat.lt_or_ge q i with h5 | h5
        · rw [set_ne _ _ (hs.inj q i h3 h5 (by omega)), hx1 q h3 h5]
        · have : q = i := by omega
          subst this
          rw [set_same, hx2 q (Nat.le_refl _) (by omega)]
      · intro q h3 h4
        rw [set_ne _ _ (fun e => hs.inj i q h1 (by omega) h4 e.symm), hx2 q (by omega) h4])
  obtain ⟨x, e, h1, h2⟩ := key
  exact ⟨x, e, fun q a b => h1 q a (by omega), fun q a b => h2 q (by omega) b⟩

/-- Outside the positive set the coefficients are zero. -/
def ZeroOut (O : Ops D) (n : Nat) (s : St D) : Prop := ∀ q, s.nsetp < q → q ≤ n → s.x (s.index q) = O.zero

/-- In the positive set none is `≤ 0`. -/
def PosIn (O : Ops D) (s : St D) : Prop := ∀ q, 1 ≤ q → q ≤ s.nsetp → O.le (s.x (s.index q)) O.zero = false

/-- … or it is zero and its new value is not `≤ 0`. -/
def PosOrNew (O : Ops D) (s : St D) : Prop := ∀ q, 1 ≤ q → q ≤ s.nsetp →
  O.le (s.x (s.index q)) O.zero = false ∨ (s.x (s.index q) = O.zero ∧ O.le (s.zz q) O.zero = false)

theorem remove_zeroOut (O : Ops D) {m n : Nat} {s : St D} (hs : Shape m n s) (h : ZeroOut O n s) {jj : Nat}
    (h1 : 1 ≤ jj) (h2 : jj ≤ s.nsetp) : ZeroOut O n (remove O n s jj) := by
  obtain ⟨a, b, e⟩ := remove_fields O hs h1 h2
  rw [e]
  intro q g1 g2
  simp only at g1 ⊢
  rcases Nat.lt_or_ge s.nsetp q with g3 | g3
  · rw [if_neg (by omega), if_neg (by omega),
      set_ne _ _ (fun e => hs.inj jj q h1 (by omega) g2 e.symm)]
    exact h q g3 g2
  · rw [if_neg (by omega), if_pos (by omega), set_same]

theorem dual_keeps (O : Ops D) {m n : Nat} {s : St D} (hs : Shape m n s) :
    (dual O m n s).x = s.x ∧ (dual O m n s).index = s.index ∧ (dual O m n s).nsetp = s.nsetp ∧
      (dual O m n s).npp1 = s.npp1 := by
  have := hs.iz1
  have := hs.le_n
  rw [dual_eq O m n s (by omega) (by omega)]
  exact ⟨rfl, rfl, rfl, rfl⟩

open Classical in
/-- The rules for the signs. -/
theorem sign_rules {O : Ops D} (hO : Ordered O) (hS : Signs O) (m n : Nat) :
    Rules O m n (fun s => ZeroOut O n s ∧ PosIn O s) (fun s => ZeroOut O n s ∧ PosOrNew O s)
      (fun s _ => ZeroOut O n s) (fun s => ZeroOut O n s ∧ PosIn O s)
      (fun s => ZeroOut O n s ∧ PosOrNew O s) where
  quit := fun s _ h _ => h
  none_left := by
    intro s t hs h _ _ hsel _
    obtain ⟨a1, a2, a3⟩ := select_none O m n _ _ _ hsel
    obtain ⟨b1, b2, b3, b4⟩ := dual_keeps O (m := m) hs
    constructor
    · intro q h1 h2
      rw [a1, a2, b1, b2]
      rw [a3, b3] at h1
      exact h.1 q h1 h2
    · intro q h1 h2
      rw [a1, a2, b1, b2]
      rw [a3, b3] at h2
      exact h.2 q h1 h2
  taken := by
    intro s t iz hs h hm hn hsel ht htn hiz hizn
    obtain ⟨a1, a2, a3, a4, -, a6⟩ := select_taken O m n _ _ _ _ _ hsel
    obtain ⟨b1, b2, b3, b4⟩ := dual_keeps O (m := m) hs
    have htx : t.x = s.x := a1.trans b1
    have hti : t.index = s.index := a2.trans b2
    have hz := ht.iz1
    have hp := ht.npp1
    generalize hidx : set (set t.index iz (t.index t.iz1)) t.iz1 (t.index iz) = idx
    obtain ⟨c1, c2, c3, c4⟩ := accept_cond ht hiz hizn idx hidx.symm
    rw [accept_eq O m n t iz (t.index iz) idx hidx.symm (by omega) (by omega) c4
      (fun q r b c d => c2 q r (by omega) c d)]
    constructor
    · intro q h1 h2
      change t.x (idx q) = O.zero
      have h1' : t.npp1 < q := h1
      rw [htx, ← hidx, set_ne _ _ (by omega)]
      by_cases hq : q = iz
      · subst hq
        rw [set_same, hti]
        exact h.1 _ (by omega) (by omega)
      · rw [set_ne _ _ hq, hti]
        exact h.1 q (by omega) h2
    · intro q h1 h2
      have h2' : q ≤ t.npp1 := h2
      rcases Nat.lt_or_ge q t.npp1 with h3 | h3
      · left
        change O.le (t.x (idx q)) O.zero = false
        rw [htx, ← hidx, set_ne _ _ (by omega), set_ne _ _ (by omega), hti]
        exact h.2 q h1 (by omega)
      · right
        have hq : q = t.npp1 := by omega
        have hpz : t.npp1 = t.iz1 := by omega
        constructor
        · change t.x (idx q) = O.zero
          rw [hq, hpz, c3, htx, hti]
          exact h.1 iz (by omega) hizn
        · apply hS.lt_not_le
          rw [← a6, hq]
          have := solve_top O { t with
            b := fun l => if 1 ≤ l ∧ l ≤ m then t.zz l else t.b l
            index := idx
            iz1 := t.iz1 + 1
            nsetp := t.npp1
            npp1 := t.npp1 + 1
            a := fun r c =>
              if c = t.index iz then (if t.npp1 + 1 ≤ r ∧ r ≤ m then O.zero else t.a r (t.index iz))
              else if At idx (t.iz1 + 1) n c then
                h12Apply O t.npp1 (t.npp1 + 1) m (t.col (t.index iz)) t.up (t.col c) r
              else t.a r c
            w := set t.w (t.index iz) O.zero } (by simp only; omega)
          simp only at this
          rw [this]
          simp only [hpz, c3, if_true]
          rw [if_neg (by omega)]
  count := fun s k h => h
  over := fun s _ h => h
  feasible := by
    intro s hs h he
    obtain ⟨x, e, h1, h2⟩ := writeX_spec' hs (fun ip _ => s.zz ip)
      (fun ip s => { s with x := set s.x (s.index ip) (s.zz ip) }) (fun _ _ => rfl)
    rw [e]
    constructor
    · intro q g1 g2
      exact (h2 q g1 g2).trans (h.1 q g1 g2)
    · intro q g1 g2
      change O.le (x (s.index q)) O.zero = false
      rw [h1 q g1 g2]
      by_contra hcon
      rw [Bool.not_eq_false] at hcon
      rcases h.2 q g1 g2 with hx | ⟨-, hx⟩
      · have := (stepLength_spec hO s).1 q g1 g2 hcon
        rw [hS.eq_two_only _ he, hS.step _ _ hx hcon] at this
        simp at this
      · rw [hcon] at hx
        simp at hx
  infeasible := by
    intro s jj hs h _ _ _
    obtain ⟨x, e, h1, h2⟩ := writeX_spec' hs
      (fun ip v => O.add v (O.mul (stepLength O s).1 (O.sub (s.zz ip) v)))
      (fun ip t =>
        let l := t.index ip
        { t with x := set t.x l (O.add (t.x l) (O.mul (stepLength O s).1 (O.sub (t.zz ip) (t.x l)))) })
      (fun _ _ => rfl)
    unfold interpolate
    rw [e]
    intro q g1 g2
    exact (h2 q g1 g2).trans (h.1 q g1 g2)
  more := fun s jj jj' hs h h1 h2 _ => remove_zeroOut O hs h h1 h2
  back := by
    intro s jj hs h h1 h2 hb
    exact ⟨remove_zeroOut O hs h h1 h2, fun q g1 g2 => Or.inl (firstBad_none hb q g1 g2)⟩

/-- Nothing negative comes out. -/
theorem nnls_signs {O : Ops D} (hO : Ordered O) (hS : Signs O) (m n : Nat) (hn : 1 ≤ n) (s : St D) :
    ∃ r, nnls O m n s = .ok r ∧ (r.mode = 1 ∨ r.mode = 3) ∧
      ∀ j, 1 ≤ j → j ≤ n → r.x j = O.zero ∨ O.le (r.x j) O.zero = false := by
  obtain ⟨t, e1, e2, e3⟩ := nnls_total hO (sign_rules hO hS m n) hn s (by
    rw [start_eq O n s hn]
    constructor
    · intro q h1 h2
      simp only at h1 ⊢
      rw [if_pos (by split_ifs <;> omega)]
    · intro q h1 h2
      simp only at h2
      omega)
  refine ⟨_, e1, ?_, ?_⟩
  · have : (finish O m n t).mode = t.mode := by unfold finish; split_ifs <;> rfl
    rw [this]
    rcases e3 with h | h
    · exact Or.inl h.1
    · exact Or.inr h.1
  · intro j h1 h2
    have hx : (finish O m n t).x = t.x := by unfold finish; split_ifs <;> rfl
    rw [hx]
    have hsurj : ∃ q, 1 ≤ q ∧ q ≤ n ∧ t.index q = j := by
      have hsub : (Finset.Icc 1 n).image t.index ⊆ Finset.Icc 1 n := by
        intro y hy
        rw [Finset.mem_image] at hy
        obtain ⟨q, hq, rfl⟩ := hy
        rw [Finset.mem_Icc] at hq ⊢
        exact e2.rng q hq.1 hq.2
      have hcard : ((Finset.Icc 1 n).image t.index).card = (Finset.Icc 1 n).card := by
        apply Finset.card_image_of_injOn
        intro q hq r hr e
        rw [Finset.mem_coe, Finset.mem_Icc] at hq hr
        rcases Nat.lt_trichotomy q r with hlt | heq | hlt
        · exact absurd e (e2.inj q r hq.1 hlt hr.2)
        · exact heq
        · exact absurd e.symm (e2.inj r q hr.1 hlt hq.2)
      have heq := Finset.eq_of_subset_of_card_le hsub (by rw [hcard])
      have hc : j ∈ (Finset.Icc 1 n).image t.index := by rw [heq, Finset.mem_Icc]; exact ⟨h1, h2⟩
      rw [Finset.mem_image] at hc
      obtain ⟨q, hq, e⟩ := hc
      rw [Finset.mem_Icc] at hq
      exact ⟨q, hq.1, hq.2, e⟩
    obtain ⟨q, a, b, rfl⟩ := hsurj
    rcases e3 with ⟨-, h⟩ | ⟨-, h⟩
    · rcases Nat.lt_or_ge t.nsetp q with h3 | h3
      · exact Or.inl (h.1 q h3 b)
      · exact Or.inr (h.2 q a h3)
    · rcases Nat.lt_or_ge t.nsetp q with h3 | h3
      · exact Or.inl (h.1 q h3 b)
      · rcases h.2 q a h3 with h4 | h4
        · exact Or.inr h4
        · exact Or.inl h4.1

/-! ### rounded arithmetic -/

/-- A rounding of the reals: monotone, leaving its own values alone, symmetric, and exact on one and two. -/
structure Rounding where
  rnd : ℝ → ℝ
  mono : ∀ x y, x ≤ y → rnd x ≤ rnd y
  idem : ∀ x, rnd (rnd x) = rnd x
  odd : ∀ x, rnd (-x) = - rnd x
  one : rnd 1 = 1
  two : rnd 2 = 2

namespace Rounding

variable (R : Rounding)

/-- The numbers the rounding leaves alone. -/
def F : Type := { x : ℝ // R.rnd x = x }

theorem zero : R.rnd 0 = 0 := by
  have := R.odd 0
  rw [neg_zero] at this
  linarith

/-- Round a real number. -/
def up (x : ℝ) : R.F := ⟨R.rnd x, R.idem x⟩

open Classical in
/-- The arithmetic in which every operation is done exactly and then rounded. -/
noncomputable def ops : Ops R.F where
  zero := ⟨0, R.zero⟩
  one := ⟨1, R.one⟩
  two := ⟨2, R.two⟩
  hundredth := R.up (1 / 100)
  add x y := R.up (x.1 + y.1)
  sub x y := R.up (x.1 - y.1)
  mul x y := R.up (x.1 * y.1)
  div x y := R.up (x.1 / y.1)
  neg x := ⟨-x.1, by rw [R.odd, x.2]⟩
  sqrt x := R.up (Real.sqrt x.1)
  lt x y := decide (x.1 < y.1)
  le x y := decide (x.1 ≤ y.1)
  eq x y := decide (x.1 = y.1)

theorem ordered : Ordered R.ops where
  irrefl x := by simp [ops]
  trans x y z h1 h2 := by
    simp only [ops, decide_eq_true_eq] at h1 h2 ⊢
    exact h1.trans h2
  le_zero := by simp [ops]
  eq_two := by simp [ops]

theorem signs : Signs R.ops where
  lt_not_le x h := by
    simp only [ops, decide_eq_true_eq, decide_eq_false_iff_not, not_le] at h ⊢
    exact h
  step x z h1 h2 := by
    simp only [ops, decide_eq_true_eq, decide_eq_false_iff_not, not_le] at h1 h2 ⊢
    have h3 : R.rnd (z.1 - x.1) ≤ - x.1 := by
      rw [← x.2, ← R.odd]
      apply R.mono
      rw [x.2]
      linarith
    have h4 : -x.1 / R.rnd (z.1 - x.1) ≤ 1 := by
      rw [div_le_iff_of_neg (by linarith)]
      linarith
    have := R.mono _ _ h4
    rw [R.one] at this
    change R.rnd (-x.1 / R.rnd (z.1 - x.1)) < 2
    linarith
  eq_two_only x h := by
    simp only [ops, decide_eq_true_eq] at h
    exact Subtype.ext h

end Rounding

end JKD.Nnls
