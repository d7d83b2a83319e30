import Verif.Lemmas.NnlsShape
import Mathlib.Data.Finset.Card
import Mathlib.Order.Interval.Finset.Nat
/-
The control flow of `nnls`, for any arithmetic whose comparisons make sense: the loops end, the subscripts stay
in range, and invariants given for the single steps hold at the end.
-/

namespace JKD.Nnls

variable {D : Type}

/-- What is asked of the comparisons.  IEEE comparisons satisfy this, also with not-a-number among the values. -/
structure Ordered (O : Ops D) : Prop where
  irrefl : ∀ x, O.lt x x = false
  trans : ∀ x y z, O.lt x y = true → O.lt y z = true → O.lt x z = true
  le_zero : O.le O.zero O.zero = true
  eq_two : O.eq O.two O.two = true

/-- The bookkeeping of the algorithm: `index` is a permutation of `1 … n`, its first `nsetp` entries are the
positive set. -/
structure Shape (m n : Nat) (s : St D) : Prop where
  iz1 : s.iz1 = s.nsetp + 1
  npp1 : s.npp1 = s.nsetp + 1
  le_n : s.nsetp ≤ n
  le_m : s.nsetp ≤ m
  rng : ∀ q, 1 ≤ q → q ≤ n → 1 ≤ s.index q ∧ s.index q ≤ n
  inj : ∀ q r, 1 ≤ q → q < r → r ≤ n → s.index q ≠ s.index r

/-- The bookkeeping only looks at the counters and at `index`. -/
theorem Shape.congr {m n : Nat} {s t : St D} (h : Shape m n s) (h1 : t.iz1 = s.iz1) (h2 : t.npp1 = s.npp1)
    (h3 : t.nsetp = s.nsetp) (h4 : t.index = s.index) : Shape m n t where
  iz1 := by rw [h1, h3]; exact h.iz1
  npp1 := by rw [h2, h3]; exact h.npp1
  le_n := by rw [h3]; exact h.le_n
  le_m := by rw [h3]; exact h.le_m
  rng := by rw [h4]; exact h.rng
  inj := by rw [h4]; exact h.inj

theorem colsOk_of {m n : Nat} {s : St D} (h : Shape m n s) {lo hi : Nat} (h1 : 1 ≤ lo) (h2 : hi ≤ n) :
    colsOk n s.index lo hi = true := by
  unfold colsOk
  rw [decide_eq_true_iff]
  intro q hq hq'
  exact ⟨by omega, by omega, h.rng q (by omega) (by omega)⟩

/-! ### the single steps -/

/-- `start` in closed form. -/
theorem start_eq (O : Ops D) (n : Nat) (s : St D) (hn : 1 ≤ n) :
    start O n s = { s with
      x := fun l => if 1 ≤ l ∧ l ≤ n then O.zero else s.x l
      index := fun l => if 1 ≤ l ∧ l ≤ n then l else s.index l
      iz1 := 1
      nsetp := 0
      npp1 := 1
      iter := 0
      mode := 1 } := by
  unfold start
  have key := forUp_induct (lo := 1) (hi := n) (s := s)
    (body := fun i s => { s with x := set s.x i O.zero, index := set s.index i i })
    (fun i t => t = { s with
      x := fun l => (if 1 ≤ l ∧ l < i then O.zero else s.x l)
      index := fun l => (if 1 ≤ l ∧ l < i then l else s.index l) })
    (by omega)
    (by
      have e1 : (fun l => if 1 ≤ l ∧ l < 1 then O.zero else s.x l) = s.x := by
        funext l; rw [if_neg (by omega)]
      have e2 : (fun l => if 1 ≤ l ∧ l < 1 then l else s.index l) = s.index := by
        funext l; rw [if_neg (by omega)]
      rw [e1, e2])
    (by
      intro i t hi1 hi2 ht
      subst ht
      simp only [St.mk.injEq, true_and, and_true]
      constructor
      · funext l
        by_cases hl : l = i
        · subst hl; rw [set_same, if_pos (by omega)]
        · rw [set_ne _ _ hl]
          by_cases h : 1 ≤ l ∧ l < i
          · rw [if_pos h, if_pos (by omega)]
          · rw [if_neg h, if_neg (by omega)]
      · funext l
        by_cases hl : l = i
        · subst hl; rw [set_same, if_pos (by omega)]
        · rw [set_ne _ _ hl]
          by_cases h : 1 ≤ l ∧ l < i
          · rw [if_pos h, if_pos (by omega)]
          · rw [if_neg h, if_neg (by omega)])
  rw [key]
  simp only [St.mk.injEq, true_and, and_true]
  constructor
  · funext l
    by_cases h : 1 ≤ l ∧ l ≤ n
    · rw [if_pos h, if_pos (by omega)]
    · rw [if_neg h, if_neg (by omega)]
  · funext l
    by_cases h : 1 ≤ l ∧ l ≤ n
    · rw [if_pos h, if_pos (by omega)]
    · rw [if_neg h, if_neg (by omega)]

theorem start_shape (O : Ops D) (m n : Nat) (s : St D) (hn : 1 ≤ n) : Shape m n (start O n s) := by
  rw [start_eq O n s hn]
  refine ⟨rfl, rfl, by simp, by simp, ?_, ?_⟩
  · intro q h1 h2
    simp only
    rw [if_pos ⟨h1, h2⟩]
    exact ⟨h1, h2⟩
  · intro q r h1 h2 h3
    simp only
    rw [if_pos ⟨h1, by omega⟩, if_pos ⟨by omega, h3⟩]
    omega

/-- The maximum search returns a position of the zero set whose `w` is positive, and no `w` there exceeds it. -/
theorem findMax_spec {O : Ops D} (hO : Ordered O) (n : Nat) (s : St D) (h : s.iz1 ≤ n + 1) :
    (∀ q, s.iz1 ≤ q → q ≤ n → O.lt (findMax O n s).1 (s.w (s.index q)) = false) ∧
      match (findMax O n s).2 with
      | none => (findMax O n s).1 = O.zero
      | some iz => s.iz1 ≤ iz ∧ iz ≤ n ∧ (findMax O n s).1 = s.w (s.index iz) ∧
          O.lt O.zero (s.w (s.index iz)) = true := by
  unfold findMax
  have key := forUp_induct (lo := s.iz1) (hi := n) (s := (O.zero, (none : Option Nat)))
    (body := fun iz r => if O.lt r.1 (s.w (s.index iz)) then (s.w (s.index iz), some iz) else r)
    (fun i r => (∀ q, s.iz1 ≤ q → q < i → O.lt r.1 (s.w (s.index q)) = false) ∧
      match r.2 with
      | none => r.1 = O.zero
      | some iz => s.iz1 ≤ iz ∧ iz < i ∧ r.1 = s.w (s.index iz) ∧ O.lt O.zero (s.w (s.index iz)) = true)
    h ⟨by intro q h1 h2; omega, rfl⟩
    (by
      rintro i ⟨v, o⟩ hi1 hi2 ⟨ht1, ht2⟩
      simp only at ht1 ht2 ⊢
      cases hlt : O.lt v (s.w (s.index i)) with
      | true =>
        rw [if_pos rfl]
        refine ⟨?_, hi1, by omega, rfl, ?_⟩
        · intro q h1 h2
          rcases Nat.lt_or_ge q i with h3 | h3
          · cases hq : O.lt (s.w (s.index i)) (s.w (s.index q)) with
            | false => rfl
            | true =>
              have := hO.trans _ _ _ hlt hq
              rw [ht1 q h1 h3] at this
              exact absurd this (by decide)
          · have : q = i := by omega
            subst this
            exact hO.irrefl _
        · cases o with
          | none => simp only at ht2; rw [ht2] at hlt; exact hlt
          | some iz =>
            simp only at ht2
            rw [ht2.2.2.1] at hlt
            exact hO.trans _ _ _ ht2.2.2.2 hlt
      | false =>
        rw [if_neg (by simp)]
        refine ⟨?_, ?_⟩
        · intro q h1 h2
          rcases Nat.lt_or_ge q i with h3 | h3
          · exact ht1 q h1 h3
          · have : q = i := by omega
            subst this
            exact hlt
        · cases o with
          | none => exact ht2
          | some iz => exact ⟨ht2.1, by have := ht2.2.1; omega, ht2.2.2⟩)
  generalize forUp s.iz1 n (fun iz r =>
    if O.lt r.1 (s.w (s.index iz)) then (s.w (s.index iz), some iz) else r) (O.zero, (none : Option Nat)) = r at key
  obtain ⟨v, o⟩ := r
  refine ⟨fun q h1 h2 => key.1 q h1 (by omega), ?_⟩
  cases o with
  | none => exact key.2
  | some iz => exact ⟨key.2.1, by have := key.2.2.1; omega, key.2.2.2⟩

/-- A trial leaves the bookkeeping alone. -/
theorem trial_fields (O : Ops D) (m : Nat) (s : St D) (j : Nat) :
    match trial O m s j with
    | .inl t => t.iz1 = s.iz1 ∧ t.npp1 = s.npp1 ∧ t.nsetp = s.nsetp ∧ t.index = s.index ∧ t.iter = s.iter ∧
        t.mode = s.mode ∧ t.w = s.w
    | .inr t => t.iz1 = s.iz1 ∧ t.npp1 = s.npp1 ∧ t.nsetp = s.nsetp ∧ t.index = s.index ∧ t.iter = s.iter ∧
        t.mode = s.mode ∧ t.w = set s.w j O.zero := by
  unfold trial
  simp only
  generalize O.lt O.zero (O.sub _ _) = c1
  generalize O.lt O.zero (O.div _ _) = c2
  cases c1 <;> cases c2 <;> exact ⟨rfl, rfl, rfl, rfl, rfl, rfl, rfl⟩

/-- The exchange of two entries of `index` made by `accept`. -/
theorem swap_facts {n : Nat} {s : St D} {iz : Nat} :
    ∀ q, 1 ≤ q → q ≤ n → set (set s.index iz (s.index s.iz1)) s.iz1 (s.index iz) q =
      s.index (if q = s.iz1 then iz else if q = iz then s.iz1 else q) := by
  intro q _ _
  by_cases ha : q = s.iz1
  · subst ha; simp
  · rw [set_ne _ _ ha, if_neg ha]
    by_cases hb : q = iz
    · subst hb; simp
    · rw [set_ne _ _ hb, if_neg hb]

theorem accept_cond {m n : Nat} {s : St D} (h : Shape m n s) {iz : Nat} (h1 : s.iz1 ≤ iz) (h2 : iz ≤ n)
    (idx : Nat → Nat) (hidx : idx = set (set s.index iz (s.index s.iz1)) s.iz1 (s.index iz)) :
    (∀ q, 1 ≤ q → q ≤ n → 1 ≤ idx q ∧ idx q ≤ n) ∧ (∀ q r, 1 ≤ q → q < r → r ≤ n → idx q ≠ idx r) ∧
      idx s.iz1 = s.index iz ∧ ¬ At idx (s.iz1 + 1) n (s.index iz) := by
  have hiz := h.iz1
  have hle := h.le_n
  have hinj : ∀ q r, 1 ≤ q → q ≤ n → 1 ≤ r → r ≤ n → s.index q = s.index r → q = r := by
    intro q r a b c d e
    rcases Nat.lt_trichotomy q r with hlt | heq | hlt
    · exact absurd e (h.inj q r a hlt d)
    · exact heq
    · exact absurd e.symm (h.inj r q c hlt b)
  have hf := swap_facts (n := n) (s := s) (iz := iz)
  rw [← hidx] at hf
  have hinj' : ∀ q r, 1 ≤ q → q < r → r ≤ n → idx q ≠ idx r := by
    intro q r a b c e
    rw [hf q a (by omega), hf r (by omega) c] at e
    have e := hinj _ _ (by split_ifs <;> omega) (by split_ifs <;> omega) (by split_ifs <;> omega)
      (by split_ifs <;> omega) e
    split_ifs at e <;> omega
  refine ⟨?_, hinj', ?_, ?_⟩
  · intro q a b
    rw [hf q a b]
    exact h.rng _ (by split_ifs <;> omega) (by split_ifs <;> omega)
  · rw [hf _ (by omega) (by omega), if_pos rfl]
  · rintro ⟨q, a, b, c⟩
    have : idx s.iz1 = s.index iz := by rw [hf _ (by omega) (by omega), if_pos rfl]
    exact hinj' s.iz1 q (by omega) (by omega) b (by rw [this, c])

theorem accept_shape (O : Ops D) {m n : Nat} {s : St D} (h : Shape m n s) (hm : s.nsetp < m) {iz : Nat}
    (h1 : s.iz1 ≤ iz) (h2 : iz ≤ n) : Shape m n (accept O m n s iz (s.index iz)) := by
  obtain ⟨a1, a2, a3, a4⟩ := accept_cond h h1 h2 _ rfl
  have hiz := h.iz1
  rw [accept_eq O m n s iz _ _ rfl (by omega) (by omega) a4
    (fun q r b c d => a2 q r (by omega) c d)]
  refine ⟨?_, ?_, ?_, ?_, a1, a2⟩
  · simp only; rw [h.iz1, h.npp1]
  · rfl
  · simp only; rw [h.npp1]; omega
  · simp only; rw [h.npp1]; omega

theorem solve_shape (O : Ops D) {m n : Nat} {s : St D} (h : Shape m n s) : Shape m n (solve O s) :=
  h.congr rfl rfl rfl rfl

/-- The interpolation only changes `x`. -/
theorem interpolate_fields (O : Ops D) (s : St D) (alpha : D) :
    ∃ x, interpolate O s alpha = { s with x := x } := by
  unfold interpolate
  exact forUp_induct (lo := 1) (hi := s.nsetp) (s := s) (fun _ t => ∃ x, t = { s with x := x }) (by omega)
    ⟨s.x, rfl⟩ (by
      rintro i t _ _ ⟨x, rfl⟩
      exact ⟨_, rfl⟩)

/-- The final copy only changes `x`. -/
theorem copyX_fields (s : St D) (k : Nat) :
    ∃ x, forUp 1 k (fun ip s => { s with x := set s.x (s.index ip) (s.zz ip) }) s = { s with x := x } :=
  forUp_induct (lo := 1) (hi := k) (s := s) (fun _ t => ∃ x, t = { s with x := x }) (by omega)
    ⟨s.x, rfl⟩ (by
      rintro i t _ _ ⟨x, rfl⟩
      exact ⟨_, rfl⟩)

theorem rotate_fields (O : Ops D) (n j : Nat) (s : St D) (hj : 1 ≤ j) :
    ∃ a b, rotate O n j s = { s with a := a, b := b, index := set s.index (j - 1) (s.index j) } :=
  ⟨_, _, rotate_eq O n j s hj⟩

/-- What the loop over `rotate` does to everything but the matrix and the right-hand side. -/
theorem rotLoop_fields (O : Ops D) (n : Nat) (s : St D) {jj k : Nat} (h : jj ≤ k) :
    ∃ a b, forUp (jj + 1) k (rotate O n) s = { s with
      a := a
      b := b
      index := fun q => if jj ≤ q ∧ q < k then s.index (q + 1) else s.index q } := by
  have key := forUp_induct (lo := jj + 1) (hi := k) (s := s) (body := rotate O n)
    (fun i t => ∃ a b, t = { s with
      a := a
      b := b
      index := fun q => (if jj ≤ q ∧ q + 1 < i then s.index (q + 1) else s.index q) })
    (by omega)
    ⟨s.a, s.b, by
      have : (fun q => if jj ≤ q ∧ q + 1 < jj + 1 then s.index (q + 1) else s.index q) = s.index := by
        funext q
        rw [if_neg (by omega)]
      rw [this]⟩
    (by
      rintro i t hi1 hi2 ⟨a, b, rfl⟩
      obtain ⟨a', b', e⟩ := rotate_fields O n i { s with
        a := a
        b := b
        index := fun q => (if jj ≤ q ∧ q + 1 < i then s.index (q + 1) else s.index q) } (by omega)
      refine ⟨a', b', ?_⟩
      rw [e]
      simp only [St.mk.injEq, true_and, and_true]
      funext q
      by_cases hq : q = i - 1
      · subst hq
        rw [set_same, if_neg (by omega), if_pos (by omega)]
        congr 1
        omega
      · rw [set_ne _ _ hq]
        by_cases h3 : jj ≤ q ∧ q + 1 < i
        · rw [if_pos h3, if_pos (by omega)]
        · rw [if_neg h3, if_neg (by omega)])
  obtain ⟨a, b, e⟩ := key
  refine ⟨a, b, ?_⟩
  rw [e]
  simp only [St.mk.injEq, true_and, and_true]
  funext q
  by_cases h3 : jj ≤ q ∧ q < k
  · rw [if_pos h3, if_pos (by omega)]
  · rw [if_neg h3, if_neg (by omega)]

/-- What `remove` does to everything but the matrix and the right-hand side. -/
theorem remove_fields (O : Ops D) {m n : Nat} {s : St D} (h : Shape m n s) {jj : Nat} (h1 : 1 ≤ jj)
    (h2 : jj ≤ s.nsetp) :
    ∃ a b, remove O n s jj = { s with
      a := a
      b := b
      x := set s.x (s.index jj) O.zero
      npp1 := s.nsetp
      nsetp := s.nsetp - 1
      iz1 := s.nsetp
      index := fun q => if jj ≤ q ∧ q < s.nsetp then s.index (q + 1)
        else if q = s.nsetp then s.index jj else s.index q } := by
  unfold remove
  simp only
  have hiz := h.iz1
  by_cases hj : jj ≠ s.nsetp
  · rw [if_pos hj]
    obtain ⟨a, b, e⟩ := rotLoop_fields O n { s with x := set s.x (s.index jj) O.zero } h2
    rw [e]
    refine ⟨a, b, ?_⟩
    simp only [St.mk.injEq, true_and, and_true]
    refine ⟨?_, by omega⟩
    funext q
    by_cases hq : q = s.iz1 - 1
    · subst hq
      rw [set_same, if_neg (by omega), if_pos (by omega)]
    · rw [set_ne _ _ hq]
      by_cases h3 : jj ≤ q ∧ q < s.nsetp
      · rw [if_pos h3, if_pos h3]
      · rw [if_neg h3, if_neg h3, if_neg (by omega)]
  · rw [if_neg hj]
    refine ⟨s.a, s.b, ?_⟩
    simp only [St.mk.injEq, true_and, and_true]
    refine ⟨?_, by omega⟩
    have hj' : jj = s.nsetp := Decidable.not_not.mp hj
    funext q
    unfold set
    by_cases hq : q = s.iz1 - 1
    · rw [if_pos hq, if_neg (by omega), if_pos (by omega)]
    · rw [if_neg hq, if_neg (by omega), if_neg (by omega)]

theorem remove_shape (O : Ops D) {m n : Nat} {s : St D} (h : Shape m n s) {jj : Nat} (h1 : 1 ≤ jj)
    (h2 : jj ≤ s.nsetp) : Shape m n (remove O n s jj) := by
  obtain ⟨a, b, e⟩ := remove_fields O h h1 h2
  rw [e]
  have hn := h.le_n
  have hm := h.le_m
  have hinj : ∀ q r, 1 ≤ q → q ≤ n → 1 ≤ r → r ≤ n → s.index q = s.index r → q = r := by
    intro q r a b c d e
    rcases Nat.lt_trichotomy q r with hlt | heq | hlt
    · exact absurd e (h.inj q r a hlt d)
    · exact heq
    · exact absurd e.symm (h.inj r q c hlt b)
  have hf : ∀ q, (if jj ≤ q ∧ q < s.nsetp then s.index (q + 1)
        else if q = s.nsetp then s.index jj else s.index q) =
      s.index (if jj ≤ q ∧ q < s.nsetp then q + 1 else if q = s.nsetp then jj else q) := by
    intro q
    split_ifs <;> rfl
  refine ⟨?_, ?_, ?_, ?_, ?_, ?_⟩
  · simp only; omega
  · simp only; omega
  · simp only; omega
  · simp only; omega
  · intro q a b
    simp only [hf]
    exact h.rng _ (by split_ifs <;> omega) (by split_ifs <;> omega)
  · intro q r a b c e
    simp only [hf] at e
    have e := hinj _ _ (by split_ifs <;> omega) (by split_ifs <;> omega) (by split_ifs <;> omega)
      (by split_ifs <;> omega) e
    split_ifs at e <;> omega

theorem firstBad_some {O : Ops D} {s : St D} {jj : Nat} (h : firstBad O s = some jj) :
    1 ≤ jj ∧ jj ≤ s.nsetp ∧ O.le (s.x (s.index jj)) O.zero = true := by
  unfold firstBad at h
  have h1 := List.mem_of_find?_eq_some h
  have h2 := List.find?_some h
  rw [List.mem_range'_1] at h1
  exact ⟨h1.1, by omega, h2⟩

theorem firstBad_none {O : Ops D} {s : St D} (h : firstBad O s = none) :
    ∀ q, 1 ≤ q → q ≤ s.nsetp → O.le (s.x (s.index q)) O.zero = false := by
  unfold firstBad at h
  rw [List.find?_eq_none] at h
  intro q h1 h2
  have := h q (by rw [List.mem_range'_1]; omega)
  simpa using this

/-- The step length either is the initial value with nothing found or comes from a position of the positive
set whose new value is not positive; it is the smallest of the candidates. -/
theorem stepLength_spec {O : Ops D} (hO : Ordered O) (s : St D) :
    (∀ q, 1 ≤ q → q ≤ s.nsetp → O.le (s.zz q) O.zero = true →
      O.lt (O.div (O.neg (s.x (s.index q))) (O.sub (s.zz q) (s.x (s.index q)))) (stepLength O s).1 = false) ∧
      match (stepLength O s).2 with
      | none => (stepLength O s).1 = O.two
      | some jj => 1 ≤ jj ∧ jj ≤ s.nsetp ∧ O.le (s.zz jj) O.zero = true ∧
          (stepLength O s).1 = O.div (O.neg (s.x (s.index jj))) (O.sub (s.zz jj) (s.x (s.index jj))) ∧
          O.lt (stepLength O s).1 O.two = true := by
  unfold stepLength
  have key := forUp_induct (lo := 1) (hi := s.nsetp) (s := (O.two, (none : Option Nat)))
    (body := fun ip r =>
      let l := s.index ip
      if O.le (s.zz ip) O.zero then
        let t := O.div (O.neg (s.x l)) (O.sub (s.zz ip) (s.x l))
        if O.lt t r.1 then (t, some ip) else r
      else r)
    (fun i r => (∀ q, 1 ≤ q → q < i → O.le (s.zz q) O.zero = true →
        O.lt (O.div (O.neg (s.x (s.index q))) (O.sub (s.zz q) (s.x (s.index q)))) r.1 = false) ∧
      match r.2 with
      | none => r.1 = O.two
      | some jj => 1 ≤ jj ∧ jj < i ∧ O.le (s.zz jj) O.zero = true ∧
          r.1 = O.div (O.neg (s.x (s.index jj))) (O.sub (s.zz jj) (s.x (s.index jj))) ∧
          O.lt r.1 O.two = true)
    (by omega) ⟨by intro q h1 h2; omega, rfl⟩
    (by
      rintro i ⟨v, o⟩ hi1 hi2 ⟨ht1, ht2⟩
      simp only at ht1 ht2 ⊢
      cases hz : O.le (s.zz i) O.zero with
      | false =>
        rw [if_neg (by simp)]
        refine ⟨?_, ?_⟩
        · intro q h1 h2 h3
          rcases Nat.lt_or_ge q i with h4 | h4
          · exact ht1 q h1 h4 h3
          · have : q = i := by omega
            subst this
            rw [hz] at h3
            exact absurd h3 (by decide)
        · cases o with
          | none => exact ht2
          | some iz => exact ⟨ht2.1, by have := ht2.2.1; omega, ht2.2.2⟩
      | true =>
        rw [if_pos rfl]
        generalize ht : O.div (O.neg (s.x (s.index i))) (O.sub (s.zz i) (s.x (s.index i))) = t
        cases hlt : O.lt t v with
        | true =>
          rw [if_pos rfl]
          refine ⟨?_, hi1, by omega, hz, ht.symm, ?_⟩
          · intro q h1 h2 h3
            rcases Nat.lt_or_ge q i with h4 | h4
            · simp only
              cases hq : O.lt (O.div (O.neg (s.x (s.index q))) (O.sub (s.zz q) (s.x (s.index q)))) t with
              | false => rfl
              | true =>
                have := hO.trans _ _ _ hq hlt
                rw [ht1 q h1 h4 h3] at this
                exact absurd this (by decide)
            · have : q = i := by omega
              subst this
              simp only
              rw [ht]
              exact hO.irrefl _
          · simp only
            cases o with
            | none => simp only at ht2; rw [ht2] at hlt; exact hlt
            | some iz => exact hO.trans _ _ _ hlt ht2.2.2.2.2
        | false =>
          rw [if_neg (by simp)]
          refine ⟨?_, ?_⟩
          · intro q h1 h2 h3
            rcases Nat.lt_or_ge q i with h4 | h4
            · exact ht1 q h1 h4 h3
            · have : q = i := by omega
              subst this
              simp only
              rw [ht]
              exact hlt
          · cases o with
            | none => exact ht2
            | some iz => exact ⟨ht2.1, by have := ht2.2.1; omega, ht2.2.2⟩)
  simp only at key ⊢
  generalize forUp 1 s.nsetp (fun ip r =>
    if O.le (s.zz ip) O.zero then
      if O.lt (O.div (O.neg (s.x (s.index ip))) (O.sub (s.zz ip) (s.x (s.index ip)))) r.1 then
        (O.div (O.neg (s.x (s.index ip))) (O.sub (s.zz ip) (s.x (s.index ip))), some ip)
      else r
    else r) (O.two, (none : Option Nat)) = r at key ⊢
  obtain ⟨v, o⟩ := r
  refine ⟨fun q h1 h2 => key.1 q h1 (by omega), ?_⟩
  cases o with
  | none => exact key.2
  | some iz => exact ⟨key.2.1, by have := key.2.2.1; omega, key.2.2.2⟩

/-! ### the loops -/

open Classical in
/-- The number of positive components of the dual vector in the zero set. -/
noncomputable def positives (O : Ops D) (n : Nat) (s : St D) : Nat :=
  ((Finset.Icc s.iz1 n).filter (fun q => O.lt O.zero (s.w (s.index q)) = true)).card

theorem positives_le (O : Ops D) (n : Nat) (s : St D) (h : 1 ≤ s.iz1) : positives O n s ≤ n := by
  unfold positives
  refine (Finset.card_filter_le _ _).trans ?_
  rw [Nat.card_Icc]
  omega

/-- The selection ends: with no positive component left, or with an accepted column. -/
theorem select_total {O : Ops D} (hO : Ordered O) {m n : Nat} : ∀ (fuel : Nat) (s : St D), Shape m n s →
    s.nsetp < m → positives O n s < fuel →
    (∃ t, select O m n fuel s = .ok (.inl t) ∧ Shape m n t ∧ t.iter = s.iter ∧ t.mode = s.mode) ∨
      (∃ t iz, select O m n fuel s = .ok (.inr (t, iz, t.index iz)) ∧ Shape m n t ∧ t.iter = s.iter ∧
        t.mode = s.mode ∧ t.nsetp = s.nsetp ∧ t.iz1 ≤ iz ∧ iz ≤ n) := by
  intro fuel
  induction fuel with
  | zero => intro s _ _ h; omega
  | succ fuel ih =>
    intro s hs hm hp
    unfold select
    simp only
    have hiz := hs.iz1
    have hnp := hs.npp1
    have hln := hs.le_n
    obtain ⟨_, hspec⟩ := findMax_spec hO n s (by omega)
    by_cases hle : O.le (findMax O n s).1 O.zero = true
    · rw [if_pos hle]
      exact Or.inl ⟨s, rfl, hs, rfl, rfl⟩
    · rw [if_neg hle]
      cases h2 : (findMax O n s).2 with
      | none =>
        rw [h2] at hspec
        simp only at hspec
        rw [hspec] at hle
        exact absurd hO.le_zero hle
      | some iz =>
        rw [h2] at hspec
        simp only at hspec ⊢
        obtain ⟨b1, b2, b3, b4⟩ := hspec
        have hr := hs.rng iz (by omega) b2
        rw [if_pos ⟨by omega, b2, hr.1, hr.2, by omega, by omega, by omega⟩]
        have hf := trial_fields O m s (s.index iz)
        cases htr : trial O m s (s.index iz) with
        | inl t =>
          rw [htr] at hf
          simp only at hf ⊢
          obtain ⟨f1, f2, f3, f4, f5, f6, f7⟩ := hf
          exact Or.inr ⟨t, iz, rfl, hs.congr f1 f2 f3 f4, f5, f6, f3, by omega, b2⟩
        | inr t =>
          rw [htr] at hf
          simp only at hf ⊢
          obtain ⟨f1, f2, f3, f4, f5, f6, f7⟩ := hf
          have hlt : positives O n t < positives O n s := by
            unfold positives
            rw [f1, f4, f7]
            apply Finset.card_lt_card
            rw [Finset.ssubset_iff_of_subset]
            · refine ⟨iz, ?_, ?_⟩
              · rw [Finset.mem_filter, Finset.mem_Icc]
                exact ⟨⟨b1, b2⟩, b4⟩
              · rw [Finset.mem_filter, Finset.mem_Icc]
                rintro ⟨_, h⟩
                rw [set_same, hO.irrefl] at h
                exact absurd h (by decide)
            · intro q hq
              rw [Finset.mem_filter] at hq ⊢
              refine ⟨hq.1, ?_⟩
              have h := hq.2
              by_cases he : s.index q = s.index iz
              · rw [he, set_same, hO.irrefl] at h
                exact absurd h (by decide)
              · rwa [set_ne _ _ he] at h
          rcases ih t (hs.congr f1 f2 f3 f4) (by omega) (by omega) with
            ⟨u, e1, e2, e3, e4⟩ | ⟨u, iz', e1, e2, e3, e4, e5, e6, e7⟩
          · exact Or.inl ⟨u, e1, e2, by rw [e3, f5], by rw [e4, f6]⟩
          · exact Or.inr ⟨u, iz', e1, e2, by rw [e3, f5], by rw [e4, f6], by rw [e5, f3], e6, e7⟩

/-- Invariants of the single steps: `I` at the head of the main loop, `J` at the head of the secondary loop,
`K` while coefficients are being moved out of the positive set, `E` and `E3` on the two kinds of exit. -/
structure Rules (O : Ops D) (m n : Nat) (I J : St D → Prop) (K : St D → Nat → Prop) (E E3 : St D → Prop) :
    Prop where
  /-- the tests at the head of the main loop end it -/
  quit : ∀ s, Shape m n s → I s → n < s.iz1 ∨ m ≤ s.nsetp → E s
  /-- no positive component of the dual vector is left -/
  none_left : ∀ s t, Shape m n s → I s → s.nsetp < m → s.nsetp < n →
    select O m n (n + 1) (dual O m n s) = .ok (.inl t) → Shape m n t → E t
  /-- a column is taken in -/
  taken : ∀ s t iz, Shape m n s → I s → s.nsetp < m → s.nsetp < n →
    select O m n (n + 1) (dual O m n s) = .ok (.inr (t, iz, t.index iz)) → Shape m n t → t.nsetp = s.nsetp →
    t.iz1 ≤ iz → iz ≤ n → J (solve O (accept O m n t iz (t.index iz)))
  /-- the iteration counter plays no role -/
  count : ∀ s k, J s → J { s with iter := k }
  /-- too many iterations -/
  over : ∀ s, Shape m n s → J s → E3 { s with mode := 3 }
  /-- all new coefficients are positive -/
  feasible : ∀ s, Shape m n s → J s → O.eq (stepLength O s).1 O.two = true →
    I (forUp 1 s.nsetp (fun ip s => { s with x := set s.x (s.index ip) (s.zz ip) }) s)
  /-- some are not -/
  infeasible : ∀ s jj, Shape m n s → J s → (stepLength O s).2 = some jj → 1 ≤ jj → jj ≤ s.nsetp →
    K (interpolate O s (stepLength O s).1) jj
  /-- after a removal there is another coefficient to remove -/
  more : ∀ s jj jj', Shape m n s → K s jj → 1 ≤ jj → jj ≤ s.nsetp →
    firstBad O (remove O n s jj) = some jj' → K (remove O n s jj) jj'
  /-- after a removal there is none -/
  back : ∀ s jj, Shape m n s → K s jj → 1 ≤ jj → jj ≤ s.nsetp → firstBad O (remove O n s jj) = none →
    J (solve O { remove O n s jj with
      zz := forUp 1 m (fun i zz => set zz i ((remove O n s jj).b i)) (remove O n s jj).zz })

variable {O : Ops D} {m n : Nat} {I J : St D → Prop} {K : St D → Nat → Prop} {E E3 : St D → Prop}

theorem removeAll_total (R : Rules O m n I J K E E3) : ∀ (fuel : Nat) (s : St D) (jj : Nat), Shape m n s →
    K s jj → 1 ≤ jj → jj ≤ s.nsetp → s.nsetp ≤ fuel →
    ∃ t, removeAll O m n fuel s jj = .ok t ∧ Shape m n t ∧ t.iter = s.iter ∧ t.mode = s.mode ∧
      J (solve O { t with zz := forUp 1 m (fun i zz => set zz i (t.b i)) t.zz }) := by
  intro fuel
  induction fuel with
  | zero => intro s jj _ _ _ _ _; omega
  | succ fuel ih =>
    intro s jj hs hk h1 h2 hf
    unfold removeAll
    have hiz := hs.iz1
    have hln := hs.le_n
    rw [if_pos ⟨h1, h2, hs.le_m, by omega, by omega, colsOk_of hs (Nat.le_refl _) hln⟩]
    simp only
    have hsh := remove_shape O hs h1 h2
    obtain ⟨a, b, e⟩ := remove_fields O hs h1 h2
    have hit : (remove O n s jj).iter = s.iter := by rw [e]
    have hmo : (remove O n s jj).mode = s.mode := by rw [e]
    have hns : (remove O n s jj).nsetp = s.nsetp - 1 := by rw [e]
    cases hb : firstBad O (remove O n s jj) with
    | none => exact ⟨_, rfl, hsh, hit, hmo, R.back s jj hs hk h1 h2 hb⟩
    | some jj' =>
      obtain ⟨c1, c2, _⟩ := firstBad_some hb
      obtain ⟨t, d1, d2, d3, d4, d5⟩ :=
        ih _ jj' hsh (R.more s jj jj' hs hk h1 h2 hb) c1 c2 (by omega)
      exact ⟨t, d1, d2, by rw [d3, hit], by rw [d4, hmo], d5⟩

theorem secondary_total (hO : Ordered O) (R : Rules O m n I J K E E3) : ∀ (fuel : Nat) (s : St D),
    Shape m n s → J s → s.iter ≤ 3 * n → 3 * n + 1 - s.iter ≤ fuel →
    ∃ t, secondary O m n fuel s = .ok t ∧ Shape m n t ∧
      ((t.mode = 3 ∧ E3 t) ∨ (t.mode = s.mode ∧ s.iter < t.iter ∧ t.iter ≤ 3 * n ∧ I t)) := by
  intro fuel
  induction fuel with
  | zero => intro s _ _ _ _; omega
  | succ fuel ih =>
    intro s hs hj hi hf
    unfold secondary
    simp only
    have hs1 : Shape m n { s with iter := s.iter + 1 } := hs.congr rfl rfl rfl rfl
    have hj1 := R.count s (s.iter + 1) hj
    by_cases ho : 3 * n < s.iter + 1
    · rw [if_pos ho]
      exact ⟨_, rfl, hs.congr rfl rfl rfl rfl, Or.inl ⟨rfl, R.over _ hs1 hj1⟩⟩
    · rw [if_neg ho, if_pos ⟨hs.le_m, colsOk_of hs (Nat.le_refl _) hs.le_n⟩]
      obtain ⟨_, hsp⟩ := stepLength_spec hO { s with iter := s.iter + 1 }
      cases he : O.eq (stepLength O { s with iter := s.iter + 1 }).1 O.two with
      | true =>
        rw [if_pos rfl]
        have hI := R.feasible _ hs1 hj1 he
        obtain ⟨x, hx⟩ := copyX_fields { s with iter := s.iter + 1 } s.nsetp
        simp only at hI
        rw [hx] at hI ⊢
        exact ⟨_, rfl, hs.congr rfl rfl rfl rfl, Or.inr ⟨rfl, by simp, by simp only; omega, hI⟩⟩
      | false =>
        rw [if_neg (by simp)]
        cases h2 : (stepLength O { s with iter := s.iter + 1 }).2 with
        | none =>
          rw [h2] at hsp
          simp only at hsp
          rw [hsp, hO.eq_two] at he
          exact absurd he (by decide)
        | some jj =>
          rw [h2] at hsp
          simp only at hsp ⊢
          have hK := R.infeasible _ jj hs1 hj1 h2 hsp.1 hsp.2.1
          obtain ⟨x, hx⟩ := interpolate_fields O { s with iter := s.iter + 1 }
            (stepLength O { s with iter := s.iter + 1 }).1
          rw [hx] at hK ⊢
          obtain ⟨t, d1, d2, d3, d4, d5⟩ := removeAll_total R (s.nsetp + 1)
            ({ s with iter := s.iter + 1, x := x }) jj (hs.congr rfl rfl rfl rfl) hK hsp.1 hsp.2.1
            (by simp only; omega)
          rw [d1]
          simp only [Out.bind]
          have hit : (solve O { t with zz := forUp 1 m (fun i zz => set zz i (t.b i)) t.zz }).iter =
            s.iter + 1 := d3
          obtain ⟨u, f1, f2, f3⟩ := ih
            (solve O { t with zz := forUp 1 m (fun i zz => set zz i (t.b i)) t.zz })
            (solve_shape O (d2.congr rfl rfl rfl rfl)) d5 (by omega) (by omega)
          refine ⟨u, f1, f2, ?_⟩
          rcases f3 with f3 | ⟨f3, f4, f5, f6⟩
          · exact Or.inl f3
          · exact Or.inr ⟨f3.trans d4, by omega, f5, f6⟩

/-- The main loop ends, with no subscript out of range, and the exit conditions hold. -/
theorem main_total (hO : Ordered O) (R : Rules O m n I J K E E3) : ∀ (fuel : Nat) (s : St D), Shape m n s →
    I s → s.mode = 1 → s.iter ≤ 3 * n → 3 * n + 2 - s.iter ≤ fuel →
    ∃ t, main O m n fuel s = .ok t ∧ Shape m n t ∧ ((t.mode = 1 ∧ E t) ∨ (t.mode = 3 ∧ E3 t)) := by
  intro fuel
  induction fuel with
  | zero => intro s _ _ _ _ _; omega
  | succ fuel ih =>
    intro s hs hI hmode hi hf
    unfold main
    have hiz := hs.iz1
    have hnp := hs.npp1
    have hln := hs.le_n
    by_cases hq : n < s.iz1 ∨ m ≤ s.nsetp
    · rw [if_pos hq]
      exact ⟨s, rfl, hs, Or.inl ⟨hmode, R.quit s hs hI hq⟩⟩
    · rw [if_neg hq, if_pos ⟨colsOk_of hs (by omega) (Nat.le_refl _), by omega⟩]
      have hd : Shape m n (dual O m n s) ∧ (dual O m n s).iter = s.iter ∧ (dual O m n s).mode = s.mode ∧
          (dual O m n s).nsetp = s.nsetp := by
        rw [dual_eq O m n s (by omega) (by omega)]
        exact ⟨hs.congr rfl rfl rfl rfl, rfl, rfl, rfl⟩
      obtain ⟨hd1, hd2, hd3, hd4⟩ := hd
      have hpos := positives_le O n (dual O m n s) (by rw [hd1.iz1]; omega)
      rcases select_total hO (n + 1) (dual O m n s) hd1 (by omega) (by omega) with
        ⟨t, e1, e2, e3, e4⟩ | ⟨t, iz, e1, e2, e3, e4, e5, e6, e7⟩
      · rw [e1]
        exact ⟨t, rfl, e2, Or.inl ⟨by rw [e4, hd3, hmode], R.none_left s t hs hI (by omega) (by omega) e1 e2⟩⟩
      · rw [e1]
        simp only [Out.bind]
        have hiz2 := e2.iz1
        rw [if_pos ⟨by omega, e6⟩]
        have hJ := R.taken s t iz hs hI (by omega) (by omega) e1 e2 (by omega) e6 e7
        have hsh := accept_shape O e2 (by omega) e6 e7
        rw [if_pos ⟨colsOk_of hsh (Nat.le_refl _) hsh.le_n, hsh.le_m⟩]
        have hacc : (accept O m n t iz (t.index iz)).iter = t.iter ∧
            (accept O m n t iz (t.index iz)).mode = t.mode := by
          obtain ⟨a1, a2, a3, a4⟩ := accept_cond e2 e6 e7 _ rfl
          rw [accept_eq O m n t iz _ _ rfl (by omega) (by omega) a4
            (fun q r b c d => a2 q r (by omega) c d)]
          exact ⟨rfl, rfl⟩
        have hit : (solve O (accept O m n t iz (t.index iz))).iter = s.iter := by
          change (accept O m n t iz (t.index iz)).iter = _
          omega
        have hmo : (solve O (accept O m n t iz (t.index iz))).mode = 1 := by
          change (accept O m n t iz (t.index iz)).mode = _
          rw [hacc.2, e4, hd3, hmode]
        obtain ⟨u, f1, f2, f3⟩ := secondary_total hO R
          (3 * n + 2 - (accept O m n t iz (t.index iz)).iter) _ (solve_shape O hsh) hJ (by omega) (by omega)
        rw [f1]
        simp only
        rcases f3 with ⟨f3, f4⟩ | ⟨f3, f4, f5, f6⟩
        · rw [if_pos f3]
          exact ⟨u, rfl, f2, Or.inr ⟨f3, f4⟩⟩
        · have hu : u.mode = 1 := by rw [f3, hmo]
          rw [if_neg (by omega)]
          exact ih u f2 f6 hu f5 (by omega)

/-- `nnls` ends and returns. -/
theorem nnls_total (hO : Ordered O) (R : Rules O m n I J K E E3) (hn : 1 ≤ n) (s : St D)
    (hI : I (start O n s)) :
    ∃ t, nnls O m n s = .ok (finish O m n t) ∧ Shape m n t ∧ ((t.mode = 1 ∧ E t) ∨ (t.mode = 3 ∧ E3 t)) := by
  have hst := start_eq O n s hn
  obtain ⟨t, e1, e2, e3⟩ := main_total hO R (3 * n + 2) (start O n s) (start_shape O m n s hn) hI
    (by rw [hst]) (by rw [hst]; simp) (by rw [hst]; simp)
  refine ⟨t, ?_, e2, e3⟩
  unfold nnls
  rw [e1]
  rfl

end JKD.Nnls
