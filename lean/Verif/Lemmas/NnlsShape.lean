import Verif.Model.Nnls
import Mathlib.Tactic.Common
/-
What the pieces of `nnls` do to the memory, for any arithmetic: closed forms of the loops.
-/

namespace JKD.Nnls

variable {D : Type}

theorem forN_induct {S : Type} {body : Nat → S → S} {lo : Nat} {s : S} (P : Nat → S → Prop) (h0 : P 0 s)
    (N : Nat) (hs : ∀ k t, k < N → P k t → P (k + 1) (body (lo + k) t)) : P N (forN body lo N s) := by
  have : ∀ k, k ≤ N → P k (forN body lo k s) := by
    intro k
    induction k with
    | zero => intro _; exact h0
    | succ k ih => intro hk; exact hs k _ (by omega) (ih (by omega))
  exact this N (Nat.le_refl _)

/-- Loop rule for `forUp`: `P i` holds before the round `i`. -/
theorem forUp_induct {S : Type} {body : Nat → S → S} {lo hi : Nat} {s : S} (P : Nat → S → Prop)
    (hle : lo ≤ hi + 1) (h0 : P lo s) (hs : ∀ i t, lo ≤ i → i ≤ hi → P i t → P (i + 1) (body i t)) :
    P (hi + 1) (forUp lo hi body s) := by
  have := forN_induct (body := body) (lo := lo) (s := s) (fun k t => P (lo + k) t) (by simpa using h0)
    (hi + 1 - lo) (by
      intro k t hk h
      exact hs (lo + k) t (by omega) (by omega) h)
  rw [show lo + (hi + 1 - lo) = hi + 1 by omega] at this
  exact this

theorem forUp_empty {S : Type} {body : Nat → S → S} {lo hi : Nat} {s : S} (h : hi < lo) :
    forUp lo hi body s = s := by
  unfold forUp
  rw [show hi + 1 - lo = 0 by omega]
  rfl

@[simp] theorem set_same {V : Type} (f : Nat → V) (i : Nat) (v : V) : set f i v i = v := by simp [set]

theorem set_ne {V : Type} (f : Nat → V) {i k : Nat} (v : V) (h : k ≠ i) : set f i v k = f k := by simp [set, h]

/-- Copying a range of an array. -/
theorem copy_eq {V : Type} (f g : Nat → V) (lo hi : Nat) :
    forUp lo hi (fun l t => set t l (f l)) g = fun l => if lo ≤ l ∧ l ≤ hi then f l else g l := by
  rcases Nat.lt_or_ge hi lo with h | h
  · rw [forUp_empty h]
    funext l
    rw [if_neg (by omega)]
  · have := forUp_induct (body := fun l t => set t l (f l)) (lo := lo) (hi := hi) (s := g)
      (fun i t => t = fun l => if lo ≤ l ∧ l < i then f l else g l) (by omega)
      (by funext l; rw [if_neg (by omega)])
      (by
        intro i t hi1 hi2 ht
        subst ht
        funext l
        by_cases hl : l = i
        · subst hl; simp [set, hi1]
        · simp only [set, hl, if_false]
          by_cases h1 : lo ≤ l ∧ l < i
          · rw [if_pos h1, if_pos (by omega)]
          · rw [if_neg h1, if_neg (by omega)])
    rw [this]
    funext l
    by_cases h1 : lo ≤ l ∧ l ≤ hi
    · rw [if_pos (by omega), if_pos h1]
    · rw [if_neg (by omega), if_neg h1]

/-- Updating a range of an array place by place. -/
theorem upd_eq {V : Type} (f : Nat → V → V) (g : Nat → V) (lo hi : Nat) :
    forUp lo hi (fun l t => set t l (f l (t l))) g = fun l => if lo ≤ l ∧ l ≤ hi then f l (g l) else g l := by
  rcases Nat.lt_or_ge hi lo with h | h
  · rw [forUp_empty h]
    funext l
    rw [if_neg (by omega)]
  · have := forUp_induct (body := fun l t => set t l (f l (t l))) (lo := lo) (hi := hi) (s := g)
      (fun i t => t = fun l => if lo ≤ l ∧ l < i then f l (g l) else g l) (by omega)
      (by funext l; rw [if_neg (by omega)])
      (by
        intro i t hi1 hi2 ht
        subst ht
        funext l
        by_cases hl : l = i
        · subst hl; simp [set, hi1]
        · simp only [set, hl, if_false]
          by_cases h1 : lo ≤ l ∧ l < i
          · rw [if_pos h1, if_pos (by omega)]
          · rw [if_neg h1, if_neg (by omega)])
    rw [this]
    funext l
    by_cases h1 : lo ≤ l ∧ l ≤ hi
    · rw [if_pos (by omega), if_pos h1]
    · rw [if_neg (by omega), if_neg h1]

/-! ### the subroutines -/

/-- The vector `v` with `s` times the Householder vector added. -/
def reflect (O : Ops D) (p m : Nat) (u : Nat → D) (up sm : D) (c : Nat → D) : Nat → D :=
  fun l => if l = p then O.add (c p) (O.mul sm up)
    else if p < l ∧ l ≤ m then O.add (c l) (O.mul sm (u l)) else c l

theorem h12Apply_loop (O : Ops D) (p m : Nat) (u : Nat → D) (up sm : D) (c : Nat → D) :
    forUp (p + 1) m (fun i c => set c i (O.add (c i) (O.mul sm (u i)))) (set c p (O.add (c p) (O.mul sm up))) =
      reflect O p m u up sm c := by
  rw [upd_eq (fun l v => O.add v (O.mul sm (u l)))]
  funext l
  unfold reflect
  by_cases hl : l = p
  · subst hl
    rw [if_neg (by omega), if_pos rfl, set_same]
  · rw [if_neg hl, set_ne _ _ hl]
    by_cases h1 : p < l ∧ l ≤ m
    · rw [if_pos (by omega), if_pos h1]
    · rw [if_neg (by omega), if_neg h1]

/-- The rotation of the rows `p` and `q`. -/
def rot (O : Ops D) (cc ss : D) (p q : Nat) (v : Nat → D) : Nat → D :=
  fun r => if r = q then O.add (O.mul (O.neg ss) (v p)) (O.mul cc (v q))
    else if r = p then O.add (O.mul cc (v p)) (O.mul ss (v q)) else v r

theorem rot_eq (O : Ops D) (cc ss : D) {p q : Nat} (h : p ≠ q) (v : Nat → D) :
    set (set v p (O.add (O.mul cc (v p)) (O.mul ss (v q)))) q
      (O.add (O.mul (O.neg ss) (v p)) (O.mul cc (set v p (O.add (O.mul cc (v p)) (O.mul ss (v q))) q))) =
      rot O cc ss p q v := by
  funext r
  unfold rot
  rw [set_ne _ _ h.symm]
  by_cases h1 : r = q
  · subst h1; simp
  · rw [set_ne _ _ h1, if_neg h1]
    by_cases h2 : r = p
    · subst h2; simp
    · rw [set_ne _ _ h2, if_neg h2]

/-- The rotation of one column. -/
theorem rotCol_eq (O : Ops D) (cc ss : D) {p q : Nat} (h : p ≠ q) (s : St D) (l : Nat) :
    (let temp := s.a p l
     let v := O.add (O.mul cc temp) (O.mul ss (s.a q l))
     let s := { s with a := setCol s.a l (set (s.col l) p v) }
     let v := O.add (O.mul (O.neg ss) temp) (O.mul cc (s.a q l))
     ({ s with a := setCol s.a l (set (s.col l) q v) } : St D)) =
      { s with a := setCol s.a l (rot O cc ss p q (s.col l)) } := by
  simp only [St.mk.injEq, true_and, and_true]
  rw [← rot_eq O cc ss h]
  funext r c
  unfold setCol St.col
  by_cases hc : c = l
  · simp only [hc, if_true]
  · simp only [hc, if_false]

/-- `rotate` in closed form. -/
theorem rotate_eq (O : Ops D) (n j : Nat) (s : St D) (hj : 1 ≤ j) :
    rotate O n j s =
      { s with
        index := set s.index (j - 1) (s.index j)
        a := fun r c =>
          if c = s.index j then
            (if r = j then O.zero else if r = j - 1 then (g1 O (s.a (j - 1) c) (s.a j c)).2.2 else s.a r c)
          else if 1 ≤ c ∧ c ≤ n then
            rot O (g1 O (s.a (j - 1) (s.index j)) (s.a j (s.index j))).1
              (g1 O (s.a (j - 1) (s.index j)) (s.a j (s.index j))).2.1 (j - 1) j (s.col c) r
          else s.a r c
        b := rot O (g1 O (s.a (j - 1) (s.index j)) (s.a j (s.index j))).1
              (g1 O (s.a (j - 1) (s.index j)) (s.a j (s.index j))).2.1 (j - 1) j s.b } := by
  unfold rotate
  simp only
  generalize hii : s.index j = ii
  generalize hg : g1 O (s.a (j - 1) ii) (s.a j ii) = g
  obtain ⟨cc, ss, sig⟩ := g
  simp only
  set_option linter.unusedVariables false in
  generalize hs1 : ({ s with
    index := set s.index (j - 1) ii
    a := setCol s.a ii (set (set (St.col { s with index := set s.index (j - 1) ii } ii) (j - 1) sig) j O.zero) } :
      St D) = s1
  have key := forUp_induct (lo := 1) (hi := n) (s := s1)
    (body := fun l s =>
      if l ≠ ii then
        let temp := s.a (j - 1) l
        let v := O.add (O.mul cc temp) (O.mul ss (s.a j l))
        let s := { s with a := setCol s.a l (set (s.col l) (j - 1) v) }
        let v := O.add (O.mul (O.neg ss) temp) (O.mul cc (s.a j l))
        { s with a := setCol s.a l (set (s.col l) j v) }
      else s)
    (fun i t => t = { s1 with
      a := fun r c => if c ≠ ii ∧ 1 ≤ c ∧ c < i then rot O cc ss (j - 1) j (s1.col c) r else s1.a r c })
    (by omega)
    (by
      rcases s1 with ⟨⟩
      simp only [St.mk.injEq, true_and, and_true]
      funext r c
      rw [if_neg (by omega)])
    (by
      intro i t hi1 hi2 ht
      subst ht
      by_cases hc : i ≠ ii
      · rw [if_pos hc, rotCol_eq O cc ss (by omega : j - 1 ≠ j)]
        simp only [St.mk.injEq, true_and, and_true]
        funext r c
        by_cases hci : c = i
        · subst hci
          rw [if_pos ⟨hc, hi1, by omega⟩]
          simp only [setCol, if_true]
          refine congrFun (congrArg _ ?_) r
          funext r
          simp [St.col]
        · simp only [setCol, hci, if_false]
          by_cases h1 : c ≠ ii ∧ 1 ≤ c ∧ c < i
          · rw [if_pos h1, if_pos ⟨h1.1, h1.2.1, by omega⟩]
          · rw [if_neg h1, if_neg (by rintro ⟨a, b, c⟩; exact h1 ⟨a, b, by omega⟩)]
      · rw [if_neg hc]
        simp only [St.mk.injEq, true_and, and_true]
        funext r c
        by_cases h1 : c ≠ ii ∧ 1 ≤ c ∧ c < i
        · rw [if_pos h1, if_pos ⟨h1.1, h1.2.1, by omega⟩]
        · rw [if_neg h1, if_neg (by
            rintro ⟨a, b, c⟩
            exact h1 ⟨a, b, by have : ¬ i ≠ ii := hc; omega⟩)])
  rw [key]
  subst hs1
  simp only [St.mk.injEq, true_and]
  refine ⟨?_, ?_, trivial⟩
  · funext r c
    by_cases hc : c = ii
    · subst hc
      rw [if_neg (by simp), if_pos rfl]
      simp only [setCol, if_true, hg]
      by_cases h1 : r = j
      · subst h1; simp
      · rw [set_ne _ _ h1, if_neg h1]
        by_cases h2 : r = j - 1
        · subst h2; simp
        · rw [set_ne _ _ h2, if_neg h2]; rfl
    · rw [if_neg hc]
      by_cases h1 : 1 ≤ c ∧ c ≤ n
      · rw [if_pos ⟨hc, h1.1, by omega⟩, if_pos h1]
        unfold rot St.col setCol
        simp only [hc, if_false]
      · rw [if_neg (by omega), if_neg h1]
        simp only [setCol, hc, if_false]
  · exact rot_eq O cc ss (by omega) s.b

/-- `c` is stored in `index` at one of the positions `lo … hi`. -/
def At (index : Nat → Nat) (lo hi c : Nat) : Prop := ∃ q, lo ≤ q ∧ q ≤ hi ∧ index q = c

theorem At_succ {index : Nat → Nat} {lo hi c : Nat} (h : lo ≤ hi + 1) :
    At index lo (hi + 1) c ↔ At index lo hi c ∨ index (hi + 1) = c := by
  constructor
  · rintro ⟨q, h1, h2, h3⟩
    rcases Nat.lt_or_ge q (hi + 1) with h4 | h4
    · exact Or.inl ⟨q, h1, by omega, h3⟩
    · exact Or.inr (by rw [← h3]; congr 1; omega)
  · rintro (⟨q, h1, h2, h3⟩ | h3)
    · exact ⟨q, h1, by omega, h3⟩
    · exact ⟨hi + 1, h, Nat.le_refl _, h3⟩

theorem At_pred {index : Nat → Nat} {lo i c : Nat} (h : lo ≤ i) (h0 : 1 ≤ lo) :
    At index lo i c ↔ At index lo (i - 1) c ∨ index i = c := by
  have := At_succ (index := index) (lo := lo) (hi := i - 1) (c := c) (by omega)
  rwa [show i - 1 + 1 = i by omega] at this

open Classical in
/-- `dual` in closed form. -/
theorem dual_eq (O : Ops D) (m n : Nat) (s : St D) (h1 : 1 ≤ s.iz1) (h2 : s.iz1 ≤ n + 1) :
    dual O m n s = { s with
      w := fun j => if At s.index s.iz1 n j then O.sum O.zero s.npp1 m (fun l => O.mul (s.a l j) (s.b l))
        else s.w j } := by
  unfold dual
  have key := forUp_induct (lo := s.iz1) (hi := n) (s := s)
    (body := fun iz s =>
      { s with w := set s.w (s.index iz) (O.sum O.zero s.npp1 m (fun l => O.mul (s.a l (s.index iz)) (s.b l))) })
    (fun i t => t = { s with
      w := fun j => if At s.index s.iz1 (i - 1) j then O.sum O.zero s.npp1 m (fun l => O.mul (s.a l j) (s.b l))
        else s.w j })
    h2
    (by
      rcases s with ⟨⟩
      simp only [St.mk.injEq, true_and, and_true]
      funext j
      rw [if_neg]
      rintro ⟨q, h3, h4, _⟩
      simp only at h1
      omega)
    (by
      intro i t hi1 hi2 ht
      subst ht
      simp only [St.mk.injEq, true_and, and_true]
      funext j
      simp only [Nat.add_sub_cancel]
      by_cases hj : j = s.index i
      · subst hj
        rw [set_same, if_pos ⟨i, hi1, Nat.le_refl _, rfl⟩]
      · rw [set_ne _ _ hj]
        have hat : At s.index s.iz1 i j ↔ At s.index s.iz1 (i - 1) j := by
          rw [At_pred hi1 h1]
          simp [Ne.symm hj]
        simp only [hat])
  rw [key]
  rfl

theorem h12Apply_congr (O : Ops D) (p l1 m : Nat) {u v : Nat → D} (up : D) (c : Nat → D)
    (h : ∀ l, u l = v l) : h12Apply O p l1 m u up c = h12Apply O p l1 m v up c := by
  rw [show u = v from funext h]

open Classical in
/-- `accept` in closed form, when the stored columns are different ones. -/
theorem accept_eq (O : Ops D) (m n : Nat) (s : St D) (iz j : Nat) (idx : Nat → Nat)
    (hidx : idx = set (set s.index iz (s.index s.iz1)) s.iz1 j) (h1 : 1 ≤ s.iz1) (h2 : s.iz1 ≤ n)
    (hj : ¬ At idx (s.iz1 + 1) n j)
    (hinj : ∀ q r, s.iz1 + 1 ≤ q → q < r → r ≤ n → idx q ≠ idx r) :
    accept O m n s iz j = { s with
      b := fun l => if 1 ≤ l ∧ l ≤ m then s.zz l else s.b l
      index := idx
      iz1 := s.iz1 + 1
      nsetp := s.npp1
      npp1 := s.npp1 + 1
      a := fun r c =>
        if c = j then (if s.npp1 + 1 ≤ r ∧ r ≤ m then O.zero else s.a r j)
        else if At idx (s.iz1 + 1) n c then h12Apply O s.npp1 (s.npp1 + 1) m (s.col j) s.up (s.col c) r
        else s.a r c
      w := set s.w j O.zero } := by
  unfold accept
  simp only
  rw [← hidx]
  rw [copy_eq]
  generalize hs1 : ({ s with
      b := fun l => if 1 ≤ l ∧ l ≤ m then s.zz l else s.b l
      index := idx
      iz1 := s.iz1 + 1
      nsetp := s.npp1
      npp1 := s.npp1 + 1 } : St D) = s1
  have hidx1 : s1.index = idx := by rw [← hs1]
  have hiz : s1.iz1 = s.iz1 + 1 := by rw [← hs1]
  have hns : s1.nsetp = s.npp1 := by rw [← hs1]
  have hnp : s1.npp1 = s.npp1 + 1 := by rw [← hs1]
  have hup : s1.up = s.up := by rw [← hs1]
  have ha : s1.a = s.a := by rw [← hs1]
  have hcol : ∀ c, s1.col c = s.col c := by intro c; unfold St.col; rw [ha]
  have key := forUp_induct (lo := s.iz1 + 1) (hi := n) (s := s1)
    (body := fun jz s =>
      { s with a := setCol s.a (s.index jz) (h12Apply O s.nsetp s.npp1 m (s.col j) s.up (s.col (s.index jz))) })
    (fun i t => t = { s1 with
      a := fun r c => (if At idx (s.iz1 + 1) (i - 1) c then
          h12Apply O s.npp1 (s.npp1 + 1) m (s.col j) s.up (s.col c) r
        else s.a r c) })
    (by omega)
    (by
      rw [← ha]
      rcases s1 with ⟨⟩
      simp only [St.mk.injEq, true_and, and_true]
      funext r c
      rw [if_neg]
      rintro ⟨q, h3, h4, _⟩
      omega)
    (by
      intro i t hi1 hi2 ht
      subst ht
      simp only [St.mk.injEq, true_and, and_true]
      funext r c
      simp only [Nat.add_sub_cancel, hidx1, hns, hnp, hup]
      unfold setCol
      by_cases hc : c = idx i
      · subst hc
        rw [if_pos rfl, if_pos ⟨i, hi1, Nat.le_refl _, rfl⟩]
        have e1 : ∀ c, ¬ At idx (s.iz1 + 1) (i - 1) c →
            (fun l => if At idx (s.iz1 + 1) (i - 1) c then
              h12Apply O s.npp1 (s.npp1 + 1) m (s.col j) s.up (s.col c) l else s.a l c) = s.col c := by
          intro c hc
          funext l
          rw [if_neg hc]
          rfl
        unfold St.col at e1 ⊢
        rw [e1 j (by
          rintro ⟨q, h3, h4, h5⟩
          exact hj ⟨q, h3, by omega, h5⟩)]
        rw [e1 (idx i) (by
          rintro ⟨q, h3, h4, h5⟩
          exact hinj q i h3 (by omega) hi2 h5)]
      · rw [if_neg hc]
        have hat : At idx (s.iz1 + 1) i c ↔ At idx (s.iz1 + 1) (i - 1) c := by
          rw [At_pred hi1 (by omega)]
          simp [Ne.symm hc]
        simp only [hat])
  rw [Nat.add_sub_cancel] at key
  rw [key]
  clear key
  generalize hs2 : ({ s1 with
      a := fun r c => (if At idx (s.iz1 + 1) n c then
          h12Apply O s.npp1 (s.npp1 + 1) m (s.col j) s.up (s.col c) r
        else s.a r c) } : St D) = s2
  have ha2 : ∀ r, s2.a r j = s.a r j := by
    intro r
    rw [← hs2]
    simp only
    rw [if_neg hj]
  have hns2 : s2.nsetp = s.npp1 := by rw [← hs2]; exact hns
  have hnp2 : s2.npp1 = s.npp1 + 1 := by rw [← hs2]; exact hnp
  have hzero : (if s2.nsetp ≠ m then
      forUp s2.npp1 m (fun l s => { s with a := setCol s.a j (set (s.col j) l O.zero) }) s2 else s2) =
      { s2 with
        a := fun r c => (if c = j then (if s.npp1 + 1 ≤ r ∧ r ≤ m then O.zero else s.a r j) else s2.a r c) } := by
    have e0 : ∀ (P : Nat → Prop) [DecidablePred P], (∀ r, ¬ P r) →
        s2 = { s2 with a := fun r c => if c = j then (if P r then O.zero else s.a r j) else s2.a r c } := by
      intro P _ hP
      have : (fun r c => if c = j then (if P r then O.zero else s.a r j) else s2.a r c) = s2.a := by
        funext r c
        by_cases hc : c = j
        · subst hc
          rw [if_pos rfl, if_neg (hP r), ha2]
        · rw [if_neg hc]
      rw [this]
    by_cases hm : s2.nsetp ≠ m
    · rw [if_pos hm]
      rcases Nat.lt_or_ge m s2.npp1 with hlt | hge
      · rw [forUp_empty hlt]
        exact e0 (fun r => s.npp1 + 1 ≤ r ∧ r ≤ m) (by intro r; omega)
      · have key2 := forUp_induct (lo := s2.npp1) (hi := m) (s := s2)
          (body := fun l s => { s with a := setCol s.a j (set (s.col j) l O.zero) })
          (fun i t => t = { s2 with
            a := fun r c => if c = j then (if s.npp1 + 1 ≤ r ∧ r < i then O.zero else s.a r j) else s2.a r c })
          (by omega) (e0 (fun r => s.npp1 + 1 ≤ r ∧ r < s2.npp1) (by intro r; omega))
          (by
            intro i t hi1 hi2 ht
            subst ht
            simp only [St.mk.injEq, true_and, and_true]
            funext r c
            unfold setCol St.col
            by_cases hc : c = j
            · subst hc
              simp only [if_true]
              by_cases hr : r = i
              · subst hr
                rw [set_same, if_pos (by omega)]
              · rw [set_ne _ _ hr]
                by_cases h3 : s.npp1 + 1 ≤ r ∧ r < i
                · rw [if_pos h3, if_pos (by omega)]
                · rw [if_neg h3, if_neg (by omega)]
            · simp only [hc, if_false])
        rw [key2]
        congr 1
        funext r c
        by_cases hc : c = j
        · rw [if_pos hc, if_pos hc]
          by_cases h3 : s.npp1 + 1 ≤ r ∧ r ≤ m
          · rw [if_pos h3, if_pos (by omega)]
          · rw [if_neg h3, if_neg (by omega)]
        · rw [if_neg hc, if_neg hc]
    · rw [if_neg hm]
      have hm' : s2.nsetp = m := Decidable.not_not.mp hm
      exact e0 (fun r => s.npp1 + 1 ≤ r ∧ r ≤ m) (by intro r; omega)
  rw [hzero]
  subst hs2
  subst hs1
  rfl

end JKD.Nnls
