import Verif.Lemmas.ChordDict
import Verif.Lemmas.ChromaReal
import Verif.Props.ChordViterbiProps
/-
The chord smoother as the chord plug-in calls it.
-/

namespace JKD.ChordViterbi

variable {D : Type}

theorem res_inj {α : Type} {a b : α} (h : Res.ok a = .ok b) : a = b := by
  cases h
  rfl

section
variable (O : Ops D) {n : Nat} {init : List D} {trans obs : List (List D)}

/-- `viterbiPath_eq` with what is left in the buffers. -/
theorem forward_full (ht : trans.length = n) (hr : ∀ r ∈ trans, r.length = n) (hn : 0 < n) (o0 : List D)
    (os : List (List D)) (ho : ∀ r ∈ os, r.length = n) (sc : D) :
    ∃ ds scs, ds.length = os.length + 1 ∧ scs.length = os.length + 1 ∧
      (∀ i, i ≤ os.length → ds[i]? = some (rows O n init trans o0 (os.take i).reverse).1) ∧
      scs[0]? = some sc ∧
      (∀ i o, os[i]? = some o → scs[i + 1]? = some (nextScale O n trans (rows O n init trans o0 (os.take i).reverse).1 o)) ∧
      forM os ([firstRow O n init o0], [List.replicate n (0 : Int)], [sc], firstRow O n init o0)
        (fun s obsRow => do
          let r ← frame O n trans s.2.2.2 obsRow
          return (s.1 ++ [r.1], s.2.1 ++ [r.2.1], s.2.2.1 ++ [r.2.2], r.1)) =
      .ok (ds, List.replicate n (0 : Int) :: (rows O n init trans o0 os.reverse).2.reverse, scs,
        (rows O n init trans o0 os.reverse).1) := by
  induction os using List.reverseRecOn with
  | nil =>
    refine ⟨_, _, rfl, rfl, ?_, rfl, ?_, rfl⟩
    · intro i hi
      obtain rfl : i = 0 := by simpa using hi
      rfl
    · intro i o h
      simp at h
  | append_singleton os o ih =>
    obtain ⟨ds, scs, h1, h2, h4, h5, h6, h3⟩ := ih (fun r h => ho r (by simp [h]))
    rw [forM_append, h3, Res.bind_ok, forM_cons,
      frame_eq O ht hr _ _ (rows_length O hn o0 _).1 (ho o (by simp)), Res.bind_ok]
    refine ⟨ds ++ [nextRow O n trans (rows O n init trans o0 os.reverse).1 o],
      scs ++ [nextScale O n trans (rows O n init trans o0 os.reverse).1 o], by simp [h1], by simp [h2], ?_, ?_, ?_, ?_⟩
    · intro i hi
      rw [List.length_append, List.length_singleton] at hi
      by_cases h : i ≤ os.length
      · rw [List.getElem?_append_left (by omega), h4 i h, List.take_append_of_le_length h]
      · obtain rfl : i = os.length + 1 := by omega
        rw [List.getElem?_append_right (by omega), h1, List.take_of_length_le (by simp)]
        simp only [Nat.sub_self, List.getElem?_cons_zero, rows, List.reverse_append, List.reverse_cons,
          List.reverse_nil, List.nil_append, List.cons_append]
    · rw [List.getElem?_append_left (by omega), h5]
    · intro i o' hi'
      by_cases h : i < os.length
      · rw [List.getElem?_append_left h] at hi'
        rw [List.getElem?_append_left (by omega), h6 i o' hi', List.take_append_of_le_length (by omega)]
      · have hlt : i < (os ++ [o]).length := (List.getElem?_eq_some_iff.mp hi').1
        rw [List.length_append, List.length_singleton] at hlt
        obtain rfl : i = os.length := by omega
        have : o = o' := by simpa using hi'
        subst this
        rw [List.getElem?_append_right (by omega), h2]
        simp
    · simp only [Res.pure_eq, Res.bind_ok, forM_nil, rows, List.reverse_append, List.reverse_cons, List.reverse_nil,
        List.nil_append, List.cons_append]

/-- The whole function in closed form. -/
theorem viterbiPath_full (o0 : List D) (os : List (List D)) (h : Sized n init trans (o0 :: os)) :
    ∃ ds scs, ds.length = os.length + 1 ∧ scs.length = os.length + 1 ∧
      (∀ i, i ≤ os.length → ds[i]? = some (rows O n init trans o0 (os.take i).reverse).1) ∧
      scs[0]? = some (O.div (O.ofNat 1) (total O (rawFirst O n init o0))) ∧
      (∀ i o, os[i]? = some o → scs[i + 1]? = some (nextScale O n trans (rows O n init trans o0 (os.take i).reverse).1 o)) ∧
      viterbiPath O init trans (o0 :: os) = .ok {
        path := trace (rows O n init trans o0 os.reverse).2
          (pick O n (fun i => (rows O n init trans o0 os.reverse).1.getD i O.zero)).1
        delta := ds, scale := scs, warned := false } := by
  have hn := h.pos
  have ho0 : o0.length = n := h.obsRow o0 (by simp)
  have hinc : inconsistent n trans (o0 :: os) = .ok false := by
    unfold inconsistent
    have h0 : at' trans 0 = .ok (trans.getD 0 []) := by
      have := at'_getD trans 0 [] (by rw [h.transLen]; exact hn)
      simpa using this
    have h1 : at' (o0 :: os) 0 = .ok o0 := rfl
    rw [h0, Res.bind_ok, if_neg (by rw [not_not]; exact getD_length trans h.transRow 0 (by rw [h.transLen]; exact hn)),
      if_neg (by rw [not_not]; exact h.transLen), h1, Res.bind_ok]
    simp [ho0]
  obtain ⟨ds, scs, h1, h2, h4, h5, h6, h3⟩ := forward_full O (init := init) h.transLen h.transRow hn o0 os
    (fun r hr => h.obsRow r (by simp [hr])) (O.div (O.ofNat 1) (total O (rawFirst O n init o0)))
  obtain ⟨hl1, hl2, hl3⟩ := rows_length O (init := init) (trans := trans) hn o0 os.reverse
  obtain ⟨k, hk, hk'⟩ := pick_range O n hn (fun i => (rows O n init trans o0 os.reverse).1.getD i O.zero)
  refine ⟨ds, scs, h1, h2, h4, h5, h6, ?_⟩
  unfold viterbiPath
  simp only [h.initLen, hinc, Res.bind_ok, firstFrame_eq O h.initLen o0 os ho0, List.tail_cons, h3, last_eq O _ hl1,
    List.reverse_reverse]
  rw [backward_eq hn _ hl3 _ (by rw [hk']; omega)]
  simp

end

/-! ### The real numbers without a value for division by zero -/

/-- Exact arithmetic in which dividing by zero gives zero. -/
noncomputable def realOps : Ops ℝ where
  zero := 0
  ofNat n := n
  add a b := a + b
  mul a b := a * b
  div a b := a / b
  gt a b := decide (b < a)

theorem pick_some (n : Nat) (c : Nat → ℝ) :
    pick (exact ℝ) n (fun i => some (c i)) = ((pick realOps n c).1, some (pick realOps n c).2) := by
  unfold pick
  have : ∀ (l : List Nat) (b : Int × ℝ),
      l.foldl (fun b i => if (exact ℝ).gt (some (c i)) b.2 then ((i : Int), some (c i)) else b) (b.1, some b.2) =
      ((l.foldl (fun b i => if realOps.gt (c i) b.2 then ((i : Int), c i) else b) b).1,
        some (l.foldl (fun b i => if realOps.gt (c i) b.2 then ((i : Int), c i) else b) b).2) := by
    intro l
    induction l with
    | nil => intro b; rfl
    | cons i l ih =>
      intro b
      rw [List.foldl_cons, List.foldl_cons]
      have hg : (exact ℝ).gt (some (c i)) (some b.2) = realOps.gt (c i) b.2 := rfl
      rw [← ih]
      dsimp only
      rw [hg]
      split <;> rfl
  exact this (List.range n) ((n : Int) - 1, 0)

theorem map_some_getD (v : List ℝ) {i : Nat} (h : i < v.length) (d : Option ℝ) :
    (v.map some).getD i d = some (v.getD i 0) := by
  rw [List.getD_eq_getElem?_getD, List.getD_eq_getElem?_getD, List.getElem?_map, List.getElem?_eq_getElem h]
  rfl

theorem entry_some {n : Nat} {m : List (List ℝ)} (hl : m.length = n) (hr : ∀ r ∈ m, r.length = n) {i j : Nat}
    (hi : i < n) (hj : j < n) :
    entry (exact ℝ) (m.map (List.map some)) i j = some (entry realOps m i j) := by
  unfold entry
  have : (m.map (List.map some)).getD i [] = (m.getD i []).map some := by
    rw [List.getD_eq_getElem?_getD, List.getD_eq_getElem?_getD, List.getElem?_map, List.getElem?_eq_getElem (by omega)]
    rfl
  rw [this, map_some_getD _ (by rw [getD_length m hr i (by omega)]; exact hj)]
  rfl

theorem total_some (v : List ℝ) : total (exact ℝ) (v.map some) = some (total realOps v) := by
  unfold total
  have : ∀ (a : ℝ), (v.map some).foldl (exact ℝ).add (some a) = some (v.foldl realOps.add a) := by
    induction v with
    | nil => intro a; rfl
    | cons x v ih => intro a; exact ih (a + x)
  exact this 0

theorem div_some {a b : ℝ} (h : b ≠ 0) : (exact ℝ).div (some a) (some b) = some (a / b) := by
  simp [exact, h]

section
variable {n : Nat} {init : List ℝ} {trans : List (List ℝ)}

theorem rawFirst_some (hi : init.length = n) {o0 : List ℝ} (h0 : o0.length = n) :
    rawFirst (exact ℝ) n (init.map some) (o0.map some) = (rawFirst realOps n init o0).map some := by
  unfold rawFirst
  rw [List.map_map]
  refine List.map_congr_left (fun i hi' => ?_)
  have hi' := List.mem_range.1 hi'
  rw [map_some_getD _ (by omega), map_some_getD _ (by omega)]
  rfl

theorem firstRow_some (hi : init.length = n) {o0 : List ℝ} (h0 : o0.length = n)
    (ht : total realOps (rawFirst realOps n init o0) ≠ 0) :
    firstRow (exact ℝ) n (init.map some) (o0.map some) = (firstRow realOps n init o0).map some := by
  unfold firstRow
  rw [rawFirst_some hi h0, total_some, List.map_map, List.map_map]
  refine List.map_congr_left (fun x _ => ?_)
  exact div_some ht

theorem choice_some (hl : trans.length = n) (hr : ∀ r ∈ trans, r.length = n) {delta o : List ℝ}
    (hd : delta.length = n) (ho : o.length = n) {j : Nat} (hj : j < n) :
    choice (exact ℝ) n (trans.map (List.map some)) (delta.map some) (o.map some) j =
      ((choice realOps n trans delta o j).1, some (choice realOps n trans delta o j).2) := by
  unfold choice
  rw [map_some_getD _ (by omega)]
  have hg : (exact ℝ).gt (some (o.getD j 0)) (exact ℝ).zero = realOps.gt (o.getD j realOps.zero) realOps.zero := rfl
  rw [hg]
  split
  · have hp : ∀ (f g : Nat → Option ℝ), (∀ i < n, f i = g i) → pick (exact ℝ) n f = pick (exact ℝ) n g := by
      intro f g h
      unfold pick
      have : ∀ (l : List Nat), (∀ i ∈ l, i < n) → ∀ b,
          l.foldl (fun b i => if (exact ℝ).gt (f i) b.2 then ((i : Int), f i) else b) b =
          l.foldl (fun b i => if (exact ℝ).gt (g i) b.2 then ((i : Int), g i) else b) b := by
        intro l
        induction l with
        | nil => intro _ b; rfl
        | cons i l ih =>
          intro hl b
          rw [List.foldl_cons, List.foldl_cons, h i (hl i (by simp))]
          exact ih (fun i hi => hl i (by simp [hi])) _
      exact this _ (fun i hi => List.mem_range.1 hi) _
    rw [hp _ (fun i => some (realOps.mul (delta.getD i realOps.zero) (entry realOps trans i j))), pick_some]
    intro i hi
    rw [map_some_getD _ (by omega), entry_some hl hr hi hj]
    rfl
  · rfl

theorem rawRow_some (hl : trans.length = n) (hr : ∀ r ∈ trans, r.length = n) {delta o : List ℝ}
    (hd : delta.length = n) (ho : o.length = n) :
    rawRow (exact ℝ) n (trans.map (List.map some)) (delta.map some) (o.map some) =
      (rawRow realOps n trans delta o).map some := by
  unfold rawRow
  rw [List.map_map]
  refine List.map_congr_left (fun j hj => ?_)
  have hj := List.mem_range.1 hj
  rw [choice_some hl hr hd ho hj, map_some_getD _ (by omega)]
  rfl

theorem nextRow_some (hn : 0 < n) (hl : trans.length = n) (hr : ∀ r ∈ trans, r.length = n) {delta o : List ℝ}
    (hd : delta.length = n) (ho : o.length = n) :
    nextRow (exact ℝ) n (trans.map (List.map some)) (delta.map some) (o.map some) =
      (nextRow realOps n trans delta o).map some := by
  unfold nextRow
  dsimp only
  rw [rawRow_some hl hr hd ho, total_some]
  have hg : (exact ℝ).gt (some (total realOps (rawRow realOps n trans delta o))) (exact ℝ).zero =
      realOps.gt (total realOps (rawRow realOps n trans delta o)) realOps.zero := rfl
  rw [hg]
  split
  · next h =>
    rw [List.map_map, List.map_map]
    refine List.map_congr_left (fun x _ => ?_)
    have : (0 : ℝ) < total realOps (rawRow realOps n trans delta o) := by simpa [realOps] using h
    exact div_some this.ne'
  · rw [List.map_replicate]
    have hn' : ((n : Nat) : ℝ) ≠ 0 := by
      have : (0 : ℝ) < (n : ℝ) := by exact_mod_cast hn
      exact this.ne'
    have : (exact ℝ).div ((exact ℝ).ofNat 1) ((exact ℝ).ofNat n) = some (realOps.div (realOps.ofNat 1) (realOps.ofNat n)) :=
      div_some hn'
    rw [this]

theorem psiRow_some (hl : trans.length = n) (hr : ∀ r ∈ trans, r.length = n) {delta o : List ℝ}
    (hd : delta.length = n) (ho : o.length = n) :
    psiRow (exact ℝ) n (trans.map (List.map some)) (delta.map some) (o.map some) = psiRow realOps n trans delta o := by
  unfold psiRow
  refine List.map_congr_left (fun j hj => ?_)
  have hj := List.mem_range.1 hj
  rw [choice_some hl hr hd ho hj]

theorem rows_some (hn : 0 < n) (hi : init.length = n) (hl : trans.length = n) (hr : ∀ r ∈ trans, r.length = n)
    {o0 : List ℝ} (h0 : o0.length = n) (ht : total realOps (rawFirst realOps n init o0) ≠ 0)
    (os : List (List ℝ)) (ho : ∀ o ∈ os, o.length = n) :
    rows (exact ℝ) n (init.map some) (trans.map (List.map some)) (o0.map some) (os.map (List.map some)) =
      ((rows realOps n init trans o0 os).1.map some, (rows realOps n init trans o0 os).2) := by
  induction os with
  | nil =>
    change (firstRow (exact ℝ) n (init.map some) (o0.map some), _) = _
    rw [firstRow_some hi h0 ht]
    rfl
  | cons o os ih =>
    have ih := ih (fun x hx => ho x (by simp [hx]))
    have hlen := (rows_length realOps (init := init) (trans := trans) hn o0 os).1
    have ho' : o.length = n := ho o (by simp)
    rw [List.map_cons]
    unfold rows
    dsimp only
    rw [ih]
    dsimp only
    rw [nextRow_some hn hl hr hlen ho', psiRow_some hl hr hlen ho']

/-- The path does not depend on what dividing by zero gives. -/
theorem path_some {o0 : List ℝ} {os : List (List ℝ)} (h : Sized n init trans (o0 :: os))
    (ht : total realOps (rawFirst realOps n init o0) ≠ 0) {r : Result ℝ}
    (e : viterbiPath realOps init trans (o0 :: os) = .ok r) :
    ∃ r', viterbiPath (exact ℝ) (init.map some) (trans.map (List.map some)) ((o0 :: os).map (List.map some)) = .ok r' ∧
      r'.path = r.path := by
  have h' : Sized n (init.map some) (trans.map (List.map some)) (o0.map some :: os.map (List.map some)) := by
    refine ⟨h.pos, by rw [List.length_map]; exact h.initLen, by rw [List.length_map]; exact h.transLen, ?_, by simp, ?_⟩
    · intro r hr
      obtain ⟨r', hr', rfl⟩ := List.mem_map.1 hr
      rw [List.length_map]
      exact h.transRow r' hr'
    · intro r hr
      rw [← List.map_cons (f := List.map some)] at hr
      obtain ⟨r', hr', rfl⟩ := List.mem_map.1 hr
      rw [List.length_map]
      exact h.obsRow r' hr'
  obtain ⟨ds, scs, -, -, -, -, -, e1⟩ := viterbiPath_full realOps o0 os h
  obtain ⟨ds', scs', -, -, -, -, -, e2⟩ := viterbiPath_full (exact ℝ) _ _ h'
  rw [e] at e1
  refine ⟨_, e2, ?_⟩
  rw [res_inj e1]
  dsimp only
  have hos : ∀ o ∈ os.reverse, o.length = n := fun o ho => h.obsRow o (by simp at ho; simp [ho])
  have hlen := (rows_length realOps (init := init) (trans := trans) h.pos o0 os.reverse).1
  rw [← List.map_reverse, rows_some h.pos h.initLen h.transLen h.transRow (h.obsRow o0 (by simp)) ht os.reverse hos]
  dsimp only
  have hp : ∀ (v : List ℝ), v.length = n → (pick (exact ℝ) n (fun i => (v.map some).getD i (exact ℝ).zero)).1 =
      (pick realOps n (fun i => v.getD i realOps.zero)).1 := by
    intro v hv
    have : pick (exact ℝ) n (fun i => (v.map some).getD i (exact ℝ).zero) =
        pick (exact ℝ) n (fun i => some (v.getD i 0)) := by
      unfold pick
      have : ∀ (l : List Nat), (∀ i ∈ l, i < n) → ∀ b,
          l.foldl (fun b i => if (exact ℝ).gt ((v.map some).getD i (exact ℝ).zero) b.2 then
            ((i : Int), (v.map some).getD i (exact ℝ).zero) else b) b =
          l.foldl (fun b i => if (exact ℝ).gt (some (v.getD i 0)) b.2 then ((i : Int), some (v.getD i 0)) else b) b := by
        intro l
        induction l with
        | nil => intro _ b; rfl
        | cons i l ih =>
          intro hl b
          rw [List.foldl_cons, List.foldl_cons, map_some_getD v (by rw [hv]; exact hl i (by simp))]
          exact ih (fun i hi => hl i (by simp [hi])) _
      exact this _ (fun i hi => List.mem_range.1 hi) _
    rw [this, pick_some]
    rfl
  rw [hp _ hlen]

end

end JKD.ChordViterbi
