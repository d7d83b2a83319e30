import Verif.Model.ChordViterbi
import Mathlib.Algebra.Order.Field.Basic
import Mathlib.Algebra.Order.BigOperators.Group.List
import Mathlib.Data.List.Induction
import Mathlib.Algebra.Order.Ring.Rat
import Mathlib.Tactic.Ring
import Mathlib.Tactic.Linarith
import Mathlib.Tactic.FieldSimp
/-
C50: the chord smoother `ViterbiPath`.
-/

namespace JKD.ChordViterbi

variable {D : Type}

/-- The sizes agree, and there is at least one state and one frame. -/
structure Sized (n : Nat) (init : List D) (trans obs : List (List D)) : Prop where
  pos : 0 < n
  initLen : init.length = n
  transLen : trans.length = n
  transRow : ∀ r ∈ trans, r.length = n
  frames : obs ≠ []
  obsRow : ∀ r ∈ obs, r.length = n

theorem at'_nat {α : Type} (v : List α) (i : Nat) (h : i < v.length) : at' v (i : Int) = .ok v[i] := by
  simp [at', h]

theorem at'_getD {α : Type} (v : List α) (i : Nat) (d : α) (h : i < v.length) :
    at' v (i : Int) = .ok (v.getD i d) := by
  rw [at'_nat v i h, List.getD_eq_getElem?_getD, List.getElem?_eq_getElem h]; rfl

/-- First greatest positive value, by the loop used twice in the function. -/
def pick (O : Ops D) (n : Nat) (cur : Nat → D) : Int × D :=
  (List.range n).foldl (fun b i => if O.gt (cur i) b.2 then ((i : Int), cur i) else b) ((n : Int) - 1, O.zero)

theorem pick_range (O : Ops D) (n : Nat) (hn : 0 < n) (cur : Nat → D) :
    ∃ k : Nat, k < n ∧ (pick O n cur).1 = (k : Int) := by
  have : ∀ (l : List Nat) (b : Int × D), (∀ i ∈ l, i < n) → (∃ k : Nat, k < n ∧ b.1 = (k : Int)) →
      ∃ k : Nat, k < n ∧
        (l.foldl (fun b i => if O.gt (cur i) b.2 then ((i : Int), cur i) else b) b).1 = (k : Int) := by
    intro l
    induction l with
    | nil => intro b _ h; simpa using h
    | cons i l ih =>
      intro b hl h
      rw [List.foldl_cons]
      apply ih _ (fun i h => hl i (by simp [h]))
      split
      · exact ⟨i, hl i (by simp), rfl⟩
      · exact h
  exact this _ _ (fun i h => List.mem_range.1 h) ⟨n - 1, by omega, by simp only; omega⟩

section
variable (O : Ops D) {n : Nat} {init : List D} {trans obs : List (List D)}

/-- Entry of a table. -/
def entry (O : Ops D) (m : List (List D)) (i j : Nat) : D := (m.getD i []).getD j O.zero

theorem getD_length (m : List (List D)) (hm : ∀ r ∈ m, r.length = n) (i : Nat) (hi : i < m.length) :
    (m.getD i []).length = n := by
  rw [List.getD_eq_getElem?_getD, List.getElem?_eq_getElem hi]
  exact hm _ (List.getElem_mem hi)

theorem best_eq (ht : trans.length = n) (hr : ∀ r ∈ trans, r.length = n) (delta : List D)
    (hd : delta.length = n) (j : Nat) (hj : j < n) :
    best O n trans delta j = .ok (pick O n (fun i => O.mul (delta.getD i O.zero) (entry O trans i j))) := by
  unfold best pick
  rw [← forM_ok]
  apply forM_congr
  intro b i hi
  have hi := List.mem_range.1 hi
  rw [at'_getD delta i O.zero (by omega), at'_getD trans i [] (by omega), Res.bind_ok, Res.bind_ok,
    at'_getD _ j O.zero (by rw [getD_length trans hr i (by omega)]; exact hj), Res.bind_ok]
  rfl

/-- What one state of one frame remembers: best predecessor and value before the observation. -/
def choice (O : Ops D) (n : Nat) (trans : List (List D)) (delta obsRow : List D) (j : Nat) : Int × D :=
  if O.gt (obsRow.getD j O.zero) O.zero then
    pick O n (fun i => O.mul (delta.getD i O.zero) (entry O trans i j))
  else ((n : Int) - 1, O.zero)

/-- The unscaled row. -/
def rawRow (O : Ops D) (n : Nat) (trans : List (List D)) (delta obsRow : List D) : List D :=
  (List.range n).map (fun j => O.mul (choice O n trans delta obsRow j).2 (obsRow.getD j O.zero))

def total (O : Ops D) (row : List D) : D := row.foldl O.add O.zero

theorem accumulate {α : Type} (l : List α) (d : α → D) (q : α → Int) (r : List D) (p : List Int) (s : D) :
    l.foldl (fun (s : List D × List Int × D) j => (s.1 ++ [d j], s.2.1 ++ [q j], O.add s.2.2 (d j))) (r, p, s) =
      (r ++ l.map d, p ++ l.map q, (l.map d).foldl O.add s) := by
  induction l generalizing r p s with
  | nil => simp
  | cons a l ih => simp [ih]

theorem accumulate1 {α : Type} (l : List α) (d : α → D) (r : List D) (s : D) :
    l.foldl (fun (s : List D × D) j => (s.1 ++ [d j], O.add s.2 (d j))) (r, s) =
      (r ++ l.map d, (l.map d).foldl O.add s) := by
  induction l generalizing r s with
  | nil => simp
  | cons a l ih => simp [ih]

/-- The scaled row. -/
def nextRow (O : Ops D) (n : Nat) (trans : List (List D)) (delta obsRow : List D) : List D :=
  let raw := rawRow O n trans delta obsRow
  if O.gt (total O raw) O.zero then raw.map (fun d => O.div d (total O raw))
  else List.replicate n (O.div (O.ofNat 1) (O.ofNat n))

def nextScale (O : Ops D) (n : Nat) (trans : List (List D)) (delta obsRow : List D) : D :=
  let raw := rawRow O n trans delta obsRow
  if O.gt (total O raw) O.zero then O.div (O.ofNat 1) (total O raw) else O.ofNat 1

def psiRow (O : Ops D) (n : Nat) (trans : List (List D)) (delta obsRow : List D) : List Int :=
  (List.range n).map (fun j => (choice O n trans delta obsRow j).1)

theorem nextRow_length (delta obsRow : List D) : (nextRow O n trans delta obsRow).length = n := by
  unfold nextRow rawRow
  simp only
  split <;> simp

theorem frame_eq (ht : trans.length = n) (hr : ∀ r ∈ trans, r.length = n) (delta obsRow : List D)
    (hd : delta.length = n) (ho : obsRow.length = n) :
    frame O n trans delta obsRow =
      .ok (nextRow O n trans delta obsRow, psiRow O n trans delta obsRow, nextScale O n trans delta obsRow) := by
  have h : forM (List.range n) (([] : List D), ([] : List Int), O.zero) (fun s (j : Nat) => do
      let o ← at' obsRow j
      let b ← if O.gt o O.zero then best O n trans delta j else Res.ok ((n : Int) - 1, O.zero)
      let d := O.mul b.2 o
      return (s.1 ++ [d], s.2.1 ++ [b.1], O.add s.2.2 d)) =
      .ok (rawRow O n trans delta obsRow, psiRow O n trans delta obsRow,
        total O (rawRow O n trans delta obsRow)) := by
    have := accumulate O (List.range n)
      (fun j => O.mul (choice O n trans delta obsRow j).2 (obsRow.getD j O.zero))
      (fun j => (choice O n trans delta obsRow j).1) [] [] O.zero
    simp only [List.nil_append] at this
    rw [rawRow, psiRow, total, ← this, ← forM_ok]
    apply forM_congr
    intro s j hj
    have hj := List.mem_range.1 hj
    rw [at'_getD obsRow j O.zero (by omega), Res.bind_ok]
    unfold choice
    split
    · rw [best_eq O ht hr delta hd j hj, Res.bind_ok]; rfl
    · rw [Res.bind_ok]; rfl
  unfold frame
  rw [h, Res.bind_ok]
  unfold nextRow nextScale
  simp only
  split <;> rfl

/-- The unscaled first row. -/
def rawFirst (O : Ops D) (n : Nat) (init obsRow : List D) : List D :=
  (List.range n).map (fun i => O.mul (init.getD i O.zero) (obsRow.getD i O.zero))

def firstRow (O : Ops D) (n : Nat) (init obsRow : List D) : List D :=
  (rawFirst O n init obsRow).map (fun d => O.div d (total O (rawFirst O n init obsRow)))

theorem firstFrame_eq (hi : init.length = n) (o0 : List D) (rest : List (List D)) (ho : o0.length = n) :
    firstFrame O n init (o0 :: rest) =
      .ok (firstRow O n init o0, O.div (O.ofNat 1) (total O (rawFirst O n init o0))) := by
  have h : forM (List.range n) (([] : List D), O.zero) (fun s (i : Nat) => do
      let a ← at' init i
      let o0 ← at' (o0 :: rest) 0
      let o ← at' o0 i
      let d := O.mul a o
      return (s.1 ++ [d], O.add s.2 d)) =
      .ok (rawFirst O n init o0, total O (rawFirst O n init o0)) := by
    have := accumulate1 O (List.range n) (fun i => O.mul (init.getD i O.zero) (o0.getD i O.zero)) [] O.zero
    simp only [List.nil_append] at this
    rw [rawFirst, total, ← this, ← forM_ok]
    apply forM_congr
    intro s j hj
    have hj := List.mem_range.1 hj
    have h0 : at' (o0 :: rest) 0 = .ok o0 := rfl
    rw [at'_getD init j O.zero (by omega), Res.bind_ok, h0, Res.bind_ok, at'_getD o0 j O.zero (by omega),
      Res.bind_ok]
    rfl
  unfold firstFrame
  rw [h, Res.bind_ok]
  rfl

/-- The rows of `delta` and `psi` after the frames `os` (latest first). -/
def rows (O : Ops D) (n : Nat) (init : List D) (trans : List (List D)) (o0 : List D) :
    List (List D) → List D × List (List Int)
  | [] => (firstRow O n init o0, [])
  | o :: os =>
    let r := rows O n init trans o0 os
    (nextRow O n trans r.1 o, psiRow O n trans r.1 o :: r.2)

/-- Backtracking from the state `j` of the latest frame. -/
def trace : List (List Int) → Int → List Int
  | [], j => [j]
  | row :: rest, j => trace rest (row.getD j.toNat 0) ++ [j]

theorem last_eq (delta : List D) (hd : delta.length = n) :
    last O n delta = .ok (pick O n (fun i => delta.getD i O.zero)).1 := by
  unfold last pick
  rw [forM_congr (g := fun b (i : Nat) => .ok (if O.gt (delta.getD i O.zero) b.2 then ((i : Int), delta.getD i O.zero)
    else b)), forM_ok]
  · rfl
  · intro b i hi
    have hi := List.mem_range.1 hi
    rw [at'_getD delta i O.zero (by omega), Res.bind_ok]
    rfl

theorem rows_length (hn : 0 < n) (o0 : List D) (os : List (List D)) :
    (rows O n init trans o0 os).1.length = n ∧ (rows O n init trans o0 os).2.length = os.length ∧
      ∀ r ∈ (rows O n init trans o0 os).2, r.length = n ∧ ∀ x ∈ r, 0 ≤ x ∧ x < n := by
  induction os with
  | nil => exact ⟨by simp [rows, firstRow, rawFirst], rfl, by simp [rows]⟩
  | cons o os ih =>
    refine ⟨nextRow_length O _ _, by simp [rows, ih.2.1], ?_⟩
    intro r hr
    simp only [rows, List.mem_cons] at hr
    rcases hr with rfl | hr
    · refine ⟨by simp [psiRow], ?_⟩
      intro x hx
      obtain ⟨j, _, rfl⟩ := List.mem_map.1 hx
      unfold choice
      split
      · obtain ⟨k, hk, e⟩ := pick_range O n hn (fun i => O.mul ((rows O n init trans o0 os).1.getD i O.zero)
          (entry O trans i j))
        rw [e]; omega
      · simp only; omega
    · exact ih.2.2 r hr

theorem forward_eq (ht : trans.length = n) (hr : ∀ r ∈ trans, r.length = n) (hn : 0 < n) (o0 : List D)
    (os : List (List D)) (ho : ∀ r ∈ os, r.length = n) (sc : D) :
    ∃ ds scs, ds.length = os.length + 1 ∧ scs.length = os.length + 1 ∧
      forM os ([firstRow O n init o0], [List.replicate n (0 : Int)], [sc], firstRow O n init o0)
        (fun s obsRow => do
          let r ← frame O n trans s.2.2.2 obsRow
          return (s.1 ++ [r.1], s.2.1 ++ [r.2.1], s.2.2.1 ++ [r.2.2], r.1)) =
      .ok (ds, List.replicate n (0 : Int) :: (rows O n init trans o0 os.reverse).2.reverse, scs,
        (rows O n init trans o0 os.reverse).1) := by
  induction os using List.reverseRecOn with
  | nil => exact ⟨_, _, rfl, rfl, rfl⟩
  | append_singleton os o ih =>
    obtain ⟨ds, scs, h1, h2, h3⟩ := ih (fun r h => ho r (by simp [h]))
    rw [forM_append, h3, Res.bind_ok, forM_cons,
      frame_eq O ht hr _ _ (rows_length O hn o0 _).1 (ho o (by simp)), Res.bind_ok]
    refine ⟨ds ++ [nextRow O n trans (rows O n init trans o0 os.reverse).1 o],
      scs ++ [nextScale O n trans (rows O n init trans o0 os.reverse).1 o], by simp [h1], by simp [h2], ?_⟩
    simp only [Res.pure_eq, Res.bind_ok, forM_nil, rows, List.reverse_append, List.reverse_cons, List.reverse_nil,
      List.nil_append, List.cons_append]

theorem backward_eq (hn : 0 < n) (psis : List (List Int)) (hp : ∀ r ∈ psis, r.length = n ∧ ∀ x ∈ r, 0 ≤ x ∧ x < n)
    (j : Int) (hj : 0 ≤ j ∧ j < n) (rest : List Int) :
    forM psis (j :: rest) (fun path row => do
      let h ← at' path 0
      let p ← at' row h
      return p :: path) = .ok (trace psis j ++ rest) := by
  induction psis generalizing j rest with
  | nil => rfl
  | cons row psis ih =>
    obtain ⟨hl, hx⟩ := hp row (by simp)
    have h0 : at' (j :: rest) 0 = .ok j := rfl
    have hjl : j.toNat < row.length := by omega
    have h1 : at' row j = .ok (row.getD j.toNat 0) := by
      have := at'_getD row j.toNat 0 hjl
      rwa [Int.toNat_of_nonneg hj.1] at this
    have hmem : row.getD j.toNat 0 ∈ row := by
      rw [List.getD_eq_getElem?_getD, List.getElem?_eq_getElem hjl]
      exact List.getElem_mem hjl
    rw [forM_cons, h0, Res.bind_ok, h1, Res.bind_ok, Res.pure_eq, Res.bind_ok,
      ih (fun r h => hp r (by simp [h])) _ (hx _ hmem)]
    simp [trace]

theorem trace_ok (hn : 0 < n) (psis : List (List Int)) (hp : ∀ r ∈ psis, r.length = n ∧ ∀ x ∈ r, 0 ≤ x ∧ x < n)
    (j : Int) (hj : 0 ≤ j ∧ j < n) :
    (trace psis j).length = psis.length + 1 ∧ (∀ x ∈ trace psis j, 0 ≤ x ∧ x < n) := by
  induction psis generalizing j with
  | nil => simpa [trace] using hj
  | cons row psis ih =>
    obtain ⟨hl, hx⟩ := hp row (by simp)
    have hjl : j.toNat < row.length := by omega
    have hmem : row.getD j.toNat 0 ∈ row := by
      rw [List.getD_eq_getElem?_getD, List.getElem?_eq_getElem hjl]
      exact List.getElem_mem hjl
    obtain ⟨h1, h2⟩ := ih (fun r h => hp r (by simp [h])) _ (hx _ hmem)
    refine ⟨by rw [trace, List.length_append, h1]; simp, ?_⟩
    intro x hx
    simp only [trace, List.mem_append, List.mem_singleton] at hx
    rcases hx with h | rfl
    · exact h2 x h
    · exact hj

/-- The whole function in closed form. -/
theorem viterbiPath_eq (o0 : List D) (os : List (List D)) (h : Sized n init trans (o0 :: os)) :
    ∃ ds scs, ds.length = (o0 :: os).length ∧ scs.length = (o0 :: os).length ∧
      viterbiPath O init trans (o0 :: os) = .ok {
        path := trace (rows O n init trans o0 os.reverse).2
          (pick O n (fun i => (rows O n init trans o0 os.reverse).1.getD i O.zero)).1
        delta := ds, scale := scs, warned := false } := by
  have hn := h.pos
  have ho0 : o0.length = n := h.obsRow o0 (by simp)
  have hinc : inconsistent n trans (o0 :: os) = .ok false := by
    unfold inconsistent
    have h0 : at' trans 0 = .ok (trans.getD 0 []) := by
      have := at'_getD trans 0 [] (by rw [h.transLen]; exact hn)
      simpa using this
    have h1 : at' (o0 :: os) 0 = .ok o0 := rfl
    rw [h0, Res.bind_ok, if_neg (by rw [not_not]; exact getD_length trans h.transRow 0 (by rw [h.transLen]; exact hn)),
      if_neg (by rw [not_not]; exact h.transLen), h1, Res.bind_ok]
    simp [ho0]
  obtain ⟨ds, scs, h1, h2, h3⟩ := forward_eq O (init := init) h.transLen h.transRow hn o0 os
    (fun r hr => h.obsRow r (by simp [hr])) (O.div (O.ofNat 1) (total O (rawFirst O n init o0)))
  obtain ⟨hl1, hl2, hl3⟩ := rows_length O (init := init) (trans := trans) hn o0 os.reverse
  obtain ⟨k, hk, hk'⟩ := pick_range O n hn (fun i => (rows O n init trans o0 os.reverse).1.getD i O.zero)
  refine ⟨ds, scs, h1, h2, ?_⟩
  unfold viterbiPath
  simp only [h.initLen, hinc, Res.bind_ok, firstFrame_eq O h.initLen o0 os ho0, List.tail_cons, h3, last_eq O _ hl1,
    List.reverse_reverse]
  rw [backward_eq hn _ hl3 _ (by rw [hk']; omega)]
  simp

/-- **C50, safety.**  Whatever the numbers are (NaN and infinities included), on tables of agreeing sizes with
at least one state and one frame the function has no undefined behaviour and returns one state index per
frame, each in range. -/
theorem C50_safe (h : Sized n init trans obs) :
    ∃ r, viterbiPath O init trans obs = .ok r ∧ r.path.length = obs.length ∧ (∀ x ∈ r.path, 0 ≤ x ∧ x < n) ∧
      r.scale.length = obs.length ∧ r.delta.length = obs.length ∧ r.warned = false := by
  cases obs with
  | nil => exact absurd rfl h.frames
  | cons o0 os =>
    obtain ⟨ds, scs, h1, h2, h3⟩ := viterbiPath_eq O o0 os h
    obtain ⟨hl1, hl2, hl3⟩ := rows_length O (init := init) (trans := trans) h.pos o0 os.reverse
    obtain ⟨k, hk, hk'⟩ := pick_range O n h.pos (fun i => (rows O n init trans o0 os.reverse).1.getD i O.zero)
    obtain ⟨t1, t2⟩ := trace_ok h.pos _ hl3
      (pick O n (fun i => (rows O n init trans o0 os.reverse).1.getD i O.zero)).1 (by rw [hk']; omega)
    exact ⟨_, h3, by rw [t1, hl2]; simp, t2, h2, h1, rfl⟩

/-- **C50 violated, no frames.**  `obs[0]` of an empty vector. -/
theorem C50_no_frames_violated (a : D) (row : List D) (trans : List (List D)) :
    viterbiPath O (a :: init) (row :: trans) [] = .ub := by
  have h0 : at' (row :: trans) 0 = .ok row := rfl
  have h1 : at' ([] : List (List D)) 0 = .ub := rfl
  have hf : ∀ m, firstFrame O (m + 1) (a :: init) [] = .ub := by
    intro m
    unfold firstFrame
    rw [List.range_succ_eq_map, forM_cons]
    have : at' (a :: init) ((0 : Nat) : Int) = .ok a := rfl
    rw [this]
    rfl
  unfold viterbiPath inconsistent
  simp only [h0, Res.bind_ok, List.length_cons, hf]
  split
  · rfl
  · split <;> rfl

/-- **C50 violated, inconsistent sizes.**  The size check prints a message and goes on: an observation row
that is too short is read past its end. -/
theorem C50_short_row_violated (x y : D) : viterbiPath O [x, y] [[x, y], [x, y]] [[x]] = .ub := rfl

theorem res_bind_ok {α β : Type} {x : Res α} {f : α → Res β} {b : β} (h : (x >>= f) = .ok b) : ∃ a, x = .ok a ∧ f a = .ok b := by
  cases x with
  | ok a => exact ⟨a, rfl, h⟩
  | ub => cases h
  | throw e => cases h

/-- **C50, the message.**  If the function returns at all, it has complained exactly if the first row of the transitions, their number
of rows or the first observation row does not fit the initial probabilities. -/
theorem C50_message (init : List D) (trans obs : List (List D)) (r : Result D) (h : viterbiPath O init trans obs = .ok r)
    (row orow : List D) (ht : trans.head? = some row) (ho : obs.head? = some orow) :
    r.warned = true ↔ ¬ (row.length = init.length ∧ trans.length = init.length ∧ orow.length = init.length) := by
  obtain ⟨rows, rfl⟩ : ∃ rows, trans = row :: rows := by
    cases trans with
    | nil => simp at ht
    | cons x xs => simp only [List.head?_cons, Option.some.injEq] at ht; subst ht; exact ⟨_, rfl⟩
  obtain ⟨orows, rfl⟩ : ∃ rows, obs = orow :: rows := by
    cases obs with
    | nil => simp at ho
    | cons x xs => simp only [List.head?_cons, Option.some.injEq] at ho; subst ho; exact ⟨_, rfl⟩
  unfold viterbiPath at h
  obtain ⟨w, hw, h⟩ := res_bind_ok h
  obtain ⟨f, _, h⟩ := res_bind_ok h
  obtain ⟨st, _, h⟩ := res_bind_ok h
  obtain ⟨l, _, h⟩ := res_bind_ok h
  obtain ⟨p, _, h⟩ := res_bind_ok h
  obtain rfl := Res.ok.inj h
  have h0 : at' (row :: rows) 0 = .ok row := rfl
  have h1 : at' (orow :: orows) 0 = .ok orow := rfl
  unfold inconsistent at hw
  simp only [h0, h1, Res.bind_ok] at hw
  by_cases e1 : row.length = init.length
  · rw [if_neg (by simpa using e1)] at hw
    by_cases e2 : (row :: rows).length = init.length
    · rw [if_neg (by simpa using e2)] at hw
      obtain rfl := Res.ok.inj hw
      simp [e1, e2]
    · rw [if_pos e2] at hw
      obtain rfl := Res.ok.inj hw
      exact iff_of_true rfl (fun h => e2 h.2.1)
  · rw [if_pos e1] at hw
    obtain rfl := Res.ok.inj hw
    simp [e1]

/-- A column too many: the function complains and returns a path. -/
example (x : D) : ∃ r, viterbiPath O [x] [[x, x]] [[x]] = .ok r ∧ r.warned = true := ⟨_, rfl, rfl⟩

end

/-! ### Optimality in exact arithmetic -/

section
variable {K : Type} [Field K] [LinearOrder K] [IsStrictOrderedRing K]

/-- Exact arithmetic with one NaN, the result of dividing by zero (of a non-negative `a`: `0/0`; `a/0` with
`a > 0` cannot arise, as the divisor is a sum of non-negative numbers with `a` among them). -/
def exact (K : Type) [Field K] [LinearOrder K] : Ops (Option K) where
  zero := some 0
  ofNat n := some n
  add a b := do return (← a) + (← b)
  mul a b := do return (← a) * (← b)
  div a b := do
    let x ← a
    let y ← b
    if y = 0 then none else some (x / y)
  gt a b := match a, b with
    | some x, some y => decide (y < x)
    | _, _ => false

/-- Weight of a state path: initial probability, then per frame transition and observation, multiplied up.
Frames after the first, latest first; states latest first too. -/
def weight (ini : Nat → K) (tr : Nat → Nat → K) (ob0 : Nat → K) : List (Nat → K) → List Nat → K
  | [], [s] => ini s * ob0 s
  | o :: os, t :: s :: p => weight ini tr ob0 os (s :: p) * tr s t * o t
  | _, _ => 0

/-- Real-valued tables as the function's arguments. -/
def vec (n : Nat) (f : Nat → K) : List (Option K) := (List.range n).map (fun i => some (f i))
def mat (n : Nat) (f : Nat → Nat → K) : List (List (Option K)) := (List.range n).map (fun i => vec n (f i))

theorem vec_getD (n : Nat) (f : Nat → K) (i : Nat) (hi : i < n) (d : Option K) : (vec n f).getD i d = some (f i) := by
  unfold vec
  rw [List.getD_eq_getElem?_getD]
  simp [hi]

theorem mat_entry (n : Nat) (f : Nat → Nat → K) (i j : Nat) (hi : i < n) (hj : j < n) :
    entry (exact K) (mat n f) i j = some (f i j) := by
  unfold entry mat
  have : ((List.range n).map (fun i => vec n (f i))).getD i [] = vec n (f i) := by
    rw [List.getD_eq_getElem?_getD]; simp [hi]
  rw [this, vec_getD n _ j hj]

theorem total_vec (n : Nat) (f : Nat → K) : total (exact K) (vec n f) = some ((List.range n).map f).sum := by
  have : ∀ (l : List Nat) (a : K), (l.map (fun i => some (f i))).foldl (exact K).add (some a) =
      some (a + (l.map f).sum) := by
    intro l
    induction l with
    | nil => intro a; simp
    | cons x l ih =>
      intro a
      rw [List.map_cons, List.foldl_cons]
      have : (exact K).add (some a) (some (f x)) = some (a + f x) := rfl
      rw [this, ih, List.map_cons, List.sum_cons, add_assoc]
  have h := this (List.range n) 0
  rw [zero_add] at h
  exact h

/-- The loop `pick` on real values: the greatest value and one index that has it, if positive. -/
theorem pick_spec (n : Nat) (cur : Nat → Option K) (c : Nat → K) (hc : ∀ i < n, cur i = some (c i)) :
    ∃ v, (pick (exact K) n cur).2 = some v ∧ 0 ≤ v ∧ (∀ i < n, c i ≤ v) ∧
      (0 < v → ∃ i : Nat, i < n ∧ (pick (exact K) n cur).1 = (i : Int) ∧ c i = v) := by
  have key : ∀ (l : List Nat) (b : Int × Option K) (v : K), (∀ i ∈ l, i < n) → b.2 = some v → 0 ≤ v →
      (0 < v → ∃ i : Nat, i < n ∧ b.1 = (i : Int) ∧ c i = v) →
      ∃ v', (l.foldl (fun b i => if (exact K).gt (cur i) b.2 then ((i : Int), cur i) else b) b).2 = some v' ∧
        v ≤ v' ∧ (∀ i ∈ l, c i ≤ v') ∧ (0 < v' → ∃ i : Nat, i < n ∧
          (l.foldl (fun b i => if (exact K).gt (cur i) b.2 then ((i : Int), cur i) else b) b).1 = (i : Int) ∧ c i = v') := by
    intro l
    induction l with
    | nil => intro b v _ hb _ h; exact ⟨v, hb, le_refl _, by simp, h⟩
    | cons i l ih =>
      intro b v hl hb hv h
      have hi : i < n := hl i (by simp)
      rw [List.foldl_cons]
      have hgt : (exact K).gt (cur i) b.2 = decide (v < c i) := by rw [hc i hi, hb]; rfl
      rw [hgt]
      by_cases hlt : v < c i
      · simp only [hlt, decide_true, if_true]
        obtain ⟨v', h1, h2, h3, h4⟩ := ih ((i : Int), cur i) (c i) (fun i h => hl i (by simp [h])) (hc i hi)
          (hv.trans hlt.le) (fun _ => ⟨i, hi, rfl, rfl⟩)
        refine ⟨v', h1, hlt.le.trans h2, ?_, h4⟩
        intro k hk
        rcases List.mem_cons.1 hk with rfl | hk
        · exact h2
        · exact h3 k hk
      · simp only [hlt, decide_false, Bool.false_eq_true, if_false]
        obtain ⟨v', h1, h2, h3, h4⟩ := ih b v (fun i h => hl i (by simp [h])) hb hv h
        refine ⟨v', h1, h2, ?_, h4⟩
        intro k hk
        rcases List.mem_cons.1 hk with rfl | hk
        · exact (not_lt.1 hlt).trans h2
        · exact h3 k hk
  obtain ⟨v, h1, h2, h3, h4⟩ := key (List.range n) ((n : Int) - 1, (exact K).zero) 0
    (fun i h => List.mem_range.1 h) rfl (le_refl _) (fun h => absurd h (lt_irrefl _))
  exact ⟨v, h1, h2, fun i hi => h3 i (List.mem_range.2 hi), h4⟩

variable (n : Nat) (ini : Nat → K) (tr : Nat → Nat → K) (ob0 : Nat → K)

/-- A state path for the frames so far (latest state first), ending in state `j`. -/
def Ends (n : Nat) (m : Nat) (j : Nat) (p : List Nat) : Prop :=
  p.length = m + 1 ∧ (∀ s ∈ p, s < n) ∧ p.head? = some j

/-- What is known after the frames `os`: the row holds the greatest weights times a common positive factor. -/
def Good (os : List (Nat → K)) (row : List (Option K)) (psis : List (List Int)) : Prop :=
  ∃ (c : K) (d : Nat → K), 0 < c ∧ row = vec n d ∧ ∀ j < n, 0 ≤ d j ∧
    (∀ p, Ends n os.length j p → c * weight ini tr ob0 os p ≤ d j) ∧
    (0 < d j → ∃ p, Ends n os.length j p ∧ (trace psis j) = (p.reverse.map Int.ofNat) ∧
      c * weight ini tr ob0 os p = d j)

variable (hini : ∀ i, 0 ≤ ini i) (htr : ∀ i j, 0 ≤ tr i j) (hob0 : ∀ i, 0 ≤ ob0 i)
include hini htr hob0

omit [LinearOrder K] [IsStrictOrderedRing K] hini htr hob0 in
theorem weight_cons (o : Nat → K) (os : List (Nat → K)) (t s : Nat) (p : List Nat) :
    weight ini tr ob0 (o :: os) (t :: s :: p) = weight ini tr ob0 os (s :: p) * tr s t * o t := rfl

theorem weight_nonneg (os : List (Nat → K)) (hos : ∀ o ∈ os, ∀ i, 0 ≤ o i) (p : List Nat) :
    0 ≤ weight ini tr ob0 os p := by
  induction os generalizing p with
  | nil =>
    rcases p with _ | ⟨s, _ | ⟨t, p⟩⟩
    · exact le_refl _
    · exact mul_nonneg (hini s) (hob0 s)
    · exact le_refl _
  | cons o os ih =>
    rcases p with _ | ⟨t, _ | ⟨s, p⟩⟩
    · exact le_refl _
    · exact le_refl _
    · rw [weight_cons]
      exact mul_nonneg (mul_nonneg (ih (fun o h => hos o (by simp [h])) _) (htr s t)) (hos o (by simp) t)

omit hini htr hob0 in
theorem scaled (raw : Nat → K) (h0 : ∀ j < n, 0 ≤ raw j) (j : Nat) (hj : j < n) (hp : 0 < raw j) :
    0 < ((List.range n).map raw).sum ∧
      (vec n raw).map (fun d => (exact K).div d (some ((List.range n).map raw).sum)) =
        vec n (fun i => raw i / ((List.range n).map raw).sum) := by
  have hs : 0 < ((List.range n).map raw).sum := by
    have hle : raw j ≤ ((List.range n).map raw).sum := by
      apply List.single_le_sum
      · intro x hx
        obtain ⟨i, hi, rfl⟩ := List.mem_map.1 hx
        exact h0 i (List.mem_range.1 hi)
      · exact List.mem_map.2 ⟨j, List.mem_range.2 hj, rfl⟩
    exact lt_of_lt_of_le hp hle
  refine ⟨hs, ?_⟩
  unfold vec
  rw [List.map_map]
  refine List.map_congr_left (fun i _ => ?_)
  simp [exact, hs.ne']

theorem good_first (j : Nat) (hj : j < n) (hp : 0 < ini j * ob0 j) :
    Good n ini tr ob0 [] (firstRow (exact K) n (vec n ini) (vec n ob0)) [] := by
  have hraw : rawFirst (exact K) n (vec n ini) (vec n ob0) = vec n (fun i => ini i * ob0 i) := by
    unfold rawFirst
    refine List.map_congr_left (fun i hi => ?_)
    have hi := List.mem_range.1 hi
    rw [vec_getD n ini i hi, vec_getD n ob0 i hi]
    rfl
  obtain ⟨hs, hm⟩ := scaled n (fun i => ini i * ob0 i) (fun i _ => mul_nonneg (hini i) (hob0 i)) j hj hp
  generalize hS : ((List.range n).map (fun i => ini i * ob0 i)).sum = S at hs hm
  refine ⟨1 / S, fun i => ini i * ob0 i / S, by positivity, ?_, ?_⟩
  · unfold firstRow
    rw [hraw, total_vec, hS, hm]
  · intro k hk
    refine ⟨div_nonneg (mul_nonneg (hini k) (hob0 k)) hs.le, ?_, ?_⟩
    · rintro p ⟨hl, _, hh⟩
      obtain ⟨s, rfl⟩ := List.length_eq_one_iff.1 hl
      have : s = k := by simpa using hh
      subst this
      apply le_of_eq
      simp only [weight]
      ring
    · intro _
      refine ⟨[k], ⟨rfl, by simpa using hk, rfl⟩, rfl, ?_⟩
      simp only [weight]
      ring

theorem good_next (os : List (Nat → K)) (o : Nat → K) (ho : ∀ i, 0 ≤ o i) (row : List (Option K))
    (psis : List (List Int)) (h : Good n ini tr ob0 os row psis)
    (q : List Nat) (hq : q.length = os.length + 2) (hqn : ∀ s ∈ q, s < n)
    (hpos : 0 < weight ini tr ob0 (o :: os) q) :
    Good n ini tr ob0 (o :: os) (nextRow (exact K) n (mat n tr) row (vec n o))
      (psiRow (exact K) n (mat n tr) row (vec n o) :: psis) := by
  obtain ⟨c, d, hc, rfl, hd⟩ := h
  -- best values before the observation
  have hcur : ∀ j < n, ∀ i < n, (exact K).mul ((vec n d).getD i (exact K).zero) (entry (exact K) (mat n tr) i j) =
      some (d i * tr i j) := by
    intro j hj i hi
    rw [vec_getD n d i hi, mat_entry n tr i j hi hj]; rfl
  have hchoice : ∀ j < n, ∃ v, (choice (exact K) n (mat n tr) (vec n d) (vec n o) j).2 = some v ∧ 0 ≤ v ∧
      (0 < o j → ∀ i < n, d i * tr i j ≤ v) ∧
      (0 < v → ∃ i : Nat, i < n ∧ (choice (exact K) n (mat n tr) (vec n d) (vec n o) j).1 = (i : Int) ∧
        d i * tr i j = v) := by
    intro j hj
    have hg : (exact K).gt ((vec n o).getD j (exact K).zero) (exact K).zero = decide (0 < o j) := by
      rw [vec_getD n o j hj]; rfl
    unfold choice
    rw [hg]
    by_cases hoj : 0 < o j
    · simp only [hoj, decide_true, if_true]
      obtain ⟨v, h1, h2, h3, h4⟩ := pick_spec n _ (fun i => d i * tr i j) (hcur j hj)
      exact ⟨v, h1, h2, fun _ => h3, h4⟩
    · simp only [hoj, decide_false, Bool.false_eq_true, if_false]
      exact ⟨0, rfl, le_refl _, fun h => h.elim, fun h => absurd h (lt_irrefl _)⟩
  choose! v hv1 hv2 hv3 hv4 using hchoice
  have hraw : rawRow (exact K) n (mat n tr) (vec n d) (vec n o) = vec n (fun j => v j * o j) := by
    unfold rawRow
    refine List.map_congr_left (fun j hj => ?_)
    have hj := List.mem_range.1 hj
    rw [hv1 j hj, vec_getD n o j hj]; rfl
  have hraw0 : ∀ j < n, 0 ≤ v j * o j := fun j hj => mul_nonneg (hv2 j hj) (ho j)
  -- upper bound before scaling
  have hup : ∀ j < n, ∀ p, Ends n (os.length + 1) j p → c * weight ini tr ob0 (o :: os) p ≤ v j * o j := by
    rintro j hj p ⟨hl, hs, hh⟩
    rcases p with _ | ⟨t, _ | ⟨s, p⟩⟩
    · simp at hl
    · simp at hl
    · have : t = j := by simpa using hh
      subst this
      have hsn : s < n := hs s (by simp)
      rw [weight_cons]
      rcases (ho t).eq_or_lt with h0 | h0
      · rw [← h0]; simp
      · have h1 := (hd s hsn).2.1 (s :: p) ⟨by simpa using hl, fun x hx => hs x (by simp [hx]), rfl⟩
        have h2 := hv3 t hj h0 s hsn
        calc c * (weight ini tr ob0 os (s :: p) * tr s t * o t)
            = (c * weight ini tr ob0 os (s :: p)) * tr s t * o t := by ring
          _ ≤ d s * tr s t * o t := by
              apply mul_le_mul_of_nonneg_right _ (ho t)
              exact mul_le_mul_of_nonneg_right h1 (htr s t)
          _ ≤ v t * o t := mul_le_mul_of_nonneg_right h2 (ho t)
  -- some raw value is positive
  obtain ⟨j0, hj0, hp0⟩ : ∃ j, j < n ∧ 0 < v j * o j := by
    rcases q with _ | ⟨t, q⟩
    · simp at hq
    · refine ⟨t, hqn t (by simp), lt_of_lt_of_le (mul_pos hc hpos) (hup t (hqn t (by simp)) _ ⟨hq, hqn, rfl⟩)⟩
  obtain ⟨hs, hm⟩ := scaled n (fun j => v j * o j) hraw0 j0 hj0 hp0
  generalize hS : ((List.range n).map (fun j => v j * o j)).sum = S at hs hm
  refine ⟨c / S, fun j => v j * o j / S, by positivity, ?_, ?_⟩
  · unfold nextRow
    simp only
    rw [hraw, total_vec, hS]
    have : (exact K).gt (some S) (exact K).zero = true := by
      change decide (0 < S) = true
      simpa using hs
    rw [this, if_pos rfl, hm]
  · intro j hj
    refine ⟨div_nonneg (hraw0 j hj) hs.le, ?_, ?_⟩
    · intro p hp
      have := hup j hj p hp
      calc c / S * weight ini tr ob0 (o :: os) p = c * weight ini tr ob0 (o :: os) p / S := by ring
        _ ≤ v j * o j / S := div_le_div_of_nonneg_right this hs.le
    · intro hpj
      have hvo : 0 < v j * o j := by
        by_contra hn
        have : v j * o j = 0 := le_antisymm (not_lt.1 hn) (hraw0 j hj)
        simp [this] at hpj
      have hvj : 0 < v j := by
        rcases (hv2 j hj).eq_or_lt with h | h
        · rw [← h] at hvo; simp at hvo
        · exact h
      obtain ⟨i, hi, hi1, hi2⟩ := hv4 j hj hvj
      have hdi : 0 < d i := by
        rcases (hd i hi).1.eq_or_lt with h | h
        · rw [← h, zero_mul] at hi2; rw [← hi2] at hvj; exact absurd hvj (lt_irrefl _)
        · exact h
      obtain ⟨p, hp, hpt, hpw⟩ := (hd i hi).2.2 hdi
      obtain ⟨hpl, hpn, hph⟩ := hp
      rcases p with _ | ⟨s, p⟩
      · simp at hph
      have : s = i := by simpa using hph
      subst this
      refine ⟨j :: s :: p, ⟨by simpa using hpl, ?_, rfl⟩, ?_, ?_⟩
      · intro x hx
        rcases List.mem_cons.1 hx with rfl | hx
        · exact hj
        · exact hpn x hx
      · have hrow : (psiRow (exact K) n (mat n tr) (vec n d) (vec n o)).getD j 0 = (s : Int) := by
          unfold psiRow
          rw [List.getD_eq_getElem?_getD]
          simp [hj, hi1]
        simp only [trace, Int.toNat_natCast, hrow, hpt]
        simp
      · change c / S * _ = v j * o j / S
        rw [weight_cons, ← hi2, ← hpw]
        ring

/-- **C50, optimality.**  In exact arithmetic, for non-negative tables of any size: if some state path has
positive probability, the returned path is a state path of the greatest probability (initial times transition
times observation probabilities). -/
theorem C50_optimal (os : List (Nat → K)) (hos : ∀ o ∈ os, ∀ i, 0 ≤ o i)
    (q : List Nat) (hq : q.length = os.length + 1) (hqn : ∀ s ∈ q, s < n)
    (hpos : 0 < weight ini tr ob0 os.reverse q.reverse) :
    ∃ (r : Result (Option K)) (p : List Nat), viterbiPath (exact K) (vec n ini) (mat n tr) (vec n ob0 :: os.map (vec n)) = .ok r ∧
      r.path = p.map Int.ofNat ∧ p.length = os.length + 1 ∧ (∀ s ∈ p, s < n) ∧
      ∀ p' : List Nat, p'.length = os.length + 1 → (∀ s ∈ p', s < n) →
        weight ini tr ob0 os.reverse p'.reverse ≤ weight ini tr ob0 os.reverse p.reverse := by
  have hn : 0 < n := by
    rcases q with _ | ⟨s, q⟩
    · simp at hq
    · have := hqn s (by simp); omega
  have hgood : ∀ (os : List (Nat → K)), (∀ o ∈ os, ∀ i, 0 ≤ o i) → ∀ q : List Nat, q.length = os.length + 1 →
      (∀ s ∈ q, s < n) → 0 < weight ini tr ob0 os q →
      Good n ini tr ob0 os
        (rows (exact K) n (vec n ini) (mat n tr) (vec n ob0) (os.map (vec n))).1
        (rows (exact K) n (vec n ini) (mat n tr) (vec n ob0) (os.map (vec n))).2 := by
    intro os
    induction os with
    | nil =>
      intro _ q hq hqn hpos
      obtain ⟨s, rfl⟩ := List.length_eq_one_iff.1 hq
      exact good_first n ini tr ob0 hini htr hob0 s (hqn s (by simp)) hpos
    | cons o os ih =>
      intro hos q hq hqn hpos
      rcases q with _ | ⟨t, _ | ⟨s, q⟩⟩
      · simp at hq
      · simp at hq
      · have hw := hpos
        rw [weight_cons] at hw
        have h1 : 0 < weight ini tr ob0 os (s :: q) := by
          rcases (weight_nonneg ini tr ob0 hini htr hob0 os (fun o h => hos o (by simp [h])) (s :: q)).eq_or_lt
            with h | h
          · rw [← h] at hw; simp at hw
          · exact h
        exact good_next n ini tr ob0 hini htr hob0 os o (hos o (by simp)) _ _
          (ih (fun o h => hos o (by simp [h])) (s :: q) (by simpa using hq)
            (fun x hx => hqn x (by simp [hx])) h1) (t :: s :: q) hq hqn hpos
  have hsz : Sized n (vec n ini) (mat n tr) (vec n ob0 :: os.map (vec n)) := by
    refine ⟨hn, by simp [vec], by simp [mat], ?_, by simp, ?_⟩
    · intro r hr
      obtain ⟨i, _, rfl⟩ := List.mem_map.1 hr
      simp [vec]
    · intro r hr
      rcases List.mem_cons.1 hr with rfl | hr
      · simp [vec]
      · obtain ⟨i, _, rfl⟩ := List.mem_map.1 hr
        simp [vec]
  obtain ⟨ds, scs, _, _, hrun⟩ := viterbiPath_eq (exact K) _ _ hsz
  have hG := hgood os.reverse (fun o h => hos o (by simpa using h)) q.reverse (by simpa using hq)
    (fun s h => hqn s (by simpa using h)) hpos
  rw [List.map_reverse] at hG
  obtain ⟨c, d, hc, hrow, hd⟩ := hG
  rw [hrow] at hrun
  obtain ⟨v, hv1, hv2, hv3, hv4⟩ := pick_spec n (fun i => (vec n d).getD i (exact K).zero) d
    (fun i hi => vec_getD n d i hi _)
  have hlast : ∀ p' : List Nat, p'.length = os.length + 1 → (∀ s ∈ p', s < n) →
      c * weight ini tr ob0 os.reverse p'.reverse ≤ v := by
    intro p' hl hs
    cases hrev : p'.reverse with
    | nil => rw [List.reverse_eq_nil_iff] at hrev; simp [hrev] at hl
    | cons j l =>
      have hjm : j ∈ p' := by rw [← List.mem_reverse, hrev]; simp
      have hj : j < n := hs j hjm
      refine ((hd j hj).2.1 (j :: l) ⟨?_, ?_, rfl⟩).trans (hv3 j hj)
      · rw [← hrev]; simpa using hl
      · intro x hx
        rw [← hrev] at hx
        exact hs x (by simpa using hx)
  have hvpos : 0 < v := lt_of_lt_of_le (mul_pos hc hpos) (hlast q hq hqn)
  obtain ⟨i, hi, hi1, hi2⟩ := hv4 hvpos
  obtain ⟨p, ⟨hpl, hpn, _⟩, hpt, hpw⟩ := (hd i hi).2.2 (by rw [hi2]; exact hvpos)
  refine ⟨_, p.reverse, hrun, ?_, by simpa using hpl, fun s h => hpn s (by simpa using h), ?_⟩
  · simp only [hi1, hpt]
  · intro p' hl hs
    have h1 := hlast p' hl hs
    rw [← hi2, ← hpw] at h1
    rw [List.reverse_reverse]
    exact le_of_mul_le_mul_left h1 hc

omit [IsStrictOrderedRing K] hini htr hob0 in
theorem pick_none (n : Nat) (cur : Nat → Option K)
    (h : ∀ i < n, (exact K).gt (cur i) (some 0) = false) :
    pick (exact K) n cur = ((n : Int) - 1, some 0) := by
  unfold pick
  have : ∀ l : List Nat, (∀ i ∈ l, i < n) →
      l.foldl (fun b i => if (exact K).gt (cur i) b.2 then ((i : Int), cur i) else b) ((n : Int) - 1, some 0) =
        ((n : Int) - 1, some 0) := by
    intro l
    induction l with
    | nil => intro _; rfl
    | cons i l ih =>
      intro hl
      rw [List.foldl_cons, h i (hl i (by simp))]
      exact ih (fun i h => hl i (by simp [h]))
  exact this _ (fun i h => List.mem_range.1 h)

omit hini htr hob0 in
/-- **C50 violated, impossible first frame.**  If the first frame is impossible in every state, its row is
divided by zero; the NaNs make the second frame fall back to equal values whatever was observed, and with two
frames the answer is always the last state followed by the first. -/
theorem C50_zero_start_violated (hn : 0 < n) (h0 : ∀ i < n, ini i * ob0 i = 0) (o : Nat → K) :
    ∃ r, viterbiPath (exact K) (vec n ini) (mat n tr) [vec n ob0, vec n o] = .ok r ∧
      r.path = [(n : Int) - 1, 0] := by
  have hsz : Sized n (vec n ini) (mat n tr) [vec n ob0, vec n o] := by
    refine ⟨hn, by simp [vec], by simp [mat], ?_, by simp, ?_⟩
    · intro r hr
      obtain ⟨i, _, rfl⟩ := List.mem_map.1 hr
      simp [vec]
    · intro r hr
      simp only [List.mem_cons, List.not_mem_nil, or_false] at hr
      rcases hr with rfl | rfl <;> simp [vec]
  obtain ⟨ds, scs, _, _, hrun⟩ := viterbiPath_eq (exact K) _ _ hsz
  refine ⟨_, hrun, ?_⟩
  have hraw : rawFirst (exact K) n (vec n ini) (vec n ob0) = vec n (fun _ => 0) := by
    unfold rawFirst
    refine List.map_congr_left (fun i hi => ?_)
    have hi := List.mem_range.1 hi
    rw [vec_getD n ini i hi, vec_getD n ob0 i hi]
    change some (ini i * ob0 i) = _
    rw [h0 i hi]
  have hsum : ((List.range n).map (fun _ => (0 : K))).sum = 0 := by simp
  have hfirst : firstRow (exact K) n (vec n ini) (vec n ob0) = List.replicate n none := by
    unfold firstRow
    rw [hraw, total_vec, hsum]
    apply List.ext_getElem
    · simp [vec]
    · intro i h1 h2
      simp [vec, exact]
  have hchoice : ∀ j, choice (exact K) n (mat n tr) (List.replicate n none) (vec n o) j = ((n : Int) - 1, some 0) := by
    intro j
    unfold choice
    split
    · apply pick_none
      intro i hi
      have : (List.replicate n (none : Option K)).getD i (exact K).zero = none := by
        rw [List.getD_eq_getElem?_getD]; simp [hi]
      rw [this]
      rfl
    · rfl
  have hraw2 : rawRow (exact K) n (mat n tr) (List.replicate n none) (vec n o) = vec n (fun _ => 0) := by
    unfold rawRow
    refine List.map_congr_left (fun j hj => ?_)
    have hj := List.mem_range.1 hj
    rw [hchoice, vec_getD n o j hj]
    change some (0 * o j) = _
    rw [zero_mul]
  have hnext : nextRow (exact K) n (mat n tr) (List.replicate n none) (vec n o) = vec n (fun _ => 1 / (n : K)) := by
    unfold nextRow
    simp only
    rw [hraw2, total_vec, hsum]
    have : (exact K).gt (some (0 : K)) (exact K).zero = false := by
      change decide ((0 : K) < 0) = false
      simp
    rw [this]
    have hn' : (n : K) ≠ 0 := by exact_mod_cast hn.ne'
    apply List.ext_getElem
    · simp [vec]
    · intro i h1 h2
      simp [vec, exact, hn']
  simp only [List.reverse_cons, List.reverse_nil, List.nil_append, rows, hfirst, hnext]
  have hpick : (pick (exact K) n (fun i => (vec n (fun _ => 1 / (n : K))).getD i (exact K).zero)).1 = 0 := by
    obtain ⟨m, rfl⟩ : ∃ m, n = m + 1 := ⟨n - 1, by omega⟩
    have hm : (0 : K) < 1 / ((m + 1 : Nat) : K) := by positivity
    unfold pick
    rw [List.range_succ_eq_map, List.foldl_cons]
    have hg : (exact K).gt ((vec (m + 1) (fun _ => 1 / ((m + 1 : Nat) : K))).getD 0 (exact K).zero)
        (exact K).zero = true := by
      rw [vec_getD _ _ 0 (by omega)]
      change decide (0 < 1 / ((m + 1 : Nat) : K)) = true
      simpa using hm
    simp only [hg, if_true]
    rw [vec_getD _ _ 0 (by omega)]
    have : ∀ l : List Nat, (∀ i ∈ l, i < m + 1) → l.foldl (fun (b : Int × Option K) i =>
        if (exact K).gt ((vec (m + 1) (fun _ => 1 / ((m + 1 : Nat) : K))).getD i (exact K).zero) b.2 then
          ((i : Int), (vec (m + 1) (fun _ => 1 / ((m + 1 : Nat) : K))).getD i (exact K).zero) else b)
        (((0 : Nat) : Int), some (1 / ((m + 1 : Nat) : K))) = (((0 : Nat) : Int), some (1 / ((m + 1 : Nat) : K))) := by
      intro l
      induction l with
      | nil => intro _; rfl
      | cons i l ih =>
        intro hl
        rw [List.foldl_cons, vec_getD _ _ i (hl i (by simp))]
        have : (exact K).gt (some (1 / ((m + 1 : Nat) : K))) (some (1 / ((m + 1 : Nat) : K))) = false := by
          change decide (1 / ((m + 1 : Nat) : K) < 1 / ((m + 1 : Nat) : K)) = false
          simp
        rw [this]
        exact ih (fun i h => hl i (by simp [h]))
    rw [this _ (by
      intro i hi
      obtain ⟨k, hk, rfl⟩ := List.mem_map.1 hi
      have := List.mem_range.1 hk
      omega)]
    rfl
  rw [hpick]
  have hpsi : (psiRow (exact K) n (mat n tr) (List.replicate n none) (vec n o)).getD 0 0 = (n : Int) - 1 := by
    unfold psiRow
    rw [List.getD_eq_getElem?_getD]
    simp [hn, hchoice]
  change [(psiRow (exact K) n (mat n tr) (List.replicate n none) (vec n o)).getD 0 0] ++ [(0 : Int)] = _
  rw [hpsi]
  rfl

end

/-- The hypotheses of the previous theorem are met by a chord model whose initial state is impossible. -/
example : (viterbiPath (exact Rat) (vec 2 (fun i => if i = 1 then 1 else 0)) (mat 2 (fun i j => if i = j then 9 / 10 else 1 / 10))
    [vec 2 (fun i => if i = 0 then 1 else 0), vec 2 (fun i => if i = 1 then 1 else 0)]).bind
      (fun r => .ok r.path) = .ok [1, 0] := by
  decide +kernel

/-- A two-state case with a positive path, evaluated. -/
example : (viterbiPath (exact Rat) (vec 2 (fun _ => 1 / 2)) (mat 2 (fun i j => if i = j then 9 / 10 else 1 / 10))
    [vec 2 (fun i => if i = 0 then 1 else 1 / 2), vec 2 (fun i => if i = 0 then 1 / 10 else 8 / 10),
      vec 2 (fun i => if i = 0 then 1 / 10 else 9 / 10)]).bind (fun r => .ok r.path) = .ok [1, 1, 1] := by
  decide +kernel

end JKD.ChordViterbi
