import Verif.Model.NnlsChroma
import Mathlib.Tactic.Ring
/-
Rules for the loops and subscripts of the chroma plug-in.
-/

namespace JKD.Chroma

variable {D T S α β : Type}

@[simp] theorem bind_ok (a : α) (f : α → Run β) : (Run.ok a >>= f) = f a := rfl
@[simp] theorem bind_ub (f : α → Run β) : ((Run.ub : Run α) >>= f) = Run.ub := rfl
@[simp] theorem bind_abort (f : α → Run β) : ((Run.abort : Run α) >>= f) = Run.abort := rfl
@[simp] theorem pure_eq (a : α) : (pure a : Run α) = Run.ok a := rfl

theorem bind_eq_ok {x : Run α} {f : α → Run β} {b : β} : (x >>= f) = .ok b ↔ ∃ a, x = .ok a ∧ f a = .ok b := by
  cases x <;> simp

instance : LawfulMonad Run := LawfulMonad.mk'
  (id_map := by intro _ x; cases x <;> rfl)
  (pure_bind := by intros; rfl)
  (bind_assoc := by intro _ _ _ x _ _; cases x <;> rfl)

/-- The loop runs through if every round does, and an invariant of the rounds holds at the end. -/
theorem loop_inv {body : Nat → S → Run S} (P : Nat → S → Prop) {k : Nat} {s : S} (h0 : P 0 s)
    (hs : ∀ i, i < k → ∀ s, P i s → ∃ s', body i s = .ok s' ∧ P (i + 1) s') :
    ∃ s', loop body k s = .ok s' ∧ P k s' := by
  induction k with
  | zero => exact ⟨s, rfl, h0⟩
  | succ k ih =>
    obtain ⟨s1, e1, h1⟩ := ih (fun i hi => hs i (by omega))
    obtain ⟨s2, e2, h2⟩ := hs k (by omega) s1 h1
    refine ⟨s2, ?_, h2⟩
    change (loop body k s >>= body k) = _
    rw [e1, bind_ok, e2]

/-- A loop whose rounds are pure is a fold. -/
theorem loop_pure (g : Nat → S → S) (k : Nat) (s : S) :
    loop (fun i s => Run.ok (g i s)) k s = .ok ((List.range k).foldl (fun s i => g i s) s) := by
  induction k with
  | zero => rfl
  | succ k ih =>
    change (loop _ k s >>= _) = _
    rw [ih, bind_ok, List.range_succ, List.foldl_append]
    rfl

/-- The same for a loop whose rounds are pure in the range it runs through. -/
theorem loop_eq {body : Nat → S → Run S} (g : Nat → S → S) (k : Nat) (s : S)
    (h : ∀ i, i < k → ∀ s, body i s = .ok (g i s)) :
    loop body k s = .ok ((List.range k).foldl (fun s i => g i s) s) := by
  induction k with
  | zero => rfl
  | succ k ih =>
    change (loop _ k s >>= _) = _
    rw [ih (fun i hi => h i (by omega)), bind_ok, h k (by omega), List.range_succ, List.foldl_append]
    rfl

theorem loop_congr {body body' : Nat → S → Run S} (k : Nat) (s : S)
    (h : ∀ i, i < k → ∀ s, body i s = body' i s) : loop body k s = loop body' k s := by
  induction k with
  | zero => rfl
  | succ k ih =>
    change (loop _ k s >>= _) = (loop _ k s >>= _)
    rw [ih (fun i hi => h i (by omega))]
    cases loop body' k s <;> simp [h k (by omega)]

/-- The same for a loop over the elements of a list. -/
theorem foldlM_inv {f : β → α → Run β} (P : Nat → β → Prop) {l : List α} {b : β} (h0 : P 0 b)
    (hs : ∀ i a, l[i]? = some a → ∀ b, P i b → ∃ b', f b a = .ok b' ∧ P (i + 1) b') :
    ∃ b', l.foldlM f b = .ok b' ∧ P l.length b' := by
  induction l generalizing b P with
  | nil => exact ⟨b, rfl, h0⟩
  | cons a l ih =>
    obtain ⟨b1, e1, h1⟩ := hs 0 a rfl b h0
    obtain ⟨b2, e2, h2⟩ := ih (fun i => P (i + 1)) h1 (fun i a ha => hs (i + 1) a (by simpa using ha))
    refine ⟨b2, ?_, h2⟩
    rw [List.foldlM_cons, e1, bind_ok, e2]

theorem rd_ok {v : List D} {i : Int} {x : D} (h0 : 0 ≤ i) (h : v[i.toNat]? = some x) : rd v i = .ok x := by
  unfold rd
  rw [if_pos h0, h]

theorem rd_nat {v : List D} {i : Nat} {x : D} (h : v[i]? = some x) : rd v (i : Int) = .ok x :=
  rd_ok (by omega) (by simpa using h)

theorem rd_lt {v : List D} {i : Int} (h0 : 0 ≤ i) (h : i.toNat < v.length) : rd v i = .ok v[i.toNat] :=
  rd_ok h0 (List.getElem?_eq_getElem h)

theorem rd_ex {v : List D} {i : Int} (h0 : 0 ≤ i) (h : i.toNat < v.length) :
    ∃ x, rd v i = .ok x ∧ v[i.toNat]? = some x :=
  ⟨_, rd_lt h0 h, List.getElem?_eq_getElem h⟩

theorem wr_ok {v : List D} {i : Int} (x : D) (h0 : 0 ≤ i) (h : i.toNat < v.length) :
    wr v i x = .ok (v.set i.toNat x) := by
  unfold wr
  rw [if_pos ⟨h0, h⟩]

theorem wr_nat {v : List D} {i : Nat} (x : D) (h : i < v.length) : wr v (i : Int) x = .ok (v.set i x) :=
  wr_ok x (by omega) (by simpa using h)

theorem getElem?_some_of_lt {v : List D} {i : Nat} (h : i < v.length) : ∃ x, v[i]? = some x :=
  ⟨_, List.getElem?_eq_getElem h⟩

/-- All elements of a list satisfy `Q`. -/
def AllQ (Q : D → Prop) (v : List D) : Prop := ∀ x ∈ v, Q x

theorem AllQ.get {Q : D → Prop} {v : List D} (h : AllQ Q v) {i : Nat} {x : D} (e : v[i]? = some x) : Q x :=
  h x (List.mem_of_getElem? e)

theorem AllQ.set {Q : D → Prop} {v : List D} (h : AllQ Q v) {x : D} (hx : Q x) (i : Nat) : AllQ Q (v.set i x) := by
  intro y hy
  rcases List.mem_or_eq_of_mem_set hy with h1 | h1
  · exact h y h1
  · exact h1 ▸ hx

theorem AllQ.append {Q : D → Prop} {v w : List D} (h : AllQ Q v) (h' : AllQ Q w) : AllQ Q (v ++ w) := by
  intro x hx
  rcases List.mem_append.mp hx with h1 | h1
  · exact h x h1
  · exact h' x h1

theorem AllQ.single {Q : D → Prop} {x : D} (h : Q x) : AllQ Q [x] := by
  intro y hy
  rw [List.mem_singleton.mp hy]
  exact h

theorem AllQ.replicate {Q : D → Prop} {x : D} (h : Q x) (n : Nat) : AllQ Q (List.replicate n x) := by
  intro y hy
  rw [(List.mem_replicate.mp hy).2]
  exact h

theorem AllQ.nil {Q : D → Prop} : AllQ Q ([] : List D) := fun _ h => absurd h (by simp)

end JKD.Chroma
