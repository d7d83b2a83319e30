/-
Outcomes of C++ code, and the small part of the C++ standard library used by justkeydding
(`std::map`, `std::unordered_map`, `std::rotate`, `tolower`/`toupper`).
Nothing here models a line of /repo by itself; it is the vocabulary the model is written in.
-/

namespace JKD

/-- The C++ exceptions that can leave the modelled code. -/
inductive Exn where
  /-- `std::out_of_range` (`unordered_map::at`, `string::substr`, `std::stof`). -/
  | outOfRange
  /-- `std::invalid_argument` (`std::stof`). -/
  | invalidArgument
  deriving DecidableEq, Repr

/-- Outcome of running a piece of C++: a value, undefined behaviour, or an exception. -/
inductive Res (α : Type _) where
  | ok (a : α)
  | ub
  | throw (e : Exn)
  deriving DecidableEq, Repr

namespace Res

/-- Sequencing: undefined behaviour and exceptions propagate. -/
protected def bind {α β : Type _} : Res α → (α → Res β) → Res β
  | .ok a, f => f a
  | .ub, _ => .ub
  | .throw e, _ => .throw e

instance : Monad Res where
  pure := Res.ok
  bind := Res.bind

@[simp] theorem bind_ok {α β : Type _} (a : α) (f : α → Res β) : (Res.ok a >>= f) = f a := rfl
@[simp] theorem bind_ub {α β : Type _} (f : α → Res β) : ((Res.ub : Res α) >>= f) = Res.ub := rfl
@[simp] theorem bind_throw {α β : Type _} (e : Exn) (f : α → Res β) :
    ((Res.throw e : Res α) >>= f) = Res.throw e := rfl
@[simp] theorem pure_eq {α : Type _} (a : α) : (pure a : Res α) = Res.ok a := rfl
@[simp] theorem map_ok {α β : Type _} (g : α → β) (a : α) : g <$> (Res.ok a) = Res.ok (g a) := rfl
@[simp] theorem map_ub {α β : Type _} (g : α → β) : g <$> (Res.ub : Res α) = Res.ub := rfl
@[simp] theorem map_throw {α β : Type _} (g : α → β) (e : Exn) :
    g <$> (Res.throw e : Res α) = Res.throw e := rfl

theorem bind_eq_ok {α β : Type _} {x : Res α} {f : α → Res β} {b : β} :
    (x >>= f) = .ok b ↔ ∃ a, x = .ok a ∧ f a = .ok b := by
  cases x <;> simp

/-- A read of a possibly indeterminate object: indeterminate is undefined behaviour. -/
def read {α : Type _} : Option α → Res α
  | some a => .ok a
  | none => .ub

@[simp] theorem read_some {α : Type _} (a : α) : read (some a) = .ok a := rfl
@[simp] theorem read_none {α : Type _} : read (none : Option α) = .ub := rfl

end Res

/-- `for (x : l) s = f s x`, with outcomes. -/
def forM {α σ : Type _} (l : List α) (s : σ) (f : σ → α → Res σ) : Res σ :=
  match l with
  | [] => .ok s
  | a :: l => f s a >>= fun s' => forM l s' f

@[simp] theorem forM_nil {α σ : Type _} (s : σ) (f : σ → α → Res σ) : forM [] s f = .ok s := rfl
@[simp] theorem forM_cons {α σ : Type _} (a : α) (l : List α) (s : σ) (f : σ → α → Res σ) :
    forM (a :: l) s f = (f s a >>= fun s' => forM l s' f) := rfl

theorem forM_append {α σ : Type _} (l l' : List α) (s : σ) (f : σ → α → Res σ) :
    forM (l ++ l') s f = (forM l s f >>= fun s' => forM l' s' f) := by
  induction l generalizing s with
  | nil => simp
  | cons a l ih =>
    simp only [List.cons_append, forM_cons]
    cases f s a <;> simp [ih]

/-- A loop whose body never fails is a left fold. -/
theorem forM_ok {α σ : Type _} (l : List α) (s : σ) (g : σ → α → σ) :
    forM l s (fun s a => .ok (g s a)) = .ok (l.foldl g s) := by
  induction l generalizing s with
  | nil => rfl
  | cons a l ih => simp [ih]

theorem forM_congr {α σ : Type _} (l : List α) (s : σ) {f g : σ → α → Res σ}
    (h : ∀ s, ∀ a ∈ l, f s a = g s a) : forM l s f = forM l s g := by
  induction l generalizing s with
  | nil => rfl
  | cons a l ih =>
    simp only [forM_cons]
    rw [h s a (by simp)]
    cases g s a with
    | ok s' => simpa using ih s' (fun s b hb => h s b (by simp [hb]))
    | ub => rfl
    | throw e => rfl

/-- `std::map<K, V>` / `std::unordered_map<K, V>`: an association list with unique keys, in order of
first insertion.  Where the C++ code iterates over a map, the model says in which order. -/
abbrev AMap (K V : Type _) := List (K × V)

/-- Maps keyed by `int`. -/
abbrev IMap (V : Type _) := AMap Int V

namespace AMap

variable {K V : Type _} [DecidableEq K]

/-- `m.find(k)`. -/
def get? (m : AMap K V) (k : K) : Option V :=
  match m with
  | [] => none
  | (k', v) :: m => if k' = k then some v else get? m k

/-- `m[k] = v`: overwrite the entry or add one. -/
def set (m : AMap K V) (k : K) (v : V) : AMap K V :=
  match m with
  | [] => [(k, v)]
  | (k', v') :: m => if k' = k then (k', v) :: m else (k', v') :: set m k v

@[simp] theorem get?_nil (k : K) : get? ([] : AMap K V) k = none := rfl

theorem get?_set_self (m : AMap K V) (k : K) (v : V) : (set m k v).get? k = some v := by
  induction m with
  | nil => simp [set, get?]
  | cons p m ih =>
    obtain ⟨k', v'⟩ := p
    by_cases h : k' = k <;> simp [set, get?, h, ih]

theorem get?_set_ne (m : AMap K V) {k k₁ : K} (v : V) (hne : k₁ ≠ k) :
    (set m k v).get? k₁ = m.get? k₁ := by
  induction m with
  | nil => simp [set, get?, Ne.symm hne]
  | cons p m ih =>
    obtain ⟨k', v'⟩ := p
    by_cases h : k' = k
    · subst h; simp [set, get?, Ne.symm hne]
    · by_cases h1 : k' = k₁
      · subst h1; simp [set, get?, h]
      · simp [set, get?, h, h1, ih]

theorem get?_set (m : AMap K V) (k k₁ : K) (v : V) :
    (set m k v).get? k₁ = if k₁ = k then some v else m.get? k₁ := by
  by_cases h : k₁ = k
  · subst h; simp [get?_set_self]
  · simp [h, get?_set_ne]


/-- The keys of a map. -/
def keys (m : AMap K V) : List K := m.map Prod.fst

theorem mem_keys_set (m : AMap K V) (k k₁ : K) (v : V) :
    k₁ ∈ keys (set m k v) ↔ k₁ = k ∨ k₁ ∈ keys m := by
  induction m with
  | nil => simp [set, keys]
  | cons p m ih =>
    obtain ⟨k', v'⟩ := p
    by_cases h : k' = k
    · subst h; simp [set, keys]
    · simp only [set, h, if_false, keys, List.map_cons, List.mem_cons]
      simp only [keys] at ih
      rw [ih]
      constructor
      · rintro (h | h | h) <;> simp [h]
      · rintro (h | h | h) <;> simp [h]

theorem keys_nodup_set (m : AMap K V) (k : K) (v : V) (h : (keys m).Nodup) :
    (keys (set m k v)).Nodup := by
  induction m with
  | nil => simp [set, keys]
  | cons p m ih =>
    obtain ⟨k', v'⟩ := p
    simp only [keys, List.map_cons, List.nodup_cons] at h
    by_cases hk : k' = k
    · subst hk; simpa [set, keys] using h
    · simp only [set, hk, if_false, keys, List.map_cons, List.nodup_cons]
      refine ⟨?_, ih h.2⟩
      intro hmem
      rcases (mem_keys_set m k k' v).1 hmem with h1 | h1
      · exact hk h1
      · exact h.1 h1

theorem get?_eq_some_of_mem (m : AMap K V) (h : (keys m).Nodup) {k : K} {v : V}
    (hm : (k, v) ∈ m) : m.get? k = some v := by
  induction m with
  | nil => simp at hm
  | cons p m ih =>
    obtain ⟨k', v'⟩ := p
    simp only [keys, List.map_cons, List.nodup_cons] at h
    rcases List.mem_cons.1 hm with h1 | h1
    · cases h1; simp [get?]
    · have : k' ≠ k := by
        rintro rfl
        exact h.1 (List.mem_map.2 ⟨(k', v), h1, rfl⟩)
      simp [get?, this, ih h.2 h1]

theorem mem_of_get?_eq_some (m : AMap K V) {k : K} {v : V} (h : m.get? k = some v) :
    (k, v) ∈ m := by
  induction m with
  | nil => simp at h
  | cons p m ih =>
    obtain ⟨k', v'⟩ := p
    by_cases hk : k' = k
    · subst hk; simp [get?] at h; simp [h]
    · simp [get?, hk] at h; simp [ih h]

theorem get?_eq_none_of_not_mem (m : AMap K V) {k : K} (h : k ∉ keys m) : m.get? k = none := by
  cases hg : m.get? k with
  | none => rfl
  | some v => exact absurd (List.mem_map.2 ⟨_, mem_of_get?_eq_some m hg, rfl⟩) h

end AMap

/-- `std::rotate(first, first + k, last)` / `std::rotate_copy`: the element at `k` comes first. -/
def rotate {α : Type _} (l : List α) (k : Nat) : List α := l.drop k ++ l.take k

/-- `::tolower` in the "C" locale. -/
def tolowerC (c : Char) : Char :=
  if 'A'.toNat ≤ c.toNat ∧ c.toNat ≤ 'Z'.toNat then Char.ofNat (c.toNat + 32) else c

/-- `::toupper` in the "C" locale. -/
def toupperC (c : Char) : Char :=
  if 'a'.toNat ≤ c.toNat ∧ c.toNat ≤ 'z'.toNat then Char.ofNat (c.toNat - 32) else c

/-- A byte string (`std::string`). -/
abbrev Str := List Char

/-- Look up a name in a `std::map<std::string, V>`. -/
def lookup {V : Type _} (t : List (Str × V)) (s : Str) : Option V :=
  match t with
  | [] => none
  | (n, v) :: t => if n = s then some v else lookup t s

theorem lookup_eq_some_iff_of_nodup {V : Type _} (t : List (Str × V)) (h : (t.map Prod.fst).Nodup)
    (s : Str) (v : V) : lookup t s = some v ↔ (s, v) ∈ t := by
  induction t with
  | nil => simp [lookup]
  | cons p t ih =>
    obtain ⟨n, w⟩ := p
    simp only [List.map_cons, List.nodup_cons] at h
    by_cases hn : n = s
    · subst hn
      simp only [lookup, if_true, Option.some.injEq, List.mem_cons, Prod.mk.injEq, true_and]
      constructor
      · rintro rfl; simp
      · rintro (h1 | h1)
        · exact h1.symm
        · exact absurd (List.mem_map.2 ⟨_, h1, rfl⟩) h.1
    · simp [lookup, hn, ih h.2, Ne.symm hn]

theorem lookup_mem {V : Type _} (t : List (Str × V)) (s : Str) (v : V) (h : lookup t s = some v) :
    (s, v) ∈ t := by
  induction t with
  | nil => simp [lookup] at h
  | cons p t ih =>
    obtain ⟨n, w⟩ := p
    by_cases hn : n = s
    · subst hn; simp [lookup] at h; simp [h]
    · simp [lookup, hn] at h; simp [ih h]

end JKD
