import Verif.Model.ViterbiSTL
import Mathlib.Algebra.Order.Ring.Defs
import Mathlib.Algebra.BigOperators.Ring.List
import Mathlib.Data.List.Nodup
import Mathlib.Data.List.Induction
import Mathlib.Data.Rat.Defs
import Mathlib.Algebra.Order.Ring.Rat
import Mathlib.Tactic.Ring
import Mathlib.Tactic.NormNum
/-
C51, C55: the stand-alone forward algorithm / Viterbi example.
-/

namespace JKD.STL

variable {σ ω K : Type}

/-! ### Specification -/

/-- Weight of a state path with one state more than there are observations: each observation is emitted by the
state *before* the transition; factors are multiplied from left to right. -/
def go (A : Arith K) (tr : σ → σ → K) (em : σ → ω → K) (acc : K) : σ → List ω → List σ → K
  | s, o :: os, t :: ts => go A tr em (A.mul acc (A.mul (em s o) (tr s t))) t os ts
  | _, _, _ => acc

def weight (A : Arith K) (st : σ → K) (tr : σ → σ → K) (em : σ → ω → K) (os : List ω) : List σ → K
  | [] => A.zero
  | s :: ts => go A tr em (st s) s os ts

/-- All state sequences of length `n + 1`. -/
def allPaths (states : List σ) : Nat → List (List σ)
  | 0 => states.map (fun s => [s])
  | n + 1 => (allPaths states n).flatMap (fun p => states.map (fun t => p ++ [t]))

theorem mem_allPaths (states : List σ) (n : Nat) (p : List σ) :
    p ∈ allPaths states n ↔ p.length = n + 1 ∧ ∀ s ∈ p, s ∈ states := by
  induction n generalizing p with
  | zero =>
    simp only [allPaths, List.mem_map]
    constructor
    · rintro ⟨s, hs, rfl⟩; simpa using hs
    · rintro ⟨hl, hs⟩
      obtain ⟨s, rfl⟩ := List.length_eq_one_iff.1 hl
      exact ⟨s, hs s (by simp), rfl⟩
  | succ n ih =>
    simp only [allPaths, List.mem_flatMap, List.mem_map]
    constructor
    · rintro ⟨q, hq, t, ht, rfl⟩
      obtain ⟨hl, hs⟩ := (ih q).1 hq
      refine ⟨by simp [hl], ?_⟩
      intro s h
      rcases List.mem_append.1 h with h | h
      · exact hs s h
      · rw [List.mem_singleton.1 h]; exact ht
    · rintro ⟨hl, hs⟩
      rcases List.eq_nil_or_concat p with rfl | ⟨q, t, rfl⟩
      · simp at hl
      · rw [List.concat_eq_append] at *
        refine ⟨q, (ih q).2 ⟨by simpa using hl, fun s h => hs s (by simp [h])⟩, t, hs t (by simp), rfl⟩

theorem nodup_allPaths (states : List σ) (h : states.Nodup) (n : Nat) : (allPaths states n).Nodup := by
  induction n with
  | zero => exact h.map (fun a b e => by simpa using e)
  | succ n ih =>
    rw [allPaths, List.nodup_flatMap]
    refine ⟨fun p _ => h.map (fun a b e => by simpa using e), ?_⟩
    refine List.Pairwise.imp_of_mem ?_ ih
    intro p q hp hq hne
    rw [Function.onFun, List.disjoint_left]
    intro x hx hx'
    obtain ⟨s, _, rfl⟩ := List.mem_map.1 hx
    obtain ⟨t, _, e⟩ := List.mem_map.1 hx'
    exact hne (List.append_inj_left' e rfl).symm

theorem go_snoc (A : Arith K) (tr : σ → σ → K) (em : σ → ω → K) (os : List ω) (o : ω) (t : σ) (acc : K)
    (s : σ) (ts : List σ) (h : ts.length = os.length) :
    go A tr em acc s (os ++ [o]) (ts ++ [t]) =
      A.mul (go A tr em acc s os ts)
        (A.mul (em (ts.getLast?.getD s) o) (tr (ts.getLast?.getD s) t)) := by
  induction os generalizing acc s ts with
  | nil =>
    rw [List.length_eq_zero_iff.1 h]
    simp [go]
  | cons o' os ih =>
    cases ts with
    | nil => simp at h
    | cons t' ts =>
      simp only [List.cons_append, go]
      rw [ih _ _ _ (by simpa using h)]
      have : (t' :: ts).getLast?.getD s = ts.getLast?.getD t' := by
        cases ts with
        | nil => rfl
        | cons a l => rw [List.getLast?_cons_cons, List.getLast?_cons]; simp
      rw [this]

theorem weight_snoc (A : Arith K) (st : σ → K) (tr : σ → σ → K) (em : σ → ω → K) (os : List ω) (o : ω)
    (p : List σ) (hp : p.length = os.length + 1) (s : σ) (hs : p.getLast? = some s) (t : σ) :
    weight A st tr em (os ++ [o]) (p ++ [t]) = A.mul (weight A st tr em os p) (A.mul (em s o) (tr s t)) := by
  cases p with
  | nil => simp at hs
  | cons a ts =>
    have : ts.getLast?.getD a = s := by
      cases ts with
      | nil => simpa using hs
      | cons b l => rw [List.getLast?_cons_cons] at hs; rw [hs]; rfl
    simp only [List.cons_append, weight]
    rw [go_snoc A tr em os o t _ _ _ (by simpa using hp), this]

/-! ### The maps -/

theorem foldl_put {V : Type} [DecidableEq σ] (l : List σ) (f : σ → V) (T : σ → V) (s : σ) :
    (l.foldl (fun T x => put T x (f x)) T) s = if s ∈ l then f s else T s := by
  induction l generalizing T with
  | nil => simp
  | cons a l ih =>
    rw [List.foldl_cons, ih]
    by_cases h : s ∈ l
    · simp [h]
    · by_cases e : s = a
      · subst e; simp [h, put]
      · simp [h, e, put]

/-! ### The best path, for any monotone multiplication -/

/-- What is used of the arithmetic.  Holds for exact numbers and for any monotone rounding (below). -/
structure Laws [LinearOrder K] (A : Arith K) : Prop where
  gt : ∀ a b, A.gt a b = true ↔ b < a
  mul_nonneg : ∀ a b, A.zero ≤ a → A.zero ≤ b → A.zero ≤ A.mul a b
  mul_mono : ∀ a b c, a ≤ b → A.zero ≤ c → A.mul a c ≤ A.mul b c
  zero_mul : ∀ c, A.zero ≤ c → A.mul A.zero c = A.zero

section
variable [LinearOrder K] {A : Arith K} (L : Laws A) {states : List σ} {st : σ → K} {tr : σ → σ → K}
  {em : σ → ω → K} (hst : ∀ s, A.zero ≤ st s) (htr : ∀ s t, A.zero ≤ tr s t) (hem : ∀ s o, A.zero ≤ em s o)

/-- `best` is the greatest weight of the paths in `l`, and `path` one that has it; 0 and nothing if no path has
a positive weight. -/
structure Best (A : Arith K) (w : List σ → K) (Q : List σ → Prop) (path : List σ) (best : K) : Prop where
  upper : ∀ p, Q p → w p ≤ best
  nonneg : A.zero ≤ best
  att : A.zero < best → Q path ∧ w path = best

/-- The sets of paths after some observations. -/
def Ends (states : List σ) (n : Nat) (s : σ) (p : List σ) : Prop := p ∈ allPaths states n ∧ p.getLast? = some s

include L hst htr hem

theorem visit_best (T : σ → Tracking σ K) (os : List ω) (o : ω) (t : σ)
    (hT : ∀ s ∈ states, Best A (weight A st tr em os) (Ends states os.length s) (T s).v_path (T s).v_prob)
    (done todo : List σ) (hsub : ∀ s ∈ done ++ todo, s ∈ states) (N : Tracking σ K)
    (hN : Best A (weight A st tr em (os ++ [o]))
      (fun q => ∃ s ∈ done, ∃ p, Ends states os.length s p ∧ q = p ++ [t]) N.v_path N.v_prob) :
    Best A (weight A st tr em (os ++ [o]))
      (fun q => ∃ s ∈ done ++ todo, ∃ p, Ends states os.length s p ∧ q = p ++ [t])
      (todo.foldl (visit A tr em T o t) N).v_path (todo.foldl (visit A tr em T o t) N).v_prob := by
  induction todo generalizing done N with
  | nil => simpa using hN
  | cons s todo ih =>
    have hs : s ∈ states := hsub s (by simp)
    have hB := hT s hs
    have hp0 : A.zero ≤ A.mul (em s o) (tr s t) := L.mul_nonneg _ _ (hem s o) (htr s t)
    have hwt : ∀ p, Ends states os.length s p →
        weight A st tr em (os ++ [o]) (p ++ [t]) =
          A.mul (weight A st tr em os p) (A.mul (em s o) (tr s t)) := by
      intro p hp
      exact weight_snoc A st tr em os o p ((mem_allPaths _ _ _).1 hp.1).1 s hp.2 t
    have hle : ∀ p, Ends states os.length s p →
        weight A st tr em (os ++ [o]) (p ++ [t]) ≤ A.mul (T s).v_prob (A.mul (em s o) (tr s t)) := by
      intro p hp
      rw [hwt p hp]
      exact L.mul_mono _ _ _ (hB.upper p hp) hp0
    have hstep : Best A (weight A st tr em (os ++ [o]))
        (fun q => ∃ s' ∈ done ++ [s], ∃ p, Ends states os.length s' p ∧ q = p ++ [t])
        (visit A tr em T o t N s).v_path (visit A tr em T o t N s).v_prob := by
      unfold visit
      simp only
      split
      · rename_i hgt
        have hgt := (L.gt _ _).1 hgt
        simp only at hgt ⊢
        have hpos : A.zero < A.mul (T s).v_prob (A.mul (em s o) (tr s t)) := lt_of_le_of_lt hN.nonneg hgt
        have hTpos : A.zero < (T s).v_prob := by
          rcases hB.nonneg.eq_or_lt with h | h
          · rw [← h, L.zero_mul _ hp0] at hpos; exact absurd hpos (lt_irrefl _)
          · exact h
        obtain ⟨hE, hw⟩ := hB.att hTpos
        refine ⟨?_, hpos.le, fun _ => ⟨⟨s, by simp, _, hE, rfl⟩, ?_⟩⟩
        · rintro q ⟨s', hs', p, hp, rfl⟩
          rcases List.mem_append.1 hs' with h | h
          · exact (hN.upper _ ⟨s', h, p, hp, rfl⟩).trans hgt.le
          · rw [List.mem_singleton.1 h] at hp
            exact hle p hp
        · rw [hwt _ hE, hw]
      · rename_i hgt
        have hgt : ¬ _ := fun h => hgt ((L.gt _ _).2 h)
        simp only [not_lt] at hgt ⊢
        refine ⟨?_, hN.nonneg, fun h => ?_⟩
        · rintro q ⟨s', hs', p, hp, rfl⟩
          rcases List.mem_append.1 hs' with h | h
          · exact hN.upper _ ⟨s', h, p, hp, rfl⟩
          · rw [List.mem_singleton.1 h] at hp
            exact (hle p hp).trans hgt
        · obtain ⟨⟨s', hs', p, hp, e⟩, hw⟩ := hN.att h
          exact ⟨⟨s', by simp [hs'], p, hp, e⟩, hw⟩
    have := ih (done ++ [s]) (by simpa using hsub) (visit A tr em T o t N s) hstep
    simpa using this

theorem rounds_best [DecidableEq σ] (os : List ω) (s : σ) (hs : s ∈ states) :
    Best A (weight A st tr em os) (Ends states os.length s)
      (os.foldl (round A states tr em) (start A states st) s).v_path
      (os.foldl (round A states tr em) (start A states st) s).v_prob := by
  induction os using List.reverseRecOn generalizing s with
  | nil =>
    simp only [List.foldl_nil, start, foldl_put, if_pos hs]
    refine ⟨?_, hst s, fun _ => ⟨⟨by simp [allPaths, hs], rfl⟩, rfl⟩⟩
    rintro p ⟨hp, hl⟩
    obtain ⟨a, _, rfl⟩ := List.mem_map.1 hp
    simp only [List.getLast?_singleton, Option.some.injEq] at hl
    subst hl
    exact le_refl _
  | append_singleton os o ih =>
    rw [List.foldl_append, List.foldl_cons, List.foldl_nil]
    generalize hT : os.foldl (round A states tr em) (start A states st) = T at ih ⊢
    simp only [round, foldl_put, if_pos hs]
    have h0 : Best A (weight A st tr em (os ++ [o]))
        (fun q => ∃ s' ∈ ([] : List σ), ∃ p, Ends states os.length s' p ∧ q = p ++ [s])
        (Tracking.new A : Tracking σ K).v_path (Tracking.new A : Tracking σ K).v_prob :=
      ⟨by rintro q ⟨s', h, _⟩; simp at h, le_refl _, fun h => absurd h (lt_irrefl _)⟩
    have := visit_best L hst htr hem T os o s ih [] states (by simp) _ h0
    refine ⟨?_, this.nonneg, ?_⟩
    · rintro q ⟨hq, hl⟩
      refine this.upper q ?_
      rw [List.length_append, List.length_singleton, allPaths] at hq
      obtain ⟨p, hp, hq⟩ := List.mem_flatMap.1 hq
      obtain ⟨t, ht, rfl⟩ := List.mem_map.1 hq
      have : t = s := by simpa using hl
      subst this
      obtain ⟨hpl, hps⟩ := (mem_allPaths _ _ _).1 hp
      obtain ⟨a, ha⟩ : ∃ a, p.getLast? = some a := by
        cases p with
        | nil => simp at hpl
        | cons a l => exact ⟨_, List.getLast?_eq_some_getLast (by simp)⟩
      exact ⟨a, by simpa using hps a (List.mem_of_getLast? ha), p, ⟨hp, ha⟩, rfl⟩
    · intro h
      obtain ⟨⟨a, ha, p, hp, e⟩, hw⟩ := this.att h
      refine ⟨?_, hw⟩
      rw [e]
      refine ⟨?_, by simp⟩
      rw [List.length_append, List.length_singleton, allPaths]
      exact List.mem_flatMap.2 ⟨p, hp.1, List.mem_map.2 ⟨s, hs, rfl⟩⟩

theorem collect_best (T : σ → Tracking σ K) (os : List ω)
    (hT : ∀ s ∈ states, Best A (weight A st tr em os) (Ends states os.length s) (T s).v_path (T s).v_prob)
    (done todo : List σ) (hsub : ∀ s ∈ done ++ todo, s ∈ states) (N : Tracking σ K)
    (hN : Best A (weight A st tr em os) (fun q => ∃ s ∈ done, Ends states os.length s q) N.v_path N.v_prob) :
    Best A (weight A st tr em os) (fun q => ∃ s ∈ done ++ todo, Ends states os.length s q)
      (todo.foldl (collect A T) N).v_path (todo.foldl (collect A T) N).v_prob := by
  induction todo generalizing done N with
  | nil => simpa using hN
  | cons s todo ih =>
    have hB := hT s (hsub s (by simp))
    have hstep : Best A (weight A st tr em os) (fun q => ∃ s' ∈ done ++ [s], Ends states os.length s' q)
        (collect A T N s).v_path (collect A T N s).v_prob := by
      unfold collect
      simp only
      split
      · rename_i hgt
        have hgt := (L.gt _ _).1 hgt
        simp only at hgt ⊢
        have hpos := lt_of_le_of_lt hN.nonneg hgt
        refine ⟨?_, hpos.le, fun h => ⟨⟨s, by simp, (hB.att h).1⟩, (hB.att h).2⟩⟩
        rintro q ⟨s', hs', hq⟩
        rcases List.mem_append.1 hs' with h | h
        · exact (hN.upper _ ⟨s', h, hq⟩).trans hgt.le
        · rw [List.mem_singleton.1 h] at hq
          exact hB.upper q hq
      · rename_i hgt
        have hgt : ¬ _ := fun h => hgt ((L.gt _ _).2 h)
        simp only [not_lt] at hgt ⊢
        refine ⟨?_, hN.nonneg, fun h => ?_⟩
        · rintro q ⟨s', hs', hq⟩
          rcases List.mem_append.1 hs' with h | h
          · exact hN.upper _ ⟨s', h, hq⟩
          · rw [List.mem_singleton.1 h] at hq
            exact (hB.upper q hq).trans hgt
        · obtain ⟨⟨s', hs', hq⟩, hw⟩ := hN.att h
          exact ⟨⟨s', by simp [hs'], hq⟩, hw⟩
    have := ih (done ++ [s]) (by simpa using hsub) _ hstep
    simpa using this

/-- **C51, best path.**  For every state set, non-negative tables and observation sequence, in exact or
monotonically rounded arithmetic: no state path has a greater weight than the reported probability of the
Viterbi path; the reported path is one of the state paths and has exactly this weight, unless every path has
weight 0, in which case 0 is reported. -/
theorem C51_best [DecidableEq σ] (os : List ω) :
    (∀ p, p.length = os.length + 1 → (∀ s ∈ p, s ∈ states) →
      weight A st tr em os p ≤ (forwardViterbi A os states st tr em).v_prob) ∧
    ((forwardViterbi A os states st tr em).v_prob = A.zero ∨
      (forwardViterbi A os states st tr em).v_path.length = os.length + 1 ∧
      (∀ s ∈ (forwardViterbi A os states st tr em).v_path, s ∈ states) ∧
      weight A st tr em os (forwardViterbi A os states st tr em).v_path =
        (forwardViterbi A os states st tr em).v_prob) := by
  have h0 : Best A (weight A st tr em os) (fun q => ∃ s ∈ ([] : List σ), Ends states os.length s q)
      (Tracking.new A : Tracking σ K).v_path (Tracking.new A : Tracking σ K).v_prob :=
    ⟨by rintro q ⟨s', h, _⟩; simp at h, le_refl _, fun h => absurd h (lt_irrefl _)⟩
  have h := collect_best L hst htr hem _ os (rounds_best L hst htr hem os) [] states (by simp) _ h0
  rw [List.nil_append] at h
  change Best A _ _ (forwardViterbi A os states st tr em).v_path (forwardViterbi A os states st tr em).v_prob at h
  constructor
  · intro p hl hs
    have hp := (mem_allPaths states os.length p).2 ⟨hl, hs⟩
    obtain ⟨a, ha⟩ : ∃ a, p.getLast? = some a := by
      cases p with
      | nil => simp at hl
      | cons a l => exact ⟨_, List.getLast?_eq_some_getLast (by simp)⟩
    exact h.upper p ⟨a, hs a (List.mem_of_getLast? ha), hp, ha⟩
  · rcases h.nonneg.eq_or_lt with e | e
    · exact Or.inl e.symm
    · obtain ⟨⟨s, _, hE⟩, hw⟩ := h.att e
      obtain ⟨hl, hs⟩ := (mem_allPaths _ _ _).1 hE.1
      exact Or.inr ⟨hl, hs, hw⟩

end

/-! ### The total probability, in exact arithmetic -/

/-- Exact arithmetic. -/
def exact (K : Type) [Zero K] [Add K] [Mul K] [LT K] [DecidableLT K] : Arith K where
  zero := 0
  add := (· + ·)
  mul := (· * ·)
  gt a b := decide (b < a)

section
variable [CommRing K] [LinearOrder K]

theorem foldl_visit_prob (tr : σ → σ → K) (em : σ → ω → K) (T : σ → Tracking σ K) (o : ω) (t : σ)
    (l : List σ) (N : Tracking σ K) :
    (l.foldl (visit (exact K) tr em T o t) N).prob =
      N.prob + (l.map (fun s => (T s).prob * (em s o * tr s t))).sum := by
  induction l generalizing N with
  | nil => simp
  | cons s l ih =>
    rw [List.foldl_cons, ih, List.map_cons, List.sum_cons, ← add_assoc]
    congr 1
    unfold visit
    simp only
    split <;> rfl

theorem foldl_collect_prob (T : σ → Tracking σ K) (l : List σ) (N : Tracking σ K) :
    (l.foldl (collect (exact K) T) N).prob = N.prob + (l.map (fun s => (T s).prob)).sum := by
  induction l generalizing N with
  | nil => simp
  | cons s l ih =>
    rw [List.foldl_cons, ih, List.map_cons, List.sum_cons, ← add_assoc]
    congr 1
    unfold collect
    simp only
    split <;> rfl

theorem sum_swap {α β : Type} (l : List α) (m : List β) (f : α → β → K) :
    (l.map (fun a => (m.map (f a)).sum)).sum = (m.map (fun b => (l.map (fun a => f a b)).sum)).sum := by
  induction l with
  | nil => simp
  | cons a l ih => simp [ih, List.sum_map_add]

theorem sum_flatMap {α β : Type} (l : List α) (g : α → List β) (f : β → K) :
    ((l.flatMap g).map f).sum = (l.map (fun a => ((g a).map f).sum)).sum := by
  induction l with
  | nil => simp
  | cons a l ih => simp [ih]

theorem last_of_mem {states : List σ} {n : Nat} {p : List σ} (h : p ∈ allPaths states n) :
    ∃ a, p.getLast? = some a := by
  have := ((mem_allPaths _ _ _).1 h).1
  cases p with
  | nil => simp at this
  | cons a l => exact ⟨_, List.getLast?_eq_some_getLast (by simp)⟩

theorem rounds_prob [DecidableEq σ] (states : List σ) (st : σ → K) (tr : σ → σ → K) (em : σ → ω → K)
    (os : List ω) (f : σ → K) :
    (states.map (fun s => (os.foldl (round (exact K) states tr em) (start (exact K) states st) s).prob * f s)).sum =
      ((allPaths states os.length).map (fun p => weight (exact K) st tr em os p *
        (p.getLast?.map f).getD 0)).sum := by
  induction os using List.reverseRecOn generalizing f with
  | nil =>
    simp only [List.foldl_nil, List.length_nil, allPaths, List.map_map]
    congr 1
    refine List.map_congr_left (fun s hs => ?_)
    simp [start, foldl_put, hs, weight, go]
  | append_singleton os o ih =>
    rw [List.foldl_append, List.foldl_cons, List.foldl_nil]
    generalize hT : os.foldl (round (exact K) states tr em) (start (exact K) states st) = T at ih ⊢
    have h1 : (states.map (fun t => (round (exact K) states tr em T o t).prob * f t)).sum =
        (states.map (fun t => (states.map (fun s => (T s).prob * (em s o * tr s t * f t))).sum)).sum := by
      congr 1
      refine List.map_congr_left (fun t ht => ?_)
      simp only [round, foldl_put, if_pos ht, foldl_visit_prob]
      have : (Tracking.new (exact K) : Tracking σ K).prob = 0 := rfl
      rw [this, zero_add, ← List.sum_map_mul_right]
      congr 1
      refine List.map_congr_left (fun s _ => ?_)
      ring
    rw [h1, sum_swap]
    have h2 : (states.map (fun s => (states.map (fun t => (T s).prob * (em s o * tr s t * f t))).sum)).sum =
        (states.map (fun s => (T s).prob * (states.map (fun t => em s o * tr s t * f t)).sum)).sum := by
      congr 1
      refine List.map_congr_left (fun s _ => ?_)
      rw [← List.sum_map_mul_left]
    rw [h2, ih (fun s => (states.map (fun t => em s o * tr s t * f t)).sum), List.length_append,
      List.length_singleton, allPaths, sum_flatMap]
    congr 1
    refine List.map_congr_left (fun p hp => ?_)
    obtain ⟨s, hs⟩ := last_of_mem hp
    rw [hs, List.map_map, Option.map_some, Option.getD_some, ← List.sum_map_mul_left]
    congr 1
    refine List.map_congr_left (fun t _ => ?_)
    simp only [Function.comp_apply]
    rw [weight_snoc _ st tr em os o p ((mem_allPaths _ _ _).1 hp).1 s hs t]
    have : (p ++ [t]).getLast? = some t := by simp
    rw [this, Option.map_some, Option.getD_some]
    change _ = weight (exact K) st tr em os p * (em s o * tr s t) * f t
    ring

/-- **C51, total.**  For every state list, tables and observation sequence, in exact arithmetic the reported
total probability is the sum of the weights of all state paths. -/
theorem C51_total [DecidableEq σ] (states : List σ) (st : σ → K) (tr : σ → σ → K) (em : σ → ω → K)
    (os : List ω) :
    (forwardViterbi (exact K) os states st tr em).prob =
      ((allPaths states os.length).map (weight (exact K) st tr em os)).sum := by
  have h := rounds_prob states st tr em os (fun _ => 1)
  simp only [mul_one] at h
  unfold forwardViterbi
  simp only [foldl_collect_prob]
  have : (Tracking.new (exact K) : Tracking σ K).prob = 0 := rfl
  rw [this, zero_add, h]
  congr 1
  refine List.map_congr_left (fun p hp => ?_)
  obtain ⟨s, hs⟩ := last_of_mem hp
  simp [hs]

/-- The textbook likelihood of a hidden state path: one state per observation. -/
def likGo (tr : σ → σ → K) (em : σ → ω → K) : σ → List ω → List σ → K
  | s, [o], [] => em s o
  | s, o :: os, t :: ts => em s o * tr s t * likGo tr em t os ts
  | _, _, _ => 0

def likelihood (st : σ → K) (tr : σ → σ → K) (em : σ → ω → K) (os : List ω) : List σ → K
  | [] => 0
  | s :: ts => st s * likGo tr em s os ts

theorem likGo_snoc (tr : σ → σ → K) (em : σ → ω → K) (os : List ω) (o : ω) (acc : K)
    (s : σ) (ts : List σ) (h : ts.length = os.length) :
    acc * likGo tr em s (os ++ [o]) ts =
      go (exact K) tr em acc s os ts * em (ts.getLast?.getD s) o := by
  induction os generalizing acc s ts with
  | nil =>
    rw [List.length_eq_zero_iff.1 h]
    simp [go, likGo]
  | cons o' os ih =>
    cases ts with
    | nil => simp at h
    | cons t' ts =>
      have e : (t' :: ts).getLast?.getD s = ts.getLast?.getD t' := by
        cases ts with
        | nil => rfl
        | cons a l => rw [List.getLast?_cons_cons, List.getLast?_cons]; simp
      simp only [List.cons_append, go, e]
      rw [← ih _ _ _ (by simpa using h)]
      cases os with
      | nil => simp only [List.nil_append, likGo]; change _ = acc * (em s o' * tr s t') * _; ring
      | cons o2 os => simp only [List.cons_append, likGo]; change _ = acc * (em s o' * tr s t') * _; ring

/-- **C51, likelihood.**  If every row of the transition table sums to 1, the reported total is the textbook
probability of the observation sequence: the sum of the likelihoods of all paths with one hidden state per
observation. -/
theorem C51_likelihood [DecidableEq σ] (states : List σ) (st : σ → K) (tr : σ → σ → K) (em : σ → ω → K)
    (hrow : ∀ s ∈ states, (states.map (tr s)).sum = 1) (os : List ω) (o : ω) :
    (forwardViterbi (exact K) (os ++ [o]) states st tr em).prob =
      ((allPaths states os.length).map (likelihood st tr em (os ++ [o]))).sum := by
  rw [C51_total, List.length_append, List.length_singleton, allPaths, sum_flatMap]
  congr 1
  refine List.map_congr_left (fun p hp => ?_)
  obtain ⟨s, hs⟩ := last_of_mem hp
  obtain ⟨hl, hm⟩ := (mem_allPaths _ _ _).1 hp
  have h1 : (states.map (fun t => weight (exact K) st tr em (os ++ [o]) (p ++ [t]))) =
      states.map (fun t => weight (exact K) st tr em os p * em s o * tr s t) := by
    refine List.map_congr_left (fun t _ => ?_)
    rw [weight_snoc _ st tr em os o p hl s hs t]
    change _ * (em s o * tr s t) = _
    ring
  rw [List.map_map]
  change (states.map (fun t => weight (exact K) st tr em (os ++ [o]) (p ++ [t]))).sum = _
  rw [h1, List.sum_map_mul_left, hrow s (hm s (List.mem_of_getLast? hs)), mul_one]
  cases p with
  | nil => simp at hl
  | cons a ts =>
    have e : ts.getLast?.getD a = s := by
      cases ts with
      | nil => simpa using hs
      | cons b l => rw [List.getLast?_cons_cons] at hs; rw [hs]; rfl
    simp only [likelihood, weight]
    rw [likGo_snoc tr em os o _ _ _ (by simpa using hl), e]

end

/-! ### Instances -/

theorem exact_laws [Ring K] [LinearOrder K] [IsStrictOrderedRing K] : Laws (exact K) where
  gt := by intro a b; simp [exact]
  mul_nonneg := fun a b ha hb => mul_nonneg ha hb
  mul_mono := fun a b c h hc => mul_le_mul_of_nonneg_right h hc
  zero_mul := fun c _ => zero_mul c

/-- Rounded arithmetic: every operation is followed by a monotone rounding that keeps 0. -/
def rounded (K : Type) [Zero K] [Add K] [Mul K] [LT K] [DecidableLT K] (fl : K → K) : Arith K where
  zero := 0
  add a b := fl (a + b)
  mul a b := fl (a * b)
  gt a b := decide (b < a)

theorem rounded_laws [Ring K] [LinearOrder K] [IsStrictOrderedRing K] (fl : K → K) (hm : Monotone fl)
    (h0 : fl 0 = 0) : Laws (rounded K fl) where
  gt := by intro a b; simp [rounded]
  mul_nonneg := fun a b ha hb => by
    have := hm (mul_nonneg ha hb)
    rwa [h0] at this
  mul_mono := fun a b c h hc => hm (mul_le_mul_of_nonneg_right h hc)
  zero_mul := fun c _ => by
    change fl (0 * c) = 0
    rw [zero_mul, h0]

/-! ### The example of the source file -/

/-- `init_variables` (src/ViterbiSTL.cc:60-84): Healthy = true, Fever = false; normal, cold, dizzy = 0, 1, 2. -/
def startP : Bool → Rat := fun s => if s then 6 / 10 else 4 / 10
def transP : Bool → Bool → Rat := fun s t => if s then (if t then 7 / 10 else 3 / 10) else (if t then 4 / 10 else 6 / 10)
def emitP : Bool → Nat → Rat := fun s o =>
  if s then [5 / 10, 4 / 10, 1 / 10].getD o 0 else [1 / 10, 3 / 10, 6 / 10].getD o 0

/-- The program reports the path Healthy, Healthy, Fever, Fever with 0.00907..., total 0.03628. -/
example : (forwardViterbi (exact Rat) [0, 1, 2] [true, false] startP transP emitP).v_path =
      [true, true, false, false] ∧
    (forwardViterbi (exact Rat) [0, 1, 2] [true, false] startP transP emitP).v_prob = 9072 / 1000000 ∧
    (forwardViterbi (exact Rat) [0, 1, 2] [true, false] startP transP emitP).prob = 3628 / 100000 := by
  decide +kernel

/-- The hypotheses of the theorems hold for the example. -/
example : (∀ s, 0 ≤ startP s) ∧ (∀ s t, 0 ≤ transP s t) ∧
    (∀ s ∈ [true, false], ([true, false].map (transP s)).sum = 1) := by decide +kernel

/-! ### C55: is it the most likely explanation? -/

/-- Two states; A explains the observation better, but B's best continuation is surer. -/
def trW : Bool → Bool → Rat := fun s t => if s then 1 / 2 else (if t then 0 else 1)
def emW : Bool → Nat → Rat := fun s o => if s then (if o = 0 then 6 / 10 else 4 / 10) else 5 / 10

/-- **C55 violated.**  The reported Viterbi path need not start with the most likely hidden states: the
function multiplies in a transition after the last observation.  With proper distributions and one
observation the most likely hidden state is `true`, but the reported path is `false, false`. -/
theorem C55_extra_transition_violated :
    (forwardViterbi (exact Rat) [0] [true, false] (fun _ => 1 / 2) trW emW).v_path = [false, false] ∧
    likelihood (fun _ => 1 / 2) trW emW [0] [false] < likelihood (fun _ => 1 / 2) trW emW [0] [true] ∧
    (∀ s, ([true, false].map (trW s)).sum = 1) ∧ (∀ s, ([0, 1].map (emW s)).sum = 1) := by
  decide +kernel

/-- **C55 (partial).**  What does hold: if all states have the same best outgoing transition `m`, then the
reported path without its last state is a most likely path, and its likelihood is the reported probability
divided by `m`.  Missing: other tables, see above. -/
theorem C55_uniform_partial [Field K] [LinearOrder K] [IsStrictOrderedRing K] [DecidableEq σ]
    (states : List σ) (st : σ → K) (tr : σ → σ → K) (em : σ → ω → K)
    (hst : ∀ s, 0 ≤ st s) (htr : ∀ s t, 0 ≤ tr s t) (hem : ∀ s o, 0 ≤ em s o) (m : K) (hm : 0 < m)
    (hmax : ∀ s ∈ states, (∀ t ∈ states, tr s t ≤ m) ∧ ∃ t ∈ states, tr s t = m) (os : List ω) (o : ω)
    (hpos : 0 < (forwardViterbi (exact K) (os ++ [o]) states st tr em).v_prob) :
    let path := (forwardViterbi (exact K) (os ++ [o]) states st tr em).v_path.dropLast
    path.length = (os ++ [o]).length ∧ (∀ s ∈ path, s ∈ states) ∧
      likelihood st tr em (os ++ [o]) path * m = (forwardViterbi (exact K) (os ++ [o]) states st tr em).v_prob ∧
      ∀ p, p.length = (os ++ [o]).length → (∀ s ∈ p, s ∈ states) →
        likelihood st tr em (os ++ [o]) p ≤ likelihood st tr em (os ++ [o]) path := by
  have hb := C51_best (exact_laws (K := K)) (states := states) hst htr hem (os ++ [o])
  generalize forwardViterbi (exact K) (os ++ [o]) states st tr em = N at hb hpos
  obtain ⟨hup, hatt⟩ := hb
  have hpos0 : N.v_prob ≠ (exact K).zero := hpos.ne'
  obtain ⟨hl, hs, hw⟩ := hatt.resolve_left hpos0
  -- weight of an extended path in terms of the likelihood
  have hext : ∀ p : List σ, p.length = (os ++ [o]).length → ∀ s, p.getLast? = some s → ∀ t,
      weight (exact K) st tr em (os ++ [o]) (p ++ [t]) = likelihood st tr em (os ++ [o]) p * tr s t := by
    intro p hp s hps t
    have hp' : p.length = os.length + 1 := by simpa using hp
    rw [weight_snoc _ st tr em os o p hp' s hps t]
    cases p with
    | nil => simp at hps
    | cons a ts =>
      have e : ts.getLast?.getD a = s := by
        cases ts with
        | nil => simpa using hps
        | cons b l => rw [List.getLast?_cons_cons] at hps; rw [hps]; rfl
      simp only [likelihood, weight]
      rw [likGo_snoc tr em os o _ _ _ (by simpa using hp'), e]
      change _ * (em s o * tr s t) = _
      ring
  have hlast : ∀ p : List σ, p.length = (os ++ [o]).length → ∃ s, p.getLast? = some s := by
    intro p hp
    cases p with
    | nil => simp at hp
    | cons a l => exact ⟨_, List.getLast?_eq_some_getLast (by simp)⟩
  obtain ⟨q, t, hq⟩ : ∃ q t, N.v_path = q ++ [t] := by
    rcases List.eq_nil_or_concat N.v_path with h | ⟨q, t, h⟩
    · rw [h] at hl; simp at hl
    · exact ⟨q, t, by rw [h, List.concat_eq_append]⟩
  have hq' : N.v_path.dropLast = q := by rw [hq, List.dropLast_concat]
  simp only [hq']
  have hql : q.length = (os ++ [o]).length := by rw [hq] at hl; simpa using hl
  have hqs : ∀ s ∈ q, s ∈ states := fun s h => hs s (by rw [hq]; simp [h])
  have hts : t ∈ states := hs t (by rw [hq]; simp)
  obtain ⟨s, hqlast⟩ := hlast q hql
  have hss := hqs s (List.mem_of_getLast? hqlast)
  have hval : likelihood st tr em (os ++ [o]) q * tr s t = N.v_prob := by
    rw [← hext q hql s hqlast t, ← hq, hw]
  -- every path extended by its best transition is bounded by the reported probability
  have hle : ∀ p, p.length = (os ++ [o]).length → (∀ s ∈ p, s ∈ states) →
      likelihood st tr em (os ++ [o]) p * m ≤ N.v_prob := by
    intro p hp hps
    obtain ⟨a, ha⟩ := hlast p hp
    obtain ⟨b, hb, e⟩ := (hmax a (hps a (List.mem_of_getLast? ha))).2
    rw [← e, ← hext p hp a ha b]
    apply hup
    · simp [hp]
    · intro x hx
      rcases List.mem_append.1 hx with h | h
      · exact hps x h
      · rw [List.mem_singleton.1 h]; exact hb
  have htm : tr s t = m := by
    refine le_antisymm ((hmax s hss).1 t hts) ?_
    have h1 := hle q hql hqs
    rw [← hval] at h1
    have hlik : 0 < likelihood st tr em (os ++ [o]) q := by
      by_contra hn
      have : N.v_prob ≤ 0 := by
        rw [← hval]
        exact mul_nonpos_of_nonpos_of_nonneg (not_lt.1 hn) (htr s t)
      exact absurd hpos (not_lt.2 this)
    exact le_of_mul_le_mul_left h1 hlik
  rw [htm] at hval
  refine ⟨hql, hqs, hval, ?_⟩
  intro p hp hps
  have h1 := hle p hp hps
  rw [← hval] at h1
  exact le_of_mul_le_mul_right h1 hm

/-- The hypothesis on the transitions is met by any table that gives each state the same pattern. -/
example : ∀ s ∈ [true, false], (∀ t ∈ [true, false],
    (fun a b : Bool => if a = b then (9 / 10 : Rat) else 1 / 10) s t ≤ 9 / 10) ∧
    ∃ t ∈ [true, false], (fun a b : Bool => if a = b then (9 / 10 : Rat) else 1 / 10) s t = 9 / 10 := by
  decide +kernel

end JKD.STL
