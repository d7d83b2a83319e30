import Verif.Model.Chromagram
import Mathlib.Data.List.Basic
/-
Lemmas about the chromagram model: ordered maps keyed by doubles, line splitting, the CSV loop.
-/

namespace JKD

/-- `<` is a strict weak order on the numbers, a number being what equals itself. -/
structure OrderLaws {D : Type} (F : FPU D) : Prop where
  num : ∀ a b, F.lt a b = true → F.eq a a = true ∧ F.eq b b = true
  irrefl : ∀ a, F.lt a a = false
  trans : ∀ a b c, F.lt a b = true → F.lt b c = true → F.lt a c = true
  cotrans : ∀ a b c, F.eq b b = true → F.lt a c = true → F.lt a b = true ∨ F.lt b c = true

namespace CMap

variable {D : Type} {F : FPU D}

/-- Strictly increasing keys. -/
def Sorted (F : FPU D) (m : CMap D) : Prop := m.Pairwise (fun p q => F.lt p.1 q.1 = true)

/-- A map that can exist: increasing keys, none of them NaN, 12 values per entry. -/
structure WF (F : FPU D) (m : CMap D) : Prop where
  sorted : Sorted F m
  num : ∀ p ∈ m, F.eq p.1 p.1 = true
  len : ∀ p ∈ m, p.2.length = 12

theorem WF.nil : WF F ([] : CMap D) :=
  ⟨List.Pairwise.nil, by simp, by simp⟩

theorem WF.tail {p : D × List D} {m : CMap D} (h : WF F (p :: m)) : WF F m :=
  ⟨(List.pairwise_cons.1 h.sorted).2, fun q hq => h.num q (by simp [hq]),
    fun q hq => h.len q (by simp [hq])⟩

theorem mem_modify {m : CMap D} {t : D} {f : List D → List D} {p : D × List D}
    (hp : p ∈ m.modify F t f) : p ∈ m ∨ (p.1 = t ∧ p.2 = f (zeros F)) ∨
      ∃ q ∈ m, p.1 = q.1 ∧ p.2 = f q.2 := by
  induction m with
  | nil =>
    simp only [modify, List.mem_singleton] at hp
    subst hp; simp
  | cons q m ih =>
    obtain ⟨k, v⟩ := q
    simp only [modify] at hp
    split at hp
    · rcases List.mem_cons.1 hp with h | h
      · left; simp [h]
      · rcases ih h with h | h | ⟨q, hq, h⟩
        · left; simp [h]
        · right; left; exact h
        · right; right; exact ⟨q, by simp [hq], h⟩
    · split at hp
      · rcases List.mem_cons.1 hp with h | h
        · subst h; right; left; simp
        · left; exact h
      · rcases List.mem_cons.1 hp with h | h
        · subst h; right; right; exact ⟨(k, v), by simp, rfl, rfl⟩
        · left; simp [h]

theorem WF.modify {m : CMap D} (hF : OrderLaws F) (h : WF F m) {t : D} (ht : F.eq t t = true)
    {f : List D → List D} (hf : ∀ v, v.length = 12 → (f v).length = 12) : WF F (m.modify F t f) := by
  refine ⟨?_, ?_, ?_⟩
  · induction m with
    | nil => simp [CMap.modify, Sorted]
    | cons q m ih =>
      obtain ⟨k, v⟩ := q
      have h2 := List.pairwise_cons.1 h.sorted
      simp only [CMap.modify]
      split
      · rename_i hk
        refine List.pairwise_cons.2 ⟨?_, ih h.tail⟩
        intro p hp
        rcases mem_modify hp with h1 | h1 | ⟨q, hq, h1⟩
        · exact h2.1 p h1
        · rw [h1.1]; exact hk
        · rw [h1.1]; exact h2.1 q hq
      · rename_i hk
        split
        · rename_i hk2
          refine List.pairwise_cons.2 ⟨?_, h.sorted⟩
          intro p hp
          rcases List.mem_cons.1 hp with h1 | h1
          · rw [h1]; exact hk2
          · exact hF.trans _ _ _ hk2 (h2.1 p h1)
        · exact List.pairwise_cons.2 ⟨h2.1, h2.2⟩
  · intro p hp
    rcases mem_modify hp with h1 | h1 | ⟨q, hq, h1⟩
    · exact h.num p h1
    · rw [h1.1]; exact ht
    · rw [h1.1]; exact h.num q hq
  · intro p hp
    rcases mem_modify hp with h1 | h1 | ⟨q, hq, h1⟩
    · exact h.len p h1
    · rw [h1.2]; exact hf _ (by simp [zeros])
    · rw [h1.2]; exact hf _ (h.len q hq)

/-- Two accesses to the same entry are one access. -/
theorem modify_modify (hF : OrderLaws F) (m : CMap D) (t : D) (f g : List D → List D) :
    (m.modify F t f).modify F t g = m.modify F t (fun v => g (f v)) := by
  induction m with
  | nil => simp [modify, hF.irrefl]
  | cons q m ih =>
    obtain ⟨k, v⟩ := q
    by_cases h1 : F.lt k t = true
    · simp [modify, h1, ih]
    · by_cases h2 : F.lt t k = true
      · simp [modify, h1, h2, hF.irrefl]
      · simp [modify, h1, h2]

/-- Writing a key above all others appends. -/
theorem modify_last (m : CMap D) (t : D) (f : List D → List D) (h : ∀ p ∈ m, F.lt p.1 t = true) :
    m.modify F t f = m ++ [(t, f (zeros F))] := by
  induction m with
  | nil => simp [modify]
  | cons q m ih =>
    obtain ⟨k, v⟩ := q
    have := h (k, v) (by simp)
    simp only at this
    simp [modify, this, ih (fun p hp => h p (by simp [hp]))]

/-- Writing a new key adds one entry. -/
theorem modify_new (m : CMap D) (t : D) (f : List D → List D)
    (h : ∀ p ∈ m, F.lt p.1 t = true ∨ F.lt t p.1 = true) :
    (m.modify F t f).Perm ((t, f (zeros F)) :: m) := by
  induction m with
  | nil => simp [modify]
  | cons q m ih =>
    obtain ⟨k, v⟩ := q
    have h0 := h (k, v) (by simp)
    have ih := ih (fun p hp => h p (by simp [hp]))
    by_cases h1 : F.lt k t = true
    · simp only [modify, h1, if_true]
      exact (ih.cons _).trans (List.Perm.swap _ _ _)
    · have h2 : F.lt t k = true := by simpa [h1] using h0
      simp [modify, h1, h2]

theorem find?_none (m : CMap D) (x : D) (hm : ∀ p ∈ m, F.lt x p.1 = true) : CMap.find? F m x = none := by
  induction m with
  | nil => rfl
  | cons q m ih' =>
    obtain ⟨k', v'⟩ := q
    have := hm (k', v') (by simp)
    simp only at this
    simp [find?, this, ih' (fun p hp => hm p (by simp [hp]))]

/-- Reading after writing. -/
theorem find?_modify (hF : OrderLaws F) {m : CMap D} (h : WF F m) (t u : D) (ht : F.eq t t = true)
    (hu : F.eq u u = true) (f : List D → List D) :
    CMap.find? F (m.modify F t f) u =
      if F.lt t u || F.lt u t then CMap.find? F m u else some (f ((CMap.find? F m t).getD (zeros F))) := by
  induction m with
  | nil => simp [modify, find?]
  | cons q m ih =>
    obtain ⟨k, v⟩ := q
    have ih := ih h.tail
    have hk : F.eq k k = true := h.num (k, v) (by simp)
    have hbig : ∀ p ∈ m, F.lt k p.1 = true := (List.pairwise_cons.1 h.sorted).1
    by_cases h1 : F.lt k t = true
    · simp only [modify, h1, if_true, find?]
      by_cases h3 : F.lt k u = true
      · simp [h3, ih]
      · by_cases h4 : F.lt u k = true
        · simp [h4, ih]
        · simp only [h3, h4, Bool.or_self, Bool.false_eq_true, if_false]
          -- `u` is the key `k`, hence not `t`
          have h5 : F.lt u t = true := by
            rcases hF.cotrans k u t hu h1 with h | h
            · exact absurd h h3
            · exact h
          simp [h5]
    · by_cases h2 : F.lt t k = true
      · simp only [modify, h1, h2, if_true, if_false, find?, Bool.false_eq_true, Bool.or_true]
        by_cases h3 : (F.lt t u || F.lt u t) = true
        · simp [h3]
        · rw [if_neg h3, if_neg h3]
          have : CMap.find? F m t = none := find?_none m t (fun p hp => hF.trans _ _ _ h2 (hbig p hp))
          rw [this]; rfl
      · simp only [modify, h1, h2, if_false, find?, Bool.false_eq_true, Bool.or_self]
        simp only [Bool.not_eq_true] at h1 h2
        -- `t` is the key `k`
        have e1 : F.lt k u = F.lt t u := by
          rw [Bool.eq_iff_iff]
          constructor
          · intro h
            rcases hF.cotrans k t u ht h with h | h
            · simp [h1] at h
            · exact h
          · intro h
            rcases hF.cotrans t k u hk h with h | h
            · simp [h2] at h
            · exact h
        have e2 : F.lt u k = F.lt u t := by
          rw [Bool.eq_iff_iff]
          constructor
          · intro h
            rcases hF.cotrans u t k ht h with h | h
            · exact h
            · simp [h2] at h
          · intro h
            rcases hF.cotrans u k t hk h with h | h
            · exact h
            · simp [h1] at h
        rw [e1, e2]
        by_cases hh : (F.lt t u || F.lt u t) = true
        · simp only [hh, if_true]
        · simp only [hh, if_false, Option.getD_some, Bool.false_eq_true]

theorem assign_ok {m : CMap D} {t : D} (ht : F.eq t t = true) {i : Nat} (hi : i < 12) (x : D) :
    m.assign F t i x = .ok (m.modify F t (fun v => v.set i x)) := by
  simp [assign, ht, hi]

/-- Two maps in key order with the same entries are the same map. -/
theorem eq_of_perm (hF : OrderLaws F) {m m' : CMap D} (h : Sorted F m) (h' : Sorted F m')
    (hp : m.Perm m') : m = m' := by
  refine List.Perm.eq_of_pairwise ?_ h h' hp
  intro a b _ _ h1 h2
  have := hF.trans _ _ _ h1 h2
  rw [hF.irrefl] at this
  cases this

end CMap

/-! ### Line splitting -/

theorem getlines_go_append (d : Char) (s : Str) (hs : d ∉ s) (rest cur : Str) (b : Bool) :
    getlines.go d (s ++ d :: rest) cur b = (cur.reverse ++ s) :: getlines.go d rest [] false := by
  induction s generalizing cur b with
  | nil => simp [getlines.go]
  | cons c s ih =>
    have hc : c ≠ d := by rintro rfl; simp at hs
    have := ih (fun h => hs (by simp [h])) (c :: cur) true
    simp [getlines.go, hc, this]

theorem getlines_go_end (d : Char) (s : Str) (hs : d ∉ s) (cur : Str) (b : Bool) (h : b = true ∨ s ≠ []) :
    getlines.go d s cur b = [cur.reverse ++ s] := by
  induction s generalizing cur b with
  | nil => simp at h; simp [getlines.go, h]
  | cons c s ih =>
    have hc : c ≠ d := by rintro rfl; simp at hs
    have := ih (fun h => hs (by simp [h])) (c :: cur) true (by simp)
    simp [getlines.go, hc, this]

/-- Lines ended by the delimiter come out as they are. -/
theorem getlines_lines (d : Char) (ls : List Str) (h : ∀ l ∈ ls, d ∉ l) :
    getlines d (ls.flatMap (fun l => l ++ [d])) = ls := by
  unfold getlines
  induction ls with
  | nil => simp [getlines.go]
  | cons l ls ih =>
    simp only [List.flatMap_cons, List.append_assoc, List.singleton_append]
    rw [getlines_go_append d l (h l (by simp))]
    simp [ih (fun l hl => h l (by simp [hl]))]

/-- The last line may lack its delimiter, if it is not empty. -/
theorem getlines_lines_last (d : Char) (ls : List Str) (last : Str) (h : ∀ l ∈ ls, d ∉ l)
    (hl : d ∉ last) (hne : last ≠ []) :
    getlines d (ls.flatMap (fun l => l ++ [d]) ++ last) = ls ++ [last] := by
  unfold getlines
  induction ls with
  | nil => simpa using getlines_go_end d last hl [] false (Or.inr hne)
  | cons l ls ih =>
    simp only [List.flatMap_cons, List.append_assoc, List.cons_append]
    rw [getlines_go_append d l (h l (by simp))]
    simp [ih (fun l hl => h l (by simp [hl]))]

/-- `a,b,c` splits into `a`, `b`, `c`; the last piece must not be empty. -/
theorem getlines_sep (d : Char) (a : Str) (ls : List Str) (ha : d ∉ a) (h : ∀ l ∈ ls, d ∉ l)
    (hne : ∀ l ∈ ls, l ≠ []) (hae : a ≠ []) :
    getlines d (a ++ ls.flatMap (fun l => d :: l)) = a :: ls := by
  induction ls generalizing a with
  | nil =>
    unfold getlines
    simpa using getlines_go_end d a ha [] false (Or.inr hae)
  | cons l ls ih =>
    have := ih l (h l (by simp)) (fun l' hl' => h l' (by simp [hl'])) (fun l' hl' => hne l' (by simp [hl']))
      (hne l (by simp))
    unfold getlines at this ⊢
    simp only [List.flatMap_cons, List.cons_append]
    rw [getlines_go_append d a ha]
    simp [this]

end JKD
