import Verif.Lemmas.Viterbi
import Verif.Spec.Music
/-
Helper lemmas: the constructors copy their arguments faithfully.
-/

namespace JKD

/-- `std::map`: keys are unique, at both levels. -/
def MapOk {V : Type} (m : IMap V) : Prop := m.keys.Nodup
def MapOk2 {V : Type} (m : IMap (IMap V)) : Prop := m.keys.Nodup ∧ ∀ p ∈ m, MapOk p.2

namespace HMM

variable {D : Type}

theorem get?_copy_aux (m acc : IMap D) (h : m.keys.Nodup) (k : Int) :
    (m.foldl (fun acc p => acc.set p.1 p.2) acc).get? k = (m.get? k).or (acc.get? k) := by
  induction m generalizing acc with
  | nil => simp
  | cons p m ih =>
    simp only [AMap.keys, List.map_cons, List.nodup_cons] at h
    obtain ⟨a, v⟩ := p
    simp only [List.foldl_cons]
    rw [ih _ h.2, AMap.get?_set]
    simp only [AMap.get?]
    by_cases hk : a = k
    · subst hk
      rw [AMap.get?_eq_none_of_not_mem m h.1]
      simp
    · simp [hk, Ne.symm hk]

theorem get?_copy1 (m : IMap D) (h : MapOk m) (k : Int) : (copy1 m).get? k = m.get? k := by
  unfold copy1
  rw [get?_copy_aux m [] h]
  simp

theorem rd_copy1 (F : FPU D) (m : IMap D) (h : MapOk m) (k : Int) : rd F (copy1 m) k = rd F m k := by
  unfold rd
  rw [get?_copy1 m h]

/-- A row of a nested map, empty if absent. -/
def row (m : IMap (IMap D)) (a : Int) : IMap D := (m.get? a).getD []

theorem row_inner (r : IMap D) (acc : IMap (IMap D)) (h : r.keys.Nodup) (a : Int) :
    (∀ b, (row (r.foldl (fun acc q => acc.set a (((acc.get? a).getD []).set q.1 q.2)) acc) a).get? b =
      (r.get? b).or ((row acc a).get? b)) ∧
    ∀ a', a' ≠ a → row (r.foldl (fun acc q => acc.set a (((acc.get? a).getD []).set q.1 q.2)) acc) a' =
      row acc a' := by
  induction r generalizing acc with
  | nil => exact ⟨by simp, by simp⟩
  | cons p r ih =>
    obtain ⟨k, v⟩ := p
    simp only [AMap.keys, List.map_cons, List.nodup_cons] at h
    obtain ⟨h1, h2⟩ := ih (acc.set a (((acc.get? a).getD []).set k v)) h.2
    constructor
    · intro b
      simp only [List.foldl_cons]
      rw [h1 b]
      simp only [row, AMap.get?_set_self, Option.getD_some, AMap.get?_set, AMap.get?]
      by_cases hk : k = b
      · subst hk
        rw [AMap.get?_eq_none_of_not_mem r h.1]
        simp
      · simp [hk, Ne.symm hk]
    · intro a' ha'
      simp only [List.foldl_cons]
      rw [h2 a' ha']
      simp [row, AMap.get?_set_ne _ _ ha']

theorem row_copy_aux (m acc : IMap (IMap D)) (h : MapOk2 m) (a b : Int) :
    (row (m.foldl (fun acc p =>
      p.2.foldl (fun acc q => acc.set p.1 (((acc.get? p.1).getD []).set q.1 q.2)) acc) acc) a).get? b =
      ((row m a).get? b).or ((row acc a).get? b) := by
  induction m generalizing acc with
  | nil => simp [row]
  | cons p m ih =>
    obtain ⟨k, r⟩ := p
    have hnd : k ∉ AMap.keys m ∧ (AMap.keys m).Nodup := by
      have := h.1
      simpa only [AMap.keys, List.map_cons, List.nodup_cons] using this
    have hr : r.keys.Nodup := h.2 (k, r) (by simp)
    obtain ⟨h1, h2⟩ := row_inner r acc hr k
    simp only [List.foldl_cons]
    rw [ih _ ⟨hnd.2, fun q hq => h.2 q (by simp [hq])⟩]
    by_cases hk : k = a
    · subst hk
      rw [h1 b]
      have : row m k = [] := by simp [row, AMap.get?_eq_none_of_not_mem m hnd.1]
      rw [this]
      simp [row, AMap.get?]
    · rw [h2 a (Ne.symm hk)]
      have : row ((k, r) :: m) a = row m a := by simp [row, AMap.get?, hk]
      rw [this]

theorem rd2_copy2 (F : FPU D) (m : IMap (IMap D)) (h : MapOk2 m) (a b : Int) :
    rd2 F (copy2 m) a b = rd2 F m a b := by
  have := row_copy_aux m [] h a b
  unfold rd2 rd
  unfold row at this
  unfold copy2
  rw [this]
  simp

theorem tables_build (F : FPU D) (os ss : List Int) (init : IMap D) (trans emis : IMap (IMap D))
    (hi : MapOk init) (ht : MapOk2 trans) (he : MapOk2 emis) :
    (build os ss init trans emis).tables F =
      { init := rd F init, trans := rd2 F trans, emis := rd2 F emis } := by
  unfold tables build
  congr 1
  · funext k; exact rd_copy1 F init hi k
  · funext a b; exact rd2_copy2 F trans ht a b
  · funext a b; exact rd2_copy2 F emis he a b

theorem keyInts_ok (l : List Key) (ns : List Int) (h : l.map Key.getInt = ns.map Res.ok) :
    keyInts l = .ok ns := by
  have aux : ∀ (l : List Key) (ns acc : List Int), l.map Key.getInt = ns.map Res.ok →
      forM l acc (fun acc k => do let n ← k.getInt; return acc ++ [n]) = .ok (acc ++ ns) := by
    intro l
    induction l with
    | nil => intro ns acc h; cases ns <;> simp_all
    | cons k l ih =>
      intro ns acc h
      cases ns with
      | nil => simp at h
      | cons n ns =>
        simp only [List.map_cons, List.cons.injEq] at h
        have := ih ns (acc ++ [n]) h.2
        rw [List.append_assoc, List.singleton_append] at this
        rw [forM_cons, h.1, Res.bind_ok, ← this]
        rfl
  exact aux l ns [] h

theorem pcInts_ok (l : List PitchClass) (ns : List Int) (h : l.map PitchClass.getInt = ns.map Res.ok) :
    pcInts l = .ok ns := by
  have aux : ∀ (l : List PitchClass) (ns acc : List Int), l.map PitchClass.getInt = ns.map Res.ok →
      forM l acc (fun acc k => do let n ← k.getInt; return acc ++ [n]) = .ok (acc ++ ns) := by
    intro l
    induction l with
    | nil => intro ns acc h; cases ns <;> simp_all
    | cons k l ih =>
      intro ns acc h
      cases ns with
      | nil => simp at h
      | cons n ns =>
        simp only [List.map_cons, List.cons.injEq] at h
        have := ih ns (acc ++ [n]) h.2
        rw [List.append_assoc, List.singleton_append] at this
        rw [forM_cons, h.1, Res.bind_ok, ← this]
        rfl
  exact aux l ns [] h

end HMM
end JKD
