import Verif.Model.KeyTransition
import Verif.Model.KeyProfile
import Verif.Spec.Music
/-
Closed forms of `getKeyTransitionMap` and `getKeyProfileMap` (helper lemmas, not property theorems).
Both functions only move array entries around, so they commute with relabelling the entries
(naturality); the closed form is then checked once on the array of indices.
-/

namespace JKD

open Spec

/-- A map given by a function on a list of keys. -/
def tab {V : Type} (ks : List Int) (f : Int → V) : IMap V := ks.map (fun k => (k, f k))

theorem get?_tab {V : Type} (ks : List Int) (f : Int → V) (k : Int) :
    (tab ks f).get? k = if k ∈ ks then some (f k) else none := by
  induction ks with
  | nil => simp [tab]
  | cons a ks ih =>
    simp only [tab, List.map_cons, AMap.get?] at ih ⊢
    by_cases h : a = k
    · subst h; simp
    · rw [if_neg h, ih]
      simp [Ne.symm h]

/-- Relabel the values of a map. -/
def vmap {V W : Type} (f : V → W) (m : IMap V) : IMap W := m.map (fun p => (p.1, f p.2))

theorem vmap_set {V W : Type} (f : V → W) (m : IMap V) (k : Int) (v : V) :
    vmap f (m.set k v) = (vmap f m).set k (f v) := by
  induction m with
  | nil => rfl
  | cons p m ih =>
    obtain ⟨k', v'⟩ := p
    by_cases h : k' = k
    · simp [vmap, AMap.set, h]
    · simp only [AMap.set, h, if_false, vmap, List.map_cons] at ih ⊢
      rw [ih]

theorem vmap_tab {V W : Type} (f : V → W) (ks : List Int) (g : Int → V) :
    vmap f (tab ks g) = tab ks (fun k => f (g k)) := by
  simp [vmap, tab]

theorem rotate_map {α β : Type} (f : α → β) (l : List α) (n : Nat) :
    rotate (l.map f) n = (rotate l n).map f := by
  simp [rotate, List.map_drop, List.map_take]

/-- A list of length `n` is a relabelling of `0..n-1`. -/
theorem eq_map_range {α : Type} (l : List α) (d : α) : l = (List.range l.length).map (fun i => l.getD i d) := by
  apply List.ext_getElem
  · simp
  · intro i h1 h2
    simp [h1]

theorem forM_map {α σ τ : Type} (l : List α) (s : σ) (h : σ → τ) (f : σ → α → Res σ) (g : τ → α → Res τ)
    (hfg : ∀ s a, g (h s) a = (h <$> f s a)) : forM l (h s) g = (h <$> forM l s f) := by
  induction l generalizing s with
  | nil => rfl
  | cons a l ih =>
    simp only [forM_cons, hfg]
    cases f s a with
    | ok s' => simpa using ih s'
    | ub => rfl
    | throw e => rfl

/-! ### Transitions -/

/-- The array slot used for the transition from key `x` to key `y`. -/
def slot (x y : Int) : Nat :=
  (if x < 12 then
    if y < 12 then (y - x) % 12 else 12 + (y - x) % 12
  else
    if y < 12 then 12 + (y - x + 9) % 12 else (y - x) % 12).toNat

namespace KeyTransition

variable {D E : Type}

theorem tonicRelative_map (f : D → E) (kt : List D) (k : Key) :
    tonicRelative (kt.map f) k = ((fun p => (p.1.map f, p.2.map f)) <$> tonicRelative kt k) := by
  unfold tonicRelative
  cases k.isMajor with
  | ub => rfl
  | throw e => rfl
  | ok b =>
    cases b with
    | true => simp [List.map_take, List.map_drop]
    | false =>
      cases k.isMinor with
      | ub => rfl
      | throw e => rfl
      | ok b => cases b <;> simp [← List.map_take, ← List.map_drop, rotate_map]

theorem mapRow_map (f : D → E) (kt : List D) (kv : List Key) (k : Key) :
    mapRow (kt.map f) kv k = (vmap f <$> mapRow kt kv k) := by
  unfold mapRow
  cases k.getInt with
  | ub => rfl
  | throw e => rfl
  | ok n =>
    simp only [Res.bind_ok, tonicRelative_map]
    cases tonicRelative kt k with
    | ub => rfl
    | throw e => rfl
    | ok p =>
      obtain ⟨t, r⟩ := p
      simp only [Res.map_ok, Res.bind_ok, rotate_map, ← List.map_append]
      have : ([] : IMap E) = vmap f ([] : IMap D) := rfl
      rw [this]
      apply forM_map
      intro s a
      cases a.getInt with
      | ub => rfl
      | throw e => rfl
      | ok toKey =>
        simp only [Res.bind_ok, List.getElem?_map]
        cases (rotate t (12 - n.tmod 12).toNat ++ rotate r (12 - n.tmod 12).toNat)[toKey.toNat]? with
        | none => rfl
        | some v => simp [vmap_set]

theorem mapOf_map (f : D → E) (kt : List D) : mapOf (kt.map f) = (vmap (vmap f) <$> mapOf kt) := by
  unfold mapOf
  have : ([] : IMap (IMap E)) = vmap (vmap f) ([] : IMap (IMap D)) := rfl
  rw [this]
  apply forM_map
  intro s a
  simp only [mapRow_map]
  cases mapRow kt Key.all a with
  | ub => rfl
  | throw e => rfl
  | ok row =>
    simp only [Res.map_ok, Res.bind_ok]
    cases a.getInt with
    | ub => rfl
    | throw e => rfl
    | ok n => simp [vmap_set]

theorem mapOf_range : mapOf (List.range 24) = .ok (tab keys (fun x => tab keys (fun y => slot x y))) := by
  decide +kernel

/-- Closed form of the transition map, for every array of 24 entries (`d` is never used). -/
theorem mapOf_eq (kt : List D) (h : kt.length = 24) (d : D) :
    mapOf kt = .ok (tab keys (fun x => tab keys (fun y => kt.getD (slot x y) d))) := by
  conv => lhs; rw [eq_map_range kt d, h]
  rw [mapOf_map, mapOf_range]
  simp only [Res.map_ok, vmap_tab]

end KeyTransition

/-! ### Profiles -/

namespace KeyProfile

variable {D E : Type}

theorem mapRow_map (f : D → E) (prof : List D) (k : Key) :
    mapRow (prof.map f) k = (vmap f <$> mapRow prof k) := by
  unfold mapRow
  cases k.getInt with
  | ub => rfl
  | throw e => rfl
  | ok n =>
    simp only [Res.bind_ok, rotate_map]
    have : ([] : IMap E) = vmap f ([] : IMap D) := rfl
    rw [this]
    apply forM_map
    intro s a
    cases a.getInt with
    | ub => rfl
    | throw e => rfl
    | ok pc =>
      simp only [Res.bind_ok, List.getElem?_map]
      cases (rotate prof (12 - n.tmod 12).toNat)[pc.toNat]? with
      | none => rfl
      | some v => simp [vmap_set]

/-- The scale degree of pitch class `pc` in a key on tonic `n mod 12`. -/
def degree (n pc : Int) : Nat := ((pc - n) % 12).toNat

theorem mapRow_range : ∀ n ∈ keys,
    mapRow (List.range 12) (Key.ofInt n) = .ok (tab pcs (fun pc => degree n pc)) := by
  decide +kernel

theorem mapRow_eq (prof : List D) (h : prof.length = 12) (d : D) {n : Int} (hn : n ∈ keys) :
    mapRow prof (Key.ofInt n) = .ok (tab pcs (fun pc => prof.getD (degree n pc) d)) := by
  conv => lhs; rw [eq_map_range prof d, h]
  rw [mapRow_map, mapRow_range n hn]
  simp only [Res.map_ok, vmap_tab]

theorem getMaj_fst (F : FPU D) (kp : KeyProfile D) :
    (kp.getMaj F).1 = (kp.majTables.get? kp.majName).getD (List.replicate 12 F.zero) := by
  unfold KeyProfile.getMaj
  cases kp.majTables.get? kp.majName <;> rfl

theorem getMin_fst (F : FPU D) (kp : KeyProfile D) :
    (kp.getMin F).1 = (kp.minTables.get? kp.minName).getD (List.replicate 12 F.zero) := by
  unfold KeyProfile.getMin
  cases kp.minTables.get? kp.minName <;> rfl

/-- What a client can see of the selected profiles. -/
structure View (F : FPU D) (kp : KeyProfile D) (a b : List D) (x y : String) : Prop where
  maj : (kp.getMaj F).1 = a
  min : (kp.getMin F).1 = b
  majName : kp.majName = x
  minName : kp.minName = y

theorem View.getMaj {F : FPU D} {kp : KeyProfile D} {a b : List D} {x y : String}
    (h : View F kp a b x y) : View F (kp.getMaj F).2 a b x y := by
  obtain ⟨h1, h2, h3, h4⟩ := h
  unfold KeyProfile.getMaj at h1 ⊢
  cases hg : kp.majTables.get? kp.majName with
  | some v =>
    simp only [hg] at h1 ⊢
    exact ⟨by simp [KeyProfile.getMaj, hg, h1], h2, h3, h4⟩
  | none =>
    simp only [hg] at h1 ⊢
    refine ⟨?_, ?_, h3, h4⟩
    · simp [KeyProfile.getMaj, AMap.get?_set_self, h1]
    · rw [getMin_fst] at h2 ⊢; exact h2

theorem View.getMin {F : FPU D} {kp : KeyProfile D} {a b : List D} {x y : String}
    (h : View F kp a b x y) : View F (kp.getMin F).2 a b x y := by
  obtain ⟨h1, h2, h3, h4⟩ := h
  unfold KeyProfile.getMin at h2 ⊢
  cases hg : kp.minTables.get? kp.minName with
  | some v =>
    simp only [hg] at h2 ⊢
    exact ⟨h1, by simp [KeyProfile.getMin, hg, h2], h3, h4⟩
  | none =>
    simp only [hg] at h2 ⊢
    refine ⟨?_, ?_, h3, h4⟩
    · rw [getMaj_fst] at h1 ⊢; exact h1
    · simp [KeyProfile.getMin, AMap.get?_set_self, h2]

theorem set_not_mem {V : Type} (m : IMap V) (k : Int) (v : V) (h : k ∉ m.keys) :
    m.set k v = m ++ [(k, v)] := by
  induction m with
  | nil => rfl
  | cons p m ih =>
    obtain ⟨k', v'⟩ := p
    simp only [AMap.keys, List.map_cons, List.mem_cons, not_or] at h
    simp only [AMap.set, Ne.symm h.1, if_false, List.cons_append]
    rw [ih h.2]

theorem isMajor_ofInt : ∀ n ∈ keys, (Key.ofInt n).isMajor = .ok (Spec.isMajor n) ∧
    (Key.ofInt n).getInt = .ok n := by decide +kernel

theorem all_eq : Key.all = keys.map Key.ofInt := by decide +kernel

/-- The emission value of pitch class `pc` in key `n`, from the two selected arrays. -/
def emis (a b : List D) (d : D) (n pc : Int) : D :=
  (if Spec.isMajor n then a else b).getD (degree n pc) d

theorem getMap_aux (F : FPU D) (a b : List D) (x y : String) (ha : a.length = 12) (hb : b.length = 12)
    (d : D) (ns : List Int) (hk : ∀ n ∈ ns, n ∈ keys) (hnd : ns.Nodup) (done : List Int)
    (hdis : ∀ n ∈ ns, n ∉ done) (kp : KeyProfile D) (hv : View F kp a b x y) :
    ∃ kp', forM (ns.map Key.ofInt) (tab done (fun n => tab pcs (emis a b d n)), kp) (fun s k => do
        let (prof, kp') := if ← k.isMajor then s.2.getMaj F else s.2.getMin F
        let row ← mapRow prof k
        let n ← k.getInt
        return (s.1.set n row, kp')) =
      .ok (tab (done ++ ns) (fun n => tab pcs (emis a b d n)), kp') ∧ View F kp' a b x y := by
  induction ns generalizing done kp with
  | nil => exact ⟨kp, by simp, hv⟩
  | cons n ns ih =>
    obtain ⟨hmaj, hint⟩ := isMajor_ofInt n (hk n (by simp))
    have hset : (tab done (fun n => tab pcs (emis a b d n))).set n (tab pcs (emis a b d n)) =
        tab (done ++ [n]) (fun n => tab pcs (emis a b d n)) := by
      rw [set_not_mem]
      · simp [tab]
      · simp only [AMap.keys, tab, List.map_map]
        intro hmem
        obtain ⟨z, hz, rfl⟩ := List.mem_map.1 hmem
        exact hdis _ (by simp) hz
    have hrest : ∀ m ∈ ns, m ∉ done ++ [n] := by
      intro m hm hmem
      rcases List.mem_append.1 hmem with h | h
      · exact hdis m (by simp [hm]) h
      · simp only [List.mem_singleton] at h
        subst h
        exact (List.nodup_cons.1 hnd).1 hm
    have happ : done ++ n :: ns = (done ++ [n]) ++ ns := by simp
    simp only [List.map_cons, forM_cons, hmaj, Res.bind_ok]
    cases hM : Spec.isMajor n with
    | true =>
      obtain ⟨kp', h1, h2⟩ := ih (fun m hm => hk m (by simp [hm])) (List.nodup_cons.1 hnd).2
        (done ++ [n]) hrest _ hv.getMaj
      refine ⟨kp', ?_, h2⟩
      have hrow : mapRow (kp.getMaj F).1 (Key.ofInt n) = .ok (tab pcs (emis a b d n)) := by
        rw [hv.maj, mapRow_eq a ha d (hk n (by simp))]
        have : emis a b d n = fun pc => a.getD (degree n pc) d := by
          funext pc; simp [emis, hM]
        rw [this]
      simp only [if_true, hrow, hint, Res.bind_ok, Res.pure_eq, hset]
      rw [happ]
      exact h1
    | false =>
      obtain ⟨kp', h1, h2⟩ := ih (fun m hm => hk m (by simp [hm])) (List.nodup_cons.1 hnd).2
        (done ++ [n]) hrest _ hv.getMin
      refine ⟨kp', ?_, h2⟩
      have hrow : mapRow (kp.getMin F).1 (Key.ofInt n) = .ok (tab pcs (emis a b d n)) := by
        rw [hv.min, mapRow_eq b hb d (hk n (by simp))]
        have : emis a b d n = fun pc => b.getD (degree n pc) d := by
          funext pc; simp [emis, hM]
        rw [this]
      simp only [Bool.false_eq_true, if_false, hrow, hint, Res.bind_ok, Res.pure_eq, hset]
      rw [happ]
      exact h1

/-- Closed form of the emission map, for every object whose selected arrays have 12 entries. -/
theorem getMap_eq (F : FPU D) (kp : KeyProfile D) (a b : List D) (x y : String)
    (ha : a.length = 12) (hb : b.length = 12) (d : D) (hv : View F kp a b x y) :
    ∃ kp', kp.getMap F = .ok (tab keys (fun n => tab pcs (emis a b d n)), kp') ∧ View F kp' a b x y := by
  have := getMap_aux F a b x y ha hb d keys (fun _ h => h) (by decide +kernel) [] (by simp) kp hv
  unfold getMap
  rw [all_eq]
  exact this

end KeyProfile
end JKD
