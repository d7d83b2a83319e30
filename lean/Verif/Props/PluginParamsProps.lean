import Verif.Model.PluginParams
import Mathlib.Tactic.NormNum
import Mathlib.Tactic.Linarith
import Mathlib.Tactic.IntervalCases
/-
C99: the parameters of the plug-ins.
-/

namespace JKD
namespace PluginParams

/-- The values a descriptor allows: in the range, and on the grid if there is one. -/
def Allowed (d : Descriptor) (v : ℚ) : Prop :=
  d.minValue ≤ v ∧ v ≤ d.maxValue ∧ ∀ q, d.quantizeStep = some q → ∃ k : ℕ, v = d.minValue + k * q

/-- The descriptors of the three plug-ins. -/
def plugins (lit : ℚ → ℚ) : List (List Descriptor) := [baseDescriptors lit, chordDescriptors lit, tuningDescriptors lit]

theorem toInt_int (k : Int) (h : -2147483648 ≤ k ∧ k ≤ 2147483647) : toInt (k : ℚ) = .ok k := by
  unfold toInt
  simp [h.1, h.2]

/-- **C99, defaults.**  A new plug-in has the values its descriptors give as defaults. -/
theorem C99_defaults (lit : ℚ → ℚ) (h0 : lit 0 = 0) (ds : List Descriptor) (hds : ds ∈ plugins lit)
    (d : Descriptor) (hd : d ∈ ds) : getParameter lit (Values.new lit) d.identifier = d.defaultValue := by
  simp only [plugins, List.mem_cons, List.not_mem_nil, or_false] at hds
  rcases hds with rfl | rfl | rfl <;>
    simp only [baseDescriptors, chordDescriptors, tuningDescriptors, List.mem_cons, List.not_mem_nil, or_false] at hd <;>
    (try rcases hd with rfl | rfl | rfl | rfl | rfl | rfl | rfl) <;>
    (try rcases hd with rfl | rfl | rfl | rfl | rfl | rfl) <;>
    simp [getParameter, Values.new, h0]

/-- The parameters a host can set. -/
def settable : List String :=
  ["useNNLS", "whitening", "s", "boostn", "tuningmode", "chromanormalize", "rollon", "usehartesyntax"]

/-- What becomes of a value when it is set. -/
def Stored (lit : ℚ → ℚ) (id : String) (v w : ℚ) : Prop :=
  if id = "useNNLS" then ∃ k, toInt v = .ok k ∧ w = (k : ℚ)
  else if id = "tuningmode" then w = if v ≠ 0 then lit 1 else lit 0
  else w = v

theorem set_get (lit : ℚ → ℚ) (p p' : Values) (id : String) (v : ℚ) (h : setParameter p id v = .ok p') :
    (id ∈ settable → Stored lit id v (getParameter lit p' id)) ∧
    (∀ id', id' ≠ id → getParameter lit p' id' = getParameter lit p id') ∧ p'.preset = p.preset ∧
    (id ∉ settable → p' = p) := by
  unfold setParameter at h
  by_cases h1 : id = "useNNLS"
  · subst h1
    simp only [if_true] at h
    obtain ⟨k, hk, h⟩ := Res.bind_eq_ok.1 h
    simp at h
    subst h
    refine ⟨fun _ => ?_, ?_, rfl, fun h => absurd (by simp [settable]) h⟩
    · simp [Stored, getParameter, hk]
    · intro id' hne
      simp [getParameter, hne]
  · simp only [h1, if_false, Res.pure_eq, Res.bind_ok, Res.ok.injEq] at h
    by_cases h2 : id ∈ settable
    · have hid : id = "whitening" ∨ id = "s" ∨ id = "boostn" ∨ id = "tuningmode" ∨ id = "chromanormalize" ∨
          id = "rollon" ∨ id = "usehartesyntax" := by simpa [settable, h1] using h2
      rcases hid with rfl | rfl | rfl | rfl | rfl | rfl | rfl <;> simp at h <;> subst h <;>
        refine ⟨fun _ => ?_, ?_, rfl, fun h => absurd h2 h⟩ <;>
        first
          | (intro id' hne; simp [getParameter, hne])
          | simp [Stored, getParameter]
    · have hid : id ≠ "whitening" ∧ id ≠ "s" ∧ id ≠ "boostn" ∧ id ≠ "tuningmode" ∧ id ≠ "chromanormalize" ∧
          id ≠ "rollon" ∧ id ≠ "usehartesyntax" := by simpa [settable, h1] using h2
      obtain ⟨a1, a2, a3, a4, a5, a6, a7⟩ := hid
      simp [a1, a2, a3, a4, a5, a6, a7] at h
      subst h
      exact ⟨fun h => absurd h h2, fun _ _ => rfl, rfl, fun _ => rfl⟩

theorem set_ok (p : Values) (id : String) (v : ℚ) (h : id = "useNNLS" → ∃ k, toInt v = .ok k) :
    ∃ p', setParameter p id v = .ok p' := by
  unfold setParameter
  by_cases h1 : id = "useNNLS"
  · obtain ⟨k, hk⟩ := h h1
    simp only [h1, if_true, hk, Res.bind_ok, Res.pure_eq]
    exact ⟨_, rfl⟩
  · simp only [h1, if_false, Res.bind_ok, Res.pure_eq]
    exact ⟨_, rfl⟩

/-- **C99, reading back.**  A value that the descriptor allows is what is read after it was set, and no other
parameter has changed. -/
theorem C99_read_back (lit : ℚ → ℚ) (h0 : lit 0 = 0) (h1 : lit 1 = 1) (ds : List Descriptor) (hds : ds ∈ plugins lit)
    (d : Descriptor) (hd : d ∈ ds) (v : ℚ) (hv : Allowed d v) (p : Values) :
    ∃ p', setParameter p d.identifier v = .ok p' ∧ getParameter lit p' d.identifier = v ∧
      ∀ id, id ≠ d.identifier → getParameter lit p' id = getParameter lit p id := by
  have hset : d.identifier ∈ settable := by
    simp only [plugins, List.mem_cons, List.not_mem_nil, or_false] at hds
    rcases hds with rfl | rfl | rfl <;>
      simp only [baseDescriptors, chordDescriptors, tuningDescriptors, List.mem_cons, List.not_mem_nil, or_false] at hd <;>
      (try rcases hd with rfl | rfl | rfl | rfl | rfl | rfl | rfl) <;>
      (try rcases hd with rfl | rfl | rfl | rfl | rfl | rfl) <;>
      simp [settable]
  have hbit : (d.identifier = "useNNLS" ∨ d.identifier = "tuningmode") → v = 0 ∨ v = 1 := by
    intro hid
    have hgrid : d.minValue = 0 ∧ d.maxValue = 1 ∧ d.quantizeStep = some 1 := by
      simp only [plugins, List.mem_cons, List.not_mem_nil, or_false] at hds
      rcases hds with rfl | rfl | rfl <;>
        simp only [baseDescriptors, chordDescriptors, tuningDescriptors, List.mem_cons, List.not_mem_nil,
          or_false] at hd <;>
        (try rcases hd with rfl | rfl | rfl | rfl | rfl | rfl | rfl) <;>
        (try rcases hd with rfl | rfl | rfl | rfl | rfl | rfl) <;>
        simp_all
    obtain ⟨ha, hb, hc⟩ := hv
    obtain ⟨k, hk⟩ := hc 1 hgrid.2.2
    rw [hgrid.1] at hk
    rw [hgrid.2.1] at hb
    have : (k : ℚ) ≤ 1 := by linarith
    have : k ≤ 1 := by exact_mod_cast this
    interval_cases k
    · left; simpa using hk
    · right; simpa using hk
  have hint : d.identifier = "useNNLS" → ∃ k : Int, toInt v = .ok k ∧ v = (k : ℚ) := by
    intro hid
    rcases hbit (Or.inl hid) with rfl | rfl
    · exact ⟨0, toInt_int 0 (by omega), by simp⟩
    · exact ⟨1, toInt_int 1 (by omega), by simp⟩
  obtain ⟨p', hp'⟩ := set_ok p d.identifier v (fun h => by obtain ⟨k, hk, -⟩ := hint h; exact ⟨k, hk⟩)
  obtain ⟨g1, g2, -, -⟩ := set_get lit p p' d.identifier v hp'
  refine ⟨p', hp', ?_, g2⟩
  have := g1 hset
  unfold Stored at this
  split at this
  · rename_i hid
    obtain ⟨k, hk, e⟩ := hint hid
    obtain ⟨k', hk', e'⟩ := this
    rw [hk] at hk'
    cases hk'
    rw [e', e]
  · split at this
    · rename_i hid
      rw [this]
      rcases hbit (Or.inr hid) with rfl | rfl <;> simp [h0, h1]
    · exact this

/-- Two plug-ins agree if every parameter reads the same. -/
theorem values_ext (lit : ℚ → ℚ) (h01 : lit 0 ≠ lit 1) (p q : Values) (hp : p.preset = q.preset)
    (h : ∀ id ∈ settable, getParameter lit p id = getParameter lit q id) : p = q := by
  obtain ⟨⟨a1, a2, a3, a4, a5, a6⟩, a7, a8, a9⟩ := p
  obtain ⟨⟨b1, b2, b3, b4, b5, b6⟩, b7, b8, b9⟩ := q
  simp only [settable, List.mem_cons, List.not_mem_nil, or_false, forall_eq_or_imp, forall_eq] at h
  simp [getParameter] at h
  obtain ⟨c1, c2, c3, c4, c5, c6, c7, c8⟩ := h
  have : a3 = b3 := by
    cases a3 <;> cases b3 <;> simp_all
  simp at hp
  subst c1 c2 c3 c4 c6 c7 c8 this hp
  rfl

/-- **C99, saving and restoring.**  Let a host have set parameters of a plug-in, in any way the plug-in accepts.
Reading all parameters that have a descriptor and setting a new plug-in to the values read, in whatever order, gives a
plug-in with the same parameters. -/
theorem C99_restore (lit : ℚ → ℚ) (h0 : lit 0 = 0) (h1 : lit 1 = 1) (ds : List Descriptor)
    (sets : List (String × ℚ)) (hsets : ∀ x ∈ sets, x.1 ∈ ds.map Descriptor.identifier) (p : Values)
    (hp : setAll (Values.new lit) sets = .ok p) (order : List String)
    (horder : ∀ id, id ∈ order ↔ id ∈ ds.map Descriptor.identifier) :
    setAll (Values.new lit) (order.map (fun id => (id, getParameter lit p id))) = .ok p := by
  have h01 : lit 0 ≠ lit 1 := by rw [h0, h1]; norm_num
  have hbit : ∀ (q : Values), getParameter lit q "tuningmode" = 0 ∨ getParameter lit q "tuningmode" = 1 := by
    intro q
    simp only [getParameter]
    cases q.base.tuneLocal <;> simp [h0, h1]
  -- what is known of the plug-in that was saved
  have hinv : ∀ (l : List (String × ℚ)) (q q' : Values), (∀ x ∈ l, x.1 ∈ ds.map Descriptor.identifier) →
      (∃ k : Int, toInt (getParameter lit q "useNNLS") = .ok k ∧ getParameter lit q "useNNLS" = k) →
      setAll q l = .ok q' →
      (∃ k : Int, toInt (getParameter lit q' "useNNLS") = .ok k ∧ getParameter lit q' "useNNLS" = k) ∧
      q'.preset = q.preset ∧
      ∀ id, id ∉ ds.map Descriptor.identifier → getParameter lit q' id = getParameter lit q id := by
    intro l
    induction l with
    | nil =>
      intro q q' _ hq h
      cases h
      exact ⟨hq, rfl, fun _ _ => rfl⟩
    | cons x l ih =>
      intro q q' hl hq h
      rw [setAll, forM_cons] at h
      obtain ⟨q1, e1, e2⟩ := Res.bind_eq_ok.1 h
      obtain ⟨g1, g2, g3, g4⟩ := set_get lit q q1 x.1 x.2 e1
      have hq1 : ∃ k : Int, toInt (getParameter lit q1 "useNNLS") = .ok k ∧ getParameter lit q1 "useNNLS" = k := by
        by_cases hx : x.1 = "useNNLS"
        · have := g1 (by rw [hx]; simp [settable])
          rw [hx] at this
          simp only [Stored, if_true] at this
          obtain ⟨k, hk, e⟩ := this
          have hr : -2147483648 ≤ k ∧ k ≤ 2147483647 := by
            simp only [toInt] at hk
            generalize (if x.2 < 0 then ⌈x.2⌉ else ⌊x.2⌋) = j at hk
            by_cases hr : -2147483648 ≤ j ∧ j ≤ 2147483647
            · rw [if_pos hr] at hk
              cases hk
              exact hr
            · rw [if_neg hr] at hk
              cases hk
          exact ⟨k, by rw [e]; exact toInt_int k hr, e⟩
        · rw [g2 _ (Ne.symm hx)]
          exact hq
      obtain ⟨i1, i2, i3⟩ := ih q1 q' (fun y hy => hl y (by simp [hy])) hq1 e2
      refine ⟨i1, i2.trans g3, fun id hid => (i3 id hid).trans (g2 id ?_)⟩
      rintro rfl
      exact hid (hl x (by simp))
  obtain ⟨hp1, hp2, hp3⟩ := hinv sets _ _ hsets
    ⟨1, by simpa [getParameter, Values.new, h1] using toInt_int 1 (by omega), by simp [getParameter, Values.new, h1]⟩ hp
  -- setting the values read
  have hres : ∀ (l : List String) (q : Values), ∃ q', setAll q (l.map (fun id => (id, getParameter lit p id))) = .ok q' ∧
      q'.preset = q.preset ∧ ∀ id ∈ settable, getParameter lit q' id =
        if id ∈ l then getParameter lit p id else getParameter lit q id := by
    intro l
    induction l with
    | nil => intro q; exact ⟨q, rfl, rfl, fun _ _ => by simp⟩
    | cons x l ih =>
      intro q
      obtain ⟨q1, e1⟩ := set_ok q x (getParameter lit p x) (by
        rintro rfl
        obtain ⟨k, hk, -⟩ := hp1
        exact ⟨k, hk⟩)
      obtain ⟨g1, g2, g3, -⟩ := set_get lit q q1 x _ e1
      obtain ⟨q', e2, i2, i3⟩ := ih q1
      refine ⟨q', ?_, i2.trans g3, ?_⟩
      · rw [List.map_cons, setAll, forM_cons, e1, Res.bind_ok]
        exact e2
      · intro id hid
        rw [i3 id hid]
        by_cases hl : id ∈ l
        · simp [hl]
        · by_cases hx : id = x
          · subst hx
            rw [if_neg hl, if_pos (by simp)]
            have := g1 hid
            unfold Stored at this
            split at this
            · rename_i hid
              subst hid
              obtain ⟨k, hk, e⟩ := hp1
              obtain ⟨k', hk', e'⟩ := this
              rw [hk] at hk'
              cases hk'
              rw [e', e]
            · split at this
              · rename_i hid
                subst hid
                rw [this]
                rcases hbit p with e | e <;> rw [e] <;> simp [h0, h1]
              · exact this
          · rw [if_neg hl, if_neg (by simp [hx, hl]), g2 id hx]
  obtain ⟨q', e, hq1, hq2⟩ := hres order (Values.new lit)
  rw [e]
  congr 1
  refine values_ext lit h01 q' p (hq1.trans hp2.symm) ?_
  intro id hid
  rw [hq2 id hid]
  split
  · rfl
  · rename_i hn
    rw [horder] at hn
    exact (hp3 id hn).symm

/-- A host that turns NNLS off, asks for local tuning and sets the whitening: the values are read back and restored in
another order. -/
example : ∃ p, setAll (Values.new id) [("whitening", 1 / 2), ("useNNLS", 0), ("tuningmode", 1)] = .ok p ∧
    getParameter id p "whitening" = 1 / 2 ∧ getParameter id p "tuningmode" = 1 ∧
    setAll (Values.new id) (["s", "tuningmode", "rollon", "whitening", "chromanormalize", "useNNLS"].map
      (fun i => (i, getParameter id p i))) = .ok p := by
  obtain ⟨p, hp⟩ : ∃ p, setAll (Values.new id) [("whitening", 1 / 2), ("useNNLS", 0), ("tuningmode", 1)] = .ok p := by
    have : toInt 0 = .ok 0 := by simpa using toInt_int 0 (by omega)
    refine ⟨{ Values.new id with base := { (Values.new id).base with whitening := 1 / 2, useNNLS := 0, tuneLocal := true } },
      ?_⟩
    simp [setAll, setParameter, this]
  refine ⟨p, hp, ?_, ?_, ?_⟩
  · have : toInt 0 = .ok 0 := by simpa using toInt_int 0 (by omega)
    simp [setAll, setParameter, this] at hp
    subst hp
    simp [getParameter]
  · have : toInt 0 = .ok 0 := by simpa using toInt_int 0 (by omega)
    simp [setAll, setParameter, this] at hp
    subst hp
    simp [getParameter]
  · refine C99_restore id rfl rfl (baseDescriptors id) _ ?_ p hp _ ?_
    · intro x hx
      simp at hx
      rcases hx with rfl | rfl | rfl <;> simp [baseDescriptors]
    · intro i
      simp only [baseDescriptors, List.map_cons, List.map_nil, List.mem_cons, List.not_mem_nil, or_false]
      constructor <;> (intro h; rcases h with h | h | h | h | h | h <;> simp [h])

end PluginParams
end JKD
