import Verif.Lemmas.Select
import Verif.Props.KeyProps
import Mathlib.Algebra.BigOperators.Group.List.Basic
import Mathlib.Data.Rat.Defs
/-
C15, C16, C17: key transition tables.
-/

namespace JKD.KeyTransition

open Spec

variable {D : Type}

/-- Read an entry of the map returned by `getKeyTransitionMap`. -/
def entry (m : IMap (IMap D)) (x y : Int) : Option D := (m.get? x).bind (fun r => r.get? y)

theorem entry_tab (f : Int → Int → D) {x y : Int} (hx : IsKey x) (hy : IsKey y) :
    entry (tab keys (fun x => tab keys (f x))) x y = some (f x y) := by
  unfold entry
  rw [get?_tab, if_pos (mem_keys.2 hx)]
  simp only [Option.bind_some]
  rw [get?_tab, if_pos (mem_keys.2 hy)]

theorem slot_lt {x y : Int} : slot x y < 24 := by
  unfold slot
  split <;> split <;> omega

/-! ### C15 -/

/-- **C15.** For every array of 24 values the map exists, is complete (an entry for each ordered pair of
keys, all taken from the array), and its entries depend only on the two modes and on the interval
between the tonics: transposing both keys by any `t` does not change the entry. -/
theorem C15_equivariant (kt : List D) (h : kt.length = 24) :
    ∃ m, mapOf kt = .ok m ∧
      (∀ x y, IsKey x → IsKey y → ∃ v ∈ kt, entry m x y = some v) ∧
      (∀ t x y, IsKey x → IsKey y → entry m (transposeKey t x) (transposeKey t y) = entry m x y) ∧
      (∀ x y x' y', IsKey x → IsKey y → IsKey x' → IsKey y' →
        Spec.isMajor x = Spec.isMajor x' → Spec.isMajor y = Spec.isMajor y' →
        (tonic y - tonic x) % 12 = (tonic y' - tonic x') % 12 → entry m x y = entry m x' y') := by
  cases kt with
  | nil => simp at h
  | cons d rest =>
    refine ⟨_, mapOf_eq (d :: rest) h d, ?_, ?_, ?_⟩
    · intro x y hx hy
      rw [entry_tab _ hx hy]
      refine ⟨_, ?_, rfl⟩
      have hlt : slot x y < (d :: rest).length := by rw [h]; exact slot_lt
      rw [List.getD_eq_getElem?_getD, List.getElem?_eq_getElem hlt, Option.getD_some]
      exact List.getElem_mem hlt
    · intro t x y hx hy
      rw [entry_tab _ (Key.transposeKey_isKey t x) (Key.transposeKey_isKey t y), entry_tab _ hx hy]
      have : slot (transposeKey t x) (transposeKey t y) = slot x y := by
        unfold IsKey at hx hy
        unfold slot transposeKey Spec.isMajor tonic
        by_cases h1 : x < 12 <;> by_cases h2 : y < 12 <;>
          simp only [h1, h2, decide_true, decide_false, if_true, Bool.false_eq_true, if_false] <;>
          split <;> split <;> omega
      rw [this]
    · intro x y x' y' hx hy hx' hy' h1 h2 h3
      rw [entry_tab _ hx hy, entry_tab _ hx' hy']
      have : slot x y = slot x' y' := by
        unfold IsKey at hx hy hx' hy'
        unfold tonic at h3
        unfold Spec.isMajor at h1 h2
        simp only [decide_eq_decide] at h1 h2
        unfold slot
        split <;> split <;> split <;> split <;> omega
      rw [this]

/-- **C15.** The row of C major is the array itself: entry `y` is the value at index `y`. -/
theorem C15_row_C (kt : List D) (h : kt.length = 24) :
    ∃ m, mapOf kt = .ok m ∧ ∀ y : Nat, y < 24 → entry m 0 (y : Int) = kt[y]? := by
  cases kt with
  | nil => simp at h
  | cons d rest =>
    refine ⟨_, mapOf_eq (d :: rest) h d, ?_⟩
    intro y hy
    rw [entry_tab _ (by decide) (by unfold IsKey; omega)]
    have : slot 0 y = y := by unfold slot; simp only [Int.sub_zero]; split <;> split <;> omega
    rw [this, List.getD_eq_getElem?_getD]
    rw [List.getElem?_eq_getElem (by rw [h]; exact hy)]
    rfl

/-- **C15.** Every row of the map lists the 24 keys in order and its values are a permutation of the 24
given values (so a normalised array gives a normalised row). -/
theorem C15_row_perm (kt : List D) (h : kt.length = 24) :
    ∃ m, mapOf kt = .ok m ∧ m.keys = keys ∧
      ∀ x, IsKey x → ∃ r, m.get? x = some r ∧ r.keys = keys ∧ (r.map Prod.snd).Perm kt := by
  cases kt with
  | nil => simp at h
  | cons d rest =>
    refine ⟨_, mapOf_eq (d :: rest) h d, ?_, ?_⟩
    · simp [AMap.keys, tab, Function.comp_def]
    · intro x hx
      rw [get?_tab, if_pos (mem_keys.2 hx)]
      refine ⟨_, rfl, ?_, ?_⟩
      · simp [AMap.keys, tab, Function.comp_def]
      · have key : ∀ x ∈ keys, (keys.map (slot x)).Perm (List.range 24) := by decide +kernel
        have hp := (key x (mem_keys.2 hx)).map (fun i => (d :: rest).getD i d)
        have he := (eq_map_range (d :: rest) d).symm
        rw [h] at he
        rw [he] at hp
        refine List.Perm.trans (List.Perm.of_eq ?_) hp
        simp [tab, Function.comp_def]

/-- **C15.** So the sum of every row is the sum of the array (in exact arithmetic). -/
theorem C15_row_sum (kt : List Rat) (h : kt.length = 24) :
    ∃ m, mapOf kt = .ok m ∧ ∀ x, IsKey x → ∃ r, m.get? x = some r ∧ (r.map Prod.snd).sum = kt.sum := by
  obtain ⟨m, hm, _, hr⟩ := C15_row_perm kt h
  refine ⟨m, hm, fun x hx => ?_⟩
  obtain ⟨r, h1, _, h3⟩ := hr x hx
  exact ⟨r, h1, h3.sum_eq⟩

example : (List.range 24).length = 24 ∧
    (match mapOf (List.range 24) with
      | .ok m => entry m 2 9 == some 7 && entry m 14 21 == some 7 && entry m 0 21 == some 21
      | _ => false) = true := by decide +kernel

/-! ### C16 -/

/-- The relative major of minor key `x` and the relative minor of major key `x` (music theory). -/
def specRelative (x : Int) : Int := if Spec.isMajor x then transposeKey 9 x + 12 else transposeKey 3 x - 12

/-- The parallel key (same tonic, other mode). -/
def specParallel (x : Int) : Int := if Spec.isMajor x then x + 12 else x - 12

/-- **C16, full statement**: the table means the same thing from minor keys as from major keys: the
probability of moving to the relative key does not depend on the mode one starts from, nor does that
of moving to the parallel key. -/
def C16Statement (kt : List D) : Prop :=
  ∃ m, mapOf kt = .ok m ∧ ∀ x y, IsKey x → IsKey y → Spec.isMajor x = true → Spec.isMajor y = false →
    entry m x (specRelative x) = entry m y (specRelative y) ∧
    entry m x (specParallel x) = entry m y (specParallel y)

theorem slot_rel_par : ∀ x ∈ keys,
    slot x (specRelative x) = (if Spec.isMajor x then 21 else 12) ∧
    slot x (specParallel x) = (if Spec.isMajor x then 12 else 21) ∧
    IsKey (specRelative x) ∧ IsKey (specParallel x) := by decide +kernel

/-- **C16 (what the code does, for every table).** From major keys slot 21 is the relative key and slot
12 the parallel key; from minor keys the two are *exchanged*. -/
theorem C16_exchange (kt : List D) (h : kt.length = 24) :
    ∃ m, mapOf kt = .ok m ∧ ∀ x, IsKey x →
      entry m x (specRelative x) = kt[if Spec.isMajor x then 21 else 12]? ∧
      entry m x (specParallel x) = kt[if Spec.isMajor x then 12 else 21]? := by
  cases kt with
  | nil => simp at h
  | cons d rest =>
    refine ⟨_, mapOf_eq (d :: rest) h d, ?_⟩
    intro x hx
    obtain ⟨h1, h2, h3, h4⟩ := slot_rel_par x (mem_keys.2 hx)
    rw [entry_tab _ hx h3, entry_tab _ hx h4, h1, h2]
    simp only [List.getD_eq_getElem?_getD]
    constructor
    · rw [List.getElem?_eq_getElem (by rw [h]; split <;> omega)]; rfl
    · rw [List.getElem?_eq_getElem (by rw [h]; split <;> omega)]; rfl

/-- **C16 (negation).** The property fails for custom tables: there is a 24-value table, accepted by
the program, for which it is false. -/
theorem C16_violated : ∃ kt : List Nat, kt.length = 24 ∧ ¬ C16Statement kt := by
  refine ⟨List.range 24, by decide, ?_⟩
  rintro ⟨m, hm, h⟩
  obtain ⟨m', hm', h'⟩ := C16_exchange (List.range 24) (by decide)
  rw [hm] at hm'
  injection hm' with hm'
  subst hm'
  have h1 := (h 0 12 (by decide) (by decide) rfl rfl).1
  rw [(h' 0 (by decide)).1, (h' 12 (by decide)).1] at h1
  revert h1
  decide

/-- **C16 (partial).** It holds exactly for the tables whose slots 12 and 21 agree; this includes every
built-in table.  Missing for the full property: arbitrary custom tables, for which it is false. -/
theorem C16_partial (kt : List D) (h : kt.length = 24) :
    C16Statement kt ↔ kt[12]? = kt[21]? := by
  obtain ⟨m, hm, hx⟩ := C16_exchange kt h
  constructor
  · rintro ⟨m', hm', hs⟩
    rw [hm] at hm'
    injection hm' with hm'
    subst hm'
    have h1 := (hs 0 12 (by decide) (by decide) rfl rfl).2
    rw [(hx 0 (by decide)).2, (hx 12 (by decide)).2] at h1
    exact h1
  · intro he
    refine ⟨m, hm, ?_⟩
    intro x y hkx hky hmx hmy
    rw [(hx x hkx).1, (hx x hkx).2, (hx y hky).1, (hx y hky).2, hmx, hmy]
    exact ⟨he.symm, he⟩

/-- **C16 (built-ins).** Every built-in table satisfies the property, and more: its map is symmetric
(moving from X to Y is as likely as moving from Y to X). -/
theorem C16_builtin_partial (F : FPU D) (p : String × List Rat) (hp : p ∈ builtins) :
    C16Statement (p.2.map F.ofRat) ∧
    ∃ m, mapOf (p.2.map F.ofRat) = .ok m ∧
      ∀ x y, IsKey x → IsKey y → entry m x y = entry m y x := by
  have hlen : ∀ p ∈ builtins, p.2.length = 24 := by decide +kernel
  have hsl : ∀ p ∈ builtins, p.2[12]? = p.2[21]? := by decide +kernel
  have hsym : ∀ p ∈ builtins, ∀ x ∈ keys, ∀ y ∈ keys,
      p.2.getD (slot x y) 0 = p.2.getD (slot y x) 0 := by decide +kernel
  have hl : (p.2.map F.ofRat).length = 24 := by simp [hlen p hp]
  refine ⟨(C16_partial _ hl).2 (by simp [hsl p hp]), _, mapOf_eq _ hl (F.ofRat 0), ?_⟩
  intro x y hx hy
  rw [entry_tab _ hx hy, entry_tab _ hy hx]
  have := hsym p hp x (mem_keys.2 hx) y (mem_keys.2 hy)
  have hm : ∀ i, (p.2.map F.ofRat).getD i (F.ofRat 0) = F.ofRat (p.2.getD i 0) := by
    intro i
    simp only [List.getD_eq_getElem?_getD, List.getElem?_map]
    cases p.2[i]? <;> rfl
  rw [hm, hm, this]

/-! ### C17 -/

/-- What a client can call on a `KeyTransition` object. -/
inductive Call
  | isValid (s : String)
  | which
  | getArray
  | getMap

/-- What comes back. -/
inductive Out (D : Type)
  | bool (b : Bool)
  | name (s : String)
  | array (a : List D)
  | map (m : Res (IMap (IMap D)))

/-- One call: its result and the object afterwards. -/
def call (F : FPU D) (kt : KeyTransition D) : Call → Out D × KeyTransition D
  | .isValid s => (.bool (kt.isValid s), kt)
  | .which => (.name kt.which, kt)
  | .getArray => let (a, kt') := kt.getArray F; (.array a, kt')
  | .getMap => let (m, kt') := kt.getMap F; (.map m, kt')

/-- The object after a history of calls. -/
def after (F : FPU D) (kt : KeyTransition D) (h : List Call) : KeyTransition D :=
  h.foldl (fun kt c => (call F kt c).2) kt

/-- **Specification**: the array a name stands for. -/
def specTable (F : FPU D) (s : String) (custom : List D) : Option (List D) :=
  if s = "custom" then some custom
  else (builtins.find? (fun p => p.1 == s)).map (fun p => p.2.map F.ofRat)

theorem get?_eq_find? (F : FPU D) (b : List (String × List Rat)) (s : String) :
    AMap.get? (b.map (fun p => (p.1, p.2.map F.ofRat))) s =
      (b.find? (fun p => p.1 == s)).map (fun p => p.2.map F.ofRat) := by
  induction b with
  | nil => rfl
  | cons p b ih =>
    by_cases h : p.1 = s
    · simp [AMap.get?, h]
    · simp [AMap.get?, h, ih]

theorem initTables_custom (F : FPU D) : (initTables F).get? "custom" = none := by
  unfold initTables
  rw [get?_eq_find?]
  have : builtins.find? (fun p => p.1 == "custom") = none := by decide +kernel
  rw [this]; rfl

theorem initTables_empty (F : FPU D) : (initTables F).get? "" = none := by
  unfold initTables
  rw [get?_eq_find?]
  have : builtins.find? (fun p => p.1 == "") = none := by decide +kernel
  rw [this]; rfl

/-- The tables after construction. -/
def ctorTables (F : FPU D) (s : String) (custom : List D) : AMap String (List D) :=
  withCustom (initTables F) s custom

theorem ctorTables_get (F : FPU D) (s : String) (custom : List D) :
    (ctorTables F s custom).get? s = specTable F s custom := by
  unfold ctorTables withCustom specTable
  by_cases h : s = "custom"
  · subst h; simp [AMap.get?_set_self]
  · simp only [h, if_false]
    exact get?_eq_find? F builtins s

theorem ctorTables_empty (F : FPU D) (s : String) (custom : List D) :
    (ctorTables F s custom).get? "" = none := by
  unfold ctorTables withCustom
  by_cases h : s = "custom"
  · subst h
    rw [if_pos rfl, AMap.get?_set_ne _ _ (by decide), initTables_empty]
  · rw [if_neg h, initTables_empty]

/-- **Specification**: the name a freshly built object reports. -/
def specName (F : FPU D) (s : String) (custom : List D) : String :=
  if (specTable F s custom).isSome then s else ""

theorem mk2_eq (F : FPU D) (s : String) (custom : List D) :
    mk2 F s custom = { name := specName F s custom, tables := ctorTables F s custom } := by
  unfold mk2 specName
  simp only [isValid]
  change (if ((ctorTables F s custom).get? s).isSome = true then _ else _) = _
  rw [ctorTables_get]
  cases specTable F s custom <;> rfl

/-- The invariant over histories. -/
structure HInv (F : FPU D) (s : String) (custom : List D) (kt : KeyTransition D) : Prop where
  name : kt.name = specName F s custom
  tables : TInv (ctorTables F s custom) kt.tables kt.name (List.replicate 24 F.zero)

theorem hinv_call (F : FPU D) (s : String) (custom : List D) (kt : KeyTransition D)
    (h : HInv F s custom kt) (c : Call) : HInv F s custom (call F kt c).2 := by
  have harr : HInv F s custom (kt.getArray F).2 := by
    unfold getArray
    cases hg : kt.tables.get? kt.name with
    | some a => exact h
    | none =>
      refine ⟨h.name, h.tables.set hg ?_⟩
      rw [h.name]
      unfold specName
      cases hs : specTable F s custom with
      | none => simp
      | some a => right; simp [ctorTables_get, hs]
  cases c with
  | isValid s => exact h
  | which => exact h
  | getArray => exact harr
  | getMap => exact harr

theorem hinv_after (F : FPU D) (s : String) (custom : List D) (h : List Call) (kt : KeyTransition D)
    (hk : HInv F s custom kt) : HInv F s custom (after F kt h) := by
  unfold after
  induction h generalizing kt with
  | nil => exact hk
  | cons c h ih => exact ih _ (hinv_call F s custom kt hk c)

theorem hinv_mk2 (F : FPU D) (s : String) (custom : List D) : HInv F s custom (mk2 F s custom) := by
  rw [mk2_eq]
  exact ⟨rfl, fun _ _ => rfl, Or.inl (ctorTables_empty F s custom)⟩

/-- **C17.** Whatever calls were made before, an object built from a name answers as follows.
Known name (a built-in one, or `"custom"`): it reports that name and hands out exactly the table that
name stands for.  Unknown name: it reports the empty name and hands out 24 zeros.  The map it returns
is always the map of the array it hands out. -/
theorem C17_selection (F : FPU D) (s : String) (custom : List D) (h : List Call) :
    let kt := after F (mk2 F s custom) h
    (∀ a, specTable F s custom = some a →
      kt.which = s ∧ (kt.getArray F).1 = a ∧ (kt.getMap F).1 = mapOf a) ∧
    (specTable F s custom = none →
      kt.which = "" ∧ (kt.getArray F).1 = List.replicate 24 F.zero ∧
      (kt.getMap F).1 = mapOf (List.replicate 24 F.zero)) := by
  intro kt
  have hi := hinv_after F s custom h _ (hinv_mk2 F s custom)
  have harr : (kt.getArray F).1 = (kt.tables.get? kt.name).getD (List.replicate 24 F.zero) := by
    unfold getArray
    cases kt.tables.get? kt.name <;> rfl
  have hmap : (kt.getMap F).1 = mapOf (kt.getArray F).1 := rfl
  have hsel : (kt.getArray F).1 =
      ((ctorTables F s custom).get? kt.name).getD (List.replicate 24 F.zero) := by
    rw [harr]
    exact hi.tables.sel (ctorTables_empty F s custom)
  have hname : kt.name = specName F s custom := hi.name
  constructor
  · intro a ha
    have hn : kt.name = s := by rw [hname]; simp [specName, ha]
    have : (kt.getArray F).1 = a := by
      rw [hsel, hn, ctorTables_get, ha]; rfl
    exact ⟨hn, this, by rw [hmap, this]⟩
  · intro ha
    have hn : kt.name = "" := by rw [hname]; simp [specName, ha]
    have : (kt.getArray F).1 = List.replicate 24 F.zero := by
      rw [hsel, hn, ctorTables_empty]; rfl
    exact ⟨hn, this, by rw [hmap, this]⟩

/-- **C17.** Name validity: for every non-empty name the answer of `isValidKeyTransition` never
depends on earlier calls; it is "built in, or custom if the object was built as custom". -/
theorem C17_isValid (F : FPU D) (s : String) (custom : List D) (h : List Call) (q : String) (hq : q ≠ "") :
    (after F (mk2 F s custom) h).isValid q =
      (builtins.any (fun p => p.1 == q) || (s == "custom" && q == "custom")) := by
  have hi := hinv_after F s custom h _ (hinv_mk2 F s custom)
  unfold isValid
  rw [hi.tables.1 q hq]
  unfold ctorTables withCustom
  have hb : ((initTables F).get? q).isSome = builtins.any (fun p => p.1 == q) := by
    unfold initTables
    rw [get?_eq_find?, Option.isSome_map, List.isSome_find?]
  by_cases hs : s = "custom"
  · subst hs
    by_cases hqc : q = "custom"
    · subst hqc; simp [AMap.get?_set_self]
    · simp [AMap.get?_set_ne _ _ hqc, hb, hqc]
  · simp [hs, hb]

/-- **C17 (disagreement).** For the empty name the answer does depend on earlier calls: an object built
from an unknown name says the empty name is not valid, and after its array has been read once, says it
is. -/
theorem C17_empty_name_history (F : FPU D) :
    (mk1 F "no such table").isValid "" = false ∧
    (after F (mk1 F "no such table") [.getArray]).isValid "" = true := by
  have h0 := initTables_empty F
  have h1 : (initTables F).get? "no such table" = none := by
    unfold initTables
    rw [get?_eq_find?]
    have : builtins.find? (fun p => p.1 == "no such table") = none := by decide +kernel
    rw [this]; rfl
  have hmk : mk1 F "no such table" = { name := "", tables := initTables F } := by
    have : ¬ ("no such table" = "custom") := by decide
    simp [mk1, mk2, isValid, h1]
  rw [hmk]
  constructor
  · simp [isValid, h0]
  · simp [after, call, getArray, h0, isValid, AMap.get?_set_self]

/-- **C17.** The tables offered by name: 24 non-negative entries each; the five normalised ones sum to
exactly 1 (as the rational numbers written in the source), `heatmap` does not. -/
theorem C17_builtin_tables :
    (∀ p ∈ builtins, p.2.length = 24 ∧ ∀ v ∈ p.2, 0 ≤ v) ∧
    (∀ p ∈ builtins, p.1 ≠ "heatmap" → p.2.sum = 1) ∧ heatmap.sum = 108 ∧
    builtins.map Prod.fst =
      ["linear", "exponential2", "exponential10", "zero", "symmetrical", "heatmap"] := by
  decide +kernel

/-- **C17.** The default object is the `exponential10` table. -/
theorem C17_default (F : FPU D) (h : List Call) :
    (after F (mk0 F) h).which = "exponential10" ∧
    ((after F (mk0 F) h).getArray F).1 = exponential10.map F.ofRat := by
  have hs : specTable F "exponential10" (List.replicate 24 F.zero) =
      some (exponential10.map F.ofRat) := by
    have : builtins.find? (fun p => p.1 == "exponential10") = some ("exponential10", exponential10) := by
      decide +kernel
    simp [specTable, this]
  have := (C17_selection F "exponential10" (List.replicate 24 F.zero) h).1 _ hs
  exact ⟨this.1, this.2.1⟩

example (F : FPU D) : specTable F "linear" [] = some (linear.map F.ofRat) ∧
    specTable F "nonsense" [] = none := by
  have h1 : builtins.find? (fun p => p.1 == "linear") = some ("linear", linear) := by decide +kernel
  have h2 : builtins.find? (fun p => p.1 == "nonsense") = none := by decide +kernel
  simp [specTable, h1, h2]

end JKD.KeyTransition
