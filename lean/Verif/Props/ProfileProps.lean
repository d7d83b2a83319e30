import Verif.Lemmas.Select
import Verif.Props.KeyProps
import Mathlib.Algebra.BigOperators.Group.List.Basic
import Mathlib.Algebra.Order.Ring.Rat
/-
C12, C13, C14: key profiles and the emission map.
-/

namespace JKD

/-- An invariant of the loop body is an invariant of the loop. -/
theorem forM_inv {α σ : Type} (P : σ → Prop) (l : List α) (f : σ → α → Res σ)
    (hf : ∀ s a s', P s → f s a = .ok s' → P s') (s s' : σ) (hs : P s) (h : forM l s f = .ok s') : P s' := by
  induction l generalizing s with
  | nil => simp at h; exact h ▸ hs
  | cons a l ih =>
    simp only [forM_cons] at h
    cases hfa : f s a with
    | ok s1 => rw [hfa] at h; exact ih s1 (hf s a s1 hs hfa) h
    | ub => rw [hfa] at h; cases h
    | throw e => rw [hfa] at h; cases h

end JKD

namespace JKD.KeyProfile

open Spec

variable {D : Type}

/-! ### C12 -/

/-- What a client can call on a `KeyProfile` object. -/
inductive Call
  | isValidMaj (s : String)
  | isValidMin (s : String)
  | whichMaj
  | whichMin
  | getMaj
  | getMin
  | getMap

/-- The object after one call. -/
def call (F : FPU D) (kp : KeyProfile D) : Call → Res (KeyProfile D)
  | .isValidMaj _ => .ok kp
  | .isValidMin _ => .ok kp
  | .whichMaj => .ok kp
  | .whichMin => .ok kp
  | .getMaj => .ok (kp.getMaj F).2
  | .getMin => .ok (kp.getMin F).2
  | .getMap => Prod.snd <$> kp.getMap F

/-- The object after a history of calls. -/
def after (F : FPU D) (kp : KeyProfile D) (h : List Call) : Res (KeyProfile D) :=
  forM h kp (call F)

/-- **Specification**: the array a name stands for within a family of built-in tables. -/
def specTable (F : FPU D) (b : List (String × List Rat)) (s : String) (custom : List D) :
    Option (List D) :=
  if s = "custom" then some custom
  else (b.find? (fun p => p.1 == s)).map (fun p => p.2.map F.ofRat)

theorem get?_eq_find? (F : FPU D) (b : List (String × List Rat)) (s : String) :
    AMap.get? (b.map (fun p => (p.1, p.2.map F.ofRat))) s =
      (b.find? (fun p => p.1 == s)).map (fun p => p.2.map F.ofRat) := by
  induction b with
  | nil => rfl
  | cons p b ih =>
    by_cases h : p.1 = s
    · simp [AMap.get?, h]
    · simp [AMap.get?, h, ih]

/-- The tables of one family after construction. -/
def ctorTables (F : FPU D) (b : List (String × List Rat)) (s : String) (custom : List D) :
    AMap String (List D) :=
  withCustom (b.map (fun p => (p.1, p.2.map F.ofRat))) s custom

theorem ctorTables_get (F : FPU D) (b : List (String × List Rat)) (s : String) (custom : List D) :
    (ctorTables F b s custom).get? s = specTable F b s custom := by
  unfold ctorTables withCustom specTable
  by_cases h : s = "custom"
  · subst h; simp [AMap.get?_set_self]
  · simp only [h, if_false]
    exact get?_eq_find? F b s

theorem ctorTables_empty (F : FPU D) (b : List (String × List Rat)) (s : String) (custom : List D)
    (hb : b.find? (fun p => p.1 == "") = none) :
    (ctorTables F b s custom).get? "" = none := by
  unfold ctorTables withCustom
  have h0 : AMap.get? (b.map (fun p => (p.1, p.2.map F.ofRat))) "" = none := by
    rw [get?_eq_find?, hb]; rfl
  by_cases h : s = "custom"
  · subst h
    rw [if_pos rfl, AMap.get?_set_ne _ _ (by decide), h0]
  · rw [if_neg h, h0]

theorem maj_empty : majBuiltins.find? (fun p => p.1 == "") = none := by decide +kernel
theorem min_empty : minBuiltins.find? (fun p => p.1 == "") = none := by decide +kernel

/-- The arguments of the four-argument constructor. -/
structure Args (D : Type) where
  maj : String
  min : String
  majCustom : List D
  minCustom : List D

def Args.build (F : FPU D) (p : Args D) : KeyProfile D := mk4 F p.maj p.min p.majCustom p.minCustom

/-- The two arrays the arguments ask for, if both names are known. -/
def Args.spec (F : FPU D) (p : Args D) : Option (List D × List D) := do
  let a ← specTable F majBuiltins p.maj p.majCustom
  let b ← specTable F minBuiltins p.min p.minCustom
  return (a, b)

structure HInv (F : FPU D) (p : Args D) (kp : KeyProfile D) : Prop where
  majName : kp.majName = if (p.spec F).isSome then p.maj else ""
  minName : kp.minName = if (p.spec F).isSome then p.min else ""
  majTables : TInv (ctorTables F majBuiltins p.maj p.majCustom) kp.majTables kp.majName
    (List.replicate 12 F.zero)
  minTables : TInv (ctorTables F minBuiltins p.min p.minCustom) kp.minTables kp.minName
    (List.replicate 12 F.zero)

theorem spec_isSome (F : FPU D) (p : Args D) : (p.spec F).isSome =
    ((specTable F majBuiltins p.maj p.majCustom).isSome &&
      (specTable F minBuiltins p.min p.minCustom).isSome) := by
  unfold Args.spec
  cases specTable F majBuiltins p.maj p.majCustom <;>
    cases specTable F minBuiltins p.min p.minCustom <;> rfl

theorem mk4_eq (F : FPU D) (p : Args D) :
    p.build F =
      { majName := if (p.spec F).isSome then p.maj else ""
        minName := if (p.spec F).isSome then p.min else ""
        majTables := ctorTables F majBuiltins p.maj p.majCustom
        minTables := ctorTables F minBuiltins p.min p.minCustom } := by
  unfold Args.build mk4
  simp only [isValidMaj, isValidMin]
  change (if (((ctorTables F majBuiltins p.maj p.majCustom).get? p.maj).isSome &&
    ((ctorTables F minBuiltins p.min p.minCustom).get? p.min).isSome) = true then _ else _) = _
  rw [ctorTables_get, ctorTables_get, ← spec_isSome]
  cases (p.spec F).isSome <;> rfl

theorem hinv_build (F : FPU D) (p : Args D) : HInv F p (p.build F) := by
  rw [mk4_eq]
  exact ⟨rfl, rfl, ⟨fun _ _ => rfl, Or.inl (ctorTables_empty F _ _ _ maj_empty)⟩,
    ⟨fun _ _ => rfl, Or.inl (ctorTables_empty F _ _ _ min_empty)⟩⟩

theorem hinv_getMaj (F : FPU D) (p : Args D) (kp : KeyProfile D) (h : HInv F p kp) :
    HInv F p (kp.getMaj F).2 := by
  unfold getMaj
  cases hg : kp.majTables.get? kp.majName with
  | some a => exact h
  | none =>
    refine ⟨h.majName, h.minName, h.majTables.set hg ?_, h.minTables⟩
    rw [h.majName]
    cases hs : (p.spec F).isSome with
    | false => simp
    | true =>
      right
      rw [spec_isSome, Bool.and_eq_true] at hs
      simp only [if_true, ctorTables_get]
      exact hs.1

theorem hinv_getMin (F : FPU D) (p : Args D) (kp : KeyProfile D) (h : HInv F p kp) :
    HInv F p (kp.getMin F).2 := by
  unfold getMin
  cases hg : kp.minTables.get? kp.minName with
  | some a => exact h
  | none =>
    refine ⟨h.majName, h.minName, h.majTables, h.minTables.set hg ?_⟩
    rw [h.minName]
    cases hs : (p.spec F).isSome with
    | false => simp
    | true =>
      right
      rw [spec_isSome, Bool.and_eq_true] at hs
      simp only [if_true, ctorTables_get]
      exact hs.2

theorem hinv_getMap (F : FPU D) (p : Args D) (kp : KeyProfile D) (h : HInv F p kp)
    (m : IMap (IMap D)) (kp' : KeyProfile D) (hm : kp.getMap F = .ok (m, kp')) : HInv F p kp' := by
  unfold getMap at hm
  refine forM_inv (fun s : IMap (IMap D) × KeyProfile D => HInv F p s.2) Key.all _ ?_ _ _ h hm
  rintro ⟨m1, kp1⟩ k ⟨m2, kp2⟩ h1 hs
  simp only at h1 hs ⊢
  cases hmaj : k.isMajor with
  | ub => rw [hmaj] at hs; cases hs
  | throw e => rw [hmaj] at hs; cases hs
  | ok b =>
    simp only [hmaj, Res.bind_ok] at hs
    cases b with
    | true =>
      simp only [if_true] at hs
      cases hr : mapRow (kp1.getMaj F).1 k with
      | ub => rw [hr] at hs; cases hs
      | throw e => rw [hr] at hs; cases hs
      | ok row =>
        simp only [hr, Res.bind_ok] at hs
        cases hi : k.getInt with
        | ub => rw [hi] at hs; cases hs
        | throw e => rw [hi] at hs; cases hs
        | ok n =>
          simp only [hi, Res.bind_ok, Res.pure_eq] at hs
          injection hs with hs
          injection hs with _ hs
          rw [← hs]
          exact hinv_getMaj F p kp1 h1
    | false =>
      simp only [Bool.false_eq_true, if_false] at hs
      cases hr : mapRow (kp1.getMin F).1 k with
      | ub => rw [hr] at hs; cases hs
      | throw e => rw [hr] at hs; cases hs
      | ok row =>
        simp only [hr, Res.bind_ok] at hs
        cases hi : k.getInt with
        | ub => rw [hi] at hs; cases hs
        | throw e => rw [hi] at hs; cases hs
        | ok n =>
          simp only [hi, Res.bind_ok, Res.pure_eq] at hs
          injection hs with hs
          injection hs with _ hs
          rw [← hs]
          exact hinv_getMin F p kp1 h1

/-- What the object hands out, by the specification. -/
def Args.arrays (F : FPU D) (p : Args D) : List D × List D :=
  (p.spec F).getD (List.replicate 12 F.zero, List.replicate 12 F.zero)

theorem hinv_view (F : FPU D) (p : Args D) (kp : KeyProfile D) (h : HInv F p kp) :
    View F kp (p.arrays F).1 (p.arrays F).2 (if (p.spec F).isSome then p.maj else "")
      (if (p.spec F).isSome then p.min else "") := by
  refine ⟨?_, ?_, h.majName, h.minName⟩
  · rw [getMaj_fst, h.majTables.sel (ctorTables_empty F _ _ _ maj_empty), h.majName]
    unfold Args.arrays
    cases hs : p.spec F with
    | none => simp [ctorTables_empty F _ _ _ maj_empty]
    | some ab =>
      unfold Args.spec at hs
      cases h1 : specTable F majBuiltins p.maj p.majCustom with
      | none => simp [h1] at hs
      | some a =>
        cases h2 : specTable F minBuiltins p.min p.minCustom with
        | none => simp [h1, h2] at hs
        | some b =>
          simp [h1, h2] at hs
          simp only [Option.isSome_some, if_true, ctorTables_get, h1, Option.getD_some, ← hs]
  · rw [getMin_fst, h.minTables.sel (ctorTables_empty F _ _ _ min_empty), h.minName]
    unfold Args.arrays
    cases hs : p.spec F with
    | none => simp [ctorTables_empty F _ _ _ min_empty]
    | some ab =>
      unfold Args.spec at hs
      cases h1 : specTable F majBuiltins p.maj p.majCustom with
      | none => simp [h1] at hs
      | some a =>
        cases h2 : specTable F minBuiltins p.min p.minCustom with
        | none => simp [h1, h2] at hs
        | some b =>
          simp [h1, h2] at hs
          simp only [Option.isSome_some, if_true, ctorTables_get, h2, Option.getD_some, ← hs]

theorem builtin_len : (∀ p ∈ majBuiltins, p.2.length = 12) ∧ (∀ p ∈ minBuiltins, p.2.length = 12) := by
  decide +kernel

theorem specTable_len (F : FPU D) (b : List (String × List Rat)) (hb : ∀ p ∈ b, p.2.length = 12)
    (s : String) (custom : List D) (hc : custom.length = 12) (a : List D)
    (h : specTable F b s custom = some a) : a.length = 12 := by
  unfold specTable at h
  split at h
  · injection h with h; rw [← h]; exact hc
  · cases hf : b.find? (fun p => p.1 == s) with
    | none => simp [hf] at h
    | some p =>
      simp only [hf, Option.map_some, Option.some.injEq] at h
      rw [← h, List.length_map]
      exact hb p (List.mem_of_find?_eq_some hf)

theorem arrays_len (F : FPU D) (p : Args D) (h1 : p.majCustom.length = 12) (h2 : p.minCustom.length = 12) :
    (p.arrays F).1.length = 12 ∧ (p.arrays F).2.length = 12 := by
  unfold Args.arrays
  cases hs : p.spec F with
  | none => simp
  | some ab =>
    unfold Args.spec at hs
    cases ha : specTable F majBuiltins p.maj p.majCustom with
    | none => simp [ha] at hs
    | some a =>
      cases hb : specTable F minBuiltins p.min p.minCustom with
      | none => simp [ha, hb] at hs
      | some b =>
        simp [ha, hb] at hs
        rw [← hs]
        exact ⟨specTable_len F _ builtin_len.1 _ _ h1 _ ha, specTable_len F _ builtin_len.2 _ _ h2 _ hb⟩

theorem after_ok (F : FPU D) (p : Args D) (h1 : p.majCustom.length = 12) (h2 : p.minCustom.length = 12)
    (h : List Call) (kp : KeyProfile D) (hk : HInv F p kp) :
    ∃ kp', after F kp h = .ok kp' ∧ HInv F p kp' := by
  unfold after
  induction h generalizing kp with
  | nil => exact ⟨kp, rfl, hk⟩
  | cons c h ih =>
    simp only [forM_cons]
    have : ∃ kp1, call F kp c = .ok kp1 ∧ HInv F p kp1 := by
      cases c with
      | isValidMaj s => exact ⟨kp, rfl, hk⟩
      | isValidMin s => exact ⟨kp, rfl, hk⟩
      | whichMaj => exact ⟨kp, rfl, hk⟩
      | whichMin => exact ⟨kp, rfl, hk⟩
      | getMaj => exact ⟨_, rfl, hinv_getMaj F p kp hk⟩
      | getMin => exact ⟨_, rfl, hinv_getMin F p kp hk⟩
      | getMap =>
        obtain ⟨hl1, hl2⟩ := arrays_len F p h1 h2
        obtain ⟨kp', hm, _⟩ := getMap_eq F kp _ _ _ _ hl1 hl2 F.zero (hinv_view F p kp hk)
        exact ⟨kp', by simp [call, hm], hinv_getMap F p kp hk _ _ hm⟩
    obtain ⟨kp1, hc, hk1⟩ := this
    rw [hc]
    exact ih kp1 hk1

/-- **C12.** Whatever calls were made before (none of which fails), an object built from two names and
two 12-value arrays answers as follows.  Both names known (built in for that mode, or `"custom"`): it
reports both names and hands out exactly the two tables they stand for.  Otherwise it reports two
empty names and hands out two all-zero tables. -/
theorem C12_selection (F : FPU D) (maj min : String) (majCustom minCustom : List D)
    (h1 : majCustom.length = 12) (h2 : minCustom.length = 12) (h : List Call) :
    ∃ kp, after F (mk4 F maj min majCustom minCustom) h = .ok kp ∧
      (∀ a b, specTable F majBuiltins maj majCustom = some a → specTable F minBuiltins min minCustom = some b →
        kp.whichMaj = maj ∧ kp.whichMin = min ∧ (kp.getMaj F).1 = a ∧ (kp.getMin F).1 = b) ∧
      (specTable F majBuiltins maj majCustom = none ∨ specTable F minBuiltins min minCustom = none →
        kp.whichMaj = "" ∧ kp.whichMin = "" ∧
        (kp.getMaj F).1 = List.replicate 12 F.zero ∧ (kp.getMin F).1 = List.replicate 12 F.zero) := by
  let p : Args D := ⟨maj, min, majCustom, minCustom⟩
  obtain ⟨kp, ho, hi⟩ := after_ok F p h1 h2 h _ (hinv_build F p)
  have hv := hinv_view F p kp hi
  refine ⟨kp, ho, ?_, ?_⟩
  · intro a b ha hb
    have hs : p.spec F = some (a, b) := by simp [Args.spec, p, ha, hb]
    have harr : p.arrays F = (a, b) := by simp [Args.arrays, hs]
    simp only [hs, harr, Option.isSome_some, if_true] at hv
    exact ⟨hv.majName, hv.minName, hv.maj, hv.min⟩
  · intro hn
    have hs : p.spec F = none := by
      rcases hn with hn | hn
      · simp [Args.spec, p, hn]
      · cases h1 : specTable F majBuiltins maj majCustom <;> simp [Args.spec, p, hn, h1]
    have harr : p.arrays F = (List.replicate 12 F.zero, List.replicate 12 F.zero) := by
      simp only [Args.arrays, hs, Option.getD_none]
    simp only [hs, harr, Option.isSome_none, Bool.false_eq_true, if_false] at hv
    exact ⟨hv.majName, hv.minName, hv.maj, hv.min⟩

/-- **C12.** Name validity, for every non-empty name, never depends on earlier calls. -/
theorem C12_isValid (F : FPU D) (maj min : String) (majCustom minCustom : List D)
    (h1 : majCustom.length = 12) (h2 : minCustom.length = 12) (h : List Call) (q : String) (hq : q ≠ "") :
    ∃ kp, after F (mk4 F maj min majCustom minCustom) h = .ok kp ∧
      kp.isValidMaj q = (majBuiltins.any (fun p => p.1 == q) || (maj == "custom" && q == "custom")) ∧
      kp.isValidMin q = (minBuiltins.any (fun p => p.1 == q) || (min == "custom" && q == "custom")) := by
  let p : Args D := ⟨maj, min, majCustom, minCustom⟩
  obtain ⟨kp, ho, hi⟩ := after_ok F p h1 h2 h _ (hinv_build F p)
  have key : ∀ (b : List (String × List Rat)) (s : String) (c : List D),
      ((ctorTables F b s c).get? q).isSome =
        (b.any (fun p => p.1 == q) || (s == "custom" && q == "custom")) := by
    intro b s c
    have hb : (AMap.get? (b.map (fun p => (p.1, p.2.map F.ofRat))) q).isSome =
        b.any (fun p => p.1 == q) := by
      rw [get?_eq_find?, Option.isSome_map, List.isSome_find?]
    unfold ctorTables withCustom
    by_cases hs : s = "custom"
    · subst hs
      by_cases hqc : q = "custom"
      · subst hqc; simp [AMap.get?_set_self]
      · simp [AMap.get?_set_ne _ _ hqc, hb, hqc]
    · simp [hs, hb]
  refine ⟨kp, ho, ?_, ?_⟩
  · unfold isValidMaj
    rw [hi.majTables.1 q hq]
    exact key _ _ _
  · unfold isValidMin
    rw [hi.minTables.1 q hq]
    exact key _ _ _

/-- **C12.** The default object is temperley (major) with sapp (minor). -/
theorem C12_default (F : FPU D) : (mk0 F).whichMaj = "temperley" ∧ (mk0 F).whichMin = "sapp" := by
  have hM : (majBuiltins.find? (fun p => p.1 == "temperley")).isSome = true := by decide +kernel
  have hm : (minBuiltins.find? (fun p => p.1 == "sapp")).isSome = true := by decide +kernel
  obtain ⟨kp, ho, h, _⟩ := C12_selection F "temperley" "sapp" (List.replicate 12 F.zero)
    (List.replicate 12 F.zero) (by simp) (by simp) []
  have he : kp = mk0 F := by
    have : after F (mk0 F) [] = .ok (mk0 F) := rfl
    unfold mk0 mk2 at this ⊢
    rw [this] at ho
    injection ho with ho
    exact ho.symm
  obtain ⟨a, ha⟩ := Option.isSome_iff_exists.1 hM
  obtain ⟨b, hb⟩ := Option.isSome_iff_exists.1 hm
  have := h (a.2.map F.ofRat) (b.2.map F.ofRat)
    (by unfold specTable; rw [if_neg (by decide), ha]; rfl)
    (by unfold specTable; rw [if_neg (by decide), hb]; rfl)
  rw [← he]
  exact ⟨this.1, this.2.1⟩

/-- **C12 (disagreement).** As for transitions, asking about the empty name is history dependent: an
object built from an unknown name says the empty name is not valid, and after its major profile has
been read once, says it is. -/
theorem C12_empty_name_history (F : FPU D) :
    (mk1 F "no such profile").isValidMaj "" = false ∧
    ∃ kp, after F (mk1 F "no such profile") [.getMaj] = .ok kp ∧ kp.isValidMaj "" = true := by
  let p : Args D := ⟨"no such profile", "no such profile", List.replicate 12 F.zero, List.replicate 12 F.zero⟩
  have hs : p.spec F = none := by
    have : majBuiltins.find? (fun p => p.1 == "no such profile") = none := by decide +kernel
    simp [Args.spec, p, specTable, this]
  have hb : mk1 F "no such profile" = p.build F := rfl
  rw [hb, mk4_eq]
  simp only [hs, Option.isSome_none, Bool.false_eq_true, if_false]
  have h0 := ctorTables_empty F majBuiltins p.maj p.majCustom maj_empty
  constructor
  · simp [isValidMaj, h0]
  · refine ⟨_, rfl, ?_⟩
    simp only [KeyProfile.getMaj, h0, isValidMaj, AMap.get?_set_self, Option.isSome_some]

/-! ### C13 -/

/-- Read an entry of the map returned by `getKeyProfileMap`. -/
def entry (m : IMap (IMap D)) (x pc : Int) : Option D := (m.get? x).bind (fun r => r.get? pc)

theorem entry_tab (f : Int → Int → D) {x y : Int} (hx : IsKey x) (hy : 0 ≤ y ∧ y < 12) :
    entry (tab keys (fun x => tab pcs (f x))) x y = some (f x y) := by
  unfold entry
  rw [get?_tab, if_pos (mem_keys.2 hx)]
  simp only [Option.bind_some]
  rw [get?_tab, if_pos (mem_pcs.2 hy)]

/-- **C13.** For every object the emission map exists and its entry for key `x` and pitch class `pc` is
the value of the profile of `x`'s mode at scale degree `(pc − tonic x) mod 12`. -/
theorem C13_emission (F : FPU D) (maj min : String) (majCustom minCustom : List D)
    (h1 : majCustom.length = 12) (h2 : minCustom.length = 12) (h : List Call) :
    ∃ kp m kp', after F (mk4 F maj min majCustom minCustom) h = .ok kp ∧ kp.getMap F = .ok (m, kp') ∧
      ∀ x pc, IsKey x → 0 ≤ pc ∧ pc < 12 →
        (entry m x pc).isSome = true ∧
        entry m x pc =
          (if Spec.isMajor x then (kp.getMaj F).1 else (kp.getMin F).1)[((pc - tonic x) % 12).toNat]? := by
  let p : Args D := ⟨maj, min, majCustom, minCustom⟩
  obtain ⟨kp, ho, hi⟩ := after_ok F p h1 h2 h _ (hinv_build F p)
  have hv := hinv_view F p kp hi
  obtain ⟨hl1, hl2⟩ := arrays_len F p h1 h2
  obtain ⟨kp', hm, _⟩ := getMap_eq F kp _ _ _ _ hl1 hl2 F.zero hv
  refine ⟨kp, _, kp', ho, hm, ?_⟩
  intro x pc hx hpc
  rw [entry_tab _ hx hpc, hv.maj, hv.min]
  refine ⟨rfl, ?_⟩
  have hd : degree x pc = ((pc - tonic x) % 12).toNat := by
    unfold degree tonic; congr 1; omega
  unfold emis
  rw [hd, List.getD_eq_getElem?_getD]
  rw [List.getElem?_eq_getElem (by split <;> (first | rw [hl1] | rw [hl2]) <;> omega)]
  rfl

/-- **C13.** Transposing key and pitch class together never changes the emission probability. -/
theorem C13_equivariant (F : FPU D) (maj min : String) (majCustom minCustom : List D)
    (h1 : majCustom.length = 12) (h2 : minCustom.length = 12) (m : IMap (IMap D)) (kp' : KeyProfile D)
    (hm : (mk4 F maj min majCustom minCustom).getMap F = .ok (m, kp')) :
    ∀ t x pc, IsKey x → 0 ≤ pc ∧ pc < 12 →
      entry m (transposeKey t x) (transposePc t pc) = entry m x pc := by
  obtain ⟨kp, m', kp2, ho, hm', he⟩ := C13_emission F maj min majCustom minCustom h1 h2 []
  have hk : kp = mk4 F maj min majCustom minCustom := by
    simp [after] at ho; exact ho.symm
  subst hk
  rw [hm] at hm'
  injection hm' with hm'
  injection hm' with hm' _
  subst hm'
  intro t x pc hx hpc
  have hpc' : 0 ≤ transposePc t pc ∧ transposePc t pc < 12 := by unfold transposePc; omega
  rw [(he x pc hx hpc).2, (he _ _ (Key.transposeKey_isKey t x) hpc').2]
  have e1 : Spec.isMajor (transposeKey t x) = Spec.isMajor x := by
    unfold IsKey at hx
    unfold transposeKey Spec.isMajor tonic
    by_cases hx12 : x < 12 <;> simp [hx12] <;> omega
  have e2 : (transposePc t pc - tonic (transposeKey t x)) % 12 = (pc - tonic x) % 12 := by
    unfold transposePc transposeKey Spec.isMajor tonic
    by_cases hx12 : x < 12 <;> simp only [hx12, decide_true, decide_false, if_true, Bool.false_eq_true, if_false] <;> omega
  rw [e1, e2]

/-! ### C14 -/

/-- **C14.** Each row of the emission map lists the 12 pitch classes in order and its values are a
permutation of the 12 values of the profile of that key's mode. -/
theorem C14_row_perm (F : FPU D) (maj min : String) (majCustom minCustom : List D)
    (h1 : majCustom.length = 12) (h2 : minCustom.length = 12) (m : IMap (IMap D)) (kp' : KeyProfile D)
    (hm : (mk4 F maj min majCustom minCustom).getMap F = .ok (m, kp')) :
    m.keys = keys ∧ ∀ x, IsKey x → ∃ r, m.get? x = some r ∧ r.keys = pcs ∧
      (r.map Prod.snd).Perm
        (if Spec.isMajor x then ((mk4 F maj min majCustom minCustom).getMaj F).1
          else ((mk4 F maj min majCustom minCustom).getMin F).1) := by
  let p : Args D := ⟨maj, min, majCustom, minCustom⟩
  have hv := hinv_view F p _ (hinv_build F p)
  obtain ⟨hl1, hl2⟩ := arrays_len F p h1 h2
  obtain ⟨kp2, hm2, _⟩ := getMap_eq F _ _ _ _ _ hl1 hl2 F.zero hv
  have hb : mk4 F maj min majCustom minCustom = p.build F := rfl
  rw [hb] at hm ⊢
  rw [hm] at hm2
  injection hm2 with hm2
  injection hm2 with hm2 _
  subst hm2
  refine ⟨by simp [AMap.keys, tab, Function.comp_def], ?_⟩
  intro x hx
  rw [get?_tab, if_pos (mem_keys.2 hx)]
  refine ⟨_, rfl, by simp [AMap.keys, tab, Function.comp_def], ?_⟩
  rw [hv.maj, hv.min]
  have key : ∀ x ∈ keys, (pcs.map (degree x)).Perm (List.range 12) := by decide +kernel
  have hl : (if Spec.isMajor x then (p.arrays F).1 else (p.arrays F).2).length = 12 := by
    split <;> assumption
  generalize hlist : (if Spec.isMajor x then (p.arrays F).1 else (p.arrays F).2) = l at hl
  have hp := (key x (mem_keys.2 hx)).map (fun i => l.getD i F.zero)
  have he := (eq_map_range l F.zero).symm
  rw [hl] at he
  rw [he] at hp
  refine List.Perm.trans (List.Perm.of_eq ?_) hp
  simp [tab, Function.comp_def, emis, hlist]

/-- **C14.** All built-in profiles are non-negative; their exact sums are within 0.002 of 1, and for
the five profiles the command line offers (and the three `simple_*` ones) within 1e-15 of 1. -/
theorem C14_builtin_profiles :
    (∀ p ∈ majBuiltins ++ minBuiltins, (∀ v ∈ p.2, 0 ≤ v) ∧ |p.2.sum - 1| ≤ 1 / 500) ∧
    (∀ p ∈ majBuiltins ++ minBuiltins, p.1 ≠ "albrecht_shanahan1" → p.1 ≠ "albrecht_shanahan2" →
      |p.2.sum - 1| ≤ 1 / 10 ^ 15) := by
  decide +kernel

/-- **C14.** In exact arithmetic, every row of the emission map of a built-in selection is non-negative
and sums to 1 within 0.002: it is a probability distribution up to that tolerance. -/
theorem C14_row_distribution (F : FPU Rat) (hF : ∀ q, F.ofRat q = q) (maj min : String)
    (hM : ∃ p ∈ majBuiltins, p.1 = maj) (hm' : ∃ p ∈ minBuiltins, p.1 = min)
    (m : IMap (IMap Rat)) (kp' : KeyProfile Rat) (hm : (mk2 F maj min).getMap F = .ok (m, kp')) :
    ∀ x, IsKey x → ∃ r, m.get? x = some r ∧
      (∀ v ∈ r.map Prod.snd, 0 ≤ v) ∧ |(r.map Prod.snd).sum - 1| ≤ 1 / 500 := by
  unfold mk2 at hm
  obtain ⟨_, hr⟩ := C14_row_perm F maj min _ _ (by simp) (by simp) m kp' hm
  obtain ⟨kp, ho, hsel, _⟩ := C12_selection F maj min (List.replicate 12 F.zero)
    (List.replicate 12 F.zero) (by simp) (by simp) []
  have hk : kp = mk4 F maj min (List.replicate 12 F.zero) (List.replicate 12 F.zero) := by
    simp [after] at ho; exact ho.symm
  subst hk
  have hmap : ∀ l : List Rat, l.map F.ofRat = l := by
    intro l
    have : F.ofRat = id := by funext q; exact hF q
    rw [this, List.map_id]
  have find : ∀ (b : List (String × List Rat)) (s : String), (∃ p ∈ b, p.1 = s) → s ≠ "custom" → ∀ c,
      ∃ q ∈ b, specTable F b s c = some q.2 := by
    intro b s ⟨p, hp, hps⟩ hs c
    have : (b.find? (fun p => p.1 == s)).isSome := by
      rw [List.find?_isSome]; exact ⟨p, hp, by simp [hps]⟩
    obtain ⟨q, hq⟩ := Option.isSome_iff_exists.1 this
    refine ⟨q, List.mem_of_find?_eq_some hq, ?_⟩
    simp [specTable, hs, hq, hmap]
  have ncM : ∀ p ∈ majBuiltins, p.1 ≠ "custom" := by decide +kernel
  have ncm : ∀ p ∈ minBuiltins, p.1 ≠ "custom" := by decide +kernel
  obtain ⟨a, ha, hsa⟩ := find majBuiltins maj hM (by obtain ⟨p, hp, h⟩ := hM; exact h ▸ ncM p hp)
    (List.replicate 12 F.zero)
  obtain ⟨b, hb, hsb⟩ := find minBuiltins min hm' (by obtain ⟨p, hp, h⟩ := hm'; exact h ▸ ncm p hp)
    (List.replicate 12 F.zero)
  obtain ⟨_, _, hA, hB⟩ := hsel a.2 b.2 hsa hsb
  intro x hx
  obtain ⟨r, h1, _, h3⟩ := hr x hx
  rw [hA, hB] at h3
  refine ⟨r, h1, ?_⟩
  rw [h3.sum_eq]
  have hall := C14_builtin_profiles.1
  cases hmx : Spec.isMajor x with
  | true =>
    simp only [hmx, if_true] at h3 ⊢
    obtain ⟨n1, n2⟩ := hall a (by simp [ha])
    exact ⟨fun v hv => n1 v (h3.mem_iff.1 hv), n2⟩
  | false =>
    simp only [hmx, Bool.false_eq_true, if_false] at h3 ⊢
    obtain ⟨n1, n2⟩ := hall b (by simp [hb])
    exact ⟨fun v hv => n1 v (h3.mem_iff.1 hv), n2⟩

/-- **C14.** The exact 0.998 shortfall: the `albrecht_shanahan1` minor profile is *not* normalised. -/
theorem C14_not_exact : ∃ p ∈ minBuiltins, p.1 = "albrecht_shanahan1" ∧ p.2.sum = 998 / 1000 := by
  decide +kernel

example : (∃ p ∈ majBuiltins, p.1 = "sapp") ∧ (∃ p ∈ minBuiltins, p.1 = "simple_natural_minor") ∧
    ¬ (∃ p ∈ majBuiltins, p.1 = "simple_natural_minor") := by decide +kernel

end JKD.KeyProfile
