import Verif.Lemmas.Maps
/-
Helper lemmas about name-indexed tables with inserting `operator[]`.
-/

namespace JKD

variable {V : Type}

/-- What can have happened to a name-indexed table after some calls: nothing but possibly the insertion
of a zero array under the empty name, and that only if the empty name is the selected one. -/
def TInv (init t : AMap String V) (cur : String) (z : V) : Prop :=
  (∀ s, s ≠ "" → t.get? s = init.get? s) ∧
  (t.get? "" = none ∨ (cur = "" ∧ t.get? "" = some z))

theorem TInv.sel {init t : AMap String V} {cur : String} {z : V} (h : TInv init t cur z)
    (h0 : init.get? "" = none) : (t.get? cur).getD z = (init.get? cur).getD z := by
  by_cases hc : cur = ""
  · subst hc
    rcases h.2 with h1 | ⟨_, h1⟩ <;> simp [h1, h0]
  · rw [h.1 cur hc]

theorem TInv.set {init t : AMap String V} {cur : String} {z : V} (h : TInv init t cur z)
    (hn : t.get? cur = none) (hcur : cur = "" ∨ (init.get? cur).isSome) :
    TInv init (t.set cur z) cur z := by
  rcases hcur with rfl | hs
  · refine ⟨?_, Or.inr ⟨rfl, AMap.get?_set_self _ _ _⟩⟩
    intro s hs
    rw [AMap.get?_set_ne _ _ hs]
    exact h.1 s hs
  · by_cases hc : cur = ""
    · subst hc
      refine ⟨?_, Or.inr ⟨rfl, AMap.get?_set_self _ _ _⟩⟩
      intro s hs
      rw [AMap.get?_set_ne _ _ hs]
      exact h.1 s hs
    · rw [h.1 cur hc] at hn
      simp [hn] at hs

/-- Tables after the constructor. -/
def withCustom (b : AMap String V) (s : String) (c : V) : AMap String V :=
  if s = "custom" then b.set s c else b

end JKD
