import Verif.Model.PyOpt
import Verif.Model.PyTables
/-
C47: the generated names of the optimiser are different strings.  The model uses constructors for them; the
dictionaries of the program use the formatted strings.  These are the same thing as long as no two generated
names give one string, and no generated name gives the string of a table that is there from the start.
-/

namespace JKD.Opt

/-- A string without the digits at its end. -/
def stem (l : List Char) : List Char := l.reverse.dropWhile Char.isDigit

/-- A name made by the program, not one it was given. -/
def Name.generated : Name → Bool
  | .given _ => false
  | _ => true

theorem digits_inj {i j : Nat} (h : Nat.toDigits 10 i = Nat.toDigits 10 j) : i = j := by
  have := congrArg (fun l => Nat.ofDigitChars 10 l 0) h
  simpa only [Nat.ofDigitChars_ten_toDigits] using this

theorem stem_digits (pre : List Char) (n : Nat) : stem (pre ++ Nat.toDigits 10 n) = stem pre := by
  unfold stem
  rw [List.reverse_append, List.dropWhile_append_of_pos]
  intro c hc
  exact Nat.isDigit_of_mem_toDigits (by decide) (by decide) (List.mem_reverse.1 hc)

/-- The stems of the generated names, read backwards. -/
def stems : List (List Char) :=
  ["kp".toList, "kpc".toList, "kpm".toList, "ktg".toList, "kts".toList, "ktgm".toList, "ktsm".toList].map List.reverse

theorem stem_generated (a : Name) (ha : a.generated = true) : stem a.render ∈ stems := by
  cases a <;> simp only [Name.generated, Bool.false_eq_true] at ha <;>
    simp only [Name.render, stem_digits] <;> decide

/-- C47: two generated names with the same string are the same name. -/
theorem C47_names (a b : Name) (ha : a.generated = true) (hb : b.generated = true) (h : a.render = b.render) :
    a = b := by
  have hs := congrArg stem h
  cases a <;> simp only [Name.generated, Bool.false_eq_true] at ha <;>
    cases b <;> simp only [Name.generated, Bool.false_eq_true] at hb <;>
    simp only [Name.render, stem_digits] at hs h <;>
    first
      | exact absurd hs (by decide)
      | (rw [digits_inj (List.append_cancel_left h)])

/-- C47: a string that is no stem followed by digits is the string of no generated name. -/
theorem C47_given_names (s : String) (hs : stem s.toList ∉ stems) (a : Name) (ha : a.generated = true) :
    a.render ≠ (Name.given s).render := by
  intro h
  have := stem_generated a ha
  rw [h] at this
  exact hs this

/-- C47: no generated name is the name of a table of the program. -/
theorem C47_builtin_names (s : String) (hs : s ∈ pyProfiles.map Prod.fst ++ pyTransitions.map Prod.fst) (a : Name)
    (ha : a.generated = true) : a.render ≠ (Name.given s).render := by
  refine C47_given_names s ?_ a ha
  have hall : ∀ s ∈ pyProfiles.map Prod.fst ++ pyTransitions.map Prod.fst, stem s.toList ∉ stems := by decide
  exact hall s hs

/-- Concrete cases: 'ktg12' and 'ktgm12' differ, 'ktg_exponential10' is in the tables, and a user can still give
the name 'kp3', which is also the name of the fourth profile made. -/
example : (Name.ktg 12).render = "ktg12".toList ∧ (Name.ktgm 12).render = "ktgm12".toList ∧
    "ktg_exponential10" ∈ pyTransitions.map Prod.fst ∧ (Name.given "kp3").render = (Name.kp 3).render := by decide

end JKD.Opt
