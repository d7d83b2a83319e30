import Verif.Props.MainProps
/-
C37, C42: what the program says when it finds no key.
-/

namespace JKD.Main

open Spec

variable {D S P T : Type}

/-! ### Specification -/

/-- The line that asks for 24 values, after `n` were given. -/
def AsksFor24 (what : String) (n : Nat) (text : Str) : Prop :=
  text = "You must provide exactly 24 values for the custom ".toList ++ what.toList ++ ". You provided ".toList ++ Nat.toDigits 10 n ++
    ".\n".toList

/-- Some key is printed as this line. -/
def IsKeyLine (line : Str) : Prop := ∃ K, IsKey K ∧ keyLine (Key.ofInt K) = .ok line

/-! ### Proof -/

theorem count_text (what : String) (n : Nat) : AsksFor24 what n (countMessage what n) := by
  unfold AsksFor24 countMessage
  have h : (toString n).toList = Nat.toDigits 10 n := by
    change (Nat.repr n).toList = _
    simp [Nat.repr]
  simp only [String.toList_append, h]

/-- **C37, the message for profiles.**  A wrong number of profile values is answered with a line that names this number. -/
theorem C37_profiles_message (E : Env D S P T) (o : Options) (s : Str) (ho : o.customkeyprofiles = some s)
    (hmaj : E.junkMajor.length = 12) (hmin : E.junkMinor.length = 12) (hn : (E.nums s).length ≠ 24) :
    ∃ text, AsksFor24 "key profiles" (E.nums s).length text ∧
      chooseProfiles E o = .error { stdout := text ++ E.help, stderr := [], code := 0 } :=
  ⟨_, count_text _ _, (C37_profiles E o s ho hmaj hmin).2 hn⟩

/-- **C37 (partial), the message for transitions.**  Missing: more than 24 values. -/
theorem C37_transitions_message_partial (E : Env D S P T) (o : Options) (s : Str) (ho : o.customkeytransitions = some s)
    (harr : E.junkTransition.length = 24) (hn : (E.nums s).length < 24) :
    ∃ text, AsksFor24 "key transitions" (E.nums s).length text ∧
      chooseTransitions E o = .ok (.error { stdout := text ++ E.help, stderr := [], code := 0 }) :=
  ⟨_, count_text _ _, (C37_transitions_partial E o s ho harr).2 hn⟩

/-- A line of fewer than twelve characters. -/
def short : Res Str → Bool
  | .ok line => decide (line.length < 12)
  | _ => true

theorem keyLine_short : ∀ K ∈ keys, short (keyLine (Key.ofInt K)) = true := by decide +kernel

/-- **C42 (partial), no false keys.**  The status does not tell, but the text does: what the program prints when the file is missing, has
an unknown extension, or comes with a wrong number of values is never the line of a key, whatever the help text is. -/
theorem C42_messages_partial (help line : Str) (h : IsKeyLine line) (what : String) (n : Nat) :
    missingMessage ++ help ≠ line ∧ unknownMessage ++ help ≠ line ∧ countMessage what n ++ help ≠ line := by
  obtain ⟨K, hK, hl⟩ := h
  have hs := keyLine_short K (mem_keys.2 hK)
  rw [hl] at hs
  replace hs : line.length < 12 := of_decide_eq_true hs
  have long : ∀ m : Str, 12 ≤ m.length → m ++ help ≠ line := by
    rintro m hm rfl
    rw [List.length_append] at hs
    omega
  refine ⟨long _ (by decide), long _ (by decide), long _ ?_⟩
  have e : countMessage what n = _ := count_text what n
  rw [e]
  have : "You must provide exactly 24 values for the custom ".toList.length = 50 := by decide
  simp only [List.length_append, this]
  omega

/-! ### Cases -/

example : AsksFor24 "key profiles" 23
    "You must provide exactly 24 values for the custom key profiles. You provided 23.\n".toList := by unfold AsksFor24; decide

example : IsKeyLine "C\tmajor\n".toList := ⟨0, by decide, by decide +kernel⟩

end JKD.Main
