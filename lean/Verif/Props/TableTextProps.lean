import Verif.Props.SearchProps
/-
C122, C124: numbers on a command line and in a row stay apart.
-/

namespace JKD.Search

open Py Script Main

variable {D S P T K : Type}

/-! ### Specification -/

/-- A text that `split()` and `stream >> val` take as one piece. -/
def OneWord (w : Str) : Prop := w ≠ [] ∧ ∀ c ∈ w, isSpace c = false

/-- What `stream >> val` in a loop extracts from a text all of whose words are numbers: these numbers, in their order; `read` is the
number that a word stands for. -/
def Reader (nums : Str → List D) (read : Str → Option D) : Prop :=
  ∀ s, (∀ w ∈ splitWs s, (read w).isSome = true) → nums s = (splitWs s).filterMap read

/-! ### Proof -/

theorem split_joined (ws : List Str) (h : ∀ w ∈ ws, OneWord w) : splitWs (joinBlank ws) = ws := by
  unfold splitWs
  induction ws with
  | nil => rfl
  | cons w l ih =>
    obtain ⟨hw, hc⟩ := h w (by simp)
    cases l with
    | nil =>
      have := splitWs_go_word w [] [] hc
      rw [List.append_nil] at this
      rw [joinBlank, this, splitWs.go, if_neg (by simpa using hw)]
      simp
    | cons v l =>
      rw [joinBlank, splitWs_go_word w _ _ hc, splitWs.go, if_pos (by decide), if_neg (by simpa using hw), ih (fun w hw => h w (by simp [hw]))]
      · simp
      · simp

theorem words_one {s : Str} {ws : List Str} (h : Words s ws) : ∀ w ∈ ws, OneWord w := by
  induction h with
  | none _ => simp
  | more _ hw hne _ _ ih =>
    intro v hv
    rcases List.mem_cons.1 hv with rfl | hv
    · exact ⟨hne, hw⟩
    · exact ih v hv

/-- **C122, the command line.**  The text of a table on the command line is, word by word, its numbers. -/
theorem C122_table_text (fmt : K → Str) (hf : ∀ x, OneWord (fmt x)) (l : List K) (hl : l ≠ []) :
    splitWs (tableText fmt (some l)) = l.map fmt := by
  have : tableText fmt (some l) = joinBlank (l.map fmt) := by
    cases l with
    | nil => exact absurd rfl hl
    | cons a l => rfl
  rw [this]
  refine split_joined _ fun w hw => ?_
  obtain ⟨x, _, rfl⟩ := List.mem_map.1 hw
  exact hf x

/-- **C122, the numbers.**  The program started by the optimiser or the ensemble gets the numbers of the table, all of them and in their
order, as they come out of printing and reading. -/
theorem C122_numbers (E : Env D S P T) (read : Str → Option D) (hr : Reader E.nums read) (fmt : K → Str) (hf : ∀ x, OneWord (fmt x))
    (g : K → D) (hg : ∀ x, read (fmt x) = some (g x)) (l : List K) (hl : l ≠ []) : E.nums (tableText fmt (some l)) = l.map g := by
  have e := C122_table_text fmt hf l hl
  rw [hr _ (by
    rw [e]
    intro w hw
    obtain ⟨x, _, rfl⟩ := List.mem_map.1 hw
    rw [hg]
    rfl), e, List.filterMap_map]
  have : read ∘ fmt = fun x => some (g x) := funext hg
  rw [this, List.filterMap_eq_map']

/-- **C124, the row.**  The probabilities in a row are the words that the program has printed, and a reader that splits at blanks gets
them back. -/
theorem C124_row (s : Str) : splitWs (joinBlank (splitWs s)) = splitWs s := split_joined _ (words_one (splitWs_words s))

/-! ### Cases -/

/-- Two numbers, printed with two digits. -/
example : splitWs (tableText (fun n : Nat => '0' :: '.' :: Nat.toDigits 10 (n % 90 + 10)) (some [25, 7])) = ["0.35".toList, "0.17".toList] := by
  decide

/-- A reader: every word is a number, its length. -/
example : Reader (fun s => (splitWs s).map List.length) (fun w => some w.length) ∧ OneWord "0.35".toList := by
  refine ⟨fun s _ => ?_, by simp, by decide⟩
  rw [List.filterMap_eq_map']

end JKD.Search
