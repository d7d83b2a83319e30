import Verif.Spec.Phrases
import Verif.Lemmas.PhraseCheck
/-
The potentials work for every phrase and every allowed pair of profiles (a computation with natural numbers).
-/

namespace JKD.Phrases

open Spec

/-- The numbers of the two profiles. -/
def majNat (s : String) : List Nat := ((majTable.find? (fun p => p.1 == s)).map Prod.snd).getD []
def minNat (s : String) : List Nat := ((minTable.find? (fun p => p.1 == s)).map Prod.snd).getD []

/-- All phrases of the two modes pass. -/
def majorOk (M m : String) : Bool := majorPhrases.all (phraseOk (majNat M) (minNat m) 0 majorPot)
def minorOk (M m : String) : Bool := minorPhrases.all (phraseOk (majNat M) (minNat m) 12 minorPot)

set_option maxRecDepth 100000

theorem major_kk_kk : majorOk "krumhansl_kessler" "krumhansl_kessler" = true := by decide +kernel
theorem minor_kk_kk : minorOk "krumhansl_kessler" "krumhansl_kessler" = true := by decide +kernel
theorem major_ae_ae : majorOk "aarden_essen" "aarden_essen" = true := by decide +kernel
theorem minor_ae_ae : minorOk "aarden_essen" "aarden_essen" = true := by decide +kernel
theorem major_ae_bb : majorOk "aarden_essen" "bellman_budge" = true := by decide +kernel
theorem minor_ae_bb : minorOk "aarden_essen" "bellman_budge" = true := by decide +kernel
theorem major_ae_sapp : majorOk "aarden_essen" "sapp" = true := by decide +kernel
theorem minor_ae_sapp : minorOk "aarden_essen" "sapp" = true := by decide +kernel
theorem major_ae_temp : majorOk "aarden_essen" "temperley" = true := by decide +kernel
theorem minor_ae_temp : minorOk "aarden_essen" "temperley" = true := by decide +kernel
theorem major_bb_ae : majorOk "bellman_budge" "aarden_essen" = true := by decide +kernel
theorem minor_bb_ae : minorOk "bellman_budge" "aarden_essen" = true := by decide +kernel
theorem major_bb_bb : majorOk "bellman_budge" "bellman_budge" = true := by decide +kernel
theorem minor_bb_bb : minorOk "bellman_budge" "bellman_budge" = true := by decide +kernel
theorem major_bb_sapp : majorOk "bellman_budge" "sapp" = true := by decide +kernel
theorem minor_bb_sapp : minorOk "bellman_budge" "sapp" = true := by decide +kernel
theorem major_bb_temp : majorOk "bellman_budge" "temperley" = true := by decide +kernel
theorem minor_bb_temp : minorOk "bellman_budge" "temperley" = true := by decide +kernel
theorem major_sapp_ae : majorOk "sapp" "aarden_essen" = true := by decide +kernel
theorem minor_sapp_ae : minorOk "sapp" "aarden_essen" = true := by decide +kernel
theorem major_sapp_bb : majorOk "sapp" "bellman_budge" = true := by decide +kernel
theorem minor_sapp_bb : minorOk "sapp" "bellman_budge" = true := by decide +kernel
theorem major_sapp_sapp : majorOk "sapp" "sapp" = true := by decide +kernel
theorem minor_sapp_sapp : minorOk "sapp" "sapp" = true := by decide +kernel
theorem major_sapp_temp : majorOk "sapp" "temperley" = true := by decide +kernel
theorem minor_sapp_temp : minorOk "sapp" "temperley" = true := by decide +kernel
theorem major_temp_ae : majorOk "temperley" "aarden_essen" = true := by decide +kernel
theorem minor_temp_ae : minorOk "temperley" "aarden_essen" = true := by decide +kernel
theorem major_temp_bb : majorOk "temperley" "bellman_budge" = true := by decide +kernel
theorem minor_temp_bb : minorOk "temperley" "bellman_budge" = true := by decide +kernel
theorem major_temp_sapp : majorOk "temperley" "sapp" = true := by decide +kernel
theorem minor_temp_sapp : minorOk "temperley" "sapp" = true := by decide +kernel
theorem major_temp_temp : majorOk "temperley" "temperley" = true := by decide +kernel
theorem minor_temp_temp : minorOk "temperley" "temperley" = true := by decide +kernel

/-- Every allowed pair. -/
theorem all_ok (M m : String) (hM : M ∈ ["krumhansl_kessler", "aarden_essen", "bellman_budge", "sapp", "temperley"])
    (hm : m ∈ ["krumhansl_kessler", "aarden_essen", "bellman_budge", "sapp", "temperley"])
    (hp : M = "krumhansl_kessler" ↔ m = "krumhansl_kessler") : majorOk M m = true ∧ minorOk M m = true := by
  simp only [List.mem_cons, List.not_mem_nil, or_false] at hM hm
  rcases hM with rfl | rfl | rfl | rfl | rfl <;> rcases hm with rfl | rfl | rfl | rfl | rfl
  · exact ⟨major_kk_kk, minor_kk_kk⟩
  · exact absurd hp (by decide)
  · exact absurd hp (by decide)
  · exact absurd hp (by decide)
  · exact absurd hp (by decide)
  · exact absurd hp (by decide)
  · exact ⟨major_ae_ae, minor_ae_ae⟩
  · exact ⟨major_ae_bb, minor_ae_bb⟩
  · exact ⟨major_ae_sapp, minor_ae_sapp⟩
  · exact ⟨major_ae_temp, minor_ae_temp⟩
  · exact absurd hp (by decide)
  · exact ⟨major_bb_ae, minor_bb_ae⟩
  · exact ⟨major_bb_bb, minor_bb_bb⟩
  · exact ⟨major_bb_sapp, minor_bb_sapp⟩
  · exact ⟨major_bb_temp, minor_bb_temp⟩
  · exact absurd hp (by decide)
  · exact ⟨major_sapp_ae, minor_sapp_ae⟩
  · exact ⟨major_sapp_bb, minor_sapp_bb⟩
  · exact ⟨major_sapp_sapp, minor_sapp_sapp⟩
  · exact ⟨major_sapp_temp, minor_sapp_temp⟩
  · exact absurd hp (by decide)
  · exact ⟨major_temp_ae, minor_temp_ae⟩
  · exact ⟨major_temp_bb, minor_temp_bb⟩
  · exact ⟨major_temp_sapp, minor_temp_sapp⟩
  · exact ⟨major_temp_temp, minor_temp_temp⟩

end JKD.Phrases
