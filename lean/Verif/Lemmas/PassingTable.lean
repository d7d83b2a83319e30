import Verif.Lemmas.Decided
import Verif.Lemmas.PhraseTable
/-
Pieces in which a single note gets a key of its own.
-/

namespace JKD.Phrases

set_option maxRecDepth 100000

/-- Four C major triads, a B flat, four C major triads. -/
def flatSeventh : List (Nat × Nat) :=
  [(0, 0), (4, 0), (7, 0), (0, 0), (4, 0), (7, 0), (0, 0), (4, 0), (7, 0), (0, 0), (4, 0), (7, 0), (10, 5),
   (7, 0), (4, 0), (0, 0), (7, 0), (4, 0), (0, 0), (7, 0), (4, 0), (0, 0), (7, 0), (4, 0), (0, 0)]

/-- Three C minor triads, an E, three C minor triads. -/
def majorThird : List (Nat × Nat) :=
  [(0, 12), (7, 12), (3, 12), (0, 12), (7, 12), (3, 12), (0, 12), (7, 12), (3, 12), (4, 0),
   (3, 12), (7, 12), (0, 12), (3, 12), (7, 12), (0, 12), (3, 12), (7, 12), (0, 12)]

/-- Three C major triads, an E flat, three C major triads. -/
def minorThird : List (Nat × Nat) :=
  [(0, 0), (4, 0), (7, 0), (0, 0), (4, 0), (7, 0), (0, 0), (4, 0), (7, 0), (3, 12),
   (7, 0), (4, 0), (0, 0), (7, 0), (4, 0), (0, 0), (7, 0), (4, 0), (0, 0)]

theorem flatSeventh_kk : clearPiece (majNat "sapp") (minNat "krumhansl_kessler") flatSeventh = true := by decide +kernel
theorem flatSeventh_aarden : clearPiece (majNat "sapp") (minNat "aarden_essen") flatSeventh = true := by decide +kernel
theorem flatSeventh_bellman : clearPiece (majNat "sapp") (minNat "bellman_budge") flatSeventh = true := by decide +kernel
theorem flatSeventh_sapp : clearPiece (majNat "sapp") (minNat "sapp") flatSeventh = true := by decide +kernel
theorem flatSeventh_temperley : clearPiece (majNat "sapp") (minNat "temperley") flatSeventh = true := by decide +kernel
theorem majorThird_kk : clearPiece (majNat "krumhansl_kessler") (minNat "sapp") majorThird = true := by decide +kernel
theorem majorThird_aarden : clearPiece (majNat "aarden_essen") (minNat "sapp") majorThird = true := by decide +kernel
theorem majorThird_bellman : clearPiece (majNat "bellman_budge") (minNat "sapp") majorThird = true := by decide +kernel
theorem majorThird_temperley : clearPiece (majNat "temperley") (minNat "sapp") majorThird = true := by decide +kernel
theorem minorThird_aarden : clearPiece (majNat "aarden_essen") (minNat "aarden_essen") minorThird = true := by decide +kernel

end JKD.Phrases
