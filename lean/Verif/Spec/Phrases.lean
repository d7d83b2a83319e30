import Verif.Spec.Music
/-
Phrases from music lessons, in semitones above the tonic, and pieces made of them.
-/

namespace JKD.Spec

/-- Scale up and down, broken triad, arpeggio, Alberti bass, cadence I-IV-V-I, the same with a seventh, circle of fifths
I-VI-II-V-I, scale in thirds, and the song "Frère Jacques". -/
def majorPhrases : List (List Nat) :=
  [[0, 2, 4, 5, 7, 9, 11, 0], [0, 11, 9, 7, 5, 4, 2, 0], [0, 4, 7, 0], [0, 4, 7, 0, 7, 4, 0], [0, 7, 4, 7],
   [0, 4, 7, 5, 9, 0, 7, 11, 2, 0, 4, 7], [0, 4, 7, 0, 5, 9, 0, 5, 7, 11, 2, 5, 0, 4, 7, 0],
   [0, 4, 7, 9, 0, 4, 2, 5, 9, 7, 11, 2, 0, 4, 7], [0, 4, 2, 5, 4, 7, 5, 9, 7, 11, 0],
   [0, 2, 4, 0, 0, 2, 4, 0, 4, 5, 7, 4, 5, 7, 7, 9, 7, 5, 4, 0, 7, 9, 7, 5, 4, 0, 0, 7, 0, 0, 7, 0]]

/-- Harmonic minor scale up and down, broken triad, arpeggio, Alberti bass, cadence i-iv-V-i, the same with a seventh, i-V-i
and i-iv-i. -/
def minorPhrases : List (List Nat) :=
  [[0, 2, 3, 5, 7, 8, 11, 0], [0, 11, 8, 7, 5, 3, 2, 0], [0, 3, 7, 0], [0, 3, 7, 0, 7, 3, 0], [0, 7, 3, 7],
   [0, 3, 7, 5, 8, 0, 7, 11, 2, 0, 3, 7], [0, 3, 7, 0, 5, 8, 0, 5, 7, 11, 2, 5, 0, 3, 7, 0],
   [0, 3, 7, 7, 11, 2, 0, 3, 7], [0, 3, 7, 5, 8, 0, 0, 3, 7]]

/-- The pitch classes of phrases played in the key `K`, one after the other. -/
def played (K : Int) (ps : List (List Nat)) : List Int := ps.flatten.map (fun x : Nat => (tonic K + (x : Int)) % 12)

/-- A piece in the key `K` that consists of the phrases, in any order and number. -/
def Textbook (K : Int) (os : List Int) : Prop :=
  ∃ ps, ps ≠ [] ∧ (∀ p ∈ ps, p ∈ if isMajor K then majorPhrases else minorPhrases) ∧ os = played K ps

end JKD.Spec
