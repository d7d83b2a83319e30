import Verif.Lemmas.PhraseCheck
/-
How probable sequences of keys other than a given one are, for a given piece: a computation with natural numbers that the
kernel carries out.  Its meaning is proved in Props/PassingProps.lean.
-/

namespace JKD.Phrases

/-- The best values of sequences that differ from the given one and end in key `k`, `k + 1`, ..., after one more note; handed
to `cont`.  The given sequence has the value `r`, was in `K` and is now in `K'`. -/
def rivals (r K K' : Nat) (V : List Nat) : Nat → List (List Nat) → List Nat → (List Nat → Bool) → Bool
  | k, g :: gs, e :: es, cont =>
    force (colMax (if k = K' then 0 else r * g.getD K 0) V g * e) (fun x => rivals r K K' V (k + 1) gs es (fun l => cont (x :: l)))
  | _, _, _, cont => cont []

/-- All values are smaller by one part in 25. -/
def smaller (r : Nat) : List Nat → Bool
  | v :: vs => (25 * v).ble (24 * r) && smaller r vs
  | [] => true

/-- Follows a piece, given as its notes with their keys. -/
def clear (maj min : List Nat) : Nat → Nat → List Nat → List (Nat × Nat) → Bool
  | r, _, V, [] => smaller r V
  | r, K, V, (o, K') :: rest =>
    rivals r K K' V 0 goTable (play maj min o) (fun V' =>
      force (r * (goTable.getD K' []).getD K 0 * (play maj min o).getD K' 0) (fun r' => clear maj min r' K' V' rest))

/-- The whole piece. -/
def clearPiece (maj min : List Nat) : List (Nat × Nat) → Bool
  | [] => false
  | (o, K) :: rest => clear maj min ((play maj min o).getD K 0) K ((play maj min o).set K 0) rest

end JKD.Phrases
