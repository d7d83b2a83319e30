import Verif.Model.FPU
/-
The facts about `double` arithmetic that optimality of the Viterbi recursion rests on.  They hold for
*all* IEEE-754 doubles, including NaN and the infinities (`Num` is "not a NaN"); they are proved, not
assumed, for the instances in `Verif/FP`.
-/

namespace JKD

/-- Laws of `<` and `+` with respect to minus infinity. -/
structure FPLaws {D : Type} (F : FPU D) (Num : D → Prop) : Prop where
  /-- comparisons with a NaN are false -/
  lt_num : ∀ a b, F.lt a b = true → Num a ∧ Num b
  lt_irrefl : ∀ a, F.lt a a = false
  lt_trans : ∀ a b c, F.lt a b = true → F.lt b c = true → F.lt a c = true
  /-- numbers are weakly ordered -/
  lt_cotrans : ∀ a b c, Num b → F.lt a c = true → F.lt a b = true ∨ F.lt b c = true
  num_negInf : Num F.negInf
  not_lt_negInf : ∀ a, F.lt a F.negInf = false
  /-- minus infinity is the only number not above minus infinity -/
  eq_negInf : ∀ a, Num a → F.lt F.negInf a = false → a = F.negInf
  /-- a sum above minus infinity has its left term above minus infinity -/
  add_negInf : ∀ a w, F.lt F.negInf (F.add a w) = true → F.lt F.negInf a = true
  /-- addition is monotone in its left argument -/
  add_mono : ∀ a a' w, Num a' → F.lt a' a = false → F.lt F.negInf (F.add a w) = true →
    Num (F.add a' w) ∧ F.lt (F.add a' w) (F.add a w) = false

/-- A factor zero makes a term of the score unusable: `a + log10(0·x)` is minus infinity or NaN, never
above minus infinity, whatever `a` and `x` are. -/
def ZeroKills {D : Type} (F : FPU D) : Prop :=
  ∀ a x, F.lt F.negInf (F.add a (F.log10 (F.mul F.zero x))) = false

end JKD
