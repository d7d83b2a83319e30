import Verif.Cpp
/-
Double-precision arithmetic as an interface.  The model of the program is written against this
record and is therefore the same for exact arithmetic, for IEEE-754 arithmetic and for any other
interpretation; which laws a theorem needs is stated in the theorem.
-/

namespace JKD

/-- The operations on `double` that the modelled code performs. -/
structure FPU (D : Type) where
  /-- the `double` nearest to a rational constant written in the source (a decimal literal, or a
  quotient of two exactly representable literals, both correctly rounded in IEEE-754) -/
  ofRat : Rat → D
  /-- `a + b` -/
  add : D → D → D
  /-- `a * b` -/
  mul : D → D → D
  /-- `a < b` -/
  lt : D → D → Bool
  /-- `a == b` -/
  eq : D → D → Bool
  /-- `std::log10(a)` -/
  log10 : D → D
  /-- `std::floor(a)` -/
  floor : D → D
  /-- `static_cast<int>(a)`; `none` when the truncated value is not an `int` (undefined behaviour) -/
  toInt : D → Option Int
  /-- `-std::numeric_limits<double>::infinity()` -/
  negInf : D

/-- `0.0`, also the value-initialised `double`. -/
def FPU.zero {D : Type} (F : FPU D) : D := F.ofRat 0

end JKD
