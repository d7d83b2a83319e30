import Verif.Cpp
import Verif.Model.NnlsChroma
import Mathlib.Data.Rat.Floor
/-
Model of the parameters of the three plug-ins (nnls-chroma-1.1/NNLSBase.cpp:135-322, Chordino.cpp:67-160,
Tuning.cpp:71-95): what they declare, and how values are stored and read back.

A value is a finite `float`, hence a rational number; nothing but conversions happens to it.  `lit` is the conversion
of a decimal literal of the source to `float`.  A conversion to `int` of a value outside the range of `int` is
undefined behaviour.  Names, descriptions and units of the descriptors are left out.
-/

namespace JKD
namespace PluginParams

/-- A parameter descriptor: identifier, range, default and, if quantized, the step. -/
structure Descriptor where
  identifier : String
  minValue : ℚ
  maxValue : ℚ
  defaultValue : ℚ
  quantizeStep : Option ℚ

/-- The descriptors of the chroma plug-in (NNLSBase.cpp:135-219). -/
def baseDescriptors (lit : ℚ → ℚ) : List Descriptor :=
  [⟨"useNNLS", lit 0, lit 1, lit 1, some (lit 1)⟩,
   ⟨"rollon", lit 0, lit 5, lit 0, some (lit (1 / 2))⟩,
   ⟨"tuningmode", lit 0, lit 1, lit 0, some (lit 1)⟩,
   ⟨"whitening", lit 0, lit 1, lit 1, none⟩,
   ⟨"s", lit (1 / 2), lit (9 / 10), lit (7 / 10), none⟩,
   ⟨"chromanormalize", lit 0, lit 3, lit 0, some (lit 1)⟩]

/-- The descriptors of the chord plug-in (Chordino.cpp:67-160). -/
def chordDescriptors (lit : ℚ → ℚ) : List Descriptor :=
  [⟨"useNNLS", lit 0, lit 1, lit 1, some (lit 1)⟩,
   ⟨"rollon", lit 0, lit 5, lit 0, some (lit (1 / 2))⟩,
   ⟨"tuningmode", lit 0, lit 1, lit 0, some (lit 1)⟩,
   ⟨"whitening", lit 0, lit 1, lit 1, none⟩,
   ⟨"s", lit (1 / 2), lit (9 / 10), lit (7 / 10), none⟩,
   ⟨"boostn", lit 0, lit 1, lit (1 / 10), none⟩,
   ⟨"usehartesyntax", lit 0, lit 1, lit 0, some (lit 1)⟩]

/-- The descriptors of the tuning plug-in (Tuning.cpp:71-95). -/
def tuningDescriptors (lit : ℚ → ℚ) : List Descriptor :=
  [⟨"rollon", lit 0, lit 5, lit 0, some (lit (1 / 2))⟩]

/-- The members that hold parameters (NNLSBase.h:65-78). -/
structure Values where
  base : Chroma.Params ℚ
  preset : ℚ
  boostN : ℚ
  harteSyntax : ℚ

/-- Their values after construction (NNLSBase.cpp:39-55). -/
def Values.new (lit : ℚ → ℚ) : Values where
  base := { useNNLS := lit 1, rollon := lit 0, tuneLocal := decide (lit 0 ≠ 0), whitening := lit 1, s := lit (7 / 10),
            doNormalizeChroma := 0 }
  preset := lit 0
  boostN := lit (1 / 10)
  harteSyntax := 0

/-- `(int) value`: the fraction is dropped. -/
def toInt (v : ℚ) : Res Int :=
  let k := if v < 0 then ⌈v⌉ else ⌊v⌋
  if -2147483648 ≤ k ∧ k ≤ 2147483647 then .ok k else .ub

/-- `NNLSBase::getParameter` (NNLSBase.cpp:222-265). -/
def getParameter (lit : ℚ → ℚ) (p : Values) (identifier : String) : ℚ :=
  if identifier = "useNNLS" then p.base.useNNLS
  else if identifier = "whitening" then p.base.whitening
  else if identifier = "s" then p.base.s
  else if identifier = "rollon" then p.base.rollon
  else if identifier = "boostn" then p.boostN
  else if identifier = "tuningmode" then (if p.base.tuneLocal then lit 1 else lit 0)
  else if identifier = "preset" then p.preset
  else if identifier = "chromanormalize" then p.base.doNormalizeChroma
  else if identifier = "usehartesyntax" then p.harteSyntax
  else 0

/-- `NNLSBase::setParameter` (NNLSBase.cpp:267-322): a sequence of independent `if`s. -/
def setParameter (p : Values) (identifier : String) (value : ℚ) : Res Values := do
  let p ← if identifier = "useNNLS" then do
      let k ← toInt value
      pure { p with base := { p.base with useNNLS := (k : ℚ) } }
    else pure p
  let p := if identifier = "whitening" then { p with base := { p.base with whitening := value } } else p
  let p := if identifier = "s" then { p with base := { p.base with s := value } } else p
  let p := if identifier = "boostn" then { p with boostN := value } else p
  let p := if identifier = "tuningmode" then { p with base := { p.base with tuneLocal := decide (value ≠ 0) } } else p
  let p := if identifier = "chromanormalize" then { p with base := { p.base with doNormalizeChroma := value } } else p
  let p := if identifier = "rollon" then { p with base := { p.base with rollon := value } } else p
  let p := if identifier = "usehartesyntax" then { p with harteSyntax := value } else p
  pure p

/-- A host setting several parameters one after the other. -/
def setAll (p : Values) (l : List (String × ℚ)) : Res Values := forM l p (fun p x => setParameter p x.1 x.2)

end PluginParams
end JKD
