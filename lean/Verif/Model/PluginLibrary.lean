import Verif.Model.Outputs
import Verif.Model.Tuning
import Verif.Model.PluginParams
/-
The library of the three plug-ins: which plug-in the host gets for which number, and what each of them declares.

Simplifications: as in Outputs.lean and PluginParams.lean.  An adapter (vamp-sdk/PluginAdapter.h) is the plug-in it is
made for.
-/

namespace JKD.Library

variable {D T : Type}

/-- The classes of plug-ins (plugins.cpp:23-25). -/
inductive Plugin where
  | chroma
  | chordino
  | tuning
  deriving DecidableEq

/-- `vampGetPluginDescriptor` (plugins.cpp:28-46). -/
def descriptor (version index : Nat) : Option Plugin :=
  if version < 1 then none
  else match index with
    | 0 => some .chroma
    | 1 => some .chordino
    | 2 => some .tuning
    | _ => none

/-- `getIdentifier` (NNLSChroma.cpp:42-47, Chordino.cpp:46-51, Tuning.cpp:49-54). -/
def Plugin.identifier : Plugin → String
  | .chroma => "nnls-chroma"
  | .chordino => "chordino"
  | .tuning => "tuning"

/-- `getParameterDescriptors` (NNLSBase.cpp:135-219, Chordino.cpp:67-160, Tuning.cpp:71-91). -/
def Plugin.parameters (lit : ℚ → ℚ) : Plugin → List PluginParams.Descriptor
  | .chroma => PluginParams.baseDescriptors lit
  | .chordino => PluginParams.chordDescriptors lit
  | .tuning => PluginParams.tuningDescriptors lit

/-- `Tuning::getOutputDescriptors` (Tuning.cpp:93-137). -/
def tuningOutputs : List Outputs.Descriptor := [
  { identifier := "tuning", binCount := 1, extents := some (42747 / 100, 45289 / 100), fixedRate := false,
    hasDuration := true },
  { identifier := "localtuning", binCount := 1, extents := some (42747 / 100, 45289 / 100), fixedRate := true }]

/-- `getOutputDescriptors` (NNLSChroma.cpp:63-183, Chordino.cpp:162-237, Tuning.cpp:93-137). -/
def Plugin.outputs : Plugin → List Outputs.Descriptor
  | .chroma => Outputs.chromaOutputs
  | .chordino => Outputs.chordOutputs
  | .tuning => tuningOutputs

/-- The features of a run of the tuning plug-in by the number of the output (Tuning.cpp:115, 132 for the numbers,
165-175, 205-213 for the features): times and values. -/
def tuningFeatures (out : List (T × D) × List (Chroma.Pitch D T)) : Nat → List (T × List D)
  | 0 => out.2.map (fun f => (f.timestamp, [f.value]))
  | 1 => out.1.map (fun f => (f.1, [f.2]))
  | _ => []

end JKD.Library
