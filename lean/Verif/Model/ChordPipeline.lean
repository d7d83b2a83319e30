import Verif.Model.Extract
import Verif.Model.Outputs
/-
The chord plug-in as chordextract runs it (nnls-chroma-1.1/chordextract.cpp:69-101): the model of the plug-in
(`Verif/Model/Chordino.lean`) put behind the interface `Plugin` of the reading loop.

Outside the model, as in Pipeline.lean: the two adapters of the Vamp host library (`adapt`) and the text of a time
(`stamp`).
-/

namespace JKD
namespace Pipeline

variable {D' S T : Type}

/-- The labels with their times that the plug-in gives for all samples of a recording.  Undefined behaviour inside the
plug-in, which `C88_plugin_runs` excludes, would be no feature here. -/
def chordsOf (G : Chroma.Fns D') (ext : Option (List Str × List D')) (fs : Int) (bs : Nat) (params : Chroma.Params D')
    (boostN harte : D') (adapt : List S → List (Int × List D')) (stamp : Int → Str) (junk : Nat → Nnls.St D') (n : Nat)
    (samples : List S) : List (Feature Str) :=
  match Chordino.runAll G ext fs bs params boostN harte (adapt samples) junk with
  | .ok (some f) => (Outputs.chordFeatures G f n).map (fun c => ⟨stamp c.timestamp, [c.label]⟩)
  | _ => []

/-- The plug-in behind the adapters (chordextract.cpp:69-101, 121-125, 132).  The state is the samples delivered so far.
All features come at the end (Chordino.cpp:260-268: `process` returns nothing); of a feature the label is kept. -/
def chordPlugin (G : Chroma.Fns D') (ext : Option (List Str × List D')) (fs : Int) (bs : Nat)
    (params : Chroma.Params D') (boostN harte : D') (adapt : List S → List (Int × List D')) (stamp : Int → Str)
    (junk : Nat → Nnls.St D') (time : Nat → T) : Plugin S Str (List S) T where
  blocksize := bs
  initialise := true
  outputs := Outputs.chordOutputs.map Outputs.Descriptor.identifier
  start := []
  process samples block _ := (samples ++ block, fun _ => [])
  remaining samples out := chordsOf G ext fs bs params boostN harte adapt stamp junk out samples
  frame2RealTime := time

end Pipeline
end JKD
