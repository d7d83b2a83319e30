import Verif.Model.Main
import Verif.Model.NnlsChroma
/-
The chroma plug-in as the program runs it (src/chromagram.cc:145-172): the model of the plug-in
(`Verif/Model/NnlsChroma.lean`) put behind the interface `Plugin` of the reader of audio files.

Outside the model, as a parameter `adapt`: the two adapters of the Vamp host library, which are not in the
repository.  They cut the samples into overlapping frames, multiply them by a window and take the Fourier
transform; `adapt` maps all samples of a recording to the timestamps and Fourier values of the frames.
-/

namespace JKD
namespace Pipeline

variable {D D' S T : Type}

/-- The identifiers of the outputs, in their order (NNLSChroma.cpp:85-181). -/
def outputs : List String :=
  ["logfreqspec", "tunedlogfreqspec", "semitonespectrum", "chroma", "basschroma", "bothchroma"]

/-- The number of the output `chroma` (NNLSChroma.cpp:149). -/
def chromaNo : Nat := 3

/-- What the plug-in computes from all samples of a recording, for the output `chroma`, with blocks of size `bs` (the
plug-in asks for 16384, NNLSBase.cpp:106-110); the values are `float` and
widened to `double` (`widen`) by the reader.  Undefined behaviour inside the plug-in, which `C68_plugin_runs` excludes,
would be no feature here. -/
def chromaOf (G : Chroma.Fns D') (fs : Int) (bs : Nat) (params : Chroma.Params D')
    (adapt : List S → List (T × List D')) (stamp : T → Str) (widen : D' → D) (junk : Nat → Nnls.St D')
    (samples : List S) : List (Feature D) :=
  match Chroma.runAll G fs bs params (adapt samples) junk with
  | .ok (some f) => f.chroma.map (fun fr => ⟨stamp fr.1, fr.2.map widen⟩)
  | _ => []

/-- The plug-in behind the adapters (src/chromagram.cc:145-172, 196, 207; NNLSBase.cpp:106-119).  The state is the
samples delivered so far.  All features of the output `chroma` come at the end (NNLSChroma.cpp:208-217: `process`
returns only `logfreqspec`); the other outputs, which the program does not read, are left out. -/
def chromaPlugin (G : Chroma.Fns D') (fs : Int) (bs : Nat) (params : Chroma.Params D')
    (adapt : List S → List (T × List D')) (stamp : T → Str) (widen : D' → D) (junk : Nat → Nnls.St D')
    (time : Nat → T) : Plugin S D (List S) T where
  blocksize := bs
  initialise := true
  outputs := outputs
  start := []
  process samples block _ := (samples ++ block, fun _ => [])
  remaining samples out :=
    if out = chromaNo then chromaOf G fs bs params adapt stamp widen junk samples else []
  frame2RealTime := time

end Pipeline
end JKD
