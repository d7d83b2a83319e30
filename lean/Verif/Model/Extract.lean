import Verif.Model.Chromagram
/-
Model of the two command-line extractors shipped with the plug-ins, nnls-chroma-1.1/chromaextract.cpp and
nnls-chroma-1.1/chordextract.cpp.  Their reading loop and mix-down are, statement for statement, those of
src/chromagram.cc:138-210, so `Chromagram.readLoop` is used for all three.

Outside the model: libsndfile, the Vamp host adapters and the plug-in (records `AudioFile` and `Plugin`), the
text of a number (`sh`), and the messages on standard error.
-/

namespace JKD
namespace Extract

open Chromagram

variable {D S P T : Type}

/-- What an extractor leaves: standard output and exit status. -/
structure Text where
  stdout : Str
  code : Int
  deriving DecidableEq, Repr

/-- The output number of an identifier, the last match (chromaextract.cpp:89-95, chordextract.cpp:89-95). -/
def outputNo (name : String) (outputs : List String) : Option Nat :=
  (outputs.zipIdx).foldl (fun acc p => if p.1 = name then some p.2 else acc) none

/-- `main` of an extractor (chromaextract.cpp:50-153, chordextract.cpp:50-148): `args` are the arguments after
the program name, `openFile` is `sf_open`, `name` the identifier of the output, `line` what is printed for one
feature.  `(int)features.size()` does not wrap for lists that fit in memory. -/
def run (M : MixOps S) (pl : Plugin S D P T) (openFile : Str → Option (AudioFile S)) (name : String)
    (line : Feature D → Str) (args : List Str) : Res Text :=
  match args with
  | [infile] =>
    match openFile infile with
    | none => .ok { stdout := [], code := 1 }
    | some f =>
      if !pl.initialise then .ok { stdout := [], code := 1 }
      else
        match outputNo name pl.outputs with
        | none => .ok { stdout := [], code := 1 }
        | some out => do
          let (p, feats) ← readLoop M pl out f (f.data.length + 1) f.data 0 pl.start []
          return { stdout := (feats ++ pl.remaining p out).flatMap line, code := 0 }
  | _ => .ok { stdout := [], code := 2 }

/-- The line of one chroma feature (chromaextract.cpp:140-146): the timestamp and every value, each followed
by a comma. -/
def chromaLine (sh : D → Str) (ft : Feature D) : Str :=
  ft.timestamp ++ [','] ++ ft.values.flatMap (fun x => sh x ++ [',']) ++ ['\n']

/-- chromaextract.cpp:50-153. -/
def chromaExtract (M : MixOps S) (sh : D → Str) (pl : Plugin S D P T)
    (openFile : Str → Option (AudioFile S)) (args : List Str) : Res Text :=
  run M pl openFile "chroma" (chromaLine sh) args

/-- The line of one chord feature (chordextract.cpp:140-141).  The label of the feature is carried as its only
value. -/
def chordLine (ft : Feature Str) : Str :=
  ft.timestamp ++ [':', ' '] ++ ft.values.headD [] ++ ['\n']

/-- chordextract.cpp:50-148. -/
def chordExtract (M : MixOps S) (pl : Plugin S Str P T) (openFile : Str → Option (AudioFile S))
    (args : List Str) : Res Text :=
  run M pl openFile "simplechord" chordLine args

end Extract
end JKD
