import Verif.Model.ToolsCopy
/-
Model of the shell tools that convert and collect the pieces of a data set: /repo/tools/albrecht/krn2midi.sh,
/repo/tools/arthur2018/symbolic2audio.sh and /repo/tools/maps/get_mus_audios.sh.

Simplifications, besides those of ToolsShell.lean and ToolsCopy.lean.
* `hum2mid` and MuseScore are a function from the bytes of the input to the bytes of the output, or to none when the program refuses
  the input and writes nothing.
* For get_mus_audios.sh a folder is a function from paths, as `find .` prints them, to contents; the folder `features` exists.
-/

namespace JKD.Shell

variable {C : Type}

/-- `for f in $(ls); do program f -o "${f: 0:-4}.ext"; done`: tools/albrecht/krn2midi.sh:3-8 with `ext` = `.mid` and
tools/arthur2018/symbolic2audio.sh:5-8 with `ext` = `.wav`. -/
def convertAll (program : C → Option C) (ext : Str) : List Str → Folder C → Folder C
  | [], d => d
  | f :: fs, d =>
    convertAll program ext fs (match (d f).bind program with
      | none => d
      | some y => Function.update d (f.take (f.length - 4) ++ ext) (some y))

/-- tools/albrecht/krn2midi.sh:3-8. -/
def krn2midi (hum2mid : C → Option C) : List Str → Folder C → Folder C := convertAll hum2mid ".mid".toList

/-- tools/arthur2018/symbolic2audio.sh:5-8. -/
def symbolic2audio (musescore : C → Option C) : List Str → Folder C → Folder C := convertAll musescore ".wav".toList

/-- `grep "MUS"` (tools/maps/get_mus_audios.sh:5). -/
def grepMus : Str → Bool
  | 'M' :: 'U' :: 'S' :: _ => true
  | _ :: s => grepMus s
  | [] => false

/-- The name that `cp f features/` gives to the copy: what follows the last slash (tools/maps/get_mus_audios.sh:7). -/
def basename (f : Str) : Str := (f.reverse.takeWhile (· ≠ '/')).reverse

/-- tools/maps/get_mus_audios.sh:5-8, for the paths that `find .` prints. -/
def getMusAudios (found : List Str) (d : Folder C) : Folder C :=
  ((found.filter grepMus).filter grepWav).foldl (fun d f => cp d f ("./features/".toList ++ basename f)) d

end JKD.Shell
