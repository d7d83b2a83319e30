import Verif.Model.ToolsShell
/-
Model of the shell tools that collect and remove files of a data set: /repo/tools/billboard/copy_bothchroma.sh,
/repo/tools/experiment1/remove_duplicates.sh, /repo/tools/arthur2018/rename_chromagrams.sh (the same as
/repo/tools/napoles2018/rename_chromagrams.sh) and /repo/tools/batch_chromagram.sh.

Simplifications, besides those of ToolsShell.lean.
* A disk is a folder whose entries are plain files or folders of plain files; that is all the depth the scripts use.
* `chromaextract` is a function from the bytes of a recording to the bytes it prints; what it prints when it fails is also a
  value of that function, because the shell creates the output file in any case.
* `find` lists every recording once, in some order, and does not see the csv files that the loop adds.
-/

namespace JKD.Shell

variable {C : Type}

/-- What a name on the disk stands for. -/
inductive Entry (C : Type) where
  | file (c : C)
  | dir (d : Folder C)

/-- A folder with folders in it. -/
abbrev Disk (C : Type) := Str → Option (Entry C)

/-- `cp f/bothchroma.csv f.csv` (tools/billboard/copy_bothchroma.sh:7-8): fails when there is no such file; goes into `f.csv` if that
is a folder. -/
def cpChroma (d : Disk C) (f : Str) : Disk C :=
  match d f with
  | some (.dir g) =>
    match g "bothchroma.csv".toList with
    | none => d
    | some x =>
      match d (f ++ ".csv".toList) with
      | some (.dir h) =>
        Function.update d (f ++ ".csv".toList) (some (.dir (Function.update h "bothchroma.csv".toList (some x))))
      | _ => Function.update d (f ++ ".csv".toList) (some (.file x))
  | _ => d

/-- tools/billboard/copy_bothchroma.sh:5-10, for the names of `$(ls)`: `rm -R` follows in any case. -/
def copyChroma : List Str → Disk C → Disk C
  | [], d => d
  | f :: fs, d => copyChroma fs (Function.update (cpChroma d f) f none)

/-- The folders of tools/experiment1/remove_duplicates.sh. -/
structure Experiment (C : Type) where
  symbolicFeatures : Folder C
  chromaFeatures : Folder C
  symbolicAnnotations : Folder C
  chromaAnnotations : Folder C

/-- tools/experiment1/remove_duplicates.sh:3-9, for the words of removed_duplicates.txt. -/
def removeDuplicates : List Str → Experiment C → Experiment C
  | [], e => e
  | f :: fs, e => removeDuplicates fs
    { symbolicFeatures := rm e.symbolicFeatures (f ++ ".mid".toList)
      chromaFeatures := rm e.chromaFeatures (f ++ ".csv".toList)
      symbolicAnnotations := rm e.symbolicAnnotations (f ++ ".key".toList)
      chromaAnnotations := rm e.chromaAnnotations (f ++ ".key".toList) }

/-- `grep ".wav"` (tools/arthur2018/rename_chromagrams.sh:3): the dot stands for any character. -/
def grepWav : Str → Bool
  | _ :: 'w' :: 'a' :: 'v' :: _ => true
  | _ :: s => grepWav s
  | [] => false

/-- The suffix of the output of sonic-annotator (tools/arthur2018/rename_chromagrams.sh:6-7). -/
def vampSuffix : Str := "_vamp_nnls-chroma_nnls-chroma_chroma".toList

/-- tools/arthur2018/rename_chromagrams.sh:3-8, for the names of `$(ls)`. -/
def renameChromagrams : List Str → Folder C → Folder C
  | [], d => d
  | f :: fs, d =>
    renameChromagrams fs (if grepWav f then
      mv d (f.take (f.length - 4) ++ vampSuffix ++ ".csv".toList) (f.take (f.length - 4) ++ ".csv".toList) else d)

/-- tools/batch_chromagram.sh:3-6, for the recordings that `find` lists. -/
def batchChromagram (extract : C → C) : List Str → Folder C → Folder C
  | [], d => d
  | f :: fs, d =>
    batchChromagram extract fs (match d f with
      | none => d
      | some x => Function.update d (f.take (f.length - 4) ++ ".csv".toList) (some (extract x)))

end JKD.Shell
