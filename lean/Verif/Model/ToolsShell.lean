import Verif.Model.ToolsFiles
import Mathlib.Logic.Function.Basic
/-
Model of the shell tools that rename the files of a data set: /repo/tools/shorten_names.sh,
/repo/tools/experiment1/incremental_names.sh, /repo/tools/experiment1/trim_names.sh,
/repo/tools/giantsteps-key-dataset/trim_names.sh, /repo/tools/giantsteps-mtg-key-dataset/trim_names.sh,
/repo/tools/billboard/trim_names.sh, /repo/tools/cross-era/change_extensions.sh,
/repo/tools/billboard/trim_datasplits.sh, /repo/tools/billboard/trim_datasplits2.sh and
/repo/tools/arthur2018/trim_annotations.sh.

Simplifications.
* A folder is a function from names to contents; it holds plain files only.
* `$(ls)` is expanded once, before the loop starts; names have no white space and no `*`, `?`, `[`, and do not start with
  `-` or with a dot, so that the expansion gives the names themselves and `echo`, `cp`, `mv` and `rm` take them as names.
* A command that fails (`cp` and `rm` of a missing file, `cp` or `mv` of a file onto itself) changes nothing, and the
  script goes on: no script sets `-e`.
* All of these scripts but shorten_names.sh have DOS line ends.  They are read as by a shell that skips the carriage
  returns; any other shell refuses them.
* Names that `${f: 0:-4}` cuts have at least four characters.
-/

namespace JKD.Shell

/-- A folder of plain files. -/
abbrev Folder (C : Type) := Str → Option C

variable {C : Type}

/-- `cp a b` (used at tools/shorten_names.sh:16, 19): fails when `a` is missing or is `b` itself. -/
def cp (d : Folder C) (a b : Str) : Folder C :=
  if a = b then d else
    match d a with
    | none => d
    | some x => Function.update d b (some x)

/-- `rm a` (used at tools/shorten_names.sh:20-21): fails when `a` is missing. -/
def rm (d : Folder C) (a : Str) : Folder C := Function.update d a none

/-- `mv a b` (used at tools/billboard/trim_names.sh:6): fails when `a` is missing or is `b` itself. -/
def mv (d : Folder C) (a b : Str) : Folder C :=
  if a = b then d else
    match d a with
    | none => d
    | some x => Function.update (Function.update d b (some x)) a none

/-- `printf %04d i` (tools/shorten_names.sh:9, tools/experiment1/incremental_names.sh:7). -/
def pad4 (n : Nat) : Str :=
  let s := Nat.toDigits 10 n
  List.replicate (4 - s.length) '0' ++ s

/-- `${f##*.}` (tools/shorten_names.sh:11): what follows the last dot, or all of it. -/
def ext (f : Str) : Str := (f.reverse.takeWhile (· ≠ '.')).reverse

/-- `${f%.*}` (tools/shorten_names.sh:12): what precedes the last dot, or all of it. -/
def noext (f : Str) : Str :=
  if '.' ∈ f then (f.reverse.dropWhile (· ≠ '.')).tail.reverse else f

/-- tools/shorten_names.sh:7-23, the loop from number `i`, on the folders `features` and `annotations`. -/
def shorten {D : Type} (i : Nat) : List Str → Folder C × Folder D → Folder C × Folder D
  | [], s => s
  | f :: fs, (features, annotations) =>
    let id := pad4 i
    let oldfile := noext f ++ '.' :: ext f
    let newfile := id ++ '.' :: ext f
    let oldannotation := noext f ++ ".key".toList
    let newannotation := id ++ ".key".toList
    let features := cp features oldfile newfile
    let annotations := cp annotations oldannotation newannotation
    let features := rm features oldfile
    let annotations := rm annotations oldannotation
    shorten (i + 1) fs (features, annotations)

/-- The fields of a text between the characters `d`, as `cut` sees them. -/
def fields (d : Char) : Str → List Str
  | [] => [[]]
  | c :: s =>
    if c = d then [] :: fields d s
    else
      match fields d s with
      | [] => [[c]]
      | f :: fs => (c :: f) :: fs

/-- `cut -d d -f k` of one line (used at tools/billboard/trim_names.sh:5): a line without the delimiter is printed
whole. -/
def cut (d : Char) (k : Nat) (s : Str) : Str :=
  if d ∈ s then (fields d s).getD (k - 1) [] else s

/-- `for f in $(ls); do mv f (target f); done`: the common shape of the renaming scripts. -/
def mvAll (target : Str → Str) : List Str → Folder C → Folder C
  | [], d => d
  | f :: fs, d => mvAll target fs (mv d f (target f))

/-- The target at tools/giantsteps-key-dataset/trim_names.sh:5-6 and tools/giantsteps-mtg-key-dataset/trim_names.sh:5-6. -/
def giantstepsTarget (f : Str) : Str := cut '_' 1 f ++ ".csv".toList

/-- `cut -d '_' -f 2 | cut -d '-' -f 1` (tools/billboard/trim_names.sh:5, tools/billboard/trim_datasplits.sh:5 and
tools/billboard/trim_datasplits2.sh:5). -/
def billboardId (f : Str) : Str := cut '-' 1 (cut '_' 2 f)

/-- The target at tools/billboard/trim_names.sh:6. -/
def billboardTarget (f : Str) : Str := billboardId f ++ ".key".toList

/-- `${f: -3}` (tools/experiment1/trim_names.sh:6): the last three characters; nothing of a shorter text. -/
def last3 (f : Str) : Str := if f.length < 3 then [] else f.drop (f.length - 3)

/-- The target at tools/experiment1/trim_names.sh:5-6. -/
def experimentTarget (f : Str) : Str := cut '_' 1 f ++ '.' :: last3 f

/-- The target at tools/cross-era/change_extensions.sh:5-6. -/
def crossEraTarget (f : Str) : Str := f.take (f.length - 4) ++ ".key".toList

/-- tools/experiment1/incremental_names.sh:5-10, the loop from number `i`. -/
def incremental (i : Nat) : List Str → Folder C → Folder C
  | [], d => d
  | f :: fs, d => incremental (i + 1) fs (mv d f (pad4 i ++ "__".toList ++ f))

/-- tools/billboard/trim_datasplits.sh:3-7 and tools/billboard/trim_datasplits2.sh:3-7: the lines added to the new file, for
the words of the old one. -/
def trimSplit (words : List Str) : List Str := words.map (fun f => billboardId f ++ ".csv".toList)

/-- tools/arthur2018/trim_annotations.sh:3-7: for every listed file a key file, with the text after the last underscore up
to the first dot in it. -/
def trimAnnotations : List Str → Folder Str → Folder Str
  | [], d => d
  | f :: fs, d =>
    let annotation := cut '.' 1 (f.reverse.takeWhile (· ≠ '_')).reverse
    trimAnnotations fs (Function.update d (f.take (f.length - 4) ++ ".key".toList) (some (annotation ++ ['\n'])))

end JKD.Shell
