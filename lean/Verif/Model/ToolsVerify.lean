import Verif.Model.PyFiles
/-
Model of /repo/tools/verify_dataset_splits.sh and of the reading of the splits in /repo/dataset_creator.py:132-143.

Simplifications.
* As for the other tools (see ToolsShell.lean) the script is read by a shell that skips its carriage returns, and names have no line break.
* What the script prints is the list of the four numbers; `wc` writes each of them in decimal on a line of its own.
* The split files have no carriage returns.
-/

namespace JKD.Tools

open Py

/-- `wc -l` (tools/verify_dataset_splits.sh:3): the number of line feeds. -/
def wcLines (text : Str) : Nat := text.count '\n'

/-- `ls folder` into a pipe (tools/verify_dataset_splits.sh:3): one name per line, not those that begin with a dot. -/
def lsText (listing : List Str) : Str := (listing.filter (fun f => f.head? ≠ some '.')).flatMap (fun f => f ++ ['\n'])

/-- `cat file` (tools/verify_dataset_splits.sh:3): nothing on the standard output when there is no such file. -/
def catText (file : Option Str) : Str := file.getD []

/-- The numbers that tools/verify_dataset_splits.sh:3 prints: files with features, annotations, lines for training, lines for testing. -/
def verifySplits (features annotations : List Str) (training test : Option Str) : List Nat :=
  [wcLines (lsText features), wcLines (lsText annotations), wcLines (catText training), wcLines (catText test)]

/-- What the data-set program reads from a split file (dataset_creator.py:140-143). -/
def readSplit (text : Str) : List Str := (readlines text).map strip

end JKD.Tools
