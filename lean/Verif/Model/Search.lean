import Verif.Model.PyOpt
import Verif.Model.PyLabels
import Verif.Model.Script
/-
Model of how the optimiser judges a pair of tables: /repo/optimizer/evaluator.py runs the C++ program in evaluation
mode on every file of a list (/repo/optimizer/evaluator.py:9-15, 33-65).  The rest of the optimiser is in PyOpt.lean.

Simplifications: as in PyOpt.lean, Python floats are exact; as in Script.lean, an uncaught C++ exception leaves standard
output empty and the output of undefined behaviour is a parameter (`crash`).  `toFloat` is Python's `float` of the bytes
written, `none` for a `ValueError`.
-/

namespace JKD.Search

open Py Script

variable {D S P T K : Type}

/-- The files named in the list (evaluator.py:10-14). -/
def datasetFiles (text : Str) : List Str := (readlines text).map strip

/-- The command line of a run (evaluator.py:48-56), as the option parser delivers it. -/
def searchOptions (kp kt file : Str) : Options :=
  { Options.default file with customkeyprofiles := some kp, customkeytransitions := some kt, evaluate := true }

/-- The score of a run (evaluator.py:45-62). -/
def runScore [Zero K] (E : Env D S P T) (crash : Str) (fmt : K → Str) (toFloat : Str → Option K) (file : Str)
    (kp kt : Option (List K)) : K :=
  (toFloat (stdoutOf crash (Main.main E (.ok (searchOptions (tableText fmt kp) (tableText fmt kt) file))))).getD 0

/-- The optimiser's view of the program: `Evaluator(dataset)` for a list with the content `text`. -/
def programBench [Zero K] (E : Env D S P T) (crash : Str) (fmt : K → Str) (toFloat : Str → Option K) (text : Str) :
    Opt.Bench K where
  File := Str
  files := datasetFiles text
  score := runScore E crash fmt toFloat

/-! ### tools/run_all_evaluations.sh -/

/-- `grep "<folder>.*\.<ext>"` on a line: the first text, and somewhere behind it a dot and the second. -/
def grepDataset (folder ext : Str) (line : Str) : Bool :=
  line.tails.any (fun t => folder.isPrefixOf t && (t.drop folder.length).tails.any (fun u => ('.' :: ext).isPrefixOf u))

/-- The first thirteen lists (tools/run_all_evaluations.sh:3-51): text and extension. -/
def evaluations : List (String × String) :=
  [("01-a-maps_chroma_inplace", "csv"), ("02-a-maps_symbolic_inplace", "mid"), ("03-albrecht_chroma_inplace", "csv"),
   ("04-albrecht_symbolic_inplace", "mid"), ("05-arthur2018-recordings_chroma", "csv"),
   ("06-arthur2018-synth-shortname_chroma_inplace", "csv"), ("07-arthur2018-synth-shortname_symbolic_inplace", "mid"),
   ("08-billboard_chroma_inplace", "csv"), ("09-cross-era-shortname_chroma_inplace", "csv"),
   ("10-giantsteps-key_chroma_inplace", "csv"), ("11-giantsteps-mtg-key_chroma_inplace", "csv"),
   ("12-napoles2018_chroma", "csv"), ("13-napoles2018_symbolic", "mid")]

/-- `grep "^\.\/[0-9][0-9]-.*[\.mid|\.csv]$"` on a line (tools/run_all_evaluations.sh:55).  The last bracket is a set
of characters. -/
def grepAll : Str → Bool
  | '.' :: '/' :: a :: b :: '-' :: rest =>
    a.isDigit && b.isDigit && (match rest.getLast? with
      | some c => decide (c ∈ ['\\', '.', 'm', 'i', 'd', '|', 'c', 's', 'v'])
      | none => false)
  | _ => false

/-! ### tools/batch_processing.sh and tools/all_batches.sh -/

/-- The profiles and transitions of tools/all_batches.sh:2-8. -/
def batchProfiles : List String := ["krumhansl_kessler", "aarden_essen", "sapp", "bellman_budge", "temperley"]

def batchTransitions : List String := ["exponential2", "exponential10"]

/-- The command line of a run (tools/all_batches.sh:17, tools/batch_processing.sh:5), as the option parser delivers it. -/
def batchOptions (transition major minor : String) (file : Str) : Options :=
  { Options.default file with
    inputformat := some "csv".toList, keytransition := transition, majorprofile := major, minorprofile := minor
    evaluate := true }

/-- What tools/batch_processing.sh:3-6 prints for the files found: the name, a comma, and the words the program printed. -/
def batchTable (E : Env D S P T) (crash : Str) (transition major minor : String) (files : List Str) : Str :=
  files.flatMap (fun f =>
    f ++ ',' :: joinBlank (splitWs (stdoutOf crash (Main.main E (.ok (batchOptions transition major minor f))))) ++ ['\n'])

end JKD.Search
