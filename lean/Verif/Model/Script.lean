import Verif.Model.Main
import Verif.Model.PyWhole
/-
Model of the full algorithm as a user starts it: the shell script /repo/justkeydding, which runs the C++ program once
to write a chromagram and then the ensemble script /repo/justkeydding_ensemble.py, which runs the C++ program thirty
times on that chromagram (/repo/optimizer/ensembler.py:51-73).

Simplifications: the working directory is /vagrant, so that `bin/justkeydding` and the classifier are found and the
name of the chromagram is the same for all programs; names have no blanks (the script does not quote them); an
uncaught C++ exception leaves standard output empty, as nothing is printed before; for undefined behaviour the text on
standard output is a parameter (`crash`).
-/

namespace JKD.Script

open Py

variable {D S P T K : Type}

/-- What a process has written to standard output when it is over. -/
def stdoutOf (crash : Str) : Res Out → Str
  | .ok out => out.stdout
  | .throw _ => []
  | .ub => crash

/-- `' '.join(l)` -/
def joinBlank : List Str → Str
  | [] => []
  | [w] => w
  | w :: ws => w ++ ' ' :: joinBlank ws

/-- `'{}'.format(get_as_string(name))` (key_profiles.py:171-177, key_transitions.py:143-149, ensembler.py:55-56, 60-62);
`fmt` is `'{:.15f}'.format`.  A missing or empty table gives `None`. -/
def tableText (fmt : K → Str) : Option (List K) → Str
  | none => "None".toList
  | some [] => "None".toList
  | some l => joinBlank (l.map fmt)

/-- The command line of a member's run (ensembler.py:57-64), as the option parser delivers it. -/
def memberOptions (kp kt file : Str) : Options :=
  { Options.default file with
    customkeyprofiles := some kp, customkeytransitions := some kt, probabilities := true }

/-- The runs of the program (ensembler.py:57-67) as the ensembler sees them. -/
def programRunner (E : Env D S P T) (crash : Str) (fmt : K → Str) (toFloat : Str → Option K) (kt : Store K) : Runner K where
  output file kp kt := splitWs (stdoutOf crash (Main.main E (.ok (memberOptions (tableText fmt kp) (tableText fmt kt) file))))
  toFloat := toFloat
  kt := kt

/-- The command line of the first run (justkeydding:7). -/
def chromaOptions (file : Str) : Options := { Options.default file with chromaonly := true }

/-- The world after `> name` wrote a file (justkeydding:7). -/
def withFile (E : Env D S P T) (name text : Str) : Env D S P T :=
  { E with csvFile := fun n => if n = name then some text else E.csvFile n }

/-- `$chromafile` (justkeydding:6): ten letters or digits chosen at random. -/
def chromaFile (random : Str) : Str := random ++ ".csv".toList

/-- The shell script (justkeydding:6-8): what it writes to the output file.  `.raise` is a Python exception, which
leaves the output file empty; the exit status of the script is that of `rm` in every case. -/
def script [Field K] [LinearOrder K] (E : Env D S P T) (crash : Str) (fmt : K → Str) (toFloat : Str → Option K)
    (kt : Store K) (tiny : K → Bool) (kp : Store K) (predict : List K → Int) (random : Str) (input : Str) : PyRes Str :=
  let text := stdoutOf crash (Main.main E (.ok (chromaOptions ("/vagrant/".toList ++ input))))
  let E' := withFile E (chromaFile random) text
  scriptMain (programRunner E' crash fmt toFloat kt) tiny kp predict (chromaFile random)

end JKD.Script
