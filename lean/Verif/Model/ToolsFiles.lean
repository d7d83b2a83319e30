import Verif.Model.PyFiles
/-
Model of the scripts that prepare a data set:
/repo/tools/experiment1/find_duplicates.py, /repo/tools/billboard/filter_confident_files.py (the same as
/repo/tools/giantsteps-mtg-key-dataset/filter_confident_files.py), /repo/tools/sample_datapoints.py and
/repo/tools/albrecht/extract_keys.py.

Simplifications: a directory is the list of its names in the (arbitrary) order of `os.listdir`; reading a MIDI file is a
parameter; `random.sample` is a parameter, its answer; rows are what `csv.reader` gives.
-/

namespace JKD.Tools

open Py

/-! ### find_duplicates.py -/

/-- `mid` as the script sees it: the type, the velocity and the note of each message. -/
structure Msg where
  noteOn : Bool
  velocity : Nat
  note : Nat

/-- The loop over the messages (find_duplicates.py:9-13). -/
def notesOf (mid : List Msg) : List Nat :=
  (mid.filter (fun m => !(!m.noteOn || m.velocity == 0))).map (fun m => m.note % 12)

/-- The search (find_duplicates.py:14-17): the last file with the same notes, or the empty name. -/
def findDup (notes : List Nat) (unique : AMap Str (List Nat)) : Str :=
  unique.foldl (fun dup kv => if notes = kv.2 then kv.1 else dup) []

/-- The loop over the files (find_duplicates.py:7-21), with `unique` and `duplicates`. -/
def findDuplicates (mid : Str → List Msg) : List Str → AMap Str (List Nat) → AMap Str Str → AMap Str (List Nat) × AMap Str Str
  | [], u, d => (u, d)
  | f :: fs, u, d =>
    let dup := findDup (notesOf (mid f)) u
    if dup ≠ [] then findDuplicates mid fs u (AMap.set d f dup)
    else findDuplicates mid fs (AMap.set u f (notesOf (mid f))) d

/-! ### filter_confident_files.py -/

/-- `f.split('.')[0]` -/
def firstDot (f : Str) : Str := f.takeWhile (· ≠ '.')

/-- The feature files left (filter_confident_files.py:6-15). -/
def confident (annotations features : List Str) : List Str :=
  let allowed := annotations.map firstDot
  features.filter (fun f => !decide (firstDot f ∉ allowed))

/-! ### sample_datapoints.py -/

/-- `x[:-4]` -/
def cut4 (x : Str) : Str := x.take (x.length - 4)

/-- The lines printed for training and for the test (sample_datapoints.py:8-24), for the answer of `random.sample`. -/
def sampleDatapoints (files sample : List Str) : List Str × List Str :=
  ((files.filter (fun x => decide (x ∉ sample))).map cut4, sample.map cut4)

/-! ### extract_keys.py -/

/-- `re.search(r"\*(.*):$", s).group(1)` for a text without line break: between the first star and a colon at the end. -/
def keyMatch (s : Str) : Option Str :=
  match s.dropWhile (· ≠ '*') with
  | [] => none
  | _ :: r => if r.getLast? = some ':' then some r.dropLast else none

/-- The loop over the rows (extract_keys.py:17-23): what is printed and what is written to the key file. -/
def extractKeys : List (List Str) → PyRes (List Str × Str)
  | [] => .ok ([], [])
  | row :: rows =>
    match row with
    | [] => .raise "IndexError"
    | first :: _ => do
      let r ← extractKeys rows
      match keyMatch first with
      | some k => return (k :: r.1, r.2)
      | none => return r

end JKD.Tools
