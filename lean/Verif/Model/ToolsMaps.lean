import Mathlib.Data.Char
import Mathlib.Data.List.Lex
import Mathlib.Data.List.Sort
import Verif.Model.PyFiles
/-
Model of /repo/tools/maps/extract_data.py: `extract_full_name` and `extract_key_signature`.

Simplifications: a MIDI file is the list of its messages in the order in which iterating over a `mido.MidiFile` delivers them (all
tracks merged by time); messages other than track names and key signatures are alike; all files of the folder are MIDI files.
-/

namespace JKD.Maps

open Py

/-- What the script distinguishes (extract_data.py:31-33, 45-46). -/
inductive Msg where
  | trackName (name : Str)
  | keySignature (key : Str)
  | other

/-- A file of the folder: its name and its messages. -/
abbrev File := Str × List Msg

/-- `sorted(os.listdir('.'))` (extract_data.py:27, 42). -/
def sortedFiles (dir : List File) : List File := dir.insertionSort (fun a b => a.1 ≤ b.1)

/-- `'{}, {}'.format(f, x)` (extract_data.py:35, 47). -/
def line (f x : Str) : Str := f ++ ", ".toList ++ x

/-- The loop over the messages in `extract_full_name` (extract_data.py:29-38): `none` for the `IndexError` of `msgs[-1]`, else the
name that is printed, if any. -/
def fullName : List Str → List Msg → Option (Option Str)
  | _, [] => some none
  | msgs, .trackName n :: l =>
    if "Copyright".toList.isPrefixOf n then
      match msgs.getLast? with
      | none => none
      | some m => some (some m)
    else fullName (msgs ++ [n]) l
  | msgs, _ :: l => fullName msgs l

/-- The loop over the files of `extract_full_name` (extract_data.py:27-38): the printed lines, and whether the script runs through. -/
def fullNames : List File → List Str × Bool
  | [] => ([], true)
  | (f, l) :: fs =>
    match fullName [] l with
    | none => ([], false)
    | some none => fullNames fs
    | some (some n) => (line f n :: (fullNames fs).1, (fullNames fs).2)

/-- `extract_full_name` (extract_data.py:26-38). -/
def extractFullName (dir : List File) : List Str × Bool := fullNames (sortedFiles dir)

/-- The loop over the messages in `extract_key_signature` (extract_data.py:44-48). -/
def firstKey : List Msg → Option Str
  | [] => none
  | .keySignature k :: _ => some k
  | _ :: l => firstKey l

/-- The loop over the files of `extract_key_signature` (extract_data.py:42-48). -/
def keyLines : List File → List Str
  | [] => []
  | (f, l) :: fs =>
    match firstKey l with
    | none => keyLines fs
    | some k => line f k :: keyLines fs

/-- `extract_key_signature` (extract_data.py:41-48). -/
def extractKeySignature (dir : List File) : List Str := keyLines (sortedFiles dir)

end JKD.Maps
