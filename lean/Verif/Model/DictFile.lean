import Verif.Model.Chordino
import Verif.Model.Chromagram
/-
Where the chord plug-in looks for a chord dictionary of the user and how it reads it
(nnls-chroma-1.1/chromamethods.cpp:209-264, 342-437).  What is read is the parameter `ext` of
`Chordino.chordDictionary`.

Outside the model: the environment variables, the file system (`file` gives the content of a file that opens),
`lexical_cast<float>` (`cast`; its exception `bad_lexical_cast` is whatever `cast` throws), the message on standard
error (chromamethods.cpp:434).  Only the Linux branch of the `#ifdef`s (chromamethods.cpp:231) is modelled.
-/

namespace JKD
namespace DictFile

variable {D : Type}

/-- `s.find(needle)`. -/
def find (needle : Str) : Str → Option Nat
  | [] => if needle = [] then some 0 else none
  | c :: s => if needle.isPrefixOf (c :: s) then some 0 else (find needle s).map (· + 1)

/-- The name that stands for the home directory (chromamethods.cpp:231, 240). -/
def homeName : Str := ['$', 'H', 'O', 'M', 'E']

/-- `DEFAULT_VAMP_PATH` on Linux (chromamethods.cpp:231). -/
def defaultPath : Str := "$HOME/vamp:$HOME/.vamp:/usr/local/lib/vamp:/usr/lib/vamp".toList

/-- The loop that puts in the home directory (chromamethods.cpp:240-243), with at most `n` tests of its condition;
`none`: it has not ended by then. -/
def expand (home : Str) : Nat → Str → Option Str
  | 0, _ => none
  | n + 1, s =>
    match find homeName s with
    | none => some s
    | some f => expand home n (s.take f ++ home ++ s.drop (f + 5))

/-- The search path before it is cut (chromamethods.cpp:218-254), after at most `n` tests; `vampPath` and `home` are
the environment variables. -/
def envPath (vampPath home : Option Str) (n : Nat) : Option Str :=
  if vampPath.getD [] = [] then
    match home with
    | some h => expand h n defaultPath
    | none => some defaultPath
  else vampPath

/-- The search path, cut at the colons (chromamethods.cpp:256-263).  `s` is what is left behind `index`. -/
def cut (s : Str) : List Str :=
  match h : s.findIdx? (· = ':') with
  | none => [s]
  | some k => s.take k :: cut (s.drop (k + 1))
termination_by s.length
decreasing_by
  have := (List.findIdx?_eq_some_iff_getElem.mp h).1
  simp only [List.length_drop]
  omega

/-- `getPluginPath` (chromamethods.cpp:209-264). -/
def getPluginPath (vampPath home : Option Str) (n : Nat) : Option (List Str) :=
  (envPath vampPath home n).map cut

/-- The name of a dictionary in a directory (chromamethods.cpp:347, 375). -/
def dictName (dir : Str) : Str := dir ++ ['/'] ++ ['c', 'h', 'o', 'r', 'd', '.', 'd', 'i', 'c', 't']

/-- The loop over the directories (chromamethods.cpp:372-392): `hasExternalDictinoary` and `chordDictFilename`. -/
def locate (file : Str → Option Str) : List Str → Str → Bool × Str
  | [], name => (true, name)
  | dir :: dirs, _ =>
    if (file (dictName dir)).isSome then (true, dictName dir)
    else if dirs = [] then (false, dictName dir)
    else locate file dirs (dictName dir)

/-- The characters that separate and are dropped (chromamethods.cpp:345). -/
def isGap (c : Char) : Bool := c = ',' || c = ';' || c = ' '

/-- `tokenizer<char_separator<char> >` with dropped separators `",; "` and the kept separator `"="`
(chromamethods.cpp:344-345, 418); empty tokens are dropped. -/
def tokens (s : Str) : List Str :=
  go s []
where
  /-- `cur` is the token being read, reversed. -/
  go : Str → Str → List Str
    | [], cur => if cur = [] then [] else [cur.reverse]
    | c :: s, cur =>
      if isGap c then (if cur = [] then go s [] else cur.reverse :: go s [])
      else if c = '=' then (if cur = [] then ['='] :: go s [] else cur.reverse :: ['='] :: go s [])
      else go s (c :: cur)

/-- The numbers of a line (chromamethods.cpp:429). -/
def numbers (cast : Str → Res D) (toks : List Str) (dict : List D) : Res (List D) :=
  forM toks dict (fun dict t => do
    let x ← cast t
    return dict ++ [x])

/-- One line (chromamethods.cpp:412-433): chord types and numbers so far.  After a name one token is skipped,
whatever it is; if there is none, the end of the tokens is passed. -/
def readLine (cast : Str → Res D) (r : List Str × List D) (line : Str) : Res (List Str × List D) :=
  if line = [] ∨ line.take 1 = ['#'] then .ok r
  else
    match tokens line with
    | [] => .ok (r.1 ++ [[]], r.2)
    | t :: toks =>
      if t = ['='] then do
        let d ← numbers cast toks r.2
        return (r.1 ++ [[]], d)
      else
        match toks with
        | [] => .ub
        | _ :: toks => do
          let d ← numbers cast toks r.2
          return (r.1 ++ [t], d)

/-- The loop over the lines (chromamethods.cpp:407-435). -/
def readDict (cast : Str → Res D) (content : Str) : Res (List Str × List D) :=
  forM (getlines '\n' content) ([], []) (readLine cast)

/-- The dictionary of the user, if there is one (chromamethods.cpp:349, 372-437). -/
def userDict (cast : Str → Res D) (file : Str → Option Str) (path : List Str) : Res (Option (List Str × List D)) :=
  let l := locate file path []
  match (if l.1 then file l.2 else none) with
  | some content => do
    let d ← readDict cast content
    return some d
  | none => .ok none

end DictFile
end JKD
