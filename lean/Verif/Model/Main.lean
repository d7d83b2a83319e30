import Verif.Model.Chromagram
import Verif.Model.Midi
import Verif.Model.Detect
/-
Model of `main` (src/justkeydding.cc:38-285), from the parsed command line to standard output and exit
status.  Outside the model: the optparse library (a parse is the exit code it throws or the `Options`),
files, the plug-in, text conversion of numbers (`Env`).
-/

namespace JKD

/-- `enInputType` (include/justkeydding.h:50-54); `other` is any other value of the variable. -/
inductive InputType where
  | csv
  | wav
  | midi
  | other
  deriving DecidableEq, Repr

/-- What the option parser delivers (src/justkeydding.cc:54-55, 301-346): positional arguments, and the
options; `none` = not set. -/
structure Options where
  args : List Str
  inputformat : Option Str
  customkeyprofiles : Option Str
  majorprofile : String
  minorprofile : String
  customkeytransitions : Option Str
  keytransition : String
  evaluate : Bool
  probabilities : Bool
  chromaonly : Bool

/-- The choices of `-f` (src/justkeydding.cc:301-306). -/
def formatChoices : List Str := ["wav".toList, "csv".toList, "midi".toList]

/-- The choices of `-M` and `-m` (src/justkeydding.cc:308-322). -/
def profileChoices : List String :=
  ["krumhansl_kessler", "aarden_essen", "bellman_budge", "sapp", "temperley"]

/-- The choices of `-t` (src/justkeydding.cc:328-333). -/
def transitionChoices : List String := ["exponential2", "exponential10"]

/-- What optparse guarantees for every option set that it accepts: choices are respected. -/
structure Options.Valid (o : Options) : Prop where
  format : ∀ f, o.inputformat = some f → f ∈ formatChoices
  major : o.majorprofile ∈ profileChoices
  minor : o.minorprofile ∈ profileChoices
  trans : o.keytransition ∈ transitionChoices

/-- The defaults (src/justkeydding.cc:313, 321, 332) for one input file. -/
def Options.default (file : Str) : Options :=
  { args := [file], inputformat := none, customkeyprofiles := none, majorprofile := "sapp"
    minorprofile := "sapp", customkeytransitions := none, keytransition := "exponential10"
    evaluate := false, probabilities := false, chromaonly := false }

/-- Everything around the program. -/
structure Env (D S P T : Type) where
  F : FPU D
  M : MixOps S
  /-- `std::stof` -/
  stof : Str → Res D
  /-- `operator<<(std::ostream &, double)` -/
  sh : D → Str
  /-- the numbers `stream >> val` extracts from a string before it fails -/
  nums : Str → List D
  pl : Plugin S D P T
  iter₁ : IMap (Node D) → List (Int × Node D)
  iter₂ : IMap (Node D) → List (Int × Node D)
  csvFile : Str → Option Str
  audioFile : Str → Option (AudioFile S)
  midiEvents : Str → List (List Nat)
  /-- `parser.print_help()` -/
  help : Str
  /-- bytes past the last frame, see `Chromagram.framesLoop` -/
  past : Option (List D)
  /-- see `Midi.getPitchClassSequence` -/
  strictMidi : Bool
  /-- what reading the indeterminate variable `inputType` gives; `none` = undefined behaviour -/
  junkInputType : Option InputType
  /-- the same for `fileType` -/
  junkFileType : Option FileType
  /-- initial content of the three local arrays (src/justkeydding.cc:45-47) -/
  junkMajor : List D
  junkMinor : List D
  junkTransition : List D

/-- What the process does: standard output, standard error, exit status. -/
structure Out where
  stdout : Str
  stderr : Str
  code : Int
  deriving DecidableEq, Repr

namespace Main

variable {D S P T : Type}

/-- `filename.find_last_of(c)`. -/
def findLast (c : Char) (s : Str) : Option Nat :=
  (s.zipIdx).foldl (fun acc p => if p.1 = c then some p.2 else acc) none

/-- `s.substr(pos, count)`: throws when `pos > size`. -/
def substr (s : Str) (pos count : Nat) : Res Str :=
  if pos ≤ s.length then .ok ((s.drop pos).take count) else .throw .outOfRange

/-- `std::string::npos`, and the modulus of `std::size_t` minus one. -/
def npos : Nat := 2 ^ 64 - 1

/-- `find_last_of` as a `std::size_t`. -/
def findLastPos (c : Char) (s : Str) : Nat := (findLast c s).getD npos

/-- The comparison of `-f` (src/justkeydding.cc:66-72); `none` leaves `inputType` indeterminate. -/
def formatType (format : Str) : Option InputType :=
  if format = ".wav".toList then some .wav
  else if format = ".csv".toList then some .csv
  else if format = ".midi".toList then some .midi
  else none

/-- The message of line 89. -/
def unknownMessage : Str :=
  "It seems the input is neither a wav, csv, nor midi file. If it is, please specify explicitly using -f.\n".toList

/-- The message of line 57. -/
def missingMessage : Str := "Missing input file.\n".toList

/-- Decision by extension (src/justkeydding.cc:75-92): `none` is the error exit. -/
def extensionType (filename : Str) : Res (Option InputType) := do
  let extension ← substr filename (findLastPos '.' filename) npos
  let extension := extension.map tolowerC
  if extension = ".wav".toList then return some .wav
  else if extension = ".csv".toList then return some .csv
  else if extension = ".midi".toList ∨ extension = ".mid".toList then return some .midi
  else return none

/-- The loop filling the custom profiles (src/justkeydding.cc:101-111): `(major, minor, i)`. -/
def fillProfiles (major minor : List D) (vals : List D) : List D × List D × Nat :=
  vals.foldl (fun s val =>
    if s.2.2 < 12 then (s.1.set s.2.2 val, s.2.1, s.2.2 + 1)
    else (s.1, s.2.1.set (s.2.2 % 12) val, s.2.2 + 1)) (major, minor, 0)

/-- The loop filling the custom transitions (src/justkeydding.cc:130-135): writing past the 24th element is
undefined. -/
def fillTransitions (arr : List D) (vals : List D) : Res (List D × Nat) :=
  forM vals (arr, 0) (fun s val =>
    if s.2 < 24 then .ok (s.1.set s.2 val, s.2 + 1) else .ub)

/-- The messages of lines 113 and 137. -/
def countMessage (what : String) (i : Nat) : Str :=
  ("You must provide exactly 24 values for the custom " ++ what ++ ". You provided " ++ toString i ++
    ".\n").toList

/-- What lines 53-154 leave behind. -/
structure Parsed (D : Type) where
  filename : Str
  inputType : Option InputType
  cfg : Config D
  justEvaluation : Bool
  justProbabilities : Bool
  chromaOnly : Bool

/-- Lines 94-123: the profiles, or the early exit. -/
def chooseProfiles (E : Env D S P T) (o : Options) : Except Out (String × String × List D × List D) :=
  match o.customkeyprofiles with
  | some arrayStr =>
    let r := fillProfiles E.junkMajor E.junkMinor (E.nums arrayStr)
    if r.2.2 ≠ 24 then
      .error { stdout := countMessage "key profiles" r.2.2 ++ E.help, stderr := [], code := 0 }
    else .ok ("custom", "custom", r.1, r.2.1)
  | none => .ok (o.majorprofile, o.minorprofile, E.junkMajor, E.junkMinor)

/-- Lines 124-146: the transitions, or the early exit. -/
def chooseTransitions (E : Env D S P T) (o : Options) : Res (Except Out (String × List D)) :=
  match o.customkeytransitions with
  | some arrayStr => do
    let r ← fillTransitions E.junkTransition (E.nums arrayStr)
    if r.2 ≠ 24 then
      return .error { stdout := countMessage "key transitions" r.2 ++ E.help, stderr := [], code := 0 }
    else return .ok ("custom", r.1)
  | none => .ok (.ok (o.keytransition, E.junkTransition))

/-- Lines 62-93: the input type, or the early exit. -/
def chooseInput (E : Env D S P T) (o : Options) (filename : Str) :
    Res (Except Out (Option InputType)) :=
  match o.inputformat with
  | some format => .ok (.ok (formatType format))
  | none => do
    match ← extensionType filename with
    | some t => return .ok (some t)
    | none => return .error { stdout := unknownMessage ++ E.help, stderr := [], code := 0 }

/-- The `try` block (src/justkeydding.cc:53-154). -/
def parseArgs (E : Env D S P T) (parsed : Except Int Options) : Res (Except Out (Parsed D)) :=
  match parsed with
  | .error ret_code =>
    .ok (.error { stdout := [], stderr := ("Error " ++ toString ret_code ++ "\n").toList, code := ret_code })
  | .ok o =>
    match o.args with
    | [filename] => do
      match ← chooseInput E o filename with
      | .error out => return .error out
      | .ok inputType =>
        match chooseProfiles E o with
        | .error out => return .error out
        | .ok (maj, min, majArr, minArr) =>
          match ← chooseTransitions E o with
          | .error out => return .error out
          | .ok (tr, trArr) =>
            return .ok {
              filename := filename, inputType := inputType
              cfg := { keyTransition := tr, majorKeyProfile := maj, minorKeyProfile := min
                       customKeyTransition := trArr, majorCustomKeyProfile := majArr
                       minorCustomKeyProfile := minArr }
              justEvaluation := o.evaluate, justProbabilities := o.probabilities
              chromaOnly := o.chromaonly }
    | _ => .ok (.error { stdout := missingMessage ++ E.help, stderr := [], code := 0 })

/-- The message of lines 160-161 and 177-178. -/
def readError : Str := "There was an error while reading the input file.\n".toList

/-- The message of lines 223-224. -/
def modelError : Str := "There was an error while running the model.\n".toList

/-- Lines 156-188: the pitch-class sequence, or the early exit. -/
def readInput (E : Env D S P T) (p : Parsed D) : Res (Except Out (List PitchClass)) := do
  let inputType ← match p.inputType with
    | some t => Res.ok t
    | none => Res.read E.junkInputType
  if inputType = .midi then
    let midi := Midi.construct (E.midiEvents p.filename)
    if midi.getStatus ≠ statusMidiReady then
      return .error { stdout := [], stderr := readError, code := midi.getStatus }
    else
      let seq ← midi.getPitchClassSequence E.strictMidi
      return .ok seq
  else
    let fileType ← if inputType = .csv then Res.ok FileType.csv
      else if inputType = .wav then Res.ok FileType.audio
      else Res.read E.junkFileType
    let chr ← Chromagram.construct E.F E.M E.stof E.pl (E.csvFile p.filename) (E.audioFile p.filename)
      fileType
    if chr.getStatus ≠ statusChromaDiscreteReady then
      return .error { stdout := [], stderr := readError, code := chr.getStatus }
    else if p.chromaOnly then
      return .error { stdout := chr.printOriginalChromagram E.F E.sh true, stderr := [], code := 0 }
    else
      let seq ← chr.getPitchClassSequence E.F E.past
      return .ok seq

/-- The ground truth in the file name (src/justkeydding.cc:252-258); `none` when a `_` or a `.` is missing.
`dot - underscore` is `std::size_t` arithmetic. -/
def groundTruth (filename : Str) : Res (Option Key) :=
  match findLast '_' filename, findLast '.' filename with
  | some u, some d => do
    let s ← substr filename (u + 1) (if u + 1 ≤ d then d - (u + 1) else d + (npos + 1) - (u + 1))
    return some (Key.ofString s)
  | _, _ => .ok none

/-- The score (src/justkeydding.cc:259-268). -/
def score (mainKey truth : Key) : Res Rat := do
  if ← mainKey.eq truth then return 1
  else
    let dom ← truth.dominant
    if ← mainKey.eq dom then return 1 / 2
    else
      let rel ← truth.relative
      if ← mainKey.eq rel then return 3 / 10
      else
        let par ← truth.parallel
        if ← mainKey.eq par then return 1 / 5
        else return 0

/-- The line printed by default (src/justkeydding.cc:273-282).  `std::next(begin())` of an empty string is
undefined. -/
def keyLine (mainKey : Key) : Res Str :=
  match mainKey.getString with
  | [] => .ub
  | c :: cs => do
    let major ← mainKey.isMajor
    return toupperC c :: cs ++ ['\t'] ++ (if major then "major".toList else "minor".toList) ++ ['\n']

/-- The output (src/justkeydding.cc:243-283). -/
def printResult (E : Env D S P T) (p : Parsed D) (d : Detection D) : Res Str :=
  if p.justProbabilities then
    .ok (d.probabilities.flatMap (fun x => E.sh x ++ [' ']) ++ ['\n'])
  else if p.justEvaluation then do
    match ← groundTruth p.filename with
    | none => return []
    | some truth =>
      let s ← score d.mainKey truth
      return E.sh (E.F.ofRat s) ++ ['\n']
  else keyLine d.mainKey

/-- `main` (src/justkeydding.cc:38-285). -/
def main (E : Env D S P T) (parsed : Except Int Options) : Res Out := do
  match ← parseArgs E parsed with
  | .error out => return out
  | .ok p =>
    match ← readInput E p with
    | .error out => return out
    | .ok seq =>
      match ← Detect.detect E.F E.iter₁ E.iter₂ p.cfg seq with
      | .error status => return { stdout := [], stderr := modelError, code := status }
      | .ok d =>
        let line ← printResult E p d
        return { stdout := line, stderr := [], code := 0 }

end Main
end JKD
