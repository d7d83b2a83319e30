import Verif.Model.PyDataset
/-
Model of the files around a data set: the rest of /repo/dataset_creator.py (constructor, `compute_features`,
`write`) and the loader in /repo/dataset.py (8-60).

Simplifications.
* A directory is the list of its files in the (arbitrary) order of `os.listdir`; names have no `/` and no line
  break.  The annotation folder is a function from names to texts.
* `np.array(...).dump` and `np.load` are exact inverses: a file holds the rows or the labels themselves.
* `exit()` is the outcome `raise "SystemExit"`.
* `re.IGNORECASE` compares ASCII letters without case.
* `evaluate` (ensembler.py, see PyEnsemble.lean) followed by flattening is a parameter.
-/

namespace JKD.Py

/-! ### dataset_creator.py -/

/-- `f.rsplit('.', 1)`: the parts around the last dot, or nothing but `f` itself. -/
def rsplitDot (f : Str) : Option (Str × Str) :=
  match (f.reverse.dropWhile (· ≠ '.')).reverse with
  | [] => none
  | p => some (p.dropLast, f.drop p.length)

/-- A `DatasetCreator` (dataset_creator.py:83-146, 166-187).  `annotationFolder` gives the text of a file in the
annotation folder, if there is a folder. -/
structure Creator (K : Type) where
  name : Str
  files : List (Str × Str)
  annotationFolder : Option (Str → Option Str)
  splits : AMap Str (List Str)
  features : AMap Str (List K)
  annotations : AMap Str Int
  hasFeatures : Bool

/-- The loop over the features folder (dataset_creator.py:107-116): the files with their names without extension. -/
def listFiles : List Str → PyRes (List (Str × Str))
  | [] => .ok []
  | f :: fs =>
    match rsplitDot f with
    | none => .raise "IndexError"
    | some (noExt, ext) =>
      if ext ∉ ["mid".toList, "csv".toList, "wav".toList] then .raise "SystemExit"
      else do
        let r ← listFiles fs
        return (f, noExt) :: r

/-- The constructor (dataset_creator.py:83-146), given the name, the listing of the features folder, the
annotations and the splits read (stripped lines per file name without extension). -/
def Creator.new {K : Type} (name : Str) (listing : List Str) (annotationFolder : Option (Str → Option Str))
    (splits : AMap Str (List Str)) : PyRes (Creator K) := do
  let files ← listFiles listing
  if files = [] then .raise "SystemExit"
  else
    return { name := name, files := files, annotationFolder := annotationFolder, splits := splits, features := [],
             annotations := [], hasFeatures := false }

/-- `fd.readlines()[0]` (dataset_creator.py:184) up to the line break, which `parse_label` strips anyway. -/
def firstLine (text : Str) : PyRes Str :=
  if text = [] then .raise "IndexError" else .ok (text.takeWhile (fun c => c ≠ '\n' && c ≠ '\r'))

/-- `compute_features` (dataset_creator.py:163-187), the loop over the remaining files. -/
def Creator.computeLoop {K : Type} (evaluate : Str → PyRes (List K)) (c : Creator K) : List (Str × Str) → PyRes (Creator K)
  | [] => .ok { c with hasFeatures := true }
  | (f, base) :: fs => do
    let x ← evaluate f
    let c := { c with features := AMap.set c.features base x }
    match c.annotationFolder with
    | none => Creator.computeLoop evaluate c fs
    | some folder =>
      match folder (base ++ ".key".toList) with
      | none => return c
      | some text => do
        let line ← firstLine text
        Creator.computeLoop evaluate { c with annotations := AMap.set c.annotations base (parseLabel line) } fs

/-- `compute_features` (dataset_creator.py:163-187) -/
def Creator.computeFeatures {K : Type} (evaluate : Str → PyRes (List K)) (c : Creator K) : PyRes (Creator K) :=
  Creator.computeLoop evaluate c c.files

/-- What a written file holds. -/
inductive Content (K : Type) where
  | rows (x : List (List K))
  | labels (y : List Int)
  | text (s : Str)
  deriving DecidableEq

/-- `', '.join(l)` -/
def joinComma : List Str → Str
  | [] => []
  | [s] => s
  | s :: l => s ++ ',' :: ' ' :: joinComma l

/-- `'{}'.format(flag)` -/
def showBool (b : Bool) : Str := if b then "True".toList else "False".toList

/-- The text of the ensemble file (dataset_creator.py:203-205). -/
def ensembleText (profiles transitions : List Str) (mixed : Bool) : Str :=
  joinComma profiles ++ ['\n'] ++ (joinComma transitions ++ ['\n']) ++ ("mixed_profiles=".toList ++ showBool mixed ++ ['\n'])

/-- One split (dataset_creator.py:218-232): the collected features and annotations; empty when a line is unknown. -/
def Creator.split {K : Type} (c : Creator K) : List Str → List (List K) → List Int → List (List K) × List Int
  | [], xs, ys => (xs, ys)
  | f :: v, xs, ys =>
    match AMap.get? c.features f with
    | none => ([], [])
    | some x =>
      if c.annotations = [] then Creator.split c v (xs ++ [x]) ys
      else
        match AMap.get? c.annotations f with
        | none => ([], [])
        | some y => Creator.split c v (xs ++ [x]) (ys ++ [y])

/-- The files of one split (dataset_creator.py:218-242). -/
def Creator.writeSplit {K : Type} (c : Creator K) (k : Str) (v : List Str) : List (Str × Content K) :=
  let r := c.split v [] []
  if r.1 = [] then []
  else
    (c.name ++ '-' :: k ++ "_features.pkl".toList, .rows r.1) ::
      (if r.2 = [] then [] else [(c.name ++ '-' :: k ++ "_annotations.pkl".toList, .labels r.2)])

/-- `write` (dataset_creator.py:189-242): the files written, in order. -/
def Creator.write {K : Type} (c : Creator K) (profiles transitions : List Str) (mixed : Bool) : List (Str × Content K) :=
  if !c.hasFeatures then []
  else
    (c.name ++ "_ensemble.txt".toList, .text (ensembleText profiles transitions mixed)) ::
    (c.name ++ "_features.pkl".toList, .rows (c.features.map Prod.snd)) ::
    ((if c.annotations = [] then []
      else [(c.name ++ "_annotations.pkl".toList, .labels (c.annotations.map Prod.snd))]) ++
      c.splits.flatMap (fun p => c.writeSplit p.1 p.2))

/-! ### dataset.py: the loader -/

/-- `'_features.pkl'` or `'_annotations.pkl'` as a pattern at the start of a text: the dot stands for any character
but a line break, and case is ignored. -/
def tailPattern (kind : Str) (s : Str) : Bool :=
  let w := '_' :: kind
  let t := s.drop w.length
  lower (s.take w.length) = lower w && (match t with
    | c :: t => c ≠ '\n' && lower (t.take 3) = "pkl".toList
    | [] => false)

/-- `(.*)_features.pkl`: the longest group (dataset.py:19-20).  `k` is the length still to be tried. -/
def greedy (kind : Str) (s : Str) : Nat → Option Str
  | 0 => if tailPattern kind s then some [] else none
  | k + 1 =>
    if '\n' ∉ s.take (k + 1) ∧ tailPattern kind (s.drop (k + 1)) = true then some (s.take (k + 1))
    else greedy kind s k

/-- `-?(.*)_features.pkl`: with the hyphen first. -/
def afterName (kind : Str) (s : Str) : Option Str :=
  match s with
  | '-' :: t =>
    match greedy kind t t.length with
    | some g => some g
    | none => greedy kind s s.length
  | _ => greedy kind s s.length

/-- `re.search(re.escape(name) + '-?(.*)_<kind>.pkl', f, re.IGNORECASE)` (dataset.py:43, 53): the group. -/
def search (name kind : Str) : Str → Option Str
  | [] => if name = [] then afterName kind [] else none
  | c :: s =>
    if lower ((c :: s).take name.length) = lower name ∧ name.length ≤ (c :: s).length then
      match afterName kind ((c :: s).drop name.length) with
      | some g => some g
      | none => search name kind s
    else search name kind s

/-- The metadata (dataset.py:36-40). -/
structure Ensemble where
  keyProfiles : List Str
  keyTransitions : List Str
  mixedProfiles : Bool
  deriving DecidableEq

/-- `s.split(c)` -/
def splitOn (c : Char) (s : Str) : List Str :=
  go s []
where
  go : Str → Str → List Str
    | [], cur => [cur.reverse]
    | d :: s, cur => if d = c then cur.reverse :: go s [] else go s (d :: cur)

/-- `fd.readlines()` of a file opened in text mode: lines with their `\n`.  (`\r` and `\r\n` are turned into `\n` by
the text layer; the names have none.) -/
def readlines (s : Str) : List Str :=
  go s []
where
  go : Str → Str → List Str
    | [], cur => if cur = [] then [] else [cur.reverse]
    | d :: s, cur => if d = '\n' then (d :: cur).reverse :: go s [] else go s (d :: cur)

/-- The metadata reader (dataset.py:24-41). -/
def readEnsemble (text : Str) : PyRes Ensemble :=
  match readlines text with
  | [kps, kts, mixed] =>
    match splitOn '=' mixed with
    | _ :: v :: _ =>
      .ok { keyProfiles := (splitOn ',' kps).map strip, keyTransitions := (splitOn ',' kts).map strip
            mixedProfiles := decide (v = "True".toList) }
    | _ => .raise "IndexError"
  | _ => .raise "SystemExit"

/-- The attributes of a loaded `Dataset`: the metadata and the arrays by attribute name. -/
structure Loaded (K : Type) where
  ensemble : Option Ensemble
  attrs : Str → Option (Content K)

/-- `setattr` -/
def Loaded.set {K : Type} (l : Loaded K) (n : Str) (v : Content K) : Loaded K :=
  { l with attrs := fun m => if m = n then some v else l.attrs m }

/-- One file of the loop (dataset.py:22-60). -/
def Loaded.step {K : Type} (name : Str) (l : Loaded K) (f : Str) (v : Content K) : PyRes (Loaded K) := do
  let l ← (if f = name ++ "_ensemble.txt".toList then
      (match v with
        | .text s => do
          let e ← readEnsemble s
          return { l with ensemble := some e }
        | _ => .raise "SystemExit")
    else .ok l)
  match search name "features".toList f with
  | some g => return l.set (if g = [] then ['X'] else g ++ "_X".toList) v
  | none =>
    match search name "annotations".toList f with
    | some g => return l.set (if g = [] then ['y'] else g ++ "_y".toList) v
    | none => return l

/-- The loop. -/
def Loaded.loop {K : Type} (name : Str) (l : Loaded K) : List (Str × Content K) → PyRes (Loaded K)
  | [] => .ok l
  | (f, v) :: fs => do
    let l ← l.step name f v
    Loaded.loop name l fs

/-- `Dataset(name)` (dataset.py:9-60), for the files of the directory in listing order. -/
def loadDataset {K : Type} (name : Str) (dir : List (Str × Content K)) : PyRes (Loaded K) :=
  Loaded.loop name ⟨none, fun _ => none⟩ (dir.filter (fun p => name.isPrefixOf p.1))

end JKD.Py
