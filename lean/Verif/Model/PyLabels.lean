import Verif.Model.PyDataset
/-
Model of /repo/tools/annotate_inline.py: the key of an annotation is put into the file name.

Simplifications: only ASCII text (as in PyDataset.lean); a file name is what `os.listdir` returns, so it has no `/`.
-/

namespace JKD.Py

/-- `keys_single_letter` (tools/annotate_inline.py:5-17): the table of dataset_creator.py with H and h. -/
def inlineSingleLetter : List (Str × Int) :=
  [(['C'], 0), (['C', '#'], 1), (['D', 'b'], 1), (['D'], 2),
   (['D', '#'], 3), (['E', 'b'], 3), (['E'], 4), (['F'], 5),
   (['F', '#'], 6), (['G', 'b'], 6), (['G'], 7), (['G', '#'], 8),
   (['A', 'b'], 8), (['A'], 9), (['A', '#'], 10), (['B', 'b'], 10),
   (['B'], 11), (['H'], 11),
   (['c'], 12), (['c', '#'], 13), (['d', 'b'], 13), (['d'], 14),
   (['d', '#'], 15), (['e', 'b'], 15), (['e'], 16), (['f'], 17),
   (['f', '#'], 18), (['g', 'b'], 18), (['g'], 19), (['g', '#'], 20),
   (['a', 'b'], 20), (['a'], 21), (['a', '#'], 22), (['b', 'b'], 22),
   (['b'], 23), (['h'], 23)]

/-- `keys_single_reverse` (tools/annotate_inline.py:19-28). -/
def inlineReverse : List (Int × Str) :=
  [(-1, ['U', 'n', 'k', 'n', 'o', 'w', 'n']),
   (0, ['C']), (1, ['D', 'b']), (2, ['D']), (3, ['E', 'b']),
   (4, ['E']), (5, ['F']), (6, ['F', '#']), (7, ['G']),
   (8, ['A', 'b']), (9, ['A']), (10, ['B', 'b']), (11, ['B']),
   (12, ['c']), (13, ['c', '#']), (14, ['d']), (15, ['e', 'b']),
   (16, ['e']), (17, ['f']), (18, ['f', '#']), (19, ['g']),
   (20, ['a', 'b']), (21, ['a']), (22, ['b', 'b']), (23, ['b'])]

/-- The tonics of `keys_duple` with the value for `'major'` (tools/annotate_inline.py:30-39). -/
def inlineDupleMajor : List (Str × Int) := dupleMajor ++ [(['h'], 11)]

/-- The tonics of `keys_duple` with the value for `'minor'` (tools/annotate_inline.py:41-50). -/
def inlineDupleMinor : List (Str × Int) := dupleMinor ++ [(['h'], 23)]

/-- `keys_duple[key]` (tools/annotate_inline.py:30-50). -/
def inlineDuple (tonic mode : Str) : Option Int :=
  if mode = "major".toList then lookup inlineDupleMajor tonic
  else if mode = "minor".toList then lookup inlineDupleMinor tonic
  else none

/-- The index found by `normalize_key_label` (tools/annotate_inline.py:53-63). -/
def inlineIndex (keyLabel : Str) : Int :=
  match splitWs (strip keyLabel) with
  | [key] => (lookup inlineSingleLetter key).getD (-1)
  | [a, b] => (inlineDuple (lower a) (lower b)).getD (-1)
  | _ => -1

/-- `normalize_key_label` (tools/annotate_inline.py:53-67); a missing index would be a KeyError. -/
def normalizeKeyLabel (keyLabel : Str) : PyRes Str :=
  match AMap.get? inlineReverse (inlineIndex keyLabel) with
  | some s => .ok s
  | none => .raise "KeyError"

/-- `os.path.splitext(base)` for a name without `/`: the extension starts at the last dot, unless all characters
before that dot are dots. -/
def splitext (base : Str) : Str × Str :=
  match (base.reverse.dropWhile (· ≠ '.')).reverse with
  | [] => (base, [])
  | p =>
    let root := p.dropLast
    if root.all (· = '.') then (base, []) else (root, base.drop root.length)

/-- The new file name (tools/annotate_inline.py:76-84). `text` is the content of the `.key` file. -/
def inlineFilename (f text : Str) : PyRes Str := do
  let (noext, dotext) := splitext f
  let key ← normalizeKeyLabel (strip text)
  return noext ++ '_' :: key ++ dotext

end JKD.Py
