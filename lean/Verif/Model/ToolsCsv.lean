import Verif.Model.PyDataset
/-
Model of the two scripts that turn foreign chroma files into the program's format:
/repo/tools/billboard/bothchroma2chroma.py:9-21 and /repo/tools/cross-era/remove_column.py:9-21.

Simplifications: one file at a time, given by its text after the text layer has turned `\r\n` into `\n`; the temporary
file is the result.  `csv.reader` is CPython's state machine with its default dialect (trusted base).
-/

namespace JKD.Tools

/-- The states of `csv.reader` (CPython Modules/_csv.c, `parse_process_char`; no escape character, not strict). -/
inductive CsvState
  | startRecord | startField | inField | inQuoted | quoteInQuoted
  deriving DecidableEq

/-- `csv.reader(file)` (bothchroma2chroma.py:16, remove_column.py:16) as a list of rows.  `cur` is the current cell and
`row` the cells before it, both reversed. -/
def csvReader : Str → CsvState → Str → List Str → List (List Str)
  | [], .startRecord, _, _ => []
  | [], .startField, _, row => [(([] : Str) :: row).reverse]
  | [], _, cur, row => [(cur.reverse :: row).reverse]
  | c :: s, .startRecord, _, _ =>
    if c = '\n' then [] :: csvReader s .startRecord [] []
    else if c = '"' then csvReader s .inQuoted [] []
    else if c = ',' then csvReader s .startField [] [[]]
    else csvReader s .inField [c] []
  | c :: s, .startField, _, row =>
    if c = '\n' then (([] : Str) :: row).reverse :: csvReader s .startRecord [] []
    else if c = '"' then csvReader s .inQuoted [] row
    else if c = ',' then csvReader s .startField [] ([] :: row)
    else csvReader s .inField [c] row
  | c :: s, .inField, cur, row =>
    if c = '\n' then (cur.reverse :: row).reverse :: csvReader s .startRecord [] []
    else if c = ',' then csvReader s .startField [] (cur.reverse :: row)
    else csvReader s .inField (c :: cur) row
  | c :: s, .inQuoted, cur, row =>
    if c = '"' then csvReader s .quoteInQuoted cur row else csvReader s .inQuoted (c :: cur) row
  | c :: s, .quoteInQuoted, cur, row =>
    if c = '"' then csvReader s .inQuoted (c :: cur) row
    else if c = '\n' then (cur.reverse :: row).reverse :: csvReader s .startRecord [] []
    else if c = ',' then csvReader s .startField [] (cur.reverse :: row)
    else csvReader s .inField (c :: cur) row

/-- The rows of a file. -/
def readCsv (text : Str) : List (List Str) := csvReader text .startRecord [] []

/-- `','.join(row)` and the newline (bothchroma2chroma.py:19-20, remove_column.py:19-20). -/
def joinRow : List Str → Str
  | [] => ['\n']
  | [s] => s ++ ['\n']
  | s :: l => s ++ ',' :: joinRow l

/-- The new contents of one file (bothchroma2chroma.py:15-20): `row[1:2] + row[14:]`. -/
def bothToChroma (text : Str) : Str :=
  (readCsv text).flatMap (fun row => joinRow ((row.drop 1).take 1 ++ row.drop 14))

/-- The new contents of one file (remove_column.py:15-20): `row[1:]`. -/
def removeColumn (text : Str) : Str :=
  (readCsv text).flatMap (fun row => joinRow (row.drop 1))

end JKD.Tools
