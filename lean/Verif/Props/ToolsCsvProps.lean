import Verif.Model.ToolsCsv
import Verif.Props.ChromagramProps
/-
C106: foreign chroma files, converted, are read by the program with nothing lost or moved.
-/

namespace JKD.Tools

open Chromagram

variable {D : Type}

/-! ### Specification -/

/-- A cell that needs no quotation marks. -/
def Plain (s : Str) : Prop := ',' ∉ s ∧ '\n' ∉ s ∧ '"' ∉ s

instance (s : Str) : Decidable (Plain s) := inferInstanceAs (Decidable (_ ∧ _))

/-- How a cell may be written in the file: as it is if it is plain, or between quotation marks with those inside it
doubled. -/
inductive Written : Str → Str → Prop
  | plain (s : Str) (h : Plain s) : Written s s
  | quoted (s : Str) : Written s ('"' :: (s.flatMap (fun c => if c = '"' then ['"', '"'] else [c])) ++ ['"'])

/-- A line of a file: first column, time, bass chroma, treble chroma. -/
structure BothRow (D : Type) where
  first : Str × Str
  bass : List Str
  treble : Row D

/-- The line as it stands in the file. -/
def BothRow.text (r : BothRow D) : Str :=
  r.first.2 ++ ',' :: r.treble.time.1 ++ r.bass.flatMap (fun p => ',' :: p) ++ r.treble.vals.flatMap (fun p => ',' :: p.1)

/-- The first column is written in one of the two ways; the numbers are plain; there are twelve and twelve. -/
structure BothRow.Ok (r : BothRow D) : Prop where
  first : Written r.first.1 r.first.2
  time : Plain r.treble.time.1
  bass : r.bass.length = 12 ∧ ∀ p ∈ r.bass, Plain p
  vals : r.treble.vals.length = 12 ∧ ∀ p ∈ r.treble.vals, Plain p.1

/-- The whole file. -/
def bothText (rows : List (BothRow D)) : Str := rows.flatMap (fun r => r.text ++ ['\n'])

/-- A file with an extra first column: `first,time,v1,...`. -/
def extraText (rows : List ((Str × Str) × Row D)) : Str := rows.flatMap (fun r => r.1.2 ++ ',' :: r.2.text ++ ['\n'])

/-! ### The reader -/

/-- The text up to and including the separator `d` behind a plain rest of a cell. -/
theorem inField_plain (s : Str) (hs : ',' ∉ s ∧ '\n' ∉ s) (rest cur : Str) (row : List Str) :
    csvReader (s ++ ',' :: rest) .inField cur row = csvReader rest .startField [] ((cur.reverse ++ s) :: row) ∧
    csvReader (s ++ '\n' :: rest) .inField cur row = ((cur.reverse ++ s) :: row).reverse :: csvReader rest .startRecord [] [] := by
  induction s generalizing cur with
  | nil => simp [csvReader]
  | cons c s ih =>
    have h1 : c ≠ ',' := by rintro rfl; simp at hs
    have h2 : c ≠ '\n' := by rintro rfl; simp at hs
    obtain ⟨a, b⟩ := ih ⟨fun h => hs.1 (by simp [h]), fun h => hs.2 (by simp [h])⟩ (c :: cur)
    simp only [List.cons_append, csvReader, if_neg h1, if_neg h2]
    rw [a, b]
    simp

theorem inQuoted_quoted (s : Str) (rest cur : Str) (row : List Str) :
    csvReader ((s.flatMap (fun c => if c = '"' then ['"', '"'] else [c])) ++ '"' :: rest) .inQuoted cur row =
      csvReader rest .quoteInQuoted (s.reverse ++ cur) row := by
  induction s generalizing cur with
  | nil => simp [csvReader]
  | cons c s ih =>
    by_cases hc : c = '"'
    · subst hc
      simp only [List.flatMap_cons, if_true, List.cons_append, List.nil_append, csvReader]
      rw [ih]
      simp
    · simp only [List.flatMap_cons, if_neg hc, List.cons_append, List.nil_append, csvReader]
      rw [ih]
      simp

theorem startField_plain (s : Str) (hs : Plain s) (rest : Str) (row : List Str) :
    csvReader (s ++ ',' :: rest) .startField [] row = csvReader rest .startField [] (s :: row) ∧
    csvReader (s ++ '\n' :: rest) .startField [] row = (s :: row).reverse :: csvReader rest .startRecord [] [] := by
  obtain ⟨h1, h2, h3⟩ := hs
  cases s with
  | nil => simp [csvReader]
  | cons c s =>
    have n1 : c ≠ ',' := by rintro rfl; simp at h1
    have n2 : c ≠ '\n' := by rintro rfl; simp at h2
    have n3 : c ≠ '"' := by rintro rfl; simp at h3
    obtain ⟨a, b⟩ := inField_plain s ⟨fun h => h1 (by simp [h]), fun h => h2 (by simp [h])⟩ rest [c] row
    simp only [List.cons_append, csvReader, if_neg n1, if_neg n2, if_neg n3]
    rw [a, b]
    simp

theorem startRecord_written {s w : Str} (h : Written s w) (rest : Str) :
    csvReader (w ++ ',' :: rest) .startRecord [] [] = csvReader rest .startField [] [s] := by
  cases h with
  | plain hs =>
    obtain ⟨h1, h2, h3⟩ := hs
    cases s with
    | nil => simp [csvReader]
    | cons c s =>
      have n1 : c ≠ ',' := by rintro rfl; simp at h1
      have n2 : c ≠ '\n' := by rintro rfl; simp at h2
      have n3 : c ≠ '"' := by rintro rfl; simp at h3
      obtain ⟨a, -⟩ := inField_plain s ⟨fun h => h1 (by simp [h]), fun h => h2 (by simp [h])⟩ rest [c] []
      simp only [List.cons_append, csvReader, if_neg n1, if_neg n2, if_neg n3]
      rw [a]
      simp
  | quoted =>
    have := inQuoted_quoted s (',' :: rest) [] []
    have e : ('"' :: (s.flatMap (fun c => if c = '"' then ['"', '"'] else [c])) ++ ['"']) ++ ',' :: rest =
        '"' :: (s.flatMap (fun c => if c = '"' then ['"', '"'] else [c]) ++ '"' :: ',' :: rest) := by simp
    rw [e, csvReader, if_neg (by decide), if_pos rfl, this]
    simp [csvReader]

/-- Plain cells up to the end of the line. -/
theorem startField_cells (cells : List Str) (hc : ∀ c ∈ cells, Plain c) (s : Str) (hs : Plain s) (rest : Str) (row : List Str) :
    csvReader (s ++ cells.flatMap (fun p => ',' :: p) ++ '\n' :: rest) .startField [] row =
      (row.reverse ++ s :: cells) :: csvReader rest .startRecord [] [] := by
  induction cells generalizing s row with
  | nil =>
    simp only [List.flatMap_nil, List.append_nil]
    rw [(startField_plain s hs rest row).2]
    simp
  | cons c cells ih =>
    have := ih (fun c h => hc c (by simp [h])) c (hc c (by simp)) (s :: row)
    simp only [List.flatMap_cons, List.append_assoc, List.cons_append] at this ⊢
    rw [(startField_plain s hs _ row).1, this]
    simp

theorem both_line (r : BothRow D) (h : r.Ok) (rest : Str) :
    csvReader (r.text ++ '\n' :: rest) .startRecord [] [] =
      (r.first.1 :: r.treble.time.1 :: (r.bass ++ r.treble.vals.map Prod.fst)) :: csvReader rest .startRecord [] [] := by
  have h2 := startField_cells (r.bass ++ r.treble.vals.map Prod.fst) (by
    intro c hc
    rcases List.mem_append.1 hc with hc | hc
    · exact h.bass.2 c hc
    · obtain ⟨p, hp, rfl⟩ := List.mem_map.1 hc
      exact h.vals.2 p hp) r.treble.time.1 h.time rest [r.first.1]
  have e : r.text ++ '\n' :: rest = r.first.2 ++ ',' ::
      (r.treble.time.1 ++ (r.bass ++ r.treble.vals.map Prod.fst).flatMap (fun p => ',' :: p) ++ '\n' :: rest) := by
    unfold BothRow.text
    simp [List.flatMap_append, List.flatMap_map]
  rw [e, startRecord_written h.first, h2]
  simp

theorem both_rows (rows : List (BothRow D)) (h : ∀ r ∈ rows, r.Ok) :
    readCsv (bothText rows) = rows.map (fun r => r.first.1 :: r.treble.time.1 :: (r.bass ++ r.treble.vals.map Prod.fst)) := by
  unfold readCsv bothText
  induction rows with
  | nil => rfl
  | cons r rows ih =>
    have := both_line r (h r (by simp)) (rows.flatMap (fun r => r.text ++ ['\n']))
    rw [List.flatMap_cons, List.append_assoc, List.singleton_append, this, List.map_cons,
      ih (fun r hr => h r (by simp [hr]))]

theorem joinRow_cons (s : Str) (l : List Str) : joinRow (s :: l) = s ++ l.flatMap (fun p => ',' :: p) ++ ['\n'] := by
  induction l generalizing s with
  | nil => simp [joinRow]
  | cons a l ih => simp [joinRow, ih]

theorem joinRow_row (r : Row D) : joinRow (r.time.1 :: r.vals.map Prod.fst) = r.text ++ ['\n'] := by
  rw [joinRow_cons]
  simp [Row.text, List.flatMap_map]

theorem extra_rows (rows : List ((Str × Str) × Row D)) (h : ∀ r ∈ rows, Written r.1.1 r.1.2)
    (hp : ∀ r ∈ rows, Plain r.2.time.1 ∧ ∀ p ∈ r.2.vals, Plain p.1) :
    readCsv (extraText rows) = rows.map (fun r => r.1.1 :: r.2.time.1 :: r.2.vals.map Prod.fst) := by
  unfold readCsv extraText
  induction rows with
  | nil => rfl
  | cons r rows ih =>
    have h2 := startField_cells (r.2.vals.map Prod.fst) (by
      intro c hc
      obtain ⟨p, hp', rfl⟩ := List.mem_map.1 hc
      exact (hp r (by simp)).2 p hp') r.2.time.1 (hp r (by simp)).1
      (rows.flatMap (fun r => r.1.2 ++ ',' :: r.2.text ++ ['\n'])) [r.1.1]
    have e : (r :: rows).flatMap (fun r => r.1.2 ++ ',' :: r.2.text ++ ['\n']) = r.1.2 ++ ',' ::
        (r.2.time.1 ++ (r.2.vals.map Prod.fst).flatMap (fun p => ',' :: p) ++
          '\n' :: rows.flatMap (fun r => r.1.2 ++ ',' :: r.2.text ++ ['\n'])) := by
      simp [Row.text, List.flatMap_map]
    rw [e, startRecord_written (h r (by simp)), h2, List.map_cons,
      ih (fun r hr => h r (by simp [hr])) (fun r hr => hp r (by simp [hr]))]
    simp

/-- A file the program itself would read, seen by `csv.reader`. -/
theorem plain_rows (rows : List (Row D)) (hp : ∀ r ∈ rows, Plain r.time.1 ∧ r.time.1 ≠ [] ∧ ∀ p ∈ r.vals, Plain p.1)
    (hv : ∀ r ∈ rows, r.vals ≠ []) :
    readCsv (csvText rows) = rows.map (fun r => r.time.1 :: r.vals.map Prod.fst) := by
  unfold readCsv csvText
  induction rows with
  | nil => rfl
  | cons r rows ih =>
    obtain ⟨h1, -, h3⟩ := hp r (by simp)
    have hne := hv r (by simp)
    obtain ⟨p, vs, hvs⟩ := List.exists_cons_of_ne_nil hne
    rw [hvs] at h3
    have h2 := startField_cells (vs.map Prod.fst) (by
      intro c hc
      obtain ⟨p, hp', rfl⟩ := List.mem_map.1 hc
      exact h3 p (by simp [hp'])) p.1 (h3 p (by simp))
      (rows.flatMap (fun r => r.text ++ ['\n'])) [r.time.1]
    have e : (r :: rows).flatMap (fun r => r.text ++ ['\n']) = r.time.1 ++ ',' ::
        (p.1 ++ (vs.map Prod.fst).flatMap (fun p => ',' :: p) ++
          '\n' :: rows.flatMap (fun r => r.text ++ ['\n'])) := by
      simp [Row.text, List.flatMap_map, hvs]
    rw [e, startRecord_written (.plain _ h1), h2, List.map_cons,
      ih (fun r hr => hp r (by simp [hr])) (fun r hr => hv r (by simp [hr]))]
    simp [hvs]

/-! ### C106 -/

/-- **C106, conversion.**  A file of lines with a name (or nothing) in the first column, quoted or not, the time, the
twelve bass and the twelve treble values becomes the file with the time and the treble values. -/
theorem C106_both (rows : List (BothRow D)) (h : ∀ r ∈ rows, r.Ok) :
    bothToChroma (bothText rows) = csvText (rows.map BothRow.treble) := by
  unfold bothToChroma csvText
  rw [both_rows rows h, List.flatMap_map, List.flatMap_map]
  refine List.flatMap_congr ?_
  intro r hr
  have hb := (h r hr).bass.1
  have : List.drop 12 (r.bass ++ r.treble.vals.map Prod.fst) = r.treble.vals.map Prod.fst := by
    rw [← hb, List.drop_left]
  simp only [List.drop_succ_cons, List.drop_zero, List.take_succ_cons, List.take_zero, this, List.singleton_append]
  exact joinRow_row r.treble

/-- **C106, first column.**  A file with one more column in front becomes the file without it. -/
theorem C106_first_column (rows : List ((Str × Str) × Row D)) (h : ∀ r ∈ rows, Written r.1.1 r.1.2)
    (hp : ∀ r ∈ rows, Plain r.2.time.1 ∧ ∀ p ∈ r.2.vals, Plain p.1) :
    removeColumn (extraText rows) = csvText (rows.map Prod.snd) := by
  unfold removeColumn csvText
  rw [extra_rows rows h hp, List.flatMap_map, List.flatMap_map]
  refine List.flatMap_congr ?_
  intro r _
  exact joinRow_row r.2

/-- **C106, reading.**  The program reads the converted file as one frame per line, in order of time, with the treble
values: column 15 of the original (the first treble value) is pitch class A, and so on. -/
theorem C106_read {F : FPU D} (hF : OrderLaws F) (stof : Str → Res D) (rows : List (BothRow D)) (h : ∀ r ∈ rows, r.Ok)
    (hn : ∀ r ∈ rows, r.treble.Ok F stof)
    (hdist : rows.Pairwise (fun a b => F.lt a.treble.time.2 b.treble.time.2 = true ∨
      F.lt b.treble.time.2 a.treble.time.2 = true)) :
    ∃ m, csvLines F stof (bothToChroma (bothText rows)) = .ok m ∧
      m.Pairwise (fun p q => F.lt p.1 q.1 = true) ∧
      m.Perm (rows.map (fun r => (r.treble.time.2,
        (List.range 12).map (fun i => (r.treble.vals.map Prod.snd).getD ((i + 3) % 12) F.zero)))) := by
  rw [C106_both rows h]
  obtain ⟨m, h1, h2, h3⟩ := C30_csv hF stof (rows.map BothRow.treble) (by
    intro r hr
    obtain ⟨b, hb, rfl⟩ := List.mem_map.1 hr
    exact ⟨hn b hb, (h b hb).vals.1⟩) (by rw [List.pairwise_map]; exact hdist)
  refine ⟨m, h1, h2, h3.trans (.of_eq ?_)⟩
  rw [List.map_map]
  refine List.map_congr_left ?_
  intro r hr
  simp [Row.frame]

/-- **C106, second run.**  Running the script again on a converted folder, which nothing prevents and
which overwrites the files, leaves one number per line: the time and eleven of the twelve values are gone, so files with
different contents become equal. -/
theorem C106_second_run (rows : List (BothRow D)) (h : ∀ r ∈ rows, r.Ok)
    (ht : ∀ r ∈ rows, r.treble.time.1 ≠ []) :
    bothToChroma (bothToChroma (bothText rows)) =
      rows.flatMap (fun r => ((r.treble.vals.map Prod.fst).headD []) ++ ['\n']) := by
  rw [C106_both rows h]
  unfold bothToChroma
  rw [plain_rows (rows.map BothRow.treble) (by
    intro r hr
    obtain ⟨b, hb, rfl⟩ := List.mem_map.1 hr
    exact ⟨(h b hb).time, ht b hb, (h b hb).vals.2⟩) (by
    intro r hr
    obtain ⟨b, hb, rfl⟩ := List.mem_map.1 hr
    intro h0
    have := (h b hb).vals.1
    simp [h0] at this), List.flatMap_map, List.flatMap_map]
  refine List.flatMap_congr ?_
  intro r hr
  have hl := (h r hr).vals.1
  match hv : r.treble.vals, hl with
  | [a, b, c, d, e, f, g, i, j, k, l, m], _ => simp [joinRow]

/-! ### Example -/

/-- A Billboard line: a quoted path with a comma in the first column, time 0, bass 1…, treble 2…. -/
def sampleRow (first : Str × Str) (t : Str × ℤ) : BothRow ℤ :=
  ⟨first, List.replicate 12 "1".toList, ⟨t, List.replicate 12 ("2".toList, 2)⟩⟩

example : (sampleRow ("a,b".toList, "\"a,b\"".toList) ("0".toList, 0)).Ok :=
  ⟨.quoted ['a', ',', 'b'], by decide, ⟨by decide, by decide⟩, ⟨by decide, by decide⟩⟩

example : (sampleRow ([], []) ("1".toList, 1)).Ok :=
  ⟨.plain [] (by decide), by decide, ⟨by decide, by decide⟩, ⟨by decide, by decide⟩⟩

example : bothToChroma "\"a,b\",0,1,1,1,1,1,1,1,1,1,1,1,1,2,2,2,2,2,2,2,2,2,2,2,3\n".toList =
    "0,2,2,2,2,2,2,2,2,2,2,2,3\n".toList := by decide +kernel

example : removeColumn "x,0,1,2\n,1,3,4\n".toList = "0,1,2\n1,3,4\n".toList := by decide +kernel

end JKD.Tools
