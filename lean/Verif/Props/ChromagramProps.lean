import Verif.Lemmas.Chromagram
import Verif.FP.RD
import Mathlib.Data.List.SplitBy
/-
C28-C33: reading, discretising, exporting a chromagram and turning it into pitch classes.
-/

namespace JKD
namespace Chromagram

variable {D S P T : Type} {F : FPU D}

/-! ### C30: columns start at A -/

/-- A row of a CSV file: timestamp and values, each as the text in the file and the number it denotes. -/
structure Row (D : Type) where
  time : Str × D
  vals : List (Str × D)

/-- The text of a row, without the newline: `t,v1,...`. -/
def Row.text (r : Row D) : Str := r.time.1 ++ r.vals.flatMap (fun p => ',' :: p.1)

/-- Tokens of a row contain no separator and are not empty, and `std::stof` understands them; the
timestamp is not NaN. -/
structure Row.Ok (F : FPU D) (stof : Str → Res D) (r : Row D) : Prop where
  time_num : F.eq r.time.2 r.time.2 = true
  time_tok : ',' ∉ r.time.1 ∧ '\n' ∉ r.time.1 ∧ r.time.1 ≠ [] ∧ stof r.time.1 = .ok r.time.2
  val_tok : ∀ p ∈ r.vals, ',' ∉ p.1 ∧ '\n' ∉ p.1 ∧ p.1 ≠ [] ∧ stof p.1 = .ok p.2

/-- The 12 values of a row by pitch class: the columns are A, A#, B, C, ..., so pitch class `pc` (0 = C) is
column `(pc + 3) mod 12`. -/
def Row.frame (F : FPU D) (r : Row D) : List D :=
  (List.range 12).map (fun pc => (r.vals.map Prod.snd).getD ((pc + 3) % 12) F.zero)

/-- The writes of the columns `i, i+1, ...` into one array. -/
def setCols (i : Nat) (xs : List D) (v : List D) : List D :=
  match xs with
  | [] => v
  | x :: xs => setCols (i + 1) xs (v.set ((9 + i) % 12) x)

theorem setCols_length (i : Nat) (xs v : List D) : (setCols i xs v).length = v.length := by
  induction xs generalizing i v with
  | nil => rfl
  | cons x xs ih => simp [setCols, ih]

theorem setCols_twelve (F : FPU D) (r : Row D) (h : r.vals.length = 12) (v : List D) (hv : v.length = 12) :
    setCols 0 (r.vals.map Prod.snd) v = r.frame F := by
  unfold Row.frame
  have hx : (r.vals.map Prod.snd).length = 12 := by simpa using h
  generalize r.vals.map Prod.snd = xs at hx ⊢
  obtain ⟨x0, x1, x2, x3, x4, x5, x6, x7, x8, x9, x10, x11, rfl⟩ :
      ∃ a b c d e f g h i j k l, xs = [a, b, c, d, e, f, g, h, i, j, k, l] := by
    match xs, hx with
    | [a, b, c, d, e, f, g, h, i, j, k, l], _ => exact ⟨a, b, c, d, e, f, g, h, i, j, k, l, rfl⟩
  match v, hv with
  | [a, b, c, d, e, f, g, h, i, j, k, l], _ => rfl

theorem csvTokens_vals (hF : OrderLaws F) (stof : Str → Res D) (vals : List (Str × D))
    (hv : ∀ p ∈ vals, stof p.1 = .ok p.2) (t : D) (ht : F.eq t t = true) (i : Nat) (m : CMap D)
    (f : List D → List D) :
    csvTokens F stof (vals.map Prod.fst) (i + 1) t (m.modify F t f) =
      .ok (t, m.modify F t (fun v => setCols i (vals.map Prod.snd) (f v))) := by
  induction vals generalizing i f with
  | nil => simp [csvTokens, setCols]
  | cons p vals ih =>
    have h1 := hv p (by simp)
    have hi : (9 + i) % 12 < 12 := Nat.mod_lt _ (by decide)
    simp only [List.map_cons, csvTokens, Nat.add_eq_zero_iff, Nat.one_ne_zero, and_false, if_false,
      h1, Res.bind_ok, Nat.add_sub_cancel, pcANatural, numPitchClasses]
    rw [CMap.assign_ok ht hi, Res.bind_ok, CMap.modify_modify hF]
    rw [ih (fun p hp => hv p (by simp [hp]))]
    rfl

/-- One row is one write of its frame. -/
theorem csvTokens_row (hF : OrderLaws F) (stof : Str → Res D) (r : Row D) (hr : r.Ok F stof)
    (hlen : r.vals.length = 12) (t₀ : D) {m : CMap D} (hm : CMap.WF F m) :
    csvTokens F stof (r.time.1 :: r.vals.map Prod.fst) 0 t₀ m =
      .ok (r.time.2, m.modify F r.time.2 (fun _ => r.frame F)) := by
  have hcong : ∀ f g : List D → List D, (∀ v, v.length = 12 → f v = g v) →
      m.modify F r.time.2 f = m.modify F r.time.2 g := by
    intro f g hfg
    have hl := hm.len
    clear hm
    induction m with
    | nil => simp [CMap.modify, hfg _ (show (CMap.zeros F).length = 12 by simp [CMap.zeros])]
    | cons q m ih =>
      obtain ⟨k, v⟩ := q
      simp only [CMap.modify, ih (fun p hp => hl p (by simp [hp])),
        hfg v (hl (k, v) (by simp)), hfg _ (show (CMap.zeros F).length = 12 by simp [CMap.zeros])]
  match hv : r.vals, hlen with
  | p :: vals, _ =>
    have hval := hr.val_tok
    rw [hv] at hval
    have h1 := (hval p (by simp)).2.2.2
    simp only [List.map_cons, csvTokens, if_true, hr.time_tok.2.2.2, Res.bind_ok, Nat.zero_add,
      Nat.one_ne_zero, if_false, h1, pcANatural, numPitchClasses, Nat.sub_self, Nat.add_zero]
    rw [CMap.assign_ok hr.time_num (by decide), Res.bind_ok]
    have := csvTokens_vals hF stof vals (fun q hq => (hval q (by simp [hq])).2.2.2) r.time.2 hr.time_num
      1 m (fun v => v.set (9 % 12) p.2)
    rw [this]
    congr 2
    apply hcong
    intro v hv12
    have := setCols_twelve F r (by rw [hv]; assumption) v hv12
    rw [hv] at this
    exact this

theorem Row.getlines_text (stof : Str → Res D) (r : Row D) (hr : r.Ok F stof) :
    getlines ',' r.text = r.time.1 :: r.vals.map Prod.fst := by
  have := getlines_sep ',' r.time.1 (r.vals.map Prod.fst) hr.time_tok.1
    (by intro l hl; obtain ⟨p, hp, rfl⟩ := List.mem_map.1 hl; exact (hr.val_tok p hp).1)
    (by intro l hl; obtain ⟨p, hp, rfl⟩ := List.mem_map.1 hl; exact (hr.val_tok p hp).2.2.1)
    hr.time_tok.2.2.1
  rw [← this, Row.text]
  congr 2
  rw [List.flatMap_map]

theorem Row.newline_not_mem (stof : Str → Res D) (r : Row D) (hr : r.Ok F stof) : '\n' ∉ r.text := by
  simp only [Row.text, List.mem_append, List.mem_flatMap, not_or, not_exists, not_and]
  refine ⟨hr.time_tok.2.1, ?_⟩
  intro p hp
  simp only [List.mem_cons, not_or]
  exact ⟨by decide, (hr.val_tok p hp).2.1⟩

/-- The writes of a list of rows. -/
theorem csv_rows (hF : OrderLaws F) (stof : Str → Res D) (rows : List (Row D))
    (hrows : ∀ r ∈ rows, r.Ok F stof ∧ r.vals.length = 12) (t₀ : D) {m : CMap D} (hm : CMap.WF F m) :
    ∃ t₁, forM (rows.map Row.text) (t₀, m)
        (fun s line => csvTokens F stof (getlines ',' line) 0 s.1 s.2) =
      .ok (t₁, rows.foldl (fun m r => m.modify F r.time.2 (fun _ => r.frame F)) m) := by
  induction rows generalizing t₀ m with
  | nil => exact ⟨t₀, rfl⟩
  | cons r rows ih =>
    obtain ⟨hr, hl⟩ := hrows r (by simp)
    simp only [List.map_cons, forM_cons]
    rw [Row.getlines_text stof r hr, csvTokens_row hF stof r hr hl t₀ hm, Res.bind_ok]
    exact ih (fun r hr => hrows r (by simp [hr])) r.time.2
      (hm.modify hF hr.time_num (fun _ _ => by simp [Row.frame]))

/-- The text of a CSV file, one line per row; the newline after the last row is optional. -/
def csvText (rows : List (Row D)) : Str := rows.flatMap (fun r => r.text ++ ['\n'])

theorem csvLines_eq (hF : OrderLaws F) (stof : Str → Res D) (rows : List (Row D))
    (hrows : ∀ r ∈ rows, r.Ok F stof ∧ r.vals.length = 12) :
    csvLines F stof (csvText rows) =
      .ok (rows.foldl (fun m r => m.modify F r.time.2 (fun _ => r.frame F)) []) := by
  have h1 : getlines '\n' (csvText rows) = rows.map Row.text := by
    have := getlines_lines '\n' (rows.map Row.text) (by
      intro l hl
      obtain ⟨r, hr, rfl⟩ := List.mem_map.1 hl
      exact Row.newline_not_mem stof r (hrows r hr).1)
    rw [← this, csvText, List.flatMap_map]
  obtain ⟨t₁, h2⟩ := csv_rows hF stof rows hrows F.zero CMap.WF.nil
  simp only [csvLines, h1, h2, Res.bind_ok]
  rfl

theorem csvLines_last (hF : OrderLaws F) (stof : Str → Res D) (rows : List (Row D)) (last : Row D)
    (hrows : ∀ r ∈ rows ++ [last], r.Ok F stof ∧ r.vals.length = 12) :
    csvLines F stof (csvText rows ++ last.text) = csvLines F stof (csvText (rows ++ [last])) := by
  rw [csvLines_eq hF stof _ hrows]
  have hlast := (hrows last (by simp)).1
  have h1 : getlines '\n' (csvText rows ++ last.text) = (rows ++ [last]).map Row.text := by
    have := getlines_lines_last '\n' (rows.map Row.text) last.text (by
      intro l hl
      obtain ⟨r, hr, rfl⟩ := List.mem_map.1 hl
      exact Row.newline_not_mem stof r (hrows r (by simp [hr])).1)
      (Row.newline_not_mem stof last hlast)
      (by simp [Row.text, hlast.time_tok.2.2.1])
    rw [csvText, List.map_append, List.map_singleton, ← this, List.flatMap_map]
  obtain ⟨t₁, h2⟩ := csv_rows hF stof (rows ++ [last]) hrows F.zero CMap.WF.nil
  simp only [csvLines, h1, h2, Res.bind_ok]
  rfl

theorem fold_spec (hF : OrderLaws F) (rows : List (Row D))
    (hnum : ∀ r ∈ rows, F.eq r.time.2 r.time.2 = true) {m : CMap D} (hm : CMap.WF F m)
    (hdist : rows.Pairwise (fun a b => F.lt a.time.2 b.time.2 = true ∨ F.lt b.time.2 a.time.2 = true))
    (hnew : ∀ r ∈ rows, ∀ p ∈ m, F.lt p.1 r.time.2 = true ∨ F.lt r.time.2 p.1 = true) :
    CMap.WF F (rows.foldl (fun m r => m.modify F r.time.2 (fun _ => r.frame F)) m) ∧
    (rows.foldl (fun m r => m.modify F r.time.2 (fun _ => r.frame F)) m).Perm
      (rows.map (fun r => (r.time.2, r.frame F)) ++ m) := by
  induction rows generalizing m with
  | nil => exact ⟨hm, by simp⟩
  | cons r rows ih =>
    simp only [List.foldl_cons, List.map_cons, List.cons_append]
    have hwf : CMap.WF F (m.modify F r.time.2 (fun _ => r.frame F)) :=
      hm.modify hF (hnum r (by simp)) (fun _ _ => by simp [Row.frame])
    have hp := CMap.modify_new m r.time.2 (fun _ => r.frame F) (hnew r (by simp))
    rw [List.pairwise_cons] at hdist
    have := ih (m := m.modify F r.time.2 (fun _ => r.frame F)) (fun r hr => hnum r (by simp [hr])) hwf
      hdist.2 (by
        intro r' hr' p hp'
        rcases List.mem_cons.1 (hp.mem_iff.1 hp') with h | h
        · rw [h]; exact hdist.1 r' hr'
        · exact hnew r' (by simp [hr']) p h)
    refine ⟨this.1, this.2.trans ?_⟩
    refine (List.Perm.append_left _ hp).trans ?_
    exact List.perm_middle

/-- **C30.**  A CSV file whose rows have 12 numbers after the timestamp and pairwise different timestamps,
in any order, with or without a final newline, is read as one frame per row: frames in increasing time
order, each with the row's timestamp and with column 1 at A, column 2 at A#, ... column 12 at G#. -/
theorem C30_csv (hF : OrderLaws F) (stof : Str → Res D) (rows : List (Row D))
    (hrows : ∀ r ∈ rows, r.Ok F stof ∧ r.vals.length = 12)
    (hdist : rows.Pairwise (fun a b => F.lt a.time.2 b.time.2 = true ∨ F.lt b.time.2 a.time.2 = true)) :
    ∃ m, csvLines F stof (csvText rows) = .ok m ∧
      m.Pairwise (fun p q => F.lt p.1 q.1 = true) ∧
      m.Perm (rows.map (fun r => (r.time.2, r.frame F))) := by
  have := fold_spec hF rows (fun r hr => (hrows r hr).1.time_num) CMap.WF.nil hdist (by simp)
  exact ⟨_, csvLines_eq hF stof rows hrows, this.1.sorted, by simpa using this.2⟩

/-- The frame of a row, column by column: column `i` (0 = first after the timestamp) is pitch class
`(9 + i) mod 12`, that is A, A#, B, C, ... -/
theorem C30_columns (r : Row D) (h : r.vals.length = 12) (i : Nat) (hi : i < 12) :
    (r.frame F)[(9 + i) % 12]? = (r.vals[i]?).map Prod.snd := by
  have h12 : (9 + i) % 12 < 12 := Nat.mod_lt _ (by decide)
  have h3 : ((9 + i) % 12 + 3) % 12 = i := by omega
  simp only [Row.frame, List.getElem?_map, List.getElem?_range h12, Option.map_some, h3]
  rw [List.getD_eq_getElem?_getD]
  simp [h, hi]

/-- **C30, final newline.**  Leaving out the newline after the last row changes nothing. -/
theorem C30_last_line (hF : OrderLaws F) (stof : Str → Res D) (rows : List (Row D)) (last : Row D)
    (hrows : ∀ r ∈ rows ++ [last], r.Ok F stof ∧ r.vals.length = 12) :
    csvLines F stof (csvText rows ++ last.text) = csvLines F stof (csvText (rows ++ [last])) :=
  csvLines_last hF stof rows last hrows

/-- **C30, repeated timestamps.**  The frame at a time is that of the last row with this time; times that
occur in no row have no frame. -/
theorem C30_last_wins (hF : OrderLaws F) (stof : Str → Res D) (rows : List (Row D))
    (hrows : ∀ r ∈ rows, r.Ok F stof ∧ r.vals.length = 12) :
    ∃ m, csvLines F stof (csvText rows) = .ok m ∧ CMap.WF F m ∧
      ∀ t, F.eq t t = true → CMap.find? F m t =
        (rows.reverse.find? (fun r => !(F.lt r.time.2 t || F.lt t r.time.2))).map (Row.frame F) := by
  refine ⟨_, csvLines_eq hF stof rows hrows, ?_⟩
  have key : ∀ rs : List (Row D), (∀ r ∈ rs, F.eq r.time.2 r.time.2 = true) →
      CMap.WF F (rs.reverse.foldl (fun m r => m.modify F r.time.2 (fun _ => r.frame F)) []) ∧
      ∀ t, F.eq t t = true →
        CMap.find? F (rs.reverse.foldl (fun m r => m.modify F r.time.2 (fun _ => r.frame F)) []) t =
        (rs.find? (fun r => !(F.lt r.time.2 t || F.lt t r.time.2))).map (Row.frame F) := by
    intro rs
    induction rs with
    | nil => intro _; exact ⟨CMap.WF.nil, fun _ _ => rfl⟩
    | cons r rs ih =>
      intro hnum
      obtain ⟨h1, h2⟩ := ih (fun r hr => hnum r (by simp [hr]))
      have hr := hnum r (by simp)
      simp only [List.reverse_cons, List.foldl_append, List.foldl_cons, List.foldl_nil]
      refine ⟨h1.modify hF hr (fun _ _ => by simp [Row.frame]), ?_⟩
      intro t ht
      rw [CMap.find?_modify hF h1 _ _ hr ht]
      by_cases hh : (F.lt r.time.2 t || F.lt t r.time.2) = true
      · rw [if_pos hh, h2 t ht, List.find?_cons_of_neg (by simp [hh])]
      · rw [if_neg hh, List.find?_cons_of_pos (by simpa using hh)]
        rfl
  have := key rows.reverse (fun r hr => (hrows r (by simpa using hr)).1.time_num)
  rwa [List.reverse_reverse] at this

/-! ### C28: export and import -/

/-- The row that prints one frame of a chromagram: columns from A. -/
def exportRow (F : FPU D) (sh : D → Str) (r : D → D) (fr : D × List D) : Row D :=
  { time := (sh fr.1, r fr.1)
    vals := (List.range 12).map (fun i => let x := fr.2.getD ((9 + i) % 12) F.zero; (sh x, r x)) }

theorem export_text (sh : D → Str) (r : D → D) (c : Chromagram D)
    (hs : c.status = statusChromaDiscreteReady) :
    printOriginalChromagram F sh true c = csvText (c.original.map (exportRow F sh r)) := by
  have h1 : ¬ (c.status ≠ statusChromaOriginalReady ∧ c.status ≠ statusChromaDiscreteReady) := by
    simp [hs]
  rw [printOriginalChromagram, if_neg h1, csvText, List.flatMap_map]
  simp only [printLine, Row.text, exportRow, List.flatMap_map, if_true, pcANatural, numPitchClasses]

theorem exportRow_frame (sh : D → Str) (r : D → D) (fr : D × List D) (h : fr.2.length = 12) :
    (exportRow F sh r fr).frame F = fr.2.map r := by
  obtain ⟨t, v⟩ := fr
  match v, h with
  | [a, b, c, d, e, f, g, h, i, j, k, l], _ => rfl

/-- Text conversion is usable on a chromagram: what is printed for one of its numbers is not empty, has no
comma or newline, and is read back as `r` of the number. -/
structure Prints (stof : Str → Res D) (sh : D → Str) (r : D → D) (m : CMap D) : Prop where
  time : ∀ fr ∈ m, ',' ∉ sh fr.1 ∧ '\n' ∉ sh fr.1 ∧ sh fr.1 ≠ [] ∧ stof (sh fr.1) = .ok (r fr.1)
  val : ∀ fr ∈ m, ∀ x ∈ fr.2, ',' ∉ sh x ∧ '\n' ∉ sh x ∧ sh x ≠ [] ∧ stof (sh x) = .ok (r x)

/-- **C28, general form.**  A chromagram exported with `--chromaonly` and read back is the same chromagram
with every number replaced by what reading its printed text gives, provided the printed timestamps are still
in increasing order: no column is moved, no frame lost. -/
theorem C28_export_import (hF : OrderLaws F) (stof : Str → Res D) (sh : D → Str) (r : D → D)
    (c : Chromagram D) (hs : c.status = statusChromaDiscreteReady) (hc : CMap.WF F c.original)
    (hpr : Prints stof sh r c.original) (hnum : ∀ fr ∈ c.original, F.eq (r fr.1) (r fr.1) = true)
    (hr : c.original.Pairwise (fun p q => F.lt (r p.1) (r q.1) = true)) :
    csvLines F stof (printOriginalChromagram F sh true c) =
      .ok (c.original.map (fun fr => (r fr.1, fr.2.map r))) := by
  rw [export_text sh r c hs]
  have hok : ∀ row ∈ c.original.map (exportRow F sh r), row.Ok F stof ∧ row.vals.length = 12 := by
    intro row hrow
    obtain ⟨fr, hfr, rfl⟩ := List.mem_map.1 hrow
    refine ⟨⟨hnum fr hfr, hpr.time fr hfr, ?_⟩, by simp [exportRow]⟩
    intro p hp
    simp only [exportRow, List.mem_map, List.mem_range] at hp
    obtain ⟨i, hi, rfl⟩ := hp
    have h12 : (9 + i) % 12 < fr.2.length := by
      rw [hc.len fr hfr]; exact Nat.mod_lt _ (by decide)
    have hmem : fr.2.getD ((9 + i) % 12) F.zero ∈ fr.2 := by
      rw [List.getD_eq_getElem?_getD, List.getElem?_eq_getElem h12]
      exact List.getElem_mem h12
    exact hpr.val fr hfr _ hmem
  obtain ⟨m, h1, h2, h3⟩ := C30_csv hF stof _ hok (by
    rw [List.pairwise_map]
    exact hr.imp (fun h => Or.inl h))
  rw [h1]
  congr 1
  refine CMap.eq_of_perm hF h2 ?_ (h3.trans ?_)
  · rw [CMap.Sorted, List.pairwise_map]
    exact hr
  · rw [List.map_map]
    refine List.Perm.of_eq (List.map_congr_left ?_)
    intro fr hfr
    simp only [Function.comp]
    rw [exportRow_frame sh r fr (hc.len fr hfr)]
    rfl

/-- **C28.**  When printing loses nothing on the numbers of the chromagram, export followed by import is the
identity. -/
theorem C28_round_trip (hF : OrderLaws F) (stof : Str → Res D) (sh : D → Str)
    (c : Chromagram D) (hs : c.status = statusChromaDiscreteReady) (hc : CMap.WF F c.original)
    (hpr : Prints stof sh id c.original) :
    csvLines F stof (printOriginalChromagram F sh true c) = .ok c.original := by
  rw [C28_export_import hF stof sh id c hs hc hpr hc.num hc.sorted]
  simp

/-- **C28, second export.**  Even when printing loses digits, a second export prints the same text as the
first, provided printing a re-read number gives the same text again. -/
theorem C28_export_stable (hF : OrderLaws F) (stof : Str → Res D) (sh : D → Str) (r : D → D)
    (c : Chromagram D) (hs : c.status = statusChromaDiscreteReady) (hc : CMap.WF F c.original)
    (hpr : Prints stof sh r c.original) (hnum : ∀ fr ∈ c.original, F.eq (r fr.1) (r fr.1) = true)
    (hr : c.original.Pairwise (fun p q => F.lt (r p.1) (r q.1) = true))
    (hsh : ∀ fr ∈ c.original, sh (r fr.1) = sh fr.1 ∧ ∀ x ∈ fr.2, sh (r x) = sh x) :
    ∃ m, csvLines F stof (printOriginalChromagram F sh true c) = .ok m ∧
      printOriginalChromagram F sh true { c with original := m } = printOriginalChromagram F sh true c := by
  refine ⟨_, C28_export_import hF stof sh r c hs hc hpr hnum hr, ?_⟩
  have h1 : ¬ (c.status ≠ statusChromaOriginalReady ∧ c.status ≠ statusChromaDiscreteReady) := by
    simp [hs]
  simp only [printOriginalChromagram, if_neg h1, List.flatMap_map]
  have : ∀ l : CMap D, (∀ fr ∈ l, fr ∈ c.original) →
      l.flatMap (fun fr => printLine sh (r fr.1) ((List.range 12).map (fun i =>
        (fr.2.map r).getD ((pcANatural + i) % numPitchClasses) F.zero))) =
      l.flatMap (fun fr => printLine sh fr.1 ((List.range 12).map (fun i =>
        fr.2.getD ((pcANatural + i) % numPitchClasses) F.zero))) := by
    intro l
    induction l with
    | nil => intro _; rfl
    | cons fr l ih =>
      intro hl
      have hfr := hl fr (by simp)
      simp only [List.flatMap_cons]
      rw [ih (fun fr h => hl fr (by simp [h]))]
      congr 1
      simp only [printLine, (hsh fr hfr).1, List.flatMap_map]
      congr 2
      have hlen := hc.len fr hfr
      refine List.flatMap_congr ?_
      intro i _
      have h12 : (pcANatural + i) % numPitchClasses < fr.2.length := by
        rw [hlen]; exact Nat.mod_lt _ (by decide)
      simp only [List.getD_eq_getElem?_getD, List.getElem?_map, List.getElem?_eq_getElem h12,
        Option.map_some, Option.getD_some]
      rw [(hsh fr hfr).2 _ (List.getElem_mem h12)]
  exact this c.original (fun _ h => h)

/-- **C28, what is lost.**  If two timestamps print as the same text, the re-read chromagram cannot be the
original: it has a single frame for the two. -/
theorem C28_same_text_merges (hF : OrderLaws F) (stof : Str → Res D) (sh : D → Str) (r : D → D)
    (t₁ t₂ : D) (v₁ v₂ : List D) (h12 : sh t₁ = sh t₂)
    (hv₁ : v₁.length = 12) (hv₂ : v₂.length = 12)
    (hpr : Prints stof sh r [(t₁, v₁), (t₂, v₂)]) (hnum : F.eq (r t₂) (r t₂) = true) :
    csvLines F stof (printOriginalChromagram F sh true
      { status := statusChromaDiscreteReady, original := [(t₁, v₁), (t₂, v₂)], discrete := [] }) =
      .ok [(r t₂, v₂.map r)] := by
  have hr : r t₁ = r t₂ := by
    have h1 := (hpr.time (t₁, v₁) (by simp)).2.2.2
    have h2 := (hpr.time (t₂, v₂) (by simp)).2.2.2
    simp only at h1 h2
    rw [h12, h2] at h1
    exact (Res.ok.inj h1).symm
  rw [export_text sh r _ rfl]
  have hok : ∀ row ∈ [exportRow F sh r (t₁, v₁), exportRow F sh r (t₂, v₂)],
      row.Ok F stof ∧ row.vals.length = 12 := by
    have : ∀ fr ∈ [(t₁, v₁), (t₂, v₂)], (exportRow F sh r fr).Ok F stof ∧
        (exportRow F sh r fr).vals.length = 12 := by
      intro fr hfr
      have hlen : fr.2.length = 12 := by
        rcases List.mem_pair.1 hfr with rfl | rfl <;> assumption
      refine ⟨⟨?_, hpr.time fr hfr, ?_⟩, by simp [exportRow]⟩
      · rcases List.mem_pair.1 hfr with rfl | rfl
        · simp only [exportRow, hr, hnum]
        · exact hnum
      · intro p hp
        simp only [exportRow, List.mem_map, List.mem_range] at hp
        obtain ⟨i, hi, rfl⟩ := hp
        have h12 : (9 + i) % 12 < fr.2.length := by
          rw [hlen]; exact Nat.mod_lt _ (by decide)
        have hmem : fr.2.getD ((9 + i) % 12) F.zero ∈ fr.2 := by
          rw [List.getD_eq_getElem?_getD, List.getElem?_eq_getElem h12]
          exact List.getElem_mem h12
        exact hpr.val fr hfr _ hmem
    intro row hrow
    rcases List.mem_pair.1 hrow with rfl | rfl
    · exact this _ (by simp)
    · exact this _ (by simp)
  change csvLines F stof (csvText [exportRow F sh r (t₁, v₁), exportRow F sh r (t₂, v₂)]) = _
  rw [csvLines_eq hF stof _ hok]
  simp only [List.foldl_cons, List.foldl_nil, CMap.modify]
  rw [exportRow_frame sh r (t₁, v₁) hv₁, exportRow_frame sh r (t₂, v₂) hv₂]
  simp [exportRow, hr, hF.irrefl]

/-! ### C31: discretisation is floor -/

theorem assign_all (hF : OrderLaws F) (t : D) (ht : F.eq t t = true) (g : D → D) (v : List D)
    (hv : v.length = 12) (m : CMap D) (hm : ∀ p ∈ m, F.lt p.1 t = true) :
    forM v.zipIdx m (fun m p => m.assign F t p.2 (g p.1)) = .ok (m ++ [(t, v.map g)]) := by
  match v, hv with
  | [a, b, c, d, e, f, x, h, i, j, k, l], _ =>
    simp only [List.zipIdx_cons, List.zipIdx_nil, forM_cons, forM_nil, Nat.reduceAdd]
    simp only [CMap.assign, ht, Bool.true_and, Nat.reduceLT, decide_true, if_true, Res.bind_ok,
      CMap.modify_modify hF]
    rw [CMap.modify_last m t _ hm]
    rfl

/-- **C31.**  Discretising a chromagram keeps timestamps, order and pitch classes and replaces every value
by its floor. -/
theorem C31_discretize (hF : OrderLaws F) (c : Chromagram D) (hc : CMap.WF F c.original)
    (hd : c.discrete = []) :
    discretizeChromagram F c = .ok { c with
      discrete := c.original.map (fun fr => (fr.1, fr.2.map F.floor))
      status := statusChromaDiscreteReady } := by
  have key : ∀ (todo done : CMap D), CMap.WF F (done ++ todo) →
      forM todo (done.map (fun fr => (fr.1, fr.2.map F.floor))) (fun m fr =>
        forM (fr.2.zipIdx) m (fun m p => CMap.assign F m fr.1 p.2 (F.floor p.1))) =
      .ok ((done ++ todo).map (fun fr => (fr.1, fr.2.map F.floor))) := by
    intro todo
    induction todo with
    | nil => intro done _; simp
    | cons fr todo ih =>
      intro done hwf
      have hfr : fr ∈ done ++ fr :: todo := by simp
      rw [forM_cons, assign_all hF fr.1 (hwf.num fr hfr) F.floor fr.2 (hwf.len fr hfr)]
      · rw [Res.bind_ok]
        have := ih (done ++ [fr]) (by simpa using hwf)
        simpa using this
      · intro p hp
        obtain ⟨q, hq, rfl⟩ := List.mem_map.1 hp
        have := (List.pairwise_append.1 hwf.sorted).2.2 q hq fr (by simp)
        exact this
  have := key c.original [] (by simpa using hc)
  simp only [List.map_nil, List.nil_append] at this
  simp only [discretizeChromagram, hd, this, Res.bind_ok]
  rfl

/-! ### C32, C33: the pitch-class sequence -/

theorem pushLoop_nonneg (pc : Int) (n : Nat) (seq : List PitchClass) :
    pushLoop pc n seq = .ok (seq ++ List.replicate n (PitchClass.ofInt pc)) := by
  induction n generalizing seq with
  | zero => rw [pushLoop]; simp
  | succ n ih =>
    have h0 : ((n + 1 : Nat) : Int) ≠ 0 := by omega
    have h1 : ¬ ((n + 1 : Nat) : Int) ≤ intMin := by simp only [intMin]; omega
    have h2 : ((n + 1 : Nat) : Int) - 1 = n := by omega
    rw [pushLoop, if_neg h0, if_neg h1, h2, ih]
    simp [List.replicate_succ, List.append_assoc]

theorem pushLoop_neg (pc : Int) (k : Nat) (n : Int) (hn : n < 0) (hk : (n - intMin).toNat = k)
    (seq : List PitchClass) : pushLoop pc n seq = .ub := by
  induction k generalizing n seq with
  | zero =>
    have h1 : n ≤ intMin := by omega
    rw [pushLoop, if_neg (by omega), if_pos h1]
  | succ k ih =>
    have h1 : ¬ n ≤ intMin := by omega
    rw [pushLoop, if_neg (by omega), if_neg h1]
    exact ih (n - 1) (by omega) (by omega) _

/-- The pitch classes of one frame: pitch class `pc` repeated "value minus one" times, none if the value is
zero, in ascending order. -/
def frameSpec (n : Nat → Int) : List PitchClass :=
  (List.range 12).flatMap (fun pc => List.replicate (n pc - 1).toNat (PitchClass.ofInt (pc : Int)))

/-- A frame of 12 values that are non-negative and fit an `int` when truncated. -/
def Safe (F : FPU D) (v : List D) : Prop :=
  v.length = 12 ∧ ∀ x ∈ v, ∃ n, F.toInt x = some n ∧ 0 ≤ n

/-- The truncated values of a frame. -/
def ints (F : FPU D) (v : List D) (pc : Nat) : Int := ((v[pc]?).bind F.toInt).getD 0

theorem pushPitchClass_nonneg (pc : Nat) (x : D) (n : Int) (hx : F.toInt x = some n) (hn : 0 ≤ n)
    (seq : List PitchClass) :
    pushPitchClass F pc x seq =
      .ok (seq ++ List.replicate (n - 1).toNat (PitchClass.ofInt (pc : Int))) := by
  simp only [pushPitchClass, hx]
  by_cases h0 : n = 0
  · subst h0
    simpa using pushLoop_nonneg pc 0 seq
  · have h1 : ¬ n ≤ intMin := by simp only [intMin]; omega
    obtain ⟨k, hk⟩ : ∃ k : Nat, n - 1 = k := ⟨(n - 1).toNat, by omega⟩
    simp only [ne_eq, h0, not_false_eq_true, if_true, h1, if_false]
    rw [hk, pushLoop_nonneg]
    rfl

theorem pushFrame_aux (v : List D) (hv : ∀ x ∈ v, ∃ n, F.toInt x = some n ∧ 0 ≤ n) (i : Nat)
    (seq : List PitchClass) :
    forM (v.zipIdx i) seq (fun seq p => pushPitchClass F p.2 p.1 seq) =
      .ok (seq ++ (v.zipIdx i).flatMap (fun p =>
        List.replicate ((F.toInt p.1).getD 0 - 1).toNat (PitchClass.ofInt (p.2 : Int)))) := by
  induction v generalizing i seq with
  | nil => simp
  | cons x v ih =>
    obtain ⟨n, hx, hn⟩ := hv x (by simp)
    rw [List.zipIdx_cons, forM_cons, pushPitchClass_nonneg i x n hx hn, Res.bind_ok,
      ih (fun x hx => hv x (by simp [hx]))]
    simp [hx, List.append_assoc]

theorem pushFrame_safe (v : List D) (hv : Safe F v) (seq : List PitchClass) :
    pushFrame F v seq = .ok (seq ++ frameSpec (ints F v)) := by
  obtain ⟨hl, hv⟩ := hv
  rw [pushFrame, pushFrame_aux v hv]
  match v, hl with
  | [a, b, c, d, e, f, x, h, i, j, k, l], _ => rfl

theorem framesLoop_collapse (past : Option (List D)) (run : List (List D)) (v : List D)
    (hrun : List.IsChain (fun a b => sameVector F a b = true) (run ++ [v])) (rest : List (List D))
    (seq : List PitchClass) :
    framesLoop F past (run ++ v :: rest) seq = framesLoop F past (v :: rest) seq := by
  induction run with
  | nil => rfl
  | cons a run ih =>
    have htail : List.IsChain (fun a b => sameVector F a b = true) (run ++ [v]) := by
      rw [List.cons_append] at hrun
      exact hrun.of_cons
    rw [← ih htail]
    cases run with
    | nil =>
      have : sameVector F a v = true := by
        simpa using hrun
      simp [framesLoop, this]
    | cons b run =>
      have : sameVector F a b = true := by
        simp only [List.cons_append, List.isChain_cons_cons] at hrun
        exact hrun.1
      rw [List.cons_append, List.cons_append, framesLoop]
      simp [this]

/-- The reading past the end is not the last frame: the last run is kept. -/
def keepLast (F : FPU D) (g : List D) (runs : List (List (List D))) : List (List (List D)) :=
  match runs.getLast? with
  | none => []
  | some run => if sameVector F (run.getLast?.getD []) g then runs.dropLast else runs

/-- **C32 (partial), run by run.**  Split the frames into maximal runs of equal consecutive frames.  If the
read past the end delivers *some* bytes `g`, the result is, run after run in time order, the pitch classes
of the run's last frame; the last run is lost when `g` happens to equal its last frame.
What is missing for C32: by the standard the read past the end is undefined, see
`C32_reads_past_end_violated`. -/
theorem C32_runs_partial (g : List D) (runs : List (List (List D))) (hne : ∀ run ∈ runs, run ≠ [])
    (hrun : ∀ run ∈ runs, List.IsChain (fun a b => sameVector F a b = true) run)
    (hdiff : List.IsChain (fun r r' => ∀ a b, r.getLast? = some a → r'.head? = some b →
      sameVector F a b = false) runs)
    (hsafe : ∀ run ∈ runs, ∀ v ∈ run, Safe F v) :
    framesLoop F (some g) runs.flatten [] =
      .ok ((keepLast F g runs).flatMap (fun run => frameSpec (ints F (run.getLast?.getD [])))) := by
  have key : ∀ (runs : List (List (List D))) (seq : List PitchClass), (∀ run ∈ runs, run ≠ []) →
      (∀ run ∈ runs, List.IsChain (fun a b => sameVector F a b = true) run) →
      (List.IsChain (fun r r' => ∀ a b, r.getLast? = some a → r'.head? = some b →
        sameVector F a b = false) runs) → (∀ run ∈ runs, ∀ v ∈ run, Safe F v) →
      framesLoop F (some g) runs.flatten seq =
        .ok (seq ++ (keepLast F g runs).flatMap
          (fun run => frameSpec (ints F (run.getLast?.getD [])))) := by
    intro runs
    induction runs with
    | nil => intro seq _ _ _ _; simp [framesLoop, keepLast]
    | cons run runs ih =>
      intro seq hne hrun hdiff hsafe
      obtain ⟨pre, v, rfl⟩ : ∃ pre v, run = pre ++ [v] :=
        ⟨run.dropLast, run.getLast (hne run (by simp)), (List.dropLast_append_getLast _).symm⟩
      have hv : Safe F v := hsafe (pre ++ [v]) (by simp) v (by simp)
      have hc := framesLoop_collapse (F := F) (some g) pre v (hrun _ (by simp)) runs.flatten seq
      simp only [List.flatten_cons, List.append_assoc, List.singleton_append]
      rw [hc]
      cases runs with
      | nil =>
        simp only [List.flatten_nil, framesLoop, Res.read_some, Res.bind_ok, keepLast,
          List.getLast?_singleton, List.getLast?_append,
          List.dropLast_singleton]
        by_cases hg : sameVector F v g = true
        · simp [hg]
        · simp [hg, pushFrame_safe v hv]
      | cons r2 runs =>
        have h2ne : r2 ≠ [] := hne r2 (by simp)
        obtain ⟨w, r2', rfl⟩ : ∃ w r2', r2 = w :: r2' := by
          cases r2 with
          | nil => exact absurd rfl h2ne
          | cons w r2' => exact ⟨w, r2', rfl⟩
        have hd : sameVector F v w = false := by
          rw [List.isChain_cons_cons] at hdiff
          exact hdiff.1 v w (by simp) (by simp)
        have := ih (seq ++ frameSpec (ints F v)) (fun r hr => hne r (by simp [hr]))
          (fun r hr => hrun r (by simp [hr])) (by rw [List.isChain_cons_cons] at hdiff; exact hdiff.2)
          (fun r hr => hsafe r (by simp [hr]))
        simp only [List.flatten_cons, List.cons_append] at this ⊢
        rw [framesLoop]
        simp only [Res.bind_ok, hd, Bool.false_eq_true, if_false, pushFrame_safe v hv, this]
        have hk : keepLast F g ((pre ++ [v]) :: (w :: r2') :: runs) =
            (pre ++ [v]) :: keepLast F g ((w :: r2') :: runs) := by
          have e : ((pre ++ [v]) :: (w :: r2') :: runs).getLast? = ((w :: r2') :: runs).getLast? :=
            List.getLast?_cons_cons
          simp only [keepLast, e]
          cases hl : ((w :: r2') :: runs).getLast? with
          | none => simp at hl
          | some run =>
            simp only
            split
            · rw [List.dropLast_cons_of_ne_nil (by simp)]
            · rfl
        rw [hk, List.flatMap_cons]
        simp
  simpa using key runs [] hne hrun hdiff hsafe

/-- **C32 (partial).**  The same for the runs computed by `List.splitBy`, so for every chromagram. -/
theorem C32_sequence_partial (g : List D) (c : Chromagram D) (hsafe : ∀ fr ∈ c.discrete, Safe F fr.2) :
    getPitchClassSequence F (some g) c =
      .ok ((keepLast F g ((c.discrete.map Prod.snd).splitBy (sameVector F))).flatMap
        (fun run => frameSpec (ints F (run.getLast?.getD [])))) := by
  rw [getPitchClassSequence]
  have hfl := List.flatten_splitBy (sameVector F) (c.discrete.map Prod.snd)
  have := C32_runs_partial (F := F) g ((c.discrete.map Prod.snd).splitBy (sameVector F))
    (fun run hr => List.ne_nil_of_mem_splitBy hr) (fun run hr => List.isChain_of_mem_splitBy hr)
    (by
      refine (List.isChain_getLast_head_splitBy (sameVector F) (c.discrete.map Prod.snd)).imp ?_
      rintro a b ⟨ha, hb, h⟩ x y hx hy
      rw [List.getLast?_eq_getLast_of_ne_nil ha] at hx
      rw [List.head?_eq_some_head hb] at hy
      cases hx; cases hy
      exact h)
    (by
      intro run hr v hv
      have : v ∈ c.discrete.map Prod.snd := by
        rw [← hfl]; exact List.mem_flatten.2 ⟨run, hr, hv⟩
      obtain ⟨fr, hfr, rfl⟩ := List.mem_map.1 this
      exact hsafe fr hfr)
  rw [hfl] at this
  exact this

theorem framesLoop_none (frames : List (List D)) (hne : frames ≠ []) (seq : List PitchClass)
    (hsafe : ∀ v ∈ frames, Safe F v) : framesLoop F none frames seq = .ub := by
  induction frames generalizing seq with
  | nil => exact absurd rfl hne
  | cons v rest ih =>
    cases rest with
    | nil => simp [framesLoop]
    | cons w rest =>
      have ih := fun seq => ih (by simp) seq (fun v hv => hsafe v (by simp [hv]))
      rw [framesLoop]
      simp only [Res.bind_ok, pushFrame_safe v (hsafe v (by simp)), ih]
      split <;> rfl

/-- **C32 violated.**  By the standard, `getPitchClassSequence` has undefined behaviour on *every* chromagram
that has a frame: at the last frame it dereferences `end()`. -/
theorem C32_reads_past_end_violated (c : Chromagram D) (hne : c.discrete ≠ [])
    (hsafe : ∀ fr ∈ c.discrete, Safe F fr.2) : getPitchClassSequence F none c = .ub := by
  refine framesLoop_none _ (by simpa using hne) [] ?_
  intro v hv
  obtain ⟨fr, hfr, rfl⟩ := List.mem_map.1 hv
  exact hsafe fr hfr

theorem pushPitchClass_neg (pc : Nat) (x : D) (n : Int) (hx : F.toInt x = some n) (hn : n < 0)
    (seq : List PitchClass) : pushPitchClass F pc x seq = .ub := by
  simp only [pushPitchClass, hx]
  have h0 : n ≠ 0 := by omega
  simp only [ne_eq, h0, not_false_eq_true, if_true]
  split
  · rfl
  · exact pushLoop_neg pc _ (n - 1) (by omega) rfl seq

/-- **C33 violated.**  A negative value does not contribute "nothing": the counter runs away from zero until
it overflows, whatever came before (on a real machine the program pushes two thousand million pitch classes
first, or runs out of memory). -/
theorem C33_negative_violated (pc : Nat) (x : D) (n : Int) (hx : F.toInt x = some n) (hn : n < 0)
    (seq : List PitchClass) : pushPitchClass F pc x seq = .ub :=
  pushPitchClass_neg pc x n hx hn seq

/-- **C33 violated, whole frame.**  One negative value, after non-negative ones, is enough: a chromagram whose
first frame holds it and differs from the second has no defined result. -/
theorem C33_frame_violated (past : Option (List D)) (pre post : List D) (x : D) (n : Int)
    (hpre : ∀ y ∈ pre, ∃ k, F.toInt y = some k ∧ 0 ≤ k) (hx : F.toInt x = some n) (hn : n < 0)
    (t : D) (next : D × List D) (rest : CMap D) (orig : CMap D) (st : Int)
    (hdiff : sameVector F (pre ++ x :: post) next.2 = false) :
    getPitchClassSequence F past
      { status := st, original := orig, discrete := (t, pre ++ x :: post) :: next :: rest } = .ub := by
  have : ∀ (i : Nat) (seq : List PitchClass),
      forM ((pre ++ x :: post).zipIdx i) seq (fun seq p => pushPitchClass F p.2 p.1 seq) = .ub := by
    clear hdiff
    induction pre with
    | nil =>
      intro i seq
      rw [List.nil_append, List.zipIdx_cons, forM_cons, pushPitchClass_neg i x n hx hn]
      rfl
    | cons y pre ih =>
      intro i seq
      obtain ⟨k, hy, hk⟩ := hpre y (by simp)
      rw [List.cons_append, List.zipIdx_cons, forM_cons, pushPitchClass_nonneg i y k hy hk, Res.bind_ok]
      exact ih (fun y hy => hpre y (by simp [hy])) (i + 1) _
  simp only [getPitchClassSequence, List.map_cons, framesLoop, Res.bind_ok, hdiff, Bool.false_eq_true,
    if_false, pushFrame, this 0 []]
  rfl

/-! ### C29: status life cycle, and the statements above at the level of the constructor -/

theorem assign_wf (hF : OrderLaws F) {m m' : CMap D} {t : D} {i : Nat} {x : D} (hm : CMap.WF F m)
    (h : m.assign F t i x = .ok m') : CMap.WF F m' := by
  unfold CMap.assign at h
  split at h
  · rename_i hc
    simp only [Bool.and_eq_true] at hc
    cases h
    exact hm.modify hF hc.1 (fun v hv => by simpa using hv)
  · cases h

theorem csvTokens_wf (hF : OrderLaws F) (stof : Str → Res D) (tokens : List Str) (i : Nat) (t : D)
    {m : CMap D} (hm : CMap.WF F m) {p : D × CMap D} (h : csvTokens F stof tokens i t m = .ok p) :
    CMap.WF F p.2 := by
  induction tokens generalizing i t m with
  | nil => simp only [csvTokens] at h; cases h; exact hm
  | cons tok tokens ih =>
    simp only [csvTokens] at h
    split at h
    · obtain ⟨t', _, h⟩ := Res.bind_eq_ok.1 h
      exact ih _ _ hm h
    · obtain ⟨x, _, h⟩ := Res.bind_eq_ok.1 h
      obtain ⟨m', hm', h⟩ := Res.bind_eq_ok.1 h
      exact ih _ _ (assign_wf hF hm hm') h

theorem forM_inv {α σ : Type _} (I : σ → Prop) (l : List α) (s s' : σ) (f : σ → α → Res σ)
    (hf : ∀ s a s', I s → f s a = .ok s' → I s') (hs : I s) (h : forM l s f = .ok s') : I s' := by
  induction l generalizing s with
  | nil => simp only [forM_nil] at h; cases h; exact hs
  | cons a l ih =>
    rw [forM_cons] at h
    obtain ⟨s1, h1, h2⟩ := Res.bind_eq_ok.1 h
    exact ih s1 (hf s a s1 hs h1) h2

theorem csvLines_wf (hF : OrderLaws F) (stof : Str → Res D) (content : Str) {m : CMap D}
    (h : csvLines F stof content = .ok m) : CMap.WF F m := by
  obtain ⟨⟨t, m'⟩, h1, h2⟩ := Res.bind_eq_ok.1 h
  simp only [Res.pure_eq] at h2
  cases h2
  exact forM_inv (fun s : D × CMap D => CMap.WF F s.2) _ _ _ _
    (fun s line s' hs h => csvTokens_wf hF stof _ _ _ hs h) CMap.WF.nil h1

theorem storeFeatures_wf (hF : OrderLaws F) (stof : Str → Res D) (fs : List (Feature D)) {m : CMap D}
    (h : storeFeatures F stof fs = .ok m) : CMap.WF F m := by
  refine forM_inv (fun m : CMap D => CMap.WF F m) _ _ _ _ ?_ CMap.WF.nil h
  intro m ft m' hm h
  obtain ⟨t, _, h⟩ := Res.bind_eq_ok.1 h
  exact forM_inv (fun m : CMap D => CMap.WF F m) _ _ _ _ (fun m p m' hm h => assign_wf hF hm h) hm h

/-- The original chromagram was loaded: the file opened and, for audio, the plug-in could be initialised and
has a `chroma` output. -/
def Loaded (pl : Plugin S D P T) (csv : Option Str) (audio : Option (AudioFile S)) : FileType → Prop
  | .csv => csv ≠ none
  | .audio => audio ≠ none ∧ pl.initialise = true ∧ "chroma" ∈ pl.outputs
  | .other => False

theorem chromaOutput_isSome (outputs : List String) :
    (chromaOutput outputs).isSome = true ↔ "chroma" ∈ outputs := by
  have key : ∀ (l : List String) (i : Nat) (acc : Option Nat),
      ((l.zipIdx i).foldl (fun acc p => if p.1 = "chroma" then some p.2 else acc) acc).isSome = true ↔
        (acc.isSome = true ∨ "chroma" ∈ l) := by
    intro l
    induction l with
    | nil => intro i acc; simp
    | cons a l ih =>
      intro i acc
      rw [List.zipIdx_cons, List.foldl_cons, ih]
      by_cases ha : a = "chroma"
      · subst ha; simp
      · simp [ha, Ne.symm ha]
  have := key outputs 0 none
  simpa [chromaOutput] using this

/-- What the two readers deliver. -/
theorem reader_spec (hF : OrderLaws F) (M : MixOps S) (stof : Str → Res D) (pl : Plugin S D P T)
    (csv : Option Str) (audio : Option (AudioFile S)) (ft : FileType) (c : Chromagram D)
    (h : construct F M stof pl csv audio ft = .ok c) :
    (Loaded pl csv audio ft ∧ c.status = 4 ∧ CMap.WF F c.original ∧
      c.discrete = c.original.map (fun fr => (fr.1, fr.2.map F.floor))) ∨
    (¬ Loaded pl csv audio ft ∧ (c.status = 1 ∨ c.status = 2 ∨ (ft = .other ∧ c.status = 0)) ∧
      c.original = [] ∧ c.discrete = []) := by
  have fin : ∀ m : CMap D, CMap.WF F m →
      discretizeChromagram F { status := statusChromaOriginalReady, original := m, discrete := [] } = .ok c →
      c.status = 4 ∧ CMap.WF F c.original ∧
        c.discrete = c.original.map (fun fr => (fr.1, fr.2.map F.floor)) := by
    intro m hm hc
    rw [C31_discretize hF _ hm rfl] at hc
    cases hc
    exact ⟨rfl, hm, rfl⟩
  unfold construct at h
  cases ft with
  | csv =>
    cases csv with
    | none =>
      simp only [getChromagramFromCsv, Res.bind_ok] at h
      rw [if_neg (by decide)] at h
      cases h
      right
      simp [Loaded, statusChromaInputfileError]
    | some content =>
      left
      simp only [getChromagramFromCsv] at h
      obtain ⟨c', h1, h2⟩ := Res.bind_eq_ok.1 h
      obtain ⟨m, hm, h1⟩ := Res.bind_eq_ok.1 h1
      simp only [Res.pure_eq] at h1
      cases h1
      simp only [if_true] at h2
      exact ⟨by simp [Loaded], fin m (csvLines_wf hF stof content hm) h2⟩
  | audio =>
    cases audio with
    | none =>
      simp only [getChromagramFromAudio, Res.bind_ok] at h
      rw [if_neg (by decide)] at h
      cases h
      right
      simp [Loaded, statusChromaInputfileError]
    | some f =>
      simp only [getChromagramFromAudio] at h
      by_cases hi : pl.initialise = true
      · simp only [hi, Bool.not_true, Bool.false_eq_true, if_false] at h
        cases ho : chromaOutput pl.outputs with
        | none =>
          rw [ho] at h
          simp only [Res.bind_ok] at h
          rw [if_neg (by decide)] at h
          cases h
          right
          have : ¬ "chroma" ∈ pl.outputs := by
            rw [← chromaOutput_isSome, ho]; simp
          simp [Loaded, this, statusChromaNnlsError]
        | some out =>
          left
          rw [ho] at h
          obtain ⟨c', h1, h2⟩ := Res.bind_eq_ok.1 h
          obtain ⟨⟨p, feats⟩, _, h1⟩ := Res.bind_eq_ok.1 h1
          obtain ⟨m, hm, h1⟩ := Res.bind_eq_ok.1 h1
          simp only [Res.pure_eq] at h1
          cases h1
          simp only [if_true] at h2
          refine ⟨⟨by simp, hi, ?_⟩, fin m (storeFeatures_wf hF stof _ hm) h2⟩
          rw [← chromaOutput_isSome, ho]; rfl
      · simp only [hi, Bool.not_false, if_true, Res.bind_ok] at h
        rw [if_neg (by decide)] at h
        cases h
        right
        simp [Loaded, hi, statusChromaNnlsError]
  | other =>
    simp only [Res.bind_ok] at h
    rw [if_neg (by decide)] at h
    cases h
    right
    simp [Loaded, statusChromaUninitialized]

/-- **C29.**  After construction from a CSV or audio file the status is INPUTFILE_ERROR, NNLS_ERROR or
DISCRETE_READY; it is DISCRETE_READY exactly when the original chromagram was loaded; and unless it is, the
pitch-class sequence is empty. -/
theorem C29_status (hF : OrderLaws F) (M : MixOps S) (stof : Str → Res D) (pl : Plugin S D P T)
    (csv : Option Str) (audio : Option (AudioFile S)) (ft : FileType) (hft : ft ≠ .other)
    (c : Chromagram D) (h : construct F M stof pl csv audio ft = .ok c) :
    (c.getStatus = 1 ∨ c.getStatus = 2 ∨ c.getStatus = 4) ∧
    (c.getStatus = 4 ↔ Loaded pl csv audio ft) ∧
    (c.getStatus ≠ 4 → ∀ past, getPitchClassSequence F past c = .ok []) := by
  rcases reader_spec hF M stof pl csv audio ft c h with ⟨h1, h2, _, _⟩ | ⟨h1, h2, h3, h4⟩
  · exact ⟨Or.inr (Or.inr h2), ⟨fun _ => h1, fun _ => h2⟩, fun hn => absurd h2 hn⟩
  · have h4' : c.status ≠ 4 := by
      rcases h2 with h | h | ⟨h, _⟩
      · rw [h]; decide
      · rw [h]; decide
      · exact absurd h hft
    refine ⟨?_, ⟨fun h => absurd h h4', fun h => absurd h h1⟩, ?_⟩
    · rcases h2 with h | h | ⟨h, _⟩
      · exact Or.inl h
      · exact Or.inr (Or.inl h)
      · exact absurd h hft
    · intro _ past
      simp [getPitchClassSequence, h4, framesLoop]

/-- **C31 at the constructor.**  Every chromagram that is ready has the timestamps of its original and the
floor of each value. -/
theorem C31_constructed (hF : OrderLaws F) (M : MixOps S) (stof : Str → Res D) (pl : Plugin S D P T)
    (csv : Option Str) (audio : Option (AudioFile S)) (ft : FileType)
    (c : Chromagram D) (h : construct F M stof pl csv audio ft = .ok c) :
    c.discrete = c.original.map (fun fr => (fr.1, fr.2.map F.floor)) := by
  rcases reader_spec hF M stof pl csv audio ft c h with ⟨_, _, _, h4⟩ | ⟨_, _, h3, h4⟩
  · exact h4
  · rw [h3, h4]; rfl

/-- **C29, what went wrong.**  The status is INPUTFILE_ERROR exactly when there is no such file, and NNLS_ERROR exactly when there is a
recording and the plug-in refuses or has no output called "chroma". -/
theorem C29_causes (hF : OrderLaws F) (M : MixOps S) (stof : Str → Res D) (pl : Plugin S D P T)
    (csv : Option Str) (audio : Option (AudioFile S)) (c : Chromagram D) :
    (construct F M stof pl csv audio .csv = .ok c → (c.getStatus = 1 ↔ csv = none) ∧ c.getStatus ≠ 2) ∧
    (construct F M stof pl csv audio .audio = .ok c → (c.getStatus = 1 ↔ audio = none) ∧
      (c.getStatus = 2 ↔ audio ≠ none ∧ ¬ (pl.initialise = true ∧ "chroma" ∈ pl.outputs))) := by
  constructor
  · intro h
    rcases hc : csv with _ | content
    · subst hc
      simp only [construct, getChromagramFromCsv, Res.bind_ok] at h
      rw [if_neg (by decide)] at h
      cases h
      exact ⟨⟨fun _ => rfl, fun _ => rfl⟩, by simp [getStatus, statusChromaInputfileError]⟩
    · have h4 := (C29_status hF M stof pl csv audio .csv (by simp) c h).2.1.2 (by simp [Loaded, hc])
      rw [h4]
      simp
  · intro h
    rcases hc : audio with _ | f
    · subst hc
      simp only [construct, getChromagramFromAudio, Res.bind_ok] at h
      rw [if_neg (by decide)] at h
      cases h
      exact ⟨⟨fun _ => rfl, fun _ => rfl⟩, by simp [getStatus, statusChromaInputfileError]⟩
    · by_cases hl : pl.initialise = true ∧ "chroma" ∈ pl.outputs
      · have h4 := (C29_status hF M stof pl csv audio .audio (by simp) c h).2.1.2 (by simp [Loaded, hc, hl])
        rw [h4]
        simp [hl]
      · have h2 : c.getStatus = 2 := by
          subst hc
          by_cases hi : pl.initialise = true
          · have ho : chromaOutput pl.outputs = none := by
              have := chromaOutput_isSome pl.outputs
              rcases ho : chromaOutput pl.outputs with _ | k
              · rfl
              · rw [ho] at this
                exact absurd ⟨hi, this.1 rfl⟩ hl
            simp only [construct, getChromagramFromAudio, hi, ho, Bool.not_true, Bool.false_eq_true, if_false, Res.bind_ok] at h
            rw [if_neg (by decide)] at h
            cases h
            rfl
          · simp only [construct, getChromagramFromAudio, Bool.eq_false_iff.2 hi, Bool.not_false, if_true, Res.bind_ok] at h
            rw [if_neg (by decide)] at h
            cases h
            rfl
        rw [h2]
        simp [hl]

/-- **C31, printed.**  `printChromagram` prints, for a chromagram that is ready, one line for every frame of the original: the time and
the floors of the twelve values, from C to B; otherwise nothing. -/
theorem C31_printed (hF : OrderLaws F) (M : MixOps S) (stof : Str → Res D) (pl : Plugin S D P T)
    (csv : Option Str) (audio : Option (AudioFile S)) (ft : FileType)
    (c : Chromagram D) (h : construct F M stof pl csv audio ft = .ok c) (sh : D → Str) :
    (c.getStatus = 4 → printChromagram sh c =
      c.original.flatMap (fun fr => sh fr.1 ++ (fr.2.flatMap (fun x => ',' :: sh (F.floor x))) ++ ['\n'])) ∧
    (c.getStatus ≠ 4 → printChromagram sh c = []) := by
  constructor
  · intro hs
    have hs' : c.status = statusChromaDiscreteReady := hs
    rw [printChromagram, if_neg (by simp [hs']), C31_constructed hF M stof pl csv audio ft c h, List.flatMap_map]
    simp only [printLine, List.flatMap_map]
  · intro hs
    rcases reader_spec hF M stof pl csv audio ft c h with ⟨_, h2, _, _⟩ | ⟨_, _, _, h4⟩
    · exact absurd h2 hs
    · rw [printChromagram, h4]
      simp

theorem construct_csv (hF : OrderLaws F) (M : MixOps S) (stof : Str → Res D) (pl : Plugin S D P T)
    (content : Str) (audio : Option (AudioFile S)) (m : CMap D)
    (h : csvLines F stof content = .ok m) :
    construct F M stof pl (some content) audio .csv = .ok
      { status := statusChromaDiscreteReady, original := m
        discrete := m.map (fun fr => (fr.1, fr.2.map F.floor)) } := by
  simp only [construct, getChromagramFromCsv, h, Res.bind_ok, Res.pure_eq, if_true]
  rw [C31_discretize hF _ (csvLines_wf hF stof content h) rfl]

/-- **C28 at the constructor.**  Export, then construct from the exported file: the same chromagram object. -/
theorem C28_constructed (hF : OrderLaws F) (M : MixOps S) (stof : Str → Res D) (sh : D → Str)
    (pl : Plugin S D P T) (csv : Option Str) (audio audio' : Option (AudioFile S)) (ft : FileType)
    (c : Chromagram D) (h : construct F M stof pl csv audio ft = .ok c) (hs : c.getStatus = 4)
    (hpr : Prints stof sh id c.original) :
    construct F M stof pl (some (printOriginalChromagram F sh true c)) audio' .csv = .ok c := by
  rcases reader_spec hF M stof pl csv audio ft c h with ⟨_, h2, h3, h4⟩ | ⟨_, h2, h3, h4⟩
  · rw [construct_csv hF M stof pl _ audio' c.original (C28_round_trip hF stof sh c h2 h3 hpr)]
    obtain ⟨st, o, d⟩ := c
    simp only at h2 h4
    rw [h4, h2]; rfl
  · exfalso
    change c.status = 4 at hs
    rw [hs] at h2
    rcases h2 with h | h | ⟨_, h⟩ <;> exact absurd h (by decide)

/-- **C30 at the constructor.** -/
theorem C30_constructed (hF : OrderLaws F) (M : MixOps S) (stof : Str → Res D) (pl : Plugin S D P T)
    (audio : Option (AudioFile S)) (rows : List (Row D))
    (hrows : ∀ r ∈ rows, r.Ok F stof ∧ r.vals.length = 12)
    (hdist : rows.Pairwise (fun a b => F.lt a.time.2 b.time.2 = true ∨ F.lt b.time.2 a.time.2 = true)) :
    ∃ c, construct F M stof pl (some (csvText rows)) audio .csv = .ok c ∧ c.getStatus = 4 ∧
      c.original.Pairwise (fun p q => F.lt p.1 q.1 = true) ∧
      c.original.Perm (rows.map (fun r => (r.time.2, r.frame F))) := by
  obtain ⟨m, h1, h2, h3⟩ := C30_csv hF stof rows hrows hdist
  exact ⟨_, construct_csv hF M stof pl _ audio m h1, rfl, h2, h3⟩

/-! ### The laws hold for doubles; concrete instances -/

theorem _root_.JKD.RD.orderLaws (R : RD.Rounding) (lg : ℝ → RD) : OrderLaws (RD.fpu R lg) where
  num := by
    intro a b
    change RD.lt a b = true → RD.eq a a = true ∧ RD.eq b b = true
    cases a <;> cases b <;> simp [RD.lt, RD.eq]
  irrefl := (RD.laws R lg).lt_irrefl
  trans := (RD.laws R lg).lt_trans
  cotrans := by
    intro a b c hb
    refine (RD.laws R lg).lt_cotrans a b c ?_
    rintro rfl
    cases hb

/-- **C31 for doubles.**  The discretised value of a finite number is the greatest integer not above it:
never more than the original, less than one below. -/
theorem C31_floor (R : RD.Rounding) (lg : ℝ → RD) (r : ℝ) :
    ∃ n : ℤ, (RD.fpu R lg).floor (.fin r) = .fin n ∧ (n : ℝ) ≤ r ∧ r < n + 1 :=
  ⟨⌊r⌋, rfl, Int.floor_le r, Int.lt_floor_add_one r⟩

/-- For doubles "same vector" is equality of frames without NaN. -/
theorem C32_same_vector (R : RD.Rounding) (lg : ℝ → RD) (v w : List RD) (hl : v.length = w.length)
    (hn : ∀ x ∈ v, x ≠ .nan) : sameVector (RD.fpu R lg) v w = true ↔ v = w := by
  induction v generalizing w with
  | nil =>
    cases w with
    | nil => simp [sameVector]
    | cons b w => simp at hl
  | cons a v ih =>
    cases w with
    | nil => simp at hl
    | cons b w =>
      have ih := ih w (by simpa using hl) (fun x hx => hn x (by simp [hx]))
      have hab : (RD.fpu R lg).eq a b = true ↔ a = b := by
        change RD.eq a b = true ↔ a = b
        have := hn a (by simp)
        cases a <;> cases b <;> simp [RD.eq] at this ⊢
      simp only [sameVector, List.zip_cons_cons, List.all_cons, Bool.and_eq_true, List.cons.injEq] at ih ⊢
      rw [hab, ih]

/-- **C33 violated, for doubles.**  Every negative magnitude of the original chromagram (down to the range of
`int`) is discretised to a value for which the program has undefined behaviour. -/
theorem C33_original_violated (R : RD.Rounding) (lg : ℝ → RD) (r : ℝ) (hr : r < 0)
    (hmin : -2147483648 ≤ r) (pc : Nat) (seq : List PitchClass) :
    pushPitchClass (RD.fpu R lg) pc ((RD.fpu R lg).floor (.fin r)) seq = .ub := by
  have hneg : ⌊r⌋ < 0 := Int.floor_lt.2 (by simpa using hr)
  have hge : -2147483648 ≤ ⌊r⌋ := Int.le_floor.2 (by push_cast; exact hmin)
  have htr : RD.trunc ((⌊r⌋ : ℤ) : ℝ) = ⌊r⌋ := by
    unfold RD.trunc
    rw [if_neg]
    · simp
    · have : ((⌊r⌋ : ℤ) : ℝ) < 0 := by exact_mod_cast hneg
      linarith
  refine pushPitchClass_neg pc _ ⌊r⌋ ?_ hneg seq
  change (if -2147483648 ≤ RD.trunc ((⌊r⌋ : ℤ) : ℝ) ∧ RD.trunc ((⌊r⌋ : ℤ) : ℝ) ≤ 2147483647
    then some (RD.trunc ((⌊r⌋ : ℤ) : ℝ)) else none) = _
  rw [htr, if_pos ⟨hge, by omega⟩]

/-- **C33 (partial), small magnitudes.**  An original magnitude in `[0, 2)` contributes nothing.  Missing: the
negative magnitudes, for which the claim is false (above). -/
theorem C33_small_partial (R : RD.Rounding) (lg : ℝ → RD) (r : ℝ) (h0 : 0 ≤ r) (h2 : r < 2) (pc : Nat)
    (seq : List PitchClass) :
    pushPitchClass (RD.fpu R lg) pc ((RD.fpu R lg).floor (.fin r)) seq = .ok seq := by
  have hge : 0 ≤ ⌊r⌋ := Int.floor_nonneg.2 h0
  have hlt : ⌊r⌋ < 2 := Int.floor_lt.2 (by simpa using h2)
  have htr : RD.trunc ((⌊r⌋ : ℤ) : ℝ) = ⌊r⌋ := by
    unfold RD.trunc
    rw [if_pos]
    · simp
    · exact_mod_cast hge
  have hti : (RD.fpu R lg).toInt ((RD.fpu R lg).floor (.fin r)) = some ⌊r⌋ := by
    change (if -2147483648 ≤ RD.trunc ((⌊r⌋ : ℤ) : ℝ) ∧ RD.trunc ((⌊r⌋ : ℤ) : ℝ) ≤ 2147483647
      then some (RD.trunc ((⌊r⌋ : ℤ) : ℝ)) else none) = _
    rw [htr, if_pos ⟨by omega, by omega⟩]
  rw [pushPitchClass_nonneg pc _ _ hti hge]
  have : (⌊r⌋ - 1).toNat = 0 := by omega
  simp [this]

/-! ### Concrete instances -/

/-- Integers as a toy arithmetic, so that the model can be run on small files. -/
def toy : FPU Int where
  ofRat q := q.floor
  add a b := a + b
  mul a b := a * b
  lt a b := decide (a < b)
  eq a b := decide (a = b)
  log10 a := a
  floor a := a
  toInt a := some a
  negInf := -1000

theorem toy_orderLaws : OrderLaws toy where
  num := by simp [toy]
  irrefl := by simp [toy]
  trans := by simp only [toy, decide_eq_true_eq]; intro a b c h1 h2; omega
  cotrans := by simp only [toy, decide_eq_true_eq]; intro a b c _ h; omega

/-- One-digit numbers. -/
def toyStof (s : Str) : Res Int :=
  match s with
  | [c] => if '0' ≤ c ∧ c ≤ '9' then .ok (c.toNat - 48 : Int) else .throw .invalidArgument
  | _ => .throw .invalidArgument

/-- Two rows in the wrong order are read into increasing time order, columns from A. -/
example : csvLines toy toyStof "7,1,2,3,4,5,6,7,8,9,0,1,2\n3,9,8,7,6,5,4,3,2,1,0,9,8\n".toList =
    .ok [(3, [6, 5, 4, 3, 2, 1, 0, 9, 8, 9, 8, 7]), (7, [4, 5, 6, 7, 8, 9, 0, 1, 2, 1, 2, 3])] := by
  decide +kernel

/-- The hypotheses of `C30_csv` hold for these rows. -/
def toyRow (t : Char) (vs : List Char) : Row Int :=
  { time := ([t], (t.toNat - 48 : Int)), vals := vs.map (fun c => ([c], (c.toNat - 48 : Int))) }

example : (toyRow '7' "123456789012".toList).Ok toy toyStof ∧
    (toyRow '7' "123456789012".toList).vals.length = 12 ∧
    toy.lt (toyRow '3' "987654321098".toList).time.2 (toyRow '7' "123456789012".toList).time.2 = true :=
  ⟨⟨by decide, by decide, by decide⟩, by decide, by decide⟩

/-- Three frames, the first two equal: the run is collapsed, and C twice, E once come out of it. -/
example : getPitchClassSequence toy (some (List.replicate 12 5))
    { status := 4, original := []
      discrete := [(0, [3, 0, 0, 0, 2, 0, 0, 0, 0, 0, 0, 1]), (1, [3, 0, 0, 0, 2, 0, 0, 0, 0, 0, 0, 1]),
        (2, [0, 2, 0, 0, 0, 0, 0, 0, 0, 0, 0, 0])] } =
    .ok [PitchClass.ofInt 0, PitchClass.ofInt 0, PitchClass.ofInt 4, PitchClass.ofInt 1] := by
  decide +kernel

/-- The hypothesis of C32 holds for such frames. -/
example : Safe toy [3, 0, 0, 0, 2, 0, 0, 0, 0, 0, 0, 1] := by
  refine ⟨rfl, ?_⟩
  intro x hx
  exact ⟨x, rfl, by revert x; decide⟩

end Chromagram
end JKD
