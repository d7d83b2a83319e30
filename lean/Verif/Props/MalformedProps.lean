import Verif.Props.ChromaMoveProps
/-
C147: files that are no chroma files.
-/

namespace JKD.Chromagram

variable {D S P T : Type} {F : FPU D}

theorem modify_congr {m : CMap D} (hm : CMap.WF F m) (t : D) (f g : List D → List D) (hfg : ∀ v, v.length = 12 → f v = g v) :
    m.modify F t f = m.modify F t g := by
  have hl := hm.len
  clear hm
  induction m with
  | nil => simp [CMap.modify, hfg _ (show (CMap.zeros F).length = 12 by simp [CMap.zeros])]
  | cons q m ih =>
    obtain ⟨k, v⟩ := q
    simp only [CMap.modify, ih (fun p hp => hl p (by simp [hp])),
      hfg v (hl (k, v) (by simp)), hfg _ (show (CMap.zeros F).length = 12 by simp [CMap.zeros])]

/-- Good values, then one that is no number. -/
theorem csvTokens_bad (stof : Str → Res D) (vals : List (Str × D)) (hv : ∀ p ∈ vals, stof p.1 = .ok p.2) (bad : Str) (e : Exn)
    (hbad : stof bad = .throw e) (more : List Str) (t : D) (ht : F.eq t t = true) (i : Nat) (m : CMap D) :
    csvTokens F stof (vals.map Prod.fst ++ bad :: more) (i + 1) t m = .throw e := by
  induction vals generalizing i m with
  | nil => simp [csvTokens, hbad]
  | cons p vals ih =>
    have hi : (9 + i) % 12 < 12 := Nat.mod_lt _ (by decide)
    simp only [List.map_cons, List.cons_append, csvTokens, Nat.add_eq_zero_iff, Nat.one_ne_zero, and_false, if_false,
      hv p (by simp), Res.bind_ok, Nat.add_sub_cancel, pcANatural, numPitchClasses]
    rw [CMap.assign_ok ht hi, Res.bind_ok]
    exact ih (fun p hp => hv p (by simp [hp])) _ _

/-- A row with any number of values, at least one. -/
theorem csvTokens_any (hF : OrderLaws F) (stof : Str → Res D) (r : Row D) (hr : r.Ok F stof) (hne : r.vals ≠ []) (t₀ : D) (m : CMap D) :
    csvTokens F stof (r.time.1 :: r.vals.map Prod.fst) 0 t₀ m =
      .ok (r.time.2, m.modify F r.time.2 (setCols 0 (r.vals.map Prod.snd))) := by
  match hv : r.vals, hne with
  | p :: vals, _ =>
    have hval := hr.val_tok
    rw [hv] at hval
    have h1 := (hval p (by simp)).2.2.2
    simp only [List.map_cons, csvTokens, if_true, hr.time_tok.2.2.2, Res.bind_ok, Nat.zero_add,
      Nat.one_ne_zero, if_false, h1, pcANatural, numPitchClasses, Nat.sub_self, Nat.add_zero]
    rw [CMap.assign_ok hr.time_num (by decide), Res.bind_ok,
      csvTokens_vals hF stof vals (fun q hq => (hval q (by simp [hq])).2.2.2) r.time.2 hr.time_num 1 m (fun v => v.set (9 % 12) p.2)]
    rfl

theorem forM_append {α σ : Type _} (l l' : List α) (s : σ) (f : σ → α → Res σ) :
    forM (l ++ l') s f = forM l s f >>= fun s => forM l' s f := by
  induction l generalizing s with
  | nil => rfl
  | cons a l ih =>
    simp only [List.cons_append, forM_cons]
    cases f s a <;> simp [ih]

theorem getlines_rows (stof : Str → Res D) (rows : List (Row D)) (hrows : ∀ r ∈ rows, r.Ok F stof) (rest : Str) :
    getlines '\n' (csvText rows ++ rest) = rows.map Row.text ++ getlines '\n' rest := by
  induction rows with
  | nil => rfl
  | cons r rows ih =>
    have := getlines_go_append '\n' r.text (Row.newline_not_mem stof r (hrows r (by simp))) (csvText rows ++ rest) [] false
    simp only [csvText, List.flatMap_cons, List.append_assoc, List.map_cons, List.cons_append, List.nil_append] at this ⊢
    unfold getlines
    rw [this]
    exact congrArg _ (ih (fun q hq => hrows q (by simp [hq])))

/-- **Specification.**  A line whose first unreadable field is `bad`: a readable time and readable values before it (or nothing),
anything after it. -/
inductive BadLine (F : FPU D) (stof : Str → Res D) (bad : Str) : Str → Prop
  | first (tail : Str) : BadLine F stof bad (bad ++ ',' :: tail)
  | later (r : Row D) (hr : r.Ok F stof) (tail : Str) : BadLine F stof bad (r.text ++ ',' :: bad ++ ',' :: tail)

theorem badLine_throw {stof : Str → Res D} {bad : Str} {e : Exn} (hc : ',' ∉ bad) (hbad : stof bad = .throw e) {line : Str}
    (h : BadLine F stof bad line) (t₀ : D) (m : CMap D) : csvTokens F stof (getlines ',' line) 0 t₀ m = .throw e := by
  cases h with
  | first tail =>
    have := getlines_go_append ',' bad hc tail [] false
    unfold getlines
    rw [this]
    simp [csvTokens, hbad]
  | later r hr tail =>
    have hs : ∀ (l : List (Str × D)) (a : Str) (rest : Str), ',' ∉ a → (∀ p ∈ l, ',' ∉ p.1) →
        getlines ',' (a ++ l.flatMap (fun p => ',' :: p.1) ++ ',' :: rest) = a :: l.map Prod.fst ++ getlines ',' rest := by
      intro l
      induction l with
      | nil =>
        intro a rest ha _
        have := getlines_go_append ',' a ha rest [] false
        simpa [getlines] using this
      | cons p l ih =>
        intro a rest ha hl
        have := getlines_go_append ',' a ha (p.1 ++ l.flatMap (fun p => ',' :: p.1) ++ ',' :: rest) [] false
        have h2 := ih p.1 rest (hl p (by simp)) (fun q hq => hl q (by simp [hq]))
        simp only [getlines, List.flatMap_cons, List.append_assoc, List.cons_append, List.reverse_nil, List.nil_append, List.map_cons] at this h2 ⊢
        rw [this, h2]
    have e1 : getlines ',' (r.text ++ ',' :: bad ++ ',' :: tail) = r.time.1 :: (r.vals.map Prod.fst ++ bad :: getlines ',' tail) := by
      have h1 := hs r.vals r.time.1 (bad ++ ',' :: tail) hr.time_tok.1 (fun p hp => (hr.val_tok p hp).1)
      have h2 := getlines_go_append ',' bad hc tail [] false
      simp only [Row.text, getlines, List.append_assoc, List.cons_append, List.reverse_nil, List.nil_append] at h1 h2 ⊢
      rw [h1, h2]
    rw [e1]
    simp only [csvTokens, if_true, hr.time_tok.2.2.2, Res.bind_ok]
    exact csvTokens_bad stof _ (fun p hp => (hr.val_tok p hp).2.2.2) bad e hbad _ _ hr.time_num _ _

theorem csvLines_bad (hF : OrderLaws F) (stof : Str → Res D) (rows : List (Row D))
    (hrows : ∀ r ∈ rows, r.Ok F stof ∧ r.vals.length = 12) (bad line rest : Str) (e : Exn) (hc : ',' ∉ bad)
    (hbad : stof bad = .throw e) (hb : BadLine F stof bad line) (hn : '\n' ∉ line) :
    csvLines F stof (csvText rows ++ line ++ '\n' :: rest) = .throw e := by
  obtain ⟨t₁, h1⟩ := csv_rows hF stof rows hrows F.zero CMap.WF.nil
  have h2 : getlines '\n' (line ++ '\n' :: rest) = line :: getlines '\n' rest := by
    have := getlines_go_append '\n' line hn rest [] false
    simpa [getlines] using this
  simp only [csvLines, List.append_assoc]
  rw [getlines_rows stof rows (fun r hr => (hrows r hr).1), h2, forM_append, h1, Res.bind_ok, forM_cons, badLine_throw hc hbad hb]
  rfl

/-- Two rows with the same writes can be exchanged. -/
theorem csvLines_exchange (hF : OrderLaws F) (stof : Str → Res D) (pre post : List (Row D)) (hpre : ∀ r ∈ pre, r.Ok F stof ∧ r.vals.length = 12)
    (hpost : ∀ r ∈ post, r.Ok F stof) (r r' : Row D) (hr : r.Ok F stof) (hr' : r'.Ok F stof) (ht : r'.time = r.time)
    (hne : r.vals ≠ []) (hne' : r'.vals ≠ [])
    (hset : ∀ m : CMap D, CMap.WF F m → m.modify F r.time.2 (setCols 0 (r.vals.map Prod.snd)) = m.modify F r.time.2 (setCols 0 (r'.vals.map Prod.snd))) :
    csvLines F stof (csvText (pre ++ r :: post)) = csvLines F stof (csvText (pre ++ r' :: post)) := by
  obtain ⟨t₁, h1⟩ := csv_rows hF stof pre hpre F.zero CMap.WF.nil
  have hwf : CMap.WF F (pre.foldl (fun m r => m.modify F r.time.2 (fun _ => r.frame F)) []) := by
    have key : ∀ (l : List (Row D)) (m : CMap D), (∀ r ∈ l, r.Ok F stof) → CMap.WF F m →
        CMap.WF F (l.foldl (fun m r => m.modify F r.time.2 (fun _ => r.frame F)) m) := by
      intro l
      induction l with
      | nil => intro m _ h; exact h
      | cons r l ih =>
        intro m hl h
        exact ih _ (fun q hq => hl q (by simp [hq])) (h.modify hF (hl r (by simp)).time_num (fun _ _ => by simp [Row.frame]))
    exact key pre [] (fun r hr => (hpre r hr).1) CMap.WF.nil
  have one : ∀ q : Row D, q.Ok F stof → getlines '\n' (csvText (pre ++ q :: post)) = pre.map Row.text ++ q.text :: post.map Row.text := by
    intro q hq
    have := getlines_rows stof (pre ++ q :: post) (by
      intro x hx
      rcases List.mem_append.1 hx with hx | hx
      · exact (hpre x hx).1
      · rcases List.mem_cons.1 hx with rfl | hx
        · exact hq
        · exact hpost x hx) []
    rw [List.append_nil] at this
    rw [this]
    simp [getlines, getlines.go]
  simp only [csvLines]
  rw [one r hr, one r' hr', forM_append, forM_append, h1, Res.bind_ok, Res.bind_ok, forM_cons, forM_cons,
    Row.getlines_text stof r hr, Row.getlines_text stof r' hr', csvTokens_any hF stof r hr hne, csvTokens_any hF stof r' hr' hne', ht,
    hset _ hwf]

end JKD.Chromagram

namespace JKD.Phrases

open Spec HMM RD Detect Main Chromagram

variable {D S P T : Type}

theorem csv_parsed (E : Env D S P T) (f x : Str) (hx : HasExtension f x) (hl : f.length < npos) (hm : x.map Char.toLower = "csv".toList) :
    parseArgs E (.ok (Options.default f)) = .ok (.ok (defaultParsed E f .csv)) := by
  have ha : (Options.default f).args = [f] := rfl
  simp only [parseArgs, ha, (C36_extension_partial E (Options.default f) f x rfl hx hl).2.1 hm, Res.bind_ok]
  rfl

/-- **C147 (partial).**  A file that consists of rows of a time and twelve numbers, and of nothing else, is not refused. -/
theorem C147_accepted_partial (E : Env D S P T) (hO : OrderLaws E.F) (rows : List (Row D))
    (hrows : ∀ r ∈ rows, r.Ok E.F E.stof ∧ r.vals.length = 12) (file : Str) (hcsv : E.csvFile file = some (csvText rows)) :
    ∃ c, construct E.F E.M E.stof E.pl (E.csvFile file) (E.audioFile file) .csv = .ok c ∧ c.getStatus = 4 ∧
      ∀ out, readInput E (defaultParsed E file .csv) ≠ .ok (.error out) := by
  have h := construct_csv hO E.M E.stof E.pl (csvText rows) (E.audioFile file) _ (csvLines_eq hO E.stof rows hrows)
  rw [hcsv]
  refine ⟨_, h, rfl, ?_⟩
  intro out
  have hp : (defaultParsed E file .csv).inputType = some .csv := rfl
  have hf : (defaultParsed E file .csv).filename = file := rfl
  have hco : (defaultParsed E file .csv).chromaOnly = false := rfl
  simp only [readInput, hp, hf, hco, hcsv, h, Res.bind_ok, Chromagram.getStatus]
  simp
  generalize getPitchClassSequence _ _ _ = r
  cases r <;> simp

/-- **C147 is violated: fields that are no numbers.**  As soon as a field is met that is no number — a heading, a file name, a
label, a blank field — the program ends with an uncaught exception: there is no message and no exit status. -/
theorem C147_text_violated (E : Env D S P T) (hO : OrderLaws E.F) (rows : List (Row D))
    (hrows : ∀ r ∈ rows, r.Ok E.F E.stof ∧ r.vals.length = 12) (bad line rest : Str) (e : Exn) (hc : ',' ∉ bad)
    (hbad : E.stof bad = .throw e) (hb : BadLine E.F E.stof bad line) (hn : '\n' ∉ line) (file ext : Str) (hx : HasExtension file ext)
    (hl : file.length < npos) (hm : ext.map Char.toLower = "csv".toList)
    (hcsv : E.csvFile file = some (csvText rows ++ line ++ '\n' :: rest)) :
    main E (.ok (Options.default file)) = .throw e := by
  have hp : (defaultParsed E file .csv).inputType = some .csv := rfl
  have hf : (defaultParsed E file .csv).filename = file := rfl
  have h := csvLines_bad hO E.stof rows hrows bad line rest e hc hbad hb hn
  simp only [main, csv_parsed E file ext hx hl hm, Res.bind_ok, readInput, hp, hf, hcsv, construct, getChromagramFromCsv, h]
  rfl

/-- **C147 is violated: too many values.**  A row with thirteen numbers is not refused: the last one is taken for the first one (A). -/
theorem C147_long_violated (E : Env D S P T) (hO : OrderLaws E.F) (pre post : List (Row D))
    (hpre : ∀ r ∈ pre, r.Ok E.F E.stof ∧ r.vals.length = 12) (hpost : ∀ r ∈ post, r.Ok E.F E.stof ∧ r.vals.length = 12)
    (time first last : Str × D) (mid : List (Str × D)) (hmid : mid.length = 11)
    (hr : Row.Ok E.F E.stof ⟨time, first :: mid ++ [last]⟩) (file file' : Str)
    (hcsv : E.csvFile file = some (csvText (pre ++ ⟨time, first :: mid ++ [last]⟩ :: post)))
    (hcsv' : E.csvFile file' = some (csvText (pre ++ ⟨time, last :: mid⟩ :: post))) :
    readInput E (defaultParsed E file .csv) = readInput E (defaultParsed E file' .csv) ∧
    ∃ c, construct E.F E.M E.stof E.pl (E.csvFile file) (E.audioFile file) .csv = .ok c ∧ c.getStatus = 4 := by
  have hr' : Row.Ok E.F E.stof ⟨time, last :: mid⟩ := ⟨hr.time_num, hr.time_tok, fun p hp => hr.val_tok p (by
    rcases List.mem_cons.1 hp with rfl | hp
    · simp
    · simp [hp])⟩
  have h := csvLines_exchange hO E.stof pre post hpre (fun q hq => (hpost q hq).1) ⟨time, first :: mid ++ [last]⟩ ⟨time, last :: mid⟩ hr hr' rfl
    (by simp) (by simp) (by
      intro m hm
      refine modify_congr hm _ _ _ ?_
      intro v hv
      obtain ⟨a0, a1, a2, a3, a4, a5, a6, a7, a8, a9, a10, rfl⟩ : ∃ a b c d e f g h i j k, mid = [a, b, c, d, e, f, g, h, i, j, k] := by
        match mid, hmid with
        | [a, b, c, d, e, f, g, h, i, j, k], _ => exact ⟨a, b, c, d, e, f, g, h, i, j, k, rfl⟩
      match v, hv with
      | [a, b, c, d, e, f, g, h, i, j, k, l], _ => rfl)
  have hall := csvLines_eq hO E.stof (pre ++ ⟨time, last :: mid⟩ :: post) (by
    intro q hq
    rcases List.mem_append.1 hq with hq | hq
    · exact hpre q hq
    · rcases List.mem_cons.1 hq with rfl | hq
      · exact ⟨hr', by simp [hmid]⟩
      · exact hpost q hq)
  have e1 := construct_csv hO E.M E.stof E.pl _ (E.audioFile file) _ (h.trans hall)
  have e2 := construct_csv hO E.M E.stof E.pl _ (E.audioFile file') _ hall
  have p1 : (defaultParsed E file .csv).inputType = some .csv := rfl
  have p2 : (defaultParsed E file' .csv).inputType = some .csv := rfl
  have f1 : (defaultParsed E file .csv).filename = file := rfl
  have f2 : (defaultParsed E file' .csv).filename = file' := rfl
  have c1 : (defaultParsed E file .csv).chromaOnly = false := rfl
  have c2 : (defaultParsed E file' .csv).chromaOnly = false := rfl
  refine ⟨?_, ?_⟩
  · simp only [readInput, p1, p2, f1, f2, c1, c2, hcsv, hcsv', Res.bind_ok, e1, e2]
    rfl
  · rw [hcsv]
    exact ⟨_, e1, rfl⟩

/-- **C147 is violated: too few values.**  A row with fewer than twelve numbers, at a time that no earlier row has, is not refused:
the numbers that are missing count as zeros. -/
theorem C147_short_violated (E : Env D S P T) (hO : OrderLaws E.F) (time : Str × D) (vals : List (Str × D)) (hne : vals ≠ [])
    (hlen : vals.length < 12) (hr : Row.Ok E.F E.stof ⟨time, vals⟩) (file : Str) (hcsv : E.csvFile file = some (csvText [⟨time, vals⟩])) :
    ∃ c, construct E.F E.M E.stof E.pl (E.csvFile file) (E.audioFile file) .csv = .ok c ∧ c.getStatus = 4 ∧
      c.original = [(time.2, Row.frame E.F ⟨time, vals ++ List.replicate (12 - vals.length) ([], E.F.zero)⟩)] := by
  have h1 := getlines_rows E.stof [(⟨time, vals⟩ : Row D)] (by simpa using hr) []
  have h2 : csvLines E.F E.stof (csvText [⟨time, vals⟩]) =
      .ok [(time.2, Row.frame E.F ⟨time, vals ++ List.replicate (12 - vals.length) ([], E.F.zero)⟩)] := by
    rw [List.append_nil] at h1
    simp only [csvLines, h1]
    have g : getlines '\n' [] = [] := rfl
    rw [g, List.append_nil, List.map_cons, List.map_nil, forM_cons, Row.getlines_text E.stof _ hr, csvTokens_any hO E.stof _ hr hne]
    have : setCols 0 (vals.map Prod.snd) (CMap.zeros E.F) =
        Row.frame E.F ⟨time, vals ++ List.replicate (12 - vals.length) ([], E.F.zero)⟩ := by
      match vals, hlen with
      | [], _ => rfl
      | [_], _ => rfl
      | [_, _], _ => rfl
      | [_, _, _], _ => rfl
      | [_, _, _, _], _ => rfl
      | [_, _, _, _, _], _ => rfl
      | [_, _, _, _, _, _], _ => rfl
      | [_, _, _, _, _, _, _], _ => rfl
      | [_, _, _, _, _, _, _, _], _ => rfl
      | [_, _, _, _, _, _, _, _, _], _ => rfl
      | [_, _, _, _, _, _, _, _, _, _], _ => rfl
      | [_, _, _, _, _, _, _, _, _, _, _], _ => rfl
    simp [CMap.modify, this, forM]
  rw [hcsv]
  exact ⟨_, construct_csv hO E.M E.stof E.pl _ (E.audioFile file) _ h2, rfl, rfl⟩

/-! ### Concrete instances -/

/-- A heading is a line whose first field is no number; so is a line that begins with the name of the recording. -/
example : BadLine toy toyStof "time".toList "time,A,A#,B".toList ∧ toyStof "time".toList = .throw .invalidArgument :=
  ⟨.first "A,A#,B".toList, by decide⟩

/-- A blank field after two values. -/
example : BadLine toy toyStof [] "7,1,2,,4".toList ∧ toyStof [] = .throw .invalidArgument :=
  ⟨.later (toyRow '7' "12".toList) ⟨by decide, by decide, by decide⟩ "4".toList, by decide⟩

/-- A row with thirteen values and a row with three. -/
example : csvLines toy toyStof "7,1,2,3,4,5,6,7,8,9,0,1,2,9\n8,1,2,3\n".toList =
    .ok [(7, [4, 5, 6, 7, 8, 9, 0, 1, 2, 9, 2, 3]), (8, [0, 0, 0, 0, 0, 0, 0, 0, 0, 1, 2, 3])] := by
  decide +kernel

end JKD.Phrases
