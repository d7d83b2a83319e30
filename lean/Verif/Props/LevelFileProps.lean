import Verif.Props.MalformedProps
/-
C148: the level of chroma files.
-/

namespace JKD.Phrases

open Spec HMM RD Detect Main Chromagram

/-- **Specification.**  The same row, `c` times as loud. -/
def Louder (c : ℝ) (r r' : Row RD) : Prop :=
  r'.time = r.time ∧ List.Forall₂ (fun p q : Str × RD => ∃ x : ℝ, p.2 = fin x ∧ q.2 = fin (c * x)) r.vals r'.vals

/-- **C148 (partial).**  Two files whose rows have the same times and, in whole units, the same values get the same answer. -/
theorem C148_units_partial {D S P T : Type} (E : Env D S P T) (hO : OrderLaws E.F) (rows rows' : List (Row D))
    (hrows : ∀ r ∈ rows, r.Ok E.F E.stof ∧ r.vals.length = 12) (hrows' : ∀ r ∈ rows', r.Ok E.F E.stof ∧ r.vals.length = 12)
    (htimes : rows.Pairwise (fun a b => E.F.lt a.time.2 b.time.2 = true))
    (h : List.Forall₂ (fun a b : Row D => b.time = a.time ∧ b.heard E.F = a.heard E.F) rows rows')
    (file file' ext ext' : Str) (hx : HasExtension file ext) (hx' : HasExtension file' ext') (hl : file.length < npos)
    (hl' : file'.length < npos) (hm : ext.map Char.toLower = "csv".toList) (hm' : ext'.map Char.toLower = "csv".toList)
    (hcsv : E.csvFile file = some (csvText rows)) (hcsv' : E.csvFile file' = some (csvText rows')) :
    main E (.ok (Options.default file')) = main E (.ok (Options.default file)) := by
  have e : rows'.map (Row.heard E.F) = rows.map (Row.heard E.F) ∧ rows'.map Row.time = rows.map Row.time := by
    clear hrows hrows' htimes hcsv hcsv'
    induction h with
    | nil => exact ⟨rfl, rfl⟩
    | cons h _ ih => exact ⟨by rw [List.map_cons, List.map_cons, h.2, ih.1], by rw [List.map_cons, List.map_cons, h.1, ih.2]⟩
  have t' : rows'.Pairwise (fun a b => E.F.lt a.time.2 b.time.2 = true) := by
    have h1 : (rows.map Row.time).Pairwise (fun a b => E.F.lt a.2 b.2 = true) := List.pairwise_map.2 htimes
    rw [← e.2] at h1
    exact List.pairwise_map.1 h1
  have r1 := csv_read E hO rows hrows htimes file hcsv
  have r2 := csv_read E hO rows' hrows' t' file' hcsv'
  rw [e.1] at r2
  have hcfg : (defaultParsed E file' .csv).cfg = (defaultParsed E file .csv).cfg := rfl
  have hpr : ∀ f (d : Detection D), printResult E (defaultParsed E f .csv) d = keyLine d.mainKey := by
    intro f d
    simp [printResult, defaultParsed]
  simp only [main, csv_parsed E file ext hx hl hm, csv_parsed E file' ext' hx' hl' hm', Res.bind_ok, r1, r2, hcfg, hpr]

/-! ### Quiet files -/

theorem quiet_frames (lg : ℝ → RD) (past : Option (List RD)) : ∀ rows : List (Row RD),
    (∀ r ∈ rows, r.vals.length = 12 ∧ ∀ p ∈ r.vals, ∃ x : ℝ, p.2 = fin x ∧ 0 ≤ x ∧ x < 2) → ∀ seq,
    framesLoop (ieee lg) past (rows.map (Row.heard (ieee lg))) seq = .ok seq ∨
      framesLoop (ieee lg) past (rows.map (Row.heard (ieee lg))) seq = .ub := by
  have push : ∀ r : Row RD, r.vals.length = 12 → (∀ p ∈ r.vals, ∃ x : ℝ, p.2 = fin x ∧ 0 ≤ x ∧ x < 2) → ∀ seq,
      pushFrame (ieee lg) (r.heard (ieee lg)) seq = .ok seq := by
    intro r hl hv seq
    have all : ∀ y ∈ r.heard (ieee lg), ∃ x : ℝ, y = (ieee lg).floor (fin x) ∧ 0 ≤ x ∧ x < 2 := by
      intro y hy
      obtain ⟨z, hz, rfl⟩ := List.mem_map.1 hy
      rw [frame_rotate r hl] at hz
      obtain ⟨p, hp, rfl⟩ := List.mem_map.1 (List.mem_rotate.1 hz)
      obtain ⟨x, hx, h0, h2⟩ := hv p hp
      exact ⟨x, by rw [hx], h0, h2⟩
    unfold pushFrame
    generalize r.heard (ieee lg) = v at all
    have : ∀ (l : List (RD × Nat)), (∀ q ∈ l, ∃ x : ℝ, q.1 = (ieee lg).floor (fin x) ∧ 0 ≤ x ∧ x < 2) →
        forM l seq (fun seq p => pushPitchClass (ieee lg) p.2 p.1 seq) = .ok seq := by
      intro l
      induction l with
      | nil => intro _; rfl
      | cons q l ih =>
        intro h
        obtain ⟨x, hx, h0, h2⟩ := h q (by simp)
        rw [forM_cons, hx, show ieee lg = RD.fpu RD.binary64 lg from rfl, C33_small_partial RD.binary64 lg x h0 h2, Res.bind_ok]
        exact ih (fun q hq => h q (by simp [hq]))
    refine this _ ?_
    intro q hq
    obtain ⟨y, i⟩ := q
    exact all y (List.fst_mem_of_mem_zipIdx hq)
  intro rows
  induction rows with
  | nil => intro _ seq; exact Or.inl rfl
  | cons r rows ih =>
    intro h seq
    have ih := ih (fun q hq => h q (by simp [hq]))
    have hp := push r (h r (by simp)).1 (h r (by simp)).2
    cases rows with
    | nil =>
      cases past with
      | none => exact Or.inr rfl
      | some g =>
        left
        simp only [List.map_cons, List.map_nil, framesLoop, Res.read_some, Res.bind_ok, hp]
        split <;> rfl
    | cons r' rows =>
      simp only [List.map_cons] at ih ⊢
      rw [framesLoop_two, hp, Res.bind_ok]
      split <;> exact ih seq

/-- **C148 is violated: quiet files.**  A chroma file all of whose values are below two has undefined behaviour, whatever its notes
are. -/
theorem C148_quiet_violated {S P T : Type} (lg : ℝ → RD) (E : Env RD S P T) (hF : E.F = ieee lg)
    (hj : E.junkMajor.length = 12 ∧ E.junkMinor.length = 12 ∧ E.junkTransition.length = 24) (rows : List (Row RD))
    (hrows : ∀ r ∈ rows, r.Ok E.F E.stof ∧ r.vals.length = 12)
    (htimes : rows.Pairwise (fun a b => E.F.lt a.time.2 b.time.2 = true))
    (hq : ∀ r ∈ rows, ∀ p ∈ r.vals, ∃ x : ℝ, p.2 = fin x ∧ 0 ≤ x ∧ x < 2)
    (file ext : Str) (hx : HasExtension file ext) (hl : file.length < npos) (hm : ext.map Char.toLower = "csv".toList)
    (hcsv : E.csvFile file = some (csvText rows)) : main E (.ok (Options.default file)) = .ub := by
  have hO : OrderLaws E.F := by rw [hF]; exact RD.orderLaws RD.binary64 lg
  have r1 := csv_read E hO rows hrows htimes file hcsv
  rw [hF] at r1
  rcases quiet_frames lg E.past rows (fun r hr => ⟨(hrows r hr).2, hq r hr⟩) [] with h | h
  · rw [h, Res.bind_ok] at r1
    exact C42_empty_violated E _ _ (csv_parsed E file ext hx hl hm) ⟨hj.2.2, hj.1, hj.2.1⟩ r1
  · rw [h] at r1
    simp only [main, csv_parsed E file ext hx hl hm, Res.bind_ok, r1]
    rfl

/-- **C148 is violated by every file.**  Every chroma file with a quiet enough copy loses its key: from some level downwards the
program has no answer. -/
theorem C148_every_violated {S P T : Type} (lg : ℝ → RD) (E : Env RD S P T) (hF : E.F = ieee lg)
    (hj : E.junkMajor.length = 12 ∧ E.junkMinor.length = 12 ∧ E.junkTransition.length = 24) (rows : List (Row RD))
    (hpos : ∀ r ∈ rows, ∀ p ∈ r.vals, ∃ x : ℝ, p.2 = fin x ∧ 0 ≤ x)
    (htimes : rows.Pairwise (fun a b => E.F.lt a.time.2 b.time.2 = true)) :
    ∃ c > 0, ∀ c' > 0, c' ≤ c → ∀ rows', List.Forall₂ (Louder c') rows rows' →
      (∀ r ∈ rows', r.Ok E.F E.stof ∧ r.vals.length = 12) → ∀ file ext : Str, HasExtension file ext → file.length < npos →
      ext.map Char.toLower = "csv".toList → E.csvFile file = some (csvText rows') → main E (.ok (Options.default file)) = .ub := by
  obtain ⟨B, hB, hb⟩ : ∃ B : ℝ, 0 < B ∧ ∀ r ∈ rows, ∀ p ∈ r.vals, ∃ x : ℝ, p.2 = fin x ∧ 0 ≤ x ∧ x ≤ B := by
    clear htimes
    induction rows with
    | nil => exact ⟨1, one_pos, by simp⟩
    | cons r rows ih =>
      obtain ⟨B, h0, h1⟩ := ih (fun q hq => hpos q (by simp [hq]))
      have one : ∀ l : List (Str × RD), (∀ p ∈ l, ∃ x : ℝ, p.2 = fin x ∧ 0 ≤ x) →
          ∃ C : ℝ, 0 < C ∧ ∀ p ∈ l, ∃ x : ℝ, p.2 = fin x ∧ 0 ≤ x ∧ x ≤ C := by
        intro l
        induction l with
        | nil => intro _; exact ⟨1, one_pos, by simp⟩
        | cons p l ih =>
          intro h
          obtain ⟨C, hC, h2⟩ := ih (fun q hq => h q (by simp [hq]))
          obtain ⟨x, hx, hx0⟩ := h p (by simp)
          refine ⟨max C x, lt_max_of_lt_left hC, ?_⟩
          intro q hq
          rcases List.mem_cons.1 hq with rfl | hq
          · exact ⟨x, hx, hx0, le_max_right _ _⟩
          · obtain ⟨y, hy, hy0, hy1⟩ := h2 q hq
            exact ⟨y, hy, hy0, hy1.trans (le_max_left _ _)⟩
      obtain ⟨C, hC, h2⟩ := one r.vals (hpos r (by simp))
      refine ⟨max B C, lt_max_of_lt_left h0, ?_⟩
      intro q hq p hp
      rcases List.mem_cons.1 hq with rfl | hq
      · obtain ⟨y, hy, hy0, hy1⟩ := h2 p hp
        exact ⟨y, hy, hy0, hy1.trans (le_max_right _ _)⟩
      · obtain ⟨y, hy, hy0, hy1⟩ := h1 q hq p hp
        exact ⟨y, hy, hy0, hy1.trans (le_max_left _ _)⟩
  refine ⟨1 / B, by positivity, ?_⟩
  intro c hc hcB rows' hlo hrows' file ext hx hl hm hcsv
  have times : rows'.map Row.time = rows.map Row.time := by
    clear hrows' hcsv htimes hb hpos
    induction hlo with
    | nil => rfl
    | cons h _ ih => rw [List.map_cons, List.map_cons, h.1, ih]
  have t' : rows'.Pairwise (fun a b => E.F.lt a.time.2 b.time.2 = true) := by
    have h1 : (rows.map Row.time).Pairwise (fun a b => E.F.lt a.2 b.2 = true) := List.pairwise_map.2 htimes
    rw [← times] at h1
    exact List.pairwise_map.1 h1
  refine C148_quiet_violated lg E hF hj rows' hrows' t' ?_ file ext hx hl hm hcsv
  intro r' hr' p' hp'
  obtain ⟨r, hr, hrr⟩ : ∃ r ∈ rows, Louder c r r' := by
    clear hrows' hcsv htimes hb hpos t' times
    induction hlo with
    | nil => simp at hr'
    | cons h _ ih =>
      rcases List.mem_cons.1 hr' with rfl | hr'
      · exact ⟨_, by simp, h⟩
      · obtain ⟨r, h1, h2⟩ := ih hr'
        exact ⟨r, by simp [h1], h2⟩
  obtain ⟨p, hp, x, hx1, hx2⟩ : ∃ p ∈ r.vals, ∃ x : ℝ, p.2 = fin x ∧ p'.2 = fin (c * x) := by
    have := hrr.2
    revert hp'
    generalize r.vals = l at this
    generalize r'.vals = l' at this
    induction this with
    | nil => simp
    | cons h _ ih =>
      intro hp'
      rcases List.mem_cons.1 hp' with rfl | hp'
      · exact ⟨_, by simp, h⟩
      · obtain ⟨p, h1, h2⟩ := ih hp'
        exact ⟨p, by simp [h1], h2⟩
  obtain ⟨y, hy, hy0, hy1⟩ := hb r hr p hp
  rw [hx1] at hy
  cases hy
  refine ⟨c * x, hx2, by positivity, ?_⟩
  have h1 : c * x ≤ 1 / B * B := mul_le_mul hcB hy1 hy0 (by positivity)
  rw [one_div_mul_cancel hB.ne'] at h1
  linarith

/-! ### A chord at two levels -/

/-- A chord at the level `n`. -/
noncomputable def levelRow (s : Str) (n : Nat) (pcs : List Nat) : Row RD :=
  ⟨("0".toList, fin 0), (List.range 12).map (fun i => if (i + 9) % 12 ∈ pcs then (s, fin n) else ("0".toList, fin 0))⟩

theorem levelRow_heard (lg : ℝ → RD) (s : Str) (n : Nat) (pcs : List Nat) :
    (levelRow s n pcs).heard (ieee lg) = (List.range 12).map (fun i => if i ∈ pcs then fin n else fin 0) := by
  have fl : ∀ c : Bool, (ieee lg).floor (if c then fin n else fin 0) = if c then fin n else fin 0 := by
    intro c
    cases c
    · change fin ((⌊(0 : ℝ)⌋ : ℤ) : ℝ) = fin 0
      simp
    · change fin ((⌊(n : ℝ)⌋ : ℤ) : ℝ) = fin n
      rw [Int.floor_natCast]
      simp
  have e : (levelRow s n pcs).frame (ieee lg) = (List.range 12).map (fun i => if i ∈ pcs then fin n else fin 0) := by
    rw [frame_rotate _ (by simp [levelRow])]
    simp only [levelRow, List.map_map]
    have : ∀ c : Prop, ∀ [Decidable c], (Prod.snd (if c then (s, fin n) else ("0".toList, fin 0) : Str × RD)) =
        if c then fin n else fin 0 := by
      intro c _
      split <;> rfl
    simp only [Function.comp_def, this]
    rfl
  rw [Row.heard, e, List.map_map]
  refine List.map_congr_left ?_
  intro i _
  simpa using fl (decide (i ∈ pcs))

theorem levelRow_safe (lg : ℝ → RD) (s : Str) (n : Nat) (hn : n ≤ 100) (pcs : List Nat) :
    Safe (ieee lg) ((levelRow s n pcs).heard (ieee lg)) ∧
    frameInts (ints (ieee lg) ((levelRow s n pcs).heard (ieee lg))) =
      ((List.range 12).filter (· ∈ pcs)).flatMap (fun i : Nat => List.replicate (n - 1) (i : Int)) := by
  have tn : ∀ n : Nat, n ≤ 100 → (ieee lg).toInt (fin n) = some (n : Int) := by
    intro n hn
    change (if -2147483648 ≤ RD.trunc n ∧ RD.trunc n ≤ 2147483647 then some (RD.trunc n) else none) = some (n : Int)
    have : RD.trunc (n : ℝ) = n := by
      unfold RD.trunc
      rw [if_pos (Nat.cast_nonneg n)]
      exact Int.floor_natCast n
    rw [this, if_pos (by omega)]
  have t0 : (ieee lg).toInt (fin 0) = some 0 := by simpa using tn 0 (by norm_num)
  rw [levelRow_heard]
  constructor
  · refine ⟨by simp, ?_⟩
    intro x hx
    obtain ⟨i, _, rfl⟩ := List.mem_map.1 hx
    split
    · exact ⟨n, tn n hn, by positivity⟩
    · exact ⟨0, t0, le_refl _⟩
  · have hi : ∀ i < 12, ints (ieee lg) ((List.range 12).map (fun i => if i ∈ pcs then fin n else fin 0)) i = if i ∈ pcs then (n : Int) else 0 := by
      intro i hi
      simp only [ints, List.getElem?_map, List.getElem?_range hi, Option.map_some, Option.bind_some]
      split
      · rw [tn n hn]; rfl
      · rw [t0]; rfl
    unfold frameInts
    have : ∀ l : List Nat, (∀ i ∈ l, i < 12) → l.flatMap (fun pc => List.replicate
        (ints (ieee lg) ((List.range 12).map (fun i => if i ∈ pcs then fin n else fin 0)) pc - 1).toNat (pc : Int)) =
        (l.filter (· ∈ pcs)).flatMap (fun i : Nat => List.replicate (n - 1) (i : Int)) := by
      intro l
      induction l with
      | nil => intro _; rfl
      | cons i l ih =>
        intro h
        rw [List.flatMap_cons, ih (fun q hq => h q (by simp [hq])), hi i (h i (by simp))]
        by_cases hm : i ∈ pcs
        · have : ((n : Int) - 1).toNat = n - 1 := by omega
          simp [hm, this]
        · simp [hm]
    exact this _ (fun i hi => List.mem_range.1 hi)

theorem one_level {S P T : Type} (lg : ℝ → RD) (E : Env RD S P T) (hF : E.F = ieee lg) (s : Str) (n : Nat) (hn : n ≤ 100)
    (hs : ',' ∉ s ∧ '\n' ∉ s ∧ s ≠ []) (h0 : E.stof "0".toList = .ok (fin 0)) (h1 : E.stof s = .ok (fin n))
    (a : List Nat) (g : List RD) (hpast : E.past = some g)
    (hlast : sameVector (ieee lg) ((levelRow s n a).heard (ieee lg)) g = false) (file : Str)
    (hcsv : E.csvFile file = some (csvText [levelRow s n a])) :
    readInput E (defaultParsed E file .csv) =
      .ok (.ok ((((List.range 12).filter (· ∈ a)).flatMap (fun i : Nat => List.replicate (n - 1) (i : Int))).map PitchClass.ofInt)) := by
  have hO : OrderLaws E.F := by rw [hF]; exact RD.orderLaws RD.binary64 lg
  rw [csv_read E hO _ ?_ (List.pairwise_singleton _ _) file hcsv]
  · obtain ⟨s1, f1⟩ := levelRow_safe lg s n hn a
    rw [hF, hpast, List.map_cons, List.map_nil, framesLoop_one g _ hlast, pushFrame_safe _ s1, Res.bind_ok, frameSpec_ints, f1]
    rfl
  · intro r hr
    simp only [List.mem_cons, List.not_mem_nil, or_false] at hr
    subst hr
    refine ⟨⟨?_, ⟨by simp [levelRow], by simp [levelRow], by simp [levelRow], h0⟩, ?_⟩, by simp [levelRow]⟩
    · rw [hF]
      change RD.eq (fin 0) (fin 0) = true
      simp [RD.eq]
    · intro p hp
      obtain ⟨i, _, rfl⟩ := List.mem_map.1 hp
      split
      · exact ⟨hs.1, hs.2.1, hs.2.2, h1⟩
      · exact ⟨by decide, by decide, by decide, h0⟩

/-- C, F and B together, and the same three times as loud. -/
theorem levelRow_text : csvText [levelRow "2".toList 2 [0, 5, 11]] = "0,0,0,2,2,0,0,0,0,2,0,0,0\n".toList ∧
    csvText [levelRow "6".toList 6 [0, 5, 11]] = "0,0,0,6,6,0,0,0,0,6,0,0,0\n".toList ∧
    Louder 3 (levelRow "2".toList 2 [0, 5, 11]) (levelRow "6".toList 6 [0, 5, 11]) := by
  refine ⟨rfl, rfl, rfl, ?_⟩
  unfold levelRow
  dsimp only
  rw [List.forall₂_map_left_iff, List.forall₂_map_right_iff, List.forall₂_same]
  intro i _
  split
  · exact ⟨2, by norm_num, by norm_num⟩
  · exact ⟨0, by norm_num, by norm_num⟩

/-- **C148 is violated: loud files.**  A chord that is in C major, and in F major when it is three times as loud. -/
theorem C148_loud_violated {S P T : Type} {η : ℝ} (lg : ℝ → RD) (hok : LogOk lg) (hlg : LogClose η lg)
    (hη : η ≤ (2 : ℝ) ^ (-30 : ℤ)) (E : Env RD S P T) (hF : E.F = ieee lg) (hi₁ : HMM.Iter.Ok E.iter₁) (hi₂ : HMM.Iter.Ok E.iter₂)
    (hj : E.junkMajor.length = 12 ∧ E.junkMinor.length = 12 ∧ E.junkTransition.length = 24)
    (h0 : E.stof "0".toList = .ok (fin 0)) (h2 : E.stof "2".toList = .ok (fin (2 : Nat))) (h6 : E.stof "6".toList = .ok (fin (6 : Nat)))
    (g : List RD) (hpast : E.past = some g)
    (hl2 : sameVector (ieee lg) ((levelRow "2".toList 2 [0, 5, 11]).heard (ieee lg)) g = false)
    (hl6 : sameVector (ieee lg) ((levelRow "6".toList 6 [0, 5, 11]).heard (ieee lg)) g = false)
    (file file' ext ext' : Str) (hx : HasExtension file ext) (hx' : HasExtension file' ext') (hl : file.length < npos)
    (hl' : file'.length < npos) (hm : ext.map Char.toLower = "csv".toList) (hm' : ext'.map Char.toLower = "csv".toList)
    (hcsv : E.csvFile file = some (csvText [levelRow "2".toList 2 [0, 5, 11]]))
    (hcsv' : E.csvFile file' = some (csvText [levelRow "6".toList 6 [0, 5, 11]])) :
    main E (.ok (Options.default file)) = .ok { stdout := "C\tmajor\n".toList, stderr := [], code := 0 } ∧
    main E (.ok (Options.default file')) = .ok { stdout := "F\tmajor\n".toList, stderr := [], code := 0 } := by
  have r1 : keyLine (Key.ofInt 0) = .ok "C\tmajor\n".toList := by decide +kernel
  have r2 : keyLine (Key.ofInt 5) = .ok "F\tmajor\n".toList := by decide +kernel
  constructor
  · rw [clear_read lg hok hlg hη E hF hi₁ hi₂ hj file .csv ((C36_extension_partial E (Options.default file) file ext rfl hx hl).2.1 hm)
      [(0, 0), (5, 0), (11, 0)]
      (one_level lg E hF "2".toList 2 (by norm_num) (by decide) h0 h2 [0, 5, 11] g hpast hl2 file hcsv)
      (by decide) (by decide) (by decide +kernel) 0 (by decide) (by decide +kernel), r1]
    rfl
  · rw [clear_read lg hok hlg hη E hF hi₁ hi₂ hj file' .csv ((C36_extension_partial E (Options.default file') file' ext' rfl hx' hl').2.1 hm')
      [(0, 5), (0, 5), (0, 5), (0, 5), (0, 5), (5, 5), (5, 5), (5, 5), (5, 5), (5, 5), (11, 0), (11, 0), (11, 0), (11, 0), (11, 0)]
      (one_level lg E hF "6".toList 6 (by norm_num) (by decide) h0 h6 [0, 5, 11] g hpast hl6 file' hcsv')
      (by decide) (by decide) (by decide +kernel) 5 (by decide) (by decide +kernel), r2]
    rfl

/-! ### Cases -/

/-- Bytes past the end that are not the last frame of these files: twelve times the number 5. -/
example (lg : ℝ → RD) : sameVector (ieee lg) ((levelRow "2".toList 2 [0, 5, 11]).heard (ieee lg)) (List.replicate 12 (fin 5)) = false ∧
    sameVector (ieee lg) ((levelRow "6".toList 6 [0, 5, 11]).heard (ieee lg)) (List.replicate 12 (fin 5)) = false := by
  have ne : ∀ s n, n ≠ 5 → sameVector (ieee lg) ((levelRow s n [0, 5, 11]).heard (ieee lg)) (List.replicate 12 (fin 5)) = false := by
    intro s n hn
    rw [levelRow_heard, ← Bool.not_eq_true]
    intro he
    have h0 := List.all_eq_true.1 he (fin 0, fin 5) (by simp [List.range_succ, List.replicate_succ])
    change RD.eq (fin 0) (fin 5) = true at h0
    simp [RD.eq] at h0
  exact ⟨ne _ _ (by decide), ne _ _ (by decide)⟩

/-- A file with the quiet chord at half its level meets the hypotheses of `C148_quiet_violated`. -/
example : ∀ r ∈ [levelRow "1".toList 1 [0, 5, 11]], ∀ p ∈ r.vals, ∃ x : ℝ, p.2 = fin x ∧ 0 ≤ x ∧ x < 2 := by
  intro r hr p hp
  simp only [List.mem_cons, List.not_mem_nil, or_false] at hr
  subst hr
  obtain ⟨i, _, rfl⟩ := List.mem_map.1 hp
  split
  · exact ⟨1, by norm_num, by norm_num, by norm_num⟩
  · exact ⟨0, rfl, le_refl _, by norm_num⟩

end JKD.Phrases
