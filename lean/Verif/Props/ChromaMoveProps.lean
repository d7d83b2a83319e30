import Verif.Props.RepeatProps
import Verif.Props.HeldProps
/-
C141: transposed chroma files.
-/

namespace JKD.Chromagram

variable {D : Type} {F : FPU D}

/-- **Specification.**  A row of a chroma file, `t` semitones higher: every value moves `t` columns to the right, cyclically. -/
def Row.higher (t : Nat) (r : Row D) : Row D := { r with vals := r.vals.rotate ((12 - t % 12) % 12) }

/-- **Specification.**  A row in which at most one pitch class is heard: all the other ones have less than two units. -/
def Row.Single (F : FPU D) (r : Row D) : Prop :=
  ∃ pc < 12, ∀ i < 12, i ≠ pc → ∀ x n, (r.heard F)[i]? = some x → F.toInt x = some n → n ≤ 1

theorem frame_rotate (r : Row D) (h : r.vals.length = 12) : r.frame F = (r.vals.map Prod.snd).rotate 3 := by
  unfold Row.frame
  have hx : (r.vals.map Prod.snd).length = 12 := by simpa using h
  generalize r.vals.map Prod.snd = xs at hx ⊢
  match xs, hx with
  | [a, b, c, d, e, f, g, h, i, j, k, l], _ => rfl

theorem heard_higher (t : Nat) (r : Row D) (h : r.vals.length = 12) :
    (r.higher t).heard F = (r.heard F).rotate ((12 - t % 12) % 12) := by
  unfold Row.heard
  rw [frame_rotate (F := F) (r.higher t) (by simpa [Row.higher] using h), frame_rotate r h]
  simp only [Row.higher, List.map_rotate, List.rotate_rotate, Nat.add_comm]

theorem heard_length (r : Row D) : (r.heard F).length = 12 := by simp [Row.heard, Row.frame]

theorem sameVector_rotate (v w : List D) (h : v.length = w.length) (n : Nat) :
    sameVector F (v.rotate n) (w.rotate n) = sameVector F v w := by
  unfold sameVector
  have : (v.rotate n).zip (w.rotate n) = (v.zip w).rotate n := by
    unfold List.zip
    rw [List.zipWith_rotate_distrib _ _ _ _ h]
  rw [this, Bool.eq_iff_iff, List.all_eq_true, List.all_eq_true]
  simp only [List.mem_rotate]

/-- The pitch classes of one frame as numbers. -/
def frameInts (n : Nat → Int) : List Int := (List.range 12).flatMap (fun pc => List.replicate (n pc - 1).toNat (pc : Int))

theorem frameSpec_ints (n : Nat → Int) : frameSpec n = (frameInts n).map PitchClass.ofInt := by
  simp [frameSpec, frameInts, List.map_flatMap, List.map_replicate]

theorem frameInts_range (n : Nat → Int) : ∀ o ∈ frameInts n, 0 ≤ o ∧ o < 12 := by
  intro o ho
  obtain ⟨pc, hpc, ho⟩ := List.mem_flatMap.1 ho
  rw [List.eq_of_mem_replicate ho]
  have := List.mem_range.1 hpc
  omega

theorem frameInts_single (n : Nat → Int) (pc : Nat) (hpc : pc < 12) (h : ∀ i < 12, i ≠ pc → n i ≤ 1) :
    frameInts n = List.replicate (n pc - 1).toNat (pc : Int) := by
  have key : ∀ m, (List.range m).flatMap (fun pc => List.replicate (n pc - 1).toNat (pc : Int)) =
      if pc < m ∧ m ≤ 12 then List.replicate (n pc - 1).toNat (pc : Int) else
        (List.range m).flatMap (fun pc => List.replicate (n pc - 1).toNat (pc : Int)) := by
    intro m
    induction m with
    | zero => simp
    | succ m ih =>
      by_cases hm : pc < m + 1 ∧ m + 1 ≤ 12
      · rw [if_pos hm, List.range_succ, List.flatMap_append, ih]
        by_cases he : pc < m
        · rw [if_pos ⟨he, by omega⟩]
          have : (n m - 1).toNat = 0 := by
            have := h m (by omega) (by omega)
            omega
          rw [List.flatMap_singleton, this]
          simp
        · have he' : m = pc := by omega
          subst he'
          rw [if_neg (by omega)]
          have : (List.range m).flatMap (fun pc => List.replicate (n pc - 1).toNat (pc : Int)) = [] := by
            rw [List.flatMap_eq_nil_iff]
            intro i hi
            have hi := List.mem_range.1 hi
            have := h i (by omega) (by omega)
            have e : (n i - 1).toNat = 0 := by omega
            rw [e]
            rfl
          rw [this]
          simp
      · rw [if_neg hm]
  have := key 12
  rw [if_pos ⟨hpc, le_refl _⟩] at this
  exact this

theorem safe_rotate {v : List D} (h : Safe F v) (n : Nat) : Safe F (v.rotate n) :=
  ⟨by rw [List.length_rotate, h.1], fun x hx => h.2 x (List.mem_rotate.1 hx)⟩

theorem ints_rotate {v : List D} (h : v.length = 12) (n i : Nat) (hi : i < 12) : ints F (v.rotate n) i = ints F v ((i + n) % 12) := by
  unfold ints
  rw [List.getElem?_rotate (by omega), h]

theorem frameInts_higher (t : Nat) (r : Row D) (h : r.vals.length = 12) (hs : Safe F (r.heard F)) (h1 : r.Single F) :
    frameInts (ints F ((r.higher t).heard F)) = (frameInts (ints F (r.heard F))).map (Spec.transposePc (t : Int)) := by
  obtain ⟨pc, hpc, hpc1⟩ := h1
  have one : ∀ i < 12, i ≠ pc → ints F (r.heard F) i ≤ 1 := by
    intro i hi hne
    have hl := heard_length (F := F) r
    have e : (r.heard F)[i]? = some ((r.heard F)[i]'(by omega)) := List.getElem?_eq_getElem (by omega)
    obtain ⟨n, hn, _⟩ := hs.2 _ (List.getElem_mem (l := r.heard F) (n := i) (by omega))
    have := hpc1 i hi hne _ n e hn
    simp [ints, e, hn, this]
  rw [frameInts_single _ pc hpc one, heard_higher t r h, List.map_replicate,
    frameInts_single _ ((pc + t) % 12) (by omega) (by
      intro i hi hne
      rw [ints_rotate (heard_length r) _ _ hi]
      refine one _ (by omega) ?_
      omega), ints_rotate (heard_length r) _ _ (by omega)]
  have e1 : ((pc + t) % 12 + (12 - t % 12) % 12) % 12 = pc := by omega
  have e2 : (((pc + t) % 12 : Nat) : Int) = Spec.transposePc (t : Int) (pc : Int) := by
    simp only [Spec.transposePc]
    omega
  rw [e1, e2]

theorem framesLoop_two (past : Option (List D)) (v w : List D) (rest : List (List D)) (seq : List PitchClass) :
    framesLoop F past (v :: w :: rest) seq = if sameVector F v w then framesLoop F past (w :: rest) seq
      else pushFrame F v seq >>= fun seq => framesLoop F past (w :: rest) seq := by
  rw [framesLoop.eq_3]
  rfl

theorem framesLoop_one (g v : List D) (h : sameVector F v g = false) (seq : List PitchClass) :
    framesLoop F (some g) [v] seq = pushFrame F v seq := by
  simp only [framesLoop, Res.read_some, Res.bind_ok, h, Bool.false_eq_true, if_false]
  cases pushFrame F v seq <;> rfl

/-- The frames of a melody and of the melody `t` semitones higher. -/
theorem framesLoop_higher (t : Nat) (g : List D) (l : List (Row D)) (hl : ∀ r ∈ l, r.vals.length = 12 ∧ Safe F (r.heard F) ∧ r.Single F)
    (hlast : ∀ r, l.getLast? = some r → sameVector F (r.heard F) g = false ∧ sameVector F ((r.higher t).heard F) g = false) :
    ∃ os : List Int, (∀ o ∈ os, 0 ≤ o ∧ o < 12) ∧
      (∀ seq, framesLoop F (some g) (l.map (Row.heard F)) seq = .ok (seq ++ os.map PitchClass.ofInt)) ∧
      ∀ seq, framesLoop F (some g) ((l.map (Row.higher t)).map (Row.heard F)) seq =
        .ok (seq ++ (os.map (Spec.transposePc (t : Int))).map PitchClass.ofInt) := by
  induction l with
  | nil => exact ⟨[], by simp, by simp [framesLoop], by simp [framesLoop]⟩
  | cons r l ih =>
    obtain ⟨h1, h2, h3⟩ := hl r (by simp)
    have e := frameInts_higher t r h1 h2 h3
    have h2' : Safe F ((r.higher t).heard F) := by rw [heard_higher t r h1]; exact safe_rotate h2 _
    have p1 : ∀ seq, pushFrame F (r.heard F) seq = .ok (seq ++ (frameInts (ints F (r.heard F))).map PitchClass.ofInt) := by
      intro seq; rw [pushFrame_safe _ h2, frameSpec_ints]
    have p2 : ∀ seq, pushFrame F ((r.higher t).heard F) seq =
        .ok (seq ++ ((frameInts (ints F (r.heard F))).map (Spec.transposePc (t : Int))).map PitchClass.ofInt) := by
      intro seq; rw [pushFrame_safe _ h2', frameSpec_ints, e]
    cases l with
    | nil =>
      obtain ⟨a, b⟩ := hlast r rfl
      refine ⟨frameInts (ints F (r.heard F)), frameInts_range _, ?_, ?_⟩
      · intro seq
        rw [List.map_cons, List.map_nil, framesLoop_one g _ a, p1]
      · intro seq
        rw [List.map_cons, List.map_nil, List.map_cons, List.map_nil, framesLoop_one g _ b, p2]
    | cons r' l =>
      obtain ⟨os, o1, o2, o3⟩ := ih (fun q hq => hl q (by simp [hq])) (fun q hq => hlast q (by rw [List.getLast?_cons_cons]; exact hq))
      have hs : sameVector F ((r.higher t).heard F) ((r'.higher t).heard F) = sameVector F (r.heard F) (r'.heard F) := by
        rw [heard_higher t r h1, heard_higher t r' (hl r' (by simp)).1,
          sameVector_rotate _ _ (by rw [heard_length, heard_length])]
      simp only [List.map_cons] at o2 o3 ⊢
      by_cases hv : sameVector F (r.heard F) (r'.heard F) = true
      · refine ⟨os, o1, ?_, ?_⟩
        · intro seq
          rw [framesLoop_two, if_pos hv]
          exact o2 seq
        · intro seq
          rw [framesLoop_two, if_pos (by rw [hs]; exact hv)]
          exact o3 seq
      · refine ⟨frameInts (ints F (r.heard F)) ++ os, ?_, ?_, ?_⟩
        · intro o ho
          rcases List.mem_append.1 ho with ho | ho
          · exact frameInts_range _ o ho
          · exact o1 o ho
        · intro seq
          rw [framesLoop_two, if_neg hv, p1, Res.bind_ok, o2]
          simp
        · intro seq
          rw [framesLoop_two, if_neg (by rw [hs]; exact hv), p2, Res.bind_ok, o3]
          simp

end JKD.Chromagram

namespace JKD.Phrases

open Spec HMM RD Detect Main Chromagram

/-- Reading a chroma file with the rows in time order, with the default options. -/
theorem csv_read {D S P T : Type} (E : Env D S P T) (hO : OrderLaws E.F) (rows : List (Row D))
    (hrows : ∀ r ∈ rows, r.Ok E.F E.stof ∧ r.vals.length = 12)
    (htimes : rows.Pairwise (fun a b => E.F.lt a.time.2 b.time.2 = true)) (file : Str) (hcsv : E.csvFile file = some (csvText rows)) :
    readInput E (defaultParsed E file .csv) = framesLoop E.F E.past (rows.map (Row.heard E.F)) [] >>= fun seq => .ok (.ok seq) := by
  obtain ⟨c, h1, h2, h3⟩ := csv_sequence hO E.M E.stof E.pl (E.audioFile file) E.past rows rows (List.Perm.refl _) hrows htimes
  have hp : (defaultParsed E file .csv).inputType = some .csv := rfl
  have hf : (defaultParsed E file .csv).filename = file := rfl
  have hco : (defaultParsed E file .csv).chromaOnly = false := rfl
  rw [← h3]
  simp [readInput, hp, hf, hco, hcsv, h1, h2]

/-- **C141 (partial), melodies.**  A chroma file in which at most one pitch class is heard at a time is read as a sequence of pitch
classes, and the file in which everything is `t` semitones higher is read as the same sequence, `t` semitones higher.  So if the
program is not undecided about the first one, it reports its key moved by `t` semitones for the second one. -/
theorem C141_melody_partial {D S P T : Type} {Num : D → Prop} (E : Env D S P T) (W : FPLaws E.F Num) (hO : OrderLaws E.F)
    (hi₁ : HMM.Iter.Ok E.iter₁) (hi₂ : HMM.Iter.Ok E.iter₂)
    (hj : E.junkMajor.length = 12 ∧ E.junkMinor.length = 12 ∧ E.junkTransition.length = 24) (t : Nat) (rows : List (Row D))
    (hrows : ∀ r ∈ rows, r.Ok E.F E.stof ∧ r.vals.length = 12)
    (htimes : rows.Pairwise (fun a b => E.F.lt a.time.2 b.time.2 = true))
    (hsafe : ∀ r ∈ rows, Safe E.F (r.heard E.F) ∧ r.Single E.F) (g : List D) (hpast : E.past = some g)
    (hlast : ∀ r, rows.getLast? = some r → sameVector E.F (r.heard E.F) g = false ∧ sameVector E.F ((r.higher t).heard E.F) g = false)
    (file file' ext ext' : Str) (hx : HasExtension file ext) (hx' : HasExtension file' ext') (hl : file.length < npos)
    (hl' : file'.length < npos) (hm : ext.map Char.toLower = "csv".toList) (hm' : ext'.map Char.toLower = "csv".toList)
    (hcsv : E.csvFile file = some (csvText rows)) (hcsv' : E.csvFile file' = some (csvText (rows.map (Row.higher t)))) :
    ∃ os : List Int, (∀ o ∈ os, 0 ≤ o ∧ o < 12) ∧
      readInput E (defaultParsed E file .csv) = .ok (.ok (os.map PitchClass.ofInt)) ∧
      readInput E (defaultParsed E file' .csv) = .ok (.ok ((os.map (transposePc (t : Int))).map PitchClass.ofInt)) ∧
      ∀ p1 p2, os ≠ [] → UniqueBest E.F (stage1 E.F (defaultParsed E file .csv).cfg os) p1 →
        UniqueBest E.F (stage2 E.F (defaultParsed E file .csv).cfg p1) p2 →
        ∃ k, p2.head? = some k ∧
          main E (.ok (Options.default file)) = (keyLine (Key.ofInt k) >>= fun line => .ok { stdout := line, stderr := [], code := 0 }) ∧
          main E (.ok (Options.default file')) =
            (keyLine (Key.ofInt (transposeKey (t : Int) k)) >>= fun line => .ok { stdout := line, stderr := [], code := 0 }) := by
  obtain ⟨os, h0, h1, h2⟩ := framesLoop_higher (F := E.F) t g rows (fun r hr => ⟨(hrows r hr).2, hsafe r hr⟩) hlast
  have ok' : ∀ r ∈ rows.map (Row.higher t), r.Ok E.F E.stof ∧ r.vals.length = 12 := by
    intro q hq
    obtain ⟨r, hr, rfl⟩ := List.mem_map.1 hq
    obtain ⟨⟨a, b, c⟩, d⟩ := hrows r hr
    exact ⟨⟨a, b, fun p hp => c p (List.mem_rotate.1 hp)⟩, by simpa [Row.higher] using d⟩
  have r1 := csv_read E hO rows hrows htimes file hcsv
  have r2 := csv_read E hO _ ok' (List.pairwise_map.2 htimes) file' hcsv'
  rw [hpast, h1, List.nil_append, Res.bind_ok] at r1
  rw [hpast, h2, List.nil_append, Res.bind_ok] at r2
  refine ⟨os, h0, r1, r2, ?_⟩
  intro p1 p2 hne hu1 hu2
  have hwf : Config.WF (defaultParsed E file .csv).cfg := ⟨hj.2.2, hj.1, hj.2.1⟩
  obtain ⟨d, d', k, e1, e2, _, _, e3, e4, e5, _⟩ := C24_detection W E.iter₁ E.iter₂ E.iter₁ E.iter₂ hi₁ hi₂ hi₁ hi₂ _ hwf (t : Int) os h0
    hne p1 p2 hu1 hu2
  have parse : ∀ f x, HasExtension f x → f.length < npos → x.map Char.toLower = "csv".toList →
      parseArgs E (.ok (Options.default f)) = .ok (.ok (defaultParsed E f .csv)) := by
    intro f x hx hl hm
    have ha : (Options.default f).args = [f] := rfl
    simp only [parseArgs, ha, (C36_extension_partial E (Options.default f) f x rfl hx hl).2.1 hm, Res.bind_ok]
    rfl
  have hpr : ∀ f (d : Detection D), printResult E (defaultParsed E f .csv) d = keyLine d.mainKey := by
    intro f d
    simp [printResult, defaultParsed]
  have hcfg : (defaultParsed E file' .csv).cfg = (defaultParsed E file .csv).cfg := rfl
  have named : ∀ (os : List Int) (d : Detection D) (k : Int), (∀ o ∈ os, 0 ≤ o ∧ o < 12) → os ≠ [] →
      detect E.F E.iter₁ E.iter₂ (defaultParsed E file .csv).cfg (os.map PitchClass.ofInt) = .ok (.ok d) → d.mainKey.getInt = .ok k →
      d.mainKey = Key.ofInt k := by
    intro os d k ho hne hd hk
    rcases detect_spec W E.iter₁ E.iter₂ hi₁ hi₂ _ hwf os ho hne with ⟨ht, _⟩ | ⟨p1, h1, p2, h2, k', _, _, _, _, _, hk', hd'⟩
    · rw [hd] at ht; cases ht
    · rw [hd] at hd'
      cases hd'
      have := (KeyProfile.isMajor_ofInt k' hk').2
      rw [this] at hk
      cases hk
      rfl
  have k1 := named os d k h0 hne e1 e4
  have k2 := named _ d' _ (by
    intro o ho
    obtain ⟨q, _, rfl⟩ := List.mem_map.1 ho
    simp only [transposePc]
    omega) (by simpa using hne) e2 e5
  refine ⟨k, e3, ?_, ?_⟩
  · simp only [main, parse file ext hx hl hm, r1, Res.bind_ok, e1, hpr, Res.pure_eq, k1]
  · simp only [main, parse file' ext' hx' hl' hm', r2, Res.bind_ok, hcfg, e2, hpr, Res.pure_eq, k2]

/-! ### Chords -/

/-- A row of a chroma file with a chord: two units of each of its pitch classes.  Column `i` belongs to pitch class `i + 9`. -/
noncomputable def chordRow (time : Str × RD) (pcs : List Nat) : Row RD :=
  ⟨time, (List.range 12).map (fun i => if (i + 9) % 12 ∈ pcs then ("2".toList, fin 2) else ("0".toList, fin 0))⟩

theorem chordRow_heard (lg : ℝ → RD) (time : Str × RD) (pcs : List Nat) :
    (chordRow time pcs).heard (ieee lg) = (List.range 12).map (fun i => if i ∈ pcs then fin 2 else fin 0) := by
  have fl : ∀ c : Bool, (ieee lg).floor (if c then fin 2 else fin 0) = if c then fin 2 else fin 0 := by
    intro c
    cases c
    · change fin ((⌊(0 : ℝ)⌋ : ℤ) : ℝ) = fin 0
      simp
    · change fin ((⌊(2 : ℝ)⌋ : ℤ) : ℝ) = fin 2
      rw [Int.floor_ofNat]
      simp
  have e : (chordRow time pcs).frame (ieee lg) = (List.range 12).map (fun i => if i ∈ pcs then fin 2 else fin 0) := by
    rw [frame_rotate _ (by simp [chordRow])]
    simp only [chordRow, List.map_map]
    have : ∀ c : Prop, ∀ [Decidable c], (Prod.snd (if c then ("2".toList, fin 2) else ("0".toList, fin 0) : Str × RD)) =
        if c then fin 2 else fin 0 := by
      intro c _
      split <;> rfl
    simp only [Function.comp_def, this]
    rfl
  rw [Row.heard, e, List.map_map]
  refine List.map_congr_left ?_
  intro i _
  simpa using fl (decide (i ∈ pcs))

theorem chordRow_safe (lg : ℝ → RD) (time : Str × RD) (pcs : List Nat) : Safe (ieee lg) ((chordRow time pcs).heard (ieee lg)) ∧
    frameInts (ints (ieee lg) ((chordRow time pcs).heard (ieee lg))) =
      (((List.range 12).filter (· ∈ pcs)).map (fun i : Nat => (i : Int))) := by
  have t2 : (ieee lg).toInt (fin 2) = some 2 := by
    change (if -2147483648 ≤ RD.trunc 2 ∧ RD.trunc 2 ≤ 2147483647 then some (RD.trunc 2) else none) = some 2
    have : RD.trunc 2 = 2 := by
      unfold RD.trunc
      rw [if_pos (by norm_num)]
      exact Int.floor_ofNat 2
    simp [this]
  have t0 : (ieee lg).toInt (fin 0) = some 0 := by
    change (if -2147483648 ≤ RD.trunc 0 ∧ RD.trunc 0 ≤ 2147483647 then some (RD.trunc 0) else none) = some 0
    have : RD.trunc 0 = 0 := by
      unfold RD.trunc
      rw [if_pos (le_refl _)]
      exact Int.floor_zero
    simp [this]
  rw [chordRow_heard]
  constructor
  · refine ⟨by simp, ?_⟩
    intro x hx
    obtain ⟨i, _, rfl⟩ := List.mem_map.1 hx
    split
    · exact ⟨2, t2, by norm_num⟩
    · exact ⟨0, t0, le_refl _⟩
  · have hi : ∀ i < 12, ints (ieee lg) ((List.range 12).map (fun i => if i ∈ pcs then fin 2 else fin 0)) i = if i ∈ pcs then 2 else 0 := by
      intro i hi
      simp only [ints, List.getElem?_map, List.getElem?_range hi, Option.map_some, Option.bind_some]
      split
      · rw [t2]; rfl
      · rw [t0]; rfl
    unfold frameInts
    have : ∀ l : List Nat, (∀ i ∈ l, i < 12) → l.flatMap (fun pc => List.replicate
        (ints (ieee lg) ((List.range 12).map (fun i => if i ∈ pcs then fin 2 else fin 0)) pc - 1).toNat (pc : Int)) =
        (l.filter (· ∈ pcs)).map (fun i : Nat => (i : Int)) := by
      intro l
      induction l with
      | nil => intro _; rfl
      | cons i l ih =>
        intro h
        rw [List.flatMap_cons, ih (fun q hq => h q (by simp [hq])), hi i (h i (by simp))]
        by_cases hm : i ∈ pcs
        · simp [hm]
        · simp [hm]
    exact this _ (fun i hi => List.mem_range.1 hi)

/-- Two different chords, one after the other. -/
theorem two_chords {S P T : Type} (lg : ℝ → RD) (E : Env RD S P T) (hF : E.F = ieee lg)
    (h0 : E.stof "0".toList = .ok (fin 0)) (h1 : E.stof "1".toList = .ok (fin 1)) (h2 : E.stof "2".toList = .ok (fin 2))
    (a b : List Nat) (pc : Nat) (hpc : pc < 12) (hd : pc ∈ a ∧ pc ∉ b) (g : List RD) (hpast : E.past = some g)
    (hlast : sameVector (ieee lg) ((chordRow ("1".toList, fin 1) b).heard (ieee lg)) g = false) (file : Str)
    (hcsv : E.csvFile file = some (csvText [chordRow ("0".toList, fin 0) a, chordRow ("1".toList, fin 1) b])) :
    readInput E (defaultParsed E file .csv) =
      .ok (.ok ((((List.range 12).filter (· ∈ a) ++ (List.range 12).filter (· ∈ b)).map (fun i : Nat => (i : Int))).map PitchClass.ofInt)) := by
  have hO : OrderLaws E.F := by rw [hF]; exact RD.orderLaws RD.binary64 lg
  have vals : ∀ time pcs, ∀ p ∈ (chordRow time pcs).vals, ',' ∉ p.1 ∧ '\n' ∉ p.1 ∧ p.1 ≠ [] ∧ E.stof p.1 = .ok p.2 := by
    intro time pcs p hp
    obtain ⟨i, _, rfl⟩ := List.mem_map.1 hp
    split
    · exact ⟨by decide, by decide, by decide, h2⟩
    · exact ⟨by decide, by decide, by decide, h0⟩
  have self : ∀ x, E.F.eq (fin x) (fin x) = true := by
    intro x
    rw [hF]
    change RD.eq (fin x) (fin x) = true
    simp [RD.eq]
  rw [csv_read E hO _ ?_ ?_ file hcsv]
  · obtain ⟨s1, f1⟩ := chordRow_safe lg ("0".toList, fin 0) a
    obtain ⟨s2, f2⟩ := chordRow_safe lg ("1".toList, fin 1) b
    have ne : sameVector (ieee lg) ((chordRow ("0".toList, fin 0) a).heard (ieee lg)) ((chordRow ("1".toList, fin 1) b).heard (ieee lg)) =
        false := by
      rw [← Bool.not_eq_true]
      intro he
      rw [show ieee lg = RD.fpu RD.binary64 lg from rfl, C32_same_vector RD.binary64 lg _ _ (by rw [heard_length, heard_length]) ?_] at he
      · change (chordRow ("0".toList, fin 0) a).heard (ieee lg) = (chordRow ("1".toList, fin 1) b).heard (ieee lg) at he
        rw [chordRow_heard, chordRow_heard] at he
        have := congrArg (fun l => l[pc]?) he
        simp [List.getElem?_range hpc, hd.1, hd.2] at this
      · intro x hx
        change x ∈ (chordRow ("0".toList, fin 0) a).heard (ieee lg) at hx
        rw [chordRow_heard] at hx
        obtain ⟨i, _, rfl⟩ := List.mem_map.1 hx
        split <;> simp
    rw [hF, hpast, List.map_cons, List.map_cons, List.map_nil, framesLoop_two, if_neg (by rw [ne]; simp), pushFrame_safe _ s1, Res.bind_ok,
      framesLoop_one g _ hlast, pushFrame_safe _ s2, Res.bind_ok, frameSpec_ints, frameSpec_ints, f1, f2]
    simp
  · intro r hr
    simp only [List.mem_cons, List.not_mem_nil, or_false] at hr
    rcases hr with rfl | rfl
    · exact ⟨⟨self 0, ⟨by simp [chordRow], by simp [chordRow], by simp [chordRow], h0⟩, vals _ _⟩, by simp [chordRow]⟩
    · exact ⟨⟨self 1, ⟨by simp [chordRow], by simp [chordRow], by simp [chordRow], h1⟩, vals _ _⟩, by simp [chordRow]⟩
  · rw [hF]
    simp only [List.pairwise_cons, List.mem_cons, List.not_mem_nil, or_false, forall_eq, List.Pairwise.nil, and_true, IsEmpty.forall_iff,
      implies_true]
    change RD.lt (fin 0) (fin 1) = true
    simp [RD.lt]

/-- E minor, then C major with a minor seventh, as a chroma file. -/
noncomputable def chromaRows : List (Row RD) := [chordRow ("0".toList, fin 0) [4, 7, 11], chordRow ("1".toList, fin 1) [0, 4, 7, 10]]

/-- The text of this file and of the one a whole tone higher. -/
theorem chromaRows_text : csvText chromaRows = "0,0,0,2,0,0,0,0,2,0,0,2,0\n1,0,2,0,2,0,0,0,2,0,0,2,0\n".toList ∧
    csvText (chromaRows.map (Row.higher 2)) = "0,2,0,0,0,2,0,0,0,0,2,0,0\n1,2,0,0,2,0,2,0,0,0,2,0,0\n".toList := by
  constructor
  · rfl
  · rfl

/-- **C141 is violated.**  A chroma file with two chords, in C major; the same a whole tone higher is in G major. -/
theorem C141_chroma_violated {S P T : Type} {η : ℝ} (lg : ℝ → RD) (hok : LogOk lg) (hlg : LogClose η lg)
    (hη : η ≤ (2 : ℝ) ^ (-30 : ℤ)) (E : Env RD S P T) (hF : E.F = ieee lg) (hi₁ : HMM.Iter.Ok E.iter₁) (hi₂ : HMM.Iter.Ok E.iter₂)
    (hj : E.junkMajor.length = 12 ∧ E.junkMinor.length = 12 ∧ E.junkTransition.length = 24)
    (h0 : E.stof "0".toList = .ok (fin 0)) (h1 : E.stof "1".toList = .ok (fin 1)) (h2 : E.stof "2".toList = .ok (fin 2))
    (g : List RD) (hpast : E.past = some g)
    (hlast : ∀ r ∈ chromaRows, sameVector (ieee lg) (r.heard (ieee lg)) g = false ∧
      sameVector (ieee lg) ((r.higher 2).heard (ieee lg)) g = false)
    (file file' ext ext' : Str) (hx : HasExtension file ext) (hx' : HasExtension file' ext') (hl : file.length < npos)
    (hl' : file'.length < npos) (hm : ext.map Char.toLower = "csv".toList) (hm' : ext'.map Char.toLower = "csv".toList)
    (hcsv : E.csvFile file = some (csvText chromaRows)) (hcsv' : E.csvFile file' = some (csvText (chromaRows.map (Row.higher 2)))) :
    main E (.ok (Options.default file)) = .ok { stdout := "C\tmajor\n".toList, stderr := [], code := 0 } ∧
    main E (.ok (Options.default file')) = .ok { stdout := "G\tmajor\n".toList, stderr := [], code := 0 } := by
  have r1 : keyLine (Key.ofInt 0) = .ok "C\tmajor\n".toList := by decide +kernel
  have r2 : keyLine (Key.ofInt 7) = .ok "G\tmajor\n".toList := by decide +kernel
  have up : chromaRows.map (Row.higher 2) = [chordRow ("0".toList, fin 0) [6, 9, 1], chordRow ("1".toList, fin 1) [2, 6, 9, 0]] := rfl
  have up2 : (chordRow ("1".toList, fin 1) [0, 4, 7, 10]).higher 2 = chordRow ("1".toList, fin 1) [2, 6, 9, 0] := rfl
  obtain ⟨l1, l2⟩ := hlast (chordRow ("1".toList, fin 1) [0, 4, 7, 10]) (by simp [chromaRows])
  rw [up2] at l2
  rw [up] at hcsv'
  constructor
  · rw [clear_read lg hok hlg hη E hF hi₁ hi₂ hj file .csv ((C36_extension_partial E (Options.default file) file ext rfl hx hl).2.1 hm)
      [(4, 0), (7, 0), (11, 0), (0, 0), (4, 0), (7, 0), (10, 5)]
      (two_chords lg E hF h0 h1 h2 [4, 7, 11] [0, 4, 7, 10] 11 (by decide) (by decide) g hpast l1 file hcsv)
      (by decide) (by decide) (by decide +kernel) 0 (by decide) (by decide +kernel), r1]
    rfl
  · rw [clear_read lg hok hlg hη E hF hi₁ hi₂ hj file' .csv ((C36_extension_partial E (Options.default file') file' ext' rfl hx' hl').2.1 hm')
      [(1, 2), (6, 2), (9, 2), (0, 7), (2, 7), (6, 7), (9, 7)]
      (two_chords lg E hF h0 h1 h2 [6, 9, 1] [2, 6, 9, 0] 1 (by decide) (by decide) g hpast l2 file' hcsv')
      (by decide) (by decide) (by decide +kernel) 7 (by decide) (by decide +kernel), r2]
    rfl

/-! ### Cases -/

/-- C, then E, with a weak overtone G each: a melody as a chroma file. -/
example : let a := toyRow '0' "000300000010".toList
    let b := toyRow '1' "000000020010".toList
    (∀ r ∈ [a, b], Safe toy (r.heard toy) ∧ r.Single toy) ∧
    (b.higher 2).heard toy = [0, 0, 0, 0, 0, 0, 2, 0, 0, 1, 0, 0] ∧
    csvText [a.higher 2, b.higher 2] = "0,1,0,0,0,0,3,0,0,0,0,0,0\n1,1,0,0,0,0,0,0,0,0,2,0,0\n".toList := by
  refine ⟨?_, by decide, by decide⟩
  intro r hr
  simp only [List.mem_cons, List.not_mem_nil, or_false] at hr
  have one : ∀ (r : Row Int) (v : List Int) (pc : Nat), r.heard toy = v → v.length = 12 → (∀ x ∈ v, 0 ≤ x) → pc < 12 →
      (∀ i < 12, i ≠ pc → ∀ x, v[i]? = some x → x ≤ 1) → Safe toy (r.heard toy) ∧ r.Single toy := by
    rintro r v pc rfl hl hv hpc h
    refine ⟨⟨hl, fun x hx => ⟨x, rfl, hv x hx⟩⟩, pc, hpc, ?_⟩
    intro i hi hne x n hx hn
    cases hn
    exact h i hi hne x hx
  rcases hr with rfl | rfl
  · exact one _ [3, 0, 0, 0, 0, 0, 0, 1, 0, 0, 0, 0] 0 (by decide) (by decide) (by decide) (by decide) (by decide)
  · exact one _ [0, 0, 0, 0, 2, 0, 0, 1, 0, 0, 0, 0] 4 (by decide) (by decide) (by decide) (by decide) (by decide)

/-- Bytes past the end that are not the last frame of these files: twelve times the number 5. -/
example (lg : ℝ → RD) : ∀ r ∈ chromaRows, sameVector (ieee lg) (r.heard (ieee lg)) (List.replicate 12 (fin 5)) = false ∧
    sameVector (ieee lg) ((r.higher 2).heard (ieee lg)) (List.replicate 12 (fin 5)) = false := by
  have up : chromaRows.map (Row.higher 2) = [chordRow ("0".toList, fin 0) [6, 9, 1], chordRow ("1".toList, fin 1) [2, 6, 9, 0]] := rfl
  have ne : ∀ time pcs, sameVector (ieee lg) ((chordRow time pcs).heard (ieee lg)) (List.replicate 12 (fin 5)) = false := by
    intro time pcs
    rw [chordRow_heard, ← Bool.not_eq_true]
    intro he
    have h0 := List.all_eq_true.1 he ((if 0 ∈ pcs then fin 2 else fin 0), fin 5) (by
      simp [List.range_succ, List.replicate_succ])
    change RD.eq _ (fin 5) = true at h0
    split at h0 <;> simp [RD.eq] at h0
  intro r hr
  have hr' : r.higher 2 ∈ chromaRows.map (Row.higher 2) := List.mem_map_of_mem hr
  rw [up] at hr'
  simp only [chromaRows, List.mem_cons, List.not_mem_nil, or_false] at hr hr'
  refine ⟨?_, ?_⟩
  · rcases hr with rfl | rfl <;> exact ne _ _
  · rcases hr' with h | h <;> rw [h] <;> exact ne _ _

end JKD.Phrases
