import Verif.Model.Extract
import Verif.Props.AudioProps
import Verif.Props.MainProps
/-
C93, C94: the command-line extractors.  A chromagram written by `chromaextract` and read back as a CSV file is
the chromagram the program computes from the audio file itself, up to the digits lost in printing; the text of
`chordextract` determines the chord reports.
-/

namespace JKD
namespace Extract

open Chromagram Main

variable {D S P T : Type}

/-! ### C93: extract, then read -/

/-- A feature with every value replaced. -/
def mapFeature (h : D → D) (ft : Feature D) : Feature D := ⟨ft.timestamp, ft.values.map h⟩

/-- A chromagram with every value replaced. -/
def mapFrames (h : D → D) (m : CMap D) : CMap D := m.map (fun fr => (fr.1, fr.2.map h))

/-- The feature can be written as a line of CSV and its values read back: no token holds a separator, and what
is read for a value `x` is `rd x`. -/
structure Printable (stof : Str → Res D) (sh : D → Str) (rd : D → D) (ft : Feature D) : Prop where
  time : ',' ∉ ft.timestamp ∧ '\n' ∉ ft.timestamp
  value : ∀ x ∈ ft.values, ',' ∉ sh x ∧ '\n' ∉ sh x ∧ stof (sh x) = .ok (rd x)

/-- Every feature the plug-in can deliver has the property `good`. -/
def Emits (pl : Plugin S D P T) (good : Feature D → Prop) : Prop :=
  (∀ p blk t out, ∀ ft ∈ (pl.process p blk t).2 out, good ft) ∧
  (∀ p out, ∀ ft ∈ pl.remaining p out, good ft)

/-- The tokens of a printed line. -/
theorem line_tokens (stof : Str → Res D) (sh : D → Str) (rd : D → D) (ft : Feature D)
    (h : Printable stof sh rd ft) :
    getlines ',' (ft.timestamp ++ [','] ++ ft.values.flatMap (fun x => sh x ++ [','])) =
      ft.timestamp :: ft.values.map sh := by
  have := getlines_lines ',' (ft.timestamp :: ft.values.map sh) (by
    intro l hl
    rcases List.mem_cons.1 hl with rfl | hl
    · exact h.time.1
    · obtain ⟨x, hx, rfl⟩ := List.mem_map.1 hl
      exact (h.value x hx).1)
  rw [List.flatMap_cons, List.flatMap_map] at this
  exact this

theorem line_newline (stof : Str → Res D) (sh : D → Str) (rd : D → D) (ft : Feature D)
    (h : Printable stof sh rd ft) :
    '\n' ∉ ft.timestamp ++ [','] ++ ft.values.flatMap (fun x => sh x ++ [',']) := by
  simp only [List.mem_append, List.mem_singleton, List.mem_flatMap, not_or, not_exists, not_and]
  exact ⟨⟨h.time.2, by decide⟩, fun x hx => ⟨(h.value x hx).2.1, by decide⟩⟩

/-- The columns of a line are written as the values of a feature are. -/
theorem tokens_values (F : FPU D) (stof : Str → Res D) (sh : D → Str) (rd : D → D) (xs : List D)
    (h : ∀ x ∈ xs, stof (sh x) = .ok (rd x)) (i : Nat) (t : D) (m : CMap D) :
    csvTokens F stof (xs.map sh) (i + 1) t m =
      (forM ((xs.map rd).zipIdx i) m (fun m p =>
        m.assign F t ((pcANatural + p.2) % numPitchClasses) p.1) >>= fun m => .ok (t, m)) := by
  induction xs generalizing i m with
  | nil => rfl
  | cons x xs ih =>
    simp only [List.map_cons, List.zipIdx_cons, forM_cons, csvTokens, Nat.add_eq_zero_iff, Nat.one_ne_zero,
      and_false, if_false, h x (by simp), Res.bind_ok, Nat.add_sub_cancel]
    cases hm : m.assign F t ((pcANatural + i) % numPitchClasses) (rd x) with
    | ub => rfl
    | throw e => rfl
    | ok m' =>
      simp only [Res.bind_ok]
      exact ih (fun x hx => h x (by simp [hx])) (i + 1) m'

/-- **C93, text.**  Reading the lines printed for a list of features stores exactly what storing the features
themselves stores, every value as it reads back; the comma at the end of each line does no harm.  The outcomes
are the same also when a timestamp cannot be read or is not a number. -/
theorem C93_text (F : FPU D) (stof : Str → Res D) (sh : D → Str) (rd : D → D) (feats : List (Feature D))
    (h : ∀ ft ∈ feats, Printable stof sh rd ft) :
    csvLines F stof (feats.flatMap (chromaLine sh)) = storeFeatures F stof (feats.map (mapFeature rd)) := by
  have hl : getlines '\n' (feats.flatMap (chromaLine sh)) =
      feats.map (fun ft => ft.timestamp ++ [','] ++ ft.values.flatMap (fun x => sh x ++ [','])) := by
    have := getlines_lines '\n'
      (feats.map (fun ft => ft.timestamp ++ [','] ++ ft.values.flatMap (fun x => sh x ++ [',']))) (by
        intro l hl
        obtain ⟨ft, hft, rfl⟩ := List.mem_map.1 hl
        exact line_newline stof sh rd ft (h ft hft))
    rw [List.flatMap_map] at this
    exact this
  have key : ∀ (t₀ : D) (m : CMap D),
      (forM (feats.map (fun ft => ft.timestamp ++ [','] ++ ft.values.flatMap (fun x => sh x ++ [','])))
        (t₀, m) (fun s line => csvTokens F stof (getlines ',' line) 0 s.1 s.2) >>= fun s => Res.ok s.2) =
      forM (feats.map (mapFeature rd)) m (fun m ft => do
        let t ← stof ft.timestamp
        forM (ft.values.zipIdx) m (fun m p =>
          m.assign F t ((pcANatural + p.2) % numPitchClasses) p.1)) := by
    clear hl
    induction feats with
    | nil => intro t₀ m; rfl
    | cons ft feats ih =>
      intro t₀ m
      have hft := h ft (by simp)
      simp only [List.map_cons, forM_cons]
      rw [line_tokens stof sh rd ft hft]
      simp only [csvTokens, if_true, mapFeature]
      cases hs : stof ft.timestamp with
      | ub => rfl
      | throw e => rfl
      | ok t =>
        simp only [Res.bind_ok]
        rw [tokens_values F stof sh rd ft.values (fun x hx => (hft.value x hx).2.2) 0 t m]
        cases hm : forM ((ft.values.map rd).zipIdx 0) m (fun m p =>
            m.assign F t ((pcANatural + p.2) % numPitchClasses) p.1) with
        | ub => rfl
        | throw e => rfl
        | ok m' =>
          simp only [Res.bind_ok]
          exact ih (fun ft hft => h ft (by simp [hft])) t m'
  simp only [csvLines, hl, storeFeatures]
  rw [← key F.zero []]
  rfl

theorem mapFrames_modify (F : FPU D) (h : D → D) (hz : h F.zero = F.zero) (m : CMap D) (t : D) (i : Nat)
    (x : D) :
    CMap.modify F (mapFrames h m) t (fun v => v.set i (h x)) =
      mapFrames h (CMap.modify F m t (fun v => v.set i x)) := by
  have hzs : (CMap.zeros F).set i (h x) = ((CMap.zeros F).set i x).map h := by
    rw [List.map_set]
    simp [CMap.zeros, hz]
  induction m with
  | nil => simp [mapFrames, CMap.modify, hzs]
  | cons q m ih =>
    obtain ⟨k, v⟩ := q
    simp only [mapFrames, List.map_cons, CMap.modify] at ih ⊢
    split
    · rw [ih]; rfl
    · split
      · simp [hzs]
      · simp [List.map_set]

/-- Storing replaced values is storing, then replacing, if zero stays zero. -/
theorem store_map (F : FPU D) (stof : Str → Res D) (h : D → D) (hz : h F.zero = F.zero)
    (feats : List (Feature D)) :
    storeFeatures F stof (feats.map (mapFeature h)) =
      (storeFeatures F stof feats >>= fun m => .ok (mapFrames h m)) := by
  have hval : ∀ (xs : List D) (i : Nat) (t : D) (m : CMap D),
      forM ((xs.map h).zipIdx i) (mapFrames h m) (fun m p =>
        m.assign F t ((pcANatural + p.2) % numPitchClasses) p.1) =
      (forM (xs.zipIdx i) m (fun m p =>
        m.assign F t ((pcANatural + p.2) % numPitchClasses) p.1) >>= fun m => .ok (mapFrames h m)) := by
    intro xs
    induction xs with
    | nil => intro i t m; rfl
    | cons x xs ih =>
      intro i t m
      simp only [List.map_cons, List.zipIdx_cons, forM_cons]
      by_cases hc : (F.eq t t && decide ((pcANatural + i) % numPitchClasses < 12)) = true
      · simp only [CMap.assign, hc, if_true, Res.bind_ok] at ih ⊢
        rw [mapFrames_modify F h hz]
        exact ih (i + 1) t _
      · simp only [CMap.assign, hc]
        rfl
  have key : ∀ (m : CMap D),
      forM (feats.map (mapFeature h)) (mapFrames h m) (fun m ft => do
        let t ← stof ft.timestamp
        forM (ft.values.zipIdx) m (fun m p =>
          m.assign F t ((pcANatural + p.2) % numPitchClasses) p.1)) =
      (forM feats m (fun m ft => do
        let t ← stof ft.timestamp
        forM (ft.values.zipIdx) m (fun m p =>
          m.assign F t ((pcANatural + p.2) % numPitchClasses) p.1)) >>= fun m => .ok (mapFrames h m)) := by
    induction feats with
    | nil => intro m; rfl
    | cons ft feats ih =>
      intro m
      simp only [List.map_cons, forM_cons, mapFeature]
      cases hs : stof ft.timestamp with
      | ub => rfl
      | throw e => rfl
      | ok t =>
        simp only [Res.bind_ok]
        rw [hval ft.values 0 t m]
        cases hm : forM (ft.values.zipIdx 0) m (fun m p =>
            m.assign F t ((pcANatural + p.2) % numPitchClasses) p.1) with
        | ub => rfl
        | throw e => rfl
        | ok m' =>
          simp only [Res.bind_ok]
          exact ih m'
  exact key []

/-- What the reading loop delivers are features of the plug-in. -/
theorem readLoop_emits (M : MixOps S) (pl : Plugin S D P T) (good : Feature D → Prop) (hpl : Emits pl good)
    (out : Nat) (f : AudioFile S) (fuel : Nat) (data : List (List S)) (frame : Nat) (p : P)
    (acc : List (Feature D)) (hacc : ∀ ft ∈ acc, good ft) (r : P × List (Feature D))
    (h : readLoop M pl out f fuel data frame p acc = .ok r) : ∀ ft ∈ r.2, good ft := by
  induction fuel generalizing data frame p acc with
  | zero => simp only [readLoop] at h; cases h; exact hacc
  | succ fuel ih =>
    simp only [readLoop] at h
    split at h
    · split at h
      · cases h; exact hacc
      · split at h
        · refine ih _ _ _ _ ?_ h
          intro ft hft
          rcases List.mem_append.1 hft with hft | hft
          · exact hacc ft hft
          · exact hpl.1 _ _ _ _ ft hft
        · cases h
    · cases h; exact hacc

/-- An extractor that reports success printed a line for each feature of the plug-in, and the program reads the
same features from the same file. -/
theorem extract_reader (F : FPU D) (M : MixOps S) (stof : Str → Res D) (sh : D → Str) (pl : Plugin S D P T)
    (good : Feature D → Prop) (hpl : Emits pl good) (openFile : Str → Option (AudioFile S)) (infile text : Str)
    (h : chromaExtract M sh pl openFile [infile] = .ok ⟨text, 0⟩) (c : Chromagram D) :
    ∃ feats : List (Feature D), (∀ ft ∈ feats, good ft) ∧ text = feats.flatMap (chromaLine sh) ∧
      getChromagramFromAudio F M stof pl (openFile infile) c =
        (storeFeatures F stof feats >>= fun m =>
          .ok { c with original := m, status := statusChromaOriginalReady }) := by
  simp only [chromaExtract, run] at h
  cases hf : openFile infile with
  | none => simp [hf] at h
  | some f =>
    simp only [hf] at h
    cases hi : pl.initialise with
    | false => simp [hi] at h
    | true =>
      simp only [hi, Bool.not_true, Bool.false_eq_true, if_false] at h
      cases ho : outputNo "chroma" pl.outputs with
      | none => simp [ho] at h
      | some out =>
        simp only [ho] at h
        obtain ⟨r, hr, h⟩ := Res.bind_eq_ok.1 h
        obtain ⟨p, feats⟩ := r
        simp only [Res.pure_eq, Res.ok.injEq, Text.mk.injEq, and_true] at h
        refine ⟨feats ++ pl.remaining p out, ?_, h.symm, ?_⟩
        · intro ft hft
          rcases List.mem_append.1 hft with hft | hft
          · exact readLoop_emits M pl good hpl out f _ _ _ _ _ (by simp) _ hr ft hft
          · exact hpl.2 _ _ ft hft
        · have ho' : chromaOutput pl.outputs = some out := ho
          simp only [getChromagramFromAudio, hi, Bool.not_true, Bool.false_eq_true, if_false, ho', hr,
            Res.bind_ok]
          rfl

/-- **C93.**  When `chromaextract` succeeds on an audio file, constructing a chromagram from its output as a CSV
file gives what constructing it from the audio file gives, every value as it reads back. -/
theorem C93_round_trip (F : FPU D) (hF : OrderLaws F) (M : MixOps S) (stof : Str → Res D) (sh : D → Str)
    (rd : D → D) (hz : rd F.zero = F.zero) (pl : Plugin S D P T) (hpl : Emits pl (Printable stof sh rd))
    (openFile : Str → Option (AudioFile S)) (infile text : Str)
    (h : chromaExtract M sh pl openFile [infile] = .ok ⟨text, 0⟩)
    (pl' : Plugin S D P T) (csv : Option Str) (audio : Option (AudioFile S)) :
    construct F M stof pl' (some text) audio .csv =
      (construct F M stof pl csv (openFile infile) .audio >>= fun c =>
        .ok { c with original := mapFrames rd c.original
                     discrete := mapFrames F.floor (mapFrames rd c.original) }) := by
  obtain ⟨feats, hg, rfl, hread⟩ := extract_reader F M stof sh pl _ hpl openFile infile text h
    { status := statusChromaUninitialized, original := [], discrete := [] }
  have htext := C93_text F stof sh rd feats hg
  rw [store_map F stof rd hz] at htext
  simp only [construct, getChromagramFromCsv, hread, htext]
  cases hm : storeFeatures F stof feats with
  | ub => rfl
  | throw e => rfl
  | ok m =>
    rw [hm] at htext
    have hwf := storeFeatures_wf hF stof feats hm
    have hwf' := csvLines_wf hF stof _ htext
    simp only [Res.bind_ok, Res.pure_eq, if_true]
    rw [C31_discretize hF _ hwf' rfl, C31_discretize hF _ hwf rfl]
    rfl

/-- **C93, discrete.**  The discrete chromagrams agree exactly if no value crosses an integer when it is printed
and read back. -/
theorem C93_discrete_iff (F : FPU D) (rd : D → D) (m : CMap D) :
    mapFrames F.floor (mapFrames rd m) = mapFrames F.floor m ↔
      ∀ fr ∈ m, ∀ x ∈ fr.2, F.floor (rd x) = F.floor x := by
  simp only [mapFrames, List.map_map]
  rw [List.map_inj_left]
  constructor
  · intro h fr hfr x hx
    have := h fr hfr
    simp only [Function.comp, List.map_map, Prod.mk.injEq, true_and] at this
    exact List.map_inj_left.1 this x hx
  · intro h fr hfr
    simp only [Function.comp, List.map_map, Prod.mk.injEq, true_and]
    exact List.map_inj_left.2 (fun x hx => h fr hfr x hx)

/-- The values a plug-in delivers keep their floor when printed and read back. -/
def KeepsFloor (F : FPU D) (rd : D → D) (ft : Feature D) : Prop :=
  ∀ x ∈ ft.values, F.floor (rd x) = F.floor x

/-- **C93, same analysis.**  If no value crosses an integer in printing, the CSV file and the audio file give the
same status and the same pitch-class sequence. -/
theorem C93_same_sequence (F : FPU D) (hF : OrderLaws F) (M : MixOps S) (stof : Str → Res D) (sh : D → Str)
    (rd : D → D) (hz : rd F.zero = F.zero) (hfz : F.floor F.zero = F.zero) (pl : Plugin S D P T)
    (hpl : Emits pl (fun ft => Printable stof sh rd ft ∧ KeepsFloor F rd ft))
    (openFile : Str → Option (AudioFile S)) (infile text : Str)
    (h : chromaExtract M sh pl openFile [infile] = .ok ⟨text, 0⟩)
    (pl' : Plugin S D P T) (csv : Option Str) (audio : Option (AudioFile S)) :
    (construct F M stof pl' (some text) audio .csv >>= fun c => .ok (c.status, c.discrete)) =
      (construct F M stof pl csv (openFile infile) .audio >>= fun c => Res.ok (c.status, c.discrete)) := by
  obtain ⟨feats, hg, rfl, hread⟩ := extract_reader F M stof sh pl _ hpl openFile infile text h
    { status := statusChromaUninitialized, original := [], discrete := [] }
  rw [C93_round_trip F hF M stof sh rd hz pl ⟨fun p blk t out ft hft => (hpl.1 p blk t out ft hft).1,
    fun p out ft hft => (hpl.2 p out ft hft).1⟩ openFile infile _ h pl' csv audio]
  -- storing the floors of the values read back is storing the floors
  have hfl : storeFeatures F stof (feats.map (mapFeature (F.floor ∘ rd))) =
      storeFeatures F stof (feats.map (mapFeature F.floor)) := by
    congr 1
    refine List.map_congr_left (fun ft hft => ?_)
    simp only [mapFeature, Feature.mk.injEq, true_and]
    exact List.map_congr_left (fun x hx => (hg ft hft).2 x hx)
  rw [store_map F stof _ (by simp [hz, hfz]), store_map F stof _ hfz] at hfl
  simp only [construct, hread]
  cases hm : storeFeatures F stof feats with
  | ub => rfl
  | throw e => rfl
  | ok m =>
    have hwf := storeFeatures_wf hF stof feats hm
    rw [hm] at hfl
    simp only [Res.bind_ok, Res.ok.injEq] at hfl
    simp only [Res.bind_ok, if_true]
    rw [C31_discretize hF _ hwf rfl]
    simp only [Res.bind_ok, Res.ok.injEq, Prod.mk.injEq, true_and]
    have e : mapFrames F.floor (mapFrames rd m) = mapFrames (F.floor ∘ rd) m := by
      simp [mapFrames, List.map_map, Function.comp_def]
    rw [e, hfl]
    rfl

/-- Both kinds of file lead `main` to the same point. -/
theorem readInput_chroma (E : Env D S P T) (p : Parsed D) (hc : p.chromaOnly = false) (ft : FileType)
    (hft : p.inputType = some .csv ∧ ft = .csv ∨ p.inputType = some .wav ∧ ft = .audio) :
    readInput E p = ((construct E.F E.M E.stof E.pl (E.csvFile p.filename) (E.audioFile p.filename) ft >>=
      fun c => Res.ok (c.status, c.discrete)) >>= fun r =>
        if r.1 ≠ statusChromaDiscreteReady then
          Res.ok (Except.error { stdout := [], stderr := readError, code := r.1 })
        else framesLoop E.F E.past (r.2.map Prod.snd) [] >>= fun seq => Res.ok (.ok seq)) := by
  rcases hft with ⟨ht, rfl⟩ | ⟨ht, rfl⟩
  · simp only [readInput, ht, Res.bind_ok]
    simp only [show ¬ (InputType.csv = InputType.midi) by decide, if_false, if_true, hc, Bool.false_eq_true]
    cases construct E.F E.M E.stof E.pl (E.csvFile p.filename) (E.audioFile p.filename) .csv with
    | ub => rfl
    | throw e => rfl
    | ok c => rfl
  · simp only [readInput, ht, Res.bind_ok]
    simp only [show ¬ (InputType.wav = InputType.midi) by decide,
      show ¬ (InputType.wav = InputType.csv) by decide, if_false, if_true, hc, Bool.false_eq_true]
    cases construct E.F E.M E.stof E.pl (E.csvFile p.filename) (E.audioFile p.filename) .audio with
    | ub => rfl
    | throw e => rfl
    | ok c => rfl

/-- **C93, whole program.**  Extract the chromagram of `song.wav` into `song.csv`, then give the program the CSV
file instead of the audio file, with the same options (not `-e`, whose answer is in the file name, and not
`--chroma-only`, which prints the values): it prints the same and reports the same status. -/
theorem C93_main (E : Env D S P T) (hF : OrderLaws E.F) (rd : D → D) (hz : rd E.F.zero = E.F.zero)
    (hfz : E.F.floor E.F.zero = E.F.zero) (sh : D → Str)
    (hpl : Emits E.pl (fun ft => Printable E.stof sh rd ft ∧ KeepsFloor E.F rd ft))
    (wav csv wavExt csvExt text : Str) (hwav : HasExtension wav wavExt)
    (hwe : wavExt.map Char.toLower = "wav".toList) (hcsv : HasExtension csv csvExt)
    (hce : csvExt.map Char.toLower = "csv".toList) (hlw : wav.length < npos) (hlc : csv.length < npos)
    (hext : chromaExtract E.M sh E.pl E.audioFile [wav] = .ok ⟨text, 0⟩) (hfile : E.csvFile csv = some text)
    (o : Options) (hf : o.inputformat = none) (hev : o.evaluate = false) (hco : o.chromaonly = false) :
    main E (.ok { o with args := [csv] }) = main E (.ok { o with args := [wav] }) := by
  have h1 := (C36_extension_partial E { o with args := [csv] } csv csvExt hf hcsv hlc).2.1 hce
  have h2 := (C36_extension_partial E { o with args := [wav] } wav wavExt hf hwav hlw).1 hwe
  have e1 : chooseProfiles E { o with args := [csv] } = chooseProfiles E o := rfl
  have e2 : chooseTransitions E { o with args := [csv] } = chooseTransitions E o := rfl
  have e3 : chooseProfiles E { o with args := [wav] } = chooseProfiles E o := rfl
  have e4 : chooseTransitions E { o with args := [wav] } = chooseTransitions E o := rfl
  simp only [main, parseArgs, h1, h2, e1, e2, e3, e4, Res.bind_ok]
  cases chooseProfiles E o with
  | error out => rfl
  | ok q =>
    obtain ⟨maj, min, majArr, minArr⟩ := q
    cases chooseTransitions E o with
    | ub => rfl
    | throw e => rfl
    | ok r =>
      cases r with
      | error out => rfl
      | ok tr =>
        obtain ⟨tr, trArr⟩ := tr
        simp only [Res.bind_ok, Res.pure_eq]
        rw [readInput_chroma E _ hco .csv (Or.inl ⟨rfl, rfl⟩), readInput_chroma E _ hco .audio (Or.inr ⟨rfl, rfl⟩)]
        simp only [hfile]
        rw [C93_same_sequence E.F hF E.M E.stof sh rd hz hfz E.pl hpl E.audioFile wav text hext E.pl
          (E.csvFile wav) (E.audioFile csv)]
        simp only [printResult, hev, Bool.false_eq_true, if_false]

/-! ### C93: where the digits matter -/

/-- A plug-in that keeps quiet until the end and then delivers one feature. -/
def once (ts : Str) (v : List D) : Plugin S D Unit Unit where
  blocksize := 1
  initialise := true
  outputs := ["chroma"]
  start := ()
  process _ _ _ := ((), fun _ => [])
  remaining _ _ := [⟨ts, v⟩]
  frame2RealTime _ := ()

/-- The columns A, A#, B, C, ... of a frame that has `x` for C and zero elsewhere. -/
def onlyC (F : FPU D) (x : D) : List D := [F.zero, F.zero, F.zero, x] ++ List.replicate 8 F.zero

theorem onlyC_frame (F : FPU D) (x t : D) :
    (featureRow ⟨[], onlyC F x⟩ t).frame F = x :: List.replicate 11 F.zero := by
  simp [featureRow, Row.frame, onlyC, List.range_succ]

theorem pushFrame_onlyC (F : FPU D) (hiz : F.toInt F.zero = some 0) (y : D) (n : Int) (hy : F.toInt y = some n)
    (hn : 0 ≤ n) :
    pushFrame F (y :: List.replicate 11 F.zero) [] = .ok (List.replicate (n - 1).toNat (PitchClass.ofInt 0)) := by
  rw [pushFrame_safe]
  · have h0 : ints F (y :: List.replicate 11 F.zero) 0 = n := by simp [ints, hy]
    have h1 : ∀ i, 0 < i → i < 12 → ints F (y :: List.replicate 11 F.zero) i = 0 := by
      intro i h1 h2
      obtain ⟨k, rfl⟩ : ∃ k, i = k + 1 := ⟨i - 1, by omega⟩
      have : k < 11 := by omega
      rw [ints, List.getElem?_cons_succ, List.getElem?_replicate, if_pos this]
      simp [hiz]
    have hr : List.range 12 = [0, 1, 2, 3, 4, 5, 6, 7, 8, 9, 10, 11] := rfl
    generalize ints F (y :: List.replicate 11 F.zero) = g at h0 h1
    rw [frameSpec, hr]
    simp [h0, h1]
  · refine ⟨by simp, ?_⟩
    intro x hx
    rcases List.mem_cons.1 hx with rfl | hx
    · exact ⟨n, hy, hn⟩
    · rw [List.eq_of_mem_replicate hx]; exact ⟨0, hiz, le_refl _⟩

/-- **C93 violated: digits.**  The CSV file is not always as good as the audio file.  If the printed form of a
number just below 2 reads back as 2 - as for 1.9999999, of which `operator<<` prints six digits - then the audio
file gives no pitch class at all and the CSV file gives a C. -/
theorem C93_digits_violated (F : FPU D) (hF : OrderLaws F) (M : MixOps S) (stof : Str → Res D) (sh : D → Str)
    (rd : D → D) (x t : D) (ts : Str) (hz : rd F.zero = F.zero) (hfz : F.floor F.zero = F.zero)
    (hiz : F.toInt F.zero = some 0) (hx : F.toInt (F.floor x) = some 1) (hrx : F.toInt (F.floor (rd x)) = some 2)
    (hp : Printable stof sh rd ⟨ts, onlyC F x⟩) (ht : stof ts = .ok t) (htt : F.eq t t = true) (g : List D)
    (hg : sameVector F (F.floor x :: List.replicate 11 F.zero) g = false)
    (hg' : sameVector F (F.floor (rd x) :: List.replicate 11 F.zero) g = false)
    (f : AudioFile S) (hf : f.data = []) :
    ∃ text c c', chromaExtract M sh (once ts (onlyC F x)) (fun _ => some f) [[]] = .ok ⟨text, 0⟩ ∧
      construct F M stof (once ts (onlyC F x)) none (some f) .audio = .ok c ∧
      construct F M stof (once ts (onlyC F x)) (some text) none .csv = .ok c' ∧
      getPitchClassSequence F (some g) c = .ok [] ∧
      getPitchClassSequence F (some g) c' = .ok [PitchClass.ofInt 0] := by
  have hloop : readLoop M (once ts (onlyC F x)) 0 f (f.data.length + 1) f.data 0 () [] =
      .ok ((), ([] : List (Feature D))) := by
    rw [hf]
    simp only [readLoop, List.take_nil, List.length_nil, if_true, ite_self]
  have hext : chromaExtract M sh (once ts (onlyC F x)) (fun _ => some f) [[]] =
      .ok ⟨[(⟨ts, onlyC F x⟩ : Feature D)].flatMap (chromaLine sh), 0⟩ := by
    change (readLoop M (once ts (onlyC F x)) 0 f (f.data.length + 1) f.data 0 () [] >>= _) = _
    rw [hloop]
    rfl
  have hstore : storeFeatures F stof [⟨ts, onlyC F x⟩] = .ok [(t, x :: List.replicate 11 F.zero)] := by
    obtain ⟨m, h1, -, h3⟩ := C53_features F hF stof [(⟨ts, onlyC F x⟩, t)]
      (by intro p hp; rw [List.mem_singleton.1 hp]; exact ⟨ht, htt, by simp [onlyC]⟩) (by simp)
    have : m = [(t, x :: List.replicate 11 F.zero)] := by
      have := List.perm_singleton.1 h3
      rw [this]
      exact congrArg (fun v => [(t, v)]) (onlyC_frame F x t)
    rw [← this]
    exact h1
  have haudio : construct F M stof (once ts (onlyC F x)) none (some f) .audio = .ok
      { status := statusChromaDiscreteReady, original := [(t, x :: List.replicate 11 F.zero)]
        discrete := [(t, F.floor x :: List.replicate 11 F.zero)] } := by
    have hr : getChromagramFromAudio F M stof (once ts (onlyC F x)) (some f)
        { status := statusChromaUninitialized, original := [], discrete := [] } = .ok
        { status := statusChromaOriginalReady, original := [(t, x :: List.replicate 11 F.zero)], discrete := [] } := by
      change (readLoop M (once ts (onlyC F x)) 0 f (f.data.length + 1) f.data 0 () [] >>= _) = _
      rw [hloop, Res.bind_ok]
      change (storeFeatures F stof [⟨ts, onlyC F x⟩] >>= _) = _
      rw [hstore]
      rfl
    simp only [construct, hr, Res.bind_ok, if_true]
    rw [C31_discretize hF _ (storeFeatures_wf hF stof _ hstore) rfl]
    simp [hfz]
  have hcsv := C93_round_trip F hF M stof sh rd hz (once ts (onlyC F x))
    ⟨by intro p blk t out ft hft; simp [once] at hft,
      by intro p out ft hft; rw [List.mem_singleton.1 hft]; exact hp⟩
    (fun _ => some f) [] _ hext (once ts (onlyC F x)) none none
  rw [haudio, Res.bind_ok] at hcsv
  refine ⟨_, _, _, hext, haudio, hcsv, ?_, ?_⟩
  · simp only [getPitchClassSequence, List.map_cons, List.map_nil, framesLoop, Res.read_some, Res.bind_ok, hg,
      Bool.false_eq_true, if_false]
    rw [pushFrame_onlyC F hiz _ 1 hx (by omega)]
    rfl
  · simp only [getPitchClassSequence, mapFrames, List.map_cons, List.map_nil, List.map_replicate, hz, hfz,
      framesLoop, Res.read_some, Res.bind_ok, hg', Bool.false_eq_true, if_false]
    rw [pushFrame_onlyC F hiz _ 2 hrx (by omega)]
    rfl

/-! ### C94: the text of chordextract -/

/-- What a reader of the text takes from a line: what stands before the first colon, and what follows the blank
after it. -/
def parseChord (line : Str) : Str × Str :=
  (line.takeWhile (· != ':'), (line.dropWhile (· != ':')).drop 2)

/-- **C94, lines.**  The printed text has one line per report, and each line gives back the time and the label of
its report, whatever the label holds besides newlines - colons as in Harte's syntax, or nothing at all. -/
theorem C94_lines (feats : List (Feature Str)) (hts : ∀ ft ∈ feats, ':' ∉ ft.timestamp ∧ '\n' ∉ ft.timestamp)
    (hl : ∀ ft ∈ feats, '\n' ∉ ft.values.headD []) :
    (getlines '\n' (feats.flatMap chordLine)).map parseChord =
      feats.map (fun ft => (ft.timestamp, ft.values.headD [])) := by
  have h := getlines_lines '\n' (feats.map (fun ft => ft.timestamp ++ [':', ' '] ++ ft.values.headD [])) (by
    intro l hl'
    obtain ⟨ft, hft, rfl⟩ := List.mem_map.1 hl'
    simp only [List.mem_append, not_or]
    exact ⟨⟨(hts ft hft).2, by decide⟩, hl ft hft⟩)
  rw [List.flatMap_map] at h
  have e : feats.flatMap chordLine =
      feats.flatMap (fun ft => ft.timestamp ++ [':', ' '] ++ ft.values.headD [] ++ ['\n']) := rfl
  rw [e, h, List.map_map]
  refine List.map_congr_left (fun ft hft => ?_)
  have hne : ∀ c ∈ ft.timestamp, (c != ':') = true := by
    intro c hc
    have : c ≠ ':' := fun h => (hts ft hft).1 (h ▸ hc)
    simpa using this
  simp only [Function.comp, parseChord, List.append_assoc, Prod.mk.injEq]
  constructor
  · rw [List.takeWhile_append_of_pos hne]
    simp
  · rw [List.dropWhile_append_of_pos hne]
    simp

/-- The features of one output: those of each block, then what the plug-in still holds. -/
def outputOf (M : MixOps S) (pl : Plugin S D P T) (out : Nat) (f : AudioFile S) : List (Feature D) :=
  let r := feed M pl out f (List.range (blockCount f.data.length pl.blocksize)) (pl.start, [])
  r.2 ++ pl.remaining r.1 out

/-- **C94, chords.**  On a file that opens, of at most `INT_MAX` frames, `chordextract` reports success and its
text gives back time and label of every report of the plug-in's chord output, in order and nothing else. -/
theorem C94_chords (M : MixOps S) (pl : Plugin S Str P T) (pre post : List String)
    (hout : pl.outputs = pre ++ "simplechord" :: post) (hpost : "simplechord" ∉ post)
    (hinit : pl.initialise = true) (hb : 0 < pl.blocksize) (openFile : Str → Option (AudioFile S)) (infile : Str)
    (f : AudioFile S) (hopen : openFile infile = some f) (hfr : (f.data.length : Int) ≤ f.frames)
    (hmax : (f.data.length : Int) ≤ 2147483647)
    (hpl : Emits pl (fun ft => ':' ∉ ft.timestamp ∧ '\n' ∉ ft.timestamp ∧ '\n' ∉ ft.values.headD [])) :
    ∃ text, chordExtract M pl openFile [infile] = .ok ⟨text, 0⟩ ∧
      (getlines '\n' text).map parseChord =
        (outputOf M pl pre.length f).map (fun ft => (ft.timestamp, ft.values.headD [])) := by
  have hno : outputNo "simplechord" pl.outputs = some pre.length := by
    rw [hout, outputNo, List.zipIdx_append, List.foldl_append, List.zipIdx_cons, List.foldl_cons, if_pos rfl]
    have key : ∀ (l : List String) (k n : Nat), "simplechord" ∉ l →
        (l.zipIdx k).foldl (fun acc p => if p.1 = "simplechord" then some p.2 else acc) (some n) = some n := by
      intro l
      induction l with
      | nil => intro k n _; rfl
      | cons x l ih =>
        intro k n hx
        rw [List.zipIdx_cons, List.foldl_cons, if_neg (fun hc => hx (by simp [← hc]))]
        exact ih _ _ (fun hc => hx (by simp [hc]))
    rw [key post _ _ hpost, Nat.zero_add]
  have hloop := C53_blocks M pl pre.length f hb hfr hmax
  refine ⟨(outputOf M pl pre.length f).flatMap chordLine, ?_, ?_⟩
  · simp only [chordExtract, run, hopen, hinit, Bool.not_true, Bool.false_eq_true, if_false, hno, hloop,
      Res.bind_ok]
    rfl
  · have hg : ∀ ft ∈ outputOf M pl pre.length f,
        ':' ∉ ft.timestamp ∧ '\n' ∉ ft.timestamp ∧ '\n' ∉ ft.values.headD [] := by
      intro ft hft
      rcases List.mem_append.1 hft with hft | hft
      · exact readLoop_emits M pl _ hpl pre.length f _ _ _ _ _ (by simp) _ hloop ft hft
      · exact hpl.2 _ _ ft hft
    exact C94_lines _ (fun ft hft => ⟨(hg ft hft).1, (hg ft hft).2.1⟩) (fun ft hft => (hg ft hft).2.2)

/-- **C94, status.**  Either extractor reports 2 and prints nothing if it is not given exactly one argument, 1 and
nothing if the file does not open, the plug-in does not start or has no such output, and 0 otherwise. -/
theorem C94_status (M : MixOps S) (pl : Plugin S D P T) (openFile : Str → Option (AudioFile S)) (name : String)
    (line : Feature D → Str) (args : List Str) (t : Text) (h : run M pl openFile name line args = .ok t) :
    (args.length ≠ 1 ∧ t = ⟨[], 2⟩) ∨
    (∃ a, args = [a] ∧ (openFile a = none ∨ pl.initialise = false ∨ name ∉ pl.outputs) ∧ t = ⟨[], 1⟩) ∨
    (∃ a f, args = [a] ∧ openFile a = some f ∧ pl.initialise = true ∧ name ∈ pl.outputs ∧ t.code = 0) := by
  have hmem : ∀ (l : List String) (k : Nat) (acc : Option Nat),
      ((l.zipIdx k).foldl (fun acc p => if p.1 = name then some p.2 else acc) acc = none ↔
        acc = none ∧ name ∉ l) := by
    intro l
    induction l with
    | nil => intro k acc; simp
    | cons x l ih =>
      intro k acc
      rw [List.zipIdx_cons, List.foldl_cons, ih]
      by_cases hx : x = name
      · simp [hx]
      · simp only [hx, if_false, List.mem_cons, not_or]
        exact ⟨fun h => ⟨h.1, fun e => hx e.symm, h.2⟩, fun h => ⟨h.1, h.2.2⟩⟩
  have hno : outputNo name pl.outputs = none ↔ name ∉ pl.outputs := by
    rw [outputNo, hmem]; simp
  unfold run at h
  split at h
  · rename_i a
    cases ho : openFile a with
    | none =>
      simp only [ho] at h
      cases h
      exact Or.inr (Or.inl ⟨a, rfl, Or.inl ho, rfl⟩)
    | some f =>
      simp only [ho] at h
      cases hi : pl.initialise with
      | false =>
        simp only [hi, Bool.not_false, if_true] at h
        cases h
        exact Or.inr (Or.inl ⟨a, rfl, Or.inr (Or.inl rfl), rfl⟩)
      | true =>
        simp only [hi, Bool.not_true, Bool.false_eq_true, if_false] at h
        cases hn : outputNo name pl.outputs with
        | none =>
          simp only [hn] at h
          cases h
          exact Or.inr (Or.inl ⟨a, rfl, Or.inr (Or.inr (hno.1 hn)), rfl⟩)
        | some out =>
          simp only [hn] at h
          obtain ⟨r, -, h⟩ := Res.bind_eq_ok.1 h
          cases h
          refine Or.inr (Or.inr ⟨a, f, rfl, ho, rfl, ?_, rfl⟩)
          by_contra hc
          rw [hno.2 hc] at hn
          cases hn
  · rename_i hne
    cases h
    refine Or.inl ⟨?_, rfl⟩
    intro h1
    obtain ⟨a, rfl⟩ := List.length_eq_one_iff.1 h1
    exact hne a rfl

/-! ### Concrete cases -/

/-- Tenths: an arithmetic in which there is something to lose. -/
def tenths : FPU Int where
  ofRat q := (q * 10).floor
  add a b := a + b
  mul a b := a * b / 10
  lt a b := decide (a < b)
  eq a b := decide (a = b)
  log10 a := a
  floor a := a / 10 * 10
  toInt a := some (a / 10)
  negInf := -1000

theorem tenths_orderLaws : OrderLaws tenths where
  num := by simp [tenths]
  irrefl := by simp [tenths]
  trans := by simp only [tenths, decide_eq_true_eq]; intro a b c h1 h2; omega
  cotrans := by simp only [tenths, decide_eq_true_eq]; intro a b c _ h; omega

/-- Print rounded to an integer of one digit. -/
def shTenths (a : Int) : Str := [Char.ofNat (48 + ((a + 5) / 10).toNat)]

/-- Read one digit. -/
def stofTenths (s : Str) : Res Int :=
  match s with
  | [c] => .ok (10 * (c.toNat - 48 : Int))
  | _ => .throw .invalidArgument

/-- 1.9 prints as 2. -/
example : ∃ text c c', chromaExtract intMix shTenths (once ['3'] (onlyC tenths 19)) (fun _ => some ⟨0, 1, []⟩) [[]] =
      .ok ⟨text, 0⟩ ∧
    construct tenths intMix stofTenths (once ['3'] (onlyC tenths 19)) none (some ⟨0, 1, []⟩) .audio = .ok c ∧
    construct tenths intMix stofTenths (once ['3'] (onlyC tenths 19)) (some text) none .csv = .ok c' ∧
    getPitchClassSequence tenths (some [1]) c = .ok [] ∧
    getPitchClassSequence tenths (some [1]) c' = .ok [PitchClass.ofInt 0] := by
  refine C93_digits_violated tenths tenths_orderLaws intMix stofTenths shTenths (fun a => (a + 5) / 10 * 10) 19 30
    ['3'] (by decide +kernel) (by decide +kernel) (by decide +kernel) (by decide +kernel) (by decide +kernel) ?_
    (by decide +kernel) (by decide +kernel) [1] (by decide +kernel) (by decide +kernel) _ rfl
  exact ⟨by decide +kernel, by decide +kernel⟩

/-- Four features in the two-sample blocks of a file of three stereo frames; printing loses nothing there. -/
example : chromaExtract intMix shTenths echo12 (fun _ => some ⟨3, 2, [[20, 40], [6, 8], [10, 30]]⟩) [[]] =
    .ok ⟨"0,3,3,3,3,3,3,3,3,3,3,3,3,\n2,2,2,2,2,2,2,2,2,2,2,2,2,\n9,0,0,0,0,0,0,0,0,0,0,0,0,\n".toList, 0⟩ := by
  decide +kernel

/-- A whole number of tenths times ten survives: the hypotheses of `C93_main` hold for a plug-in that reports 3 for
C, with `song.WAV` and the text extracted from it in `song.csv`. -/
example (E : Env Int Int Unit Unit) (hF : E.F = tenths) (hpl : E.pl = once ['3'] (onlyC tenths 30))
    (hst : E.stof = stofTenths) (hM : E.M = intMix)
    (hw : E.audioFile "song.WAV".toList = some ⟨3, 2, [[2, 4], [6, 8], [10, 20]]⟩)
    (hc : E.csvFile "song.csv".toList = some "3,0,0,0,3,0,0,0,0,0,0,0,0,\n".toList)
    (o : Options) (hf : o.inputformat = none) (hev : o.evaluate = false) (hco : o.chromaonly = false) :
    main E (.ok { o with args := ["song.csv".toList] }) = main E (.ok { o with args := ["song.WAV".toList] }) := by
  refine C93_main E (hF ▸ tenths_orderLaws) (fun a => (a + 5) / 10 * 10) (by rw [hF]; decide +kernel)
    (by rw [hF]; decide +kernel) shTenths ?_ _ _ "WAV".toList "csv".toList _ ⟨"song".toList, by decide, by decide⟩
    (by decide) ⟨"song".toList, by decide, by decide⟩ (by decide) (by decide) (by decide) ?_ hc o hf hev hco
  · rw [hpl, hst, hF]
    refine ⟨by intro p blk t out ft hft; simp [once] at hft, ?_⟩
    intro p out ft hft
    rw [List.mem_singleton.1 hft]
    exact ⟨⟨by decide +kernel, by decide +kernel⟩, by unfold KeepsFloor; decide +kernel⟩
  · simp only [chromaExtract, run, hw, hpl, hM]
    decide +kernel

/-- What `stof` reads of those lines. -/
example : csvLines tenths stofTenths
    "0,3,3,3,3,3,3,3,3,3,3,3,3,\n2,2,2,2,2,2,2,2,2,2,2,2,2,\n".toList =
    .ok [(0, List.replicate 12 30), (20, List.replicate 12 20)] := by
  decide +kernel

/-- A plug-in with chord reports, one with a colon in its label. -/
def chords2 : Plugin Int Str Unit Nat where
  blocksize := 2
  initialise := true
  outputs := ["simplechord", "chordnotes"]
  start := ()
  process _ _ _ := ((), fun _ => [])
  remaining _ out := if out = 0 then [⟨" 0.0".toList, ["N".toList]⟩, ⟨" 1.5".toList, ["C:min7".toList]⟩] else []
  frame2RealTime n := n

example : ∃ text, chordExtract intMix chords2 (fun _ => some ⟨3, 2, [[2, 4], [6, 8], [10, 20]]⟩) [[]] =
      .ok ⟨text, 0⟩ ∧
    (getlines '\n' text).map parseChord = [(" 0.0".toList, "N".toList), (" 1.5".toList, "C:min7".toList)] := by
  obtain ⟨text, h1, h2⟩ := C94_chords intMix chords2 [] ["chordnotes"] rfl (by decide) rfl (by decide)
    (fun _ => some ⟨3, 2, [[2, 4], [6, 8], [10, 20]]⟩) [] _ rfl (by decide) (by decide)
    ⟨by intro p blk t out ft hft; simp [chords2] at hft, by
      intro p out ft hft
      by_cases ho : out = 0
      · simp only [chords2, ho, if_true, List.mem_cons, List.not_mem_nil, or_false] at hft
        rcases hft with rfl | rfl <;> decide
      · simp [chords2, ho] at hft⟩
  exact ⟨text, h1, h2⟩

end Extract
end JKD
