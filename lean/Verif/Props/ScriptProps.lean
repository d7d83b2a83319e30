import Verif.Model.Script
import Verif.Props.WholeProps
import Verif.Props.ExtractProps
/-
C112, C113: the full algorithm, from the shell script `justkeydding` to the printed key.
-/

namespace JKD.Script

open Py Main Chromagram Spec Extract

variable {D S P T K : Type}

/-! ### The runner is only asked about one file -/

theorem mapPy_congr {α β : Type} (f g : α → PyRes β) (l : List α) (h : ∀ a ∈ l, f a = g a) : mapPy f l = mapPy g l := by
  induction l with
  | nil => rfl
  | cons a l ih =>
    unfold mapPy
    rw [h a (by simp), ih (fun a ha => h a (by simp [ha]))]

theorem evaluateFlat_eq (R : Runner K) (kp : Store K) (ps ts : List Str) (file : Str) :
    evaluateFlat R kp (Ensembler.new ps ts) file false =
      (mapPy (runKeydetection R kp file) (product (ps.map some) ts) >>= fun xs => .ok (flat xs)) := by
  unfold evaluateFlat Ensembler.evaluate Ensembler.new Ensembler.getEnsemble
  simp only [Bool.false_eq_true, if_false, Option.getD_some]
  cases mapPy (runKeydetection R kp file) (product (ps.map some) ts) <;> rfl

section
variable [Field K] [LinearOrder K]

/-- If the program prints the same for two files, so does the ensemble script. -/
theorem scriptMain_congr (R R' : Runner K) (tiny : K → Bool) (kp : Store K) (predict : List K → Int) (file file' : Str)
    (hout : ∀ a b, R.output file a b = R'.output file' a b) (hf : R.toFloat = R'.toFloat) (hk : R.kt = R'.kt) :
    scriptMain R tiny kp predict file = scriptMain R' tiny kp predict file' := by
  have h : ∀ m, runKeydetection R kp file m = runKeydetection R' kp file' m := by
    intro m
    unfold runKeydetection
    rw [hk, hout, hf]
  unfold scriptMain scriptRow
  rw [evaluateFlat_eq, evaluateFlat_eq, mapPy_congr _ _ _ (fun m _ => h m)]

end

/-! ### C112: the script and the recording -/

/-- Ten letters or digits. -/
def Random (s : Str) : Prop := s.length = 10 ∧ ∀ c ∈ s, c.isAlphanum = true

theorem chromaFile_extension {r : Str} (h : Random r) :
    HasExtension (chromaFile r) "csv".toList ∧ (chromaFile r).length < npos := by
  refine ⟨⟨r, ?_, by decide⟩, ?_⟩
  · unfold chromaFile
    rfl
  · unfold chromaFile
    rw [List.length_append, h.1]
    decide

/-- Two files from which the same frames are read are the same to a member's run. -/
theorem main_same_frames (E E' : Env D S P T) (o : Options) (csv wav : Str)
    (hin : chooseInput E' { o with args := [csv] } csv = .ok (.ok (some .csv)))
    (hin' : chooseInput E { o with args := [wav] } wav = .ok (.ok (some .wav)))
    (hE : E' = { E with csvFile := E'.csvFile }) (hev : o.evaluate = false) (hco : o.chromaonly = false)
    (h : (construct E.F E.M E.stof E.pl (E'.csvFile csv) (E.audioFile csv) .csv >>= fun c =>
        Res.ok (c.status, c.discrete.map Prod.snd)) =
      (construct E.F E.M E.stof E.pl (E.csvFile wav) (E.audioFile wav) .audio >>= fun c =>
        Res.ok (c.status, c.discrete.map Prod.snd))) :
    main E' (.ok { o with args := [csv] }) = main E (.ok { o with args := [wav] }) := by
  have key : ∀ (E : Env D S P T) (p : Parsed D) (ft : FileType), p.chromaOnly = false →
      (p.inputType = some .csv ∧ ft = .csv ∨ p.inputType = some .wav ∧ ft = .audio) →
      readInput E p = ((construct E.F E.M E.stof E.pl (E.csvFile p.filename) (E.audioFile p.filename) ft >>=
        fun c => Res.ok (c.status, c.discrete.map Prod.snd)) >>= fun r =>
          if r.1 ≠ statusChromaDiscreteReady then
            Res.ok (Except.error { stdout := [], stderr := readError, code := r.1 })
          else framesLoop E.F E.past r.2 [] >>= fun seq => Res.ok (.ok seq)) := by
    intro E p ft hc hft
    rw [readInput_chroma E p hc ft hft]
    cases construct E.F E.M E.stof E.pl (E.csvFile p.filename) (E.audioFile p.filename) ft <;> rfl
  have e1 : chooseProfiles E' { o with args := [csv] } = chooseProfiles E o := by rw [hE]; rfl
  have e2 : chooseTransitions E' { o with args := [csv] } = chooseTransitions E o := by rw [hE]; rfl
  have e3 : chooseProfiles E { o with args := [wav] } = chooseProfiles E o := rfl
  have e4 : chooseTransitions E { o with args := [wav] } = chooseTransitions E o := rfl
  simp only [main, parseArgs, hin, hin', e1, e2, e3, e4, Res.bind_ok]
  cases chooseProfiles E o with
  | error out => rfl
  | ok q =>
    obtain ⟨maj, min, majArr, minArr⟩ := q
    cases chooseTransitions E o with
    | ub => rfl
    | throw e => rfl
    | ok r =>
      cases r with
      | error out => rfl
      | ok tr =>
        obtain ⟨tr, trArr⟩ := tr
        simp only [Res.bind_ok, Res.pure_eq]
        rw [key E' _ .csv hco (Or.inl ⟨rfl, rfl⟩), key E _ .audio hco (Or.inr ⟨rfl, rfl⟩)]
        have f1 : E'.F = E.F := by rw [hE]
        have f2 : E'.M = E.M := by rw [hE]
        have f3 : E'.stof = E.stof := by rw [hE]
        have f4 : E'.pl = E.pl := by rw [hE]
        have f5 : E'.audioFile = E.audioFile := by rw [hE]
        have f6 : E'.past = E.past := by rw [hE]
        have f7 : E'.iter₁ = E.iter₁ := by rw [hE]
        have f8 : E'.iter₂ = E.iter₂ := by rw [hE]
        have f9 : E'.sh = E.sh := by rw [hE]
        simp only [printResult, hev, Bool.false_eq_true, if_false]
        rw [f1, f2, f3, f4, f5, f6, f7, f8, f9, h]

/-- The printed recording is as good as the recording. -/
structure Faithful (E : Env D S P T) (rd : D → D) (c : Chromagram D) : Prop where
  ready : c.status = statusChromaDiscreteReady
  prints : Prints E.stof E.sh rd c.original
  number : ∀ fr ∈ c.original, E.F.eq (rd fr.1) (rd fr.1) = true
  order : c.original.Pairwise (fun p q => E.F.lt (rd p.1) (rd q.1) = true)
  floor : ∀ fr ∈ c.original, ∀ x ∈ fr.2, E.F.floor (rd x) = E.F.floor x

/-- The first run prints the chromagram. -/
theorem chroma_text (E : Env D S P T) (wav ext : Str) (hext : HasExtension wav ext) (hwe : ext.map Char.toLower = "wav".toList)
    (hlen : wav.length < npos) (c : Chromagram D)
    (hc : construct E.F E.M E.stof E.pl (E.csvFile wav) (E.audioFile wav) .audio = .ok c)
    (hs : c.status = statusChromaDiscreteReady) (crash : Str) :
    stdoutOf crash (main E (.ok (chromaOptions wav))) = c.printOriginalChromagram E.F E.sh true := by
  have h2 := (C36_extension_partial E (chromaOptions wav) wav ext rfl hext hlen).1 hwe
  have hp : parseArgs E (.ok (chromaOptions wav)) = .ok (.ok
      { filename := wav, inputType := some .wav
        cfg := { keyTransition := "exponential10", majorKeyProfile := "sapp", minorKeyProfile := "sapp"
                 customKeyTransition := E.junkTransition, majorCustomKeyProfile := E.junkMajor
                 minorCustomKeyProfile := E.junkMinor }
        justEvaluation := false, justProbabilities := false, chromaOnly := true }) := by
    simp only [parseArgs, chromaOptions, Options.default] at h2 ⊢
    rw [h2]
    rfl
  have hr : readInput E
      { filename := wav, inputType := some .wav
        cfg := { keyTransition := "exponential10", majorKeyProfile := "sapp", minorKeyProfile := "sapp"
                 customKeyTransition := E.junkTransition, majorCustomKeyProfile := E.junkMajor
                 minorCustomKeyProfile := E.junkMinor }
        justEvaluation := false, justProbabilities := false, chromaOnly := true } =
      .ok (.error { stdout := c.printOriginalChromagram E.F E.sh true, stderr := [], code := 0 }) := by
    simp only [readInput, Res.bind_ok]
    simp only [show ¬ (InputType.wav = InputType.midi) by decide, show ¬ (InputType.wav = InputType.csv) by decide, if_false,
      if_true, Res.bind_ok, hc, Chromagram.getStatus, hs, ne_eq, not_true_eq_false]
    rfl
  unfold main
  rw [hp, Res.bind_ok]
  simp only [hr, Res.bind_ok]
  rfl

/-- **C112.**  Any recording whose chromagram survives printing: the shell script writes exactly what the ensemble
script prints for the recording itself, with the thirty members reading the recording instead of the intermediate
file. -/
theorem C112_recording [Field K] [LinearOrder K] (E : Env D S P T) (hF : OrderLaws E.F) (crash : Str) (fmt : K → Str)
    (toFloat : Str → Option K) (kt : Store K) (tiny : K → Bool) (kp : Store K) (predict : List K → Int) (random : Str)
    (hrandom : Random random) (input ext : Str) (hext : HasExtension ("/vagrant/".toList ++ input) ext)
    (hwe : ext.map Char.toLower = "wav".toList) (hlen : ("/vagrant/".toList ++ input).length < npos)
    (c : Chromagram D) (rd : D → D)
    (hc : construct E.F E.M E.stof E.pl (E.csvFile ("/vagrant/".toList ++ input)) (E.audioFile ("/vagrant/".toList ++ input))
      .audio = .ok c) (hfaith : Faithful E rd c) :
    script E crash fmt toFloat kt tiny kp predict random input =
      scriptMain (programRunner E crash fmt toFloat kt) tiny kp predict ("/vagrant/".toList ++ input) := by
  generalize hw : "/vagrant/".toList ++ input = wav at *
  obtain ⟨hcx, hcl⟩ := chromaFile_extension hrandom
  have htext := chroma_text E wav ext hext hwe hlen c hc hfaith.ready crash
  unfold script
  simp only [hw, htext]
  refine scriptMain_congr _ _ tiny kp predict _ _ ?_ rfl rfl
  intro a b
  unfold programRunner
  simp only
  congr 2
  refine main_same_frames E (withFile E (chromaFile random) _) (memberOptions (tableText fmt a) (tableText fmt b) wav)
    (chromaFile random) wav ?_ ?_ rfl rfl rfl ?_
  · exact (C36_extension_partial (withFile E (chromaFile random) _) _ (chromaFile random) "csv".toList rfl hcx hcl).2.1
      (by decide)
  · exact (C36_extension_partial E _ wav ext rfl hext hlen).1 hwe
  · have hwf : CMap.WF E.F c.original := by
      rcases reader_spec hF E.M E.stof E.pl _ _ _ c hc with ⟨_, _, h3, _⟩ | ⟨_, _, h3, _⟩
      · exact h3
      · rw [h3]; exact CMap.WF.nil
    have hd := C31_constructed hF E.M E.stof E.pl _ _ _ c hc
    have himp := C28_export_import hF E.stof E.sh rd c hfaith.ready hwf hfaith.prints hfaith.number hfaith.order
    have hfile : (withFile E (chromaFile random) (c.printOriginalChromagram E.F E.sh true)).csvFile (chromaFile random) =
        some (c.printOriginalChromagram E.F E.sh true) := by simp [withFile]
    rw [hfile, construct_csv hF E.M E.stof E.pl _ _ _ himp, hc]
    simp only [Res.bind_ok, hd, List.map_map, hfaith.ready]
    congr 2
    refine List.map_congr_left ?_
    intro fr hfr
    simp only [Function.comp, List.map_map]
    exact List.map_congr_left (fun x hx => hfaith.floor fr hfr x hx)

/-! ### C112: where it fails -/

/-- Every profile and every transition table of the ensemble is stored and is read as 24 numbers. -/
structure Tables (E : Env D S P T) (fmt : K → Str) (kt kp : Store K) : Prop where
  major : E.junkMajor.length = 12
  minor : E.junkMinor.length = 12
  transition : E.junkTransition.length = 24
  profiles : ∀ p ∈ scriptProfiles, (E.nums (tableText fmt (kp p))).length = 24
  transitions : ∀ t ∈ scriptTransitions, (E.nums (tableText fmt (kt t))).length = 24

/-- What a member's run works with. -/
def memberConfig (E : Env D S P T) (fmt : K → Str) (kt kp : Store K) (p t : Str) : Config D where
  keyTransition := "custom"
  majorKeyProfile := "custom"
  minorKeyProfile := "custom"
  customKeyTransition := E.nums (tableText fmt (kt t))
  majorCustomKeyProfile := (E.nums (tableText fmt (kp p))).take 12
  minorCustomKeyProfile := (E.nums (tableText fmt (kp p))).drop 12

/-- Its command line is accepted. -/
theorem parse_member (E : Env D S P T) (fmt : K → Str) (kt kp : Store K) (h : Tables E fmt kt kp) (p t file : Str)
    (hp : p ∈ scriptProfiles) (ht : t ∈ scriptTransitions) (ty : InputType) (hty : extensionType file = .ok (some ty)) :
    parseArgs E (.ok (memberOptions (tableText fmt (kp p)) (tableText fmt (kt t)) file)) = .ok (.ok
      { filename := file, inputType := some ty, cfg := memberConfig E fmt kt kp p t
        justEvaluation := false, justProbabilities := true, chromaOnly := false }) := by
  have h1 := (C37_profiles E (memberOptions (tableText fmt (kp p)) (tableText fmt (kt t)) file) _ rfl h.major h.minor).1
    (h.profiles p hp)
  have h2 := (C37_transitions_partial E (memberOptions (tableText fmt (kp p)) (tableText fmt (kt t)) file) _ rfl
    h.transition).1 (h.transitions t ht)
  have h3 : chooseInput E (memberOptions (tableText fmt (kp p)) (tableText fmt (kt t)) file) file = .ok (.ok (some ty)) := by
    simp [chooseInput, memberOptions, Options.default, hty]
  have ha : (memberOptions (tableText fmt (kp p)) (tableText fmt (kt t)) file).args = [file] := rfl
  simp only [parseArgs, ha, h3, h1, h2, Res.bind_ok]
  rfl

theorem member_wf (E : Env D S P T) (fmt : K → Str) (kt kp : Store K) (h : Tables E fmt kt kp) (p t : Str)
    (hp : p ∈ scriptProfiles) (ht : t ∈ scriptTransitions) : Detect.Config.WF (memberConfig E fmt kt kp p t) := by
  refine ⟨?_, ?_, ?_⟩ <;> simp [memberConfig, h.profiles p hp, h.transitions t ht]

theorem mapPy_const {α β : Type} (f : α → PyRes β) (b : β) (l : List α) (h : ∀ a ∈ l, f a = .ok b) :
    mapPy f l = .ok (List.replicate l.length b) := by
  induction l with
  | nil => rfl
  | cons a l ih =>
    unfold mapPy
    rw [h a (by simp), ih (fun a ha => h a (by simp [ha]))]
    rfl

theorem mem_product {α β : Type} (a : List α) (b : List β) (m : α × β) (h : m ∈ product a b) : m.1 ∈ a ∧ m.2 ∈ b := by
  unfold product at h
  simp only [List.mem_flatMap, List.mem_map] at h
  obtain ⟨x, hx, y, hy, rfl⟩ := h
  exact ⟨hx, hy⟩

theorem flatten_const {α : Type} (c : α) (m n : Nat) : (List.replicate m (List.replicate n c)).flatten = List.replicate (m * n) c := by
  rw [List.flatten_replicate_replicate]

theorem script_sizes : (product (scriptProfiles.map some) scriptTransitions).length = 30 := by decide

section
variable [Field K] [LinearOrder K] [IsStrictOrderedRing K]

theorem foldl_same {α : Type} (f : α → α → α) (hf : ∀ c, f c c = c) (c : α) (n : Nat) : (List.replicate n c).foldl f c = c := by
  induction n with
  | zero => rfl
  | succ n ih => rw [List.replicate_succ, List.foldl_cons, hf, ih]

/-- Scaling a row of equal numbers. -/
theorem scale_const (tiny : K → Bool) (c : K) : featureScaling tiny [List.replicate 720 c] = .ok [List.replicate 720 (-1)] := by
  have hmin : minOf (List.replicate 24 c) = c := foldl_same min min_self c 23
  have hmax : maxOf (List.replicate 24 c) = c := foldl_same max max_self c 23
  have hsc : minMaxScale tiny (-1) 1 (List.replicate 24 c) = List.replicate 24 (-1) := by
    unfold minMaxScale
    simp only [hmin, hmax, List.map_replicate]
    congr 1
    ring
  obtain ⟨X', h1, h2, h3, h4⟩ := scaling_blocks tiny [List.replicate 720 c] (List.cons_ne_nil _ _) 30 (by decide)
    (by intro x hx; rw [List.mem_singleton.1 hx]; exact List.length_replicate)
  obtain ⟨x', rfl⟩ := List.length_eq_one_iff.1 h2
  rw [h1]
  have hl : x'.length = 720 := h3 x' (by simp)
  congr 2
  refine List.ext_getElem? ?_
  intro i
  by_cases hi : i < 720
  · have hb := h4 0 _ x' rfl rfl (i / 24) (by omega)
    have hblk : block (List.replicate 720 c) (i / 24) = List.replicate 24 c := by
      unfold block
      rw [List.drop_replicate, List.take_replicate]
      congr 1
      omega
    rw [hblk, hsc] at hb
    have := congrArg (fun l => l[i % 24]?) hb
    unfold block at this
    rw [List.getElem?_take_of_lt (Nat.mod_lt _ (by decide)), List.getElem?_drop, Nat.div_add_mod] at this
    rw [this, List.getElem?_replicate, List.getElem?_replicate, if_pos hi, if_pos (Nat.mod_lt _ (by decide))]
  · rw [List.getElem?_eq_none (by omega), List.getElem?_eq_none (by rw [List.length_replicate]; omega)]

/-- When no run of a member prints 24 words, the classifier sees a row of equal numbers. -/
theorem all_failed (R : Runner K) (penalty : K) (hpen : R.toFloat "-1000000".toList = some penalty) (tiny : K → Bool)
    (kp : Store K) (predict : List K → Int) (file : Str)
    (h : ∀ p ∈ scriptProfiles, ∀ t ∈ scriptTransitions, (R.output file (kp p) (R.kt t)).length ≠ 24) :
    scriptMain R tiny kp predict file = .ok (keyName (predict (List.replicate 720 (-1)))) := by
  have hrun : ∀ m ∈ product (scriptProfiles.map some) scriptTransitions,
      runKeydetection R kp file m = .ok (List.replicate 24 penalty) := by
    rintro ⟨a, t⟩ hm
    obtain ⟨ha, ht⟩ := mem_product _ _ _ hm
    obtain ⟨p, hp, rfl⟩ := List.mem_map.1 ha
    have := h p hp t ht
    have hfl : ∀ n, floats R.toFloat (List.replicate n "-1000000".toList) = .ok (List.replicate n penalty) := by
      intro n
      induction n with
      | zero => rfl
      | succ n ih =>
        rw [List.replicate_succ, floats, hpen, List.replicate_succ]
        simp only [ih]
        rfl
    unfold runKeydetection
    simp only [Option.bind_some, if_pos this]
    exact hfl 24
  unfold scriptMain scriptRow
  rw [evaluateFlat_eq, mapPy_const _ _ _ hrun, script_sizes, PyRes.bind_ok, PyRes.bind_ok]
  unfold flat
  rw [flatten_const, scale_const, PyRes.bind_ok]
  rfl

/-- `std::stof` takes no text that begins with the name of a note (hexadecimal digits need a leading 0x, the special
values are INF and NAN). -/
def NoNumber (stof : Str → Res D) : Prop :=
  ∀ c ∈ ['A', 'B', 'C', 'D', 'E', 'F', 'G'], ∀ s, ∃ e, stof (c :: s) = .throw e

omit [Field K] [LinearOrder K] [IsStrictOrderedRing K] in
/-- The line of a key is no chromagram. -/
theorem line_no_csv (F : FPU D) (stof : Str → Res D) (hs : NoNumber stof) (k : Int) (hk : IsKey k) (line : Str)
    (hl : keyLine (Key.ofInt k) = .ok line) : ∃ e, csvLines F stof line = .throw e := by
  have key : ∀ k ∈ keys, (match keyLine (Key.ofInt k) with
      | .ok line => (match getlines '\n' line with
        | [l] => (match l with
          | c :: _ => decide (c ∈ ['A', 'B', 'C', 'D', 'E', 'F', 'G'] ∧ getlines ',' l = [l])
          | [] => false)
        | _ => false)
      | _ => false) = true := by decide +kernel
  have h := key k (mem_keys.2 hk)
  rw [hl] at h
  simp only at h
  split at h
  · rename_i l hgl
    split at h
    · rename_i c rest
      obtain ⟨h1, h2⟩ := of_decide_eq_true h
      obtain ⟨e, he⟩ := hs c h1 rest
      refine ⟨e, ?_⟩
      simp only [csvLines, hgl, forM_cons, forM_nil, h2, csvTokens, if_true, he, Res.bind_throw]
    · cases h
  · cases h

/-- **C112 violated, MIDI.**  The README offers the full algorithm for MIDI files.  For every MIDI file in which the
program finds a key the shell script writes one and the same answer, whatever the music: the first run prints the key
instead of a chromagram, none of the thirty members can read that, and the classifier gets a row of equal numbers. -/
theorem C112_midi_violated (E : Env D S P T) (crash : Str) (fmt : K → Str) (toFloat : Str → Option K) (kt : Store K)
    (tiny : K → Bool) (kp : Store K) (predict : List K → Int) (random : Str) (hrandom : Random random)
    (hT : Tables E fmt kt kp) (penalty : K) (hpen : toFloat "-1000000".toList = some penalty) (hs : NoNumber E.stof)
    (input ext : Str) (hext : HasExtension ("/vagrant/".toList ++ input) ext)
    (hme : ext.map Char.toLower = "mid".toList ∨ ext.map Char.toLower = "midi".toList)
    (hlen : ("/vagrant/".toList ++ input).length < npos) (out : Out) (k : Int) (hk : IsKey k)
    (hmain : main E (.ok (Options.default ("/vagrant/".toList ++ input))) = .ok out)
    (hline : keyLine (Key.ofInt k) = .ok out.stdout) :
    script E crash fmt toFloat kt tiny kp predict random input = .ok (keyName (predict (List.replicate 720 (-1)))) := by
  generalize hw : "/vagrant/".toList ++ input = mid at *
  obtain ⟨hcx, hcl⟩ := chromaFile_extension hrandom
  have hco : main E (.ok (chromaOptions mid)) = main E (.ok (Options.default mid)) := by
    have h1 := (C36_extension_partial E (chromaOptions mid) mid ext rfl hext hlen).2.2.1 hme
    have h2 := (C36_extension_partial E (Options.default mid) mid ext rfl hext hlen).2.2.1 hme
    have a1 : (chromaOptions mid).args = [mid] := rfl
    have a2 : (Options.default mid).args = [mid] := rfl
    simp only [main, parseArgs, a1, a2, h1, h2, Res.bind_ok]
    rfl
  unfold script
  simp only [hw, hco, hmain]
  refine all_failed _ penalty hpen tiny kp predict _ ?_
  intro p hp t ht
  obtain ⟨e, he⟩ := line_no_csv E.F E.stof hs k hk out.stdout hline
  have hty : extensionType (chromaFile random) = .ok (some .csv) := by
    rw [extensionType_eq _ _ hcx hcl]
    decide
  have hparse := parse_member (withFile E (chromaFile random) out.stdout) fmt kt kp
    ⟨hT.major, hT.minor, hT.transition, hT.profiles, hT.transitions⟩ p t (chromaFile random) hp ht .csv hty
  have hread : main (withFile E (chromaFile random) out.stdout)
      (.ok (memberOptions (tableText fmt (kp p)) (tableText fmt (kt t)) (chromaFile random))) = .throw e := by
    have hc : construct E.F E.M E.stof E.pl (some out.stdout) (E.audioFile (chromaFile random)) .csv = .throw e := by
      simp only [construct, getChromagramFromCsv, he, Res.bind_throw]
    unfold main
    rw [hparse, Res.bind_ok]
    simp only
    rw [readInput_chroma _ _ rfl .csv (Or.inl ⟨rfl, rfl⟩)]
    have hfile : (withFile E (chromaFile random) out.stdout).csvFile (chromaFile random) = some out.stdout := by simp [withFile]
    simp only [hfile]
    change ((((construct E.F E.M E.stof E.pl (some out.stdout) (E.audioFile (chromaFile random)) .csv) >>= _) >>= _) >>= _) = _
    rw [hc]
    rfl
  simp only [programRunner, stdoutOf, hread]
  decide

/-- **C112 violated, missing recording.**  A recording that cannot be opened gets the same answer, if the thirty
crashing runs print anything but 24 words: the message of the first run goes to the terminal, the script writes a key
and its exit status is that of `rm`. -/
theorem C112_missing_violated (E : Env D S P T) (hF : OrderLaws E.F) (crash : Str) (hcrash : (splitWs crash).length ≠ 24)
    (fmt : K → Str) (toFloat : Str → Option K) (kt : Store K) (tiny : K → Bool) (kp : Store K) (predict : List K → Int)
    (random : Str) (hrandom : Random random) (hT : Tables E fmt kt kp) (penalty : K)
    (hpen : toFloat "-1000000".toList = some penalty) (input ext : Str)
    (hext : HasExtension ("/vagrant/".toList ++ input) ext) (hwe : ext.map Char.toLower = "wav".toList)
    (hlen : ("/vagrant/".toList ++ input).length < npos) (hopen : E.audioFile ("/vagrant/".toList ++ input) = none) :
    script E crash fmt toFloat kt tiny kp predict random input = .ok (keyName (predict (List.replicate 720 (-1)))) := by
  generalize hw : "/vagrant/".toList ++ input = wav at *
  obtain ⟨hcx, hcl⟩ := chromaFile_extension hrandom
  have hfirst : stdoutOf crash (main E (.ok (chromaOptions wav))) = [] := by
    have h2 := (C36_extension_partial E (chromaOptions wav) wav ext rfl hext hlen).1 hwe
    have a1 : (chromaOptions wav).args = [wav] := rfl
    simp only [main, parseArgs, a1, h2, Res.bind_ok]
    have hc : ∀ csv, construct E.F E.M E.stof E.pl csv (none : Option (AudioFile S)) .audio =
        .ok { status := statusChromaInputfileError, original := [], discrete := [] } := by
      intro csv
      rfl
    simp only [chooseProfiles, chooseTransitions, chromaOptions, Options.default, Res.bind_ok, Res.pure_eq, readInput,
      show ¬ (InputType.wav = InputType.midi) by decide, show ¬ (InputType.wav = InputType.csv) by decide, if_false, if_true,
      hopen, hc]
    rfl
  unfold script
  simp only [hw, hfirst]
  refine all_failed _ penalty hpen tiny kp predict _ ?_
  intro p hp t ht
  have hty : extensionType (chromaFile random) = .ok (some .csv) := by
    rw [extensionType_eq _ _ hcx hcl]
    decide
  have hT' : Tables (withFile E (chromaFile random) []) fmt kt kp :=
    ⟨hT.major, hT.minor, hT.transition, hT.profiles, hT.transitions⟩
  have hparse := parse_member (withFile E (chromaFile random) []) fmt kt kp hT' p t (chromaFile random) hp ht .csv hty
  have hread : main (withFile E (chromaFile random) [])
      (.ok (memberOptions (tableText fmt (kp p)) (tableText fmt (kt t)) (chromaFile random))) = .ub := by
    refine C42_empty_violated _ _ _ hparse (member_wf _ fmt kt kp hT' p t hp ht) ?_
    rw [readInput_chroma _ _ rfl .csv (Or.inl ⟨rfl, rfl⟩)]
    have hfile : (withFile E (chromaFile random) []).csvFile (chromaFile random) = some [] := by simp [withFile]
    simp only [hfile]
    change (((construct E.F E.M E.stof E.pl (some []) (E.audioFile (chromaFile random)) .csv) >>= _) >>= _) = _
    rw [construct_csv hF E.M E.stof E.pl [] _ [] rfl]
    rfl
  simp only [programRunner, stdoutOf, hread]
  exact hcrash

end

/-! ### Examples -/

deriving instance DecidableEq for Chromagram

/-- `song.wav` in which the plug-in finds a 3 for C at time 3, in tenths: the chromagram survives printing. -/
example [Field K] [LinearOrder K] (E : Env Int Int Unit Unit) (hF : E.F = tenths) (hpl : E.pl = once ['3'] (onlyC tenths 30))
    (hst : E.stof = stofTenths) (hM : E.M = intMix) (hsh : E.sh = shTenths)
    (hw : E.audioFile "/vagrant/song.wav".toList = some ⟨3, 2, [[2, 4], [6, 8], [10, 20]]⟩) (crash : Str) (fmt : K → Str)
    (toFloat : Str → Option K) (kt : Store K) (tiny : K → Bool) (kp : Store K) (predict : List K → Int) :
    script E crash fmt toFloat kt tiny kp predict "0123456789".toList "song.wav".toList =
      scriptMain (programRunner E crash fmt toFloat kt) tiny kp predict "/vagrant/song.wav".toList := by
  refine C112_recording E (hF ▸ tenths_orderLaws) crash fmt toFloat kt tiny kp predict _ ⟨by decide, by decide⟩ "song.wav".toList
    "wav".toList ⟨"/vagrant/song".toList, by decide, by decide⟩ (by decide) (by decide)
    { status := statusChromaDiscreteReady, original := [(30, 30 :: List.replicate 11 0)]
      discrete := [(30, 30 :: List.replicate 11 0)] } (fun a => (a + 5) / 10 * 10) ?_ ⟨rfl, ?_, ?_, ?_, ?_⟩
  · have hw' : E.audioFile ("/vagrant/".toList ++ "song.wav".toList) = some ⟨3, 2, [[2, 4], [6, 8], [10, 20]]⟩ := hw
    rw [hw', hF, hpl, hst, hM]
    have key : construct tenths intMix stofTenths (once ['3'] (onlyC tenths 30)) none
        (some ⟨3, 2, [[2, 4], [6, 8], [10, 20]]⟩) .audio = .ok
        { status := statusChromaDiscreteReady, original := [(30, 30 :: List.replicate 11 0)]
          discrete := [(30, 30 :: List.replicate 11 0)] } := by decide +kernel
    exact key
  · rw [hst, hsh]
    exact ⟨by decide +kernel, by decide +kernel⟩
  · rw [hF]
    decide +kernel
  · exact List.pairwise_singleton _ _
  · rw [hF]
    decide +kernel

end JKD.Script
