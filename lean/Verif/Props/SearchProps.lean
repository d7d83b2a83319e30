import Verif.Model.Search
import Verif.Props.GaProps
import Verif.Props.LabelProps
import Verif.Props.ScriptMoveProps
import Mathlib.Tactic.NormNum
import Mathlib.Tactic.Linarith
/-
C122: what the optimiser minimises, from the annotated files to the reported pair.
-/

namespace JKD.Search

open Py Script Main Spec Opt

variable {D S P T K : Type}

/-! ### The list of files -/

theorem strip_line (l : Str) (hl : strip l = l) : strip (l ++ ['\n']) = l := by
  have hd : ∀ m : Str, (m ++ ['\n']).dropWhile isSpace = if m.dropWhile isSpace = [] then [] else m.dropWhile isSpace ++ ['\n'] := by
    intro m
    induction m with
    | nil => decide
    | cons c m ih =>
      simp only [List.cons_append, List.dropWhile_cons]
      by_cases h : isSpace c = true
      · simp only [h, if_true]; exact ih
      · simp only [h]; simp
  unfold strip at *
  rw [hd]
  split
  · rename_i h
    rw [h] at hl
    simpa using hl
  · rw [List.reverse_append, List.reverse_singleton, List.singleton_append, List.dropWhile_cons,
      if_pos (by decide)]
    exact hl

/-- A list of names, one per line, is read as these names. -/
theorem datasetFiles_lines (files : List Str) (h : ∀ f ∈ files, '\n' ∉ f ∧ strip f = f) :
    datasetFiles (files.flatMap (fun f => f ++ ['\n'])) = files := by
  unfold datasetFiles readlines
  induction files with
  | nil => rfl
  | cons f files ih =>
    have e : (f :: files).flatMap (fun f => f ++ ['\n']) = f ++ '\n' :: files.flatMap (fun f => f ++ ['\n']) := by simp
    rw [e, readlines_go_line _ _ _ (h f (by simp)).1, List.map_cons, ih (fun g hg => h g (by simp [hg]))]
    rw [List.reverse_nil, List.nil_append, strip_line f (h f (by simp)).2]

/-- **C122, lists.**  A list of file names, one per line, is read as these names, whether or not the last line ends in
a line break. -/
theorem C122_list (files : List Str) (last : Str) (h : ∀ f ∈ files ++ [last], '\n' ∉ f ∧ strip f = f)
    (hl : last ≠ []) :
    datasetFiles (files.flatMap (fun f => f ++ ['\n']) ++ last) = files ++ [last] ∧
    datasetFiles (files.flatMap (fun f => f ++ ['\n']) ++ last ++ ['\n']) = files ++ [last] := by
  constructor
  · have hlast : ∀ (a cur : Str), '\n' ∉ a → readlines.go a cur = if cur.reverse ++ a = [] then [] else [cur.reverse ++ a] := by
      intro a
      induction a with
      | nil =>
        intro cur _
        simp only [readlines.go, List.append_nil, List.reverse_eq_nil_iff]
      | cons c a ih =>
        intro cur hc
        rw [List.mem_cons, not_or] at hc
        rw [readlines.go, if_neg (Ne.symm hc.1), ih _ hc.2]
        simp
    induction files with
    | nil =>
      have h1 := h last (by simp)
      unfold datasetFiles readlines
      rw [List.flatMap_nil, List.nil_append, hlast _ _ h1.1, if_neg (by simpa using hl)]
      simp [h1.2]
    | cons f files ih =>
      have h1 := h f (by simp)
      have e : (f :: files).flatMap (fun f => f ++ ['\n']) ++ last =
          f ++ '\n' :: (files.flatMap (fun f => f ++ ['\n']) ++ last) := by simp
      have ih := ih (fun g hg => h g (by rw [List.cons_append]; exact List.mem_cons_of_mem _ hg))
      unfold datasetFiles readlines at *
      rw [e, readlines_go_line _ _ _ h1.1, List.map_cons, ih]
      rw [List.reverse_nil, List.nil_append, strip_line f h1.2, List.cons_append]
  · have := datasetFiles_lines (files ++ [last]) h
    rw [List.flatMap_append] at this
    simpa [List.append_assoc] using this

/-! ### One run -/

/-- The same command line without `-e`. -/
def plainOptions (kp kt file : Str) : Options :=
  { Options.default file with customkeyprofiles := some kp, customkeytransitions := some kt }

/-- The key the program names for a file under two tables, as the data-set tools read its line; none if it ends without
a line. -/
def answer (E : Env D S P T) (kp kt file : Str) : Option Int :=
  match Main.main E (.ok (plainOptions kp kt file)) with
  | .ok out => if parseLabel out.stdout = -1 then none else some (parseLabel out.stdout)
  | _ => none

/-- What the program works with. -/
def customConfig (E : Env D S P T) (kp kt : Str) : Config D where
  keyTransition := "custom"
  majorKeyProfile := "custom"
  minorKeyProfile := "custom"
  customKeyTransition := E.nums kt
  majorCustomKeyProfile := (E.nums kp).take 12
  minorCustomKeyProfile := (E.nums kp).drop 12

/-- The arrays of the program have their sizes. -/
structure Arrays (E : Env D S P T) : Prop where
  major : E.junkMajor.length = 12
  minor : E.junkMinor.length = 12
  transition : E.junkTransition.length = 24

theorem parse_custom (E : Env D S P T) (hA : Arrays E) (kp kt file : Str) (hp : (E.nums kp).length = 24)
    (ht : (E.nums kt).length = 24) (ty : InputType) (hty : extensionType file = .ok (some ty)) (o : Options)
    (ha : o.args = [file]) (hf : o.inputformat = none) (hkp : o.customkeyprofiles = some kp)
    (hkt : o.customkeytransitions = some kt) :
    parseArgs E (.ok o) = .ok (.ok
      { filename := file, inputType := some ty, cfg := customConfig E kp kt
        justEvaluation := o.evaluate, justProbabilities := o.probabilities, chromaOnly := o.chromaonly }) := by
  have h1 := (C37_profiles E o _ hkp hA.major hA.minor).1 hp
  have h2 := (C37_transitions_partial E o _ hkt hA.transition).1 ht
  have h3 : chooseInput E o file = .ok (.ok (some ty)) := by
    simp [chooseInput, hf, hty]
  simp only [parseArgs, ha, h3, h1, h2, Res.bind_ok]
  rfl

/-- A piece of the data set: where its annotated copy is, what annotate_inline.py made it from, the annotated key and
the pitch classes of the music. -/
structure Piece where
  folder : Str
  root : Str
  ext : Str
  text : Str
  copy : Str
  key : Int
  notes : List Int

/-- The name in the list. -/
def Piece.file (q : Piece) : Str := q.folder ++ '/' :: q.copy

/-- The copy was made by annotate_inline.py from an annotation that names the key, and the program reads music in it. -/
structure Piece.Ok (E : Env D S P T) (q : Piece) : Prop where
  extOk : '_' ∉ q.ext ∧ '.' ∉ q.ext
  rootOk : ∃ c ∈ q.root, c ≠ '.'
  annotated : inlineIndex (strip q.text) = q.key
  known : q.key ≠ -1
  copied : inlineFilename (q.root ++ '.' :: q.ext) q.text = .ok q.copy
  music : Reads E q.file q.notes
  notesOk : ∀ o ∈ q.notes, 0 ≤ o ∧ o < 12
  some : q.notes ≠ []

theorem piece_key {E : Env D S P T} {q : Piece} (h : q.Ok E) : IsKey q.key := by
  rcases inlineIndex_range (strip q.text) with hh | hh
  · exact absurd (h.annotated ▸ hh) h.known
  · exact h.annotated ▸ hh

/-- The name holds the annotated key. -/
theorem piece_truth {E : Env D S P T} {q : Piece} (h : q.Ok E) (a : Int) (ha : IsKey a) :
    ∃ key, groundTruth q.file = .ok (some key) ∧ score (Key.ofInt a) key = .ok (weight q.key a) := by
  obtain ⟨new, key, h1, h2, _, h3⟩ := C63_round_trip (q.folder ++ '/' :: q.root) q.ext q.text h.extOk
    (by obtain ⟨c, hc, hne⟩ := h.rootOk; exact ⟨c, by simp [hc], hne⟩) q.key a h.annotated h.known ha
  refine ⟨key, ?_, h3⟩
  rw [← h2]
  have e := h.copied
  unfold inlineFilename at h1 e
  rw [splitext_dot _ _ h.extOk.2 (by obtain ⟨c, hc, hne⟩ := h.rootOk; exact ⟨c, by simp [hc], hne⟩)] at h1
  rw [splitext_dot _ _ h.extOk.2 h.rootOk] at e
  cases hn : normalizeKeyLabel (strip q.text) with
  | raise x => rw [hn] at h1; cases h1
  | ok w =>
    rw [hn] at h1 e
    have h1 := PyRes.ok.inj h1
    have e := PyRes.ok.inj e
    rw [← h1]
    unfold Piece.file
    rw [← e]
    simp

section
variable {Num : D → Prop} (E : Env D S P T) (W : FPLaws E.F Num) (hi₁ : HMM.Iter.Ok E.iter₁) (hi₂ : HMM.Iter.Ok E.iter₂)
  (hA : Arrays E)
include W hi₁ hi₂ hA

/-- The run in evaluation mode prints the weight of the key that the program names. -/
theorem judged (kp kt : Str) (hp : (E.nums kp).length = 24) (ht : (E.nums kt).length = 24) (q : Piece) (hq : q.Ok E) :
    (answer E kp kt q.file = none ∧ main E (.ok (searchOptions kp kt q.file)) = .throw .outOfRange) ∨
    ∃ a, IsKey a ∧ answer E kp kt q.file = some a ∧
      main E (.ok (searchOptions kp kt q.file)) =
        .ok { stdout := E.sh (E.F.ofRat (weight q.key a)) ++ ['\n'], stderr := [], code := 0 } := by
  obtain ⟨ty, hty, hread⟩ := hq.music
  have hwf : Detect.Config.WF (customConfig E kp kt) := by
    refine ⟨?_, ?_, ?_⟩ <;> simp [customConfig, hp, ht]
  have p1 := parse_custom E hA kp kt q.file hp ht ty hty (plainOptions kp kt q.file) rfl rfl rfl rfl
  have p2 := parse_custom E hA kp kt q.file hp ht ty hty (searchOptions kp kt q.file) rfl rfl rfl rfl
  have r1 := hread
    { filename := q.file, inputType := some ty, cfg := customConfig E kp kt
      justEvaluation := false, justProbabilities := false, chromaOnly := false } rfl rfl rfl
  have r2 := hread
    { filename := q.file, inputType := some ty, cfg := customConfig E kp kt
      justEvaluation := true, justProbabilities := false, chromaOnly := false } rfl rfl rfl
  have e1 : (plainOptions kp kt q.file).evaluate = false := rfl
  have e2 : (searchOptions kp kt q.file).evaluate = true := rfl
  have e3 : (plainOptions kp kt q.file).probabilities = false := rfl
  have e4 : (searchOptions kp kt q.file).probabilities = false := rfl
  have e5 : (plainOptions kp kt q.file).chromaonly = false := rfl
  have e6 : (searchOptions kp kt q.file).chromaonly = false := rfl
  rw [e1, e3, e5] at p1
  rw [e2, e4, e6] at p2
  rcases Detect.detect_spec W E.iter₁ E.iter₂ hi₁ hi₂ (customConfig E kp kt) hwf q.notes hq.notesOk hq.some with
    ⟨h, _⟩ | ⟨_, _, _, _, k, _, _, _, _, _, hk, hd⟩
  · left
    constructor
    · unfold answer
      have : main E (.ok (plainOptions kp kt q.file)) = .throw .outOfRange := by simp [main, p1, r1, h]
      rw [this]
    · simp [main, p2, r2, h]
  · right
    have hk' := mem_keys.1 hk
    obtain ⟨line, hl, hpl⟩ := C39_parse_label k hk'
    obtain ⟨key, hg, hs⟩ := piece_truth hq k hk'
    refine ⟨k, hk', ?_, ?_⟩
    · unfold answer
      have : main E (.ok (plainOptions kp kt q.file)) = .ok { stdout := line, stderr := [], code := 0 } := by
        simp [main, p1, r1, hd, printResult, hl]
      have hne : k ≠ -1 := by unfold IsKey at hk'; omega
      rw [this]
      simp only [hpl, if_neg hne]
    · simp [main, p2, r2, hd, printResult, hg, hs]

end

/-! ### C122 -/


/-- The five scores are read back as printed, and the empty text is no number. -/
structure Scores [Field K] (E : Env D S P T) (toFloat : Str → Option K) : Prop where
  printed : ∀ s ∈ ([0, 1 / 5, 3 / 10, 1 / 2, 1] : List Rat), toFloat (E.sh (E.F.ofRat s) ++ ['\n']) = some (s : K)
  empty : toFloat [] = none

/-- What a piece adds to the error: 0 for the annotated key, 0.75 for a fifth above it, 0.91 for the relative, 0.96 for the
parallel and 1 for any other key or none. -/
def penalty (truth : Int) : Option Int → Rat
  | none => 1
  | some a => 1 - weight truth a ^ 2

theorem weight_mem (k a : Int) : weight k a ∈ ([0, 1 / 5, 3 / 10, 1 / 2, 1] : List Rat) := by
  unfold weight
  split_ifs <;> simp

theorem penalty_nonneg (k : Int) (a : Option Int) : 0 ≤ penalty k a := by
  cases a with
  | none => simp [penalty]
  | some a => simp only [penalty]; unfold weight; split_ifs <;> norm_num

theorem penalty_zero (k : Int) (a : Option Int) : penalty k a = 0 ↔ a = some k := by
  cases a with
  | none => simp [penalty]
  | some a => simp only [penalty]; unfold weight; split_ifs <;> simp_all <;> norm_num

theorem sum_le_zero [Field K] [LinearOrder K] [IsStrictOrderedRing K] {α : Type} (f : α → K) (l : List α)
    (h : ∀ a, 0 ≤ f a) : (l.map f).sum ≤ 0 ↔ ∀ a ∈ l, f a = 0 := by
  induction l with
  | nil => simp
  | cons a l ih =>
    have h1 := h a
    have h2 : 0 ≤ (l.map f).sum := List.sum_nonneg (by intro x hx; obtain ⟨b, _, rfl⟩ := List.mem_map.1 hx; exact h b)
    rw [List.map_cons, List.sum_cons, List.forall_mem_cons, ← ih]
    constructor
    · intro h3; exact ⟨by linarith, by linarith⟩
    · rintro ⟨h3, h4⟩; linarith

section
variable {Num : D → Prop} (E : Env D S P T) (W : FPLaws E.F Num) (hi₁ : HMM.Iter.Ok E.iter₁) (hi₂ : HMM.Iter.Ok E.iter₂)
  (hA : Arrays E) [Field K] [LinearOrder K] [IsStrictOrderedRing K] (crash : Str) (fmt : K → Str) (toFloat : Str → Option K)
  (hs : Scores E toFloat) (Q : List Piece) (hQ : ∀ q ∈ Q, q.Ok E) (hline : ∀ q ∈ Q, '\n' ∉ q.file ∧ strip q.file = q.file)
include W hi₁ hi₂ hA hs hQ hline

/-- The list of the pieces, one per line. -/
def listing (Q : List Piece) : Str := (Q.map Piece.file).flatMap (fun f => f ++ ['\n'])

/-- **C122, the error.**  For a data set annotated with annotate_inline.py the error of two tables is the sum over the
pieces of the penalty of the key that the program, run with these tables, names for the piece against the key in the
piece's annotation. -/
theorem C122_error (tp tt : List K) (hp : (E.nums (tableText fmt (some tp))).length = 24)
    (ht : (E.nums (tableText fmt (some tt))).length = 24) :
    (programBench E crash fmt toFloat (listing Q)).error (some tp) (some tt) =
      (Q.map (fun q => ((penalty q.key
        (answer E (tableText fmt (some tp)) (tableText fmt (some tt)) q.file) : Rat) : K))).sum := by
  have hfiles : datasetFiles (listing Q) = Q.map Piece.file := by
    apply datasetFiles_lines
    intro f hf
    obtain ⟨q, hq, rfl⟩ := List.mem_map.1 hf
    exact hline q hq
  unfold Bench.error programBench
  simp only [hfiles, List.map_map]
  congr 1
  apply List.map_congr_left
  intro q hq
  simp only [Function.comp, runScore]
  rcases judged E W hi₁ hi₂ hA _ _ hp ht q (hQ q hq) with ⟨h1, h2⟩ | ⟨a, _, h1, h2⟩
  · rw [h1, h2]
    simp [stdoutOf, hs.empty, penalty]
  · rw [h1, h2]
    simp [stdoutOf, hs.printed _ (weight_mem q.key a), penalty]

/-- **C122, no error.**  The error is 0 exactly when the program names the annotated key for every piece. -/
theorem C122_zero (tp tt : List K) (hp : (E.nums (tableText fmt (some tp))).length = 24)
    (ht : (E.nums (tableText fmt (some tt))).length = 24) :
    (programBench E crash fmt toFloat (listing Q)).error (some tp) (some tt) ≤ 0 ↔
      ∀ q ∈ Q, answer E (tableText fmt (some tp)) (tableText fmt (some tt)) q.file = some q.key := by
  rw [C122_error E W hi₁ hi₂ hA crash fmt toFloat hs Q hQ hline tp tt hp ht]
  rw [sum_le_zero _ _ (fun q => Rat.cast_nonneg.2 (penalty_nonneg _ _))]
  simp only [Rat.cast_eq_zero, penalty_zero]

/-- **C122, the search.**  When the search comes to an end, the pair it reports lets the program name the annotated key
for every piece of the data set. -/
theorem C122_search (ε : K) (hε : 0 ≤ ε) (G : Params) (kps kts : List Name) (hk : kps ≠ []) (ht : kts ≠ [])
    (hkn : kps.Nodup) (htn : kts.Nodup) (s : St K) (w : WF ε s) (hkh : ∀ k ∈ kps, ∃ t, s.kp k = some t)
    (hth : ∀ k ∈ kts, ∃ t, s.kt k = some t)
    (hnum : ∀ t : List K, t.length = 24 → (E.nums (tableText fmt (some t))).length = 24) (generations : Nat) (g : Ga K)
    (s' : St K)
    (hrun : (start (programBench E crash fmt toFloat (listing Q)) kps kts >>=
      mainLoop (programBench E crash fmt toFloat (listing Q)) G generations : Py K (Ga K)) s = .done (g, s')) :
    ∃ tp tt, s'.kp g.bestKp = some tp ∧ s'.kt g.bestKt = some tt ∧
      ∀ q ∈ Q, answer E (tableText fmt (some tp)) (tableText fmt (some tt)) q.file = some q.key := by
  obtain ⟨m, _, h⟩ := C56_reported_pair ε hε (programBench E crash fmt toFloat (listing Q)) G kps kts hk ht hkn htn s w hkh
    hth generations
  rw [hrun] at h
  obtain ⟨_, _, _, _, tp, tt, h1, h2, h3, h4, _, h6⟩ := h
  exact ⟨tp, tt, h1, h2, (C122_zero E W hi₁ hi₂ hA crash fmt toFloat hs Q hQ hline tp tt (hnum _ h3.1) (hnum _ h4.1)).1 h6⟩

end

/-! ### A data set -/

/-- How the five scores look. -/
noncomputable def shortScore (x : RD) : Str :=
  open Classical in
  if x = .fin 0 then "0".toList else if x = .fin (1 / 5) then "0.2".toList else if x = .fin (3 / 10) then "0.3".toList
  else if x = .fin (1 / 2) then "0.5".toList else if x = .fin 1 then "1".toList else "?".toList

/-- How they are read. -/
def readScore (s : Str) : Option ℚ :=
  if s = "0\n".toList then some 0 else if s = "0.2\n".toList then some (1 / 5) else if s = "0.3\n".toList then some (3 / 10)
  else if s = "0.5\n".toList then some (1 / 2) else if s = "1\n".toList then some 1 else none

/-- A world in which every MIDI file has the notes C and G. -/
noncomputable def world (E : Env RD S P T) : Env RD S P T :=
  { demo E with F := RD.exact, sh := shortScore, nums := fun _ => List.replicate 24 (.fin 1) }

/-- A piece with the annotation `C major`. -/
def onePiece : Piece where
  folder := "./13-napoles2018_symbolic_inplace".toList
  root := "waltz".toList
  ext := "mid".toList
  text := "C major\n".toList
  copy := "waltz_C.mid".toList
  key := 0
  notes := [0, 7]

/-- The hypotheses of C122 hold for it. -/
example (E : Env RD S P T) : Arrays (world E) ∧ Scores (world E) readScore ∧ onePiece.Ok (world E) ∧
    ('\n' ∉ onePiece.file ∧ strip onePiece.file = onePiece.file) := by
  refine ⟨⟨by simp [world, demo], by simp [world, demo], by simp [world, demo]⟩, ⟨?_, by decide⟩, ?_, by decide +kernel⟩
  · intro s hs
    have h : (world E).sh ((world E).F.ofRat s) = shortScore (.fin (s : ℝ)) := rfl
    rw [h]
    simp only [List.mem_cons, List.not_mem_nil, or_false] at hs
    have r0 : readScore ("0".toList ++ ['\n']) = some 0 := by decide +kernel
    have r1 : readScore ("0.2".toList ++ ['\n']) = some (1 / 5) := by decide +kernel
    have r2 : readScore ("0.3".toList ++ ['\n']) = some (3 / 10) := by decide +kernel
    have r3 : readScore ("0.5".toList ++ ['\n']) = some (1 / 2) := by decide +kernel
    have r4 : readScore ("1".toList ++ ['\n']) = some 1 := by decide +kernel
    rcases hs with rfl | rfl | rfl | rfl | rfl <;> norm_num [shortScore, r0, r1, r2, r3, r4]
  · refine ⟨by decide, ⟨'w', by decide, by decide⟩, by decide +kernel, by decide, by decide +kernel, ?_, by decide, by decide⟩
    refine ⟨.midi, by decide +kernel, ?_⟩
    rintro p h1 h2 h3
    simp only [readInput, h2]
    rfl

/-! ### C123: the lists of tools/run_all_evaluations.sh -/

theorem grepDataset_iff (folder ext line : Str) :
    grepDataset folder ext line = true ↔ ∃ a b c, line = a ++ folder ++ b ++ '.' :: ext ++ c := by
  unfold grepDataset
  simp only [List.any_eq_true, List.mem_tails, Bool.and_eq_true, List.isPrefixOf_iff_prefix]
  constructor
  · rintro ⟨t, ⟨a, rfl⟩, ⟨r, rfl⟩, u, ⟨b, hb⟩, ⟨c, rfl⟩⟩
    rw [List.drop_left] at hb
    exact ⟨a, b, c, by rw [← hb]; simp⟩
  · rintro ⟨a, b, c, rfl⟩
    refine ⟨folder ++ (b ++ '.' :: ext ++ c), ⟨a, by simp⟩, ⟨_, rfl⟩, '.' :: ext ++ c, ⟨b, ?_⟩, ⟨c, rfl⟩⟩
    rw [List.drop_left]
    simp

/-- The data sets of the lists that are annotated by copying: the folder given to annotate_inline.py, and the extension. -/
def copiedSets : List (String × String) :=
  [("01-a-maps_chroma", "csv"), ("02-a-maps_symbolic", "mid"), ("03-albrecht_chroma", "csv"), ("04-albrecht_symbolic", "mid"),
   ("06-arthur2018-synth-shortname_chroma", "csv"), ("07-arthur2018-synth-shortname_symbolic", "mid"),
   ("08-billboard_chroma", "csv"), ("09-cross-era-shortname_chroma", "csv"), ("10-giantsteps-key_chroma", "csv"),
   ("11-giantsteps-mtg-key_chroma", "csv")]

/-- A text occurs in a path of two parts joined by a slash only inside one of them, unless it has a slash. -/
theorem infix_parts (w a b : Str) (hw : '/' ∉ w) (h : w <:+: a ++ '/' :: b) : w <:+: a ∨ w <:+: b := by
  obtain ⟨x, y, h⟩ := h
  rw [List.append_assoc] at h
  rcases List.append_eq_append_iff.1 h with ⟨c, h1, h2⟩ | ⟨c, h1, h2⟩
  · -- `x` ends within `a`
    rcases List.append_eq_append_iff.1 h2 with ⟨d, h3, h4⟩ | ⟨d, h3, h4⟩
    · left; exact ⟨x, d, by rw [h1, h3]; simp⟩
    · cases d with
      | nil => left; exact ⟨x, [], by rw [h1, h3]; simp⟩
      | cons e d =>
        exfalso
        simp only [List.cons_append, List.cons.injEq] at h4
        apply hw
        rw [h3, ← h4.1]
        simp
  · cases c with
    | nil =>
      simp only [List.nil_append] at h2
      cases w with
      | nil => left; exact ⟨[], a, by simp⟩
      | cons e w =>
        exfalso
        simp only [List.cons_append, List.cons.injEq] at h2
        exact hw (by rw [← h2.1]; simp)
    | cons e c =>
      simp only [List.cons_append, List.cons.injEq] at h2
      right
      exact ⟨c, y, by rw [h2.2]; simp⟩

/-- **C123 (partial).**  The ten lists of copied data sets hold every file with the extension in the folder of the copies
and no file of the folder the copies were made from.  Missing: the last list, see `C123_all_violated`. -/
theorem C123_copies_partial (d : String × String) (hd : d ∈ copiedSets) (rest : Str) :
    (d.1 ++ "_inplace", d.2) ∈ evaluations ∧
    grepDataset (d.1 ++ "_inplace").toList d.2.toList
      ("./".toList ++ (d.1 ++ "_inplace").toList ++ '/' :: rest ++ '.' :: d.2.toList) = true ∧
    (¬ "_inplace".toList <:+: rest →
      grepDataset (d.1 ++ "_inplace").toList d.2.toList ("./".toList ++ d.1.toList ++ '/' :: rest) = false) := by
  refine ⟨?_, (grepDataset_iff _ _ _).2 ⟨"./".toList, '/' :: rest, [], by simp⟩, ?_⟩
  · revert d; decide
  · intro hr
    rw [Bool.eq_false_iff]
    intro h
    obtain ⟨a, b, c, h⟩ := (grepDataset_iff _ _ _).1 h
    have hin : "_inplace".toList <:+: "./".toList ++ d.1.toList ++ '/' :: rest := by
      rw [h, String.toList_append]
      exact ⟨a ++ d.1.toList, b ++ '.' :: d.2.toList ++ c, by simp⟩
    rcases infix_parts _ _ _ (by decide) hin with h | h
    · have : ∀ d ∈ copiedSets, ¬ "_inplace".toList <:+: "./".toList ++ d.1.toList := by decide +kernel
      exact this d hd h
    · exact hr h

theorem keyName_long (c d e f : Char) (s : Str) : Spec.keyName (c :: d :: e :: f :: s) = none := by
  have h : accidental (d :: e :: f :: s) = none := by simp [accidental]
  simp only [Spec.keyName, noteName, h]
  split <;> simp

/-- **C123 violated.**  The last list also holds the files that the copies were made from.  Their names hold no key, so
that as soon as the program finds a key for one, with whatever tables, it compares it with an indeterminate number. -/
theorem C123_all_violated {Num : D → Prop} (E : Env D S P T) (W : FPLaws E.F Num) (hi₁ : HMM.Iter.Ok E.iter₁)
    (hi₂ : HMM.Iter.Ok E.iter₂) (hA : Arrays E) (kp kt : Str) (hp : (E.nums kp).length = 24) (ht : (E.nums kt).length = 24)
    (d : String × String) (hd : d ∈ copiedSets) (name : Str) (hn : '_' ∉ name ∧ '.' ∉ name) (file : Str)
    (hfile : file = "./".toList ++ d.1.toList ++ "/features/".toList ++ name ++ '.' :: d.2.toList)
    (os : List Int) (hread : Reads E file os) (ho : ∀ o ∈ os, 0 ≤ o ∧ o < 12) (hne : os ≠ [])
    (hkey : answer E kp kt file ≠ none) :
    grepAll file = true ∧ main E (.ok (searchOptions kp kt file)) = .ub := by
  have hsplit : ∀ d ∈ copiedSets, ∃ a b pre kind, "./".toList ++ d.1.toList = '.' :: '/' :: a :: b :: '-' :: pre ++ '_' :: kind ∧
      a.isDigit = true ∧ b.isDigit = true ∧ '_' ∉ kind ∧ '.' ∉ kind ∧ 4 ≤ kind.length ∧
      ('_' ∉ d.2.toList ∧ '.' ∉ d.2.toList) ∧
      (match d.2.toList.getLast? with
        | some c => decide (c ∈ ['\\', '.', 'm', 'i', 'd', '|', 'c', 's', 'v'])
        | none => false) = true := by
    intro d hd
    simp only [copiedSets, List.mem_cons, List.not_mem_nil, or_false] at hd
    rcases hd with rfl | rfl | rfl | rfl | rfl | rfl | rfl | rfl | rfl | rfl
    · exact ⟨'0', '1', "a-maps".toList, "chroma".toList, by decide +kernel, by decide +kernel⟩
    · exact ⟨'0', '2', "a-maps".toList, "symbolic".toList, by decide +kernel, by decide +kernel⟩
    · exact ⟨'0', '3', "albrecht".toList, "chroma".toList, by decide +kernel, by decide +kernel⟩
    · exact ⟨'0', '4', "albrecht".toList, "symbolic".toList, by decide +kernel, by decide +kernel⟩
    · exact ⟨'0', '6', "arthur2018-synth-shortname".toList, "chroma".toList, by decide +kernel, by decide +kernel⟩
    · exact ⟨'0', '7', "arthur2018-synth-shortname".toList, "symbolic".toList, by decide +kernel, by decide +kernel⟩
    · exact ⟨'0', '8', "billboard".toList, "chroma".toList, by decide +kernel, by decide +kernel⟩
    · exact ⟨'0', '9', "cross-era-shortname".toList, "chroma".toList, by decide +kernel, by decide +kernel⟩
    · exact ⟨'1', '0', "giantsteps-key".toList, "chroma".toList, by decide +kernel, by decide +kernel⟩
    · exact ⟨'1', '1', "giantsteps-mtg-key".toList, "chroma".toList, by decide +kernel, by decide +kernel⟩
  obtain ⟨a, b, pre, kind, hs, ha, hb, hk1, hk2, hk3, he, hlast⟩ := hsplit d hd
  have hf : file = ('.' :: '/' :: a :: b :: '-' :: pre) ++ '_' :: (kind ++ "/features/".toList ++ name) ++ '.' :: d.2.toList := by
    rw [hfile, hs]; simp
  constructor
  · rw [hf]
    simp only [List.cons_append, grepAll, ha, hb, Bool.true_and, List.append_assoc]
    cases he : d.2.toList.getLast? with
    | none => rw [he] at hlast; cases hlast
    | some c =>
      rw [he] at hlast
      have : (pre ++ ('_' :: (kind ++ ("/features/".toList ++ (name ++ '.' :: d.2.toList))))).getLast? = some c := by
        simp [List.getLast?_append, List.getLast?_cons, he]
      rw [this]
      exact hlast
  · have hg : groundTruth file = .ok (some (Key.ofString (kind ++ "/features/".toList ++ name))) := by
      rw [hf]
      refine C38_ground_truth _ _ _ ⟨?_, ?_⟩ he
      · simp only [List.mem_append, not_or]; exact ⟨⟨hk1, by decide⟩, hn.1⟩
      · simp only [List.mem_append, not_or]; exact ⟨⟨hk2, by decide⟩, hn.2⟩
    have hnone : Spec.keyName (kind ++ "/features/".toList ++ name) = none := by
      match kind, hk3 with
      | c1 :: c2 :: c3 :: c4 :: rest, _ => exact keyName_long _ _ _ _ _
    obtain ⟨ty, hty, hr⟩ := hread
    have hwf : Detect.Config.WF (customConfig E kp kt) := by
      refine ⟨?_, ?_, ?_⟩ <;> simp [customConfig, hp, ht]
    have p1 := parse_custom E hA kp kt file hp ht ty hty (plainOptions kp kt file) rfl rfl rfl rfl
    have p2 := parse_custom E hA kp kt file hp ht ty hty (searchOptions kp kt file) rfl rfl rfl rfl
    have r1 := hr
      { filename := file, inputType := some ty, cfg := customConfig E kp kt
        justEvaluation := (plainOptions kp kt file).evaluate, justProbabilities := (plainOptions kp kt file).probabilities
        chromaOnly := (plainOptions kp kt file).chromaonly } rfl rfl rfl
    have r2 := hr
      { filename := file, inputType := some ty, cfg := customConfig E kp kt
        justEvaluation := (searchOptions kp kt file).evaluate
        justProbabilities := (searchOptions kp kt file).probabilities
        chromaOnly := (searchOptions kp kt file).chromaonly } rfl rfl rfl
    rcases Detect.detect_spec W E.iter₁ E.iter₂ hi₁ hi₂ (customConfig E kp kt) hwf os ho hne with
      ⟨h, _⟩ | ⟨_, _, _, _, k, _, _, _, _, _, hk, hd⟩
    · exfalso
      apply hkey
      unfold answer
      have : main E (.ok (plainOptions kp kt file)) = .throw .outOfRange := by simp [main, p1, r1, h]
      rw [this]
    · have hu := C38_unknown_key_violated _ k hnone (mem_keys.1 hk)
      have e2 : (searchOptions kp kt file).evaluate = true := rfl
      have e4 : (searchOptions kp kt file).probabilities = false := rfl
      rw [e2, e4] at p2 r2
      simp only [main, p2, r2, hd, printResult, Res.bind_ok, hg, hu, Bool.false_eq_true, if_false, if_true]
      rfl

/-- **C123 violated, folders.**  The last list also holds folders, and the program prints its help for them, which is no
number: 1 is added to the error of every pair, so that no pair has the error 0. -/
theorem C123_folders_violated (E : Env D S P T) (kp kt : Str) (d : String)
    (hd : d ∈ ["02-a-maps_symbolic", "04-albrecht_symbolic", "07-arthur2018-synth-shortname_symbolic",
      "13-napoles2018_symbolic"]) :
    grepAll ("./".toList ++ d.toList) = true ∧
    main E (.ok (searchOptions kp kt ("./".toList ++ d.toList))) =
      .ok { stdout := unknownMessage ++ E.help, stderr := [], code := 0 } := by
  have h1 : ∀ d ∈ ["02-a-maps_symbolic", "04-albrecht_symbolic", "07-arthur2018-synth-shortname_symbolic",
      "13-napoles2018_symbolic"], grepAll ("./".toList ++ d.toList) = true ∧
      extensionType ("./".toList ++ d.toList) = .ok none := by decide +kernel
  refine ⟨(h1 d hd).1, ?_⟩
  have ha : (searchOptions kp kt ("./".toList ++ d.toList)).args = ["./".toList ++ d.toList] := rfl
  have hc : chooseInput E (searchOptions kp kt ("./".toList ++ d.toList)) ("./".toList ++ d.toList) =
      .ok (.error { stdout := unknownMessage ++ E.help, stderr := [], code := 0 }) := by
    have : (searchOptions kp kt ("./".toList ++ d.toList)).inputformat = none := rfl
    simp only [chooseInput, this, (h1 d hd).2]
    rfl
  simp only [main, parseArgs, ha, hc, Res.bind_ok]
  rfl

/-- A world in which C123 is violated: the notes C and G in a file of the fourth data set, tables of ones. -/
example (E : Env RD S P T) : Reads (world E) "./04-albrecht_symbolic/features/waltz.mid".toList [0, 7] := by
  refine ⟨.midi, by decide +kernel, ?_⟩
  rintro p h1 h2 h3
  simp only [readInput, h2]
  rfl

/-! ### C124: the tables of tools/batch_processing.sh -/

/-- **C124 violated.**  Whatever tables tools/all_batches.sh chooses and whatever the file holds, the run behind a line of
the table is undefined: it passes `-f csv`. -/
theorem C124_batch_violated (E : Env D S P T) (transition major minor : String) (ht : transition ∈ batchTransitions)
    (hM : major ∈ batchProfiles) (hm : minor ∈ batchProfiles) (file : Str) (hjunk : E.junkInputType = none) :
    (batchOptions transition major minor file).Valid ∧
    main E (.ok (batchOptions transition major minor file)) = .ub := by
  refine ⟨⟨?_, ?_, ?_, ?_⟩, C35_format_violated E _ "csv".toList file (by decide) rfl rfl rfl rfl hjunk⟩
  · intro f hf
    cases hf
    decide
  · exact (by decide : ∀ x ∈ batchProfiles, x ∈ profileChoices) major hM
  · exact (by decide : ∀ x ∈ batchProfiles, x ∈ profileChoices) minor hm
  · exact (by decide : ∀ x ∈ batchTransitions, x ∈ transitionChoices) transition ht

/-- The same command line without `-f`. -/
def noFormat (transition major minor : String) (file : Str) : Options :=
  { Options.default file with
    keytransition := transition, majorprofile := major, minorprofile := minor, evaluate := true }

/-- **C124 (partial).**  If the bytes of the variable that is not set happen to say CSV, the table has one line per file:
its name, a comma and what the program prints for it without `-f`.  Missing: `C124_batch_violated`. -/
theorem C124_lucky_partial (E : Env D S P T) (crash : Str) (transition major minor : String) (files : List Str)
    (hfiles : ∀ f ∈ files, ∃ ext, HasExtension f ext ∧ ext.map Char.toLower = "csv".toList ∧ f.length < npos)
    (hjunk : E.junkInputType = some .csv) :
    batchTable E crash transition major minor files = files.flatMap (fun f =>
      f ++ ',' :: joinBlank (splitWs (stdoutOf crash (main E (.ok (noFormat transition major minor f))))) ++ ['\n']) := by
  unfold batchTable
  rw [List.flatMap_congr]
  intro f hf
  obtain ⟨ext, h1, h2, h3⟩ := hfiles f hf
  have c1 := (C36_extension_partial E (noFormat transition major minor f) f ext rfl h1 h3).2.1 h2
  have c2 : chooseInput E (batchOptions transition major minor f) f = .ok (.ok none) := rfl
  have a1 : (noFormat transition major minor f).args = [f] := rfl
  have a2 : (batchOptions transition major minor f).args = [f] := rfl
  have q1 : parseArgs E (.ok (noFormat transition major minor f)) = .ok (.ok
      { filename := f, inputType := some .csv
        cfg := ⟨transition, major, minor, E.junkTransition, E.junkMajor, E.junkMinor⟩
        justEvaluation := true, justProbabilities := false, chromaOnly := false }) := by
    simp only [parseArgs, a1, c1, Res.bind_ok]
    rfl
  have q2 : parseArgs E (.ok (batchOptions transition major minor f)) = .ok (.ok
      { filename := f, inputType := none
        cfg := ⟨transition, major, minor, E.junkTransition, E.junkMajor, E.junkMinor⟩
        justEvaluation := true, justProbabilities := false, chromaOnly := false }) := rfl
  have r : readInput E
      { filename := f, inputType := none
        cfg := ⟨transition, major, minor, E.junkTransition, E.junkMajor, E.junkMinor⟩
        justEvaluation := true, justProbabilities := false, chromaOnly := false } = readInput E
      { filename := f, inputType := some .csv
        cfg := ⟨transition, major, minor, E.junkTransition, E.junkMajor, E.junkMinor⟩
        justEvaluation := true, justProbabilities := false, chromaOnly := false } := by
    simp [readInput, hjunk, Res.read]
  have key : main E (.ok (batchOptions transition major minor f)) =
      main E (.ok (noFormat transition major minor f)) := by
    simp only [main, q1, q2, Res.bind_ok, r]
    rfl
  rw [key]

/-- Two files of a table. -/
example : ∀ f ∈ ["./waltz_C.csv".toList, "./my.song_f#.CSV".toList],
    ∃ ext, HasExtension f ext ∧ ext.map Char.toLower = "csv".toList ∧ f.length < npos := by
  intro f hf
  simp only [List.mem_cons, List.not_mem_nil, or_false] at hf
  rcases hf with rfl | rfl
  · exact ⟨"csv".toList, ⟨"./waltz_C".toList, by decide +kernel, by decide +kernel⟩, by decide +kernel, by decide +kernel⟩
  · exact ⟨"CSV".toList, ⟨"./my.song_f#".toList, by decide +kernel, by decide +kernel⟩, by decide +kernel, by decide +kernel⟩

end JKD.Search
