import Verif.Props.ScriptProps
import Verif.Props.AugmentProps
import Verif.Props.DefaultProps
/-
C112 for IEEE doubles; C113: what the classifier sees, from the music to the row; C114: the whole method on transposed
music.
-/

namespace JKD.Script

open Py Main Spec Detect

variable {D S P T K : Type}

/-! ### C112: every MIDI file -/

/-- **C112 violated, every MIDI file, IEEE-754 doubles.**  The full algorithm gives one and the same answer for all
MIDI files with at least one sounding note. -/
theorem C112_every_midi_violated [Field K] [LinearOrder K] [IsStrictOrderedRing K] (lg : ℝ → RD) (hlg : RD.LogOk lg)
    (E : Env RD S P T) (hF : E.F = RD.ieee lg) (hi₁ : HMM.Iter.Ok E.iter₁) (hi₂ : HMM.Iter.Ok E.iter₂) (crash : Str)
    (fmt : K → Str) (toFloat : Str → Option K) (kt : Store K) (tiny : K → Bool) (kp : Store K) (predict : List K → Int)
    (random : Str) (hrandom : Random random) (hT : Tables E fmt kt kp) (penalty : K)
    (hpen : toFloat "-1000000".toList = some penalty) (hs : NoNumber E.stof) (hmidi : E.strictMidi = false)
    (input ext : Str) (hext : HasExtension ("/vagrant/".toList ++ input) ext)
    (hme : ext.map Char.toLower = "mid".toList ∨ ext.map Char.toLower = "midi".toList)
    (hlen : ("/vagrant/".toList ++ input).length < npos)
    (hwf : ∀ ev ∈ E.midiEvents ("/vagrant/".toList ++ input), Midi.WellFormed ev)
    (hsound : ∃ ev ∈ E.midiEvents ("/vagrant/".toList ++ input), Midi.sounding ev ≠ none) :
    script E crash fmt toFloat kt tiny kp predict random input = .ok (keyName (predict (List.replicate 720 (-1)))) := by
  obtain ⟨k, line, hk, hl, hm⟩ := C40_midi lg hlg E hF hi₁ hi₂ ⟨hT.major, hT.minor, hT.transition⟩ hmidi _ ext hext hlen hme
    hwf hsound
  exact C112_midi_violated E crash fmt toFloat kt tiny kp predict random hrandom hT penalty hpen hs input ext hext hme hlen
    _ k hk hm hl

/-! ### C113: the numbers the ensemble sees -/

/-- The program reads the pitch classes `os` from a file, whatever the other options. -/
def Reads (E : Env D S P T) (file : Str) (os : List Int) : Prop :=
  ∃ ty, extensionType file = .ok (some ty) ∧ ∀ p : Parsed D, p.filename = file → p.inputType = some ty →
    p.chromaOnly = false → readInput E p = .ok (.ok (os.map PitchClass.ofInt))

/-- Numbers are printed without blanks, and Python's `float` reads them (`read`). -/
structure Readable (E : Env D S P T) (toFloat : Str → Option K) (read : D → K) : Prop where
  word : ∀ v, E.sh v ≠ [] ∧ ∀ c ∈ E.sh v, Py.isSpace c = false
  float : ∀ v, toFloat (E.sh v) = some (read v)

/-- The members in the order of the ensemble: the transitions move fastest. -/
def members (E : Env D S P T) (fmt : K → Str) (kt kp : Store K) : List (Config D) :=
  scriptProfiles.flatMap (fun p => scriptTransitions.map (fun t => memberConfig E fmt kt kp p t))

/-- The contribution of a member: the 24 scores of its run, or 24 penalties if it finds no key. -/
def contribution (E : Env D S P T) (read : D → K) (penalty : K) (os : List Int) (cfg : Config D) : List K :=
  match detect E.F E.iter₁ E.iter₂ cfg (os.map PitchClass.ofInt) with
  | .ok (.ok d) => d.probabilities.map read
  | _ => List.replicate 24 penalty

theorem floats_map (toFloat : Str → Option K) (sh : D → Str) (read : D → K) (h : ∀ v, toFloat (sh v) = some (read v))
    (l : List D) : floats toFloat (l.map sh) = .ok (l.map read) := by
  induction l with
  | nil => rfl
  | cons v l ih =>
    rw [List.map_cons, floats, h v]
    simp only [ih]
    rfl

theorem floats_penalty (toFloat : Str → Option K) (penalty : K) (h : toFloat "-1000000".toList = some penalty) (n : Nat) :
    floats toFloat (List.replicate n "-1000000".toList) = .ok (List.replicate n penalty) := by
  induction n with
  | zero => rfl
  | succ n ih =>
    rw [List.replicate_succ, floats, h, List.replicate_succ]
    simp only [ih]
    rfl

theorem mapPy_map {α β : Type} (f : α → PyRes β) (g : α → β) (l : List α) (h : ∀ a ∈ l, f a = .ok (g a)) :
    mapPy f l = .ok (l.map g) := by
  induction l with
  | nil => rfl
  | cons a l ih =>
    unfold mapPy
    rw [h a (by simp), ih (fun a ha => h a (by simp [ha]))]
    rfl

section
variable {Num : D → Prop} (E : Env D S P T) (W : FPLaws E.F Num) (hi₁ : HMM.Iter.Ok E.iter₁) (hi₂ : HMM.Iter.Ok E.iter₂)
  (crash : Str) (fmt : K → Str) (toFloat : Str → Option K) (kt : Store K) (kp : Store K) (hT : Tables E fmt kt kp)
  (penalty : K) (hpen : toFloat "-1000000".toList = some penalty) (read : D → K) (hr : Readable E toFloat read)
include W hi₁ hi₂ hT hpen hr

/-- One member. -/
theorem member_row (file : Str) (os : List Int) (ho : ∀ o ∈ os, 0 ≤ o ∧ o < 12) (hne : os ≠ []) (hfile : Reads E file os)
    (p t : Str) (hp : p ∈ scriptProfiles) (ht : t ∈ scriptTransitions) :
    runKeydetection (programRunner E crash fmt toFloat kt) kp file (some p, t) =
      .ok (contribution E read penalty os (memberConfig E fmt kt kp p t)) := by
  obtain ⟨ty, hty, hread⟩ := hfile
  have hparse := parse_member E fmt kt kp hT p t file hp ht ty hty
  have hrd := hread
    { filename := file, inputType := some ty, cfg := memberConfig E fmt kt kp p t, justEvaluation := false
      justProbabilities := true, chromaOnly := false } rfl rfl rfl
  have hwf := member_wf E fmt kt kp hT p t hp ht
  have hfl := floats_penalty toFloat penalty hpen 24
  rcases detect_spec W E.iter₁ E.iter₂ hi₁ hi₂ _ hwf os ho hne with ⟨h, -⟩ | ⟨p1, h1, p2, h2, k, -, -, -, R2, -, -, hd⟩
  · have hm : main E (.ok (memberOptions (tableText fmt (kp p)) (tableText fmt (kt t)) file)) = .throw .outOfRange := by
      simp [main, hparse, hrd, h]
    have hout : (programRunner E crash fmt toFloat kt).output file (kp p) (kt t) = [] := by
      simp only [programRunner, hm, stdoutOf]
      decide
    unfold contribution
    rw [h]
    unfold runKeydetection
    have hk : (programRunner E crash fmt toFloat kt).kt t = kt t := rfl
    simp only [Option.bind_some, hk, hout, List.length_nil]
    exact hfl
  · have hm : main E (.ok (memberOptions (tableText fmt (kp p)) (tableText fmt (kt t)) file)) =
        .ok { stdout := h2.probVec.flatMap (fun x => E.sh x ++ [' ']) ++ ['\n'], stderr := [], code := 0 } := by
      simp [main, hparse, hrd, hd, printResult]
    have hout : (programRunner E crash fmt toFloat kt).output file (kp p) (kt t) = h2.probVec.map E.sh := by
      simp only [programRunner, hm, stdoutOf]
      rw [← splitWs_join (h2.probVec.map E.sh)
        (by intro w hw; obtain ⟨x, _, rfl⟩ := List.mem_map.1 hw; exact hr.word x), List.flatMap_map]
    have hl : h2.probVec.length = 24 := R2.vecLen
    unfold contribution
    rw [hd]
    unfold runKeydetection
    have hk : (programRunner E crash fmt toFloat kt).kt t = kt t := rfl
    simp only [Option.bind_some, hk, hout, List.length_map, hl, ne_eq, not_true_eq_false, if_false]
    exact floats_map toFloat E.sh read hr.float _

/-- **C113.**  Any file with at least one pitch class: the 720 numbers that the ensemble makes of it are, in this
order, for every profile and every transition table the 24 scores of the detection with these tables, read back from
print - and 24 penalties for a member that finds no key. -/
theorem C113_features (file : Str) (os : List Int) (ho : ∀ o ∈ os, 0 ≤ o ∧ o < 12) (hne : os ≠ [])
    (hfile : Reads E file os) :
    evaluateFlat (programRunner E crash fmt toFloat kt) kp (Ensembler.new scriptProfiles scriptTransitions) file false =
      .ok ((members E fmt kt kp).flatMap (contribution E read penalty os)) := by
  have hm : ∀ m ∈ product (scriptProfiles.map some) scriptTransitions,
      runKeydetection (programRunner E crash fmt toFloat kt) kp file m =
        .ok ((fun m : Member => contribution E read penalty os (memberConfig E fmt kt kp (m.1.getD []) m.2)) m) := by
    rintro ⟨a, t⟩ hm
    obtain ⟨ha, ht⟩ := mem_product _ _ _ hm
    obtain ⟨p, hp, rfl⟩ := List.mem_map.1 ha
    exact member_row E W hi₁ hi₂ crash fmt toFloat kt kp hT penalty hpen read hr file os ho hne hfile p t hp ht
  rw [evaluateFlat_eq, mapPy_map _ _ _ hm, PyRes.bind_ok]
  congr 1

variable (hz : ZeroKills E.F)
include hz

/-- Moving the music moves the features. -/
theorem features_moved (file file' : Str) (t : Nat) (os : List Int) (ho : ∀ o ∈ os, 0 ≤ o ∧ o < 12) (hne : os ≠ [])
    (hfile : Reads E file os) (hfile' : Reads E file' (os.map (transposePc t)))
    (hdec : ∀ cfg ∈ members E fmt kt kp, Decided E.F os cfg) :
    ∃ x x', evaluateFlat (programRunner E crash fmt toFloat kt) kp (Ensembler.new scriptProfiles scriptTransitions) file false =
        .ok x ∧
      evaluateFlat (programRunner E crash fmt toFloat kt) kp (Ensembler.new scriptProfiles scriptTransitions) file' false =
        .ok x' ∧ x.length = 720 ∧ Moved t x x' := by
  have ho' : ∀ o ∈ os.map (transposePc (t : Int)), 0 ≤ o ∧ o < 12 := by
    intro o hom
    obtain ⟨x, _, rfl⟩ := List.mem_map.1 hom
    exact mem_pcs.1 (transposePc_mem _)
  have key : ∀ cfgs : List (Config D), (∀ cfg ∈ cfgs, Decided E.F os cfg) →
      (cfgs.flatMap (contribution E read penalty os)).length = 24 * cfgs.length ∧
      Moved t (cfgs.flatMap (contribution E read penalty os))
        (cfgs.flatMap (contribution E read penalty (os.map (transposePc t)))) := by
    intro cfgs hc
    induction cfgs with
    | nil => exact ⟨rfl, moved_nil t⟩
    | cons cfg cfgs ih =>
      obtain ⟨i1, i2⟩ := ih (fun c h => hc c (by simp [h]))
      obtain ⟨d, d', e, e', l, m⟩ := member_moved W hz E.iter₁ E.iter₂ E.iter₁ E.iter₂ hi₁ hi₂ hi₁ hi₂ cfg t os ho hne
        (hc cfg (by simp))
      have c1 : contribution E read penalty os cfg = d.probabilities.map read := by unfold contribution; rw [e]
      have c2 : contribution E read penalty (os.map (transposePc t)) cfg = d'.probabilities.map read := by
        unfold contribution; rw [e']
      rw [List.flatMap_cons, List.flatMap_cons, c1, c2]
      refine ⟨?_, moved_append (n := 2) (by rw [List.length_map]; omega) (moved_map read m) i2⟩
      rw [List.length_append, List.length_map, i1, l, List.length_cons]
      omega
  obtain ⟨k1, k2⟩ := key _ hdec
  refine ⟨_, _, C113_features E W hi₁ hi₂ crash fmt toFloat kt kp hT penalty hpen read hr file os ho hne hfile,
    C113_features E W hi₁ hi₂ crash fmt toFloat kt kp hT penalty hpen read hr file' _ ho' (by simpa using hne) hfile', ?_, k2⟩
  rw [k1]
  rfl

variable [Field K] [LinearOrder K] [IsStrictOrderedRing K]

/-- **C114, rows.**  A file and a transposed version of it, in any two formats: if no member of the ensemble is
undecided about the first, the row handed to the classifier for the second is the row for the first, moved. -/
theorem C114_row_moved (tiny : K → Bool) (file file' : Str) (t : Nat) (os : List Int) (ho : ∀ o ∈ os, 0 ≤ o ∧ o < 12)
    (hne : os ≠ []) (hfile : Reads E file os) (hfile' : Reads E file' (os.map (transposePc t)))
    (hdec : ∀ cfg ∈ members E fmt kt kp, Decided E.F os cfg) :
    ∃ row row', scriptRow (programRunner E crash fmt toFloat kt) tiny kp file = .ok [row] ∧
      scriptRow (programRunner E crash fmt toFloat kt) tiny kp file' = .ok [row'] ∧ Moved t row row' := by
  obtain ⟨x, x', e, e', l, m⟩ := features_moved E W hi₁ hi₂ crash fmt toFloat kt kp hT penalty hpen read hr hz file file' t os
    ho hne hfile hfile' hdec
  obtain ⟨y, y', s, s', m'⟩ := C59_commutes tiny 30 (by decide) t x x' l m
  refine ⟨y, y', ?_, ?_, m'⟩
  · unfold scriptRow
    rw [e, PyRes.bind_ok, s]
  · unfold scriptRow
    rw [e', PyRes.bind_ok, s']

/-- **C114.**  The classifier was fitted to any folders of annotated music and answers its training rows with their
labels.  Then for every transposed version of a piece of these folders, in any format, the ensemble script prints the
transposed key - provided that no member of the ensemble is undecided about the piece. -/
theorem C114_transposed_music (tiny : K → Bool) (dir : List (Str × Content K)) (Fs : List Folder)
    (hR : Numeric (programRunner E crash fmt toFloat kt) penalty)
    (h : ∀ F ∈ Fs, F.Good ∧ F.In (programRunner E crash fmt toFloat kt) kp dir) (predict : List K → Int)
    (hfit : ∀ X y, trainingSet tiny (Fs.map (fun F => loadDataset F.name dir)) = .ok (X, y) →
      ∀ (i : Nat) (x : List K) (l : Int), X[i]? = some x → y[i]? = some l → predict x = l)
    (F : Folder) (hF : F ∈ Fs) (b : Str) (hb : b ∈ F.bases) (file' : Str) (t : Nat) (ht : t < 12) (os : List Int)
    (ho : ∀ o ∈ os, 0 ≤ o ∧ o < 12) (hne : os ≠ []) (hfile : Reads E (F.file b) os)
    (hfile' : Reads E file' (os.map (transposePc t))) (hdec : ∀ cfg ∈ members E fmt kt kp, Decided E.F os cfg) :
    scriptMain (programRunner E crash fmt toFloat kt) tiny kp predict file' =
      .ok (keyName (transposeKey t (parseLabel (F.line b)))) := by
  obtain ⟨X, y, h1, -, -, h4⟩ := C107_same_row _ penalty hR kp tiny dir Fs (List.ne_nil_of_mem hF) h
  have hmem : (F, b) ∈ allPieces Fs := List.mem_flatMap.2 ⟨F, hF, List.mem_map.2 ⟨b, hb, rfl⟩⟩
  obtain ⟨m, hm⟩ := List.mem_iff_getElem?.1 hmem
  obtain ⟨row, e1, hl, -, -, hall⟩ := h4 m F b hm
  obtain ⟨hy, row', hx, hmv⟩ := hall t ht
  obtain ⟨r, r', s1, s2, hmv'⟩ := C114_row_moved E W hi₁ hi₂ crash fmt toFloat kt kp hT penalty hpen read hr hz tiny
    (F.file b) file' t os ho hne hfile hfile' hdec
  rw [e1] at s1
  cases s1
  obtain rfl := Moved.unique (n := 60) (by rw [hl]) hmv hmv'
  unfold scriptMain
  rw [s2, PyRes.bind_ok]
  simp only [List.headD_cons]
  rw [hfit X y h1 _ _ _ hx hy]
  rfl

end

/-! ### Examples -/

/-- Two MIDI files, a C and a G. -/
def noteEvents (f : Str) : List (List Nat) := if f = "/vagrant/G.mid".toList then [[0x90, 67, 64]] else [[0x90, 60, 64]]

/-- Profiles in which only the tonic of a major key is ever played, and the default transitions. -/
noncomputable def letterNums (s : Str) : List RD :=
  if s = ['P'] then .fin 1 :: List.replicate 23 (.fin 0) else KeyTransition.exponential10.map RD.exact.ofRat

/-- Only some letters are no numbers. -/
noncomputable def letterStof : Str → Res RD
  | c :: _ => if c ∈ ['A', 'B', 'C', 'D', 'E', 'F', 'G'] then .throw .invalidArgument else .ok (.fin 0)
  | [] => .throw .invalidArgument

/-- A world with these two files. -/
noncomputable def twoNotes (F : FPU RD) (E : Env RD S P T) : Env RD S P T :=
  { E with
    F := F, iter₁ := id, iter₂ := id, strictMidi := false, midiEvents := noteEvents, nums := letterNums, stof := letterStof
    sh := fun _ => ['0'], junkMajor := List.replicate 12 (.fin 0), junkMinor := List.replicate 12 (.fin 0)
    junkTransition := List.replicate 24 (.fin 0) }

/-- Profiles are written `P`, transitions `T`. -/
def letter (q : ℚ) : Str := if q = 1 then ['P'] else ['T']

theorem letter_texts : tableText letter (some [1]) = ['P'] ∧ tableText letter (some [2]) = ['T'] := by decide +kernel

theorem letter_P : letterNums ['P'] = .fin 1 :: List.replicate 23 (.fin 0) := if_pos rfl

theorem letter_T : letterNums ['T'] = KeyTransition.exponential10.map RD.exact.ofRat := if_neg (by decide)

theorem twoNotes_tables (F : FPU RD) (E : Env RD S P T) :
    Tables (twoNotes F E) letter (fun _ => some [2]) (fun _ => some [1]) where
  major := List.length_replicate
  minor := List.length_replicate
  transition := List.length_replicate
  profiles := by
    intro p _
    rw [letter_texts.1]
    change (letterNums ['P']).length = 24
    rw [letter_P, List.length_cons, List.length_replicate]
  transitions := by
    intro p _
    rw [letter_texts.2]
    change (letterNums ['T']).length = 24
    rw [letter_T, List.length_map]
    decide +kernel

theorem note_C : noteEvents "/vagrant/C.mid".toList = [[0x90, 60, 64]] := by decide
theorem note_G : noteEvents "/vagrant/G.mid".toList = [[0x90, 67, 64]] := by decide

theorem twoNotes_reads (F : FPU RD) (E : Env RD S P T) : Reads (twoNotes F E) "/vagrant/C.mid".toList [0] ∧
    Reads (twoNotes F E) "/vagrant/G.mid".toList [7] := by
  have key : ∀ (file : Str) (n : Nat), noteEvents file = [[0x90, n, 64]] → 12 ≤ n → n < 128 →
      extensionType file = .ok (some .midi) → Reads (twoNotes F E) file [((n % 12 : Nat) : Int)] := by
    intro file n hev h1 h2 hext
    refine ⟨.midi, hext, ?_⟩
    intro p hp1 hp2 _
    have hE : (twoNotes F E).midiEvents = noteEvents := rfl
    have hs : (twoNotes F E).strictMidi = false := rfl
    have := Midi.C34_events_partial [[0x90, n, 64]] (by intro ev hev; rw [List.mem_singleton.1 hev]; unfold Midi.WellFormed; simp; omega)
    simp only [readInput, hp1, hp2, hE, hev, Res.bind_ok, if_true, hs, this]
    rw [if_neg (by simp [Midi.getStatus, Midi.construct])]
    rfl
  exact ⟨key _ 60 note_C (by decide) (by decide) (by decide +kernel), key _ 67 note_G (by decide) (by decide) (by decide +kernel)⟩

/-- The members of this ensemble are decided about the single C. -/
theorem twoNotes_decided (E : Env RD S P T) :
    ∀ cfg ∈ members (twoNotes RD.exact E) letter (fun _ => some [2]) (fun _ => some [1]), Decided RD.exact [0] cfg := by
  intro cfg hcfg
  obtain ⟨p, hp, hcfg⟩ := List.mem_flatMap.1 hcfg
  obtain ⟨t, ht, rfl⟩ := List.mem_map.1 hcfg
  have hc : memberConfig (twoNotes RD.exact E) letter (fun _ => some [2]) (fun _ => some [1]) p t =
      ⟨"custom", "custom", "custom", KeyTransition.exponential10.map RD.exact.ofRat, .fin 1 :: List.replicate 11 (.fin 0),
        List.replicate 12 (.fin 0)⟩ := by
    unfold memberConfig
    have hE : (twoNotes RD.exact E).nums = letterNums := rfl
    rw [hE, letter_texts.1, letter_texts.2, letter_P, letter_T, List.take_succ_cons, List.drop_succ_cons,
      List.take_replicate, List.drop_replicate]
    rfl
  obtain ⟨-, ls, hu, hposs⟩ := tonicOnly_decided
  refine ⟨member_wf _ _ _ _ (twoNotes_tables RD.exact E) p t hp ht, ls, ?_, ?_⟩
  · rw [hc]
    exact hu
  · rw [hc]
    exact hposs

/-- The row of the G is the row of the C, moved up a fifth. -/
example (E : Env RD S P T) (crash : Str) : ∃ row row',
    scriptRow (programRunner (twoNotes RD.exact E) crash letter (fun _ => some (0 : ℚ)) (fun _ => some [2]))
      (fun r => decide (r = 0)) (fun _ => some [1]) "/vagrant/C.mid".toList = .ok [row] ∧
    scriptRow (programRunner (twoNotes RD.exact E) crash letter (fun _ => some (0 : ℚ)) (fun _ => some [2]))
      (fun r => decide (r = 0)) (fun _ => some [1]) "/vagrant/G.mid".toList = .ok [row'] ∧ Moved 7 row row' := by
  have hw : Readable (twoNotes RD.exact E) (fun _ => some (0 : ℚ)) (fun _ => 0) :=
    ⟨fun _ => ⟨List.cons_ne_nil _ _, fun c hc => by rw [List.mem_singleton.1 hc]; decide⟩, fun _ => rfl⟩
  refine C114_row_moved (twoNotes RD.exact E) (RD.laws RD.exactRounding (fun r => .fin (Real.logb 10 r)))
    (fun L => List.Perm.refl L) (fun L => List.Perm.refl L) crash letter _ _ _ (twoNotes_tables RD.exact E) 0 rfl (fun _ => 0)
    hw exact_zeroKills _ _ _ 7 [0] ?_ (List.cons_ne_nil _ _) (twoNotes_reads RD.exact E).1 (twoNotes_reads RD.exact E).2
    (twoNotes_decided E)
  intro o ho
  rw [List.mem_singleton.1 ho]
  decide

/-- The shell script cannot tell the two files apart, whatever the classifier. -/
example (E : Env RD S P T) (lg : ℝ → RD) (hlg : RD.LogOk lg) (crash : Str) (predict : List ℚ → Int) (tiny : ℚ → Bool) :
    script (twoNotes (RD.ieee lg) E) crash letter (fun _ => some (0 : ℚ)) (fun _ => some [2]) tiny
      (fun _ => some [1]) predict "0123456789".toList "C.mid".toList =
    script (twoNotes (RD.ieee lg) E) crash letter (fun _ => some (0 : ℚ)) (fun _ => some [2]) tiny
      (fun _ => some [1]) predict "0123456789".toList "G.mid".toList := by
  have hs : NoNumber (twoNotes (RD.ieee lg) E).stof := by
    intro c hc s
    exact ⟨.invalidArgument, if_pos hc⟩
  have hr : Random "0123456789".toList := ⟨by decide, by decide⟩
  have key : ∀ (input : Str) (n : Nat), HasExtension ("/vagrant/".toList ++ input) "mid".toList →
      ("/vagrant/".toList ++ input).length < npos → noteEvents ("/vagrant/".toList ++ input) = [[0x90, n, 64]] → 12 ≤ n →
      n < 128 → script (twoNotes (RD.ieee lg) E) crash letter (fun _ => some (0 : ℚ)) (fun _ => some [2]) tiny
        (fun _ => some [1]) predict "0123456789".toList input = .ok (keyName (predict (List.replicate 720 (-1)))) := by
    intro input n hext hlen hev h1 h2
    refine C112_every_midi_violated lg hlg _ rfl (fun L => List.Perm.refl L) (fun L => List.Perm.refl L) crash letter _ _ tiny _
      predict _ hr (twoNotes_tables (RD.ieee lg) E) 0 rfl hs rfl input _ hext (Or.inl (by decide)) hlen ?_ ?_
    · intro ev h
      change ev ∈ noteEvents _ at h
      rw [hev] at h
      rw [List.mem_singleton.1 h]
      unfold Midi.WellFormed
      simp
      omega
    · refine ⟨[0x90, n, 64], ?_, ?_⟩
      · change _ ∈ noteEvents _
        rw [hev]
        exact List.mem_singleton.2 rfl
      · simp [Midi.sounding]
  rw [key "C.mid".toList 60 ⟨"/vagrant/C".toList, by decide, by decide⟩ (by decide) (by decide) (by decide) (by decide),
    key "G.mid".toList 67 ⟨"/vagrant/G".toList, by decide, by decide⟩ (by decide) (by decide) (by decide) (by decide)]

end JKD.Script
