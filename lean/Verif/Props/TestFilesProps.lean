import Verif.Props.PhraseProps
import Verif.Props.MidiMoveProps
/-
C164: the test files of the repository.
-/

namespace JKD.Phrases

open Spec HMM RD Detect Main

/-! ### The files -/

/-- The 24 MIDI files `<number>_<key>.mid` of the repository, with the pitches of their note-on messages in order
(test_data/01_C.mid … test_data/24_d.mid, read byte by byte). -/
def testFiles : List (String × String × List Nat) :=
  [("01", "C", [60, 62, 64, 65, 67, 69, 71, 72]), ("02", "a", [57, 59, 60, 62, 64, 65, 68, 69]),
   ("03", "G", [55, 57, 59, 60, 62, 64, 66, 67]), ("04", "e", [64, 66, 67, 69, 71, 72, 75, 76]),
   ("05", "D", [62, 64, 66, 67, 69, 71, 73, 74]), ("06", "b", [59, 61, 62, 64, 66, 67, 70, 71]),
   ("07", "A", [57, 59, 61, 62, 64, 66, 68, 69]), ("08", "f#", [66, 68, 69, 71, 73, 74, 77, 78]),
   ("09", "E", [64, 66, 68, 69, 71, 73, 75, 76]), ("10", "c#", [61, 63, 64, 66, 68, 69, 72, 73]),
   ("11", "B", [59, 61, 63, 64, 66, 68, 70, 71]), ("12", "g#", [56, 58, 59, 61, 63, 64, 67, 68]),
   ("13", "F#", [66, 68, 70, 71, 73, 75, 77, 78]), ("14", "eb", [63, 65, 66, 68, 70, 71, 74, 75]),
   ("15", "Db", [61, 63, 65, 66, 68, 70, 72, 73]), ("16", "bb", [58, 60, 61, 63, 65, 66, 69, 70]),
   ("17", "Ab", [56, 58, 60, 61, 63, 65, 67, 68]), ("18", "f", [65, 67, 68, 70, 72, 73, 76, 77]),
   ("19", "Eb", [63, 65, 67, 68, 70, 72, 74, 75]), ("20", "c", [60, 62, 63, 65, 67, 68, 71, 72]),
   ("21", "Bb", [58, 60, 62, 63, 65, 67, 69, 70]), ("22", "g", [55, 57, 58, 60, 62, 63, 66, 67]),
   ("23", "F", [65, 67, 69, 70, 72, 74, 76, 77]), ("24", "d", [62, 64, 65, 67, 69, 70, 73, 74])]

/-- The name of such a file in the directory `dir`. -/
def testName (dir : Str) (f : String × String × List Nat) : Str := dir ++ f.1.toList ++ '_' :: f.2.1.toList ++ '.' :: "mid".toList

/-- **Specification.**  The MIDI library reads these pitches: the events are well formed and the note-on messages are these. -/
def Reads (events : List (List Nat)) (pitches : List Nat) : Prop :=
  (∀ ev ∈ events, Midi.WellFormed ev) ∧ events.filterMap Midi.sounding = pitches

/-- Pitches as pitch classes. -/
def classes (pitches : List Nat) : List Int := pitches.map (fun p : Nat => ((p % 12 : Nat) : Int))

/-- The scale of a key, up: major or harmonic minor. -/
def scaleUp (K : Int) : List Nat := if Spec.isMajor K then [0, 2, 4, 5, 7, 9, 11, 0] else [0, 2, 3, 5, 7, 8, 11, 0]

/-! ### C164 -/

/-- **C164, the files.**  Every file holds the scale of the key in its name, and every one of the 24 keys has exactly one file. -/
theorem C164_files :
    (∀ f ∈ testFiles, ∃ K, keyName f.2.1.toList = some K ∧ IsKey K ∧ classes f.2.2 = Spec.played K [scaleUp K]) ∧
    ∀ K, IsKey K → ∃! f, f ∈ testFiles ∧ keyName f.2.1.toList = some K := by
  have h : ∀ f ∈ testFiles, ∃ K ∈ keys, keyName f.2.1.toList = some K ∧ classes f.2.2 = Spec.played K [scaleUp K] := by decide +kernel
  have h2 : ∀ K ∈ keys, ∃ f ∈ testFiles, keyName f.2.1.toList = some K ∧
      ∀ g ∈ testFiles, keyName g.2.1.toList = some K → g = f := by decide +kernel
  refine ⟨fun f hf => ?_, fun K hK => ?_⟩
  · obtain ⟨K, hK, h1, h2⟩ := h f hf
    exact ⟨K, h1, mem_keys.1 hK, h2⟩
  · obtain ⟨f, hf, h1, h3⟩ := h2 K (mem_keys.2 hK)
    exact ⟨f, ⟨hf, h1⟩, fun g hg => h3 g hg.1 hg.2⟩

/-! ### A phrase that is played once -/

/-- Potentials at the end: nine tenths of the key `K`. -/
def endPot (K : Nat) : List Nat := (List.replicate 24 900).set K 1000

/-- Follows the potentials through a phrase that is played once. -/
def onceOk (maj min : List Nat) (K : Nat) : List Nat → Bool
  | [] => false
  | o :: os => force (100000000 * (play maj min o).getD K 0) (fun d => Nat.blt 0 d &&
      next (1000 * 100000000) [] d goTable (play maj min o) (fun V => walk maj min K (endPot K) V os))

theorem endPot_small (K : Nat) (i : Nat) (h : i ≠ K) : (endPot K).getD i 0 ≤ 900 := by
  unfold endPot
  simp only [List.getD_eq_getElem?_getD]
  rw [List.getElem?_set_ne (Ne.symm h)]
  by_cases hi : i < 24
  · rw [List.getElem?_replicate_of_lt hi]
    simp
  · rw [List.getElem?_eq_none (by simpa using hi)]
    simp

/-- A phrase that passes this is in the key `K` from the first note to the last. -/
theorem once_steady (cfg : Config RD) (hc : Chosen cfg) (hT : cfg.keyTransition = "exponential10") (t K : Int) (hK : IsKey K)
    (p : List Nat) (ho : ∀ o ∈ p, o < 12) (h : onceOk (majNat cfg.majorKeyProfile) (minNat cfg.minorKeyProfile) (rel t K) p = true) :
    p ≠ [] ∧ 0 < prob (book cfg) (p.map (fun x : Nat => (t + (x : Int)) % 12))
      (List.replicate (p.map (fun x : Nat => (t + (x : Int)) % 12)).length K) ∧
    ∀ ks : List Int, ks.length = (p.map (fun x : Nat => (t + (x : Int)) % 12)).length → (∀ k ∈ ks, IsKey k) →
      ks ≠ List.replicate (p.map (fun x : Nat => (t + (x : Int)) % 12)).length K →
      prob (book cfg) (p.map (fun x : Nat => (t + (x : Int)) % 12)) ks ≤ 9 / 10 * prob (book cfg) (p.map (fun x : Nat => (t + (x : Int)) % 12))
        (List.replicate (p.map (fun x : Nat => (t + (x : Int)) % 12)).length K) := by
  have hk := mem_keys.2 hK
  have hnn : NonNeg (book cfg) := (stored1 (fun _ => nan) cfg hc []).nonneg
  match p with
  | o :: os =>
    rw [onceOk, force_eq, Bool.and_eq_true] at h
    obtain ⟨hd, hn⟩ := h
    have hd : 0 < 100000000 * (play (majNat cfg.majorKeyProfile) (minNat cfg.minorKeyProfile) o).getD (rel t K) 0 :=
      Nat.le_of_ble_eq_true hd
    obtain ⟨V, h1, _, h5⟩ := step_sound hT hc t K hk o (ho o (by simp)) _ [] (by simp [backOk, colMax]) hd _ hn
    obtain ⟨h3, h4⟩ := walk_sound hT hc t K hk _ os V (fun x hx => ho x (by simp [hx])) h1
    have hW : ∀ k ∈ keys, k ≠ K → pot t (endPot (rel t K)) k ≤ 9 / 10 := by
      intro k hk' hkK
      have := endPot_small (rel t K) (rel t k) (fun e => hkK (rel_inj t hk' hk e))
      have : (((endPot (rel t K)).getD (rel t k) 0 : Nat) : ℝ) ≤ ((900 : Nat) : ℝ) := Nat.cast_le.2 this
      unfold pot
      push_cast at this
      linarith
    have hinit : ∀ k ∈ keys, (book cfg).init k = 1 / 24 := by intro k hk; simp [book, hk]
    refine ⟨by simp, ?_, ?_⟩
    · refine prob_const_pos K ?_ ?_ _ (by simp) ?_
      · rw [book_go hT t K K hk hk, go_stay _ (List.mem_range.2 (rel_lt t K))]
        norm_num
      · rw [hinit K hk]
        norm_num
      · intro q hq
        obtain ⟨x, hx, rfl⟩ := List.mem_map.1 hq
        rcases List.mem_cons.1 hx with rfl | hx
        · exact play_pos hc t K hk x (ho x (by simp)) hd
        · exact h4 x hx
    · intro ks hkl hkk hkne
      refine h3.decided hnn hW hk (fun k hk' => ?_) ks hkl (fun k hk' => mem_keys.2 (hkk k hk')) hkne
      rw [hinit k hk', hinit K hk]
      have := h5 rfl k hk'
      nlinarith

/-- A phrase that passes this gets the key `K` from the first note to the last. -/
theorem once {η : ℝ} (lg : ℝ → RD) (hok : LogOk lg) (hlg : LogClose η lg) (hη : η ≤ (2 : ℝ) ^ (-30 : ℤ)) (iter₁ iter₂ : Iter RD)
    (hi₁ : iter₁.Ok) (hi₂ : iter₂.Ok) (cfg : Config RD) (hc : Chosen cfg) (hT : cfg.keyTransition = "exponential10") (t K : Int)
    (hK : IsKey K) (p : List Nat) (ho : ∀ o ∈ p, o < 12) (hl : p.length ≤ 2 ^ 19)
    (h : onceOk (majNat cfg.majorKeyProfile) (minNat cfg.minorKeyProfile) (rel t K) p = true) :
    ∃ d, detect (ieee lg) iter₁ iter₂ cfg ((p.map (fun x : Nat => (t + (x : Int)) % 12)).map PitchClass.ofInt) = .ok (.ok d) ∧
      d.localKeys = List.replicate p.length (Key.ofInt K) ∧ d.mainKey = Key.ofInt K := by
  obtain ⟨h1, h2, h3⟩ := once_steady cfg hc hT t K hK p ho h
  have key := heard lg hok hlg hη iter₁ iter₂ hi₁ hi₂ cfg hc K hK (p.map (fun x : Nat => (t + (x : Int)) % 12))
    (by rw [List.length_map]; exact hl) (by simpa using h1) (fun x hx => by
      obtain ⟨y, _, rfl⟩ := List.mem_map.1 hx
      omega) h2 h3
  rw [List.length_map] at key
  exact key

/-! ### What is found -/

/-- The profiles with which the scales of the major keys are heard in the relative minor keys. -/
def Mixed (M m : String) : Prop := M = "krumhansl_kessler" ∧ (m = "aarden_essen" ∨ m = "sapp" ∨ m = "temperley")

instance (M m : String) : Decidable (Mixed M m) := by unfold Mixed; infer_instance

/-- The key that is found for the scale of `K`: `K` itself or the relative minor key. -/
def scaleKey (M m : String) (K : Int) : Int := if Spec.isMajor K ∧ Mixed M m then (K + 9) % 12 + 12 else K

set_option maxRecDepth 100000 in
theorem scales_ok : ∀ M ∈ profileChoices, ∀ m ∈ profileChoices,
    onceOk (majNat M) (minNat m) (if Mixed M m then 21 else 0) [0, 2, 4, 5, 7, 9, 11, 0] = true ∧
    onceOk (majNat M) (minNat m) 12 [0, 2, 3, 5, 7, 8, 11, 0] = true := by decide +kernel

theorem rel_scaleKey (M m : String) : ∀ K ∈ keys, rel (tonic K) (scaleKey M m K) =
    if Spec.isMajor K then (if Mixed M m then 21 else 0) else 12 := by
  have h : ∀ K ∈ keys, rel (tonic K) K = (if Spec.isMajor K then 0 else 12) ∧
      (Spec.isMajor K = true → rel (tonic K) ((K + 9) % 12 + 12) = 21) := by decide +kernel
  intro K hK
  obtain ⟨h1, h2⟩ := h K hK
  unfold scaleKey
  by_cases hm : Spec.isMajor K = true
  · by_cases hx : Mixed M m
    · rw [if_pos ⟨hm, hx⟩, if_pos hm, if_pos hx, h2 hm]
    · rw [if_neg (fun e => hx e.2), if_pos hm, if_neg hx, h1, if_pos hm]
  · rw [if_neg (fun e => hm e.1), if_neg hm, h1, if_neg hm]

theorem scaleKey_key (M m : String) (K : Int) (hK : IsKey K) : IsKey (scaleKey M m K) := by
  unfold scaleKey
  split
  · unfold IsKey; omega
  · exact hK

/-- What the program does with a MIDI file in which it finds the key `k`. -/
theorem midi_found {S P T : Type} (lg : ℝ → RD) (E : Env RD S P T) (hF : E.F = ieee lg) (hs : E.strictMidi = false)
    (o : Options) (hk : o.customkeyprofiles = none) (ht : o.customkeytransitions = none) (hf : o.inputformat = none)
    (hpr : o.probabilities = false) (pre name : Str) (hn : '_' ∉ name ∧ '.' ∉ name)
    (file : Str) (hfile : file = pre ++ '_' :: name ++ '.' :: "mid".toList) (hlen : file.length < npos) (pitches : List Nat)
    (hr : Reads (E.midiEvents file) pitches) (truth k : Int) (hname : keyName name = some truth) (hK : IsKey k) (d : Detection RD)
    (hd : detect (ieee lg) E.iter₁ E.iter₂
      { keyTransition := o.keytransition, majorKeyProfile := o.majorprofile, minorKeyProfile := o.minorprofile
        customKeyTransition := E.junkTransition, majorCustomKeyProfile := E.junkMajor, minorCustomKeyProfile := E.junkMinor }
      ((classes pitches).map PitchClass.ofInt) = .ok (.ok d)) (hm : d.mainKey = Key.ofInt k) :
    (∃ tonicName : Str, noteName (tonicName.map Char.toLower) = some (tonic k) ∧
      main E (.ok { o with args := [file], evaluate := false }) =
        .ok { stdout := tonicName ++ '\t' :: (if Spec.isMajor k then "major".toList else "minor".toList) ++ ['\n']
              stderr := [], code := 0 }) ∧
    main E (.ok { o with args := [file], evaluate := true }) =
      .ok { stdout := E.sh (E.F.ofRat (weight truth k)) ++ ['\n'], stderr := [], code := 0 } := by
  obtain ⟨hw, hsound⟩ := hr
  have hx : HasExtension file "mid".toList := ⟨pre ++ '_' :: name, by rw [hfile], by decide⟩
  have parse : ∀ e : Bool, parseArgs E (.ok { o with args := [file], evaluate := e }) = .ok (.ok (midiParsed { o with evaluate := e } file
      { keyTransition := o.keytransition, majorKeyProfile := o.majorprofile, minorKeyProfile := o.minorprofile
        customKeyTransition := E.junkTransition, majorCustomKeyProfile := E.junkMajor, minorCustomKeyProfile := E.junkMinor })) := by
    intro e
    have i := (C36_extension_partial E { o with args := [file], evaluate := e } file "mid".toList hf hx hlen).2.2.1 (Or.inl (by decide))
    have c1 : chooseProfiles E { o with args := [file], evaluate := e } = .ok (o.majorprofile, o.minorprofile, E.junkMajor, E.junkMinor) := by
      simp only [chooseProfiles, hk]
    have c2 : chooseTransitions E { o with args := [file], evaluate := e } = .ok (.ok (o.keytransition, E.junkTransition)) := by
      simp only [chooseTransitions, ht]
    simp only [parseArgs, i, Res.bind_ok, c1, c2]
    rfl
  have read : ∀ e cfg, readInput E (midiParsed { o with evaluate := e } file cfg) = .ok (.ok ((classes pitches).map PitchClass.ofInt)) := by
    intro e cfg
    have q := Midi.C34_events_partial _ hw
    simp only [Midi.construct] at q
    simp only [readInput, midiParsed, Res.bind_ok, if_true, Midi.getStatus, Midi.construct, hs, q, classes, ← hsound, List.map_map]
    rfl
  constructor
  · obtain ⟨nm, hl, _, hnm⟩ := C39_line k hK
    refine ⟨nm, hnm, ?_⟩
    have hmode : (if Spec.isMajor k then "major".toList else "minor".toList) =
        if k < 12 then "major".toList else "minor".toList := by
      unfold Spec.isMajor
      by_cases h : k < 12 <;> simp [h]
    simp only [main, parse, read, Res.bind_ok]
    simp only [midiParsed, hF, hd, Res.bind_ok, printResult, hpr, hm, hl, Res.pure_eq, hmode]
    rfl
  · obtain ⟨t, h1, h2⟩ := C38_file_name pre name "mid".toList hn (by decide) truth k hname hK
    rw [← hfile] at h1
    simp only [main, parse, read, Res.bind_ok]
    simp only [midiParsed, hF, hd, Res.bind_ok, printResult, hpr, hm, h1, h2, Res.pure_eq]
    rfl

section
variable {S P T : Type} {η : ℝ} (lg : ℝ → RD) (hok : LogOk lg) (hlg : LogClose η lg) (hη : η ≤ (2 : ℝ) ^ (-30 : ℤ))
    (E : Env RD S P T) (hF : E.F = ieee lg) (hi₁ : HMM.Iter.Ok E.iter₁) (hi₂ : HMM.Iter.Ok E.iter₂)
    (hj : E.junkMajor.length = 12 ∧ E.junkMinor.length = 12 ∧ E.junkTransition.length = 24) (hs : E.strictMidi = false)
    (o : Options) (ho : o.Valid) (hk : o.customkeyprofiles = none) (ht : o.customkeytransitions = none) (hf : o.inputformat = none)
    (hpr : o.probabilities = false) (hT : o.keytransition = "exponential10")
    (dir : Str) (f : String × String × List Nat) (hfm : f ∈ testFiles) (hlen : (testName dir f).length < npos)
    (hr : Reads (E.midiEvents (testName dir f)) f.2.2) (K : Int) (hname : keyName f.2.1.toList = some K)

include hok hlg hη hF hi₁ hi₂ hj hs ho hk ht hf hpr hT hfm hlen hr hname in
/-- **C164, what is found.**  With the default transitions, any profiles, any directory and whatever the hash order: the program prints
the key `scaleKey` for every test file, and its score with `-e`. -/
theorem C164_found :
    (∃ name : Str, noteName (name.map Char.toLower) = some (tonic (scaleKey o.majorprofile o.minorprofile K)) ∧
      main E (.ok { o with args := [testName dir f], evaluate := false }) =
        .ok { stdout := name ++ '\t' :: (if Spec.isMajor (scaleKey o.majorprofile o.minorprofile K) then "major".toList
                                        else "minor".toList) ++ ['\n']
              stderr := [], code := 0 }) ∧
    main E (.ok { o with args := [testName dir f], evaluate := true }) =
      .ok { stdout := E.sh (E.F.ofRat (weight K (scaleKey o.majorprofile o.minorprofile K))) ++ ['\n'], stderr := [], code := 0 } := by
  obtain ⟨K', hname', hK, hcl⟩ := C164_files.1 f hfm
  rw [hname] at hname'
  cases hname'
  have hclean : ∀ f ∈ testFiles, '_' ∉ f.2.1.toList ∧ '.' ∉ f.2.1.toList := by decide +kernel
  obtain ⟨c1, c2⟩ := scales_ok _ ho.major _ ho.minor
  obtain ⟨d, hd, _, hm⟩ := once lg hok hlg hη E.iter₁ E.iter₂ hi₁ hi₂
    { keyTransition := o.keytransition, majorKeyProfile := o.majorprofile, minorKeyProfile := o.minorprofile
      customKeyTransition := E.junkTransition, majorCustomKeyProfile := E.junkMajor, minorCustomKeyProfile := E.junkMinor }
    ⟨⟨hj.2.2, hj.1, hj.2.1⟩, ho.major, ho.minor, ho.trans⟩ hT (tonic K) (scaleKey o.majorprofile o.minorprofile K)
    (scaleKey_key _ _ K hK) (scaleUp K) (by unfold scaleUp; split <;> decide) (by unfold scaleUp; split <;> decide)
    (by
      rw [rel_scaleKey _ _ K (mem_keys.2 hK)]
      unfold scaleUp
      split
      · exact c1
      · exact c2)
  refine midi_found lg E hF hs o hk ht hf hpr (dir ++ f.1.toList) f.2.1.toList (hclean f hfm) _ rfl hlen f.2.2 hr K _ hname
    (scaleKey_key _ _ K hK) d ?_ hm
  rw [hcl]
  unfold Spec.played
  rw [List.flatten_singleton]
  exact hd

include hok hlg hη hF hi₁ hi₂ hj hs ho hk ht hf hpr hT hfm hlen hr hname in
/-- **C164 (partial).**  With the default transitions and any profiles but three pairs, every test file gets the key in its name, and
`-e` prints the score 1 for it, whatever the hash order and the directory.  Missing: `krumhansl_kessler` for major with `aarden_essen`,
`sapp` or `temperley` for minor, where it is false, and the other transitions. -/
theorem C164_test_files_partial (hp : ¬ (o.majorprofile = "krumhansl_kessler" ∧
      (o.minorprofile = "aarden_essen" ∨ o.minorprofile = "sapp" ∨ o.minorprofile = "temperley"))) :
    (∃ name : Str, noteName (name.map Char.toLower) = some (tonic K) ∧
      main E (.ok { o with args := [testName dir f], evaluate := false }) =
        .ok { stdout := name ++ '\t' :: (if Spec.isMajor K then "major".toList else "minor".toList) ++ ['\n']
              stderr := [], code := 0 }) ∧
    main E (.ok { o with args := [testName dir f], evaluate := true }) =
      .ok { stdout := E.sh (E.F.ofRat 1) ++ ['\n'], stderr := [], code := 0 } := by
  have key := C164_found lg hok hlg hη E hF hi₁ hi₂ hj hs o ho hk ht hf hpr hT dir f hfm hlen hr K hname
  have hK := Key.keyName_range hname
  have hw : ∀ k ∈ keys, weight k k = 1 := by decide +kernel
  have e : scaleKey o.majorprofile o.minorprofile K = K := if_neg (fun h => hp h.2)
  rw [e, hw K (mem_keys.2 hK)] at key
  exact key

include hok hlg hη hF hi₁ hi₂ hj hs ho hk ht hf hpr hT hfm hlen hr hname in
/-- **C164 violated.**  With `krumhansl_kessler` for major and `aarden_essen`, `sapp` or `temperley` for minor, every test file in a
major key gets the relative minor key, and `-e` prints 0.3 for it. -/
theorem C164_profiles_violated (hM : o.majorprofile = "krumhansl_kessler")
    (hm : o.minorprofile = "aarden_essen" ∨ o.minorprofile = "sapp" ∨ o.minorprofile = "temperley") (hmaj : Spec.isMajor K = true) :
    (∃ name : Str, noteName (name.map Char.toLower) = some ((tonic K + 9) % 12) ∧
      main E (.ok { o with args := [testName dir f], evaluate := false }) =
        .ok { stdout := name ++ '\t' :: "minor".toList ++ ['\n'], stderr := [], code := 0 }) ∧
    main E (.ok { o with args := [testName dir f], evaluate := true }) =
      .ok { stdout := E.sh (E.F.ofRat (3 / 10)) ++ ['\n'], stderr := [], code := 0 } := by
  have key := C164_found lg hok hlg hη E hF hi₁ hi₂ hj hs o ho hk ht hf hpr hT dir f hfm hlen hr K hname
  have hK := Key.keyName_range hname
  have hrel : ∀ k ∈ keys, Spec.isMajor k = true → weight k ((k + 9) % 12 + 12) = 3 / 10 ∧
      tonic ((k + 9) % 12 + 12) = (tonic k + 9) % 12 ∧ Spec.isMajor ((k + 9) % 12 + 12) = false := by decide +kernel
  obtain ⟨r3, r4, r5⟩ := hrel K (mem_keys.2 hK) hmaj
  have e : scaleKey o.majorprofile o.minorprofile K = (K + 9) % 12 + 12 := if_pos ⟨hmaj, hM, hm⟩
  rw [e, r3, r4, r5] at key
  exact key

end

/-! ### Cases -/

/-- The note-on and note-off messages of `20_c.mid`. -/
example : Reads ([60, 62, 63, 65, 67, 68, 71, 72].flatMap fun p => [[0x90, p, 80], [0x90, p, 0]]) [60, 62, 63, 65, 67, 68, 71, 72] := by
  unfold Reads Midi.WellFormed
  refine ⟨?_, by decide⟩
  intro ev hev
  have h : ∀ ev ∈ [60, 62, 63, 65, 67, 68, 71, 72].flatMap (fun p => [[0x90, p, 80], [0x90, p, 0]]),
      (∀ b ∈ ev, b < 256) ∧ ev.length = 3 := by decide
  obtain ⟨h1, h2⟩ := h ev hev
  refine ⟨h1, ?_⟩
  match ev, h2 with
  | [a, b, c], _ => exact ⟨a, [b, c], rfl, fun _ => by simp⟩

example : testName "test_data/".toList ("20", "c", [60, 62, 63, 65, 67, 68, 71, 72]) = "test_data/20_c.mid".toList ∧
    ("20", "c", [60, 62, 63, 65, 67, 68, 71, 72]) ∈ testFiles := by decide +kernel

/-- There are twelve files in major keys, to which `C164_profiles_violated` applies. -/
example : (testFiles.filter fun f => (keyName f.2.1.toList).any Spec.isMajor).length = 12 := by decide +kernel

end JKD.Phrases
