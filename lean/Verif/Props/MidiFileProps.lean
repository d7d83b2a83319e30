import Verif.Props.PassageProps
import Verif.Props.DefaultProps
/-
C135: what the program hears of a MIDI file.
-/

namespace JKD.Main

open Spec HMM RD Detect Phrases

variable {D S P T : Type}

/-! ### What does not matter -/

/-- **Specification.**  An event in which no note starts: a note off, a note on with velocity zero, a controller, a program change, a
tempo or any other meta event. -/
def Silent (ev : List Nat) : Prop := Midi.WellFormed ev ∧ Midi.sounding ev = none

/-- **Specification.**  Two tracks with the same notes in the same order, up to octaves, on any channels (instruments), with any
velocities, and with any other events between them. -/
inductive SameNotes : List (List Nat) → List (List Nat) → Prop where
  | done : SameNotes [] []
  | left {ev l l'} : Silent ev → SameNotes l l' → SameNotes (ev :: l) l'
  | right {ev l l'} : Silent ev → SameNotes l l' → SameNotes l (ev :: l')
  | note {c c' p p' v v' l l'} : c < 16 → c' < 16 → p < 128 → p' < 128 → p % 12 = p' % 12 → 0 < v → v < 128 → 0 < v' → v' < 128 →
      SameNotes l l' → SameNotes ([0x90 + c, p, v] :: l) ([0x90 + c', p', v'] :: l')

theorem note_ok {c p v : Nat} (hc : c < 16) (hp : p < 128) (hv0 : 0 < v) (hv : v < 128) :
    Midi.WellFormed [0x90 + c, p, v] ∧ Midi.sounding [0x90 + c, p, v] = some p := by
  constructor
  · refine ⟨fun b hb => ?_, 0x90 + c, [p, v], rfl, fun _ => by simp⟩
    simp only [List.mem_cons, List.not_mem_nil, or_false] at hb
    omega
  · simp only [Midi.sounding]
    rw [if_pos (by omega)]

theorem sameNotes_heard {l l' : List (List Nat)} (h : SameNotes l l') : (∀ ev ∈ l, Midi.WellFormed ev) ∧
    (∀ ev ∈ l', Midi.WellFormed ev) ∧ (l.filterMap Midi.sounding).map (· % 12) = (l'.filterMap Midi.sounding).map (· % 12) := by
  induction h with
  | done => simp
  | left hs _ ih =>
    obtain ⟨i1, i2, i3⟩ := ih
    refine ⟨?_, i2, by rw [List.filterMap_cons_none hs.2, i3]⟩
    intro e he
    rcases List.mem_cons.1 he with rfl | he
    · exact hs.1
    · exact i1 e he
  | right hs _ ih =>
    obtain ⟨i1, i2, i3⟩ := ih
    refine ⟨i1, ?_, by rw [List.filterMap_cons_none hs.2, i3]⟩
    intro e he
    rcases List.mem_cons.1 he with rfl | he
    · exact hs.1
    · exact i2 e he
  | note hc hc' hp hp' e hv0 hv hv0' hv' _ ih =>
    obtain ⟨i1, i2, i3⟩ := ih
    obtain ⟨w, s⟩ := note_ok hc hp hv0 hv
    obtain ⟨w', s'⟩ := note_ok hc' hp' hv0' hv'
    refine ⟨?_, ?_, ?_⟩
    · intro e he
      rcases List.mem_cons.1 he with rfl | he
      · exact w
      · exact i1 e he
    · intro e he
      rcases List.mem_cons.1 he with rfl | he
      · exact w'
      · exact i2 e he
    · rw [List.filterMap_cons_some s, List.filterMap_cons_some s', List.map_cons, List.map_cons, i3, e]

/-- **C135.**  Two MIDI files with the same notes up to octaves, instruments, velocities, note lengths, tempo and anything else than the
notes get the same output and exit status, with any options but `-e`, which looks at the name. -/
theorem C135_heard (E : Env D S P T) (o : Options) (hf : o.inputformat = none) (he : o.evaluate = false ∨ o.probabilities = true)
    (file file' ext ext' : Str) (hx : HasExtension file ext) (hx' : HasExtension file' ext') (hl : file.length < npos)
    (hl' : file'.length < npos) (hm : ext.map Char.toLower = "mid".toList ∨ ext.map Char.toLower = "midi".toList)
    (hm' : ext'.map Char.toLower = "mid".toList ∨ ext'.map Char.toLower = "midi".toList)
    (h : SameNotes (E.midiEvents file) (E.midiEvents file')) :
    main E (.ok { o with args := [file] }) = main E (.ok { o with args := [file'] }) := by
  obtain ⟨w, w', e⟩ := sameNotes_heard h
  have i := (C36_extension_partial E { o with args := [file] } file ext hf hx hl).2.2.1 hm
  have i' := (C36_extension_partial E { o with args := [file'] } file' ext' hf hx' hl').2.2.1 hm'
  have seq : Midi.getPitchClassSequence E.strictMidi (Midi.construct (E.midiEvents file)) =
      Midi.getPitchClassSequence E.strictMidi (Midi.construct (E.midiEvents file')) := by
    cases hs : E.strictMidi with
    | true => rw [Midi.C34_no_return_violated _ w, Midi.C34_no_return_violated _ w']
    | false =>
      rw [Midi.C34_events_partial _ w, Midi.C34_events_partial _ w']
      have := congrArg (List.map (fun p : Nat => PitchClass.ofInt (p : Nat))) e
      rw [List.map_map, List.map_map] at this
      exact congrArg Res.ok this
  simp only [Midi.construct] at seq
  have cp : chooseProfiles E { o with args := [file] } = chooseProfiles E { o with args := [file'] } := rfl
  have ct : chooseTransitions E { o with args := [file] } = chooseTransitions E { o with args := [file'] } := rfl
  simp only [main, parseArgs, i, i', Res.bind_ok, cp, ct]
  rcases chooseProfiles E { o with args := [file'] } with out | ⟨maj, min, majArr, minArr⟩
  · rfl
  · dsimp only
    rcases chooseTransitions E { o with args := [file'] } with r | _ | _
    · rcases r with out | ⟨tr, trArr⟩
      · rfl
      · simp only [Res.bind_ok, Res.pure_eq, readInput, if_true, seq, Midi.getStatus, Midi.construct, printResult]
        rcases he with he | he
        · simp only [he, Bool.false_eq_true, if_false]
          rfl
        · simp only [he, if_true]
          rfl
    · rfl
    · rfl

/-! ### What should not matter: percussion -/

/-- **Specification.**  A stroke on the percussion channel of General MIDI, channel 10, on one of its instruments. -/
def Stroke (ev : List Nat) : Prop := ∃ p v, ev = [0x99, p, v] ∧ 35 ≤ p ∧ p ≤ 81 ∧ 0 < v ∧ v < 128

/-- Drums, cymbals and toms for pitch classes. -/
def beaten (os : List Int) : List (List Nat) := os.map (fun o => [0x99, 36 + o.toNat, 100])

theorem beaten_stroke (os : List Int) (h : ∀ o ∈ os, 0 ≤ o ∧ o < 12) : ∀ ev ∈ beaten os, Stroke ev := by
  intro ev hev
  obtain ⟨o, ho, rfl⟩ := List.mem_map.1 hev
  have := h o ho
  exact ⟨36 + o.toNat, 100, rfl, by omega, by omega, by omega, by omega⟩

theorem stroke_wf {ev : List Nat} (h : Stroke ev) : Midi.WellFormed ev := by
  obtain ⟨p, v, rfl, _, h2, h3, h4⟩ := h
  exact (note_ok (c := 9) (by omega) (by omega) h3 h4).1

theorem beaten_heard (os : List Int) (h : ∀ o ∈ os, 0 ≤ o ∧ o < 12) :
    ((beaten os).filterMap Midi.sounding).map (fun p => PitchClass.ofInt ((p % 12 : Nat) : Int)) = os.map PitchClass.ofInt := by
  induction os with
  | nil => rfl
  | cons o os ih =>
    have ho := h o (by simp)
    have e : beaten (o :: os) = [0x99, 36 + o.toNat, 100] :: beaten os := rfl
    have hs : Midi.sounding [0x99, 36 + o.toNat, 100] = some (36 + o.toNat) :=
      (note_ok (c := 9) (p := 36 + o.toNat) (v := 100) (by omega) (by omega) (by omega) (by omega)).2
    rw [e, List.filterMap_cons_some hs, List.map_cons, ih (fun q hq => h q (by simp [hq])), List.map_cons]
    have : (((36 + o.toNat) % 12 : Nat) : Int) = o := by omega
    rw [this]

/-- **C135 is violated: percussion.**  The program takes strokes for notes.  Whatever the melody and the key, there is a percussion
part that makes the program print this key, with the default options. -/
theorem C135_percussion_violated {S P T : Type} {η : ℝ} (lg : ℝ → RD) (hok : LogOk lg) (hlg : LogClose η lg)
    (hη : η ≤ (2 : ℝ) ^ (-30 : ℤ)) (E : Env RD S P T) (hF : E.F = ieee lg) (hi₁ : HMM.Iter.Ok E.iter₁) (hi₂ : HMM.Iter.Ok E.iter₂)
    (hj : E.junkMajor.length = 12 ∧ E.junkMinor.length = 12 ∧ E.junkTransition.length = 24) (hs : E.strictMidi = false)
    (melody : List (List Nat)) (hw : ∀ ev ∈ melody, Midi.WellFormed ev) (hn : melody.length ≤ 50000) (K : Int) (hK : IsKey K) :
    ∃ beat : List (List Nat), (∀ ev ∈ beat, Stroke ev) ∧
      ∀ file ext, HasExtension file ext → file.length < npos →
        (ext.map Char.toLower = "mid".toList ∨ ext.map Char.toLower = "midi".toList) → E.midiEvents file = melody ++ beat →
        ∃ name : Str, noteName (name.map Char.toLower) = some (tonic K) ∧
          main E (.ok (Options.default file)) =
            .ok { stdout := name ++ '\t' :: (if Spec.isMajor K then "major".toList else "minor".toList) ++ ['\n']
                  stderr := [], code := 0 } := by
  obtain ⟨ph, hph, hlen⟩ : ∃ ph : List Nat, (ph ∈ if Spec.isMajor K then majorPhrases else minorPhrases) ∧ ph.length = 4 := by
    by_cases h : Spec.isMajor K = true
    · exact ⟨[0, 4, 7, 0], by rw [if_pos h]; decide, rfl⟩
    · exact ⟨[0, 3, 7, 0], by rw [if_neg h]; decide, rfl⟩
  have pl : ∀ n, (played K (List.replicate n ph)).length = 4 * n := by
    intro n
    simp [played, hlen, Nat.mul_comm]
  let pre : List Int := (melody.filterMap Midi.sounding).map (fun p => ((p % 12 : Nat) : Int))
  have hpre : pre.length ≤ 50000 := by
    simp only [pre, List.length_map]
    exact (List.length_filterMap_le _ _).trans hn
  let N := 2 * pre.length + 129
  let os := played K (List.replicate 16 ph ++ List.replicate N ph)
  have hos : ∀ o ∈ os, 0 ≤ o ∧ o < 12 := played_range K _
  refine ⟨beaten os, beaten_stroke os hos, fun file ext hx hl hm hev => ?_⟩
  have hin := (C36_extension_partial E (Options.default file) file ext rfl hx hl).2.2.1 hm
  have hv : (Options.default file).Valid := ⟨(by intro f hf; cases hf), (by decide : "sapp" ∈ profileChoices),
    (by decide : "sapp" ∈ profileChoices), (by decide : "exponential10" ∈ transitionChoices)⟩
  let p : Parsed RD := {
    filename := file, inputType := some .midi
    cfg := { keyTransition := "exponential10", majorKeyProfile := "sapp", minorKeyProfile := "sapp"
             customKeyTransition := E.junkTransition, majorCustomKeyProfile := E.junkMajor
             minorCustomKeyProfile := E.junkMinor }
    justEvaluation := false, justProbabilities := false, chromaOnly := false }
  have hparse : parseArgs E (.ok (Options.default file)) = .ok (.ok p) := by
    have ha : (Options.default file).args = [file] := rfl
    simp only [parseArgs, ha, hin, Res.bind_ok]
    rfl
  have hwf : ∀ ev ∈ E.midiEvents file, Midi.WellFormed ev := by
    rw [hev]
    intro ev h
    rcases List.mem_append.1 h with h | h
    · exact hw ev h
    · exact stroke_wf (beaten_stroke os hos ev h)
  have hread : readInput E p = .ok (.ok ((pre ++ played K (List.replicate 16 ph ++ List.replicate N ph ++ []) ++ []).map PitchClass.ofInt)) := by
    have := Midi.C34_events_partial (E.midiEvents file) hwf
    have hp : p.inputType = some .midi := rfl
    have hf : p.filename = file := rfl
    simp only [readInput, hp, hf, Res.bind_ok, if_true, hs, this]
    rw [if_neg (by simp [Midi.getStatus, Midi.construct]), hev, List.filterMap_append, List.map_append, beaten_heard os hos]
    simp [pre, os, Function.comp_def]
  refine C133_main lg hok hlg hη E hF hi₁ hi₂ hj (Options.default file) hv rfl rfl rfl rfl rfl rfl rfl p hparse K hK pre []
    (fun o ho => ?_) (List.replicate 16 ph) (List.replicate N ph) [] (fun q hq => ?_) (Or.inr (by simp)) (Or.inl rfl) ?_ ?_ hread
  · rw [List.append_nil] at ho
    obtain ⟨n, _, rfl⟩ := List.mem_map.1 ho
    have : n % 12 < 12 := Nat.mod_lt _ (by decide)
    omega
  · rw [List.append_nil] at hq
    have : q = ph := by
      rcases List.mem_append.1 hq with h | h <;> exact (List.mem_replicate.1 h).2
    rw [this]
    exact hph
  · simp only [List.append_nil, List.length_append, pl]
    omega
  · simp only [List.append_nil, List.length_append, played_append, pl]
    omega

/-! ### Cases -/

/-- A broken chord, and the same for another instrument, lower, with a controller and note offs. -/
example : SameNotes [[0x90, 60, 64], [0x90, 64, 64], [0x90, 67, 64]]
    [[0xc3, 40], [0x93, 48, 100], [0x83, 48, 0], [0x93, 52, 1], [0x93, 52, 0], [0x93, 43, 127]] := by
  have s1 : Silent [0xc3, 40] := ⟨⟨by decide, 0xc3, [40], rfl, by decide⟩, rfl⟩
  have s2 : Silent [0x83, 48, 0] := ⟨⟨by decide, 0x83, [48, 0], rfl, by decide⟩, rfl⟩
  have s3 : Silent [0x93, 52, 0] := ⟨⟨by decide, 0x93, [52, 0], rfl, by decide⟩, rfl⟩
  refine .right s1 (.note (c := 0) (c' := 3) ?_ ?_ ?_ ?_ ?_ ?_ ?_ ?_ ?_ (.right s2 (.note (c := 0) (c' := 3) ?_ ?_ ?_ ?_ ?_ ?_ ?_ ?_ ?_
    (.right s3 (.note (c := 0) (c' := 3) ?_ ?_ ?_ ?_ ?_ ?_ ?_ ?_ ?_ .done))))) <;> decide

end JKD.Main
