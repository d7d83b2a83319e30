import Verif.Props.TestFilesProps
import Verif.Props.RepeatProps
/-
C169: tunes that everybody knows.
-/

namespace JKD.Phrases

open Spec HMM RD Detect Main

/-! ### Specification -/

/-- "Twinkle, twinkle, little star", in semitones above its tonic. -/
def twinkle : List Nat :=
  [0, 0, 7, 7, 9, 9, 7, 5, 5, 4, 4, 2, 2, 0, 7, 7, 5, 5, 4, 4, 2, 7, 7, 5, 5, 4, 4, 2, 0, 0, 7, 7, 9, 9, 7, 5, 5, 4, 4, 2, 2, 0]

/-- "Frère Jacques". -/
def jacques : List Nat := [0, 2, 4, 0, 0, 2, 4, 0, 4, 5, 7, 4, 5, 7, 7, 9, 7, 5, 4, 0, 7, 9, 7, 5, 4, 0, 0, 7, 0, 0, 7, 0]

/-- "Happy birthday". -/
def birthday : List Nat := [7, 7, 9, 7, 0, 11, 7, 7, 9, 7, 2, 0, 7, 7, 7, 4, 0, 11, 9, 5, 5, 4, 0, 2, 0]

/-- "London bridge". -/
def london : List Nat := [7, 9, 7, 5, 4, 5, 7, 2, 4, 5, 4, 5, 7, 7, 9, 7, 5, 4, 5, 7, 2, 7, 4, 0]

/-- "Hänschen klein". -/
def haenschen : List Nat := [7, 4, 4, 5, 2, 2, 0, 2, 4, 5, 7, 7, 7, 7, 4, 4, 5, 2, 2, 0, 4, 7, 7, 0]

/-- "Alle meine Entchen". -/
def entchen : List Nat := [0, 2, 4, 5, 7, 7, 9, 9, 9, 9, 7, 9, 9, 9, 9, 7, 5, 5, 5, 5, 4, 4, 2, 2, 2, 2, 0]

/-- "Mary had a little lamb". -/
def mary : List Nat := [4, 2, 0, 2, 4, 4, 4, 2, 2, 2, 4, 7, 7, 4, 2, 0, 2, 4, 4, 4, 4, 2, 2, 4, 2, 0]

/-- The first half of the chorus of "Jingle bells". -/
def jingle : List Nat := [4, 4, 4, 4, 4, 4, 4, 7, 0, 2, 4, 5, 5, 5, 5, 5, 4, 4, 4, 4, 2, 2, 4, 2, 7]

/-- A tune on the tonic `t`. -/
def sung (t : Int) (p : List Nat) : List Int := p.map (fun x : Nat => (t + (x : Int)) % 12)

/-- The tunes whose keys are found. -/
def tunes : List (List Nat) := [twinkle, jacques, birthday, london, haenschen]

/-- `justkeydding file` prints the key `K`: a name of its tonic, a tab and its mode, and ends with 0. -/
def Prints {S P T : Type} (E : Env RD S P T) (file : Str) (K : Int) : Prop :=
  ∃ name : Str, noteName (name.map Char.toLower) = some (tonic K) ∧
    main E (.ok (Options.default file)) =
      .ok { stdout := name ++ '\t' :: (if Spec.isMajor K then "major".toList else "minor".toList) ++ ['\n'], stderr := [], code := 0 }

/-- `justkeydding -e file` prints the score `w` and ends with 0. -/
def Scores {S P T : Type} (E : Env RD S P T) (file : Str) (w : Rat) : Prop :=
  main E (.ok { Options.default file with evaluate := true }) = .ok { stdout := E.sh (E.F.ofRat w) ++ ['\n'], stderr := [], code := 0 }

/-- A medley on the tonic `t`: tunes from the list, and textbook pieces (C125) in the major key. -/
def Medley (t : Int) (pieces : List (List Int)) : Prop :=
  pieces ≠ [] ∧ ∀ os ∈ pieces, (∃ p ∈ tunes, os = sung t p) ∨ Textbook t os

/-! ### C169 -/

set_option maxRecDepth 100000 in
theorem tunes_ok : ∀ p ∈ tunes, (∀ o ∈ p, o < 12) ∧ onceOk (majNat "sapp") (minNat "sapp") 0 p = true := by decide +kernel

set_option maxRecDepth 100000 in
theorem tunes_wrong : onceOk (majNat "sapp") (minNat "sapp") 14 entchen = true ∧ onceOk (majNat "sapp") (minNat "sapp") 7 mary = true ∧
    onceOk (majNat "sapp") (minNat "sapp") 21 jingle = true := by decide +kernel

theorem rel_tunes : ∀ t ∈ pcs, rel t t = 0 ∧ rel t ((t + 2) % 12 + 12) = 14 ∧ rel t ((t + 7) % 12) = 7 ∧ rel t ((t + 9) % 12 + 12) = 21 := by
  decide +kernel

section
variable {η : ℝ} (lg : ℝ → RD) (hok : LogOk lg) (hlg : LogClose η lg) (hη : η ≤ (2 : ℝ) ^ (-30 : ℤ)) (iter₁ iter₂ : Iter RD)
    (hi₁ : iter₁.Ok) (hi₂ : iter₂.Ok) (cfg : Config RD) (hc : Chosen cfg) (hT : cfg.keyTransition = "exponential10")
    (hM : cfg.majorKeyProfile = "sapp") (hm : cfg.minorKeyProfile = "sapp") (t : Int) (ht : 0 ≤ t ∧ t < 12)

include hok hlg hη hi₁ hi₂ hc hT hM hm ht in
/-- **C169 (partial).**  With the default tables, whatever the hash order: a medley of the five tunes and of textbook pieces in the major
key, on any tonic, in any number and order, is heard in that key from the first note to the last.  Missing: the tunes below, for which it
is false. -/
theorem C169_tunes_partial (pieces : List (List Int)) (hp : Medley t pieces) (hn : pieces.flatten.length ≤ 2 ^ 19) :
    ∃ d, detect (ieee lg) iter₁ iter₂ cfg (pieces.flatten.map PitchClass.ofInt) = .ok (.ok d) ∧
      d.localKeys = List.replicate pieces.flatten.length (Key.ofInt t) ∧ d.mainKey = Key.ofInt t := by
  have hK : IsKey t := by unfold IsKey; omega
  refine C138_joined_partial lg hok hlg hη iter₁ iter₂ hi₁ hi₂ cfg hc t hK pieces hp.1 ?_ hn
  intro os hos
  rcases hp.2 os hos with ⟨p, hpm, rfl⟩ | h
  · obtain ⟨o1, o2⟩ := tunes_ok p hpm
    obtain ⟨s1, s2, s3⟩ := once_steady cfg hc hT t t hK p o1 (by rw [(rel_tunes t (mem_pcs.2 ht)).1, hM, hm]; exact o2)
    exact ⟨by simpa [sung] using s1, fun o ho => by
      obtain ⟨x, _, rfl⟩ := List.mem_map.1 ho
      omega, s2, s3⟩
  · exact textbook_inKey cfg hc hT (by rw [hM, hm]) t hK os h

include hok hlg hη hi₁ hi₂ hc hT hM hm ht in
/-- **C169 violated.**  With the default tables, whatever the hash order and the tonic: "Alle meine Entchen" is heard in the minor key of
its second degree, "Mary had a little lamb" in the major key of its dominant, and the first half of "Jingle bells" in the relative minor key. -/
theorem C169_tunes_violated :
    (∃ d, detect (ieee lg) iter₁ iter₂ cfg ((sung t entchen).map PitchClass.ofInt) = .ok (.ok d) ∧ d.mainKey = Key.ofInt ((t + 2) % 12 + 12)) ∧
    (∃ d, detect (ieee lg) iter₁ iter₂ cfg ((sung t mary).map PitchClass.ofInt) = .ok (.ok d) ∧ d.mainKey = Key.ofInt ((t + 7) % 12)) ∧
    ∃ d, detect (ieee lg) iter₁ iter₂ cfg ((sung t jingle).map PitchClass.ofInt) = .ok (.ok d) ∧ d.mainKey = Key.ofInt ((t + 9) % 12 + 12) := by
  obtain ⟨_, r1, r2, r3⟩ := rel_tunes t (mem_pcs.2 ht)
  obtain ⟨w1, w2, w3⟩ := tunes_wrong
  have found : ∀ (p : List Nat) (K : Int), IsKey K → (∀ o ∈ p, o < 12) → p.length ≤ 2 ^ 19 →
      onceOk (majNat "sapp") (minNat "sapp") (rel t K) p = true →
      ∃ d, detect (ieee lg) iter₁ iter₂ cfg ((sung t p).map PitchClass.ofInt) = .ok (.ok d) ∧ d.mainKey = Key.ofInt K := by
    intro p K hK ho hl h
    obtain ⟨d, h1, _, h2⟩ := once lg hok hlg hη iter₁ iter₂ hi₁ hi₂ cfg hc hT t K hK p ho hl (by rw [hM, hm]; exact h)
    exact ⟨d, h1, h2⟩
  exact ⟨found _ _ (by unfold IsKey; omega) (by decide) (by decide) (by rw [r1]; exact w1),
    found _ _ (by unfold IsKey; omega) (by decide) (by decide) (by rw [r2]; exact w2),
    found _ _ (by unfold IsKey; omega) (by decide) (by decide) (by rw [r3]; exact w3)⟩

include hok hlg hη hi₁ hi₂ hc hT hM hm ht in
/-- **C169 violated, all verses.**  Singing more verses does not help: any number of times "Alle meine Entchen" is in the minor key of its
second degree, "Mary had a little lamb" in the key of its dominant, and the first half of "Jingle bells" in the relative minor key, from
the first note to the last. -/
theorem C169_verses_violated (n : Nat) (hn : 0 < n ∧ n ≤ 2 ^ 14) (p : List Nat) (K : Int)
    (h : (p = entchen ∧ K = (t + 2) % 12 + 12) ∨ (p = mary ∧ K = (t + 7) % 12) ∨ (p = jingle ∧ K = (t + 9) % 12 + 12)) :
    ∃ d, detect (ieee lg) iter₁ iter₂ cfg ((List.replicate n (sung t p)).flatten.map PitchClass.ofInt) = .ok (.ok d) ∧
      d.localKeys = List.replicate (List.replicate n (sung t p)).flatten.length (Key.ofInt K) ∧ d.mainKey = Key.ofInt K := by
  obtain ⟨_, r1, r2, r3⟩ := rel_tunes t (mem_pcs.2 ht)
  obtain ⟨w1, w2, w3⟩ := tunes_wrong
  obtain ⟨hK, ho, hl, hw⟩ : IsKey K ∧ (∀ o ∈ p, o < 12) ∧ p.length ≤ 32 ∧ onceOk (majNat "sapp") (minNat "sapp") (rel t K) p = true := by
    rcases h with ⟨rfl, rfl⟩ | ⟨rfl, rfl⟩ | ⟨rfl, rfl⟩
    · exact ⟨by unfold IsKey; omega, by decide, by decide, by rw [r1]; exact w1⟩
    · exact ⟨by unfold IsKey; omega, by decide, by decide, by rw [r2]; exact w2⟩
    · exact ⟨by unfold IsKey; omega, by decide, by decide, by rw [r3]; exact w3⟩
  refine C138_joined_partial lg hok hlg hη iter₁ iter₂ hi₁ hi₂ cfg hc K hK _ (by simp; omega) ?_ ?_
  · intro os hos
    rw [(List.mem_replicate.1 hos).2]
    obtain ⟨s1, s2, s3⟩ := once_steady cfg hc hT t K hK p ho (by rw [hM, hm]; exact hw)
    exact ⟨by simpa [sung] using s1, fun o ho => by
      obtain ⟨x, _, rfl⟩ := List.mem_map.1 ho
      omega, s2, s3⟩
  · rw [List.length_flatten, List.map_replicate, List.sum_replicate, smul_eq_mul]
    have e : (sung t p).length = p.length := by simp [sung]
    rw [e]
    calc n * p.length ≤ 2 ^ 14 * 32 := Nat.mul_le_mul hn.2 hl
      _ = 2 ^ 19 := by norm_num

end

section
variable {S P T : Type} {η : ℝ} (lg : ℝ → RD) (hok : LogOk lg) (hlg : LogClose η lg)
    (hη : η ≤ (2 : ℝ) ^ (-30 : ℤ)) (E : Env RD S P T) (hF : E.F = ieee lg) (hi₁ : HMM.Iter.Ok E.iter₁) (hi₂ : HMM.Iter.Ok E.iter₂)
    (hj : E.junkMajor.length = 12 ∧ E.junkMinor.length = 12 ∧ E.junkTransition.length = 24) (file : Str) (p : Parsed RD)
    (hparse : parseArgs E (.ok (Options.default file)) = .ok (.ok p)) (t : Int) (ht : 0 ≤ t ∧ t < 12)

include hj hparse in
/-- The tables of a run without options. -/
theorem default_tables : Chosen p.cfg ∧ p.cfg.keyTransition = "exponential10" ∧ p.cfg.majorKeyProfile = "sapp" ∧
    p.cfg.minorKeyProfile = "sapp" := by
  obtain ⟨hcfg, _, _⟩ := parse_cfg E (Options.default file) p rfl rfl hparse
  have h1 : "sapp" ∈ profileChoices := by decide
  have h2 : "exponential10" ∈ transitionChoices := by decide
  rw [hcfg]
  exact ⟨⟨⟨hj.2.2, hj.1, hj.2.1⟩, h1, h1, h2⟩, rfl, rfl, rfl⟩

include hF hparse in
/-- A run without options prints the key that is found. -/
theorem default_prints (os : List Int) (hread : readInput E p = .ok (.ok (os.map PitchClass.ofInt))) (K : Int) (hK : IsKey K)
    (hd : ∃ d, detect (ieee lg) E.iter₁ E.iter₂ p.cfg (os.map PitchClass.ofInt) = .ok (.ok d) ∧ d.mainKey = Key.ofInt K) :
    Prints E file K := by
  obtain ⟨_, hp1, hp2⟩ := parse_cfg E (Options.default file) p rfl rfl hparse
  obtain ⟨d, hd, hm⟩ := hd
  obtain ⟨name, hl, _, hname⟩ := C39_line K hK
  have hpr' : printResult E p d = keyLine (Key.ofInt K) := by
    simp [printResult, hp1, hp2, Options.default, hm]
  have hmode : (if Spec.isMajor K then "major".toList else "minor".toList) = if K < 12 then "major".toList else "minor".toList := by
    unfold Spec.isMajor
    by_cases h : K < 12 <;> simp [h]
  refine ⟨name, hname, ?_⟩
  rw [hmode]
  simp only [main, hparse, hread, Res.bind_ok, hF, hd, hpr', hl, Res.pure_eq]

include hok hlg hη hF hi₁ hi₂ hj hparse ht in
/-- **C169 (partial), whole program.**  `justkeydding file` on a medley prints its major key. -/
theorem C169_main_partial (pieces : List (List Int)) (hp : Medley t pieces) (hn : pieces.flatten.length ≤ 2 ^ 19)
    (hread : readInput E p = .ok (.ok (pieces.flatten.map PitchClass.ofInt))) : Prints E file t := by
  obtain ⟨hch, hT, hM, hm⟩ := default_tables E hj file p hparse
  obtain ⟨d, h1, _, h2⟩ := C169_tunes_partial lg hok hlg hη E.iter₁ E.iter₂ hi₁ hi₂ p.cfg hch hT hM hm t ht pieces hp hn
  exact default_prints lg E hF file p hparse _ hread t (by unfold IsKey; omega) ⟨d, h1, h2⟩

include hok hlg hη hF hi₁ hi₂ hj hparse ht in
/-- **C169 violated, whole program.**  `justkeydding file` prints the minor key of the second degree for "Alle meine Entchen", the major
key of the dominant for "Mary had a little lamb", and the relative minor key for the first half of "Jingle bells". -/
theorem C169_main_violated :
    (readInput E p = .ok (.ok ((sung t entchen).map PitchClass.ofInt)) → Prints E file ((t + 2) % 12 + 12)) ∧
    (readInput E p = .ok (.ok ((sung t mary).map PitchClass.ofInt)) → Prints E file ((t + 7) % 12)) ∧
    (readInput E p = .ok (.ok ((sung t jingle).map PitchClass.ofInt)) → Prints E file ((t + 9) % 12 + 12)) := by
  obtain ⟨hch, hT, hM, hm⟩ := default_tables E hj file p hparse
  obtain ⟨w1, w2, w3⟩ := C169_tunes_violated lg hok hlg hη E.iter₁ E.iter₂ hi₁ hi₂ p.cfg hch hT hM hm t ht
  exact ⟨fun h => default_prints lg E hF file p hparse _ h _ (by unfold IsKey; omega) w1,
    fun h => default_prints lg E hF file p hparse _ h _ (by unfold IsKey; omega) w2,
    fun h => default_prints lg E hF file p hparse _ h _ (by unfold IsKey; omega) w3⟩

end

section
variable {S P T : Type} {η : ℝ} (lg : ℝ → RD) (hok : LogOk lg) (hlg : LogClose η lg)
    (hη : η ≤ (2 : ℝ) ^ (-30 : ℤ)) (E : Env RD S P T) (hF : E.F = ieee lg) (hi₁ : HMM.Iter.Ok E.iter₁) (hi₂ : HMM.Iter.Ok E.iter₂)
    (hj : E.junkMajor.length = 12 ∧ E.junkMinor.length = 12 ∧ E.junkTransition.length = 24) (hs : E.strictMidi = false)
    (file ext : Str) (hx : HasExtension file ext) (hl : file.length < npos)
    (hm : ext.map Char.toLower = "mid".toList ∨ ext.map Char.toLower = "midi".toList) (pitches : List Nat)
    (hr : Reads (E.midiEvents file) pitches) (t : Int) (ht : 0 ≤ t ∧ t < 12)

include hs hx hl hm hr in
/-- A run without options on a MIDI file reads its notes. -/
theorem midi_default : parseArgs E (.ok (Options.default file)) = .ok (.ok (defaultParsed E file .midi)) ∧
    readInput E (defaultParsed E file .midi) = .ok (.ok ((classes pitches).map PitchClass.ofInt)) := by
  have hin := (C36_extension_partial E (Options.default file) file ext rfl hx hl).2.2.1 hm
  constructor
  · have ha : (Options.default file).args = [file] := rfl
    simp only [parseArgs, ha, hin, Res.bind_ok]
    rfl
  · obtain ⟨hw, hsound⟩ := hr
    have q := Midi.C34_events_partial _ hw
    simp only [Midi.construct] at q
    simp only [readInput, defaultParsed, Res.bind_ok, if_true, Midi.getStatus, Midi.construct, hs, q, classes, ← hsound, List.map_map]
    rfl

include hok hlg hη hF hi₁ hi₂ hj hs hx hl hm hr ht in
/-- **C169 (partial), MIDI files.**  `justkeydding file` on a MIDI file with a medley, in any octaves, prints its major key. -/
theorem C169_midi_partial (pieces : List (List Int)) (hp : Medley t pieces) (hn : pieces.flatten.length ≤ 2 ^ 19)
    (he : classes pitches = pieces.flatten) : Prints E file t := by
  obtain ⟨h1, h2⟩ := midi_default E hs file ext hx hl hm pitches hr
  exact C169_main_partial lg hok hlg hη E hF hi₁ hi₂ hj file _ h1 t ht pieces hp hn (by rw [h2, he])

include hok hlg hη hF hi₁ hi₂ hj hs hx hl hm hr ht in
/-- **C169 violated, MIDI files.** -/
theorem C169_midi_violated :
    (classes pitches = sung t entchen → Prints E file ((t + 2) % 12 + 12)) ∧ (classes pitches = sung t mary → Prints E file ((t + 7) % 12)) ∧
    (classes pitches = sung t jingle → Prints E file ((t + 9) % 12 + 12)) := by
  obtain ⟨h1, h2⟩ := midi_default E hs file ext hx hl hm pitches hr
  obtain ⟨w1, w2, w3⟩ := C169_main_violated lg hok hlg hη E hF hi₁ hi₂ hj file _ h1 t ht
  exact ⟨fun h => w1 (by rw [h2, h]), fun h => w2 (by rw [h2, h]), fun h => w3 (by rw [h2, h])⟩

end

theorem tune_weights : ∀ t ∈ pcs, weight t t = 1 ∧ weight t ((t + 2) % 12 + 12) = 0 ∧ weight t ((t + 7) % 12) = 1 / 2 ∧
    weight t ((t + 9) % 12 + 12) = 3 / 10 := by decide +kernel

section
variable {S P T : Type} {η : ℝ} (lg : ℝ → RD) (hok : LogOk lg) (hlg : LogClose η lg)
    (hη : η ≤ (2 : ℝ) ^ (-30 : ℤ)) (E : Env RD S P T) (hF : E.F = ieee lg) (hi₁ : HMM.Iter.Ok E.iter₁) (hi₂ : HMM.Iter.Ok E.iter₂)
    (hj : E.junkMajor.length = 12 ∧ E.junkMinor.length = 12 ∧ E.junkTransition.length = 24) (hs : E.strictMidi = false)
    (pre name : Str) (hn : '_' ∉ name ∧ '.' ∉ name) (file : Str) (hfile : file = pre ++ '_' :: name ++ '.' :: "mid".toList)
    (hl : file.length < npos) (pitches : List Nat) (hr : Reads (E.midiEvents file) pitches) (t : Int) (ht : 0 ≤ t ∧ t < 12)
    (hname : keyName name = some t)

include hok hlg hη hF hi₁ hi₂ hj hs hn hfile hl hr ht hname in
/-- **C169, scores.**  `justkeydding -e file` on a MIDI file with the right major key in its name prints 1 for a medley, 0 for "Alle meine
Entchen", 0.5 for "Mary had a little lamb" and 0.3 for the first half of "Jingle bells". -/
theorem C169_score :
    (∀ pieces, Medley t pieces → pieces.flatten.length ≤ 2 ^ 19 → classes pitches = pieces.flatten → Scores E file 1) ∧
    (classes pitches = sung t entchen → Scores E file 0) ∧ (classes pitches = sung t mary → Scores E file (1 / 2)) ∧
    (classes pitches = sung t jingle → Scores E file (3 / 10)) := by
  obtain ⟨v1, v2, v3, v4⟩ := tune_weights t (mem_pcs.2 ht)
  have hch : Chosen (defaultParsed E file .midi).cfg := ⟨⟨hj.2.2, hj.1, hj.2.1⟩, (by decide : "sapp" ∈ profileChoices),
    (by decide : "sapp" ∈ profileChoices), (by decide : "exponential10" ∈ transitionChoices)⟩
  have go : ∀ K, IsKey K → (∃ d, detect (ieee lg) E.iter₁ E.iter₂ (defaultParsed E file .midi).cfg ((classes pitches).map PitchClass.ofInt) =
      .ok (.ok d) ∧ d.mainKey = Key.ofInt K) → Scores E file (weight t K) := by
    intro K hK ⟨d, hd, hm⟩
    exact (midi_found lg E hF hs (Options.default file) rfl rfl rfl rfl pre name hn file hfile hl pitches hr t K hname hK d hd hm).2
  obtain ⟨w1, w2, w3⟩ := C169_tunes_violated lg hok hlg hη E.iter₁ E.iter₂ hi₁ hi₂ _ hch rfl rfl rfl t ht
  refine ⟨fun pieces hp hn he => ?_, fun h => ?_, fun h => ?_, fun h => ?_⟩
  · obtain ⟨d, h1, _, h2⟩ := C169_tunes_partial lg hok hlg hη E.iter₁ E.iter₂ hi₁ hi₂ _ hch rfl rfl rfl t ht pieces hp hn
    rw [← v1]
    exact go t (by unfold IsKey; omega) ⟨d, by rw [he]; exact h1, h2⟩
  · rw [← v2]
    exact go _ (by unfold IsKey; omega) (by rw [h]; exact w1)
  · rw [← v3]
    exact go _ (by unfold IsKey; omega) (by rw [h]; exact w2)
  · rw [← v4]
    exact go _ (by unfold IsKey; omega) (by rw [h]; exact w3)

end

/-! ### Cases -/

/-- "London bridge" in G major begins with D E D C. -/
example : (sung 7 london).take 4 = [2, 4, 2, 0] ∧ (sung 0 mary).take 7 = [4, 2, 0, 2, 4, 4, 4] := by decide

/-- Twinkle, London bridge and Twinkle again, in C major. -/
example : Medley 0 ([twinkle, london, twinkle].map (sung 0)) ∧ (([twinkle, london, twinkle].map (sung 0)).flatten).length = 108 := by
  refine ⟨⟨by simp, fun os hos => ?_⟩, by decide⟩
  obtain ⟨p, hp, rfl⟩ := List.mem_map.1 hos
  have : ∀ p ∈ [twinkle, london, twinkle], p ∈ tunes := by decide
  exact Or.inl ⟨p, this p hp, rfl⟩

/-- "Mary had a little lamb" in C major from middle C: a MIDI file is read as these notes. -/
example : Reads (track mary) (mary.map (60 + ·)) ∧ classes (mary.map (60 + ·)) = sung 0 mary ∧ HasExtension "mary.mid".toList "mid".toList :=
  ⟨⟨(track_heard mary (by decide)).1, by decide +kernel⟩, by decide +kernel, "mary".toList, by decide, by decide⟩

end JKD.Phrases
