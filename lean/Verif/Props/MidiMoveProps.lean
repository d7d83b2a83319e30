import Verif.Props.TransposeProps
import Verif.Props.MidiFileProps
/-
C146: transposed MIDI files.
-/

namespace JKD.Main

open Spec HMM Detect

variable {D S P T : Type}

/-- **Specification.**  The second file has the notes of the first one, `t` semitones higher up to octaves. -/
def MovedNotes (t : Int) (l l' : List (List Nat)) : Prop :=
  (∀ ev ∈ l, Midi.WellFormed ev) ∧ (∀ ev ∈ l', Midi.WellFormed ev) ∧
    List.Forall₂ (fun p q : Nat => ((q : Int) - p - t) % 12 = 0) (l.filterMap Midi.sounding) (l'.filterMap Midi.sounding)

theorem moved_classes {t : Int} {xs ys : List Nat} (h : List.Forall₂ (fun p q : Nat => ((q : Int) - p - t) % 12 = 0) xs ys) :
    ys.map (fun p : Nat => ((p % 12 : Nat) : Int)) = (xs.map (fun p : Nat => ((p % 12 : Nat) : Int))).map (transposePc t) := by
  induction h with
  | nil => rfl
  | cons h _ ih =>
    rw [List.map_cons, List.map_cons, List.map_cons, ih]
    congr 1
    unfold transposePc
    push_cast
    omega

/-- Transposing answer and annotation together does not change the score. -/
theorem weight_transpose (t k a : Int) (hk : IsKey k) (ha : IsKey a) : weight (transposeKey t k) (transposeKey t a) = weight k a := by
  have h : ∀ t ∈ pcs, ∀ k ∈ keys, ∀ a ∈ keys, weight (transposeKey t k) (transposeKey t a) = weight k a := by decide +kernel
  have e : ∀ k, transposeKey t k = transposeKey (t % 12) k := by
    intro k
    unfold transposeKey
    split <;> omega
  rw [e, e]
  exact h _ (mem_pcs.2 ⟨by omega, by omega⟩) k (mem_keys.2 hk) a (mem_keys.2 ha)

/-- The variables of `main` after the command line, for a MIDI file. -/
def midiParsed (o : Options) (file : Str) (cfg : Config D) : Parsed D :=
  { filename := file, inputType := some .midi, cfg := cfg
    justEvaluation := o.evaluate, justProbabilities := o.probabilities, chromaOnly := o.chromaonly }

/-- What the program does with two MIDI files of which the second one is the first one transposed. -/
theorem moved_main {Num : D → Prop} (E : Env D S P T) (W : FPLaws E.F Num) (hi₁ : Iter.Ok E.iter₁) (hi₂ : Iter.Ok E.iter₂)
    (hs : E.strictMidi = false) (o : Options) (hf : o.inputformat = none) (M m tr : String) (a b c : List D)
    (hp : chooseProfiles E o = .ok (M, m, a, b)) (ht : chooseTransitions E o = .ok (.ok (tr, c)))
    (hl : a.length = 12 ∧ b.length = 12 ∧ c.length = 24)
    (file file' ext ext' : Str) (hx : HasExtension file ext) (hx' : HasExtension file' ext') (hn : file.length < npos)
    (hn' : file'.length < npos) (hm : ext.map Char.toLower = "mid".toList ∨ ext.map Char.toLower = "midi".toList)
    (hm' : ext'.map Char.toLower = "mid".toList ∨ ext'.map Char.toLower = "midi".toList) (t : Int)
    (h : MovedNotes t (E.midiEvents file) (E.midiEvents file')) (os : List Int)
    (hos : os = ((E.midiEvents file).filterMap Midi.sounding).map (fun p : Nat => ((p % 12 : Nat) : Int))) (hne : os ≠ []) (p1 p2 : List Int)
    (cfg : Config D) (hcfg : cfg = { keyTransition := tr, majorKeyProfile := M, minorKeyProfile := m, customKeyTransition := c
                                     majorCustomKeyProfile := a, minorCustomKeyProfile := b })
    (hu1 : UniqueBest E.F (stage1 E.F cfg os) p1) (hu2 : UniqueBest E.F (stage2 E.F cfg p1) p2) :
    ∃ d d' k, IsKey k ∧ p2.head? = some k ∧ d.mainKey = Key.ofInt k ∧ d'.mainKey = Key.ofInt (transposeKey t k) ∧
      main E (.ok { o with args := [file] }) =
        (printResult E (midiParsed o file cfg) d >>= fun line => .ok { stdout := line, stderr := [], code := 0 }) ∧
      main E (.ok { o with args := [file'] }) =
        (printResult E (midiParsed o file' cfg) d' >>= fun line => .ok { stdout := line, stderr := [], code := 0 }) := by
  obtain ⟨w, w', hmv⟩ := h
  have hwf : Config.WF cfg := by rw [hcfg]; exact ⟨hl.2.2, hl.1, hl.2.1⟩
  have h0 : ∀ x ∈ os, 0 ≤ x ∧ x < 12 := by
    intro x hx
    rw [hos] at hx
    obtain ⟨p, _, rfl⟩ := List.mem_map.1 hx
    have : p % 12 < 12 := Nat.mod_lt _ (by decide)
    omega
  have h0' : ∀ x ∈ os.map (transposePc t), 0 ≤ x ∧ x < 12 := by
    intro x hx
    obtain ⟨y, _, rfl⟩ := List.mem_map.1 hx
    exact mem_pcs.1 (transposePc_mem t)
  have hos' := moved_classes hmv
  rw [← hos] at hos'
  obtain ⟨d, d', k, e1, e2, _, _, e3, e4, e5, _⟩ := C24_detection W E.iter₁ E.iter₂ E.iter₁ E.iter₂ hi₁ hi₂ hi₁ hi₂ cfg hwf t os h0 hne p1 p2 hu1 hu2
  have named : ∀ (os : List Int) (d : Detection D) (k : Int), (∀ o ∈ os, 0 ≤ o ∧ o < 12) → os ≠ [] →
      detect E.F E.iter₁ E.iter₂ cfg (os.map PitchClass.ofInt) = .ok (.ok d) → d.mainKey.getInt = .ok k →
      IsKey k ∧ d.mainKey = Key.ofInt k := by
    intro os d k ho hne hd hk
    rcases detect_spec W E.iter₁ E.iter₂ hi₁ hi₂ _ hwf os ho hne with ⟨ht, _⟩ | ⟨p1, h1, p2, h2, k', _, _, _, _, _, hk', hd'⟩
    · rw [hd] at ht; cases ht
    · rw [hd] at hd'
      cases hd'
      have := (KeyProfile.isMajor_ofInt k' hk').2
      rw [this] at hk
      cases hk
      exact ⟨mem_keys.1 hk', rfl⟩
  obtain ⟨n1, n2⟩ := named os d k h0 hne e1 e4
  obtain ⟨-, n3⟩ := named _ d' _ h0' (by simpa using hne) e2 e5
  have read : ∀ (f : Str) (os : List Int), (∀ ev ∈ E.midiEvents f, Midi.WellFormed ev) →
      ((E.midiEvents f).filterMap Midi.sounding).map (fun p : Nat => ((p % 12 : Nat) : Int)) = os →
      readInput E (midiParsed o f cfg) = .ok (.ok (os.map PitchClass.ofInt)) := by
    intro f os hw ho
    have q := Midi.C34_events_partial _ hw
    simp only [Midi.construct] at q
    simp only [readInput, midiParsed, Res.bind_ok, if_true, Midi.getStatus, Midi.construct, hs, q, ← ho, List.map_map]
    rfl
  have run : ∀ (f x : Str) (os : List Int) (d : Detection D), HasExtension f x → f.length < npos →
      (x.map Char.toLower = "mid".toList ∨ x.map Char.toLower = "midi".toList) →
      readInput E (midiParsed o f cfg) = .ok (.ok (os.map PitchClass.ofInt)) →
      detect E.F E.iter₁ E.iter₂ cfg (os.map PitchClass.ofInt) = .ok (.ok d) →
      main E (.ok { o with args := [f] }) =
        (printResult E (midiParsed o f cfg) d >>= fun line => .ok { stdout := line, stderr := [], code := 0 }) := by
    intro f x os d hx hl hm hr hd
    have i := (C36_extension_partial E { o with args := [f] } f x hf hx hl).2.2.1 hm
    have c1 : chooseProfiles E { o with args := [f] } = .ok (M, m, a, b) := hp
    have c2 : chooseTransitions E { o with args := [f] } = .ok (.ok (tr, c)) := ht
    have hparse : parseArgs E (.ok { o with args := [f] }) = .ok (.ok (midiParsed o f cfg)) := by
      simp only [parseArgs, i, Res.bind_ok, c1, c2, hcfg]
      rfl
    have hc : (midiParsed o f cfg).cfg = cfg := rfl
    simp only [main, hparse, Res.bind_ok, hr, hc, hd]
    rfl
  exact ⟨d, d', k, n1, e3, n2, n3, run file ext os d hx hn hm (read file os w hos.symm) e1,
    run file' ext' _ d' hx' hn' hm' (read file' _ w' hos') e2⟩

/-- **C146, key.**  A MIDI file transposed by `t` semitones gets the key transposed by `t` semitones, with any tables, unless the program
is undecided about the first file. -/
theorem C146_key {Num : D → Prop} (E : Env D S P T) (W : FPLaws E.F Num) (hi₁ : Iter.Ok E.iter₁) (hi₂ : Iter.Ok E.iter₂)
    (hs : E.strictMidi = false) (o : Options) (hf : o.inputformat = none) (hoe : o.evaluate = false) (hop : o.probabilities = false)
    (M m tr : String) (a b c : List D)
    (hp : chooseProfiles E o = .ok (M, m, a, b)) (ht : chooseTransitions E o = .ok (.ok (tr, c)))
    (hl : a.length = 12 ∧ b.length = 12 ∧ c.length = 24)
    (file file' ext ext' : Str) (hx : HasExtension file ext) (hx' : HasExtension file' ext') (hn : file.length < npos)
    (hn' : file'.length < npos) (hm : ext.map Char.toLower = "mid".toList ∨ ext.map Char.toLower = "midi".toList)
    (hm' : ext'.map Char.toLower = "mid".toList ∨ ext'.map Char.toLower = "midi".toList) (t : Int)
    (h : MovedNotes t (E.midiEvents file) (E.midiEvents file')) (os : List Int)
    (hos : os = ((E.midiEvents file).filterMap Midi.sounding).map (fun p : Nat => ((p % 12 : Nat) : Int))) (hne : os ≠ []) (p1 p2 : List Int)
    (cfg : Config D) (hcfg : cfg = { keyTransition := tr, majorKeyProfile := M, minorKeyProfile := m, customKeyTransition := c
                                     majorCustomKeyProfile := a, minorCustomKeyProfile := b })
    (hu1 : UniqueBest E.F (stage1 E.F cfg os) p1) (hu2 : UniqueBest E.F (stage2 E.F cfg p1) p2) :
    ∃ k, IsKey k ∧ p2.head? = some k ∧
      main E (.ok { o with args := [file] }) = (keyLine (Key.ofInt k) >>= fun line => .ok { stdout := line, stderr := [], code := 0 }) ∧
      main E (.ok { o with args := [file'] }) =
        (keyLine (Key.ofInt (transposeKey t k)) >>= fun line => .ok { stdout := line, stderr := [], code := 0 }) := by
  obtain ⟨d, d', k, h1, h2, h3, h4, h5, h6⟩ := moved_main E W hi₁ hi₂ hs o hf M m tr a b c hp ht hl file file' ext ext' hx hx' hn hn' hm hm'
    t h os hos hne p1 p2 cfg hcfg hu1 hu2
  refine ⟨k, h1, h2, ?_, ?_⟩
  · rw [h5]
    simp [printResult, midiParsed, hoe, hop, h3]
  · rw [h6]
    simp [printResult, midiParsed, hoe, hop, h4]

/-- **C146, evaluation.**  Evaluating a transposed MIDI file against the transposed annotation prints the score of the original, with any
tables, unless the program is undecided about the first file. -/
theorem C146_score {Num : D → Prop} (E : Env D S P T) (W : FPLaws E.F Num) (hi₁ : Iter.Ok E.iter₁) (hi₂ : Iter.Ok E.iter₂)
    (hs : E.strictMidi = false) (o : Options) (hf : o.inputformat = none) (hoe : o.evaluate = true) (hop : o.probabilities = false)
    (M m tr : String) (a b c : List D)
    (hp : chooseProfiles E o = .ok (M, m, a, b)) (ht : chooseTransitions E o = .ok (.ok (tr, c)))
    (hl : a.length = 12 ∧ b.length = 12 ∧ c.length = 24)
    (pre pre' name name' ext ext' file file' : Str) (hfile : file = pre ++ '_' :: name ++ '.' :: ext)
    (hfile' : file' = pre' ++ '_' :: name' ++ '.' :: ext') (hnm : '_' ∉ name ∧ '.' ∉ name) (hnm' : '_' ∉ name' ∧ '.' ∉ name')
    (hn : file.length < npos) (hn' : file'.length < npos)
    (hm : ext.map Char.toLower = "mid".toList ∨ ext.map Char.toLower = "midi".toList)
    (hm' : ext'.map Char.toLower = "mid".toList ∨ ext'.map Char.toLower = "midi".toList) (t truth : Int)
    (hk : Spec.keyName name = some truth) (hk' : Spec.keyName name' = some (transposeKey t truth))
    (h : MovedNotes t (E.midiEvents file) (E.midiEvents file')) (os : List Int)
    (hos : os = ((E.midiEvents file).filterMap Midi.sounding).map (fun p : Nat => ((p % 12 : Nat) : Int))) (hne : os ≠ []) (p1 p2 : List Int)
    (cfg : Config D) (hcfg : cfg = { keyTransition := tr, majorKeyProfile := M, minorKeyProfile := m, customKeyTransition := c
                                     majorCustomKeyProfile := a, minorCustomKeyProfile := b })
    (hu1 : UniqueBest E.F (stage1 E.F cfg os) p1) (hu2 : UniqueBest E.F (stage2 E.F cfg p1) p2) :
    ∃ k, IsKey k ∧ p2.head? = some k ∧
      main E (.ok { o with args := [file] }) = .ok { stdout := E.sh (E.F.ofRat (weight truth k)) ++ ['\n'], stderr := [], code := 0 } ∧
      main E (.ok { o with args := [file'] }) = main E (.ok { o with args := [file] }) := by
  have clean : ∀ e : Str, (e.map Char.toLower = "mid".toList ∨ e.map Char.toLower = "midi".toList) → '_' ∉ e ∧ '.' ∉ e := by
    intro e he
    constructor <;> intro hmem
    · have : Char.toLower '_' ∈ e.map Char.toLower := List.mem_map_of_mem hmem
      rcases he with he | he <;> rw [he] at this <;> revert this <;> decide
    · have : Char.toLower '.' ∈ e.map Char.toLower := List.mem_map_of_mem hmem
      rcases he with he | he <;> rw [he] at this <;> revert this <;> decide
  have c1 := clean ext hm
  have c2 := clean ext' hm'
  have x1 : HasExtension file ext := ⟨pre ++ '_' :: name, hfile, c1.2⟩
  have x2 : HasExtension file' ext' := ⟨pre' ++ '_' :: name', hfile', c2.2⟩
  obtain ⟨d, d', k, h1, h2, h3, h4, h5, h6⟩ := moved_main E W hi₁ hi₂ hs o hf M m tr a b c hp ht hl file file' ext ext' x1 x2 hn hn' hm hm'
    t h os hos hne p1 p2 cfg hcfg hu1 hu2
  have tk : IsKey (transposeKey t k) := by
    unfold IsKey at *
    unfold transposeKey
    split <;> omega
  have htr := Key.keyName_range hk
  obtain ⟨g, g1, g2⟩ := C38_file_name pre name ext hnm c1 truth k hk h1
  obtain ⟨g', g1', g2'⟩ := C38_file_name pre' name' ext' hnm' c2 _ _ hk' tk
  rw [← hfile] at g1
  rw [← hfile'] at g1'
  rw [weight_transpose t truth k htr h1] at g2'
  have r1 : main E (.ok { o with args := [file] }) = .ok { stdout := E.sh (E.F.ofRat (weight truth k)) ++ ['\n'], stderr := [], code := 0 } := by
    rw [h5]
    simp [printResult, midiParsed, hoe, hop, h3, g1, g2]
  have r2 : main E (.ok { o with args := [file'] }) = .ok { stdout := E.sh (E.F.ofRat (weight truth k)) ++ ['\n'], stderr := [], code := 0 } := by
    rw [h6]
    simp [printResult, midiParsed, hoe, hop, h4, g1', g2']
  exact ⟨k, h1, h2, r1, r2.trans r1.symm⟩

/-- A piece and the same piece a tone higher, on another channel, with one note in another octave; the keys of the names. -/
example : MovedNotes 2 [[0x90, 60, 64], [0x80, 60, 0], [0x90, 67, 64]] [[0x91, 62, 80], [0x91, 62, 0], [0x91, 57, 80]] ∧
    Spec.keyName "C".toList = some 0 ∧ Spec.keyName "D".toList = some (transposeKey 2 0) := by
  refine ⟨⟨?_, ?_, ?_⟩, by decide, by decide⟩
  · intro ev hev
    simp only [List.mem_cons, List.not_mem_nil, or_false] at hev
    rcases hev with rfl | rfl | rfl <;> exact ⟨by decide, _, _, rfl, by decide⟩
  · intro ev hev
    simp only [List.mem_cons, List.not_mem_nil, or_false] at hev
    rcases hev with rfl | rfl | rfl <;> exact ⟨by decide, _, _, rfl, by decide⟩
  · exact .cons (by decide) (.cons (by decide) .nil)

end JKD.Main
