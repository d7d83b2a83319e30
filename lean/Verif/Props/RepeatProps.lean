import Verif.Props.BackwardsProps
import Verif.Props.MidiFileProps
/-
C138: repeats, and pieces in one key played one after the other.
-/

namespace JKD.Phrases

open Spec HMM RD Detect Main

/-! ### Pieces in one key -/

/-- **Specification.**  A piece in the key `K` from the first note to the last: this explains it better, by a tenth, than every other
sequence of keys, for the printed tables. -/
structure InKey (cfg : Config RD) (K : Int) (os : List Int) : Prop where
  notes : os ≠ []
  range : ∀ o ∈ os, 0 ≤ o ∧ o < 12
  possible : 0 < prob (book cfg) os (List.replicate os.length K)
  best : ∀ ks : List Int, ks.length = os.length → (∀ k ∈ ks, IsKey k) → ks ≠ List.replicate os.length K →
    prob (book cfg) os ks ≤ 9 / 10 * prob (book cfg) os (List.replicate os.length K)

theorem goQ_stay : ∀ s ∈ transitionChoices, (∀ j ∈ keys, ∀ k ∈ keys, 0 ≤ goQ s j k ∧ goQ s j k ≤ goQ s 0 0) ∧
    ∀ l ∈ keys, goQ s l l = goQ s 0 0 ∧ 0 < goQ s 0 0 := by
  decide +kernel

/-- To stay is at least as probable as every change of key. -/
theorem goQ_diag (s : String) (hs : s ∈ transitionChoices) (j : Int) (hj : j ∈ keys) (k : Int) (hk : k ∈ keys) (l : Int) (hl : l ∈ keys) :
    0 ≤ goQ s j k ∧ goQ s j k ≤ goQ s l l ∧ 0 < goQ s l l := by
  obtain ⟨h1, h2⟩ := goQ_stay s hs
  rw [(h2 l hl).1]
  exact ⟨(h1 j hj k hk).1, (h1 j hj k hk).2, (h2 l hl).2⟩

theorem prob_join {cfg : Config RD} (o1 o2 k1 k2 : List Int) (h1 : k1.length = o1.length) (h2 : k2.length = o2.length) (n1 : o1 ≠ [])
    (n2 : o2 ≠ []) (hk : ∀ k ∈ k1 ++ k2, IsKey k) : ∃ j k, j ∈ k1 ∧ k ∈ k2 ∧
    prob (book cfg) (o1 ++ o2) (k1 ++ k2) = 24 * (book cfg).trans j k * (prob (book cfg) o1 k1 * prob (book cfg) o2 k2) := by
  have hi : ∀ k, IsKey k → (book cfg).init k = 1 / 24 := fun k hk' => by simp only [book]; rw [if_pos (mem_keys.2 hk')]
  have e1 : k1 ≠ [] := by rintro rfl; exact n1 (List.length_eq_zero_iff.1 h1.symm)
  obtain ⟨b, l2, rfl⟩ : ∃ b l2, k2 = b :: l2 := by
    cases k2 with
    | nil => exact absurd (List.length_eq_zero_iff.1 h2.symm) n2
    | cons b l2 => exact ⟨b, l2, rfl⟩
  refine ⟨k1.getLast e1, b, List.getLast_mem e1, by simp, ?_⟩
  rw [prob_split _ (1 / 24) o1 k1 h1 n1 (fun k h => hi k (hk k (by simp [h]))),
    prob_split _ (1 / 24) o2 _ h2 n2 (fun k h => hi k (hk k (List.mem_append_right _ h))),
    prob_split _ (1 / 24) (o1 ++ o2) _ (by simp [h1, h2.symm]) (by simp [n1]) (fun k h => hi k (hk k h)), moves_left,
    plays_append _ _ _ _ _ h1, List.getLast?_eq_some_getLast e1]
  simp only [Option.toList, List.cons_append, List.nil_append, moves]
  ring

theorem inKey_append {cfg : Config RD} (hc : Chosen cfg) (K : Int) (hK : IsKey K) (o1 o2 : List Int) (h1 : InKey cfg K o1)
    (h2 : InKey cfg K o2) : InKey cfg K (o1 ++ o2) := by
  have hnn : NonNeg (book cfg) := (stored1 (fun _ => nan) cfg hc []).nonneg
  have hrep : ∀ n, ∀ k ∈ List.replicate n K, IsKey k := fun n k hk => by rw [List.eq_of_mem_replicate hk]; exact hK
  have tr : ∀ j k, IsKey j → IsKey k → (book cfg).trans j k = (goQ cfg.keyTransition j k : ℝ) := by
    intro j k hj hk
    simp only [book, mem_keys.2 hj, mem_keys.2 hk, and_self, if_true]
  have diag : ∀ j k, IsKey j → IsKey k → 0 ≤ (book cfg).trans j k ∧ (book cfg).trans j k ≤ (book cfg).trans K K ∧
      0 < (book cfg).trans K K := by
    intro j k hj hk
    obtain ⟨a, b, c⟩ := goQ_diag _ hc.trans j (mem_keys.2 hj) k (mem_keys.2 hk) K (mem_keys.2 hK)
    rw [tr j k hj hk, tr K K hK hK]
    exact ⟨by exact_mod_cast a, by exact_mod_cast b, by exact_mod_cast c⟩
  have whole : prob (book cfg) (o1 ++ o2) (List.replicate (o1 ++ o2).length K) = 24 * (book cfg).trans K K *
      (prob (book cfg) o1 (List.replicate o1.length K) * prob (book cfg) o2 (List.replicate o2.length K)) := by
    rw [List.length_append, List.replicate_add]
    obtain ⟨j, k, hj, hk, e⟩ := prob_join (cfg := cfg) o1 o2 (List.replicate o1.length K) (List.replicate o2.length K) (by simp) (by simp)
      h1.notes h2.notes (by rw [← List.replicate_add]; exact hrep _)
    rw [e, List.eq_of_mem_replicate hj, List.eq_of_mem_replicate hk]
  refine ⟨by simp [h1.notes], ?_, ?_, ?_⟩
  · intro o ho
    rcases List.mem_append.1 ho with h | h
    · exact h1.range o h
    · exact h2.range o h
  · rw [whole]
    exact mul_pos (mul_pos (by norm_num) (diag K K hK hK).2.2) (mul_pos h1.possible h2.possible)
  · intro ks hl hks hne
    rw [whole]
    rw [List.length_append] at hl
    have hk1 : ∀ k ∈ ks.take o1.length, IsKey k := fun k h => hks k (List.mem_of_mem_take h)
    have hk2 : ∀ k ∈ ks.drop o1.length, IsKey k := fun k h => hks k (List.mem_of_mem_drop h)
    have l1 : (ks.take o1.length).length = o1.length := by rw [List.length_take]; omega
    have l2 : (ks.drop o1.length).length = o2.length := by rw [List.length_drop]; omega
    obtain ⟨j, k, hj, hk, e⟩ := prob_join (cfg := cfg) o1 o2 (ks.take o1.length) (ks.drop o1.length) l1 l2 h1.notes h2.notes
      (by rw [List.take_append_drop]; exact hks)
    rw [List.take_append_drop] at e
    rw [e]
    obtain ⟨d1, d2, d3⟩ := diag j k (hk1 j hj) (hk2 k hk)
    have p1 := prob_nonneg hnn o1 (ks.take o1.length)
    have p2 := prob_nonneg hnn o2 (ks.drop o1.length)
    have g1 := h1.possible
    have g2 := h2.possible
    have b1 : prob (book cfg) o1 (ks.take o1.length) ≤ prob (book cfg) o1 (List.replicate o1.length K) := by
      by_cases h : ks.take o1.length = List.replicate o1.length K
      · rw [h]
      · have := h1.best _ l1 hk1 h
        linarith
    have b2 : prob (book cfg) o2 (ks.drop o1.length) ≤ prob (book cfg) o2 (List.replicate o2.length K) := by
      by_cases h : ks.drop o1.length = List.replicate o2.length K
      · rw [h]
      · have := h2.best _ l2 hk2 h
        linarith
    have pp : prob (book cfg) o1 (ks.take o1.length) * prob (book cfg) o2 (ks.drop o1.length) ≤
        9 / 10 * (prob (book cfg) o1 (List.replicate o1.length K) * prob (book cfg) o2 (List.replicate o2.length K)) := by
      by_cases h : ks.take o1.length = List.replicate o1.length K
      · have h' : ks.drop o1.length ≠ List.replicate o2.length K := by
          intro h'
          apply hne
          rw [List.length_append, List.replicate_add, ← h, ← h', List.take_append_drop]
        have := h2.best _ l2 hk2 h'
        calc _ ≤ prob (book cfg) o1 (List.replicate o1.length K) * (9 / 10 * prob (book cfg) o2 (List.replicate o2.length K)) :=
              mul_le_mul b1 this p2 g1.le
          _ = _ := by ring
      · have := h1.best _ l1 hk1 h
        calc _ ≤ (9 / 10 * prob (book cfg) o1 (List.replicate o1.length K)) * prob (book cfg) o2 (List.replicate o2.length K) :=
              mul_le_mul this b2 p2 (by positivity)
          _ = _ := by ring
    calc _ ≤ 24 * (book cfg).trans K K *
          (9 / 10 * (prob (book cfg) o1 (List.replicate o1.length K) * prob (book cfg) o2 (List.replicate o2.length K))) :=
          mul_le_mul (by linarith) pp (mul_nonneg p1 p2) (by positivity)
      _ = _ := by ring

theorem inKey_flatten {cfg : Config RD} (hc : Chosen cfg) (K : Int) (hK : IsKey K) : ∀ pieces : List (List Int), pieces ≠ [] →
    (∀ os ∈ pieces, InKey cfg K os) → InKey cfg K pieces.flatten := by
  intro pieces
  induction pieces with
  | nil => intro h; exact absurd rfl h
  | cons a l ih =>
    intro _ h
    cases l with
    | nil => simpa using h a (by simp)
    | cons b l => exact inKey_append hc K hK a _ (h a (by simp)) (ih (by simp) (fun os ho => h os (by simp [ho])))

/-- **C138 (partial), pieces in one key.**  Pieces in the key `K`, played one after the other in any order and any number of times, are
heard in `K` from beginning to end. -/
theorem C138_joined_partial {η : ℝ} (lg : ℝ → RD) (hok : LogOk lg) (hlg : LogClose η lg) (hη : η ≤ (2 : ℝ) ^ (-30 : ℤ))
    (iter₁ iter₂ : Iter RD) (hi₁ : iter₁.Ok) (hi₂ : iter₂.Ok) (cfg : Config RD) (hc : Chosen cfg)
    (K : Int) (hK : IsKey K) (pieces : List (List Int)) (hne : pieces ≠ [])
    (hp : ∀ os ∈ pieces, InKey cfg K os) (hn : pieces.flatten.length ≤ 2 ^ 19) :
    ∃ d, detect (ieee lg) iter₁ iter₂ cfg (pieces.flatten.map PitchClass.ofInt) = .ok (.ok d) ∧
      d.localKeys = List.replicate pieces.flatten.length (Key.ofInt K) ∧ d.mainKey = Key.ofInt K := by
  obtain ⟨h1, h2, h3, h4⟩ := inKey_flatten hc K hK pieces hne hp
  exact heard lg hok hlg hη iter₁ iter₂ hi₁ hi₂ cfg hc K hK _ hn h1 h2 h3 h4

/-- Every textbook piece is a piece in one key. -/
theorem textbook_inKey (cfg : Config RD) (hc : Chosen cfg) (hT : cfg.keyTransition = "exponential10")
    (hp : cfg.majorKeyProfile = "krumhansl_kessler" ↔ cfg.minorKeyProfile = "krumhansl_kessler") (K : Int) (hK : IsKey K)
    (os : List Int) (h : Textbook K os) : InKey cfg K os := by
  obtain ⟨h1, h2, h3, h4⟩ := C125_most_probable cfg hc hT hp K hK os h
  exact ⟨h1, h2, h3, h4⟩

/-! ### Repeats change the key -/

/-- A tune as a MIDI track: quarter notes from middle C. -/
def track (os : List Nat) : List (List Nat) := os.flatMap (fun o => [[0x90, 60 + o, 64], [0x80, 60 + o, 64]])

theorem track_heard (os : List Nat) (h : ∀ o ∈ os, o < 12) : (∀ ev ∈ track os, Midi.WellFormed ev) ∧
    ((track os).filterMap Midi.sounding).map (fun p => PitchClass.ofInt ((p % 12 : Nat) : Int)) =
      (os.map (fun o : Nat => (o : Int))).map PitchClass.ofInt := by
  induction os with
  | nil => exact ⟨by simp [track], rfl⟩
  | cons o os ih =>
    obtain ⟨i1, i2⟩ := ih (fun q hq => h q (by simp [hq]))
    have ho := h o (by simp)
    obtain ⟨w, s⟩ := note_ok (c := 0) (p := 60 + o) (v := 64) (by omega) (by omega) (by omega) (by omega)
    have e : track (o :: os) = [0x90, 60 + o, 64] :: [0x80, 60 + o, 64] :: track os := rfl
    have s' : Midi.sounding [0x80, 60 + o, 64] = none := by
      simp [Midi.sounding]
    have w' : Midi.WellFormed [0x80, 60 + o, 64] := by
      refine ⟨fun b hb => ?_, 0x80, [60 + o, 64], rfl, fun _ => by simp⟩
      simp only [List.mem_cons, List.not_mem_nil, or_false] at hb
      omega
    refine ⟨?_, ?_⟩
    · intro ev hev
      rw [e] at hev
      rcases List.mem_cons.1 hev with rfl | hev
      · exact w
      · rcases List.mem_cons.1 hev with rfl | hev
        · exact w'
        · exact i1 ev hev
    · rw [e, List.filterMap_cons_some s, List.filterMap_cons_none s', List.map_cons, i2]
      have : (((60 + o) % 12 : Nat) : Int) = o := by omega
      rw [this]
      rfl

/-- The run of a file with the default options. -/
def defaultParsed {D S P T : Type} (E : Env D S P T) (file : Str) (it : InputType) : Parsed D := {
  filename := file, inputType := some it
  cfg := { keyTransition := "exponential10", majorKeyProfile := "sapp", minorKeyProfile := "sapp"
           customKeyTransition := E.junkTransition, majorCustomKeyProfile := E.junkMajor
           minorCustomKeyProfile := E.junkMinor }
  justEvaluation := false, justProbabilities := false, chromaOnly := false }

/-- What the program prints for a file that is read as a tune whose local keys are clear, with the default options. -/
theorem clear_read {S P T : Type} {η : ℝ} (lg : ℝ → RD) (hok : LogOk lg) (hlg : LogClose η lg) (hη : η ≤ (2 : ℝ) ^ (-30 : ℤ))
    (E : Env RD S P T) (hF : E.F = ieee lg) (hi₁ : HMM.Iter.Ok E.iter₁) (hi₂ : HMM.Iter.Ok E.iter₂)
    (hj : E.junkMajor.length = 12 ∧ E.junkMinor.length = 12 ∧ E.junkTransition.length = 24)
    (file : Str) (it : InputType) (hin : chooseInput E (Options.default file) file = .ok (.ok (some it)))
    (ps : List (Nat × Nat)) (hread : readInput E (defaultParsed E file it) = .ok (.ok ((ps.map (fun p => (p.1 : Int))).map PitchClass.ofInt)))
    (hp : ∀ p ∈ ps, p.1 < 12 ∧ p.2 < 24) (hn : ps.length ≤ 2 ^ 18)
    (hclear : clearPiece (majNat "sapp") (minNat "sapp") ps = true) (K : Int) (hK : IsKey K)
    (hk : ∀ k ∈ keys, k ≠ K → 25 * (ps.map (fun p => goQ "exponential10" k (p.2 : Int))).prod ≤
      24 * (ps.map (fun p => goQ "exponential10" K (p.2 : Int))).prod) :
    main E (.ok (Options.default file)) = keyLine (Key.ofInt K) >>= fun line => .ok { stdout := line, stderr := [], code := 0 } := by
  have hparse : parseArgs E (.ok (Options.default file)) = .ok (.ok (defaultParsed E file it)) := by
    have ha : (Options.default file).args = [file] := rfl
    simp only [parseArgs, ha, hin, Res.bind_ok]
    rfl
  have hch : Chosen (defaultParsed E file it).cfg := ⟨⟨hj.2.2, hj.1, hj.2.1⟩, (by decide : "sapp" ∈ profileChoices),
    (by decide : "sapp" ∈ profileChoices), (by decide : "exponential10" ∈ transitionChoices)⟩
  obtain ⟨h1, h2, h3, h4, h5⟩ := clear_decided hη (defaultParsed E file it).cfg hch rfl ps hp hn hclear K hk
  obtain ⟨d, hd, _, hmain⟩ := C121_decided lg hok hlg E.iter₁ E.iter₂ hi₁ hi₂ (defaultParsed E file it).cfg hch _ h1 h2
    (by rw [List.length_map]; exact hn.trans (by norm_num)) _ (by simp) h3 h4 K hK h5
  have hpr : printResult E (defaultParsed E file it) d = keyLine (Key.ofInt K) := by
    simp [printResult, defaultParsed, hmain]
  simp only [main, hparse, hread, Res.bind_ok, hF, hd, hpr, Res.pure_eq]

/-- What the program prints for a MIDI file in which a tune whose local keys are clear sounds, with the default options. -/
theorem clear_events {S P T : Type} {η : ℝ} (lg : ℝ → RD) (hok : LogOk lg) (hlg : LogClose η lg) (hη : η ≤ (2 : ℝ) ^ (-30 : ℤ))
    (E : Env RD S P T) (hF : E.F = ieee lg) (hi₁ : HMM.Iter.Ok E.iter₁) (hi₂ : HMM.Iter.Ok E.iter₂)
    (hj : E.junkMajor.length = 12 ∧ E.junkMinor.length = 12 ∧ E.junkTransition.length = 24) (hs : E.strictMidi = false)
    (file ext : Str) (hx : HasExtension file ext) (hl : file.length < npos)
    (hm : ext.map Char.toLower = "mid".toList ∨ ext.map Char.toLower = "midi".toList)
    (ps : List (Nat × Nat)) (hw : ∀ ev ∈ E.midiEvents file, Midi.WellFormed ev)
    (hev : (E.midiEvents file).filterMap Midi.sounding = (track (ps.map (·.1))).filterMap Midi.sounding)
    (hp : ∀ p ∈ ps, p.1 < 12 ∧ p.2 < 24) (hn : ps.length ≤ 2 ^ 18)
    (hclear : clearPiece (majNat "sapp") (minNat "sapp") ps = true) (K : Int) (hK : IsKey K)
    (hk : ∀ k ∈ keys, k ≠ K → 25 * (ps.map (fun p => goQ "exponential10" k (p.2 : Int))).prod ≤
      24 * (ps.map (fun p => goQ "exponential10" K (p.2 : Int))).prod) :
    main E (.ok (Options.default file)) = keyLine (Key.ofInt K) >>= fun line => .ok { stdout := line, stderr := [], code := 0 } := by
  obtain ⟨_, q⟩ := track_heard (ps.map (·.1)) (by intro o ho; obtain ⟨a, ha, rfl⟩ := List.mem_map.1 ho; exact (hp a ha).1)
  rw [List.map_map] at q
  refine clear_read lg hok hlg hη E hF hi₁ hi₂ hj file .midi ((C36_extension_partial E (Options.default file) file ext rfl hx hl).2.2.1 hm)
    ps ?_ hp hn hclear K hK hk
  have := Midi.C34_events_partial (E.midiEvents file) hw
  have hp : (defaultParsed E file .midi).inputType = some .midi := rfl
  have hf : (defaultParsed E file .midi).filename = file := rfl
  simp only [readInput, hp, hf, Res.bind_ok, if_true, hs, this]
  rw [if_neg (by simp [Midi.getStatus, Midi.construct]), hev, q, List.map_map, List.map_map]
  rfl

/-- What the program prints for a MIDI file with a tune whose local keys are clear, with the default options. -/
theorem clear_main {S P T : Type} {η : ℝ} (lg : ℝ → RD) (hok : LogOk lg) (hlg : LogClose η lg) (hη : η ≤ (2 : ℝ) ^ (-30 : ℤ))
    (E : Env RD S P T) (hF : E.F = ieee lg) (hi₁ : HMM.Iter.Ok E.iter₁) (hi₂ : HMM.Iter.Ok E.iter₂)
    (hj : E.junkMajor.length = 12 ∧ E.junkMinor.length = 12 ∧ E.junkTransition.length = 24) (hs : E.strictMidi = false)
    (file ext : Str) (hx : HasExtension file ext) (hl : file.length < npos)
    (hm : ext.map Char.toLower = "mid".toList ∨ ext.map Char.toLower = "midi".toList)
    (ps : List (Nat × Nat)) (hev : E.midiEvents file = track (ps.map (·.1))) (hp : ∀ p ∈ ps, p.1 < 12 ∧ p.2 < 24) (hn : ps.length ≤ 2 ^ 18)
    (hclear : clearPiece (majNat "sapp") (minNat "sapp") ps = true) (K : Int) (hK : IsKey K)
    (hk : ∀ k ∈ keys, k ≠ K → 25 * (ps.map (fun p => goQ "exponential10" k (p.2 : Int))).prod ≤
      24 * (ps.map (fun p => goQ "exponential10" K (p.2 : Int))).prod) :
    main E (.ok (Options.default file)) = keyLine (Key.ofInt K) >>= fun line => .ok { stdout := line, stderr := [], code := 0 } := by
  obtain ⟨w, _⟩ := track_heard (ps.map (·.1)) (by intro o ho; obtain ⟨a, ha, rfl⟩ := List.mem_map.1 ho; exact (hp a ha).1)
  exact clear_events lg hok hlg hη E hF hi₁ hi₂ hj hs file ext hx hl hm ps (by rw [hev]; exact w) (by rw [hev]) hp hn hclear K hK hk

/-- E E D E C C♯ D E. -/
def tune : List Nat := [4, 4, 2, 4, 0, 1, 2, 4]

/-- **C138 is violated.**  A tune of eight notes that is in A minor when it is played once and in D minor when it is repeated. -/
theorem C138_repeat_violated {S P T : Type} {η : ℝ} (lg : ℝ → RD) (hok : LogOk lg) (hlg : LogClose η lg)
    (hη : η ≤ (2 : ℝ) ^ (-30 : ℤ)) (E : Env RD S P T) (hF : E.F = ieee lg) (hi₁ : HMM.Iter.Ok E.iter₁) (hi₂ : HMM.Iter.Ok E.iter₂)
    (hj : E.junkMajor.length = 12 ∧ E.junkMinor.length = 12 ∧ E.junkTransition.length = 24) (hs : E.strictMidi = false)
    (once twice ext ext' : Str) (hx : HasExtension once ext) (hx' : HasExtension twice ext') (hl : once.length < npos)
    (hl' : twice.length < npos) (hm : ext.map Char.toLower = "mid".toList ∨ ext.map Char.toLower = "midi".toList)
    (hm' : ext'.map Char.toLower = "mid".toList ∨ ext'.map Char.toLower = "midi".toList)
    (he : E.midiEvents once = track tune) (he' : E.midiEvents twice = track tune ++ track tune) :
    main E (.ok (Options.default once)) = .ok { stdout := "A\tminor\n".toList, stderr := [], code := 0 } ∧
    main E (.ok (Options.default twice)) = .ok { stdout := "D\tminor\n".toList, stderr := [], code := 0 } := by
  have r1 : keyLine (Key.ofInt 21) = .ok "A\tminor\n".toList := by decide +kernel
  have r2 : keyLine (Key.ofInt 14) = .ok "D\tminor\n".toList := by decide +kernel
  constructor
  · rw [clear_main lg hok hlg hη E hF hi₁ hi₂ hj hs once ext hx hl hm
      [(4, 21), (4, 21), (2, 21), (4, 21), (0, 21), (1, 9), (2, 9), (4, 9)] he (by decide) (by decide) (by decide +kernel) 21 (by decide)
      (by decide +kernel), r1]
    rfl
  · rw [clear_main lg hok hlg hη E hF hi₁ hi₂ hj hs twice ext' hx' hl' hm'
      [(4, 14), (4, 14), (2, 14), (4, 14), (0, 14), (1, 14), (2, 14), (4, 14), (4, 14), (4, 14), (2, 14), (4, 14), (0, 14), (1, 14),
        (2, 14), (4, 14)] he' (by decide) (by decide) (by decide +kernel) 14 (by decide) (by decide +kernel), r2]
    rfl

/-! ### Cases -/

/-- Two bars of "Frère Jacques" and a cadence, each in G major; they may be joined and repeated. -/
example (a b : List (List Nat)) (ha : a = [[0, 2, 4, 0, 0, 2, 4, 0, 4, 5, 7, 4, 5, 7, 7, 9, 7, 5, 4, 0, 7, 9, 7, 5, 4, 0, 0, 7, 0, 0, 7, 0]])
    (hb : b = [[0, 4, 7, 5, 9, 0, 7, 11, 2, 0, 4, 7]]) : ∀ os ∈ [played 7 a, played 7 b, played 7 a], InKey plain 7 os := by
  subst ha hb
  intro os ho
  refine textbook_inKey plain plain_chosen rfl (by decide) 7 (by decide) os ?_
  simp only [List.mem_cons, List.not_mem_nil, or_false] at ho
  rcases ho with rfl | rfl | rfl
  · exact ⟨_, by decide, by decide, rfl⟩
  · exact ⟨_, by decide, by decide, rfl⟩
  · exact ⟨_, by decide, by decide, rfl⟩

end JKD.Phrases
