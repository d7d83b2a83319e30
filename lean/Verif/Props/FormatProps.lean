import Verif.Props.MalformedProps
import Verif.Props.MidiFileProps
/-
C150: the same piece as a MIDI file and as a chroma file.
-/

namespace JKD.Phrases

open Spec HMM RD Detect Main Chromagram

/-- **Specification.**  Two chords are heard apart if one of them has a pitch class that the other one lacks. -/
def Differ (a b : List Nat) : Prop := ∃ pc < 12, ¬ (pc ∈ a ↔ pc ∈ b)

instance (a b : List Nat) : Decidable (Differ a b) := by unfold Differ; infer_instance

/-- **Specification.**  The pitch classes of the chords, one after the other; those of one chord in the order of the keyboard from C. -/
def keyboard (chords : List (List Nat)) : List Int :=
  (chords.flatMap (fun c => (List.range 12).filter (· ∈ c))).map (fun i : Nat => (i : Int))

theorem chordRow_differ (lg : ℝ → RD) (s t : Str × RD) (a b : List Nat) (h : Differ a b) :
    sameVector (ieee lg) ((chordRow s a).heard (ieee lg)) ((chordRow t b).heard (ieee lg)) = false := by
  obtain ⟨pc, hpc, hd⟩ := h
  rw [← Bool.not_eq_true]
  intro he
  rw [show ieee lg = RD.fpu RD.binary64 lg from rfl, C32_same_vector RD.binary64 lg _ _ (by rw [heard_length, heard_length]) ?_] at he
  · change (chordRow s a).heard (ieee lg) = (chordRow t b).heard (ieee lg) at he
    rw [chordRow_heard, chordRow_heard] at he
    have := congrArg (fun l => l[pc]?) he
    simp only [List.getElem?_map, List.getElem?_range hpc, Option.map_some, Option.some.injEq] at this
    by_cases ha : pc ∈ a
    · have hb : pc ∉ b := fun hb => hd ⟨fun _ => hb, fun _ => ha⟩
      simp [ha, hb] at this
    · have hb : pc ∈ b := by
        by_contra hb
        exact hd ⟨fun h => absurd h ha, fun h => absurd h hb⟩
      simp [ha, hb] at this
  · intro x hx
    change x ∈ (chordRow s a).heard (ieee lg) at hx
    rw [chordRow_heard] at hx
    obtain ⟨i, _, rfl⟩ := List.mem_map.1 hx
    split <;> simp

/-- The frames of a piece. -/
theorem chords_frames (lg : ℝ → RD) (g : List RD) : ∀ piece : List ((Str × RD) × List Nat),
    piece.IsChain (fun a b => Differ a.2 b.2) →
    (∀ p, piece.getLast? = some p → sameVector (ieee lg) ((chordRow p.1 p.2).heard (ieee lg)) g = false) → ∀ seq,
    framesLoop (ieee lg) (some g) ((piece.map (fun p => chordRow p.1 p.2)).map (Row.heard (ieee lg))) seq =
      .ok (seq ++ (keyboard (piece.map (·.2))).map PitchClass.ofInt) := by
  intro piece
  induction piece with
  | nil => intro _ _ seq; simp [framesLoop, keyboard]
  | cons p piece ih =>
    intro hch hlast seq
    obtain ⟨s, f⟩ := chordRow_safe lg p.1 p.2
    have hp : ∀ seq, pushFrame (ieee lg) ((chordRow p.1 p.2).heard (ieee lg)) seq =
        .ok (seq ++ (((List.range 12).filter (· ∈ p.2)).map (fun i : Nat => (i : Int))).map PitchClass.ofInt) := by
      intro seq
      rw [pushFrame_safe _ s, frameSpec_ints, f]
    cases piece with
    | nil =>
      rw [List.map_cons, List.map_nil, List.map_cons, List.map_nil, framesLoop_one g _ (hlast p rfl), hp]
      simp [keyboard]
    | cons q piece =>
      have ih := ih hch.tail (fun r hr => hlast r (by rw [List.getLast?_cons_cons]; exact hr))
      simp only [List.map_cons] at ih ⊢
      rw [framesLoop_two, if_neg (by rw [chordRow_differ lg _ _ _ _ hch.rel]; simp), hp, Res.bind_ok, ih]
      simp [keyboard]

/-- **C150 (partial).**  A piece of chords, each of which differs from the one before, as a chroma file with two units for every
sounding pitch class, and as a MIDI file in which the notes of every chord are listed in the order of the keyboard: both get the same
answer. -/
theorem C150_same_partial {S P T : Type} (lg : ℝ → RD) (E : Env RD S P T) (hF : E.F = ieee lg) (hs : E.strictMidi = false)
    (h0 : E.stof "0".toList = .ok (fin 0)) (h2 : E.stof "2".toList = .ok (fin 2)) (piece : List ((Str × RD) × List Nat))
    (htime : ∀ p ∈ piece, ∃ x, p.1.2 = fin x ∧ ',' ∉ p.1.1 ∧ '\n' ∉ p.1.1 ∧ p.1.1 ≠ [] ∧ E.stof p.1.1 = .ok p.1.2)
    (horder : piece.Pairwise (fun a b => RD.lt a.1.2 b.1.2 = true)) (hdiff : piece.IsChain (fun a b => Differ a.2 b.2))
    (g : List RD) (hpast : E.past = some g)
    (hlast : ∀ p, piece.getLast? = some p → sameVector (ieee lg) ((chordRow p.1 p.2).heard (ieee lg)) g = false)
    (csv mid ext ext' : Str) (hx : HasExtension csv ext) (hx' : HasExtension mid ext') (hl : csv.length < npos)
    (hl' : mid.length < npos) (hm : ext.map Char.toLower = "csv".toList)
    (hm' : ext'.map Char.toLower = "mid".toList ∨ ext'.map Char.toLower = "midi".toList)
    (hcsv : E.csvFile csv = some (csvText (piece.map (fun p => chordRow p.1 p.2))))
    (hw : ∀ ev ∈ E.midiEvents mid, Midi.WellFormed ev)
    (hnotes : ((E.midiEvents mid).filterMap Midi.sounding).map (fun p : Nat => ((p % 12 : Nat) : Int)) = keyboard (piece.map (·.2))) :
    main E (.ok (Options.default mid)) = main E (.ok (Options.default csv)) := by
  have hO : OrderLaws E.F := by rw [hF]; exact RD.orderLaws RD.binary64 lg
  have r1 : readInput E (defaultParsed E csv .csv) = .ok (.ok ((keyboard (piece.map (·.2))).map PitchClass.ofInt)) := by
    rw [csv_read E hO _ ?_ ?_ csv hcsv, hF, hpast, chords_frames lg g piece hdiff hlast]
    · rfl
    · intro r hr
      obtain ⟨p, hp, rfl⟩ := List.mem_map.1 hr
      obtain ⟨x, a, b, c, d, e⟩ := htime p hp
      refine ⟨⟨?_, ⟨b, c, d, e⟩, ?_⟩, by simp [chordRow]⟩
      · rw [hF]
        change RD.eq p.1.2 p.1.2 = true
        rw [a]
        simp [RD.eq]
      · intro q hq
        obtain ⟨i, _, rfl⟩ := List.mem_map.1 hq
        split
        · exact ⟨by decide, by decide, by decide, h2⟩
        · exact ⟨by decide, by decide, by decide, h0⟩
    · rw [List.pairwise_map, hF]
      exact horder
  have r2 : readInput E (defaultParsed E mid .midi) = .ok (.ok ((keyboard (piece.map (·.2))).map PitchClass.ofInt)) := by
    have := Midi.C34_events_partial (E.midiEvents mid) hw
    have hp : (defaultParsed E mid .midi).inputType = some .midi := rfl
    have hf : (defaultParsed E mid .midi).filename = mid := rfl
    simp only [readInput, hp, hf, Res.bind_ok, if_true, hs, this]
    rw [if_neg (by simp [Midi.getStatus, Midi.construct]), ← hnotes, List.map_map]
    rfl
  have hparse : parseArgs E (.ok (Options.default mid)) = .ok (.ok (defaultParsed E mid .midi)) := by
    have ha : (Options.default mid).args = [mid] := rfl
    simp only [parseArgs, ha, (C36_extension_partial E (Options.default mid) mid ext' rfl hx' hl').2.2.1 hm', Res.bind_ok]
    rfl
  have hcfg : (defaultParsed E mid .midi).cfg = (defaultParsed E csv .csv).cfg := rfl
  have hpr : ∀ f it (d : Detection RD), printResult E (defaultParsed E f it) d = keyLine d.mainKey := by
    intro f it d
    simp [printResult, defaultParsed]
  simp only [main, csv_parsed E csv ext hx hl hm, hparse, Res.bind_ok, r1, r2, hcfg, hpr]

/-! ### Repeated notes -/

/-- C, E, E, E, G as a chroma file. -/
noncomputable def arpeggio : List (Row RD) :=
  [chordRow ("0".toList, fin 0) [0], chordRow ("1".toList, fin 1) [4], chordRow ("2".toList, fin 2) [4],
    chordRow ("3".toList, fin 3) [4], chordRow ("4".toList, fin 4) [7]]

set_option maxRecDepth 4000 in
theorem arpeggio_text : csvText arpeggio =
    ("0,0,0,0,2,0,0,0,0,0,0,0,0\n1,0,0,0,0,0,0,0,2,0,0,0,0\n2,0,0,0,0,0,0,0,2,0,0,0,0\n" ++
      "3,0,0,0,0,0,0,0,2,0,0,0,0\n4,0,0,0,0,0,0,0,0,0,0,2,0\n").toList := rfl

/-- **C150 is violated.**  The notes C, E, E, E, G are in C major as a chroma file and in E minor as a MIDI file. -/
theorem C150_repeated_violated {S P T : Type} {η : ℝ} (lg : ℝ → RD) (hok : LogOk lg) (hlg : LogClose η lg)
    (hη : η ≤ (2 : ℝ) ^ (-30 : ℤ)) (E : Env RD S P T) (hF : E.F = ieee lg) (hi₁ : HMM.Iter.Ok E.iter₁) (hi₂ : HMM.Iter.Ok E.iter₂)
    (hj : E.junkMajor.length = 12 ∧ E.junkMinor.length = 12 ∧ E.junkTransition.length = 24) (hs : E.strictMidi = false)
    (s0 : E.stof "0".toList = .ok (fin 0)) (s1 : E.stof "1".toList = .ok (fin 1)) (s2 : E.stof "2".toList = .ok (fin 2))
    (s3 : E.stof "3".toList = .ok (fin 3)) (s4 : E.stof "4".toList = .ok (fin 4))
    (g : List RD) (hpast : E.past = some g)
    (hlast : sameVector (ieee lg) ((chordRow ("4".toList, fin 4) [7]).heard (ieee lg)) g = false)
    (csv mid ext ext' : Str) (hx : HasExtension csv ext) (hx' : HasExtension mid ext') (hl : csv.length < npos)
    (hl' : mid.length < npos) (hm : ext.map Char.toLower = "csv".toList)
    (hm' : ext'.map Char.toLower = "mid".toList ∨ ext'.map Char.toLower = "midi".toList)
    (hcsv : E.csvFile csv = some (csvText arpeggio)) (hmid : E.midiEvents mid = track [0, 4, 4, 4, 7]) :
    main E (.ok (Options.default csv)) = .ok { stdout := "C\tmajor\n".toList, stderr := [], code := 0 } ∧
    main E (.ok (Options.default mid)) = .ok { stdout := "E\tminor\n".toList, stderr := [], code := 0 } := by
  have r1 : keyLine (Key.ofInt 0) = .ok "C\tmajor\n".toList := by decide +kernel
  have r2 : keyLine (Key.ofInt 16) = .ok "E\tminor\n".toList := by decide +kernel
  have hO : OrderLaws E.F := by rw [hF]; exact RD.orderLaws RD.binary64 lg
  have same : ∀ s t : Str × RD, ∀ a, sameVector (ieee lg) ((chordRow s a).heard (ieee lg)) ((chordRow t a).heard (ieee lg)) = true := by
    intro s t a
    rw [show ieee lg = RD.fpu RD.binary64 lg from rfl, C32_same_vector RD.binary64 lg _ _ (by rw [heard_length, heard_length]) ?_]
    · change (chordRow s a).heard (ieee lg) = (chordRow t a).heard (ieee lg)
      rw [chordRow_heard, chordRow_heard]
    · intro x hx
      change x ∈ (chordRow s a).heard (ieee lg) at hx
      rw [chordRow_heard] at hx
      obtain ⟨i, _, rfl⟩ := List.mem_map.1 hx
      split <;> simp
  constructor
  · rw [clear_read lg hok hlg hη E hF hi₁ hi₂ hj csv .csv ((C36_extension_partial E (Options.default csv) csv ext rfl hx hl).2.1 hm)
      [(0, 0), (4, 0), (7, 0)] ?_ (by decide) (by decide) (by decide +kernel) 0 (by decide) (by decide +kernel), r1]
    · rfl
    rw [csv_read E hO _ ?_ ?_ csv hcsv, hF, hpast]
    · have e := chords_frames lg g [(("0".toList, fin 0), [0]), (("3".toList, fin 3), [4]), (("4".toList, fin 4), [7])]
        (by simp only [List.isChain_cons_cons, List.isChain_singleton, and_true]; exact ⟨by decide, by decide⟩)
        (by
          intro p hp
          simp only [List.getLast?_cons_cons, List.getLast?_singleton, Option.some.injEq] at hp
          subst hp
          exact hlast) []
      simp only [List.map_cons, List.map_nil] at e
      simp only [arpeggio, List.map_cons, List.map_nil]
      rw [framesLoop_two, chordRow_differ lg _ _ _ _ (by decide)] at e
      rw [framesLoop_two, chordRow_differ lg _ _ _ _ (by decide)]
      simp only [Bool.false_eq_true, if_false] at e ⊢
      have skip : ∀ seq, framesLoop (ieee lg) (some g) [(chordRow ("1".toList, fin 1) [4]).heard (ieee lg),
          (chordRow ("2".toList, fin 2) [4]).heard (ieee lg), (chordRow ("3".toList, fin 3) [4]).heard (ieee lg),
          (chordRow ("4".toList, fin 4) [7]).heard (ieee lg)] seq =
          framesLoop (ieee lg) (some g) [(chordRow ("3".toList, fin 3) [4]).heard (ieee lg),
            (chordRow ("4".toList, fin 4) [7]).heard (ieee lg)] seq := by
        intro seq
        rw [framesLoop_two, if_pos (same _ _ _), framesLoop_two, if_pos (same _ _ _)]
      simp only [skip, e, Res.bind_ok]
      rfl
    · intro r hr
      have vals : ∀ time pcs, ∀ p ∈ (chordRow time pcs).vals, ',' ∉ p.1 ∧ '\n' ∉ p.1 ∧ p.1 ≠ [] ∧ E.stof p.1 = .ok p.2 := by
        intro time pcs p hp
        obtain ⟨i, _, rfl⟩ := List.mem_map.1 hp
        split
        · exact ⟨by decide, by decide, by decide, s2⟩
        · exact ⟨by decide, by decide, by decide, s0⟩
      have self : ∀ x, E.F.eq (fin x) (fin x) = true := by
        intro x
        rw [hF]
        change RD.eq (fin x) (fin x) = true
        simp [RD.eq]
      simp only [arpeggio, List.mem_cons, List.not_mem_nil, or_false] at hr
      rcases hr with rfl | rfl | rfl | rfl | rfl
      · exact ⟨⟨self 0, ⟨by simp [chordRow], by simp [chordRow], by simp [chordRow], s0⟩, vals _ _⟩, by simp [chordRow]⟩
      · exact ⟨⟨self 1, ⟨by simp [chordRow], by simp [chordRow], by simp [chordRow], s1⟩, vals _ _⟩, by simp [chordRow]⟩
      · exact ⟨⟨self 2, ⟨by simp [chordRow], by simp [chordRow], by simp [chordRow], s2⟩, vals _ _⟩, by simp [chordRow]⟩
      · exact ⟨⟨self 3, ⟨by simp [chordRow], by simp [chordRow], by simp [chordRow], s3⟩, vals _ _⟩, by simp [chordRow]⟩
      · exact ⟨⟨self 4, ⟨by simp [chordRow], by simp [chordRow], by simp [chordRow], s4⟩, vals _ _⟩, by simp [chordRow]⟩
    · rw [hF]
      simp only [arpeggio, List.pairwise_cons, List.mem_cons, List.not_mem_nil, or_false, forall_eq_or_imp, forall_eq, List.Pairwise.nil,
        and_true, IsEmpty.forall_iff, implies_true, chordRow]
      have lt : ∀ x y : ℝ, x < y → (ieee lg).lt (fin x) (fin y) = true := fun x y h => (RD.lt_fin_fin x y).2 h
      refine ⟨⟨lt _ _ ?_, lt _ _ ?_, lt _ _ ?_, lt _ _ ?_⟩, ⟨lt _ _ ?_, lt _ _ ?_, lt _ _ ?_⟩, ⟨lt _ _ ?_, lt _ _ ?_⟩, lt _ _ ?_⟩ <;> norm_num
  · rw [clear_main lg hok hlg hη E hF hi₁ hi₂ hj hs mid ext' hx' hl' hm' [(0, 16), (4, 16), (4, 16), (4, 16), (7, 16)] hmid
      (by decide) (by decide) (by decide +kernel) 16 (by decide) (by decide +kernel), r2]
    rfl

/-! ### A case -/

/-- C major, F major, C major as notes and as chords meets the hypotheses of `C150_same_partial`. -/
example : keyboard [[0, 4, 7], [0, 5, 9], [0, 4, 7]] = ((track [0, 4, 7, 0, 5, 9, 0, 4, 7]).filterMap Midi.sounding).map
    (fun p : Nat => ((p % 12 : Nat) : Int)) ∧ Differ [0, 4, 7] [0, 5, 9] ∧ Differ [0, 5, 9] [0, 4, 7] ∧ ¬ Differ [0, 4, 7] [7, 4, 0] := by
  decide +kernel

end JKD.Phrases
