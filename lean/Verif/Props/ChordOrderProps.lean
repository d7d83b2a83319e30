import Verif.Props.RepeatProps
/-
C140: the order in which the simultaneous notes of a chord are listed.
-/

namespace JKD.Phrases

open Spec HMM RD Detect Main

/-! ### Pieces in one key -/

theorem moves_const (t : Tables ℝ) (K : Int) (n : Nat) : moves t (List.replicate n K) = t.trans K K ^ (n - 1) := by
  induction n with
  | zero => simp [moves]
  | succ n ih =>
    cases n with
    | zero => simp [moves]
    | succ n =>
      rw [List.replicate_succ, List.replicate_succ, moves, ← List.replicate_succ, ih]
      simp only [Nat.add_sub_cancel]
      ring

theorem plays_const (t : Tables ℝ) (K : Int) (os : List Int) : plays t (List.replicate os.length K) os = (os.map (t.emis K)).prod := by
  induction os with
  | nil => rfl
  | cons o os ih =>
    simp only [plays, List.length_cons, List.replicate_succ, List.zipWith_cons_cons, List.prod_cons, List.map_cons] at *
    rw [ih]

/-- How well one key throughout explains a piece does not depend on the order of the notes. -/
theorem prob_perm {cfg : Config RD} (K : Int) (hK : IsKey K) (os os' : List Int) (hne : os ≠ []) (h : os.Perm os') :
    prob (book cfg) os (List.replicate os.length K) = prob (book cfg) os' (List.replicate os'.length K) := by
  have hi : ∀ n, ∀ k ∈ List.replicate n K, (book cfg).init k = 1 / 24 := by
    intro n k hk
    rw [List.eq_of_mem_replicate hk]
    simp only [book]
    rw [if_pos (mem_keys.2 hK)]
  have hne' : os' ≠ [] := by
    rintro rfl
    exact hne h.eq_nil
  rw [prob_split _ (1 / 24) os _ (by simp) hne (hi _), prob_split _ (1 / 24) os' _ (by simp) hne' (hi _), plays_const, plays_const,
    moves_const, moves_const, h.length_eq, (h.map _).prod_eq]

/-- **C140 (partial), pieces in one key.**  The notes of a piece in one key from beginning to end may be listed in any other order: if
this is a piece in one key again, it is the same key, and both lists are heard in it. -/
theorem C140_one_key_partial {η : ℝ} (lg : ℝ → RD) (hok : LogOk lg) (hlg : LogClose η lg) (hη : η ≤ (2 : ℝ) ^ (-30 : ℤ))
    (iter₁ iter₂ : Iter RD) (hi₁ : iter₁.Ok) (hi₂ : iter₂.Ok) (cfg : Config RD) (hc : Chosen cfg)
    (K K' : Int) (hK : IsKey K) (hK' : IsKey K') (os os' : List Int) (hp : os.Perm os')
    (h : InKey cfg K os) (h' : InKey cfg K' os') (hn : os.length ≤ 2 ^ 19) :
    K = K' ∧ ∃ d d', detect (ieee lg) iter₁ iter₂ cfg (os.map PitchClass.ofInt) = .ok (.ok d) ∧
      detect (ieee lg) iter₁ iter₂ cfg (os'.map PitchClass.ofInt) = .ok (.ok d') ∧ d.mainKey = Key.ofInt K ∧
      d'.mainKey = d.mainKey ∧ d'.localKeys = d.localKeys := by
  have hKK : K = K' := by
    by_contra hne
    have e1 := prob_perm (cfg := cfg) K hK os os' h.notes hp
    have e2 := prob_perm (cfg := cfg) K' hK' os os' h.notes hp
    have len : 0 < os.length := List.length_pos_iff.2 h.notes
    have len' : 0 < os'.length := List.length_pos_iff.2 h'.notes
    have b1 := h.best (List.replicate os.length K') (by simp) (fun k hk => by rw [List.eq_of_mem_replicate hk]; exact hK')
      (fun e => hne (List.replicate_right_injective len.ne' e).symm)
    have b2 := h'.best (List.replicate os'.length K) (by simp) (fun k hk => by rw [List.eq_of_mem_replicate hk]; exact hK)
      (fun e => hne (List.replicate_right_injective len'.ne' e))
    have p1 := h.possible
    have p2 := h'.possible
    rw [e1] at p1 b1
    rw [e2] at b1
    linarith
  subst hKK
  refine ⟨rfl, ?_⟩
  obtain ⟨d, h1, h2, h3⟩ := heard lg hok hlg hη iter₁ iter₂ hi₁ hi₂ cfg hc K hK os hn h.notes h.range h.possible h.best
  obtain ⟨d', h1', h2', h3'⟩ := heard lg hok hlg hη iter₁ iter₂ hi₁ hi₂ cfg hc K hK os' (hp.length_eq ▸ hn) h'.notes h'.range
    h'.possible h'.best
  exact ⟨d, d', h1, h1', h3, by rw [h3', h3], by rw [h2', h2, hp.length_eq]⟩

/-! ### Chords -/

/-- A MIDI track of chords: the notes of each one sound together, in the order in which they are listed. -/
def chordTrack (chords : List (List Nat)) : List (List Nat) := chords.flatMap (fun c =>
  c.map (fun o => [0x90, 60 + o, 64]) ++ c.map (fun o => [0x80, 60 + o, 64]))

theorem chordTrack_heard (chords : List (List Nat)) (h : ∀ c ∈ chords, ∀ o ∈ c, o < 12) :
    (∀ ev ∈ chordTrack chords, Midi.WellFormed ev) ∧
    (chordTrack chords).filterMap Midi.sounding = (track chords.flatten).filterMap Midi.sounding := by
  have off : ∀ c : List Nat, (c.map (fun o => [0x80, 60 + o, 64])).filterMap Midi.sounding = [] := by
    intro c
    induction c with
    | nil => rfl
    | cons o c ih =>
      have s' : Midi.sounding [0x80, 60 + o, 64] = none := by simp [Midi.sounding]
      rw [List.map_cons, List.filterMap_cons_none s', ih]
  have one : ∀ c : List Nat, (∀ o ∈ c, o < 12) →
      (c.map (fun o => [0x90, 60 + o, 64])).filterMap Midi.sounding = (track c).filterMap Midi.sounding := by
    intro c
    induction c with
    | nil => intro _; rfl
    | cons o c ih =>
      intro hc
      have ho := hc o (by simp)
      obtain ⟨_, s⟩ := note_ok (c := 0) (p := 60 + o) (v := 64) (by omega) (by omega) (by omega) (by omega)
      have s' : Midi.sounding [0x80, 60 + o, 64] = none := by simp [Midi.sounding]
      have e : track (o :: c) = [0x90, 60 + o, 64] :: [0x80, 60 + o, 64] :: track c := rfl
      rw [e, List.map_cons, List.filterMap_cons_some s, List.filterMap_cons_some s, List.filterMap_cons_none s',
        ih (fun q hq => hc q (by simp [hq]))]
  constructor
  · intro ev hev
    obtain ⟨c, hc, hev⟩ := List.mem_flatMap.1 hev
    rcases List.mem_append.1 hev with hev | hev
    · obtain ⟨o, ho, rfl⟩ := List.mem_map.1 hev
      have := h c hc o ho
      exact (note_ok (c := 0) (p := 60 + o) (v := 64) (by omega) (by omega) (by omega) (by omega)).1
    · obtain ⟨o, ho, rfl⟩ := List.mem_map.1 hev
      have := h c hc o ho
      refine ⟨fun b hb => ?_, 0x80, [60 + o, 64], rfl, fun _ => by simp⟩
      simp only [List.mem_cons, List.not_mem_nil, or_false] at hb
      omega
  · induction chords with
    | nil => rfl
    | cons c cs ih =>
      have e : chordTrack (c :: cs) = (c.map (fun o => [0x90, 60 + o, 64]) ++ c.map (fun o => [0x80, 60 + o, 64])) ++ chordTrack cs := rfl
      have e' : track (c :: cs).flatten = track c ++ track cs.flatten := by simp [track]
      rw [e, e', List.filterMap_append, List.filterMap_append, List.filterMap_append, off, one c (h c (by simp)),
        ih (fun c' hc' => h c' (by simp [hc'])), List.append_nil]

/-- **Specification.**  Two lists of chords with the same notes, chord by chord. -/
def SameChords (a b : List (List Nat)) : Prop := List.Forall₂ List.Perm a b

/-- D major, G major with a minor seventh, A minor. -/
def chords : List (List Nat) := [[2, 6, 9], [7, 11, 2, 5], [9, 0, 4]]

/-- The same chords, the second one listed from D upwards. -/
def chords' : List (List Nat) := [[2, 6, 9], [2, 5, 7, 11], [9, 0, 4]]

/-- **C140 is violated.**  Three chords are in G major or in C major, depending on the order in which the four simultaneous notes of the
second one are listed. -/
theorem C140_order_violated {S P T : Type} {η : ℝ} (lg : ℝ → RD) (hok : LogOk lg) (hlg : LogClose η lg)
    (hη : η ≤ (2 : ℝ) ^ (-30 : ℤ)) (E : Env RD S P T) (hF : E.F = ieee lg) (hi₁ : HMM.Iter.Ok E.iter₁) (hi₂ : HMM.Iter.Ok E.iter₂)
    (hj : E.junkMajor.length = 12 ∧ E.junkMinor.length = 12 ∧ E.junkTransition.length = 24) (hs : E.strictMidi = false)
    (a b ext ext' : Str) (hx : HasExtension a ext) (hx' : HasExtension b ext') (hl : a.length < npos)
    (hl' : b.length < npos) (hm : ext.map Char.toLower = "mid".toList ∨ ext.map Char.toLower = "midi".toList)
    (hm' : ext'.map Char.toLower = "mid".toList ∨ ext'.map Char.toLower = "midi".toList)
    (he : E.midiEvents a = chordTrack chords) (he' : E.midiEvents b = chordTrack chords') :
    SameChords chords chords' ∧
    main E (.ok (Options.default a)) = .ok { stdout := "G\tmajor\n".toList, stderr := [], code := 0 } ∧
    main E (.ok (Options.default b)) = .ok { stdout := "C\tmajor\n".toList, stderr := [], code := 0 } := by
  have r1 : keyLine (Key.ofInt 7) = .ok "G\tmajor\n".toList := by decide +kernel
  have r2 : keyLine (Key.ofInt 0) = .ok "C\tmajor\n".toList := by decide +kernel
  obtain ⟨w, q⟩ := chordTrack_heard chords (by decide)
  obtain ⟨w', q'⟩ := chordTrack_heard chords' (by decide)
  refine ⟨.cons (.refl _) (.cons (by decide) (.cons (.refl _) .nil)), ?_, ?_⟩
  · rw [clear_events lg hok hlg hη E hF hi₁ hi₂ hj hs a ext hx hl hm
      [(2, 7), (6, 7), (9, 7), (7, 7), (11, 7), (2, 7), (5, 0), (9, 0), (0, 0), (4, 0)] (by rw [he]; exact w) (by rw [he]; exact q)
      (by decide) (by decide) (by decide +kernel) 7 (by decide) (by decide +kernel), r1]
    rfl
  · rw [clear_events lg hok hlg hη E hF hi₁ hi₂ hj hs b ext' hx' hl' hm'
      [(2, 7), (6, 7), (9, 7), (2, 7), (5, 0), (7, 0), (11, 0), (9, 0), (0, 0), (4, 0)] (by rw [he']; exact w') (by rw [he']; exact q')
      (by decide) (by decide) (by decide +kernel) 0 (by decide) (by decide +kernel), r2]
    rfl

/-! ### Cases -/

/-- The scale of G major, upwards and downwards. -/
example : InKey plain 7 (played 7 [[0, 2, 4, 5, 7, 9, 11, 0]]) ∧ InKey plain 7 (played 7 [[0, 11, 9, 7, 5, 4, 2, 0]]) ∧
    (played 7 [[0, 2, 4, 5, 7, 9, 11, 0]]).Perm (played 7 [[0, 11, 9, 7, 5, 4, 2, 0]]) :=
  ⟨textbook_inKey plain plain_chosen rfl (by decide) 7 (by decide) _ ⟨_, by decide, by decide, rfl⟩,
    textbook_inKey plain plain_chosen rfl (by decide) 7 (by decide) _ ⟨_, by decide, by decide, rfl⟩, by decide⟩

end JKD.Phrases
