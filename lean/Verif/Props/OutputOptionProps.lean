import Verif.Props.AgreeProps
/-
C149: the options that choose what is printed.
-/

namespace JKD.Main

open Spec

variable {D S P T : Type}

/-- `-e` only sets `justEvaluation`. -/
theorem parse_evaluation (E : Env D S P T) (o : Options) (b : Bool) (p : Parsed D) (h : parseArgs E (.ok o) = .ok (.ok p)) :
    p.justProbabilities = o.probabilities ∧ parseArgs E (.ok { o with evaluate := b }) = .ok (.ok { p with justEvaluation := b }) := by
  rcases parse_evaluate E o b with ⟨q, hq, h1, h2⟩ | ⟨hno, _⟩
  · rw [h] at hq
    cases hq
    exact ⟨h1, h2⟩
  · exact absurd h (hno p)

/-- `-c` only sets `chromaOnly`. -/
theorem parse_chroma (E : Env D S P T) (o : Options) (b : Bool) (p : Parsed D) (h : parseArgs E (.ok o) = .ok (.ok p)) :
    parseArgs E (.ok { o with chromaonly := b }) = .ok (.ok { p with chromaOnly := b }) := by
  have e1 : ∀ f, chooseInput E { o with chromaonly := b } f = chooseInput E o f := fun _ => rfl
  have e2 : chooseProfiles E { o with chromaonly := b } = chooseProfiles E o := rfl
  have e3 : chooseTransitions E { o with chromaonly := b } = chooseTransitions E o := rfl
  simp only [parseArgs, e1, e2, e3] at h ⊢
  split at h
  · rename_i filename hargs
    cases hci : chooseInput E o filename with
    | ub => rw [hci] at h; simp at h
    | throw e => rw [hci] at h; simp at h
    | ok r =>
      rw [hci] at h
      cases r with
      | error out => simp at h
      | ok it =>
        simp only [Res.bind_ok] at h ⊢
        cases hcp : chooseProfiles E o with
        | error out => rw [hcp] at h; simp at h
        | ok q =>
          rw [hcp] at h
          simp only at h ⊢
          cases hct : chooseTransitions E o with
          | ub => rw [hct] at h; simp at h
          | throw e => rw [hct] at h; simp at h
          | ok r =>
            rw [hct] at h
            cases r with
            | error out => simp at h
            | ok tr =>
              simp only [Res.bind_ok, Res.pure_eq, Res.ok.injEq, Except.ok.injEq] at h ⊢
              rw [← h]
  · simp at h

theorem parse_extension (E : Env D S P T) (o : Options) (p : Parsed D) (ho : o.inputformat = none)
    (hp : parseArgs E (.ok o) = .ok (.ok p)) : extensionType p.filename = .ok p.inputType := by
  simp only [parseArgs] at hp
  split at hp
  · rename_i filename hargs
    simp only [chooseInput, ho] at hp
    cases hx : extensionType filename with
    | ub => rw [hx] at hp; simp at hp
    | throw e => rw [hx] at hp; simp at hp
    | ok r =>
      rw [hx] at hp
      cases r with
      | none => simp at hp
      | some t =>
        simp only [Res.bind_ok, Res.pure_eq] at hp
        cases hcp : chooseProfiles E o with
        | error out => rw [hcp] at hp; simp at hp
        | ok q =>
          rw [hcp] at hp
          simp only at hp
          cases hct : chooseTransitions E o with
          | ub => rw [hct] at hp; simp at hp
          | throw e => rw [hct] at hp; simp at hp
          | ok r =>
            rw [hct] at hp
            cases r with
            | error out => simp at hp
            | ok tr =>
              simp only [Res.bind_ok, Res.ok.injEq, Except.ok.injEq] at hp
              rw [← hp]
              exact hx
  · simp at hp

/-- The two runs, without and with `-e`. -/
theorem evaluated {Num : D → Prop} (E : Env D S P T) (W : FPLaws E.F Num)
    (hi₁ : HMM.Iter.Ok E.iter₁) (hi₂ : HMM.Iter.Ok E.iter₂) (o : Options) (p : Parsed D) (os : List Int)
    (hop : o.probabilities = false) (hparse : parseArgs E (.ok o) = .ok (.ok p))
    (hread : readInput E p = .ok (.ok (os.map PitchClass.ofInt))) (ho : ∀ o ∈ os, 0 ≤ o ∧ o < 12)
    (hne : os ≠ []) (hcfg : Detect.Config.WF p.cfg) :
    (main E (.ok { o with evaluate := false }) = .throw .outOfRange ∧ main E (.ok { o with evaluate := true }) = .throw .outOfRange) ∨
    ∃ line k, main E (.ok { o with evaluate := false }) = .ok { stdout := line, stderr := [], code := 0 } ∧
      IsKey k ∧ Py.parseLabel line = k ∧ main E (.ok { o with evaluate := true }) = (do
        match ← groundTruth p.filename with
        | none => return { stdout := [], stderr := [], code := 0 }
        | some truth =>
          let s ← score (Key.ofInt k) truth
          return { stdout := E.sh (E.F.ofRat s) ++ ['\n'], stderr := [], code := 0 }) := by
  obtain ⟨hpp, hf⟩ := parse_evaluation E o false p hparse
  have ht := (parse_evaluation E o true p hparse).2
  rw [hop] at hpp
  have rf : readInput E { p with justEvaluation := false } = .ok (.ok (os.map PitchClass.ofInt)) := hread
  have rt : readInput E { p with justEvaluation := true } = .ok (.ok (os.map PitchClass.ofInt)) := hread
  rcases Detect.detect_spec W E.iter₁ E.iter₂ hi₁ hi₂ p.cfg hcfg os ho hne with
    ⟨h, _⟩ | ⟨p1, h1, p2, h2, k, _, R1, hr2, R2, hhd, hk, hd⟩
  · left
    simp [main, hf, ht, rf, rt, h]
  · right
    have hk' := mem_keys.1 hk
    obtain ⟨line, hl, hpl⟩ := C39_parse_label k hk'
    refine ⟨line, k, ?_, hk', hpl, ?_⟩
    · simp only [main, hf, rf, Res.bind_ok, hd]
      simp [printResult, hpp, hl]
    · simp only [main, ht, rt, Res.bind_ok, hd]
      simp only [printResult, hpp, Bool.false_eq_true, if_false, if_true]
      rcases groundTruth p.filename with g | _ | _
      · rcases g with _ | truth
        · rfl
        · simp only [Res.bind_ok]
          rcases score (Key.ofInt k) truth with _ | _ | _ <;> rfl
      · rfl
      · rfl

/-- **C149, `-e`.**  On a file whose name ends in a key the program prints, with `-e`, the score of the key that it prints without. -/
theorem C149_score_partial {Num : D → Prop} (E : Env D S P T) (W : FPLaws E.F Num)
    (hi₁ : HMM.Iter.Ok E.iter₁) (hi₂ : HMM.Iter.Ok E.iter₂) (o : Options) (p : Parsed D) (os : List Int)
    (hop : o.probabilities = false) (hfmt : o.inputformat = none) (hparse : parseArgs E (.ok o) = .ok (.ok p))
    (hread : readInput E p = .ok (.ok (os.map PitchClass.ofInt))) (ho : ∀ o ∈ os, 0 ≤ o ∧ o < 12)
    (hne : os ≠ []) (hcfg : Detect.Config.WF p.cfg) (pre name ext : Str) (hargs : o.args = [pre ++ '_' :: name ++ '.' :: ext])
    (hn : '_' ∉ name ∧ '.' ∉ name) (hx : '_' ∉ ext ∧ '.' ∉ ext) (truth : Int) (hname : keyName name = some truth) :
    (main E (.ok { o with evaluate := false }) = .throw .outOfRange ∧ main E (.ok { o with evaluate := true }) = .throw .outOfRange) ∨
    ∃ line k, main E (.ok { o with evaluate := false }) = .ok { stdout := line, stderr := [], code := 0 } ∧
      IsKey k ∧ Py.parseLabel line = k ∧
      main E (.ok { o with evaluate := true }) = .ok { stdout := E.sh (E.F.ofRat (weight truth k)) ++ ['\n'], stderr := [], code := 0 } := by
  have hfile := (parse_type E o p hfmt hparse).2.2.2.2
  rw [hargs] at hfile
  have hfile : p.filename = pre ++ '_' :: name ++ '.' :: ext := (List.cons.inj hfile).1.symm
  rcases evaluated E W hi₁ hi₂ o p os hop hparse hread ho hne hcfg with h | ⟨line, k, h1, h2, h3, h4⟩
  · exact Or.inl h
  · right
    refine ⟨line, k, h1, h2, h3, ?_⟩
    obtain ⟨q, hq, hs⟩ := C38_file_name pre name ext hn hx truth k hname h2
    rw [h4, hfile, hq]
    simp only [Res.bind_ok, hs]
    rfl

/-- **C149 is violated: names without a key.**  A file that gets a key has undefined behaviour with `-e` when its name does not end in
the name of a key, and prints nothing when there is no underscore. -/
theorem C149_name_violated {Num : D → Prop} (E : Env D S P T) (W : FPLaws E.F Num)
    (hi₁ : HMM.Iter.Ok E.iter₁) (hi₂ : HMM.Iter.Ok E.iter₂) (o : Options) (p : Parsed D) (os : List Int)
    (hop : o.probabilities = false) (hfmt : o.inputformat = none) (hparse : parseArgs E (.ok o) = .ok (.ok p))
    (hread : readInput E p = .ok (.ok (os.map PitchClass.ofInt))) (ho : ∀ o ∈ os, 0 ≤ o ∧ o < 12)
    (hne : os ≠ []) (hcfg : Detect.Config.WF p.cfg) (file : Str) (hargs : o.args = [file])
    (hkey : main E (.ok { o with evaluate := false }) ≠ .throw .outOfRange) :
    (∀ pre name ext, file = pre ++ '_' :: name ++ '.' :: ext → ('_' ∉ name ∧ '.' ∉ name) → ('_' ∉ ext ∧ '.' ∉ ext) →
      keyName name = none → main E (.ok { o with evaluate := true }) = .ub) ∧
    ('_' ∉ file → main E (.ok { o with evaluate := true }) = .ok { stdout := [], stderr := [], code := 0 }) := by
  have hfile := (parse_type E o p hfmt hparse).2.2.2.2
  rw [hargs] at hfile
  have hfile : p.filename = file := (List.cons.inj hfile).1.symm
  rcases evaluated E W hi₁ hi₂ o p os hop hparse hread ho hne hcfg with ⟨h, _⟩ | ⟨line, k, h1, h2, h3, h4⟩
  · exact absurd h hkey
  · constructor
    · intro pre name ext hf hn hx hname
      rw [h4, hfile, hf, C38_ground_truth pre name ext hn hx]
      simp only [Res.bind_ok, C38_unknown_key_violated name k hname h2]
      rfl
    · intro hu
      rw [h4, hfile]
      have : findLast '_' file = none := findLast_none '_' file hu
      simp [groundTruth, this]

/-- **C149 is violated: `-c` with MIDI files.**  The option that asks for the chromagram only is ignored. -/
theorem C149_midi_violated (E : Env D S P T) (o : Options) (p : Parsed D) (hparse : parseArgs E (.ok o) = .ok (.ok p))
    (hm : p.inputType = some .midi) : main E (.ok { o with chromaonly := true }) = main E (.ok { o with chromaonly := false }) := by
  have hr : readInput E { p with chromaOnly := true } = readInput E { p with chromaOnly := false } := by
    simp [readInput, hm]
  simp only [main, parse_chroma E o true p hparse, parse_chroma E o false p hparse, Res.bind_ok, hr]
  rfl

/-- **C149, `-c`.**  For recordings and chroma files `-c` decides alone: with it, `-e` and `-p` make no difference, nor do the tables
of two accepted command lines. -/
theorem C149_chroma_partial (E : Env D S P T) (o o' : Options) (p p' : Parsed D) (hparse : parseArgs E (.ok o) = .ok (.ok p))
    (hparse' : parseArgs E (.ok o') = .ok (.ok p')) (hfmt : o.inputformat = none) (hfmt' : o'.inputformat = none)
    (hargs : o'.args = o.args) (hc : o.chromaonly = true) (hc' : o'.chromaonly = true)
    (hm : p.inputType ≠ some .midi) : main E (.ok o') = main E (.ok o) := by
  obtain ⟨a1, a2, a3, a4, a5⟩ := parse_type E o p hfmt hparse
  obtain ⟨b1, b2, b3, b4, b5⟩ := parse_type E o' p' hfmt' hparse'
  have hf : p'.filename = p.filename := by
    rw [a5, b5] at hargs
    exact (List.cons.inj hargs).1
  have ht : p'.inputType = p.inputType := by
    have h1 := parse_extension E o p hfmt hparse
    have h2 := parse_extension E o' p' hfmt' hparse'
    rw [hf, h1] at h2
    exact (Res.ok.inj h2).symm
  have hr : readInput E p' = readInput E p := by
    simp only [readInput, hf, ht, a4, b4, hc, hc']
  have never : ∀ seq, readInput E p ≠ .ok (.ok seq) := by
    intro seq h
    have key : ∀ ft, (do
        let chr ← Chromagram.construct E.F E.M E.stof E.pl (E.csvFile p.filename) (E.audioFile p.filename) ft
        if chr.getStatus ≠ statusChromaDiscreteReady then
          return .error { stdout := [], stderr := readError, code := chr.getStatus }
        else
          return .error { stdout := chr.printOriginalChromagram E.F E.sh true, stderr := [], code := 0 } : Res (Except Out (List PitchClass))) ≠
          .ok (.ok seq) := by
      intro ft h
      obtain ⟨chr, _, h⟩ := Res.bind_eq_ok.1 h
      split at h <;> cases h
    rcases a1 with h1 | h1 | h1
    · refine key .audio ?_
      rw [← h]
      simp [readInput, h1, a4, hc]
    · refine key .csv ?_
      rw [← h]
      simp [readInput, h1, a4, hc]
    · exact hm h1
  simp only [main, hparse, hparse', Res.bind_ok, hr]
  revert never
  generalize readInput E p = x
  intro never
  cases x with
  | ok r =>
    cases r with
    | error out => simp only [Res.bind_ok]
    | ok seq => exact absurd rfl (never seq)
  | ub => simp only [Res.bind_ub]
  | throw e => simp only [Res.bind_throw]

/-- The file of the cases of C39 ends in a key, and so meets the hypotheses of `C149_score_partial`. -/
example : "a_C.mid".toList = "a".toList ++ '_' :: "C".toList ++ '.' :: "mid".toList ∧ keyName "C".toList = some 0 ∧
    keyName "H".toList = none ∧ weight 0 0 = 1 ∧ weight 0 7 = 1 / 2 := by decide +kernel

end JKD.Main
