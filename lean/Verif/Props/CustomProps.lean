import Verif.Lemmas.Detect
import Verif.Props.MainProps
/-
C145: tables typed in by the user count like the built-in ones.
-/

namespace JKD.Detect

open Spec HMM

variable {D : Type}

/-- The detection uses of the profiles only the two arrays. -/
theorem detect_profiles (F : FPU D) (iter₁ iter₂ : Iter D) (cfg : Config D) (M m : String) (a b : List D)
    (h1 : cfg.majorCustomKeyProfile.length = 12) (h2 : cfg.minorCustomKeyProfile.length = 12) (ha : a.length = 12) (hb : b.length = 12)
    (he : (KeyProfile.Args.mk M m a b).arrays F = profArrays F cfg) (seq : List PitchClass) :
    detect F iter₁ iter₂ { cfg with majorKeyProfile := M, minorKeyProfile := m, majorCustomKeyProfile := a, minorCustomKeyProfile := b } seq =
      detect F iter₁ iter₂ cfg seq := by
  obtain ⟨k, hk⟩ := emissions_eq F { cfg with customKeyTransition := List.replicate 24 F.zero } ⟨by simp, h1, h2⟩
  obtain ⟨k', hk'⟩ := emissions_eq F { cfg with
    customKeyTransition := List.replicate 24 F.zero, majorKeyProfile := M, minorKeyProfile := m
    majorCustomKeyProfile := a, minorCustomKeyProfile := b } ⟨by simp, ha, hb⟩
  have e : profArrays F { cfg with
      customKeyTransition := List.replicate 24 F.zero, majorKeyProfile := M, minorKeyProfile := m
      majorCustomKeyProfile := a, minorCustomKeyProfile := b } =
      profArrays F { cfg with customKeyTransition := List.replicate 24 F.zero } := he
  rw [e] at hk'
  dsimp only at hk hk'
  unfold detect
  simp only [hk, hk', Res.bind_ok]

/-- The detection uses of the transitions only the array. -/
theorem detect_transitions (F : FPU D) (iter₁ iter₂ : Iter D) (cfg : Config D) (t : String) (a : List D)
    (h : cfg.customKeyTransition.length = 24) (ha : a.length = 24)
    (he : (KeyTransition.specTable F t a).getD (List.replicate 24 F.zero) = transArray F cfg) (seq : List PitchClass) :
    detect F iter₁ iter₂ { cfg with keyTransition := t, customKeyTransition := a } seq = detect F iter₁ iter₂ cfg seq := by
  have z : (List.replicate 12 F.zero).length = 12 := by simp
  have hk := transitions_eq F { cfg with majorCustomKeyProfile := List.replicate 12 F.zero, minorCustomKeyProfile := List.replicate 12 F.zero } ⟨h, z, z⟩
  have hk' := transitions_eq F { cfg with
    majorCustomKeyProfile := List.replicate 12 F.zero, minorCustomKeyProfile := List.replicate 12 F.zero
    keyTransition := t, customKeyTransition := a } ⟨ha, z, z⟩
  have e : transArray F { cfg with
      majorCustomKeyProfile := List.replicate 12 F.zero, minorCustomKeyProfile := List.replicate 12 F.zero
      keyTransition := t, customKeyTransition := a } =
      transArray F { cfg with
        majorCustomKeyProfile := List.replicate 12 F.zero, minorCustomKeyProfile := List.replicate 12 F.zero } := he
  rw [e] at hk'
  dsimp only at hk hk'
  unfold detect
  simp only [hk, hk', Res.bind_ok]

end JKD.Detect

namespace JKD.Main

open Detect

variable {D S P T : Type}

/-- The part of `main` after the command line. -/
private def rest (E : Env D S P T) (p : Parsed D) : Res Out := do
  match ← readInput E p with
  | .error out => return out
  | .ok seq =>
    match ← detect E.F E.iter₁ E.iter₂ p.cfg seq with
    | .error status => return { stdout := [], stderr := modelError, code := status }
    | .ok d =>
      let line ← printResult E p d
      return { stdout := line, stderr := [], code := 0 }

private theorem main_rest (E : Env D S P T) (x : Except Int Options) :
    main E x = (parseArgs E x).bind (fun r => match r with
      | .error out => .ok out
      | .ok p => rest E p) := by
  unfold main
  refine congrArg (Res.bind (parseArgs E x)) (funext fun r => ?_)
  cases r <;> rfl

private theorem rest_cfg (E : Env D S P T) (p : Parsed D) (c : Config D)
    (h : ∀ seq, detect E.F E.iter₁ E.iter₂ c seq = detect E.F E.iter₁ E.iter₂ p.cfg seq) : rest E { p with cfg := c } = rest E p := by
  unfold rest
  have e1 : readInput E { p with cfg := c } = readInput E p := rfl
  have e2 : ∀ d, printResult E { p with cfg := c } d = printResult E p d := fun _ => rfl
  simp only [e1, e2, h]

theorem find_of_mem {b : List (String × List Rat)} (hn : (b.map Prod.fst).Nodup) {s : String} {t : List Rat} (h : (s, t) ∈ b) :
    b.find? (fun p => p.1 == s) = some (s, t) := by
  induction b with
  | nil => cases h
  | cons p b ih =>
    rw [List.map_cons, List.nodup_cons] at hn
    rcases List.mem_cons.1 h with rfl | h
    · simp
    · have : p.1 ≠ s := fun e => hn.1 (e ▸ List.mem_map_of_mem (f := Prod.fst) h)
      rw [List.find?_cons_of_neg (by simpa using this)]
      exact ih hn.2 h

theorem maj_nodup : (KeyProfile.majBuiltins.map Prod.fst).Nodup := by decide +kernel
theorem min_nodup : (KeyProfile.minBuiltins.map Prod.fst).Nodup := by decide +kernel
theorem trans_nodup : (KeyTransition.builtins.map Prod.fst).Nodup := by decide +kernel
theorem maj_custom : "custom" ∉ KeyProfile.majBuiltins.map Prod.fst := by decide +kernel
theorem min_custom : "custom" ∉ KeyProfile.minBuiltins.map Prod.fst := by decide +kernel
theorem trans_custom : "custom" ∉ KeyTransition.builtins.map Prod.fst := by decide +kernel
theorem maj_12 : ∀ p ∈ KeyProfile.majBuiltins, p.2.length = 12 := by decide +kernel
theorem min_12 : ∀ p ∈ KeyProfile.minBuiltins, p.2.length = 12 := by decide +kernel
theorem trans_24 : ∀ p ∈ KeyTransition.builtins, p.2.length = 24 := by decide +kernel

/-- **C145, profiles.**  Typing in the numbers of two built-in profiles with `-K` has the same effect as naming them with `-M` and `-m`;
the names given beside `-K` do not matter. -/
theorem C145_profiles (E : Env D S P T) (hj : E.junkMajor.length = 12 ∧ E.junkMinor.length = 12) (o : Options)
    (ho : o.customkeyprofiles = none) (a b : List Rat) (ha : (o.majorprofile, a) ∈ KeyProfile.majBuiltins)
    (hb : (o.minorprofile, b) ∈ KeyProfile.minBuiltins) (s : Str) (hs : E.nums s = (a ++ b).map E.F.ofRat) (M m : String) :
    main E (.ok { o with customkeyprofiles := some s, majorprofile := M, minorprofile := m }) = main E (.ok o) := by
  have la := maj_12 _ ha
  have lb := min_12 _ hb
  dsimp only at la lb
  have c1 : chooseProfiles E o = .ok (o.majorprofile, o.minorprofile, E.junkMajor, E.junkMinor) := by simp only [chooseProfiles, ho]
  have c2 : chooseProfiles E { o with customkeyprofiles := some s, majorprofile := M, minorprofile := m } =
      .ok ("custom", "custom", a.map E.F.ofRat, b.map E.F.ofRat) := by
    rw [(C37_profiles E _ s rfl hj.1 hj.2).1 (by rw [hs]; simp [la, lb]), hs, List.map_append,
      List.take_left' (by simp [la]), List.drop_left' (by simp [la])]
  have n1 : o.majorprofile ≠ "custom" := fun e => maj_custom (e ▸ List.mem_map_of_mem (f := Prod.fst) ha)
  have n2 : o.minorprofile ≠ "custom" := fun e => min_custom (e ▸ List.mem_map_of_mem (f := Prod.fst) hb)
  have same : ∀ (t : String) (x : List D) (seq : List PitchClass),
      detect E.F E.iter₁ E.iter₂ {
        keyTransition := t, majorKeyProfile := "custom", minorKeyProfile := "custom", customKeyTransition := x
        majorCustomKeyProfile := a.map E.F.ofRat, minorCustomKeyProfile := b.map E.F.ofRat } seq =
      detect E.F E.iter₁ E.iter₂ {
        keyTransition := t, majorKeyProfile := o.majorprofile, minorKeyProfile := o.minorprofile, customKeyTransition := x
        majorCustomKeyProfile := E.junkMajor, minorCustomKeyProfile := E.junkMinor } seq := by
    intro t x seq
    refine detect_profiles E.F E.iter₁ E.iter₂ {
        keyTransition := t, majorKeyProfile := o.majorprofile, minorKeyProfile := o.minorprofile, customKeyTransition := x
        majorCustomKeyProfile := E.junkMajor, minorCustomKeyProfile := E.junkMinor } "custom" "custom" (a.map E.F.ofRat) (b.map E.F.ofRat)
        hj.1 hj.2 (by simp [la]) (by simp [lb]) ?_ seq
    have e1 : KeyProfile.specTable E.F KeyProfile.majBuiltins o.majorprofile E.junkMajor = some (a.map E.F.ofRat) := by
      rw [KeyProfile.specTable, if_neg n1, find_of_mem maj_nodup ha]
      rfl
    have e2 : KeyProfile.specTable E.F KeyProfile.minBuiltins o.minorprofile E.junkMinor = some (b.map E.F.ofRat) := by
      rw [KeyProfile.specTable, if_neg n2, find_of_mem min_nodup hb]
      rfl
    simp only [KeyProfile.Args.arrays, KeyProfile.Args.spec, profArrays, profArgs, e1, e2]
    rfl
  have ci : ∀ f, chooseInput E { o with customkeyprofiles := some s, majorprofile := M, minorprofile := m } f = chooseInput E o f := fun _ => rfl
  have ct : chooseTransitions E { o with customkeyprofiles := some s, majorprofile := M, minorprofile := m } = chooseTransitions E o := rfl
  have fl : ({ o with customkeyprofiles := some s, majorprofile := M, minorprofile := m } : Options).args = o.args ∧ ({ o with customkeyprofiles := some s, majorprofile := M, minorprofile := m } : Options).evaluate = o.evaluate ∧
      ({ o with customkeyprofiles := some s, majorprofile := M, minorprofile := m } : Options).probabilities = o.probabilities ∧
      ({ o with customkeyprofiles := some s, majorprofile := M, minorprofile := m } : Options).chromaonly = o.chromaonly := ⟨rfl, rfl, rfl, rfl⟩
  generalize ({ o with customkeyprofiles := some s, majorprofile := M, minorprofile := m } : Options) = o' at ci ct c2 fl ⊢
  obtain ⟨f1, f2, f3, f4⟩ := fl
  rw [main_rest, main_rest]
  simp only [parseArgs, f1, f2, f3, f4]
  rcases o.args with _ | ⟨f, _ | ⟨g, l⟩⟩
  · rfl
  · dsimp only
    rw [ci, ct, c1, c2]
    dsimp only
    rcases chooseInput E o f with (out | it) | _ | _
    · rfl
    · simp only [Res.bind_ok]
      rcases chooseTransitions E o with (out | ⟨t, x⟩) | _ | _
      · rfl
      · exact rest_cfg E {
          filename := f, inputType := it
          cfg := { keyTransition := t, majorKeyProfile := o.majorprofile, minorKeyProfile := o.minorprofile
                   customKeyTransition := x, majorCustomKeyProfile := E.junkMajor, minorCustomKeyProfile := E.junkMinor }
          justEvaluation := o.evaluate, justProbabilities := o.probabilities, chromaOnly := o.chromaonly } _ (same t x)
      · rfl
      · rfl
    · rfl
    · rfl
  · rfl

/-- **C145, transitions.**  Typing in the numbers of a built-in table of transitions with `-T` has the same effect as naming it with
`-t`; the name given beside `-T` does not matter. -/
theorem C145_transitions (E : Env D S P T) (hj : E.junkTransition.length = 24) (o : Options)
    (ho : o.customkeytransitions = none) (a : List Rat) (ha : (o.keytransition, a) ∈ KeyTransition.builtins)
    (s : Str) (hs : E.nums s = a.map E.F.ofRat) (t : String) :
    main E (.ok { o with customkeytransitions := some s, keytransition := t }) = main E (.ok o) := by
  have la := trans_24 _ ha
  dsimp only at la
  have c1 : chooseTransitions E o = .ok (.ok (o.keytransition, E.junkTransition)) := by simp only [chooseTransitions, ho]
  have c2 : chooseTransitions E { o with customkeytransitions := some s, keytransition := t } = .ok (.ok ("custom", a.map E.F.ofRat)) := by
    rw [(C37_transitions_partial E _ s rfl hj).1 (by rw [hs]; simp [la]), hs]
  have n1 : o.keytransition ≠ "custom" := fun e => trans_custom (e ▸ List.mem_map_of_mem (f := Prod.fst) ha)
  have same : ∀ (M m : String) (x y : List D) (seq : List PitchClass),
      detect E.F E.iter₁ E.iter₂ {
        keyTransition := "custom", majorKeyProfile := M, minorKeyProfile := m, customKeyTransition := a.map E.F.ofRat
        majorCustomKeyProfile := x, minorCustomKeyProfile := y } seq =
      detect E.F E.iter₁ E.iter₂ {
        keyTransition := o.keytransition, majorKeyProfile := M, minorKeyProfile := m, customKeyTransition := E.junkTransition
        majorCustomKeyProfile := x, minorCustomKeyProfile := y } seq := by
    intro M m x y seq
    refine detect_transitions E.F E.iter₁ E.iter₂ {
        keyTransition := o.keytransition, majorKeyProfile := M, minorKeyProfile := m, customKeyTransition := E.junkTransition
        majorCustomKeyProfile := x, minorCustomKeyProfile := y } "custom" (a.map E.F.ofRat) hj (by simp [la]) ?_ seq
    have e1 : KeyTransition.specTable E.F o.keytransition E.junkTransition = some (a.map E.F.ofRat) := by
      rw [KeyTransition.specTable, if_neg n1, find_of_mem trans_nodup ha]
      rfl
    simp only [transArray, e1]
    rfl
  have ci : ∀ f, chooseInput E { o with customkeytransitions := some s, keytransition := t } f = chooseInput E o f := fun _ => rfl
  have ct : chooseProfiles E { o with customkeytransitions := some s, keytransition := t } = chooseProfiles E o := rfl
  have fl : ({ o with customkeytransitions := some s, keytransition := t } : Options).args = o.args ∧ ({ o with customkeytransitions := some s, keytransition := t } : Options).evaluate = o.evaluate ∧
      ({ o with customkeytransitions := some s, keytransition := t } : Options).probabilities = o.probabilities ∧
      ({ o with customkeytransitions := some s, keytransition := t } : Options).chromaonly = o.chromaonly := ⟨rfl, rfl, rfl, rfl⟩
  generalize ({ o with customkeytransitions := some s, keytransition := t } : Options) = o' at ci ct c2 fl ⊢
  obtain ⟨f1, f2, f3, f4⟩ := fl
  rw [main_rest, main_rest]
  simp only [parseArgs, f1, f2, f3, f4]
  rcases o.args with _ | ⟨f, _ | ⟨g, l⟩⟩
  · rfl
  · dsimp only
    rw [ci, ct, c1, c2]
    rcases chooseInput E o f with (out | it) | _ | _
    · rfl
    · simp only [Res.bind_ok]
      rcases chooseProfiles E o with out | ⟨M, m, x, y⟩
      · rfl
      · exact rest_cfg E {
          filename := f, inputType := it
          cfg := { keyTransition := o.keytransition, majorKeyProfile := M, minorKeyProfile := m
                   customKeyTransition := E.junkTransition, majorCustomKeyProfile := x, minorCustomKeyProfile := y }
          justEvaluation := o.evaluate, justProbabilities := o.probabilities, chromaOnly := o.chromaonly } _ (same M m x y)
    · rfl
    · rfl
  · rfl

/-- The hypotheses hold for the defaults. -/
example (file : Str) : ∃ a b t, ((Options.default file).majorprofile, a) ∈ KeyProfile.majBuiltins ∧
    ((Options.default file).minorprofile, b) ∈ KeyProfile.minBuiltins ∧
    ((Options.default file).keytransition, t) ∈ KeyTransition.builtins ∧ (a ++ b).length = 24 ∧ t.length = 24 := by
  obtain ⟨p, hp, e⟩ : ∃ p ∈ KeyProfile.majBuiltins, p.1 = "sapp" := by decide +kernel
  obtain ⟨q, hq, e'⟩ : ∃ q ∈ KeyProfile.minBuiltins, q.1 = "sapp" := by decide +kernel
  obtain ⟨r, hr, e''⟩ : ∃ r ∈ KeyTransition.builtins, r.1 = "exponential10" := by decide +kernel
  refine ⟨p.2, q.2, r.2, ?_, ?_, ?_, by rw [List.length_append, maj_12 p hp, min_12 q hq], trans_24 r hr⟩
  · change ("sapp", p.2) ∈ _
    rw [← e]; exact hp
  · change ("sapp", q.2) ∈ _
    rw [← e']; exact hq
  · change ("exponential10", r.2) ∈ _
    rw [← e'']; exact hr

end JKD.Main
