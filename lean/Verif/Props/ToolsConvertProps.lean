import Verif.Model.ToolsConvert
import Verif.Props.ToolsCopyProps
/-
C142: converting the pieces of a data set.  C143: collecting recordings.
-/

namespace JKD.Shell

variable {C : Type}

/-! ### C142: conversion -/

theorem convert_other (program : C → Option C) (ext : Str) (fs : List Str) (d : Folder C) (n : Str)
    (h : ∀ f ∈ fs, n ≠ f.take (f.length - 4) ++ ext) : convertAll program ext fs d n = d n := by
  induction fs generalizing d with
  | nil => rfl
  | cons f fs ih =>
    rw [convertAll, ih _ (fun g hg => h g (by simp [hg]))]
    cases (d f).bind program with
    | none => rfl
    | some y => exact Function.update_of_ne (h f List.mem_cons_self) _ _

theorem convert_good (program : C → Option C) (ext : Str) (he : ext.length = 4) (xs : List (Str × Str)) (hx : ∀ x ∈ xs, x.2.length = 4 ∧ x.2 ≠ ext)
    (hn : (xs.map Prod.fst).Nodup) (d : Folder C) (c : Str × Str → C) (hc : ∀ x ∈ xs, d (x.1 ++ x.2) = some (c x)) :
    (∀ x ∈ xs, convertAll program ext (xs.map (fun x => x.1 ++ x.2)) d (x.1 ++ ext) =
      match program (c x) with
      | some y => some y
      | none => d (x.1 ++ ext)) ∧
    ∀ n, (∀ x ∈ xs, n ≠ x.1 ++ ext) → convertAll program ext (xs.map (fun x => x.1 ++ x.2)) d n = d n := by
  have inj : ∀ a b : Str, a ++ ext = b ++ ext → a = b := fun a b h => List.append_cancel_right h
  constructor
  · induction xs generalizing d with
    | nil => simp
    | cons x xs ih =>
      intro y hy
      rw [List.map_cons, List.nodup_cons] at hn
      obtain ⟨hl, hne⟩ := hx x (by simp)
      have other : ∀ z ∈ xs, z.1 ≠ x.1 := fun z hz e => hn.1 (e ▸ List.mem_map_of_mem (f := Prod.fst) hz)
      rw [List.map_cons, convertAll, hc x (by simp), Option.bind_some, take_wav _ _ hl]
      have keep : ∀ z ∈ xs, ∀ w, Function.update d (x.1 ++ ext) w (z.1 ++ z.2) = d (z.1 ++ z.2) := by
        intro z hz w
        refine Function.update_of_ne (fun e => ?_) _ _
        exact (hx z (by simp [hz])).2 (List.append_inj' e (by rw [(hx z (by simp [hz])).1, he])).2
      rcases List.mem_cons.1 hy with rfl | hy
      · rw [convert_other]
        · cases program (c y) with
          | none => rfl
          | some w => simp
        · intro f hf e
          obtain ⟨z, hz, rfl⟩ := List.mem_map.1 hf
          rw [take_wav _ _ (hx z (by simp [hz])).1] at e
          exact other z hz (inj _ _ e).symm
      · have hyx : y.1 ++ ext ≠ x.1 ++ ext := fun e => other y hy (inj _ _ e)
        cases program (c x) with
        | none => exact ih (fun z hz => hx z (by simp [hz])) hn.2 d (fun z hz => hc z (by simp [hz])) y hy
        | some w =>
          dsimp only
          rw [ih (fun z hz => hx z (by simp [hz])) hn.2 _ (fun z hz => by rw [keep z hz]; exact hc z (by simp [hz])) y hy,
            Function.update_of_ne hyx]
  · intro n h
    refine convert_other program ext _ d n (fun f hf => ?_)
    obtain ⟨x, hx', rfl⟩ := List.mem_map.1 hf
    rw [take_wav _ _ (hx x hx').1]
    exact h x hx'

/-- **C142 (partial), scores to MIDI.**  In a folder of scores `*.krn` every score that `hum2mid` accepts gets its MIDI file, the scores
stay, and nothing else changes. -/
theorem C142_midi_partial (hum2mid : C → Option C) (ss : List Str) (hn : ss.Nodup) (d : Folder C) (c : Str → C)
    (hc : ∀ s ∈ ss, d (s ++ ".krn".toList) = some (c s)) (ls : List Str) (hls : ls = ss.map (· ++ ".krn".toList)) :
    (∀ s ∈ ss, ∀ y, hum2mid (c s) = some y → krn2midi hum2mid ls d (s ++ ".mid".toList) = some y) ∧
    (∀ s ∈ ss, krn2midi hum2mid ls d (s ++ ".krn".toList) = some (c s)) ∧
    ∀ n, (∀ s ∈ ss, n ≠ s ++ ".mid".toList) → krn2midi hum2mid ls d n = d n := by
  subst hls
  obtain ⟨h1, h2⟩ := convert_good hum2mid ".mid".toList rfl (ss.map (fun s => (s, ".krn".toList)))
    (by intro x hx; obtain ⟨s, _, rfl⟩ := List.mem_map.1 hx; exact ⟨rfl, (by decide : ".krn".toList ≠ ".mid".toList)⟩) (by simpa [Function.comp_def] using hn) d
    (fun x => c x.1) (by intro x hx; obtain ⟨s, hs, rfl⟩ := List.mem_map.1 hx; exact hc s hs)
  rw [List.map_map] at h1 h2
  have apart : ∀ a s : Str, a ++ ".krn".toList ≠ s ++ ".mid".toList := fun a s e => absurd (List.append_inj' e rfl).2 (by decide)
  refine ⟨?_, ?_, ?_⟩
  · intro s hs y hy
    have := h1 (s, ".krn".toList) (List.mem_map_of_mem hs)
    simp only [hy] at this
    exact this
  · intro s hs
    rw [← hc s hs]
    refine h2 _ ?_
    intro x hx
    obtain ⟨a, _, rfl⟩ := List.mem_map.1 hx
    exact apart s a
  · intro n h
    refine h2 n ?_
    intro x hx
    obtain ⟨a, ha, rfl⟩ := List.mem_map.1 hx
    exact h a ha

/-- **C142 (partial), scores to recordings.**  In a folder of scores with extensions of three letters other than `wav`, no two of them
differing in the extension only, every score that MuseScore accepts gets its recording and nothing else changes. -/
theorem C142_audio_partial (musescore : C → Option C) (xs : List (Str × Str)) (hx : ∀ x ∈ xs, x.2.length = 4 ∧ x.2 ≠ ".wav".toList)
    (hn : (xs.map Prod.fst).Nodup) (d : Folder C) (c : Str × Str → C) (hc : ∀ x ∈ xs, d (x.1 ++ x.2) = some (c x)) :
    (∀ x ∈ xs, ∀ y, musescore (c x) = some y →
      symbolic2audio musescore (xs.map (fun x => x.1 ++ x.2)) d (x.1 ++ ".wav".toList) = some y) ∧
    ∀ n, (∀ x ∈ xs, n ≠ x.1 ++ ".wav".toList) → symbolic2audio musescore (xs.map (fun x => x.1 ++ x.2)) d n = d n := by
  obtain ⟨h1, h2⟩ := convert_good musescore ".wav".toList rfl xs hx hn d c hc
  refine ⟨?_, h2⟩
  intro x hx y hy
  have := h1 x hx
  simp only [hy] at this
  exact this

/-- **C142 is violated: running the script again.**  The second run takes the MIDI file of the first one for a score, and replaces it by
what `hum2mid` makes of it. -/
theorem C142_twice_violated (hum2mid : C → Option C) (s : Str) (x y z : C) (d : Folder C) (hd : d (s ++ ".krn".toList) = some x)
    (hx : hum2mid x = some y) (hy : hum2mid y = some z) :
    krn2midi hum2mid [s ++ ".krn".toList] d (s ++ ".mid".toList) = some y ∧
    krn2midi hum2mid [s ++ ".krn".toList, s ++ ".mid".toList] (krn2midi hum2mid [s ++ ".krn".toList] d) (s ++ ".mid".toList) = some z := by
  have apart : s ++ ".krn".toList ≠ s ++ ".mid".toList := fun e => absurd (List.append_inj' e rfl).2 (by decide)
  have t1 := take_wav s ".krn".toList rfl
  have t2 := take_wav s ".mid".toList rfl
  have e1 : krn2midi hum2mid [s ++ ".krn".toList] d = Function.update d (s ++ ".mid".toList) (some y) := by
    simp only [krn2midi, convertAll, hd, Option.bind_some, hx, t1]
  refine ⟨by rw [e1, Function.update_self], ?_⟩
  rw [e1]
  simp only [krn2midi, convertAll, Function.update_of_ne apart, hd, Option.bind_some, hx, t1, t2, Function.update_self, hy]

/-- **C142 is violated: scores that differ in the extension.**  One of the two recordings is lost. -/
theorem C142_stem_violated (musescore : C → Option C) (s : Str) (x x' y y' : C) (d : Folder C)
    (hd : d (s ++ ".krn".toList) = some x) (hd' : d (s ++ ".mxl".toList) = some x') (hx : musescore x = some y) (hx' : musescore x' = some y') :
    symbolic2audio musescore [s ++ ".krn".toList, s ++ ".mxl".toList] d = Function.update d (s ++ ".wav".toList) (some y') := by
  have apart : s ++ ".mxl".toList ≠ s ++ ".wav".toList := fun e => absurd (List.append_inj' e rfl).2 (by decide)
  simp only [symbolic2audio, convertAll, hd, Option.bind_some, hx, take_wav s ".krn".toList rfl, take_wav s ".mxl".toList rfl,
    Function.update_of_ne apart, hd', hx', Function.update_idem]

/-- Two scores, one of which `hum2mid` refuses. -/
example : ∃ d : Folder Nat, d "a.krn".toList = some 7 ∧ d "b.krn".toList = some 8 ∧
    krn2midi (fun n => if n = 7 then some 70 else none) ["a.krn".toList, "b.krn".toList] d "a.mid".toList = some 70 ∧
    krn2midi (fun n => if n = 7 then some 70 else none) ["a.krn".toList, "b.krn".toList] d "b.mid".toList = none :=
  ⟨fun n => if n = "a.krn".toList then some 7 else if n = "b.krn".toList then some 8 else none, by decide +kernel⟩

/-! ### C143: collecting recordings -/

/-- **Specification.**  The paths that are meant: they contain `MUS`, and `wav` after another character. -/
def Wanted (path : Str) : Prop := "MUS".toList <:+: path ∧ ∃ c, c :: "wav".toList <:+: path

/-- A path: a folder and the name of a file in it. -/
def path (p : Str × Str) : Str := p.1 ++ '/' :: p.2

theorem basename_eq (p : Str × Str) (h : '/' ∉ p.2) : basename (path p) = p.2 := by
  unfold basename path
  rw [List.reverse_append, List.reverse_cons, List.append_assoc, List.singleton_append, List.takeWhile_append_of_pos]
  · simp
  · intro a ha
    have : a ≠ '/' := by rintro rfl; exact h (List.mem_reverse.1 ha)
    simpa using this

theorem grepMus_iff (s : Str) : grepMus s = true ↔ "MUS".toList <:+: s := by
  constructor
  · intro h
    induction s with
    | nil => cases h
    | cons c s ih =>
      rw [grepMus.eq_def] at h
      split at h
      · rename_i e
        rw [e]
        exact ⟨[], _, rfl⟩
      · rename_i e
        cases e
        exact (ih h).trans (List.suffix_cons _ _).isInfix
      · cases h
  · rintro ⟨a, b, rfl⟩
    induction a with
    | nil => rfl
    | cons c a ih =>
      rw [List.cons_append, List.cons_append, grepMus.eq_def]
      split
      · rfl
      · rename_i h
        cases h
        exact ih
      · rename_i h
        cases h

theorem grepWav_iff (s : Str) : grepWav s = true ↔ ∃ c, c :: "wav".toList <:+: s := by
  constructor
  · intro h
    induction s with
    | nil => cases h
    | cons c s ih =>
      rw [grepWav.eq_def] at h
      split at h
      · rename_i x t e
        rw [e]
        exact ⟨x, [], t, rfl⟩
      · rename_i e
        cases e
        obtain ⟨x, hx⟩ := ih h
        exact ⟨x, hx.trans (List.suffix_cons _ _).isInfix⟩
      · cases h
  · rintro ⟨c, a, b, rfl⟩
    induction a with
    | nil => rfl
    | cons c a ih =>
      rw [List.cons_append, List.cons_append, grepWav.eq_def]
      split
      · rfl
      · rename_i h
        cases h
        exact ih
      · rename_i h
        cases h

theorem path_inj {p : Str × Str} {b : Str} (h1 : '/' ∉ p.2) (h2 : '/' ∉ b) (h : path p = path ("./features".toList, b)) :
    p = ("./features".toList, b) := by
  have e : p.2 = b := by
    have := congrArg basename h
    rwa [basename_eq p h1, basename_eq _ h2] at this
  have : p.1 = "./features".toList := by
    unfold path at h
    rw [e] at h
    exact List.append_cancel_right h
  exact Prod.ext this e

/-- **C143 (partial).**  When no two of the wanted recordings have the same name, all of them are copied to the folder `features`, and all
other files stay. -/
theorem C143_collected_partial (found : List (Str × Str)) (hs : ∀ p ∈ found, '/' ∉ p.2)
    (hn : found.Pairwise (fun p q => Wanted (path p) → Wanted (path q) → p.2 ≠ q.2))
    (ho : ∀ p ∈ found, p.1 ≠ "./features".toList) (d : Folder C) (c : Str × Str → C) (hc : ∀ p ∈ found, d (path p) = some (c p)) :
    (∀ p ∈ found, Wanted (path p) → getMusAudios (found.map path) d (path ("./features".toList, p.2)) = some (c p)) ∧
    ∀ n, (∀ p ∈ found, Wanted (path p) → n ≠ path ("./features".toList, p.2)) → getMusAudios (found.map path) d n = d n := by
  have key : ∀ (found : List (Str × Str)) (d : Folder C), (∀ p ∈ found, '/' ∉ p.2) →
      found.Pairwise (fun p q => Wanted (path p) → Wanted (path q) → p.2 ≠ q.2) → (∀ p ∈ found, p.1 ≠ "./features".toList) →
      (∀ p ∈ found, d (path p) = some (c p)) →
      (∀ n, (∀ p ∈ found, Wanted (path p) → n ≠ path ("./features".toList, p.2)) → getMusAudios (found.map path) d n = d n) ∧
      ∀ p ∈ found, Wanted (path p) → getMusAudios (found.map path) d (path ("./features".toList, p.2)) = some (c p) := by
    intro found
    induction found with
    | nil => intro d _ _ _ _; exact ⟨fun n _ => rfl, by simp⟩
    | cons p l ih =>
      intro d hs hn ho hc
      rw [List.pairwise_cons] at hn
      have sel : ∀ l : List Str, (l.filter grepMus).filter grepWav = l.filter (fun f => grepMus f && grepWav f) := by
        intro l
        rw [List.filter_filter]
        congr 1
        funext f
        rw [Bool.and_comm]
      have off : ∀ q ∈ l, ∀ w, Function.update d (path ("./features".toList, p.2)) w (path q) = d (path q) := by
        intro q hq w
        refine Function.update_of_ne (fun e => ?_) _ _
        have := path_inj (hs q (by simp [hq])) (hs p (by simp)) e
        exact ho q (by simp [hq]) (by rw [this])
      by_cases hw : Wanted (path p)
      · have hg : (grepMus (path p) && grepWav (path p)) = true := by
          rw [Bool.and_eq_true, grepMus_iff, grepWav_iff]
          exact hw
        have step : getMusAudios ((p :: l).map path) d =
            getMusAudios (l.map path) (Function.update d (path ("./features".toList, p.2)) (some (c p))) := by
          have ne : path p ≠ "./features/".toList ++ basename (path p) := by
            rw [basename_eq p (hs p (by simp))]
            intro e
            have := path_inj (b := p.2) (hs p (by simp)) (hs p (by simp)) e
            exact ho p (by simp) (by rw [this])
          unfold getMusAudios
          rw [sel, sel, List.map_cons, List.filter_cons_of_pos (p := fun f => grepMus f && grepWav f) hg, List.foldl_cons, cp, if_neg ne, hc p (by simp), basename_eq p (hs p (by simp))]
          rfl
        obtain ⟨i1, i2⟩ := ih (Function.update d (path ("./features".toList, p.2)) (some (c p))) (fun q hq => hs q (by simp [hq])) hn.2
          (fun q hq => ho q (by simp [hq])) (fun q hq => by rw [off q hq]; exact hc q (by simp [hq]))
        rw [step]
        refine ⟨?_, ?_⟩
        · intro n h
          rw [i1 n (fun q hq => h q (by simp [hq])), Function.update_of_ne (h p (by simp) hw)]
        · intro q hq hwq
          rcases List.mem_cons.1 hq with rfl | hq
          · rw [i1, Function.update_self]
            intro r hr hwr e
            have := congrArg basename e
            rw [basename_eq ("./features".toList, q.2) (hs q (by simp)), basename_eq ("./features".toList, r.2) (hs r (by simp [hr]))] at this
            exact hn.1 r hr hw hwr this
          · exact i2 q hq hwq
      · have hg : ¬ (grepMus (path p) && grepWav (path p)) = true := by
          rw [Bool.and_eq_true, grepMus_iff, grepWav_iff]
          exact hw
        have step : getMusAudios ((p :: l).map path) d = getMusAudios (l.map path) d := by
          unfold getMusAudios
          rw [sel, sel, List.map_cons, List.filter_cons_of_neg (p := fun f => grepMus f && grepWav f) hg]
        obtain ⟨i1, i2⟩ := ih d (fun q hq => hs q (by simp [hq])) hn.2
          (fun q hq => ho q (by simp [hq])) (fun q hq => hc q (by simp [hq]))
        rw [step]
        refine ⟨fun n h => i1 n (fun q hq => h q (by simp [hq])), ?_⟩
        intro q hq hwq
        rcases List.mem_cons.1 hq with rfl | hq
        · exact absurd hwq hw
        · exact i2 q hq hwq
  exact (key found d hs hn ho hc).symm

/-- **C143 is violated: recordings with the same name in two folders.**  The copy of the first one is lost. -/
theorem C143_name_violated (a b base : Str) (x y : C) (d : Folder C) (ha : Wanted (path (a, base))) (hb : Wanted (path (b, base)))
    (hs : '/' ∉ base) (hfa : a ≠ "./features".toList) (hfb : b ≠ "./features".toList) (hx : d (path (a, base)) = some x)
    (hy : d (path (b, base)) = some y) :
    getMusAudios [path (a, base), path (b, base)] d = Function.update d (path ("./features".toList, base)) (some y) := by
  have g : ∀ f, Wanted f → grepMus f = true ∧ grepWav f = true := fun f h => ⟨(grepMus_iff f).2 h.1, (grepWav_iff f).2 h.2⟩
  have ne : ∀ e, e ≠ "./features".toList → path (e, base) ≠ path ("./features".toList, base) := by
    intro e he h
    have := path_inj (p := (e, base)) hs hs h
    exact he (congrArg Prod.fst this)
  have f1 := ne a hfa
  have f2 := ne b hfb
  have bn := basename_eq (a, base) hs
  have bn' := basename_eq (b, base) hs
  have e : ("./features/".toList ++ base : Str) = path ("./features".toList, base) := rfl
  simp only [getMusAudios, List.filter_cons, List.filter_nil, (g _ ha).1, (g _ hb).1, (g _ ha).2, (g _ hb).2, if_true, List.foldl_cons,
    List.foldl_nil, bn, bn', e, cp, f1, f2, if_false, hx, Function.update_of_ne f2, hy, Function.update_idem]

/-- The piano recordings of MAPS: two of the wanted ones, and one of single notes. -/
example : Wanted (path ("./AkPnBcht/MUS".toList, "MAPS_MUS-bor_ps6_AkPnBcht.wav".toList)) ∧
    Wanted (path ("./AkPnCGdD/MUS".toList, "MAPS_MUS-bor_ps6_AkPnCGdD.wav".toList)) ∧
    ¬ Wanted (path ("./AkPnBcht/ISOL/NO".toList, "MAPS_ISOL_NO_F_S0_M23_AkPnBcht.wav".toList)) := by
  refine ⟨⟨(grepMus_iff _).1 (by decide +kernel), (grepWav_iff _).1 (by decide +kernel)⟩, ⟨(grepMus_iff _).1 (by decide +kernel), (grepWav_iff _).1 (by decide +kernel)⟩, ?_⟩
  intro h
  have := (grepMus_iff _).2 h.1
  revert this
  decide +kernel

end JKD.Shell
