import Verif.Props.TestFilesProps
import Verif.Props.StruckProps
/-
C166: scales from any degree.
-/

namespace JKD.Phrases

open Spec HMM RD Detect Main

/-! ### Specification -/

/-- The seven notes of a major key, in semitones above its tonic. -/
def majorScale : List Nat := [0, 2, 4, 5, 7, 9, 11]

/-- The scale from its degree `i` (0 is the tonic) up to the octave and down again. -/
def upDown (i : Nat) : List Nat :=
  let up := majorScale.rotate i ++ [majorScale.getD i 0]
  up ++ up.reverse.drop 1

/-- Scales of the major key with tonic `t` from the degrees `is`, one after the other. -/
def scalesFrom (t : Int) (is : List Nat) : List Int := (is.map upDown).flatten.map (fun x : Nat => (t + (x : Int)) % 12)

/-- The natural minor scale on `t`, up and down, in semitones. -/
def naturalMinor (t : Int) : List Int :=
  [0, 2, 3, 5, 7, 8, 10, 0, 10, 8, 7, 5, 3, 2, 0].map (fun x : Nat => (t + (x : Int)) % 12)

/-- The profiles for major and minor with which natural minor scales get their keys. -/
def minorPairs : List (String × String) :=
  [("krumhansl_kessler", "krumhansl_kessler"), ("krumhansl_kessler", "aarden_essen"), ("krumhansl_kessler", "sapp"), ("krumhansl_kessler", "temperley"), ("aarden_essen", "aarden_essen"),
   ("aarden_essen", "sapp"), ("bellman_budge", "sapp"), ("temperley", "aarden_essen"), ("temperley", "sapp")]

/-- The profiles with which they get the relative major keys. -/
def majorPairs : List (String × String) :=
  [("aarden_essen", "krumhansl_kessler"), ("aarden_essen", "bellman_budge"), ("aarden_essen", "temperley"),
   ("bellman_budge", "krumhansl_kessler"), ("bellman_budge", "aarden_essen"), ("bellman_budge", "bellman_budge"), ("bellman_budge", "temperley"),
   ("sapp", "krumhansl_kessler"), ("sapp", "aarden_essen"), ("sapp", "bellman_budge"), ("sapp", "sapp"), ("sapp", "temperley"),
   ("temperley", "krumhansl_kessler"), ("temperley", "bellman_budge"), ("temperley", "temperley")]

/-! ### Lemmas -/

/-- Potentials between two scales. -/
def modePot : List Nat := [1000, 1, 20, 10, 5, 200, 1, 200, 1, 50, 20, 1, 100, 1, 50, 1, 50, 20, 3, 20, 1, 500, 1, 5]

theorem modePot_small : ∀ i < 24, i ≠ 0 → modePot.getD i 0 ≤ 900 := by decide

set_option maxRecDepth 100000 in
theorem modes_ok : ∀ i < 7, (∀ o ∈ upDown i, o < 12) ∧ upDown i ≠ [] ∧ (upDown i).length = 15 ∧
    phraseOk (majNat "sapp") (minNat "sapp") 0 modePot (upDown i) = true := by decide +kernel

/-- The keys of a natural minor scale that begins and ends in its key and stays in the key of the fourth between. -/
def fourthKeys {α : Type} (a b : α) : List α := [a, a, a, b, b, b, b, b, b, b, b, b, a, a, a]

set_option maxRecDepth 100000 in
theorem natural_own : ∀ p ∈ minorPairs, (onceOk (majNat p.1) (minNat p.2) 12 [0, 2, 3, 5, 7, 8, 10, 0, 10, 8, 7, 5, 3, 2, 0] ||
    decidedOk 999 1000 (majNat p.1) (minNat p.2) [0, 2, 3, 5, 7, 8, 10, 0, 10, 8, 7, 5, 3, 2, 0] (List.replicate 15 12)) = true := by decide +kernel

set_option maxRecDepth 100000 in
theorem natural_relative : ∀ p ∈ majorPairs, (onceOk (majNat p.1) (minNat p.2) 3 [0, 2, 3, 5, 7, 8, 10, 0, 10, 8, 7, 5, 3, 2, 0] ||
    decidedOk 999 1000 (majNat p.1) (minNat p.2) [0, 2, 3, 5, 7, 8, 10, 0, 10, 8, 7, 5, 3, 2, 0] (List.replicate 15 3)) = true := by decide +kernel

set_option maxRecDepth 100000 in
theorem natural_fourth : decidedOk 999 1000 (majNat "krumhansl_kessler") (minNat "bellman_budge")
    [0, 2, 3, 5, 7, 8, 10, 0, 10, 8, 7, 5, 3, 2, 0] (fourthKeys 12 17) = true := by decide +kernel

theorem natural_votes : votesOk 12 (List.replicate 15 12) = true ∧ votesOk 3 (List.replicate 15 3) = true ∧
    votesOk 17 (fourthKeys 12 17) = true := by decide +kernel

theorem rel_tonic : ∀ t ∈ pcs, rel t t = 0 ∧ rel t (t + 12) = 12 ∧ rel t ((t + 3) % 12) = 3 ∧ rel t ((t + 5) % 12 + 12) = 17 := by decide +kernel

/-! ### C166 -/

section
variable {η : ℝ} (lg : ℝ → RD) (hok : LogOk lg) (hlg : LogClose η lg) (hη : η ≤ (2 : ℝ) ^ (-30 : ℤ)) (iter₁ iter₂ : Iter RD)
    (hi₁ : iter₁.Ok) (hi₂ : iter₂.Ok) (cfg : Config RD) (hc : Chosen cfg) (hT : cfg.keyTransition = "exponential10")
    (t : Int) (ht : 0 ≤ t ∧ t < 12)

include hok hlg hη hi₁ hi₂ hc hT ht in
/-- **C166, scales from any degree.**  With the default tables and whatever the hash order: scales of a major key, played up and down
from any of its seven notes, in any number and order, are heard in that key from the first note to the last. -/
theorem C166_modes (hM : cfg.majorKeyProfile = "sapp") (hm : cfg.minorKeyProfile = "sapp") (is : List Nat) (hne : is ≠ [])
    (hi : ∀ i ∈ is, i < 7) (hn : 15 * is.length ≤ 2 ^ 19) :
    ∃ d, detect (ieee lg) iter₁ iter₂ cfg ((scalesFrom t is).map PitchClass.ofInt) = .ok (.ok d) ∧
      d.localKeys = List.replicate (15 * is.length) (Key.ofInt t) ∧ d.mainKey = Key.ofInt t := by
  have hK : IsKey t := by unfold IsKey; omega
  have hr := (rel_tonic t (mem_pcs.2 ht)).1
  have hnn : NonNeg (book cfg) := (stored1 (fun _ => nan) cfg hc []).nonneg
  obtain ⟨h1, h2, h3⟩ := piece_sound hT hnn t t (mem_keys.2 hK) modePot (by rw [hr]; exact modePot_small) (is.map upDown) (by simpa using hne)
    (by
      intro p hp
      obtain ⟨i, hmem, rfl⟩ := List.mem_map.1 hp
      obtain ⟨m1, m2, _, m3⟩ := modes_ok i (hi i hmem)
      refine phrase_sound hT hc t t (mem_keys.2 hK) modePot _ m2 m1 ?_
      rw [hr, hM, hm]
      exact m3)
  have hlen : (scalesFrom t is).length = 15 * is.length := by
    unfold scalesFrom
    rw [List.length_map]
    clear h1 h2 h3 hne hn
    induction is with
    | nil => rfl
    | cons i is ih =>
      rw [List.map_cons, List.flatten_cons, List.length_append, ih (fun j hj => hi j (by simp [hj])),
        (modes_ok i (hi i (by simp))).2.2.1, List.length_cons]
      omega
  have key := heard lg hok hlg hη iter₁ iter₂ hi₁ hi₂ cfg hc t hK (scalesFrom t is) (by rw [hlen]; exact hn) h1 (fun o ho => by
    obtain ⟨x, _, rfl⟩ := List.mem_map.1 ho
    omega) h2 (fun ks hkl hkk hkne => h3 ks hkl (fun k hk => mem_keys.2 (hkk k hk)) hkne)
  rw [hlen] at key
  exact key

include hok hlg hη hi₁ hi₂ hc hT in
theorem natural_found (ls : List Int) (K : Int) (hl : ∀ l ∈ ls, IsKey l) (hK : IsKey K)
    (h1 : decidedOk 999 1000 (majNat cfg.majorKeyProfile) (minNat cfg.minorKeyProfile) [0, 2, 3, 5, 7, 8, 10, 0, 10, 8, 7, 5, 3, 2, 0]
      (ls.map (rel t)) = true) (h2 : votesOk (rel t K) (ls.map (rel t)) = true) :
    ∃ d, detect (ieee lg) iter₁ iter₂ cfg ((naturalMinor t).map PitchClass.ofInt) = .ok (.ok d) ∧
      d.localKeys = ls.map Key.ofInt ∧ d.mainKey = Key.ofInt K :=
  found_near hT hc lg hok hlg hη iter₁ iter₂ hi₁ hi₂ t _ ls K hK (by decide) hl (by decide) 999 1000 (by decide)
    (slack_thousandth hη _ (by decide)) h1 h2

include hok hlg hη hi₁ hi₂ hc hT ht in
/-- **C166 (partial), natural minor.**  With these profiles the natural minor scale, played up and down, is heard in its minor key.
Missing: the other profiles, among them the default, with which it is false. -/
theorem C166_natural_minor_partial (hp : (cfg.majorKeyProfile, cfg.minorKeyProfile) ∈ minorPairs) :
    ∃ d, detect (ieee lg) iter₁ iter₂ cfg ((naturalMinor t).map PitchClass.ofInt) = .ok (.ok d) ∧
      d.localKeys = List.replicate 15 (Key.ofInt (t + 12)) ∧ d.mainKey = Key.ofInt (t + 12) := by
  have hr := (rel_tonic t (mem_pcs.2 ht)).2.1
  have hK : IsKey (t + 12) := by unfold IsKey; omega
  rcases Bool.or_eq_true_iff.1 (natural_own (cfg.majorKeyProfile, cfg.minorKeyProfile) hp) with h | h
  · exact once lg hok hlg hη iter₁ iter₂ hi₁ hi₂ cfg hc hT t (t + 12) hK _ (by decide) (by decide) (by rw [hr]; exact h)
  have := natural_found lg hok hlg hη iter₁ iter₂ hi₁ hi₂ cfg hc hT t (List.replicate 15 (t + 12)) (t + 12)
    (fun l hl => by rw [List.eq_of_mem_replicate hl]; exact hK) hK (by rw [List.map_replicate, hr]; exact h)
    (by rw [List.map_replicate, hr]; exact natural_votes.1)
  rwa [List.map_replicate] at this

include hok hlg hη hi₁ hi₂ hc hT ht in
/-- **C166 violated.**  With these profiles, among them the default ones, it is heard in the relative major key. -/
theorem C166_natural_minor_violated (hp : (cfg.majorKeyProfile, cfg.minorKeyProfile) ∈ majorPairs) :
    ∃ d, detect (ieee lg) iter₁ iter₂ cfg ((naturalMinor t).map PitchClass.ofInt) = .ok (.ok d) ∧
      d.localKeys = List.replicate 15 (Key.ofInt ((t + 3) % 12)) ∧ d.mainKey = Key.ofInt ((t + 3) % 12) := by
  have hr := (rel_tonic t (mem_pcs.2 ht)).2.2.1
  have hK : IsKey ((t + 3) % 12) := by unfold IsKey; omega
  rcases Bool.or_eq_true_iff.1 (natural_relative (cfg.majorKeyProfile, cfg.minorKeyProfile) hp) with h | h
  · exact once lg hok hlg hη iter₁ iter₂ hi₁ hi₂ cfg hc hT t ((t + 3) % 12) hK _ (by decide) (by decide) (by rw [hr]; exact h)
  have := natural_found lg hok hlg hη iter₁ iter₂ hi₁ hi₂ cfg hc hT t (List.replicate 15 ((t + 3) % 12)) ((t + 3) % 12)
    (fun l hl => by rw [List.eq_of_mem_replicate hl]; exact hK) hK (by rw [List.map_replicate, hr]; exact h)
    (by rw [List.map_replicate, hr]; exact natural_votes.2.1)
  rwa [List.map_replicate] at this

include hok hlg hη hi₁ hi₂ hc hT ht in
/-- **C166 violated, the key of the fourth.**  With the profiles of Krumhansl and Kessler for major and of Bellman and Budge for minor the
natural minor scale is heard in the minor key of its fourth note. -/
theorem C166_fourth_violated (hM : cfg.majorKeyProfile = "krumhansl_kessler") (hm : cfg.minorKeyProfile = "bellman_budge") :
    ∃ d, detect (ieee lg) iter₁ iter₂ cfg ((naturalMinor t).map PitchClass.ofInt) = .ok (.ok d) ∧
      d.localKeys = fourthKeys (Key.ofInt (t + 12)) (Key.ofInt ((t + 5) % 12 + 12)) ∧ d.mainKey = Key.ofInt ((t + 5) % 12 + 12) := by
  obtain ⟨_, r1, _, r2⟩ := rel_tonic t (mem_pcs.2 ht)
  have k1 : IsKey (t + 12) := by unfold IsKey; omega
  have k2 : IsKey ((t + 5) % 12 + 12) := by unfold IsKey; omega
  have hls : (fourthKeys (t + 12) ((t + 5) % 12 + 12)).map (rel t) = fourthKeys 12 17 := by
    simp [fourthKeys, r1, r2]
  refine natural_found lg hok hlg hη iter₁ iter₂ hi₁ hi₂ cfg hc hT t (fourthKeys (t + 12) ((t + 5) % 12 + 12)) _ ?_ k2
    (by rw [hls, hM, hm]; exact natural_fourth) (by rw [hls, r2]; exact natural_votes.2.2)
  intro l hl
  simp only [fourthKeys, List.mem_cons, List.not_mem_nil, or_false, or_self, or_self_left] at hl
  have : l = t + 12 ∨ l = (t + 5) % 12 + 12 := by tauto
  rcases this with rfl | rfl
  · exact k1
  · exact k2

theorem ofInt_keys : ∀ a ∈ keys, ∀ b ∈ keys, a ≠ b → Key.ofInt a ≠ Key.ofInt b := by decide +kernel

theorem natural_disjoint : ∀ p ∈ minorPairs, p ∉ majorPairs := by decide

/-- Every pair of profiles is in one of the lists, or it is the pair of the key of the fourth. -/
theorem natural_pairs : ∀ M ∈ profileChoices, ∀ m ∈ profileChoices, (M, m) ∈ minorPairs ∨ (M, m) ∈ majorPairs ∨
    (M = "krumhansl_kessler" ∧ m = "bellman_budge") := by decide

include hok hlg hη hi₁ hi₂ hc hT ht in
/-- **C166, natural minor, all profiles.**  The natural minor scale is heard in its own key with the profiles of `minorPairs` and with no
others. -/
theorem C166_natural_minor :
    ∃ d, detect (ieee lg) iter₁ iter₂ cfg ((naturalMinor t).map PitchClass.ofInt) = .ok (.ok d) ∧
      (d.mainKey = Key.ofInt (t + 12) ↔ (cfg.majorKeyProfile, cfg.minorKeyProfile) ∈ minorPairs) := by
  have inj : ∀ a b : Int, IsKey a → IsKey b → a ≠ b → Key.ofInt a ≠ Key.ofInt b :=
    fun a b ha hb => ofInt_keys a (mem_keys.2 ha) b (mem_keys.2 hb)
  have k0 : IsKey (t + 12) := by unfold IsKey; omega
  rcases natural_pairs _ hc.major _ hc.minor with h | h | ⟨h1, h2⟩
  · obtain ⟨d, e1, _, e2⟩ := C166_natural_minor_partial lg hok hlg hη iter₁ iter₂ hi₁ hi₂ cfg hc hT t ht h
    exact ⟨d, e1, fun _ => h, fun _ => e2⟩
  · obtain ⟨d, e1, _, e2⟩ := C166_natural_minor_violated lg hok hlg hη iter₁ iter₂ hi₁ hi₂ cfg hc hT t ht h
    refine ⟨d, e1, fun h' => absurd (h'.symm.trans e2) (inj _ _ k0 (by unfold IsKey; omega) (by omega)), fun h' => ?_⟩
    exact absurd h (natural_disjoint _ h')
  · obtain ⟨d, e1, _, e2⟩ := C166_fourth_violated lg hok hlg hη iter₁ iter₂ hi₁ hi₂ cfg hc hT t ht h1 h2
    refine ⟨d, e1, fun h' => absurd (h'.symm.trans e2) (inj _ _ k0 (by unfold IsKey; omega) (by omega)), fun h' => ?_⟩
    rw [h1, h2] at h'
    exact absurd h' (by decide)

end

/-- **C166 violated, whole program.**  `justkeydding file` on a natural minor scale, played up and down, prints the relative major key. -/
theorem C166_main_violated {S P T : Type} {η : ℝ} (lg : ℝ → RD) (hok : LogOk lg) (hlg : LogClose η lg)
    (hη : η ≤ (2 : ℝ) ^ (-30 : ℤ)) (E : Env RD S P T) (hF : E.F = ieee lg) (hi₁ : HMM.Iter.Ok E.iter₁) (hi₂ : HMM.Iter.Ok E.iter₂)
    (hj : E.junkMajor.length = 12 ∧ E.junkMinor.length = 12 ∧ E.junkTransition.length = 24) (file : Str) (p : Parsed RD)
    (hparse : parseArgs E (.ok (Options.default file)) = .ok (.ok p)) (t : Int) (ht : 0 ≤ t ∧ t < 12)
    (hread : readInput E p = .ok (.ok ((naturalMinor t).map PitchClass.ofInt))) :
    ∃ name : Str, noteName (name.map Char.toLower) = some ((t + 3) % 12) ∧
      main E (.ok (Options.default file)) = .ok { stdout := name ++ '\t' :: "major".toList ++ ['\n'], stderr := [], code := 0 } := by
  obtain ⟨hcfg, hp1, hp2⟩ := parse_cfg E (Options.default file) p rfl rfl hparse
  have hch : Chosen p.cfg := by
    rw [hcfg]
    have h1 : "sapp" ∈ profileChoices := by decide
    have h2 : "exponential10" ∈ transitionChoices := by decide
    exact ⟨⟨hj.2.2, hj.1, hj.2.1⟩, h1, h1, h2⟩
  have hmem : (p.cfg.majorKeyProfile, p.cfg.minorKeyProfile) ∈ majorPairs := by
    rw [hcfg]
    have : ("sapp", "sapp") ∈ majorPairs := by decide
    exact this
  obtain ⟨d, hd, _, hm⟩ := C166_natural_minor_violated lg hok hlg hη E.iter₁ E.iter₂ hi₁ hi₂ p.cfg hch (by rw [hcfg]; rfl) t ht hmem
  obtain ⟨name, hl, _, hname⟩ := C39_line ((t + 3) % 12) (by unfold IsKey; omega)
  refine ⟨name, by rw [hname, Int.emod_emod_of_dvd _ (by decide)], ?_⟩
  have hpr' : printResult E p d = keyLine (Key.ofInt ((t + 3) % 12)) := by
    simp [printResult, hp1, hp2, Options.default, hm]
  rw [if_pos (by omega)] at hl
  simp only [main, hparse, hread, Res.bind_ok, hF, hd, hpr', hl, Res.pure_eq]

/-! ### Cases -/

/-- The scale of C major from A is the natural minor scale on A, and the scale from G is the mixolydian one. -/
example : scalesFrom 0 [5] = naturalMinor 9 ∧ scalesFrom 0 [4] = [7, 9, 11, 0, 2, 4, 5, 7, 5, 4, 2, 0, 11, 9, 7] := by decide

/-- All pairs are pairs of profiles of the command line, none is in both lists, and one is in neither. -/
example : (∀ p ∈ minorPairs ++ majorPairs, p.1 ∈ profileChoices ∧ p.2 ∈ profileChoices) ∧ (minorPairs ++ majorPairs).Nodup ∧
    (minorPairs ++ majorPairs).length + 1 = profileChoices.length * profileChoices.length := by decide

end JKD.Phrases
