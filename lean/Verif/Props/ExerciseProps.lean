import Verif.Props.PhraseProps
/-
C131: five-finger exercises.
-/

namespace JKD.Phrases

open Spec HMM RD Detect Main

/-! ### Specification -/

/-- The five-finger exercise: five notes of the scale up and down. -/
def fiveFinger (K : Int) : List Nat := if Spec.isMajor K then [0, 2, 4, 5, 7, 5, 4, 2, 0] else [0, 2, 3, 5, 7, 5, 3, 2, 0]

/-- It is played `n` times in the key `K`. -/
def exercise (K : Int) (n : Nat) : List Int := Spec.played K (List.replicate n (fiveFinger K))

/-- The key that is found for the exercise in C major with the profiles `M` and `m`: C major, except for F major, D minor and A minor. -/
def foundMajor (M m : String) : Int :=
  if M = "sapp" then 5
  else if M = "krumhansl_kessler" then
    if m = "aarden_essen" then 14 else if m = "sapp" ∨ m = "temperley" then 21 else 0
  else 0

/-- The key that is found for the exercise in C minor: C minor or B flat major. -/
def foundMinor (M m : String) : Int :=
  if M = "aarden_essen" then if m = "aarden_essen" then 12 else 10
  else if (M = "bellman_budge" ∨ M = "temperley") ∧ m = "krumhansl_kessler" then 10
  else 12

/-- The key that is found for the exercise in `K`. -/
def found (M m : String) (K : Int) : Int := transposeKey (tonic K) (if Spec.isMajor K then foundMajor M m else foundMinor M m)

/-! ### The computation -/

/-- Potentials around the keys that are found. -/
def fivePot (k : Nat) : List Nat :=
  if k = 0 then [1000, 15, 72, 37, 19, 520, 5, 250, 45, 41, 181, 10, 187, 26, 731, 13, 194, 225, 22, 146, 12, 304, 29, 48]
  else if k = 14 then [145, 3, 75, 6, 4, 169, 1, 38, 6, 9, 26, 3, 30, 1, 1000, 1, 7, 13, 1, 200, 1, 243, 5, 1]
  else if k = 21 then [844, 12, 63, 32, 16, 436, 5, 210, 30, 51, 152, 8, 130, 3, 500, 1, 100, 69, 2, 133, 1, 1000, 21, 3]
  else if k = 5 then [500, 1, 0, 5, 0, 1000, 0, 50, 3, 0, 50, 0, 53, 2, 359, 1, 13, 100, 2, 73, 1, 125, 7, 3]
  else if k = 12 then [481, 51, 50, 593, 7, 554, 20, 180, 265, 17, 822, 18, 1000, 19, 389, 112, 82, 305, 25, 372, 28, 147, 76, 44]
  else [67, 4, 2, 455, 1, 157, 1, 13, 84, 1, 1000, 1, 583, 4, 53, 32, 12, 68, 4, 117, 5, 20, 88, 7]

theorem fivePot_small : ∀ k ∈ [0, 14, 21, 5, 12, 10], ∀ i < 24, i ≠ k → (fivePot k).getD i 0 ≤ 900 := by decide

theorem found_range : ∀ M ∈ profileChoices, ∀ m ∈ profileChoices, (foundMajor M m).toNat ∈ [0, 14, 21, 5, 12, 10] ∧
    (foundMinor M m).toNat ∈ [0, 14, 21, 5, 12, 10] ∧ foundMajor M m ∈ keys ∧ foundMinor M m ∈ keys := by decide

set_option maxRecDepth 100000 in
theorem majorFive_ok : ∀ M ∈ profileChoices, ∀ m ∈ profileChoices,
    phraseOk (majNat M) (minNat m) (foundMajor M m).toNat (fivePot (foundMajor M m).toNat) [0, 2, 4, 5, 7, 5, 4, 2, 0] = true := by
  decide +kernel

set_option maxRecDepth 100000 in
theorem minorFive_ok : ∀ M ∈ profileChoices, ∀ m ∈ profileChoices, ¬ (M = "sapp" ∧ m = "krumhansl_kessler") →
    phraseOk (majNat M) (minNat m) (foundMinor M m).toNat (fivePot (foundMinor M m).toNat) [0, 2, 3, 5, 7, 5, 3, 2, 0] = true := by
  decide +kernel

theorem rel_found : ∀ t ∈ pcs, ∀ k ∈ keys, rel t (transposeKey t k) = k.toNat := by decide +kernel

/-- A phrase that is played again and again above the tonic `t` and is heard in the key `K`. -/
theorem repeated {η : ℝ} (lg : ℝ → RD) (hok : LogOk lg) (hlg : LogClose η lg) (hη : η ≤ (2 : ℝ) ^ (-30 : ℤ)) (iter₁ iter₂ : Iter RD)
    (hi₁ : iter₁.Ok) (hi₂ : iter₂.Ok) (cfg : Config RD) (hc : Chosen cfg) (hT : cfg.keyTransition = "exponential10") (t K : Int)
    (hK : IsKey K) (U p : List Nat) (hp : p ≠ []) (ho : ∀ o ∈ p, o < 12) (hU : ∀ i < 24, i ≠ rel t K → U.getD i 0 ≤ 900)
    (h : phraseOk (majNat cfg.majorKeyProfile) (minNat cfg.minorKeyProfile) (rel t K) U p = true) (n : Nat) (hn : 0 < n)
    (hl : n * p.length ≤ 2 ^ 19) :
    ∃ d, detect (ieee lg) iter₁ iter₂ cfg
        (((List.replicate n p).flatten.map (fun x : Nat => (t + (x : Int)) % 12)).map PitchClass.ofInt) = .ok (.ok d) ∧
      d.localKeys = List.replicate (n * p.length) (Key.ofInt K) ∧ d.mainKey = Key.ofInt K := by
  have hnn : NonNeg (book cfg) := (stored1 (fun _ => nan) cfg hc []).nonneg
  have hg := phrase_sound hT hc t K (mem_keys.2 hK) U p hp ho h
  obtain ⟨h1, h2, h3⟩ := piece_sound hT hnn t K (mem_keys.2 hK) U hU (List.replicate n p) (by
    intro e
    have := congrArg List.length e
    simp at this
    omega) (fun q hq => by rw [List.eq_of_mem_replicate hq]; exact hg)
  have hlen : ((List.replicate n p).flatten.map (fun x : Nat => (t + (x : Int)) % 12)).length = n * p.length := by
    simp [List.length_flatten, List.map_replicate, List.sum_replicate]
  have key := heard lg hok hlg hη iter₁ iter₂ hi₁ hi₂ cfg hc K hK _ (by rw [hlen]; exact hl) h1 (fun o ho => by
    obtain ⟨x, _, rfl⟩ := List.mem_map.1 ho
    omega) h2 (fun ks hkl hkk hkne => h3 ks hkl (fun k hk => mem_keys.2 (hkk k hk)) hkne)
  rw [hlen] at key
  exact key

/-! ### C131 -/

section
variable {η : ℝ} (lg : ℝ → RD) (hok : LogOk lg) (hlg : LogClose η lg) (hη : η ≤ (2 : ℝ) ^ (-30 : ℤ)) (iter₁ iter₂ : Iter RD)
    (hi₁ : iter₁.Ok) (hi₂ : iter₂.Ok) (cfg : Config RD) (hc : Chosen cfg) (hT : cfg.keyTransition = "exponential10")

include hok hlg hη hi₁ hi₂ hc hT in
/-- **C131, what is found.**  In double arithmetic, with the default transitions and whatever the hash order: a five-finger exercise,
played any number of times, gets one and the same key from the first note to the last, namely `found`.  Only the exercise in a minor
key with `sapp` for major and `krumhansl_kessler` for minor is left out: two keys are equally probable for it. -/
theorem C131_found (K : Int) (hK : IsKey K)
    (htie : ¬ (Spec.isMajor K = false ∧ cfg.majorKeyProfile = "sapp" ∧ cfg.minorKeyProfile = "krumhansl_kessler")) (n : Nat)
    (hn : 0 < n) (hl : n * 9 ≤ 2 ^ 19) :
    ∃ d, detect (ieee lg) iter₁ iter₂ cfg ((exercise K n).map PitchClass.ofInt) = .ok (.ok d) ∧
      d.localKeys = List.replicate (n * 9) (Key.ofInt (found cfg.majorKeyProfile cfg.minorKeyProfile K)) ∧
      d.mainKey = Key.ofInt (found cfg.majorKeyProfile cfg.minorKeyProfile K) := by
  obtain ⟨h1, h2, h3, h4⟩ := found_range _ hc.major _ hc.minor
  have ht : tonic K ∈ pcs := by rw [mem_pcs]; unfold tonic; omega
  unfold exercise Spec.played fiveFinger found
  by_cases hmaj : Spec.isMajor K = true
  · rw [if_pos hmaj, if_pos hmaj]
    have hr := rel_found _ ht _ h3
    refine repeated lg hok hlg hη iter₁ iter₂ hi₁ hi₂ cfg hc hT (tonic K) _ (mem_keys.1 (transposeKey_mem _)) (fivePot _) _ (by decide)
      (by decide) (by rw [hr]; exact fivePot_small _ h1) ?_ n hn hl
    rw [hr]
    exact majorFive_ok _ hc.major _ hc.minor
  · rw [if_neg hmaj, if_neg hmaj]
    have hr := rel_found _ ht _ h4
    refine repeated lg hok hlg hη iter₁ iter₂ hi₁ hi₂ cfg hc hT (tonic K) _ (mem_keys.1 (transposeKey_mem _)) (fivePot _) _ (by decide)
      (by decide) (by rw [hr]; exact fivePot_small _ h2) ?_ n hn hl
    rw [hr]
    exact minorFive_ok _ hc.major _ hc.minor (fun e => htie ⟨by simpa using hmaj, e⟩)

include hok hlg hη hi₁ hi₂ hc hT in
/-- **C131 (partial).**  With one and the same profile for major and minor, the exercise gets its own key, unless the profile is `sapp`
and the key is major.  Missing: that case, which is the default and in which it is false, and different profiles (`C131_found`). -/
theorem C131_exercise_partial (hMm : cfg.majorKeyProfile = cfg.minorKeyProfile) (K : Int) (hK : IsKey K)
    (hs : Spec.isMajor K = true → cfg.majorKeyProfile ≠ "sapp") (n : Nat) (hn : 0 < n) (hl : n * 9 ≤ 2 ^ 19) :
    ∃ d, detect (ieee lg) iter₁ iter₂ cfg ((exercise K n).map PitchClass.ofInt) = .ok (.ok d) ∧
      d.localKeys = List.replicate (n * 9) (Key.ofInt K) ∧ d.mainKey = Key.ofInt K := by
  have key := C131_found lg hok hlg hη iter₁ iter₂ hi₁ hi₂ cfg hc hT K hK (by
    rintro ⟨_, e1, e2⟩
    rw [hMm, e2] at e1
    exact absurd e1 (by decide)) n hn hl
  have hf : ∀ M ∈ profileChoices, ∀ k ∈ keys, (Spec.isMajor k = true → M ≠ "sapp") → found M M k = k := by decide +kernel
  rw [← hMm, hf _ hc.major K (mem_keys.2 hK) hs] at key
  exact key

include hok hlg hη hi₁ hi₂ hc hT in
/-- **C131 violated.**  With the default major profile, the exercise in a major key is heard in the key a fourth above, however often
it is played. -/
theorem C131_default_violated (hM : cfg.majorKeyProfile = "sapp") (K : Int) (hK : IsKey K) (hmaj : Spec.isMajor K = true) (n : Nat)
    (hn : 0 < n) (hl : n * 9 ≤ 2 ^ 19) :
    transposeKey 5 K ≠ K ∧
    ∃ d, detect (ieee lg) iter₁ iter₂ cfg ((exercise K n).map PitchClass.ofInt) = .ok (.ok d) ∧
      d.localKeys = List.replicate (n * 9) (Key.ofInt (transposeKey 5 K)) ∧ d.mainKey = Key.ofInt (transposeKey 5 K) := by
  have hne : ∀ k ∈ keys, transposeKey 5 k ≠ k := by decide
  refine ⟨hne K (mem_keys.2 hK), ?_⟩
  have key := C131_found lg hok hlg hη iter₁ iter₂ hi₁ hi₂ cfg hc hT K hK (by rw [hmaj]; simp) n hn hl
  have hf : ∀ m ∈ profileChoices, ∀ k ∈ keys, Spec.isMajor k = true → found "sapp" m k = transposeKey 5 k := by decide +kernel
  rw [hM, hf _ hc.minor K (mem_keys.2 hK) hmaj] at key
  exact key

end

/-- **C131 violated, whole program.**  `justkeydding file` on a five-finger exercise in a major key prints the key a fourth above. -/
theorem C131_main_violated {S P T : Type} {η : ℝ} (lg : ℝ → RD) (hok : LogOk lg) (hlg : LogClose η lg)
    (hη : η ≤ (2 : ℝ) ^ (-30 : ℤ)) (E : Env RD S P T) (hF : E.F = ieee lg) (hi₁ : HMM.Iter.Ok E.iter₁) (hi₂ : HMM.Iter.Ok E.iter₂)
    (hj : E.junkMajor.length = 12 ∧ E.junkMinor.length = 12 ∧ E.junkTransition.length = 24) (file : Str) (p : Parsed RD)
    (hparse : parseArgs E (.ok (Options.default file)) = .ok (.ok p)) (K : Int) (hK : IsKey K) (hmaj : Spec.isMajor K = true) (n : Nat)
    (hn : 0 < n) (hl : n * 9 ≤ 2 ^ 19) (hread : readInput E p = .ok (.ok ((exercise K n).map PitchClass.ofInt))) :
    ∃ name : Str, noteName (name.map Char.toLower) = some ((tonic K + 5) % 12) ∧
      main E (.ok (Options.default file)) = .ok { stdout := name ++ '\t' :: "major".toList ++ ['\n'], stderr := [], code := 0 } := by
  obtain ⟨hcfg, hp1, hp2⟩ := parse_cfg E (Options.default file) p rfl rfl hparse
  have hch : Chosen p.cfg := by
    rw [hcfg]
    have h1 : "sapp" ∈ profileChoices := by decide
    have h2 : "exponential10" ∈ transitionChoices := by decide
    exact ⟨⟨hj.2.2, hj.1, hj.2.1⟩, h1, h1, h2⟩
  obtain ⟨_, d, hd, _, hm⟩ := C131_default_violated lg hok hlg hη E.iter₁ E.iter₂ hi₁ hi₂ p.cfg hch (by rw [hcfg]; rfl)
    (by rw [hcfg]; rfl) K hK hmaj n hn hl
  have h5 : ∀ k ∈ keys, Spec.isMajor k = true → transposeKey 5 k % 12 = (tonic k + 5) % 12 ∧ transposeKey 5 k < 12 := by decide
  obtain ⟨ht, hlt⟩ := h5 K (mem_keys.2 hK) hmaj
  obtain ⟨name, hl, _, hname⟩ := C39_line (transposeKey 5 K) (mem_keys.1 (transposeKey_mem 5))
  refine ⟨name, by rw [hname, ht], ?_⟩
  have hpr' : printResult E p d = keyLine (Key.ofInt (transposeKey 5 K)) := by
    simp [printResult, hp1, hp2, Options.default, hm]
  rw [if_pos hlt] at hl
  simp only [main, hparse, hread, Res.bind_ok, hF, hd, hpr', hl, Res.pure_eq]

/-! ### Cases -/

/-- The exercise in G major. -/
example : exercise 7 1 = [7, 9, 11, 0, 2, 0, 11, 9, 7] := by decide

/-- It is heard in G major with the profiles of Krumhansl and Kessler. -/
example (iter₁ iter₂ : Iter RD) (hi₁ : iter₁.Ok) (hi₂ : iter₂.Ok) :
    ∃ d, detect (ieee (fun r => rnd64 (Real.logb 10 r))) iter₁ iter₂ plain ((exercise 7 3).map PitchClass.ofInt) = .ok (.ok d) ∧
      d.localKeys = List.replicate 27 (Key.ofInt 7) ∧ d.mainKey = Key.ofInt 7 :=
  C131_exercise_partial _ logOk_rounded logClose_rounded (zpow_le_zpow_right₀ (by norm_num) (by norm_num)) iter₁ iter₂ hi₁ hi₂ plain
    plain_chosen rfl rfl 7 (by decide) (by decide) 3 (by decide) (by decide)

end JKD.Phrases
