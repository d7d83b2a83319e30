import Verif.Props.PassingProps
/-
C132: music played backwards.
-/

namespace JKD.Detect

open Spec HMM RD Main

/-! ### Products along a reversed path -/

theorem moves_reverse (t : Tables ℝ) (hsym : ∀ j k, t.trans j k = t.trans k j) : ∀ ks : List Int, moves t ks.reverse = moves t ks := by
  intro ks
  induction ks with
  | nil => rfl
  | cons a ks ih =>
    cases ks with
    | nil => rfl
    | cons b ks =>
      rw [List.reverse_cons, moves_left, ih]
      simp only [List.getLast?_reverse, List.head?_cons, Option.toList, moves, List.cons_append, List.nil_append, mul_one]
      rw [hsym b a, mul_comm]

theorem plays_reverse (t : Tables ℝ) : ∀ ks os : List Int, ks.length = os.length → plays t ks.reverse os.reverse = plays t ks os := by
  intro ks
  induction ks with
  | nil => intro os h; simp [plays]
  | cons k ks ih =>
    intro os h
    cases os with
    | nil => simp at h
    | cons o os =>
      simp only [List.length_cons, Nat.add_right_cancel_iff] at h
      rw [List.reverse_cons, List.reverse_cons, plays_append _ _ _ _ _ (by simpa using h), ih os h]
      simp only [plays, List.zipWith_cons_cons, List.zipWith_nil_left, List.prod_cons, List.prod_nil, mul_one]
      exact mul_comm _ _

theorem prob_split (t : Tables ℝ) (c : ℝ) : ∀ (os ks : List Int), ks.length = os.length → os ≠ [] → (∀ k ∈ ks, t.init k = c) →
    prob t os ks = c * (moves t ks * plays t ks os) := by
  intro os ks h hne hc
  cases os with
  | nil => exact absurd rfl hne
  | cons o os =>
    cases ks with
    | nil => simp at h
    | cons k ks =>
      rw [prob_eq t o os k ks (by simpa using h), hc k (by simp)]

theorem goQ_symm : ∀ s ∈ transitionChoices, ∀ j ∈ keys, ∀ k ∈ keys, goQ s j k = goQ s k j := by decide +kernel

/-- The printed tables do not know the direction of time. -/
theorem prob_reverse {cfg : Config RD} (hc : Chosen cfg) (os ks : List Int) (h : ks.length = os.length) (hk : ∀ k ∈ ks, IsKey k) :
    prob (book cfg) os.reverse ks.reverse = prob (book cfg) os ks := by
  by_cases hne : os = []
  · subst hne
    obtain rfl := List.length_eq_zero_iff.1 h
    rfl
  have hi : ∀ k ∈ ks, (book cfg).init k = 1 / 24 := fun k hk' => by simp only [book]; rw [if_pos (mem_keys.2 (hk k hk'))]
  rw [prob_split _ (1 / 24) os ks h hne hi, prob_split _ (1 / 24) os.reverse ks.reverse (by simpa using h) (by simpa using hne)
    (fun k hk' => hi k (List.mem_reverse.1 hk')), moves_reverse, plays_reverse _ _ _ h]
  intro j k
  simp only [book]
  by_cases hj : j ∈ keys <;> by_cases hk' : k ∈ keys <;> simp only [hj, hk', and_self, and_false, false_and, if_true, if_false]
  rw [goQ_symm _ hc.trans j hj k hk']

theorem evidence_reverse (e : Int → Int → ℝ) (ls : List Int) (k : Int) : evidence e ls.reverse k = evidence e ls k := by
  unfold evidence
  rw [List.map_reverse]
  exact List.prod_reverse _

/-! ### C132 -/

section
variable {η : ℝ} (lg : ℝ → RD) (hok : LogOk lg) (hlg : LogClose η lg) (iter₁ iter₂ : Iter RD) (hi₁ : iter₁.Ok) (hi₂ : iter₂.Ok)
  (cfg : Config RD) (hc : Chosen cfg)

include hok hlg hi₁ hi₂ hc in
/-- **C132.**  In double arithmetic, for the tables of the command line and any hash order: the keys found in the reversed piece, read
backwards, explain the piece as well as the keys found in it, up to the factor `10 ^ (2 slack)` of rounding. -/
theorem C132_backwards (os : List Int) (ho : ∀ o ∈ os, 0 ≤ o ∧ o < 12) (hne : os ≠ []) (hn : os.length ≤ 2 ^ 40) :
    ∃ d d' ls ls', detect (ieee lg) iter₁ iter₂ cfg (os.map PitchClass.ofInt) = .ok (.ok d) ∧
      detect (ieee lg) iter₁ iter₂ cfg (os.reverse.map PitchClass.ofInt) = .ok (.ok d') ∧
      d.localKeys = ls.map Key.ofInt ∧ d'.localKeys = ls'.map Key.ofInt ∧
      ls.length = os.length ∧ ls'.length = os.length ∧ (∀ l ∈ ls ++ ls', IsKey l) ∧
      prob (book cfg) os ls ≤ (10 : ℝ) ^ (2 * slack η os.length) * prob (book cfg) os ls'.reverse ∧
      prob (book cfg) os ls'.reverse ≤ (10 : ℝ) ^ (2 * slack η os.length) * prob (book cfg) os ls := by
  obtain ⟨d, ls, k, h1, h2, h3, h4, h5, _⟩ := C121_program lg hok hlg iter₁ iter₂ hi₁ hi₂ cfg hc os ho hne hn
  obtain ⟨d', ls', k', g1, g2, g3, g4, g5, _⟩ := C121_program lg hok hlg iter₁ iter₂ hi₁ hi₂ cfg hc os.reverse
    (fun o h => ho o (List.mem_reverse.1 h)) (by simpa using hne) (by simpa using hn)
  rw [List.length_reverse] at g3 g5
  refine ⟨d, d', ls, ls', h1, g1, h2, g2, h3, g3, ?_, ?_, ?_⟩
  · intro l hl
    rcases List.mem_append.1 hl with h | h
    · exact h4 l h
    · exact g4 l h
  · have e := g5 ls.reverse (by simpa using h3) (fun k hk => h4 k (List.mem_reverse.1 hk))
    rw [prob_reverse hc os ls h3 h4] at e
    have e2 := prob_reverse hc os ls'.reverse (by simpa using g3) (fun k hk => g4 k (List.mem_reverse.1 hk))
    rw [List.reverse_reverse] at e2
    rwa [e2] at e
  · exact h5 ls'.reverse (by simpa using g3) (fun k hk => g4 k (List.mem_reverse.1 hk))

include hok hlg hi₁ hi₂ hc in
/-- **C132, decided music.**  If one sequence of keys is more probable than every other one, and one key has more evidence for it than
every other key, by more than that factor, then the reversed piece gets the reversed local keys and the same main key. -/
theorem C132_decided (os : List Int) (ho : ∀ o ∈ os, 0 ≤ o ∧ o < 12) (hne : os ≠ [])
    (hn : os.length ≤ 2 ^ 40) (best : List Int) (hbl : best.length = os.length) (hbk : ∀ k ∈ best, IsKey k)
    (hb : ∀ ks : List Int, ks.length = os.length → (∀ k ∈ ks, IsKey k) → ks ≠ best →
      (10 : ℝ) ^ (2 * slack η os.length) * prob (book cfg) os ks < prob (book cfg) os best)
    (key : Int) (hkey : IsKey key)
    (hk : ∀ k, IsKey k → k ≠ key → (10 : ℝ) ^ (2 * slack η os.length) * evidence (fun k l => (goQ cfg.keyTransition k l : ℝ)) best k <
      evidence (fun k l => (goQ cfg.keyTransition k l : ℝ)) best key) :
    ∃ d d', detect (ieee lg) iter₁ iter₂ cfg (os.map PitchClass.ofInt) = .ok (.ok d) ∧
      detect (ieee lg) iter₁ iter₂ cfg (os.map PitchClass.ofInt).reverse = .ok (.ok d') ∧
      d'.localKeys = d.localKeys.reverse ∧ d'.mainKey = d.mainKey := by
  obtain ⟨d, h1, h2, h3⟩ := C121_decided lg hok hlg iter₁ iter₂ hi₁ hi₂ cfg hc os ho hne hn best hbl hbk hb key hkey hk
  obtain ⟨d', g1, g2, g3⟩ := C121_decided lg hok hlg iter₁ iter₂ hi₁ hi₂ cfg hc os.reverse
    (fun o h => ho o (List.mem_reverse.1 h)) (by simpa using hne) (by simpa using hn) best.reverse (by simpa using hbl)
    (fun k hk => hbk k (List.mem_reverse.1 hk)) (by
      intro ks hl hks hne'
      rw [List.length_reverse] at hl ⊢
      rw [prob_reverse hc os best hbl hbk]
      have e := prob_reverse hc os ks.reverse (by simpa using hl) (fun k hk => hks k (List.mem_reverse.1 hk))
      rw [List.reverse_reverse] at e
      rw [e]
      refine hb ks.reverse (by simpa using hl) (fun k hk => hks k (List.mem_reverse.1 hk)) ?_
      rintro rfl
      exact hne' (List.reverse_reverse _).symm) key hkey (by
      intro k hk' hne'
      rw [List.length_reverse, evidence_reverse, evidence_reverse]
      exact hk k hk' hne')
  refine ⟨d, d', h1, ?_, ?_, ?_⟩
  · rw [← List.map_reverse]; exact g1
  · rw [g2, h2, List.map_reverse]
  · rw [g3, h3]

end

/-! ### Cases -/

open Phrases

/-- Five C major triads, seven times E flat, four C major triads downwards. -/
def longer : List (Nat × Nat) := [(0, 0), (4, 0), (7, 0)] ++ excursion

set_option maxRecDepth 100000 in
theorem longer_clear : clearPiece (majNat "krumhansl_kessler") (minNat "krumhansl_kessler") longer = true := by decide +kernel

theorem longer_evidence : ∀ k ∈ keys, k ≠ 0 → 25 * (longer.map (fun p => goQ "exponential10" k (p.2 : Int))).prod ≤
    24 * (longer.map (fun p => goQ "exponential10" 0 (p.2 : Int))).prod := by decide +kernel

/-- It is not the same backwards, and it is decided. -/
example (iter₁ iter₂ : Iter RD) (hi₁ : iter₁.Ok) (hi₂ : iter₂.Ok) :
    longer.map (·.1) ≠ (longer.map (·.1)).reverse ∧ ∃ d d',
      detect (ieee (fun r => rnd64 (Real.logb 10 r))) iter₁ iter₂ plain ((longer.map (fun p => (p.1 : Int))).map PitchClass.ofInt) =
        .ok (.ok d) ∧
      detect (ieee (fun r => rnd64 (Real.logb 10 r))) iter₁ iter₂ plain
        ((longer.map (fun p => (p.1 : Int))).map PitchClass.ofInt).reverse = .ok (.ok d') ∧
      d'.localKeys = d.localKeys.reverse ∧ d'.mainKey = d.mainKey := by
  have hη : ((2 : ℝ) ^ (-43 : ℤ)) ≤ (2 : ℝ) ^ (-30 : ℤ) := zpow_le_zpow_right₀ (by norm_num) (by norm_num)
  obtain ⟨h1, h2, h3, h4, h5⟩ := clear_decided hη plain plain_chosen rfl longer (by decide) (by decide) longer_clear 0 longer_evidence
  exact ⟨by decide, C132_decided _ logOk_rounded logClose_rounded iter₁ iter₂ hi₁ hi₂ plain plain_chosen _ h1 h2 (by simp [longer, excursion])
    _ (by simp) h3 h4 0 (by decide) h5⟩

end JKD.Detect
