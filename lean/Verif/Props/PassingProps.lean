import Verif.Lemmas.PassingTable
import Verif.Props.ExcursionProps
/-
C130: what a passing note does with the default profiles.
-/

namespace JKD.Phrases

open Spec HMM RD Detect

/-! ### What the computation says -/

theorem rivals_spec (r K K' : Nat) (V : List Nat) : ∀ (G : List (List Nat)) (e : List Nat) (k : Nat) (cont : List Nat → Bool),
    rivals r K K' V k G e cont = true → ∃ V', cont V' = true ∧
      ∀ i, i < G.length → colMax (if k + i = K' then 0 else r * (G.getD i []).getD K 0) V (G.getD i []) * e.getD i 0 ≤ V'.getD i 0 := by
  intro G
  induction G with
  | nil => intro e k cont h; exact ⟨[], by simpa [rivals] using h, fun i hi => absurd hi (by simp)⟩
  | cons g gs ih =>
    intro e k cont h
    cases e with
    | nil => exact ⟨[], by simpa [rivals] using h, fun i _ => by simp⟩
    | cons e es =>
      rw [rivals, force_eq] at h
      obtain ⟨V', h1, h2⟩ := ih es _ _ h
      refine ⟨_, h1, fun i hi => ?_⟩
      cases i with
      | zero => simp
      | succ i =>
        have := h2 i (by simpa using hi)
        simp only [List.getD_cons_succ]
        rw [show k + (i + 1) = k + 1 + i by omega]
        exact this

theorem smaller_spec (r : Nat) : ∀ (V : List Nat), smaller r V = true → ∀ i, 25 * V.getD i 0 ≤ 24 * r := by
  intro V
  induction V with
  | nil => intro _ i; simp
  | cons v vs ih =>
    intro h i
    simp only [smaller, Bool.and_eq_true] at h
    cases i with
    | zero => simpa using Nat.le_of_ble_eq_true h.1
    | succ i => simpa only [List.getD_cons_succ] using ih h.2 i

section
variable {cfg : Config RD} (hT : cfg.keyTransition = "exponential10") (hc : Chosen cfg)

include hT in
theorem go_book (j k : Int) (hj : j ∈ keys) (hk : k ∈ keys) :
    (book cfg).trans j k = ((goTable.getD k.toNat []).getD j.toNat 0 : Nat) / 144442221 := by
  simp only [book, hj, hk, and_self, if_true, hT]
  rw [go_nat j hj k hk]
  push_cast
  rfl

include hc in
theorem play_book (k : Int) (o : Nat) (ho : o < 12) (hk : k ∈ keys) :
    (book cfg).emis k o = ((play (majNat cfg.majorKeyProfile) (minNat cfg.minorKeyProfile) o).getD k.toNat 0 : Nat) / 10 ^ 22 := by
  have hp : (o : Int) ∈ pcs := by rw [mem_pcs]; omega
  simp only [book, hk, hp, and_self, if_true]
  rw [play_nat _ hc.major _ hc.minor k hk o (List.mem_range.2 ho)]
  push_cast
  rfl

include hT hc in
theorem clear_sound : ∀ (rest : List (Nat × Nat)) (r K : Nat) (V : List Nat), K < 24 → (∀ p ∈ rest, p.1 < 12 ∧ p.2 < 24) →
    clear (majNat cfg.majorKeyProfile) (minNat cfg.minorKeyProfile) r K V rest = true →
    ∀ (s acc : ℝ) (j : Int) (ks : List Int), 0 ≤ s → j ∈ keys → ks.length = rest.length → (∀ k ∈ ks, k ∈ keys) →
      (acc ≤ s * (V.getD j.toNat 0 : Nat) ∨ (j = K ∧ acc ≤ s * r ∧ ks ≠ rest.map (fun p => (p.2 : Int)))) →
      extendProb (book cfg) acc j (rest.map (fun p => (p.1 : Int))) ks ≤
        24 / 25 * extendProb (book cfg) (s * r) K (rest.map (fun p => (p.1 : Int))) (rest.map (fun p => (p.2 : Int))) := by
  intro rest
  induction rest with
  | nil =>
    intro r K V hK _ h s acc j ks hs hj hl hk hacc
    obtain rfl := List.length_eq_zero_iff.1 hl
    simp only [List.map_nil, extendProb]
    rcases hacc with hacc | ⟨_, _, h3⟩
    · have h2 := smaller_spec r V (by simpa [clear] using h) j.toNat
      have h3 : ((25 * V.getD j.toNat 0 : Nat) : ℝ) ≤ ((24 * r : Nat) : ℝ) := Nat.cast_le.2 h2
      push_cast at h3
      have := mul_le_mul_of_nonneg_left h3 hs
      linarith
    · exact absurd rfl h3
  | cons p rest ih =>
    obtain ⟨o, K'⟩ := p
    intro r K V hK hp h s acc j ks hs hj hl hk hacc
    match ks, hl with
    | k :: ks, hl =>
      rw [clear] at h
      obtain ⟨V', h1, h2⟩ := rivals_spec r K K' V goTable _ 0 _ h
      rw [force_eq] at h1
      have hpo := hp (o, K') (by simp)
      have hk1 : k ∈ keys := hk k (by simp)
      have hKk : (K : Int) ∈ keys := by rw [mem_keys]; unfold IsKey; omega
      have hKk' : (K' : Int) ∈ keys := by
        have := hpo.2
        rw [mem_keys]; unfold IsKey; simp only at this; omega
      have hkN : k.toNat < 24 := by have := mem_keys.1 hk1; unfold IsKey at this; omega
      have hkI : (k.toNat : Int) = k := by have := mem_keys.1 hk1; unfold IsKey at this; omega
      simp only [List.map_cons, extendProb]
      have e0 : s * r * ((book cfg).trans K K' * (book cfg).emis K' o) =
          (s / (144442221 * 10 ^ 22)) * ((r * (goTable.getD K' []).getD K 0 *
            (play (majNat cfg.majorKeyProfile) (minNat cfg.minorKeyProfile) o).getD K' 0 : Nat) : ℝ) := by
        rw [go_book hT _ _ hKk hKk', play_book hc _ o hpo.1 hKk']
        simp only [Int.toNat_natCast]
        push_cast
        ring
      rw [e0]
      refine ih _ K' V' hpo.2 (fun q hq => hp q (by simp [hq])) h1 _ _ k ks (by positivity) hk1 (by simpa using hl)
        (fun x hx => hk x (by simp [hx])) ?_
      rw [go_book hT _ _ hj hk1, play_book hc _ o hpo.1 hk1]
      have h3 := h2 k.toNat (by have : goTable.length = 24 := by decide
                                omega)
      rw [Nat.zero_add] at h3
      obtain ⟨c1, c2⟩ := colMax_spec V (goTable.getD k.toNat []) (if k.toNat = K' then 0 else r * (goTable.getD k.toNat []).getD K 0)
      have c3 := c2 j.toNat
      generalize hcm : colMax (if k.toNat = K' then 0 else r * (goTable.getD k.toNat []).getD K 0) V (goTable.getD k.toNat []) = c at *
      generalize he : (play (majNat cfg.majorKeyProfile) (minNat cfg.minorKeyProfile) o).getD k.toNat 0 = e at *
      have fin : ∀ x : Nat, x * (goTable.getD k.toNat []).getD j.toNat 0 ≤ c → acc ≤ s * x →
          acc * (((goTable.getD k.toNat []).getD j.toNat 0 : Nat) / 144442221 * ((e : Nat) / 10 ^ 22)) ≤
            s / (144442221 * 10 ^ 22) * (V'.getD k.toNat 0 : Nat) := by
        intro x hx hax
        have h4 := (Nat.mul_le_mul_right e hx).trans h3
        have h5 : ((x * (goTable.getD k.toNat []).getD j.toNat 0 * e : Nat) : ℝ) ≤ ((V'.getD k.toNat 0 : Nat) : ℝ) := Nat.cast_le.2 h4
        push_cast at h5
        have h6 := mul_le_mul_of_nonneg_left h5 (by positivity : 0 ≤ s / (144442221 * 10 ^ 22))
        refine le_trans ?_ h6
        generalize (goTable.getD k.toNat []).getD j.toNat 0 = g at *
        have h7 := mul_le_mul_of_nonneg_right hax (by positivity : (0 : ℝ) ≤ (g : ℝ) / 144442221 * (e / 10 ^ 22))
        refine h7.trans (le_of_eq ?_)
        ring
      rcases hacc with hacc | ⟨hjK, hacc, hne⟩
      · exact Or.inl (fin _ c3 hacc)
      · have hjN : j.toNat = K := by omega
        by_cases ekk : k.toNat = K'
        · refine Or.inr ⟨by omega, ?_, ?_⟩
          · have h7 := mul_le_mul_of_nonneg_right hacc
              (by positivity : (0 : ℝ) ≤ (((goTable.getD k.toNat []).getD j.toNat 0 : Nat) : ℝ) / 144442221 * ((e : Nat) / 10 ^ 22))
            refine h7.trans (le_of_eq ?_)
            rw [← he, ekk, hjN]
            push_cast
            ring
          · rintro rfl
            refine hne ?_
            simp only [List.map_cons, List.cons.injEq, and_true]
            omega
        · rw [if_neg ekk] at c1
          exact Or.inl (fin r (by rw [hjN]; exact c1) hacc)

include hT hc in
/-- A checked piece has exactly one most probable sequence of keys. -/
theorem clearPiece_sound (ps : List (Nat × Nat)) (hp : ∀ p ∈ ps, p.1 < 12 ∧ p.2 < 24)
    (h : clearPiece (majNat cfg.majorKeyProfile) (minNat cfg.minorKeyProfile) ps = true) :
    ∀ ks : List Int, ks.length = ps.length → (∀ k ∈ ks, IsKey k) → ks ≠ ps.map (fun p => (p.2 : Int)) →
      prob (book cfg) (ps.map (fun p => (p.1 : Int))) ks ≤
        24 / 25 * prob (book cfg) (ps.map (fun p => (p.1 : Int))) (ps.map (fun p => (p.2 : Int))) := by
  intro ks hl hk hne
  match ps, ks, hl with
  | [], _, _ => simp [clearPiece] at h
  | (o, K) :: rest, k :: ks, hl =>
    have hpo := hp (o, K) (by simp)
    simp only at hpo
    have hk1 : k ∈ keys := mem_keys.2 (hk k (by simp))
    have hKk : (K : Int) ∈ keys := by rw [mem_keys]; unfold IsKey; omega
    have hkI : (k.toNat : Int) = k := by have := mem_keys.1 hk1; unfold IsKey at this; omega
    simp only [List.map_cons, prob]
    have e0 : (book cfg).init K * (book cfg).emis K o = 1 / (24 * 10 ^ 22) *
        ((play (majNat cfg.majorKeyProfile) (minNat cfg.minorKeyProfile) o).getD K 0 : Nat) := by
      rw [play_book hc _ o hpo.1 hKk]
      simp only [book, hKk, if_true, Int.toNat_natCast]
      ring
    rw [e0]
    refine clear_sound hT hc rest _ K _ hpo.2 (fun q hq => hp q (by simp [hq])) (by simpa [clearPiece] using h) _ _ k ks (by positivity)
      hk1 (by simpa using hl) (fun x hx => mem_keys.2 (hk x (by simp [hx]))) ?_
    rw [play_book hc _ o hpo.1 hk1]
    have e1 : (book cfg).init k = 1 / 24 := by simp only [book, hk1, if_true]
    rw [e1]
    by_cases ek : k = K
    · subst ek
      refine Or.inr ⟨rfl, le_of_eq ?_, ?_⟩
      · simp only [Int.toNat_natCast]
        ring
      · rintro rfl
        exact hne rfl
    · left
      have hkK : K ≠ k.toNat := by omega
      have e2 : ((play (majNat cfg.majorKeyProfile) (minNat cfg.minorKeyProfile) o).set K 0).getD k.toNat 0 =
          (play (majNat cfg.majorKeyProfile) (minNat cfg.minorKeyProfile) o).getD k.toNat 0 := by
        simp only [List.getD_eq_getElem?_getD]
        rw [List.getElem?_set_ne hkK]
      rw [e2]
      refine le_of_eq ?_
      ring
end

/-- The rounding of a piece with up to a quarter of a million notes costs less than one part in 25. -/
theorem slack_25 {η : ℝ} (hη : η ≤ (2 : ℝ) ^ (-30 : ℤ)) (n : Nat) (hn : n ≤ 2 ^ 18) : (10 : ℝ) ^ (2 * slack η n) < 25 / 24 := by
  have hn' : (n : ℝ) ≤ 2 ^ 18 := by exact_mod_cast hn
  have h0 : (0 : ℝ) ≤ n := Nat.cast_nonneg n
  have h : 2 * slack η n ≤ 1 / 60 := by
    unfold slack
    have a1 : (n : ℝ) * (η + (2 : ℝ) ^ (-51 : ℤ)) ≤ 2 ^ 18 * ((2 : ℝ) ^ (-30 : ℤ) + (2 : ℝ) ^ (-51 : ℤ)) := by
      calc (n : ℝ) * (η + (2 : ℝ) ^ (-51 : ℤ)) ≤ n * ((2 : ℝ) ^ (-30 : ℤ) + (2 : ℝ) ^ (-51 : ℤ)) :=
            mul_le_mul_of_nonneg_left (by linarith) h0
        _ ≤ _ := mul_le_mul_of_nonneg_right hn' (by positivity)
    have a2 : (n : ℝ) ^ 2 * (2 : ℝ) ^ (-44 : ℤ) ≤ (2 ^ 18) ^ 2 * (2 : ℝ) ^ (-44 : ℤ) :=
      mul_le_mul_of_nonneg_right (pow_le_pow_left₀ h0 hn' 2) (by positivity)
    have a3 : 2 * ((2 : ℝ) ^ 18 * ((2 : ℝ) ^ (-30 : ℤ) + (2 : ℝ) ^ (-51 : ℤ)) + (2 ^ 18) ^ 2 * (2 : ℝ) ^ (-44 : ℤ)) ≤ 1 / 60 := by
      norm_num
    refine le_trans ?_ a3
    exact mul_le_mul_of_nonneg_left (add_le_add a1 a2) (by norm_num)
  have e : ((10 : ℝ) ^ (1 / 60 : ℝ)) ^ (60 : ℕ) = 10 := by
    rw [← Real.rpow_natCast, ← Real.rpow_mul (by norm_num)]
    norm_num
  have h2 : (10 : ℝ) ^ (1 / 60 : ℝ) < 25 / 24 := by
    by_contra hlt
    have := pow_le_pow_left₀ (by norm_num) (not_lt.1 hlt) 60
    rw [e] at this
    norm_num at this
  exact (Real.rpow_le_rpow_of_exponent_le (by norm_num : (1 : ℝ) ≤ 10) h).trans_lt h2

/-- A checked piece is decided. -/
theorem clear_decided {η : ℝ} (hη : η ≤ (2 : ℝ) ^ (-30 : ℤ)) (cfg : Config RD) (hc : Chosen cfg) (hT : cfg.keyTransition = "exponential10")
    (ps : List (Nat × Nat)) (hp : ∀ p ∈ ps, p.1 < 12 ∧ p.2 < 24) (hn : ps.length ≤ 2 ^ 18)
    (h : clearPiece (majNat cfg.majorKeyProfile) (minNat cfg.minorKeyProfile) ps = true) (key : Int)
    (hk : ∀ k ∈ keys, k ≠ key → 25 * (ps.map (fun p => goQ "exponential10" k (p.2 : Int))).prod ≤
      24 * (ps.map (fun p => goQ "exponential10" key (p.2 : Int))).prod) :
    (∀ o ∈ ps.map (fun p => (p.1 : Int)), 0 ≤ o ∧ o < 12) ∧ ps.map (fun p => (p.1 : Int)) ≠ [] ∧
    (∀ k ∈ ps.map (fun p => (p.2 : Int)), IsKey k) ∧
    (∀ ks : List Int, ks.length = (ps.map (fun p => (p.1 : Int))).length → (∀ k ∈ ks, IsKey k) → ks ≠ ps.map (fun p => (p.2 : Int)) →
      (10 : ℝ) ^ (2 * slack η (ps.map (fun p => (p.1 : Int))).length) * prob (book cfg) (ps.map (fun p => (p.1 : Int))) ks <
        prob (book cfg) (ps.map (fun p => (p.1 : Int))) (ps.map (fun p => (p.2 : Int)))) ∧
    ∀ k, IsKey k → k ≠ key → (10 : ℝ) ^ (2 * slack η (ps.map (fun p => (p.1 : Int))).length) *
        evidence (fun k l => (goQ cfg.keyTransition k l : ℝ)) (ps.map (fun p => (p.2 : Int))) k <
      evidence (fun k l => (goQ cfg.keyTransition k l : ℝ)) (ps.map (fun p => (p.2 : Int))) key := by
  have hne : ps ≠ [] := by rintro rfl; simp [clearPiece] at h
  have hs := slack_25 hη ps.length hn
  have hs0 : (0 : ℝ) < (10 : ℝ) ^ (2 * slack η ps.length) := Real.rpow_pos_of_pos (by norm_num) _
  have hop : ∀ o ∈ ps.map (fun p => (p.1 : Int)), 0 ≤ o ∧ o < 12 := by
    intro o ho
    obtain ⟨p, hpp, rfl⟩ := List.mem_map.1 ho
    have := (hp p hpp).1
    omega
  have hkk : ∀ k ∈ ps.map (fun p => (p.2 : Int)), IsKey k := by
    intro o ho
    obtain ⟨p, hpp, rfl⟩ := List.mem_map.1 ho
    have := (hp p hpp).2
    unfold IsKey
    omega
  have hsound := clearPiece_sound hT hc ps hp h
  have hpos : 0 < prob (book cfg) (ps.map (fun p => (p.1 : Int))) (ps.map (fun p => (p.2 : Int))) := by
    obtain ⟨hq1, hq2⟩ := some_path hc (ps.map (fun p => (p.1 : Int))) (fun o ho => by rw [mem_pcs]; exact hop o ho) (by simpa using hne)
    by_cases e : ps.map (fun p => (p.1 : Int)) = ps.map (fun p => (p.2 : Int))
    · rw [← e]; exact hq2
    · have := hsound _ (by simp) (fun k hk => mem_keys.1 (hq1 k hk)) e
      linarith
  refine ⟨hop, by simpa using hne, hkk, ?_, ?_⟩
  · intro ks hl hks hne'
    rw [List.length_map] at hl ⊢
    have h1 := mul_le_mul_of_nonneg_left (hsound ks hl hks hne') hs0.le
    have h2 := mul_lt_mul_of_pos_right hs hpos
    linarith
  · intro k hkk' hne'
    rw [List.length_map]
    have h1 := (Rat.cast_le (K := ℝ)).2 (hk k (mem_keys.2 hkk') hne')
    have ev : ∀ x : Int, evidence (fun k l => (goQ cfg.keyTransition k l : ℝ)) (ps.map (fun p => (p.2 : Int))) x =
        (((ps.map (fun p => goQ "exponential10" x (p.2 : Int))).prod : Rat) : ℝ) := by
      intro x
      unfold evidence
      rw [Rat.cast_list_prod, List.map_map, List.map_map, hT]
      rfl
    rw [ev, ev]
    push_cast at h1 ⊢
    have h0 : (0 : ℝ) < ((ps.map (fun p => goQ "exponential10" key (p.2 : Int))).prod : Rat) := by
      rw [← ev, hT]
      exact evidence_pos (by decide) _ _
    have h0' : (0 : ℝ) < ((ps.map (fun p => goQ "exponential10" k (p.2 : Int))).prod : Rat) := by
      rw [← ev, hT]
      exact evidence_pos (by decide) _ _
    have h2 := mul_lt_mul_of_pos_right hs h0'
    push_cast at h0 h0' h2
    linarith

/-- The answer for a checked piece. -/
theorem clear_heard {η : ℝ} (lg : ℝ → RD) (hok : LogOk lg) (hlg : LogClose η lg) (hη : η ≤ (2 : ℝ) ^ (-30 : ℤ)) (iter₁ iter₂ : Iter RD)
    (hi₁ : iter₁.Ok) (hi₂ : iter₂.Ok) (cfg : Config RD) (hc : Chosen cfg) (hT : cfg.keyTransition = "exponential10")
    (ps : List (Nat × Nat)) (hp : ∀ p ∈ ps, p.1 < 12 ∧ p.2 < 24) (hn : ps.length ≤ 2 ^ 18)
    (h : clearPiece (majNat cfg.majorKeyProfile) (minNat cfg.minorKeyProfile) ps = true) (key : Int) (hkey : IsKey key)
    (hk : ∀ k ∈ keys, k ≠ key → 25 * (ps.map (fun p => goQ "exponential10" k (p.2 : Int))).prod ≤
      24 * (ps.map (fun p => goQ "exponential10" key (p.2 : Int))).prod) :
    ∃ d, detect (ieee lg) iter₁ iter₂ cfg (ps.map (fun p => PitchClass.ofInt (p.1 : Int))) = .ok (.ok d) ∧
      d.localKeys = ps.map (fun p => Key.ofInt (p.2 : Int)) ∧ d.mainKey = Key.ofInt key := by
  have H := clear_decided hη cfg hc hT ps hp hn h key hk
  have hn' : (ps.map (fun p => (p.1 : Int))).length ≤ 2 ^ 40 := by rw [List.length_map]; exact hn.trans (by norm_num)
  have hl : (ps.map (fun p => (p.2 : Int))).length = (ps.map (fun p => (p.1 : Int))).length := by rw [List.length_map, List.length_map]
  have G := C121_decided lg hok hlg iter₁ iter₂ hi₁ hi₂ cfg hc (ps.map (fun p => (p.1 : Int))) H.1 H.2.1
    (by exact hn') (ps.map (fun p => (p.2 : Int))) hl H.2.2.1 ?a key hkey ?b
  case a => exact H.2.2.2.1
  case b => exact H.2.2.2.2
  obtain ⟨d, g1, g2, g3⟩ := G
  refine ⟨d, ?_, ?_, g3⟩
  · rw [← g1, List.map_map]; rfl
  · rw [g2, List.map_map]; rfl

/-! ### C130 -/

/-- A C major scale, a C sharp, and the scale again, with the keys that the default profiles give them: A minor, A major for a
single note, A minor. -/
def sharpened : List (Nat × Nat) :=
  [(0, 21), (2, 21), (4, 21), (5, 21), (7, 21), (9, 21), (11, 21), (0, 21), (1, 9),
   (0, 21), (2, 21), (4, 21), (5, 21), (7, 21), (9, 21), (11, 21), (0, 21)]

set_option maxRecDepth 100000 in
theorem sharpened_clear : clearPiece (majNat "sapp") (minNat "sapp") sharpened = true := by decide +kernel

theorem sharpened_evidence : ∀ k ∈ keys, k ≠ 21 → 25 * (sharpened.map (fun p => goQ "exponential10" k (p.2 : Int))).prod ≤
    24 * (sharpened.map (fun p => goQ "exponential10" 21 (p.2 : Int))).prod := by decide +kernel

/-- **C130 violated.**  With the default profiles and transitions, a single C sharp between two C major scales gets a key of its own;
moreover both scales are heard in A minor. -/
theorem C130_default_violated {η : ℝ} (lg : ℝ → RD) (hok : LogOk lg) (hlg : LogClose η lg) (hη : η ≤ (2 : ℝ) ^ (-30 : ℤ))
    (iter₁ iter₂ : Iter RD) (hi₁ : iter₁.Ok) (hi₂ : iter₂.Ok) (cfg : Config RD) (hc : Chosen cfg)
    (hT : cfg.keyTransition = "exponential10") (hM : cfg.majorKeyProfile = "sapp") (hm : cfg.minorKeyProfile = "sapp") :
    ∃ d, detect (ieee lg) iter₁ iter₂ cfg
        (([0, 2, 4, 5, 7, 9, 11, 0, 1, 0, 2, 4, 5, 7, 9, 11, 0] : List Int).map PitchClass.ofInt) = .ok (.ok d) ∧
      d.localKeys = List.replicate 8 (Key.ofInt 21) ++ [Key.ofInt 9] ++ List.replicate 8 (Key.ofInt 21) ∧
      d.mainKey = Key.ofInt 21 :=
  clear_heard lg hok hlg hη iter₁ iter₂ hi₁ hi₂ cfg hc hT sharpened (by decide) (by decide)
    (by rw [hM, hm]; exact sharpened_clear) 21 (by decide) sharpened_evidence

theorem flatSeventh_clear : ∀ m ∈ profileChoices, clearPiece (majNat "sapp") (minNat m) flatSeventh = true := by
  unfold profileChoices
  simp only [List.mem_cons, List.not_mem_nil, or_false, forall_eq_or_imp, forall_eq]
  exact ⟨flatSeventh_kk, flatSeventh_aarden, flatSeventh_bellman, flatSeventh_sapp, flatSeventh_temperley⟩

theorem majorThird_clear : ∀ M ∈ profileChoices, M ≠ "sapp" → clearPiece (majNat M) (minNat "sapp") majorThird = true := by
  unfold profileChoices
  simp only [List.mem_cons, List.not_mem_nil, or_false, forall_eq_or_imp, forall_eq]
  exact ⟨fun _ => majorThird_kk, fun _ => majorThird_aarden, fun _ => majorThird_bellman, fun h => absurd rfl h, fun _ => majorThird_temperley⟩

theorem passing_evidence : ∀ p ∈ [(flatSeventh, (0 : Int)), (majorThird, 12), (minorThird, 0)], ∀ k ∈ keys, k ≠ p.2 →
    25 * (p.1.map (fun q => goQ "exponential10" k (q.2 : Int))).prod ≤
      24 * (p.1.map (fun q => goQ "exponential10" p.2 (q.2 : Int))).prod := by decide +kernel

/-- **C130 violated for all other profiles.**  If one of the profiles is `sapp`, or both are `aarden_essen`, there is a piece of at
most 25 notes in which a single note gets a key of its own, with the default transitions and whatever the hash order. -/
theorem C130_profiles_violated {η : ℝ} (lg : ℝ → RD) (hok : LogOk lg) (hlg : LogClose η lg) (hη : η ≤ (2 : ℝ) ^ (-30 : ℤ))
    (iter₁ iter₂ : Iter RD) (hi₁ : iter₁.Ok) (hi₂ : iter₂.Ok) (cfg : Config RD) (hc : Chosen cfg)
    (hT : cfg.keyTransition = "exponential10")
    (hp : cfg.majorKeyProfile = "sapp" ∨ cfg.minorKeyProfile = "sapp" ∨
      (cfg.majorKeyProfile = "aarden_essen" ∧ cfg.minorKeyProfile = "aarden_essen")) :
    ∃ (os : List Int) (d : Detection RD) (pre post : List Int) (A B : Int), os.length ≤ 25 ∧ (∀ o ∈ os, 0 ≤ o ∧ o < 12) ∧
      detect (ieee lg) iter₁ iter₂ cfg (os.map PitchClass.ofInt) = .ok (.ok d) ∧
      d.localKeys = (pre ++ [A, B, A] ++ post).map Key.ofInt ∧ IsKey A ∧ IsKey B ∧ B ≠ A := by
  have key : ∀ (ps : List (Nat × Nat)) (a : Int), (ps, a) ∈ [(flatSeventh, (0 : Int)), (majorThird, 12), (minorThird, 0)] →
      clearPiece (majNat cfg.majorKeyProfile) (minNat cfg.minorKeyProfile) ps = true →
      ∃ d, detect (ieee lg) iter₁ iter₂ cfg ((ps.map (fun p => (p.1 : Int))).map PitchClass.ofInt) = .ok (.ok d) ∧
        d.localKeys = (ps.map (fun p => (p.2 : Int))).map Key.ofInt := by
    intro ps a hm h
    have h1 : ∀ q ∈ [(flatSeventh, (0 : Int)), (majorThird, 12), (minorThird, 0)],
        (∀ p ∈ q.1, p.1 < 12 ∧ p.2 < 24) ∧ q.1.length ≤ 25 ∧ IsKey q.2 := by decide
    obtain ⟨g1, g2, g3⟩ := h1 _ hm
    obtain ⟨d, e1, e2, _⟩ := clear_heard lg hok hlg hη iter₁ iter₂ hi₁ hi₂ cfg hc hT ps g1 (le_trans g2 (by norm_num)) h a g3
      (passing_evidence _ hm)
    refine ⟨d, ?_, ?_⟩
    · rw [List.map_map]; exact e1
    · rw [List.map_map]; exact e2
  by_cases hM : cfg.majorKeyProfile = "sapp"
  · obtain ⟨d, h1, h2⟩ := key flatSeventh 0 (by simp) (by rw [hM]; exact flatSeventh_clear _ hc.minor)
    exact ⟨_, d, List.replicate 11 0, List.replicate 11 0, 0, 5, by decide, by decide, h1, h2, by decide, by decide, by decide⟩
  by_cases hm : cfg.minorKeyProfile = "sapp"
  · obtain ⟨d, h1, h2⟩ := key majorThird 12 (by simp) (by rw [hm]; exact majorThird_clear _ hc.major hM)
    exact ⟨_, d, List.replicate 8 12, List.replicate 8 12, 12, 0, by decide, by decide, h1, h2, by decide, by decide, by decide⟩
  obtain ⟨e1, e2⟩ := (hp.resolve_left hM).resolve_left hm
  obtain ⟨d, h1, h2⟩ := key minorThird 0 (by simp) (by rw [e1, e2]; exact minorThird_aarden)
  exact ⟨_, d, List.replicate 8 0, List.replicate 8 0, 0, 12, by decide, by decide, h1, h2, by decide, by decide, by decide⟩

/-! ### Cases -/

/-- Four C major triads, seven times E flat, four C major triads. -/
def excursion : List (Nat × Nat) :=
  [(0, 0), (4, 0), (7, 0), (0, 0), (4, 0), (7, 0), (0, 0), (4, 0), (7, 0), (0, 0), (4, 0), (7, 0),
   (3, 12), (3, 12), (3, 12), (3, 12), (3, 12), (3, 12), (3, 12),
   (7, 0), (4, 0), (0, 0), (7, 0), (4, 0), (0, 0), (7, 0), (4, 0), (0, 0), (7, 0), (4, 0), (0, 0)]

set_option maxRecDepth 100000 in
theorem excursion_clear : clearPiece (majNat "krumhansl_kessler") (minNat "krumhansl_kessler") excursion = true := by decide +kernel

theorem excursion_evidence : ∀ k ∈ keys, k ≠ 0 → 25 * (excursion.map (fun p => goQ "exponential10" k (p.2 : Int))).prod ≤
    24 * (excursion.map (fun p => goQ "exponential10" 0 (p.2 : Int))).prod := by decide +kernel

/-- An excursion of seven notes to C minor, as C129 allows. -/
example (iter₁ iter₂ : Iter RD) (hi₁ : iter₁.Ok) (hi₂ : iter₂.Ok) :
    ∃ d, detect (ieee (fun r => rnd64 (Real.logb 10 r))) iter₁ iter₂ plain (excursion.map (fun p => PitchClass.ofInt (p.1 : Int))) =
        .ok (.ok d) ∧
      d.localKeys = ([] ++ List.replicate 11 0 ++ [0] ++ List.replicate 7 12 ++ [0] ++ List.replicate 11 0).map Key.ofInt ∧
      d.mainKey = Key.ofInt 0 :=
  clear_heard _ logOk_rounded logClose_rounded (zpow_le_zpow_right₀ (by norm_num) (by norm_num)) iter₁ iter₂ hi₁ hi₂ plain plain_chosen rfl
    excursion (by decide) (by decide) excursion_clear 0 (by decide) excursion_evidence

end JKD.Phrases
