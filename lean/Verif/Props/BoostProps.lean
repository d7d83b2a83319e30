import Verif.Props.DictOrderProps
/-
C158: the parameter "boost N" of the chord plug-in.
-/

namespace JKD.Chordino

open JKD.Chroma Finset

/-! ### Specification -/

/-- The blocks of a sequence that are without a chord; "N" is the last of `n` labels. -/
def Bare (n : Nat) (p : List Nat) (i : Nat) : Prop := p.getD i 0 + 1 = n

instance (n : Nat) (p : List Nat) (i : Nat) : Decidable (Bare n p i) := inferInstanceAs (Decidable (_ = _))

/-- How much more "N" fits a frame by one dictionary than by another. -/
noncomputable def gain (dict dict' : List ℝ) (n : Nat) (chroma : List ℝ) : ℝ := fit dict' n chroma (n - 1) - fit dict n chroma (n - 1)

/-- The same, of all blocks that a sequence leaves without a chord. -/
noncomputable def gains (dict dict' : List ℝ) (n : Nat) (cs : List (List ℝ)) (p : List Nat) : ℝ :=
  ∑ i ∈ range cs.length, if Bare n p i then gain dict dict' n (cs.getD i []) else 0

/-! ### Proof -/

/-- The dictionary for two values of the parameter. -/
theorem boosted {ext : Option (List Str × List ℝ)} (hext : Long ext) {b b' : ℝ} (hb : -1 < b) (hb' : -1 < b') (harte : ℝ) :
    ∃ d d', chordDictionary exactFns ext [] [] b harte = .ok d ∧ chordDictionary exactFns ext [] [] b' harte = .ok d' ∧
      d'.1 = d.1 ∧ d'.2.2 = d.2.2 ∧ d.1.length = 12 * (typesOf exactFns ext harte).1.length + 1 ∧
      (∀ c, c + 1 < d.1.length → ∀ k, k < 24 → d'.2.1.getD (24 * c + k) 0 = d.2.1.getD (24 * c + k) 0) ∧
      ∀ k, k < 24 → (1 + b) * d'.2.1.getD (24 * (d.1.length - 1) + k) 0 = (1 + b') * d.2.1.getD (24 * (d.1.length - 1) + k) 0 := by
  refine ⟨_, _, chordDictionary_eq exactFns ext [] [] b harte 0 (typesOf_long exactFns hext harte),
    chordDictionary_eq exactFns ext [] [] b' harte 0 (typesOf_long exactFns hext harte), rfl, rfl, ?_, ?_, ?_⟩
  · dsimp only
    rw [List.length_append, tab_length]
    rfl
  · intro c hc k hk
    dsimp only at hc ⊢
    rw [List.length_append, tab_length, List.length_singleton] at hc
    rw [List.nil_append, List.nil_append, tab_getD _ _ _ _ (by omega), tab_getD _ _ _ _ (by omega)]
    congr 1
    unfold standOf
    dsimp only
    rw [if_pos (by omega), if_pos (by omega)]
  · intro k hk
    dsimp only
    rw [List.length_append, tab_length, List.length_singleton, List.nil_append, List.nil_append,
      tab_getD _ _ _ _ (by omega), tab_getD _ _ _ _ (by omega)]
    unfold standOf
    dsimp only
    rw [if_neg (by omega), if_neg (by omega)]
    simp only [ex_div, ex_add, ex_lit, Rat.cast_one]
    have h1 : (1 : ℝ) + b ≠ 0 := by linarith
    have h2 : (1 : ℝ) + b' ≠ 0 := by linarith
    generalize exactFns.pow _ _ = r
    rw [div_div_eq_mul_div, div_div_eq_mul_div]
    ring

theorem fit_boosted {dict dict' : List ℝ} {n : Nat} {b b' : ℝ} (hb : -1 < b) (hbb : b ≤ b') (hn : 0 < n)
    (hv : ∀ k, k < 24 → (1 + b) * dict'.getD (24 * (n - 1) + k) 0 = (1 + b') * dict.getD (24 * (n - 1) + k) 0)
    (chroma : List ℝ) : fit dict n chroma (n - 1) ≤ fit dict' n chroma (n - 1) := by
  unfold fit
  rw [if_pos (by omega)]
  set X := ∑ k ∈ range 24, dict.getD (24 * (n - 1) + k) 0 * chroma.getD k 0 with hX
  set X' := ∑ k ∈ range 24, dict'.getD (24 * (n - 1) + k) 0 * chroma.getD k 0 with hX'
  have h : (1 + b) * X' = (1 + b') * X := by
    rw [hX, hX', mul_sum, mul_sum]
    refine sum_congr rfl (fun k hk => ?_)
    rw [← mul_assoc, hv k (mem_range.mp hk), mul_assoc]
  refine min_le_min le_rfl ?_
  by_cases h0 : X ≤ 0
  · rw [max_eq_left (by linarith)]
    exact le_max_left _ _
  · refine max_le_max le_rfl ?_
    push Not at h0
    have : X ≤ X' := by
      have h1 : 0 < 1 + b := by linarith
      have h2 : (1 + b) * X ≤ (1 + b) * X' := by
        rw [h]
        exact mul_le_mul_of_nonneg_right (by linarith) h0.le
      exact le_of_mul_le_mul_left h2 h1
    linarith

theorem fit_others {dict dict' : List ℝ} {n c : Nat}
    (hv : ∀ k, k < 24 → dict'.getD (24 * c + k) 0 = dict.getD (24 * c + k) 0) (chroma : List ℝ) :
    fit dict' n chroma c = fit dict n chroma c := by
  unfold fit
  have : ∑ k ∈ range 24, dict'.getD (24 * c + k) 0 * chroma.getD k 0 =
      ∑ k ∈ range 24, dict.getD (24 * c + k) 0 * chroma.getD k 0 :=
    sum_congr rfl (fun k hk => by rw [hv k (mem_range.mp hk)])
  rw [this]

/-- The sum of all weights in a frame. -/
noncomputable def total (dict : List ℝ) (n : Nat) (chroma : List ℝ) : ℝ := ∑ c' ∈ range n, (1.3 : ℝ) ^ fit dict n chroma c'

theorem weight_mono {x y : ℝ} (h : x ≤ y) : (1.3 : ℝ) ^ x ≤ (1.3 : ℝ) ^ y := Real.rpow_le_rpow_of_exponent_le (by norm_num) h

/-- **C158, the shares.**  Whatever the dictionary and the frame: raising "boost N" never lowers the share of "N" and
never raises the share of a chord; labels and notes stay as they are. -/
theorem C158_shares {ext : Option (List Str × List ℝ)} (hext : Long ext) {b b' : ℝ} (hb : -1 < b) (hbb : b ≤ b')
    (harte : ℝ) (chroma : List ℝ) :
    ∃ d d' n, chordDictionary exactFns ext [] [] b harte = .ok d ∧ chordDictionary exactFns ext [] [] b' harte = .ok d' ∧
      d.1.length = n + 1 ∧ d'.1 = d.1 ∧ d'.2.2 = d.2.2 ∧
      share d.2.1 (n + 1) chroma n ≤ share d'.2.1 (n + 1) chroma n ∧
      ∀ c, c < n → share d'.2.1 (n + 1) chroma c ≤ share d.2.1 (n + 1) chroma c := by
  obtain ⟨d, d', e, e', h1, h2, h3, h4, h5⟩ := boosted hext hb (lt_of_lt_of_le hb hbb) harte
  refine ⟨d, d', 12 * (typesOf exactFns ext harte).1.length, e, e', h3, h1, h2, ?_⟩
  generalize 12 * (typesOf exactFns ext harte).1.length = n at h3
  rw [h3] at h4 h5
  have hN := fit_boosted hb hbb (n := n + 1) (by omega) h5 chroma
  rw [Nat.add_sub_cancel] at hN
  have hO : ∀ c, c < n → fit d'.2.1 (n + 1) chroma c = fit d.2.1 (n + 1) chroma c :=
    fun c hc => fit_others (h4 c (by omega)) chroma
  have hs : ∑ c ∈ range n, (1.3 : ℝ) ^ fit d'.2.1 (n + 1) chroma c = ∑ c ∈ range n, (1.3 : ℝ) ^ fit d.2.1 (n + 1) chroma c :=
    sum_congr rfl (fun c hc => by rw [hO c (mem_range.mp hc)])
  have hS : 0 ≤ ∑ c ∈ range n, (1.3 : ℝ) ^ fit d.2.1 (n + 1) chroma c :=
    sum_nonneg (fun c _ => (Real.rpow_pos_of_pos (by norm_num) _).le)
  have hw := weight_mono hN
  have hp : 0 < (1.3 : ℝ) ^ fit d.2.1 (n + 1) chroma n := Real.rpow_pos_of_pos (by norm_num) _
  unfold share
  rw [sum_range_succ, sum_range_succ, hs]
  refine ⟨?_, fun c hc => ?_⟩
  · rw [div_le_div_iff₀ (by linarith) (by linarith)]
    nlinarith
  · rw [hO c hc]
    exact div_le_div_of_nonneg_left (Real.rpow_pos_of_pos (by norm_num) _).le (by linarith) (by linarith)

/-- How much of a frame there is: the treble, and half of the bass. -/
noncomputable def amount (chroma : List ℝ) : ℝ := ∑ k ∈ range 12, (chroma.getD k 0 / 2 + chroma.getD (12 + k) 0)

/-- How well "N" fits. -/
theorem fit_none {b : ℝ} (hb : 0 ≤ b) (hb1 : b ≤ 1) (harte : ℝ) {chroma : List ℝ} (h0 : 0 < amount chroma) (h1 : amount chroma ≤ 100)
    {d : List Str × List ℝ × List (List Int)} (e : chordDictionary exactFns none [] [] b harte = .ok d) :
    fit d.2.1 217 chroma 216 = 0.7 * (1 + b) * Real.sqrt 1.6 * amount chroma := by
  obtain ⟨x, ex, -, -, s, hs, s1, s2, s3⟩ := C81_no_chord hb harte
  have := ok_inj (e.symm.trans ex)
  subst this
  have split : ∀ f : Nat → ℝ, ∑ k ∈ range 24, f k = ∑ k ∈ range 12, f k + ∑ k ∈ range 12, f (12 + k) := fun f =>
    sum_range_add f 12 12
  have hsq : s ^ 2 = ((1 + b) * Real.sqrt 1.6) ^ 2 := by
    rw [split, sum_congr rfl (fun k hk => by rw [s1 k (mem_range.mp hk)]),
      sum_congr (f := fun k => entryOf d.2.1 216 (12 + k) ^ 2) rfl (fun k hk => by rw [s2 k (mem_range.mp hk)]),
      sum_const, sum_const, card_range] at s3
    rw [mul_pow, Real.sq_sqrt (by norm_num)]
    norm_num at s3 ⊢
    linarith
  have hs' : s = (1 + b) * Real.sqrt 1.6 :=
    (sq_eq_sq₀ hs.le (mul_nonneg (by linarith) (Real.sqrt_nonneg _))).1 hsq
  have hsum : ∑ k ∈ range 24, d.2.1.getD (24 * 216 + k) 0 * chroma.getD k 0 = s * amount chroma := by
    rw [split, amount, sum_add_distrib, mul_add, mul_sum, mul_sum]
    congr 1
    · refine sum_congr rfl (fun k hk => ?_)
      have := s1 k (mem_range.mp hk)
      unfold entryOf at this
      rw [this]
      ring
    · refine sum_congr rfl (fun k hk => ?_)
      have := s2 k (mem_range.mp hk)
      unfold entryOf at this
      rw [this]
  have hroot : Real.sqrt 1.6 ≤ 1.3 := by
    rw [Real.sqrt_le_left (by norm_num)]
    norm_num
  have hroot0 := Real.sqrt_nonneg 1.6
  have hle : s ≤ 2.6 := by
    rw [hs']
    nlinarith
  unfold fit
  rw [if_pos rfl, hsum]
  have hlow : 0 ≤ 0.7 * (s * amount chroma) := by positivity
  have hup : 0.7 * (s * amount chroma) ≤ 200 := by nlinarith
  rw [max_eq_right hlow, min_eq_right hup, hs']
  ring

/-- **C158, it does something.**  Within the range of the parameter, for a frame that is neither empty nor exceedingly
loud: raising "boost N" raises the share of "N" and lowers the share of every chord. -/
theorem C158_effect {b b' : ℝ} (hb : 0 ≤ b) (hbb : b < b') (hb1 : b' ≤ 1) (harte : ℝ) {chroma : List ℝ}
    (h0 : 0 < amount chroma) (h1 : amount chroma ≤ 100) :
    ∃ d d', chordDictionary exactFns none [] [] b harte = .ok d ∧ chordDictionary exactFns none [] [] b' harte = .ok d' ∧
      share d.2.1 217 chroma 216 < share d'.2.1 217 chroma 216 ∧
      ∀ c, c < 216 → share d'.2.1 217 chroma c < share d.2.1 217 chroma c := by
  obtain ⟨d, d', e, e', -, -, h3, h4, -⟩ := boosted (ext := none) (fun _ h => by cases h) (show -1 < b by linarith)
    (show -1 < b' by linarith) harte
  rw [(builtin_types exactFns harte).1] at h3
  rw [h3] at h4
  refine ⟨d, d', e, e', ?_⟩
  have hN : fit d.2.1 217 chroma 216 < fit d'.2.1 217 chroma 216 := by
    rw [fit_none hb (by linarith) harte h0 h1 e, fit_none (by linarith) hb1 harte h0 h1 e']
    have : 0 < Real.sqrt 1.6 := Real.sqrt_pos.mpr (by norm_num)
    have := mul_pos this h0
    nlinarith
  have hO : ∀ c, c < 216 → fit d'.2.1 217 chroma c = fit d.2.1 217 chroma c :=
    fun c hc => fit_others (h4 c (by omega)) chroma
  have hs : ∑ c ∈ range 216, (1.3 : ℝ) ^ fit d'.2.1 217 chroma c = ∑ c ∈ range 216, (1.3 : ℝ) ^ fit d.2.1 217 chroma c :=
    sum_congr rfl (fun c hc => by rw [hO c (mem_range.mp hc)])
  have hS : 0 < ∑ c ∈ range 216, (1.3 : ℝ) ^ fit d.2.1 217 chroma c :=
    sum_pos (fun c _ => Real.rpow_pos_of_pos (by norm_num) _) ⟨0, by simp⟩
  have hw : (1.3 : ℝ) ^ fit d.2.1 217 chroma 216 < (1.3 : ℝ) ^ fit d'.2.1 217 chroma 216 :=
    Real.rpow_lt_rpow_of_exponent_lt (by norm_num) hN
  have hp : 0 < (1.3 : ℝ) ^ fit d.2.1 217 chroma 216 := Real.rpow_pos_of_pos (by norm_num) _
  have t1 : ∀ dict : List ℝ, ∑ c ∈ range 217, (1.3 : ℝ) ^ fit dict 217 chroma c =
      ∑ c ∈ range 216, (1.3 : ℝ) ^ fit dict 217 chroma c + (1.3 : ℝ) ^ fit dict 217 chroma 216 :=
    fun dict => sum_range_succ _ 216
  unfold share
  rw [t1, t1, hs]
  refine ⟨?_, fun c hc => ?_⟩
  · rw [div_lt_div_iff₀ (by linarith) (by linarith)]
    nlinarith
  · rw [hO c hc]
    exact div_lt_div_of_pos_left (Real.rpow_pos_of_pos (by norm_num) _) (by linarith) (by linarith)

/-- A case: a frame with a single A in the bass. -/
example : amount (1 :: List.replicate 23 0) = 1 / 2 := by
  unfold amount
  simp [sum_range_succ, List.replicate]

/-- The score of a sequence without the common divisor. -/
noncomputable def bulk (n : Nat) (dict : List ℝ) (cs : List (List ℝ)) (p : List Nat) : ℝ :=
  (1.3 : ℝ) ^ (∑ i ∈ range cs.length, fit dict n (cs.getD i []) (p.getD i 0)) *
    ∏ i ∈ range (cs.length - 1), stay n (p.getD i 0) (p.getD (i + 1) 0)

theorem getD_map_share (dict : List ℝ) (n : Nat) (cs : List (List ℝ)) {i : Nat} (hi : i < cs.length) :
    (cs.map (share dict n)).getD i (fun _ => 0) = share dict n (cs.getD i []) := by
  rw [List.getD_eq_getElem?_getD, List.getElem?_map, List.getElem?_eq_getElem hi, List.getD_eq_getElem?_getD,
    List.getElem?_eq_getElem hi]
  rfl

theorem score_bulk (n : Nat) (dict : List ℝ) (cs : List (List ℝ)) (p : List Nat) :
    score n (cs.map (share dict n)) p = bulk n dict cs p / ∏ i ∈ range cs.length, total dict n (cs.getD i []) := by
  unfold score bulk
  rw [List.length_map]
  have : ∏ i ∈ range cs.length, ((cs.map (share dict n)).getD i (fun _ => 0)) (p.getD i 0) =
      (1.3 : ℝ) ^ (∑ i ∈ range cs.length, fit dict n (cs.getD i []) (p.getD i 0)) /
        ∏ i ∈ range cs.length, total dict n (cs.getD i []) := by
    rw [Real.rpow_sum_of_pos (by norm_num), ← prod_div_distrib]
    refine prod_congr rfl (fun i hi => ?_)
    rw [getD_map_share _ _ _ (mem_range.mp hi)]
    rfl
  rw [this]
  ring

theorem score_le_iff {n : Nat} (hn : 0 < n) (dict : List ℝ) (cs : List (List ℝ)) (p q : List Nat) :
    score n (cs.map (share dict n)) q ≤ score n (cs.map (share dict n)) p ↔ bulk n dict cs q ≤ bulk n dict cs p := by
  rw [score_bulk, score_bulk]
  exact div_le_div_iff_of_pos_right (prod_pos (fun i _ => total_pos dict hn _))

theorem bulk_pos {n : Nat} (dict : List ℝ) (cs : List (List ℝ)) {p : List Nat} (hl : p.length = cs.length)
    (hr : ∀ c ∈ p, c < n) : 0 < bulk n dict cs p := by
  refine mul_pos (Real.rpow_pos_of_pos (by norm_num) _) (prod_pos (fun i hi => ?_))
  have hi := mem_range.mp hi
  have hlt : ∀ j, j < p.length → p.getD j 0 < n := by
    intro j hj
    rw [List.getD_eq_getElem?_getD, List.getElem?_eq_getElem hj]
    exact hr _ (List.getElem_mem _)
  have h1 := hlt i (by omega)
  have h2 := hlt (i + 1) (by omega)
  unfold stay
  split
  · norm_num
  · next hne =>
    have : (2 : ℝ) ≤ n := by exact_mod_cast (show 2 ≤ n by omega)
    exact div_pos (by norm_num) (by linarith)

/-- What the parameter does to the score. -/
theorem bulk_boosted {n : Nat} {dict dict' : List ℝ} (hO : ∀ c, c + 1 < n → ∀ chroma, fit dict' n chroma c = fit dict n chroma c)
    (cs : List (List ℝ)) {p : List Nat} (hl : p.length = cs.length) (hr : ∀ c ∈ p, c < n) :
    bulk n dict' cs p = bulk n dict cs p * (1.3 : ℝ) ^ gains dict dict' n cs p := by
  have : ∑ i ∈ range cs.length, fit dict' n (cs.getD i []) (p.getD i 0) =
      ∑ i ∈ range cs.length, fit dict n (cs.getD i []) (p.getD i 0) + gains dict dict' n cs p := by
    unfold gains
    rw [← sum_add_distrib]
    refine sum_congr rfl (fun i hi => ?_)
    have hi := mem_range.mp hi
    have hlt : p.getD i 0 < n := by
      rw [List.getD_eq_getElem?_getD, List.getElem?_eq_getElem (by omega)]
      exact hr _ (List.getElem_mem _)
    by_cases hB : Bare n p i
    · have hB' : p.getD i 0 = n - 1 := by unfold Bare at hB; omega
      rw [if_pos hB, hB']
      unfold gain
      ring
    · rw [if_neg hB, hO _ (by unfold Bare at hB; omega), add_zero]
  unfold bulk
  rw [this, Real.rpow_add (by norm_num)]
  ring

theorem gains_mono {n : Nat} (hn : 0 < n) {dict dict' : List ℝ}
    (hO : ∀ c, c + 1 < n → ∀ chroma, fit dict' n chroma c = fit dict n chroma c) (cs : List (List ℝ)) {p p' : List Nat}
    (hp : Best n (cs.map (share dict n)) p) (hp' : Best n (cs.map (share dict' n)) p') :
    gains dict dict' n cs p ≤ gains dict dict' n cs p' := by
  have l1 := hp.len
  have l2 := hp'.len
  rw [List.length_map] at l1 l2
  have h1 := (score_le_iff hn dict cs p p').1 (hp.best p' (by rw [List.length_map]; exact l2) hp'.range hp'.start)
  have h2 := (score_le_iff hn dict' cs p' p).1 (hp'.best p (by rw [List.length_map]; exact l1) hp.range hp.start)
  rw [bulk_boosted hO cs l1 hp.range, bulk_boosted hO cs l2 hp'.range] at h2
  have pos := bulk_pos dict cs l1 hp.range
  have h3 : bulk n dict cs p * (1.3 : ℝ) ^ gains dict dict' n cs p ≤ bulk n dict cs p * (1.3 : ℝ) ^ gains dict dict' n cs p' :=
    h2.trans (mul_le_mul_of_nonneg_right h1 (Real.rpow_pos_of_pos (by norm_num) _).le)
  exact (Real.rpow_le_rpow_left_iff (by norm_num)).1 (le_of_mul_le_mul_left h3 pos)

/-- **C158, the sequence.**  In exact arithmetic, for any recording and the built-in dictionary: raising "boost N" leads to
a sequence of chords that leaves at least as much without a chord, each block counted by how much better "N" fits it. -/
theorem C158_sequence (fs : Int) {bs : Nat} (hbs : 4 ≤ bs) (params : Params ℝ) (hn : params.doNormalizeChroma ≤ 0)
    {b b' : ℝ} (hb : -1 < b) (hbb : b ≤ b') (harte : ℝ) {blocks : List (Int × List ℝ)}
    (hbl : ∀ bl ∈ blocks, bs ≤ bl.2.length) (hne : blocks ≠ []) (junk : Nat → Nnls.St ℝ) :
    ∃ fc f f' d d' p p', Chroma.runAll exactFns fs bs params blocks junk = .ok (some fc) ∧
      runAll exactFns none fs bs params b harte blocks junk = .ok (some f) ∧
      runAll exactFns none fs bs params b' harte blocks junk = .ok (some f') ∧
      chordDictionary exactFns none [] [] b harte = .ok d ∧ chordDictionary exactFns none [] [] b' harte = .ok d' ∧
      f.chords = changeList d.1 (blocks.map Prod.fst) p ∧ f'.chords = changeList d.1 (blocks.map Prod.fst) p' ∧
      p.length = blocks.length ∧ p'.length = blocks.length ∧
      (∀ c ∈ fc.bothchroma, 0 ≤ gain d.2.1 d'.2.1 217 c.2) ∧
      gains d.2.1 d'.2.1 217 (fc.bothchroma.map Prod.snd) p ≤ gains d.2.1 d'.2.1 217 (fc.bothchroma.map Prod.snd) p' := by
  obtain ⟨fc, f, d, p, a1, a2, a3, al, a4, a5, -⟩ := run_exact fs hbs params hn b harte hbl hne junk
  obtain ⟨fc', f', d', p', b1, b2, b3, bl, b4, b5, -⟩ := run_exact fs hbs params hn b' harte hbl hne junk
  have := Option.some_inj.1 (ok_inj (a1.symm.trans b1))
  subst this
  obtain ⟨x, x', e, e', h1, -, h3, h4, h5⟩ := boosted (ext := none) (fun _ h => by cases h) hb (lt_of_lt_of_le hb hbb) harte
  have := ok_inj (a3.symm.trans e)
  subst this
  have := ok_inj (b3.symm.trans e')
  subst this
  rw [(builtin_types exactFns harte).1] at h3
  rw [h3] at h4 h5
  have e1 : fc.bothchroma.map (fun c => share d.2.1 217 c.2) = (fc.bothchroma.map Prod.snd).map (share d.2.1 217) := by
    rw [List.map_map]; rfl
  have e2 : fc.bothchroma.map (fun c => share d'.2.1 217 c.2) = (fc.bothchroma.map Prod.snd).map (share d'.2.1 217) := by
    rw [List.map_map]; rfl
  rw [e1] at a4
  rw [e2] at b4
  refine ⟨fc, f, f', d, d', p, p', a1, a2, b2, a3, b3, a5, by rw [b5, h1], ?_, ?_, ?_, ?_⟩
  · rw [a4.len, List.length_map, List.length_map, al]
  · rw [b4.len, List.length_map, List.length_map, al]
  · intro c _
    exact sub_nonneg.mpr (fit_boosted hb hbb (by norm_num) h5 c.2)
  · exact gains_mono (by norm_num) (fun c hc chroma => fit_others (h4 c hc) chroma) _ a4 b4

theorem changeList_bare (names : List Str) (ts : List Int) {m : Nat} (hm : 0 < m) (c : Nat) (hN : names.getD c [] = ['N']) :
    changeList names ts (List.replicate m c) = [(ts.getD 0 0, ['N']), (ts.getD (m - 1) 0, ['N'])] := by
  have hget : ∀ i, i < m → (List.replicate m c).getD i 0 = c := by
    intro i hi
    rw [List.getD_eq_getElem?_getD, List.getElem?_replicate, if_pos hi]
    rfl
  unfold changeList
  rw [List.length_replicate]
  have : (List.range (m - 1)).filterMap (fun i => if (List.replicate m c).getD (i + 1) 0 ≠ (List.replicate m c).getD i 0 then
      some (ts.getD (i + 1) 0, names.getD ((List.replicate m c).getD (i + 1) 0) []) else none) = [] := by
    rw [List.filterMap_eq_nil_iff]
    intro i hi
    have hi := List.mem_range.mp hi
    rw [if_neg]
    rw [not_not, hget (i + 1) (by omega), hget i (by omega)]
  rw [this, hget 0 hm, hN]
  rfl

theorem gains_bare {n : Nat} {dict dict' : List ℝ} (cs : List (List ℝ)) (hg : ∀ c ∈ cs, 0 ≤ gain dict dict' n c)
    (hn : 0 < n) (p : List Nat) : gains dict dict' n cs p ≤ gains dict dict' n cs (List.replicate cs.length (n - 1)) := by
  refine sum_le_sum (fun i hi => ?_)
  have hi := mem_range.mp hi
  have hB : Bare n (List.replicate cs.length (n - 1)) i := by
    unfold Bare
    rw [List.getD_eq_getElem?_getD, List.getElem?_replicate, if_pos hi, Option.getD_some]
    omega
  have h0 : 0 ≤ gain dict dict' n (cs.getD i []) := by
    apply hg
    rw [List.getD_eq_getElem?_getD, List.getElem?_eq_getElem hi]
    exact List.getElem_mem _
  rw [if_pos hB]
  split
  · exact le_rfl
  · exact h0

/-- **C158, nothing stays nothing.**  If the recording is best explained without any chord, and by nothing else, then
also for every higher value of "boost N" only "N" is reported, at the first block and at the last. -/
theorem C158_no_chord (fs : Int) {bs : Nat} (hbs : 4 ≤ bs) (params : Params ℝ) (hn : params.doNormalizeChroma ≤ 0)
    {b b' : ℝ} (hb : -1 < b) (hbb : b ≤ b') (harte : ℝ) {blocks : List (Int × List ℝ)}
    (hbl : ∀ bl ∈ blocks, bs ≤ bl.2.length) (hne : blocks ≠ []) (junk : Nat → Nnls.St ℝ)
    (hnone : ∀ fc d, Chroma.runAll exactFns fs bs params blocks junk = .ok (some fc) →
      chordDictionary exactFns none [] [] b harte = .ok d →
      ∀ p, Best 217 (fc.bothchroma.map (fun c => share d.2.1 217 c.2)) p → p = List.replicate blocks.length 216) :
    ∃ f', runAll exactFns none fs bs params b' harte blocks junk = .ok (some f') ∧
      f'.chords = [((blocks.map Prod.fst).getD 0 0, ['N']), ((blocks.map Prod.fst).getD (blocks.length - 1) 0, ['N'])] := by
  obtain ⟨fc, f, d, p, a1, a2, a3, al, a4, a5, -⟩ := run_exact fs hbs params hn b harte hbl hne junk
  obtain ⟨fc', f', d', p', b1, b2, b3, bl, b4, b5, -⟩ := run_exact fs hbs params hn b' harte hbl hne junk
  have := Option.some_inj.1 (ok_inj (a1.symm.trans b1))
  subst this
  obtain ⟨x, x', e, e', h1, -, h3, h4, h5⟩ := boosted (ext := none) (fun _ h => by cases h) hb (lt_of_lt_of_le hb hbb) harte
  have := ok_inj (a3.symm.trans e)
  subst this
  have := ok_inj (b3.symm.trans e')
  subst this
  rw [(builtin_types exactFns harte).1] at h3
  rw [h3] at h4 h5
  obtain ⟨y, ey, -, -, -, -, y5⟩ := dictionary_sizes exactFns (ext := none) (fun _ h => by cases h) b harte
  have := ok_inj (a3.symm.trans ey)
  subst this
  rw [h3] at y5
  have hno := hnone fc d a1 a3
  have hp := hno p a4
  have e1 : fc.bothchroma.map (fun c => share d.2.1 217 c.2) = (fc.bothchroma.map Prod.snd).map (share d.2.1 217) := by
    rw [List.map_map]; rfl
  have e2 : fc.bothchroma.map (fun c => share d'.2.1 217 c.2) = (fc.bothchroma.map Prod.snd).map (share d'.2.1 217) := by
    rw [List.map_map]; rfl
  rw [e1] at a4 hno
  rw [e2] at b4
  have l1 := a4.len
  have l2 := b4.len
  rw [List.length_map] at l1 l2
  have hcl : (fc.bothchroma.map Prod.snd).length = blocks.length := by rw [List.length_map, al]
  have hO : ∀ c, c + 1 < 217 → ∀ chroma, fit d'.2.1 217 chroma c = fit d.2.1 217 chroma c :=
    fun c hc chroma => fit_others (h4 c hc) chroma
  have hg := gains_bare (n := 217) (dict := d.2.1) (dict' := d'.2.1) (fc.bothchroma.map Prod.snd)
    (fun c _ => sub_nonneg.mpr (fit_boosted hb hbb (by norm_num) h5 c)) (by norm_num) p'
  rw [hcl, show (217 - 1 : Nat) = 216 from rfl, ← hp] at hg
  have h2 := (score_le_iff (by norm_num) d'.2.1 _ p' p).1 (b4.best p (by rw [List.length_map]; exact l1) a4.range a4.start)
  rw [bulk_boosted hO _ l1 a4.range, bulk_boosted hO _ l2 b4.range] at h2
  have hpw : (1.3 : ℝ) ^ gains d.2.1 d'.2.1 217 (fc.bothchroma.map Prod.snd) p' ≤
      (1.3 : ℝ) ^ gains d.2.1 d'.2.1 217 (fc.bothchroma.map Prod.snd) p := weight_mono hg
  have h6 : bulk 217 d.2.1 (fc.bothchroma.map Prod.snd) p ≤ bulk 217 d.2.1 (fc.bothchroma.map Prod.snd) p' :=
    le_of_mul_le_mul_right (h2.trans (mul_le_mul_of_nonneg_left hpw (bulk_pos _ _ l2 b4.range).le))
      (Real.rpow_pos_of_pos (by norm_num) _)
  have hbest : Best 217 ((fc.bothchroma.map Prod.snd).map (share d.2.1 217)) p' := by
    refine ⟨by rw [List.length_map]; exact l2, b4.range, b4.start, fun q h7 h8 h9 => ?_⟩
    exact (a4.best q h7 h8 h9).trans ((score_le_iff (by norm_num) d.2.1 _ p' p).2 h6)
  refine ⟨f', b2, ?_⟩
  rw [b5, hno p' hbest, h1]
  exact changeList_bare _ _ (List.length_pos_of_ne_nil hne) _ y5

/-- A case: two quiet blocks, any value of the parameter from 0.1 on. -/
example (params : Params ℝ) (hn : params.doNormalizeChroma ≤ 0) (b' : ℝ) (hb' : 0.1 ≤ b') (junk : Nat → Nnls.St ℝ) :
    ∃ f', runAll exactFns none 44100 4 params b' 0 [(0, [1, 0, 0, 0]), (46, [0, 0, 0, 1])] junk = .ok (some f') ∧
      f'.chords = [(0, ['N']), (46, ['N'])] := by
  have hbl : ∀ bl ∈ [((0 : Int), [(1 : ℝ), 0, 0, 0]), (46, [0, 0, 0, 1])], 4 ≤ bl.2.length := by simp
  refine C158_no_chord 44100 (by norm_num) params hn (b := 0.1) (by norm_num) hb' 0 hbl (by simp) junk ?_
  intro fc d e _ p hp
  obtain ⟨fc', _, _, _, e', -, -, hl, -⟩ := run_exact 44100 (by norm_num) params hn 0.1 0 hbl (by simp) junk
  have := Option.some_inj.1 (ok_inj (e.symm.trans e'))
  subst this
  refine silent_unique (by norm_num) (by norm_num) params hbl junk ?_ e hl d.2.1 (by norm_num) hp
  intro bl hbl n hn'
  simp only [List.mem_cons, List.not_mem_nil, or_false] at hbl
  have : n = 0 ∨ n = 1 := by omega
  rcases hbl with rfl | rfl <;> rcases this with rfl | rfl <;> norm_num

end JKD.Chordino
