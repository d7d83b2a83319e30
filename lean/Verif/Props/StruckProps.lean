import Verif.Props.ExcursionProps
/-
C167: every note struck several times.
-/

namespace JKD.Phrases

open Spec HMM RD Detect Main

/-! ### Specification -/

/-- Every element `d` times. -/
def struck {α : Type} (d : Nat) (os : List α) : List α := os.flatMap (List.replicate d)

/-- Staying in `K` is more probable than every other sequence of keys, by the factor `1 / μ`. -/
def Steady (cfg : Config RD) (os : List Int) (K : Int) (μ : ℝ) : Prop :=
  0 < prob (book cfg) os (List.replicate os.length K) ∧
  ∀ ks : List Int, ks.length = os.length → (∀ k ∈ ks, IsKey k) → ks ≠ List.replicate os.length K →
    prob (book cfg) os ks ≤ μ * prob (book cfg) os (List.replicate os.length K)

/-! ### Music that stays in its key -/

theorem struck_cons {α : Type} (d : Nat) (a : α) (os : List α) : struck d (a :: os) = List.replicate d a ++ struck d os := rfl

theorem struck_length {α : Type} (d : Nat) (os : List α) : (struck d os).length = d * os.length := by
  induction os with
  | nil => rfl
  | cons a os ih => rw [struck_cons, List.length_append, ih, List.length_replicate, List.length_cons]; ring

theorem struck_ne {α : Type} {d : Nat} (hd : 0 < d) {os : List α} (hne : os ≠ []) : struck d os ≠ [] := by
  intro h
  have h1 := congrArg List.length h
  rw [struck_length, List.length_nil] at h1
  have := Nat.mul_pos hd (List.length_pos_iff.2 hne)
  omega

theorem struck_mem {α : Type} {d : Nat} {os : List α} {x : α} (h : x ∈ struck d os) : x ∈ os := by
  obtain ⟨a, ha, hx⟩ := List.mem_flatMap.1 h
  rw [List.eq_of_mem_replicate hx]
  exact ha

theorem struck_const {α : Type} (d n : Nat) (K : α) : struck d (List.replicate n K) = List.replicate (d * n) K := by
  refine List.eq_replicate_iff.2 ⟨by rw [struck_length, List.length_replicate], fun b hb => ?_⟩
  exact List.eq_of_mem_replicate (struck_mem hb)

theorem struck_inj {α : Type} (e : Nat) : ∀ ks ks' : List α, struck (e + 1) ks = struck (e + 1) ks' → ks = ks' := by
  intro ks
  induction ks with
  | nil =>
    intro ks' h
    cases ks' with
    | nil => rfl
    | cons a ks' => simp [struck, List.replicate_succ] at h
  | cons a ks ih =>
    intro ks' h
    cases ks' with
    | nil => simp [struck, List.replicate_succ] at h
    | cons b ks' =>
      rw [struck_cons, struck_cons] at h
      obtain ⟨h1, h2⟩ := List.append_inj h (by simp)
      rw [List.replicate_succ, List.replicate_succ] at h1
      rw [(List.cons.inj h1).1, ih ks' h2]

theorem plays_struck (t : Tables ℝ) (d : Nat) : ∀ ks os : List Int, ks.length = os.length →
    plays t (struck d ks) (struck d os) = plays t ks os ^ d := by
  intro ks
  induction ks with
  | nil => intro os h; obtain rfl := List.length_eq_zero_iff.1 h.symm; simp [struck, plays]
  | cons k ks ih =>
    intro os h
    match os, h with
    | o :: os, h =>
      rw [struck_cons, struck_cons, plays_append _ _ _ _ _ (by simp), ih os (by simpa using h)]
      have : plays t (List.replicate d k) (List.replicate d o) = t.emis k o ^ d := by
        unfold plays
        rw [List.zipWith_replicate, List.prod_replicate, Nat.min_self]
      rw [this]
      simp only [plays, List.zipWith_cons_cons, List.prod_cons]
      ring

section
variable {cfg : Config RD} (hc : Chosen cfg)

include hc in
theorem moves_struck (e : Nat) : ∀ ks : List Int, (∀ k ∈ ks, k ∈ keys) →
    moves (book cfg) (struck (e + 1) ks) = (goQ cfg.keyTransition 0 0 : ℝ) ^ (e * ks.length) * moves (book cfg) ks := by
  intro ks
  induction ks with
  | nil => intro _; simp [struck, moves]
  | cons a ks ih =>
    intro h
    have ha := (book_trans hc (h a (by simp)) (h a (by simp))).2.1
    rw [struck_cons]
    cases ks with
    | nil =>
      have : struck (e + 1) ([] : List Int) = [] := rfl
      rw [this, List.append_nil, moves_replicate, ha]
      simp [moves]
    | cons b ks =>
      have hl : (List.replicate (e + 1) a).getLast? = some a := by simp [List.getLast?_replicate]
      rw [moves_left, hl, moves_replicate, ha]
      have hs : moves (book cfg) ((some a).toList ++ struck (e + 1) (b :: ks)) =
          (book cfg).trans a b * moves (book cfg) (struck (e + 1) (b :: ks)) := by
        rw [struck_cons, List.replicate_succ]
        rfl
      rw [hs, ih (fun k hk => h k (by simp [hk])), moves]
      simp only [Nat.add_sub_cancel, List.length_cons]
      ring

theorem prob_book (os ks : List Int) (hne : os ≠ []) (hl : ks.length = os.length) (hk : ∀ k ∈ ks, k ∈ keys) :
    prob (book cfg) os ks = 1 / 24 * (moves (book cfg) ks * plays (book cfg) ks os) := by
  match os, ks, hne, hl with
  | o :: os, k :: ks, _, hl =>
    rw [prob_eq _ o os k ks (by simpa using hl)]
    have : (book cfg).init k = 1 / 24 := by simp [book, hk k (by simp)]
    rw [this]

include hc in
/-- **C167, the music.**  If the music stays in a key when every note is struck `d` times, by a factor for every stroke, then it stays in
that key when every note is struck once. -/
theorem C167_slower (os : List Int) (hne : os ≠ []) (K : Int) (hK : IsKey K) (d : Nat) (hd : 0 < d) (μ : ℝ) (hμ : 0 ≤ μ)
    (h : Steady cfg (struck d os) K (μ ^ d)) : Steady cfg os K μ := by
  obtain ⟨e, rfl⟩ : ∃ e, d = e + 1 := ⟨d - 1, by omega⟩
  have hnn : NonNeg (book cfg) := (stored1 (fun _ => nan) cfg hc []).nonneg
  have hk := mem_keys.2 hK
  have hg : (0 : ℝ) < (goQ cfg.keyTransition 0 0 : ℝ) := by
    rw [← (book_trans hc hk hk).2.1]
    exact (book_trans hc hk hk).1
  have hsne := struck_ne (d := e + 1) (by omega) hne
  have plays_nn : ∀ ks : List Int, 0 ≤ plays (book cfg) ks os := by
    intro ks
    unfold plays
    refine List.prod_nonneg (fun x hx => ?_)
    obtain ⟨i, hi, rfl⟩ := List.getElem_of_mem hx
    simp only [List.getElem_zipWith]
    exact hnn.emis _ _
  -- the probability of a sequence of keys, struck
  have ps : ∀ ks : List Int, ks.length = os.length → (∀ k ∈ ks, k ∈ keys) →
      prob (book cfg) (struck (e + 1) os) (struck (e + 1) ks) = 1 / 24 * ((goQ cfg.keyTransition 0 0 : ℝ) ^ (e * os.length) *
        (moves (book cfg) ks * plays (book cfg) ks os ^ (e + 1))) := by
    intro ks hl hkk
    rw [prob_book _ _ hsne (by rw [struck_length, struck_length, hl]) (fun k hk => hkk k (struck_mem hk)), moves_struck hc e ks hkk,
      plays_struck _ _ _ _ hl, hl]
    ring
  have hcl : (List.replicate os.length K).length = os.length := by simp
  have hck : ∀ k ∈ List.replicate os.length K, k ∈ keys := fun k hk' => by rw [List.eq_of_mem_replicate hk']; exact hk
  have hconst : List.replicate (struck (e + 1) os).length K = struck (e + 1) (List.replicate os.length K) := by
    rw [struck_const, struck_length]
  unfold Steady at h
  rw [hconst, ps _ hcl hck] at h
  obtain ⟨h0, h1⟩ := h
  have hQ : 0 < (goQ cfg.keyTransition 0 0 : ℝ) ^ (e * os.length) := pow_pos hg _
  have hG : moves (book cfg) (List.replicate os.length K) = (goQ cfg.keyTransition 0 0 : ℝ) ^ (os.length - 1) := by
    rw [moves_replicate, (book_trans hc hk hk).2.1]
  have hGpos : 0 < moves (book cfg) (List.replicate os.length K) := moves_pos hc _ hck
  have hB : 0 < plays (book cfg) (List.replicate os.length K) os := by
    rcases (plays_nn (List.replicate os.length K)).lt_or_eq with hB | hB
    · exact hB
    · rw [← hB] at h0
      simp at h0
  refine ⟨?_, fun ks hkl hkk hkne => ?_⟩
  · rw [prob_book _ _ hne hcl hck]
    positivity
  · have hkk' : ∀ k ∈ ks, k ∈ keys := fun k hk' => mem_keys.2 (hkk k hk')
    have h2 := h1 (struck (e + 1) ks) (by rw [struck_length, struck_length, hkl]) (fun k hk' => hkk k (struck_mem hk'))
      (fun he => hkne (struck_inj e _ _ he))
    rw [ps ks hkl hkk'] at h2
    have hm0 := (moves_pos hc ks hkk').le
    have hmG : moves (book cfg) ks ≤ moves (book cfg) (List.replicate os.length K) := by
      rw [hG, ← hkl]
      have hp := moves_price hc ks hkk'
      have h1p : 1 ≤ price cfg.keyTransition ^ changes ks := one_le_pow₀ (by unfold price; split <;> norm_num)
      nlinarith
    have hA := plays_nn ks
    rw [prob_book _ _ hne hkl hkk', prob_book _ _ hne hcl hck]
    generalize moves (book cfg) ks = m at *
    generalize plays (book cfg) ks os = A at *
    generalize plays (book cfg) (List.replicate os.length K) os = B at *
    generalize moves (book cfg) (List.replicate os.length K) = G at *
    generalize (goQ cfg.keyTransition 0 0 : ℝ) ^ (e * os.length) = Q at *
    have h3 : m * A ^ (e + 1) ≤ μ ^ (e + 1) * (G * B ^ (e + 1)) := by
      refine le_of_mul_le_mul_left ?_ (mul_pos (by norm_num : (0 : ℝ) < 1 / 24) hQ)
      calc _ = 1 / 24 * (Q * (m * A ^ (e + 1))) := by ring
        _ ≤ _ := h2
        _ = _ := by ring
    have h4 : (m * A) ^ (e + 1) ≤ (μ * (G * B)) ^ (e + 1) := by
      calc (m * A) ^ (e + 1) = m ^ e * (m * A ^ (e + 1)) := by ring
        _ ≤ G ^ e * (μ ^ (e + 1) * (G * B ^ (e + 1))) :=
          mul_le_mul (pow_le_pow_left₀ hm0 hmG e) h3 (by positivity) (by positivity)
        _ = _ := by ring
    have h5 : m * A ≤ μ * (G * B) := le_of_pow_le_pow_left₀ (by omega) (by positivity) h4
    linarith

end

section
variable {η : ℝ} (lg : ℝ → RD) (hok : LogOk lg) (hlg : LogClose η lg) (hη : η ≤ (2 : ℝ) ^ (-30 : ℤ)) (iter₁ iter₂ : Iter RD)
    (hi₁ : iter₁.Ok) (hi₂ : iter₂.Ok) (cfg : Config RD) (hc : Chosen cfg)

include hok hlg hη hi₁ hi₂ hc in
/-- **C167 (partial).**  If the music with every note struck `d` times stays in `K` by a tenth for every stroke, then the program finds
`K` in it, and it finds `K` as well when every note is struck once.  Missing: music that changes its key when struck often, for which
it is false. -/
theorem C167_struck_partial (os : List Int) (hne : os ≠ []) (ho : ∀ o ∈ os, 0 ≤ o ∧ o < 12) (K : Int) (hK : IsKey K) (d : Nat) (hd : 0 < d)
    (hn : d * os.length ≤ 2 ^ 19) (h : Steady cfg (struck d os) K ((9 / 10) ^ d)) :
    (∃ r, detect (ieee lg) iter₁ iter₂ cfg (os.map PitchClass.ofInt) = .ok (.ok r) ∧
      r.localKeys = List.replicate os.length (Key.ofInt K) ∧ r.mainKey = Key.ofInt K) ∧
    ∃ r, detect (ieee lg) iter₁ iter₂ cfg ((struck d os).map PitchClass.ofInt) = .ok (.ok r) ∧
      r.localKeys = List.replicate (d * os.length) (Key.ofInt K) ∧ r.mainKey = Key.ofInt K := by
  have h1 := C167_slower hc os hne K hK d hd (9 / 10) (by norm_num) h
  have hlen : os.length ≤ d * os.length := Nat.le_mul_of_pos_left _ hd
  refine ⟨heard lg hok hlg hη iter₁ iter₂ hi₁ hi₂ cfg hc K hK os (hlen.trans hn) hne ho h1.1 h1.2, ?_⟩
  have hsne := struck_ne hd hne
  have key := heard lg hok hlg hη iter₁ iter₂ hi₁ hi₂ cfg hc K hK (struck d os) (by rw [struck_length]; exact hn) hsne
    (fun o hmem => ho o (struck_mem hmem)) h.1 (fun ks h1 h2 h3 => (h.2 ks h1 h2 h3).trans (mul_le_mul_of_nonneg_right
      (by
        obtain ⟨e, rfl⟩ : ∃ e, d = e + 1 := ⟨d - 1, by omega⟩
        rw [pow_succ]
        have : (9 / 10 : ℝ) ^ e ≤ 1 := pow_le_one₀ (by norm_num) (by norm_num)
        linarith) h.1.le))
  rw [struck_length] at key
  exact key

end

/-! ### Music that is decided, note by note -/

/-- The greatest of the numbers of the other sequences of keys after a note, and the number of the sequence itself, checked at the end:
`T` belongs to the sequence so far, which ends in the key `k`, and `W` to all others, by their last keys; `p / q` is the factor. -/
def decidedFrom (p q : Nat) (maj min : List Nat) : Nat → Nat → List Nat → List Nat → List Nat → Bool
  | T, _, W, [], [] => Nat.blt 0 T && below (W.map (q * ·)) (List.replicate 24 (p * T))
  | T, k, W, o :: os, l :: ls =>
    decidedFrom p q maj min (T * ((goTable.getD l []).getD k 0 * (play maj min o).getD l 0)) l
      ((List.range 24).map (fun j => colMax (if j = l then 0 else T * (goTable.getD j []).getD k 0) W (goTable.getD j []) *
        (play maj min o).getD j 0)) os ls
  | _, _, _, _, _ => false

/-- The keys `ls` are more probable than all others for the notes, by the factor `p / q`. -/
def decidedOk (p q : Nat) (maj min : List Nat) : List Nat → List Nat → Bool
  | o :: os, l :: ls => decidedFrom p q maj min ((play maj min o).getD l 0) l
      ((List.range 24).map (fun j => if j = l then 0 else (play maj min o).getD j 0)) os ls
  | _, _ => false

/-- The product of the transitions from the key `k` to the keys `ls`. -/
def votes (k : Nat) (ls : List Nat) : Nat := (ls.map (fun l => (goTable.getD l []).getD k 0)).prod

/-- The key `K` explains the keys `ls` better than all others, by a tenth. -/
def votesOk (K : Nat) (ls : List Nat) : Bool := (List.range 24).all (fun k => k == K || Nat.ble (10 * votes k ls) (9 * votes K ls))

section
variable {cfg : Config RD} (hT : cfg.keyTransition = "exponential10") (hc : Chosen cfg)

theorem getD_range (f : Nat → Nat) {i : Nat} (h : i < 24) : ((List.range 24).map f).getD i 0 = f i := by
  simp [List.getD_eq_getElem?_getD, h]

theorem extendProb_mono {t : Tables ℝ} (hnn : NonNeg t) : ∀ (os ks : List Int) (a b : ℝ) (p : Int), a ≤ b →
    extendProb t a p os ks ≤ extendProb t b p os ks := by
  intro os
  induction os with
  | nil => intro ks a b p h; simpa [extendProb] using h
  | cons o os ih =>
    intro ks a b p h
    cases ks with
    | nil => simpa [extendProb] using h
    | cons k ks =>
      exact ih _ _ _ _ (mul_le_mul_of_nonneg_right h (mul_nonneg (hnn.trans _ _) (hnn.emis _ _)))

include hT hc in
theorem decidedFrom_sound (p q : Nat) (hq : 0 < q) (t : Int) : ∀ (os : List Nat) (ls : List Int) (T : Nat) (k : Int) (W : List Nat) (c : ℝ), 0 < c →
    (∀ o ∈ os, o < 12) → (∀ l ∈ ls, l ∈ keys) → k ∈ keys →
    decidedFrom p q (majNat cfg.majorKeyProfile) (minNat cfg.minorKeyProfile) T (rel t k) W os (ls.map (rel t)) = true →
    ls.length = os.length ∧
    0 < extendProb (book cfg) (c * T) k (os.map (fun x : Nat => (t + (x : Int)) % 12)) ls ∧
    (∀ (j : Int) (acc : ℝ) (ks : List Int), j ∈ keys → acc ≤ c * (W.getD (rel t j) 0 : Nat) → ks.length = os.length → (∀ x ∈ ks, x ∈ keys) →
      extendProb (book cfg) acc j (os.map (fun x : Nat => (t + (x : Int)) % 12)) ks ≤
        (p / q : ℝ) * extendProb (book cfg) (c * T) k (os.map (fun x : Nat => (t + (x : Int)) % 12)) ls) ∧
    ∀ ks : List Int, ks.length = os.length → (∀ x ∈ ks, x ∈ keys) → ks ≠ ls →
      extendProb (book cfg) (c * T) k (os.map (fun x : Nat => (t + (x : Int)) % 12)) ks ≤
        (p / q : ℝ) * extendProb (book cfg) (c * T) k (os.map (fun x : Nat => (t + (x : Int)) % 12)) ls := by
  intro os
  induction os with
  | nil =>
    intro ls T k W c hc0 _ _ _ h
    cases ls with
    | cons l ls => simp [decidedFrom] at h
    | nil =>
      simp only [List.map_nil, decidedFrom, Bool.and_eq_true] at h
      obtain ⟨h1, h2⟩ := h
      have hT0 : 0 < T := Nat.le_of_ble_eq_true h1
      refine ⟨rfl, ?_, ?_, ?_⟩
      · simp only [List.map_nil, extendProb]
        exact mul_pos hc0 (Nat.cast_pos.2 hT0)
      · intro j acc ks _ hacc hl _
        obtain rfl := List.length_eq_zero_iff.1 hl
        simp only [List.map_nil, extendProb]
        have := below_spec _ _ h2 (rel t j)
        have e1 : (W.map (q * ·)).getD (rel t j) 0 = q * W.getD (rel t j) 0 := by
          simp only [List.getD_eq_getElem?_getD, List.getElem?_map]
          cases W[rel t j]? <;> simp
        have e2 : (List.replicate 24 (p * T)).getD (rel t j) 0 = p * T := by
          rw [List.getD_eq_getElem?_getD, List.getElem?_replicate_of_lt (rel_lt t j)]
          rfl
        rw [e1, e2] at this
        have h3 : ((q * W.getD (rel t j) 0 : Nat) : ℝ) ≤ ((p * T : Nat) : ℝ) := Nat.cast_le.2 this
        push_cast at h3
        generalize ((W.getD (rel t j) 0 : Nat) : ℝ) = w at *
        have hq0 : (0 : ℝ) < q := Nat.cast_pos.2 hq
        refine hacc.trans ?_
        rw [div_mul_eq_mul_div, le_div_iff₀ hq0]
        nlinarith
      · intro ks hl _ hne
        exact absurd (List.length_eq_zero_iff.1 hl) hne
  | cons o os ih =>
    intro ls T k W c hc0 ho hls hk h
    cases ls with
    | nil => simp [decidedFrom] at h
    | cons l ls =>
      simp only [List.map_cons, decidedFrom] at h
      have hl := hls l (by simp)
      have ho' := ho o (by simp)
      set D : ℝ := 144442221 * 10 ^ 22 with hD
      have hD0 : 0 < D := by rw [hD]; positivity
      obtain ⟨i1, i2, i3, i4⟩ := ih ls _ l _ (c / D) (div_pos hc0 hD0) (fun x hx => ho x (by simp [hx])) (fun x hx => hls x (by simp [hx])) hl h
      -- one step, in integers
      have step : ∀ j ∈ keys, ∀ k' ∈ keys, ∀ a : ℝ, a * ((book cfg).trans j k' * (book cfg).emis k' ((t + (o : Int)) % 12)) =
          a / D * (((goTable.getD (rel t k') []).getD (rel t j) 0 : Nat) *
            ((play (majNat cfg.majorKeyProfile) (minNat cfg.minorKeyProfile) o).getD (rel t k') 0 : Nat)) := by
        intro j hj k' hk' a
        rw [book_go hT t j k' hj hk', book_play hc t k' o ho' hk', hD]
        field_simp
      have eT : c * (T : ℝ) * ((book cfg).trans k l * (book cfg).emis l ((t + (o : Int)) % 12)) = c / D *
          ((T * ((goTable.getD (rel t l) []).getD (rel t k) 0 *
            (play (majNat cfg.majorKeyProfile) (minNat cfg.minorKeyProfile) o).getD (rel t l) 0) : Nat) : ℝ) := by
        rw [step k hk l hl]
        push_cast
        ring
      simp only [List.map_cons, extendProb, eT]
      refine ⟨by simp [i1], i2, ?_, ?_⟩
      · intro j acc ks hj hacc hkl hkk
        match ks, hkl with
        | k' :: ks, hkl =>
          have hk' := hkk k' (by simp)
          simp only [extendProb]
          refine i3 k' _ ks hk' ?_ (by simpa using hkl) (fun x hx => hkk x (by simp [hx]))
          rw [getD_range _ (rel_lt t k'), step j hj k' hk']
          have h4 := (colMax_spec W (goTable.getD (rel t k') [])
            (if rel t k' = rel t l then 0 else T * (goTable.getD (rel t k') []).getD (rel t k) 0)).2 (rel t j)
          generalize colMax (if rel t k' = rel t l then 0 else T * (goTable.getD (rel t k') []).getD (rel t k) 0) W
            (goTable.getD (rel t k') []) = m at *
          generalize (goTable.getD (rel t k') []).getD (rel t j) 0 = g at *
          generalize (play (majNat cfg.majorKeyProfile) (minNat cfg.minorKeyProfile) o).getD (rel t k') 0 = e at *
          generalize W.getD (rel t j) 0 = w at *
          have h5 : (w : ℝ) * g ≤ m := by exact_mod_cast h4
          push_cast
          have hg : (0 : ℝ) ≤ g := Nat.cast_nonneg g
          have he : (0 : ℝ) ≤ e := Nat.cast_nonneg e
          calc acc / D * (g * e) ≤ c * w / D * (g * e) := by gcongr
            _ = c / D * (w * g * e) := by ring
            _ ≤ c / D * (m * e) := by gcongr
      · intro ks hkl hkk hkne
        match ks, hkl with
        | k' :: ks, hkl =>
          have hk' := hkk k' (by simp)
          simp only [extendProb]
          by_cases e : k' = l
          · subst e
            rw [eT]
            exact i4 ks (by simpa using hkl) (fun x hx => hkk x (by simp [hx])) (fun h' => hkne (by rw [h']))
          · refine i3 k' _ ks hk' ?_ (by simpa using hkl) (fun x hx => hkk x (by simp [hx]))
            have hr : rel t k' ≠ rel t l := fun h' => e (rel_inj t hk' hl h')
            rw [getD_range _ (rel_lt t k'), step k hk k' hk', if_neg hr]
            have h4 := (colMax_spec W (goTable.getD (rel t k') []) (T * (goTable.getD (rel t k') []).getD (rel t k) 0)).1
            generalize colMax (T * (goTable.getD (rel t k') []).getD (rel t k) 0) W (goTable.getD (rel t k') []) = m at *
            generalize (goTable.getD (rel t k') []).getD (rel t k) 0 = g at *
            generalize (play (majNat cfg.majorKeyProfile) (minNat cfg.minorKeyProfile) o).getD (rel t k') 0 = e at *
            have h5 : (T : ℝ) * g ≤ m := by exact_mod_cast h4
            push_cast
            have he : (0 : ℝ) ≤ e := Nat.cast_nonneg e
            calc c * T / D * (g * e) = c / D * (T * g * e) := by ring
              _ ≤ c / D * (m * e) := by gcongr

include hT hc in
/-- Notes above the tonic `t` for which the keys `ls` pass the computation: they are more probable than all others. -/
theorem decidedOk_sound (p q : Nat) (hq : 0 < q) (t : Int) (os : List Nat) (ls : List Int) (ho : ∀ o ∈ os, o < 12) (hl : ∀ l ∈ ls, IsKey l)
    (h1 : decidedOk p q (majNat cfg.majorKeyProfile) (minNat cfg.minorKeyProfile) os (ls.map (rel t)) = true) :
    ls.length = os.length ∧ 0 < prob (book cfg) (os.map (fun x : Nat => (t + (x : Int)) % 12)) ls ∧
    ∀ ks : List Int, ks.length = os.length → (∀ k ∈ ks, IsKey k) → ks ≠ ls →
      prob (book cfg) (os.map (fun x : Nat => (t + (x : Int)) % 12)) ks ≤
        (p / q : ℝ) * prob (book cfg) (os.map (fun x : Nat => (t + (x : Int)) % 12)) ls := by
  have hlk : ∀ l ∈ ls, l ∈ keys := fun l h => mem_keys.2 (hl l h)
  match os, ls with
  | [], _ => simp [decidedOk] at h1
  | _ :: _, [] => simp [decidedOk] at h1
  | o :: os, l :: ls =>
    simp only [List.map_cons, decidedOk] at h1
    have hlm := hlk l (by simp)
    have ho' := ho o (by simp)
    obtain ⟨i1, i2, i3, i4⟩ := decidedFrom_sound hT hc p q hq t os ls _ l _ (1 / 24 / 10 ^ 22) (by norm_num) (fun x hx => ho x (by simp [hx]))
      (fun x hx => hlk x (by simp [hx])) hlm h1
    have first : ∀ k ∈ keys, (book cfg).init k * (book cfg).emis k ((t + (o : Int)) % 12) = 1 / 24 / 10 ^ 22 *
        ((play (majNat cfg.majorKeyProfile) (minNat cfg.minorKeyProfile) o).getD (rel t k) 0 : Nat) := by
      intro k hk
      rw [book_play hc t k o ho' hk]
      have : (book cfg).init k = 1 / 24 := by simp [book, hk]
      rw [this]
      ring
    refine ⟨by simp [i1], ?_, ?_⟩
    · simp only [List.map_cons, prob, first l hlm]
      exact i2
    · intro ks hkl hkk hkne
      match ks, hkl with
      | k :: ks, hkl =>
        have hk := mem_keys.2 (hkk k (by simp))
        have hkk' : ∀ x ∈ ks, x ∈ keys := fun x hx => mem_keys.2 (hkk x (by simp [hx]))
        have hkl' : ks.length = os.length := by simpa using hkl
        simp only [List.map_cons, prob, first l hlm]
        by_cases e : k = l
        · subst e
          rw [first k hk]
          exact i4 ks hkl' hkk' (fun h' => hkne (by rw [h']))
        · refine i3 k _ ks hk ?_ hkl' hkk'
          have hr : rel t k ≠ rel t l := fun h' => e (rel_inj t hk hlm h')
          rw [getD_range _ (rel_lt t k), if_neg hr, first k hk]

include hT hc in
/-- Notes above the tonic `t` for which the keys `ls` and the key `K` pass the computation get them, if the factor covers the rounding. -/
theorem found_near {η : ℝ} (lg : ℝ → RD) (hok : LogOk lg) (hlg : LogClose η lg) (hη : η ≤ (2 : ℝ) ^ (-30 : ℤ)) (iter₁ iter₂ : Iter RD)
    (hi₁ : iter₁.Ok) (hi₂ : iter₂.Ok) (t : Int) (os : List Nat) (ls : List Int) (K : Int) (hK : IsKey K) (ho : ∀ o ∈ os, o < 12)
    (hl : ∀ l ∈ ls, IsKey l) (hn : os.length ≤ 2 ^ 19) (p q : Nat) (hq : 0 < q) (hpq : (10 : ℝ) ^ (2 * slack η os.length) * (p / q) < 1)
    (h1 : decidedOk p q (majNat cfg.majorKeyProfile) (minNat cfg.minorKeyProfile) os (ls.map (rel t)) = true)
    (h2 : votesOk (rel t K) (ls.map (rel t)) = true) :
    ∃ d, detect (ieee lg) iter₁ iter₂ cfg ((os.map (fun x : Nat => (t + (x : Int)) % 12)).map PitchClass.ofInt) = .ok (.ok d) ∧
      d.localKeys = ls.map Key.ofInt ∧ d.mainKey = Key.ofInt K := by
  have hlk : ∀ l ∈ ls, l ∈ keys := fun l h => mem_keys.2 (hl l h)
  obtain ⟨i1, i2, i3⟩ := decidedOk_sound hT hc p q hq t os ls ho hl h1
  match os, ls with
  | [], _ => simp [decidedOk] at h1
  | _ :: _, [] => simp [decidedOk] at h1
  | o :: os, l :: ls =>
    have hlen : ((o :: os).map (fun x : Nat => (t + (x : Int)) % 12)).length ≤ 2 ^ 19 := by rw [List.length_map]; exact hn
    have hs := slack_tenth hη _ hlen
    have hs0 : (0 : ℝ) < (10 : ℝ) ^ (2 * slack η ((o :: os).map (fun x : Nat => (t + (x : Int)) % 12)).length) :=
      Real.rpow_pos_of_pos (by norm_num) _
    have tenth : ∀ a b : ℝ, 0 < b → a ≤ 9 / 10 * b →
        (10 : ℝ) ^ (2 * slack η ((o :: os).map (fun x : Nat => (t + (x : Int)) % 12)).length) * a < b := by
      intro a b hb hab
      have h3 := mul_le_mul_of_nonneg_left hab hs0.le
      have h4 := mul_lt_mul_of_pos_right hs hb
      linarith
    refine C121_decided lg hok hlg iter₁ iter₂ hi₁ hi₂ cfg hc _ (fun x hx => by
      obtain ⟨y, _, rfl⟩ := List.mem_map.1 hx
      omega) (by simp) (hlen.trans (by norm_num)) (l :: ls) (by simpa using i1) hl ?_ K hK ?_
    · intro ks hkl hkk hkne
      have h3 := mul_le_mul_of_nonneg_left (i3 ks (by simpa using hkl) hkk hkne) hs0.le
      have h4 := mul_lt_mul_of_pos_right hpq i2
      rw [List.length_map] at h3 ⊢
      linarith
    · intro k hk hkK
      have ev : ∀ k, IsKey k → evidence (fun k l => (goQ cfg.keyTransition k l : ℝ)) (l :: ls) k =
          (votes (rel t k) ((l :: ls).map (rel t)) : Nat) / 144442221 ^ (l :: ls).length := by
        intro k hk
        have hk' := mem_keys.2 hk
        unfold evidence votes
        generalize l :: ls = L at hlk
        clear * - hlk hk' hT
        induction L with
        | nil => simp
        | cons x L ih =>
          have hx := hlk x (by simp)
          have hb := book_go hT t k x hk' hx
          simp only [book, hk', hx, and_self, if_true] at hb
          simp only [List.map_cons, List.prod_cons, ih (fun y hy => hlk y (by simp [hy])), hb, List.length_cons]
          push_cast
          ring
      have hv := List.all_eq_true.1 h2 (rel t k) (List.mem_range.2 (rel_lt t k))
      have hr : rel t k ≠ rel t K := fun h' => hkK (rel_inj t (mem_keys.2 hk) (mem_keys.2 hK) h')
      simp only [Bool.or_eq_true, beq_iff_eq, hr, false_or] at hv
      have hv := Nat.le_of_ble_eq_true hv
      have hpos : 0 < evidence (fun k l => (goQ cfg.keyTransition k l : ℝ)) (l :: ls) K := evidence_pos hc.trans _ _
      refine tenth _ _ hpos ?_
      rw [ev k hk, ev K hK]
      have h5 : ((10 * votes (rel t k) ((l :: ls).map (rel t)) : Nat) : ℝ) ≤ ((9 * votes (rel t K) ((l :: ls).map (rel t)) : Nat) : ℝ) :=
        Nat.cast_le.2 hv
      push_cast at h5
      have hd : (0 : ℝ) < 144442221 ^ (l :: ls).length := by positivity
      rw [← mul_div_assoc]
      exact div_le_div_of_nonneg_right (by linarith) hd.le

include hT hc in
/-- Notes for which this holds with a tenth. -/
theorem found_keys {η : ℝ} (lg : ℝ → RD) (hok : LogOk lg) (hlg : LogClose η lg) (hη : η ≤ (2 : ℝ) ^ (-30 : ℤ)) (iter₁ iter₂ : Iter RD)
    (hi₁ : iter₁.Ok) (hi₂ : iter₂.Ok) (t : Int) (os : List Nat) (ls : List Int) (K : Int) (hK : IsKey K) (ho : ∀ o ∈ os, o < 12)
    (hl : ∀ l ∈ ls, IsKey l) (hn : os.length ≤ 2 ^ 19)
    (h1 : decidedOk 9 10 (majNat cfg.majorKeyProfile) (minNat cfg.minorKeyProfile) os (ls.map (rel t)) = true)
    (h2 : votesOk (rel t K) (ls.map (rel t)) = true) :
    ∃ d, detect (ieee lg) iter₁ iter₂ cfg ((os.map (fun x : Nat => (t + (x : Int)) % 12)).map PitchClass.ofInt) = .ok (.ok d) ∧
      d.localKeys = ls.map Key.ofInt ∧ d.mainKey = Key.ofInt K :=
  found_near hT hc lg hok hlg hη iter₁ iter₂ hi₁ hi₂ t os ls K hK ho hl hn 9 10 (by decide) (by simpa using slack_tenth hη os.length hn) h1 h2

/-- For short pieces a thousandth covers the rounding. -/
theorem slack_thousandth {η : ℝ} (hη : η ≤ (2 : ℝ) ^ (-30 : ℤ)) (n : Nat) (hn : n ≤ 2 ^ 10) :
    (10 : ℝ) ^ (2 * slack η n) * ((999 : Nat) / (1000 : Nat)) < 1 := by
  have hn' : (n : ℝ) ≤ 2 ^ 10 := by exact_mod_cast hn
  have h0 : (0 : ℝ) ≤ n := Nat.cast_nonneg n
  have h : 2 * slack η n ≤ 1 / 10000 := by
    unfold slack
    have a1 : (n : ℝ) * (η + (2 : ℝ) ^ (-51 : ℤ)) ≤ 2 ^ 10 * ((2 : ℝ) ^ (-30 : ℤ) + (2 : ℝ) ^ (-51 : ℤ)) := by
      calc (n : ℝ) * (η + (2 : ℝ) ^ (-51 : ℤ)) ≤ n * ((2 : ℝ) ^ (-30 : ℤ) + (2 : ℝ) ^ (-51 : ℤ)) :=
            mul_le_mul_of_nonneg_left (by linarith) h0
        _ ≤ _ := mul_le_mul_of_nonneg_right hn' (by positivity)
    have a2 : (n : ℝ) ^ 2 * (2 : ℝ) ^ (-44 : ℤ) ≤ (2 ^ 10) ^ 2 * (2 : ℝ) ^ (-44 : ℤ) :=
      mul_le_mul_of_nonneg_right (pow_le_pow_left₀ h0 hn' 2) (by positivity)
    have a3 : 2 * ((2 : ℝ) ^ 10 * ((2 : ℝ) ^ (-30 : ℤ) + (2 : ℝ) ^ (-51 : ℤ)) + (2 ^ 10) ^ 2 * (2 : ℝ) ^ (-44 : ℤ)) ≤ 1 / 10000 := by
      norm_num
    exact le_trans (mul_le_mul_of_nonneg_left (add_le_add a1 a2) (by norm_num)) a3
  have h2 : (10 : ℝ) ^ (2 * slack η n) ≤ (10 : ℝ) ^ (1 / 10000 : ℝ) := Real.rpow_le_rpow_of_exponent_le (by norm_num) h
  have h3 : (10 : ℝ) ^ (1 / 10000 : ℝ) * (9991 / 10000) ≤ 1 := by
    rw [Real.rpow_def_of_pos (by norm_num)]
    have l9 : Real.log 10 ≤ 9 := by
      have := Real.log_le_sub_one_of_pos (show (0 : ℝ) < 10 by norm_num)
      linarith
    have e1 := Real.add_one_le_exp (-(Real.log 10 * (1 / 10000)))
    have e2 : (9991 / 10000 : ℝ) ≤ Real.exp (-(Real.log 10 * (1 / 10000))) := by linarith
    calc _ ≤ Real.exp (Real.log 10 * (1 / 10000)) * Real.exp (-(Real.log 10 * (1 / 10000))) :=
          mul_le_mul_of_nonneg_left e2 (Real.exp_pos _).le
      _ = 1 := by rw [← Real.exp_add, add_neg_cancel, Real.exp_zero]
  have h4 : 0 < (10 : ℝ) ^ (2 * slack η n) := Real.rpow_pos_of_pos (by norm_num) _
  push_cast
  linarith

end

/-! ### C167 violated -/

/-- Four notes above the tonic `t`: tonic, fifth, tonic, augmented fourth. -/
def fourNotes (t : Int) : List Int := [0, 7, 0, 6].map (fun x : Nat => (t + (x : Int)) % 12)

theorem struck_map {α β : Type} (f : α → β) (d : Nat) (os : List α) : struck d (os.map f) = (struck d os).map f := by
  induction os with
  | nil => rfl
  | cons a os ih => rw [List.map_cons, struck_cons, struck_cons, ih, List.map_append, List.map_replicate]

set_option maxRecDepth 100000 in
theorem four_ok : decidedOk 9 10 (majNat "sapp") (minNat "sapp") [0, 7, 0, 6] [7, 7, 7, 7] = true ∧ votesOk 7 [7, 7, 7, 7] = true ∧
    decidedOk 9 10 (majNat "sapp") (minNat "sapp") [0, 0, 7, 7, 0, 0, 6, 6] [0, 0, 0, 0, 0, 0, 7, 7] = true ∧
    votesOk 0 [0, 0, 0, 0, 0, 0, 7, 7] = true := by decide +kernel

theorem rel_fifth : ∀ t ∈ pcs, rel t t = 0 ∧ rel t ((t + 7) % 12) = 7 := by decide +kernel

/-- **C167 violated.**  With the default tables, whatever the hash order: the four notes are heard in the key of the fifth when they are
struck once, and in the key of the tonic when each of them is struck twice. -/
theorem C167_struck_violated {η : ℝ} (lg : ℝ → RD) (hok : LogOk lg) (hlg : LogClose η lg) (hη : η ≤ (2 : ℝ) ^ (-30 : ℤ))
    (iter₁ iter₂ : Iter RD) (hi₁ : iter₁.Ok) (hi₂ : iter₂.Ok) (cfg : Config RD) (hc : Chosen cfg) (hT : cfg.keyTransition = "exponential10")
    (hM : cfg.majorKeyProfile = "sapp") (hm : cfg.minorKeyProfile = "sapp") (t : Int) (ht : 0 ≤ t ∧ t < 12) :
    (∃ d, detect (ieee lg) iter₁ iter₂ cfg ((fourNotes t).map PitchClass.ofInt) = .ok (.ok d) ∧ d.mainKey = Key.ofInt ((t + 7) % 12)) ∧
    ∃ d, detect (ieee lg) iter₁ iter₂ cfg ((struck 2 (fourNotes t)).map PitchClass.ofInt) = .ok (.ok d) ∧ d.mainKey = Key.ofInt t := by
  obtain ⟨c1, c2, c3, c4⟩ := four_ok
  obtain ⟨r0, r7⟩ := rel_fifth t (mem_pcs.2 ht)
  have k0 : IsKey t := by unfold IsKey; omega
  have k7 : IsKey ((t + 7) % 12) := by unfold IsKey; omega
  constructor
  · obtain ⟨d, h1, _, h2⟩ := found_keys hT hc lg hok hlg hη iter₁ iter₂ hi₁ hi₂ t [0, 7, 0, 6] (List.replicate 4 ((t + 7) % 12))
      ((t + 7) % 12) k7 (by decide) (fun l hl => by rw [List.eq_of_mem_replicate hl]; exact k7) (by decide)
      (by rw [hM, hm, List.map_replicate, r7]; exact c1) (by rw [List.map_replicate, r7]; exact c2)
    exact ⟨d, h1, h2⟩
  · have hls : ([t, t, t, t, t, t, (t + 7) % 12, (t + 7) % 12]).map (rel t) = [0, 0, 0, 0, 0, 0, 7, 7] := by
      simp [r0, r7]
    obtain ⟨d, h1, _, h2⟩ := found_keys hT hc lg hok hlg hη iter₁ iter₂ hi₁ hi₂ t [0, 0, 7, 7, 0, 0, 6, 6]
      [t, t, t, t, t, t, (t + 7) % 12, (t + 7) % 12] t k0 (by decide) (fun l hl => by
        simp only [List.mem_cons, List.not_mem_nil, or_false] at hl
        rcases hl with rfl | rfl | rfl | rfl | rfl | rfl | rfl | rfl <;> first | exact k0 | exact k7) (by decide)
      (by rw [hM, hm, hls]; exact c3) (by rw [r0, hls]; exact c4)
    refine ⟨d, ?_, h2⟩
    unfold fourNotes
    rw [struck_map]
    exact h1

/-! ### Cases -/

set_option maxRecDepth 100000 in
theorem triad_ok : decidedOk 81 100 (majNat "sapp") (minNat "sapp") [0, 0, 4, 4, 7, 7, 0, 0] (List.replicate 8 0) = true := by decide +kernel

/-- The major triad, every note struck twice, stays in its key by the tenth that `C167_struck_partial` asks for. -/
example (cfg : Config RD) (hc : Chosen cfg) (hT : cfg.keyTransition = "exponential10") (hM : cfg.majorKeyProfile = "sapp")
    (hm : cfg.minorKeyProfile = "sapp") : Steady cfg (struck 2 [0, 4, 7, 0]) 0 ((9 / 10) ^ 2) := by
  obtain ⟨_, i2, i3⟩ := decidedOk_sound hT hc 81 100 (by decide) 0 [0, 0, 4, 4, 7, 7, 0, 0] (List.replicate 8 0) (by decide)
    (fun l hl => by rw [List.eq_of_mem_replicate hl]; unfold IsKey; omega)
    (by rw [hM, hm, List.map_replicate]; exact triad_ok)
  have e : ((9 / 10) ^ 2 : ℝ) = ((81 : Nat) / (100 : Nat) : ℝ) := by norm_num
  refine ⟨i2, ?_⟩
  rw [e]
  exact i3

example : struck 2 (fourNotes 0) = [0, 0, 7, 7, 0, 0, 6, 6] := by decide

end JKD.Phrases
