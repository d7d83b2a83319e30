import Verif.Props.ExcursionProps
/-
C165: the local keys of a passage.
-/

namespace JKD.Detect

open Spec HMM RD

/-! ### Specification -/

/-- How probable a succession of keys is by the printed transitions. -/
noncomputable def route (s : String) : List Int → ℝ
  | j :: k :: ks => (goQ s j k : ℝ) * route s (k :: ks)
  | _ => 1

/-- How well the keys `ks` fit the notes `os` of a passage after the key `a` and before the key `b`, where `none` stands for the
beginning or the end of the piece. -/
noncomputable def fit (cfg : Config RD) (a : Option Int) (os ks : List Int) (b : Option Int) : ℝ :=
  route cfg.keyTransition (a.toList ++ ks ++ b.toList) * likelihood cfg ks os

/-- The keys `ks` fit a passage better than all others by a tenth. -/
def FitsBest (cfg : Config RD) (a : Option Int) (os ks : List Int) (b : Option Int) : Prop :=
  0 < fit cfg a os ks b ∧ ks.length = os.length ∧ (∀ k ∈ ks, IsKey k) ∧ ∀ ks' : List Int, ks'.length = os.length → (∀ k ∈ ks', IsKey k) → ks' ≠ ks →
    fit cfg a os ks' b ≤ 9 / 10 * fit cfg a os ks b

/-- The passage `mid` after the notes `pre` and before the notes `post` has the local keys `lm`, after the key `a` and before the key `b`. -/
def PassageKeys (d : Detection RD) (pre mid post : List Int) (a : Option Int) (lm : List Int) (b : Option Int) : Prop :=
  ∃ lp lq : List Int, d.localKeys = (lp ++ lm ++ lq).map Key.ofInt ∧ lp.length = pre.length ∧ lm.length = mid.length ∧
    lq.length = post.length ∧ (∀ l ∈ lp ++ lm ++ lq, IsKey l) ∧ lp.getLast? = a ∧ lq.head? = b

/-! ### Lemmas -/

theorem route_moves (cfg : Config RD) : ∀ ks : List Int, (∀ k ∈ ks, k ∈ keys) → moves (book cfg) ks = route cfg.keyTransition ks := by
  intro ks
  induction ks with
  | nil => intro _; rfl
  | cons j ks ih =>
    intro h
    cases ks with
    | nil => rfl
    | cons k ks =>
      rw [moves, route, ih (fun x hx => h x (by simp [hx]))]
      congr 1
      simp only [book, h j (by simp), h k (by simp), and_self, if_true]

theorem moves_three (t : Tables ℝ) (lp lm lq : List Int) :
    moves t (lp ++ lm ++ lq) = moves t lp * moves t (lp.getLast?.toList ++ lm ++ lq.head?.toList) * moves t lq := by
  rw [List.append_assoc, moves_left t lp, ← List.append_assoc, moves_right t _ lq]
  ring

theorem prob_three (cfg : Config RD) (pre mid post lp lm lq : List Int) (hm : mid ≠ []) (h1 : lp.length = pre.length)
    (h2 : lm.length = mid.length) (h3 : lq.length = post.length) (hk : ∀ l ∈ lp ++ lm ++ lq, l ∈ keys)
    (ho : ∀ o ∈ pre ++ mid ++ post, o ∈ pcs) :
    prob (book cfg) (pre ++ mid ++ post) (lp ++ lm ++ lq) =
      1 / 24 * (moves (book cfg) lp * moves (book cfg) lq * (plays (book cfg) lp pre * plays (book cfg) lq post)) *
        fit cfg lp.getLast? mid lm lq.head? := by
  have hlm : lm ≠ [] := by
    rintro rfl
    exact hm (List.length_eq_zero_iff.1 h2.symm)
  have hp : plays (book cfg) (lp ++ lm ++ lq) (pre ++ mid ++ post) =
      plays (book cfg) lp pre * likelihood cfg lm mid * plays (book cfg) lq post := by
    rw [plays_append _ _ _ _ _ (by simp [h1, h2]), plays_append _ _ _ _ _ h1, plays_book lm mid (fun k h => hk k (by simp [h]))
      (fun o h => ho o (by simp [h]))]
  have hr : moves (book cfg) (lp.getLast?.toList ++ lm ++ lq.head?.toList) =
      route cfg.keyTransition (lp.getLast?.toList ++ lm ++ lq.head?.toList) := by
    refine route_moves cfg _ (fun k h => hk k ?_)
    simp only [List.mem_append] at h ⊢
    rcases h with (h | h) | h
    · exact Or.inl (Or.inl (List.mem_of_getLast? (Option.mem_toList.1 h)))
    · exact Or.inl (Or.inr h)
    · exact Or.inr (List.mem_of_head? (Option.mem_toList.1 h))
  have hmv := moves_three (book cfg) lp lm lq
  generalize hL : lp ++ lm ++ lq = L at *
  generalize hO : pre ++ mid ++ post = O at *
  have hlen : L.length = O.length := by rw [← hL, ← hO]; simp [h1, h2, h3]
  match L, O, hlen with
  | [], _, _ => exact absurd (List.append_eq_nil_iff.1 (List.append_eq_nil_iff.1 hL).1).2 hlm
  | k :: L, o :: O, hlen =>
    rw [prob_eq _ o O k L (by simpa using hlen), hmv, hp, hr]
    have hi : (book cfg).init k = 1 / 24 := by simp [book, hk k (by simp)]
    rw [hi]
    unfold fit
    ring

/-! ### C165 -/

section
variable {η : ℝ} (lg : ℝ → RD) (hok : LogOk lg) (hlg : LogClose η lg) (iter₁ iter₂ : Iter RD) (hi₁ : iter₁.Ok) (hi₂ : iter₂.Ok)
    (cfg : Config RD) (hc : Chosen cfg) (pre mid post : List Int) (ho : ∀ o ∈ pre ++ mid ++ post, 0 ≤ o ∧ o < 12) (hm : mid ≠ [])

include hok hlg hi₁ hi₂ hc ho hm in
/-- **C165.**  In double arithmetic, for the profiles and transitions of the command line and any hash order: no other keys fit a passage
of a piece better between its neighbours than the local keys of the passage, up to rounding, wherever the passage is. -/
theorem C165_passage (hn : (pre ++ mid ++ post).length ≤ 2 ^ 40) :
    ∃ d a lm b, detect (ieee lg) iter₁ iter₂ cfg ((pre ++ mid ++ post).map PitchClass.ofInt) = .ok (.ok d) ∧
      PassageKeys d pre mid post a lm b ∧ 0 < fit cfg a mid lm b ∧
      ∀ ks : List Int, ks.length = mid.length → (∀ k ∈ ks, IsKey k) →
        fit cfg a mid ks b ≤ (10 : ℝ) ^ (2 * slack η (pre ++ mid ++ post).length) * fit cfg a mid lm b := by
  have hne : pre ++ mid ++ post ≠ [] := by simp [hm]
  have hop : ∀ o ∈ pre ++ mid ++ post, o ∈ pcs := fun o h => mem_pcs.2 (ho o h)
  obtain ⟨d, ls, _, hd, hls, hlen, hkey, hbest, _⟩ := C121_program lg hok hlg iter₁ iter₂ hi₁ hi₂ cfg hc _ ho hne hn
  obtain ⟨lp, rest, rfl, h1, hr⟩ : ∃ lp rest, ls = lp ++ rest ∧ lp.length = pre.length ∧ rest.length = mid.length + post.length :=
    ⟨ls.take pre.length, ls.drop pre.length, (List.take_append_drop _ _).symm, by simp [hlen], by simp [hlen]⟩
  obtain ⟨lm, lq, rfl, h2, h3⟩ : ∃ lm lq, rest = lm ++ lq ∧ lm.length = mid.length ∧ lq.length = post.length :=
    ⟨rest.take mid.length, rest.drop mid.length, (List.take_append_drop _ _).symm, by simp [hr], by simp [hr]⟩
  rw [← List.append_assoc] at hls hkey hbest hlen
  have hk : ∀ l ∈ lp ++ lm ++ lq, l ∈ keys := fun l h => mem_keys.2 (hkey l h)
  have hS : 0 ≤ (10 : ℝ) ^ (2 * slack η (pre ++ mid ++ post).length) := Real.rpow_nonneg (by norm_num) _
  have hpos : 0 < prob (book cfg) (pre ++ mid ++ post) (lp ++ lm ++ lq) := by
    obtain ⟨s1, s2⟩ := some_path (cfg := cfg) hc (pre ++ mid ++ post) hop hne
    have := s2.trans_le (hbest _ rfl (fun k h => mem_keys.1 (s1 k h)))
    by_contra hx
    have := mul_nonpos_of_nonneg_of_nonpos hS (not_lt.1 hx)
    linarith
  have hnn : NonNeg (book cfg) := (stored1 (fun _ => nan) cfg hc []).nonneg
  have plays_nn : ∀ ks os : List Int, 0 ≤ plays (book cfg) ks os := by
    intro ks os
    unfold plays
    refine List.prod_nonneg (fun x hx => ?_)
    obtain ⟨i, hi, rfl⟩ := List.getElem_of_mem hx
    simp only [List.getElem_zipWith]
    exact hnn.emis _ _
  have e := prob_three cfg pre mid post lp lm lq hm h1 h2 h3 hk hop
  have hC : 0 ≤ 1 / 24 * (moves (book cfg) lp * moves (book cfg) lq * (plays (book cfg) lp pre * plays (book cfg) lq post)) :=
    mul_nonneg (by norm_num) (mul_nonneg (mul_nonneg (moves_pos hc lp (fun k h => hk k (by simp [h]))).le
      (moves_pos hc lq (fun k h => hk k (by simp [h]))).le) (mul_nonneg (plays_nn _ _) (plays_nn _ _)))
  rw [e] at hpos
  have hfit : 0 < fit cfg lp.getLast? mid lm lq.head? := by
    by_contra hx
    have := mul_nonpos_of_nonneg_of_nonpos hC (not_lt.1 hx)
    linarith
  have hC' : 0 < 1 / 24 * (moves (book cfg) lp * moves (book cfg) lq * (plays (book cfg) lp pre * plays (book cfg) lq post)) :=
    (pos_iff_pos_of_mul_pos hpos).2 hfit
  refine ⟨d, lp.getLast?, lm, lq.head?, hd, ⟨lp, lq, hls, h1, h2, h3, hkey, rfl, rfl⟩, hfit, fun ks hkl hkk => ?_⟩
  have hk' : ∀ l ∈ lp ++ ks ++ lq, l ∈ keys := by
    intro l hl
    simp only [List.mem_append] at hl
    rcases hl with (hl | hl) | hl
    · exact hk l (by simp [hl])
    · exact mem_keys.2 (hkk l hl)
    · exact hk l (by simp [hl])
  have hb := hbest (lp ++ ks ++ lq) (by simp [h1, hkl, h3]) (fun k h => mem_keys.1 (hk' k h))
  rw [prob_three cfg pre mid post lp ks lq hm h1 hkl h3 hk' hop, e] at hb
  refine le_of_mul_le_mul_left ?_ hC'
  calc _ ≤ _ := hb
    _ = _ := by ring

omit hc in
theorem passage_unique {d : Detection RD} {pre mid post lm lm' : List Int} {a b a' b' : Option Int}
    (h : PassageKeys d pre mid post a lm b) (h' : PassageKeys d pre mid post a' lm' b') : a = a' ∧ lm = lm' ∧ b = b' := by
  obtain ⟨lp, lq, e, h1, h2, h3, hk, rfl, rfl⟩ := h
  obtain ⟨lp', lq', e', h1', h2', h3', hk', rfl, rfl⟩ := h'
  rw [e] at e'
  have hL : lp ++ lm ++ lq = lp' ++ lm' ++ lq' := by
    have back : ∀ L : List Int, (∀ l ∈ L, IsKey l) → (L.map Key.ofInt).map Key.getInt = L.map .ok := by
      intro L hL
      rw [List.map_map]
      exact List.map_congr_left (fun l hl => Key.getInt_ofInt (hL l hl))
    have h := congrArg (List.map Key.getInt) e'
    rw [back _ hk, back _ hk'] at h
    exact List.map_injective_iff.2 (fun x y h => by cases h; rfl) h
  obtain ⟨e1, e2⟩ := List.append_inj hL (by simp [h1, h2, h1', h2'])
  obtain ⟨e3, e4⟩ := List.append_inj e1 (by rw [h1, h1'])
  rw [e2, e3, e4]
  exact ⟨rfl, rfl, rfl⟩

include hok hlg hi₁ hi₂ hc ho hm in
/-- **C165, decided passages.**  Keys that fit a passage better than all others by a tenth are its local keys, whatever the rest of the
piece is, as long as the neighbouring local keys are these. -/
theorem C165_decided (hη : η ≤ (2 : ℝ) ^ (-30 : ℤ)) (hn : (pre ++ mid ++ post).length ≤ 2 ^ 19) (d : Detection RD)
    (hd : detect (ieee lg) iter₁ iter₂ cfg ((pre ++ mid ++ post).map PitchClass.ofInt) = .ok (.ok d)) (a b : Option Int) (lm ks : List Int)
    (hP : PassageKeys d pre mid post a lm b) (hks : FitsBest cfg a mid ks b) : lm = ks := by
  obtain ⟨d', a', lm', b', hd', hP', hpos, hbest⟩ := C165_passage lg hok hlg iter₁ iter₂ hi₁ hi₂ cfg hc pre mid post ho hm
    (hn.trans (by norm_num))
  rw [hd] at hd'
  cases hd'
  obtain ⟨rfl, rfl, rfl⟩ := passage_unique hP hP'
  by_contra hne
  have hs := Phrases.slack_tenth hη _ hn
  obtain ⟨lp, lq, _, _, hl, _, hkey, _, _⟩ := id hP
  have hlk : ∀ k ∈ lm, IsKey k := fun k h => hkey k (by simp [h])
  have h1 := hks.2.2.2 lm hl hlk hne
  have h2 := hbest ks hks.2.1 hks.2.2.1
  have h3 := hks.1
  have h4 := mul_le_mul_of_nonneg_left h1 (Real.rpow_nonneg (by norm_num : (0 : ℝ) ≤ 10) (2 * slack η (pre ++ mid ++ post).length))
  have h5 := mul_lt_mul_of_pos_right hs h3
  generalize (10 : ℝ) ^ (2 * slack η (pre ++ mid ++ post).length) = c at *
  nlinarith

end

/-- **C165, two pieces.**  A passage that occurs in two pieces between the same local keys has the same local keys in both, provided that
one choice of keys fits it best by a tenth. -/
theorem C165_same {η : ℝ} (lg : ℝ → RD) (hok : LogOk lg) (hlg : LogClose η lg) (hη : η ≤ (2 : ℝ) ^ (-30 : ℤ))
    (iter₁ iter₂ iter₁' iter₂' : Iter RD) (hi₁ : iter₁.Ok) (hi₂ : iter₂.Ok) (hi₁' : iter₁'.Ok) (hi₂' : iter₂'.Ok)
    (cfg : Config RD) (hc : Chosen cfg) (pre mid post pre' post' : List Int) (ho : ∀ o ∈ pre ++ mid ++ post, 0 ≤ o ∧ o < 12)
    (ho' : ∀ o ∈ pre' ++ mid ++ post', 0 ≤ o ∧ o < 12) (hm : mid ≠ []) (hn : (pre ++ mid ++ post).length ≤ 2 ^ 19)
    (hn' : (pre' ++ mid ++ post').length ≤ 2 ^ 19) (d d' : Detection RD)
    (hd : detect (ieee lg) iter₁ iter₂ cfg ((pre ++ mid ++ post).map PitchClass.ofInt) = .ok (.ok d))
    (hd' : detect (ieee lg) iter₁' iter₂' cfg ((pre' ++ mid ++ post').map PitchClass.ofInt) = .ok (.ok d'))
    (a b : Option Int) (lm lm' : List Int) (hP : PassageKeys d pre mid post a lm b) (hP' : PassageKeys d' pre' mid post' a lm' b)
    (hf : ∃ ks, FitsBest cfg a mid ks b) : lm = lm' := by
  obtain ⟨ks, hks⟩ := hf
  rw [C165_decided lg hok hlg iter₁ iter₂ hi₁ hi₂ cfg hc pre mid post ho hm hη hn d hd a b lm ks hP hks,
    C165_decided lg hok hlg iter₁' iter₂' hi₁' hi₂' cfg hc pre' mid post' ho' hm hη hn' d' hd' a b lm' ks hP' hks]

/-! ### Cases -/

/-- The note G between two notes in C major fits C major best, with the default tables. -/
example (cfg : Config RD) (hM : cfg.majorKeyProfile = "sapp") (hm : cfg.minorKeyProfile = "sapp") (hT : cfg.keyTransition = "exponential10") :
    FitsBest cfg (some 0) [7] [0] (some 0) := by
  have e : ∀ k : Int, fit cfg (some 0) [7] [k] (some 0) =
      ((goQ "exponential10" 0 k * goQ "exponential10" k 0 * playQ "sapp" "sapp" k 7 : Rat) : ℝ) := by
    intro k
    simp [fit, route, likelihood, hM, hm, hT]
  have h0 : 0 < goQ "exponential10" 0 0 * goQ "exponential10" 0 0 * playQ "sapp" "sapp" 0 7 ∧ ∀ k ∈ keys, k ≠ 0 →
      goQ "exponential10" 0 k * goQ "exponential10" k 0 * playQ "sapp" "sapp" k 7 ≤
        9 / 10 * (goQ "exponential10" 0 0 * goQ "exponential10" 0 0 * playQ "sapp" "sapp" 0 7) := by decide +kernel
  refine ⟨?_, rfl, by simp [IsKey], fun ks hl hk hne => ?_⟩
  · rw [e]
    exact Rat.cast_pos.2 h0.1
  · match ks, hl with
    | [k], _ =>
      rw [e, e]
      have h := h0.2 k (mem_keys.2 (hk k (by simp))) (fun h => hne (by rw [h]))
      have := (Rat.cast_le (K := ℝ)).2 h
      rw [Rat.cast_mul (9 / 10)] at this
      norm_num at this ⊢
      linarith

end JKD.Detect
