import Verif.FP.Passage
import Verif.Lemmas.PassageTable
import Verif.Props.PhraseProps
import Verif.Props.ExcursionProps
import Mathlib.Tactic.Linarith
import Mathlib.Tactic.Positivity
/-
C133: a key that is established for some time is found, whatever the music before and after is; changes of key are found.
-/

namespace JKD.Phrases

open Spec HMM RD Detect Main

/-! ### What the computation says -/

/-- Potentials relative to a tonic, in units of `10⁻⁹`. -/
noncomputable def fpot (t : Int) (V : List Nat) (k : Int) : ℝ := (V.getD (rel t k) 0 : Nat) / 10 ^ 9

theorem set_other (V : List Nat) {i j : Nat} (h : i ≠ j) : (V.set i 0).getD j 0 = V.getD j 0 := by
  simp only [List.getD_eq_getElem?_getD]
  rw [List.getElem?_set_ne h]

theorem map_getD (c : Nat) (V : List Nat) (i : Nat) : (V.map (c * ·)).getD i 0 = c * V.getD i 0 := by
  simp only [List.getD_eq_getElem?_getD, List.getElem?_map]
  cases V[i]? <;> simp

theorem enter_spec (d : Nat) (hd : 0 < d) : ∀ (V e : List Nat) (cont : List Nat → Bool), enter d V e cont = true →
    ∃ V', cont V' = true ∧ ∀ i, V.getD i 0 * e.getD i 0 ≤ V'.getD i 0 * d := by
  intro V
  induction V with
  | nil => intro e cont h; exact ⟨[], by simpa [enter] using h, fun i => by simp⟩
  | cons v vs ih =>
    intro e cont h
    cases e with
    | nil => exact ⟨[], by simpa [enter] using h, fun i => by simp⟩
    | cons e es =>
      rw [enter, force_eq] at h
      obtain ⟨V', h1, h2⟩ := ih es _ h
      refine ⟨_, h1, fun i => ?_⟩
      cases i with
      | zero =>
        simp only [List.getD_cons_zero]
        generalize v * e = n
        have := Nat.div_add_mod (n + (d - 1)) d
        have := Nat.mod_lt (n + (d - 1)) hd
        rw [Nat.mul_comm]
        omega
      | succ i => simpa only [List.getD_cons_succ] using h2 i

section
variable {cfg : Config RD} (hT : cfg.keyTransition = "exponential10") (hc : Chosen cfg)

include hT hc in
theorem freeWalk_sound (t K : Int) (hK : K ∈ keys) (c : Nat) (hc0 : 0 < c) (W : List Nat) : ∀ (os V : List Nat), (∀ o ∈ os, o < 12) →
    freeWalk (majNat cfg.majorKeyProfile) (minNat cfg.minorKeyProfile) (rel t K) c W V os = true →
    Free (book cfg) K (fpot t V) (os.map (fun x : Nat => (t + (x : Int)) % 12)) (fun k => 1 / (c : ℝ) * fpot t W k) := by
  intro os
  induction os with
  | nil =>
    intro V _ h
    refine .stop (fun k hk hne => ?_)
    have h1 := below_spec _ W (by simpa only [freeWalk] using h) (rel t k)
    rw [map_getD, set_other V (fun e => hne (rel_inj t hK hk e).symm)] at h1
    have h2 : ((c * V.getD (rel t k) 0 : Nat) : ℝ) ≤ (W.getD (rel t k) 0 : Nat) := Nat.cast_le.2 h1
    have hc' : (0 : ℝ) < c := Nat.cast_pos.2 hc0
    unfold fpot
    push_cast at h2
    rw [one_div, ← div_eq_inv_mul, le_div_iff₀ hc', div_mul_eq_mul_div]
    exact div_le_div_of_nonneg_right (by linarith) (by positivity)
  | cons o os ih =>
    intro V ho h
    rw [freeWalk, force_eq, Bool.and_eq_true] at h
    obtain ⟨hd, hn⟩ := h
    have hd : 0 < 100000000 * (play (majNat cfg.majorKeyProfile) (minNat cfg.minorKeyProfile) o).getD (rel t K) 0 :=
      Nat.le_of_ble_eq_true hd
    obtain ⟨V', h1, h2⟩ := next_spec 0 _ _ hd goTable _ _ hn
    have ho1 : o < 12 := ho o (by simp)
    have hl : goTable.length = 24 := by decide
    have hs : (goTable.getD (rel t K) []).getD (rel t K) 0 = 100000000 := go_stay _ (List.mem_range.2 (rel_lt t K))
    refine .step (V' := fpot t V') (fun j hj hjn k hk _ => ?_) (ih V' (fun x hx => ho x (by simp [hx])) h1)
    rw [book_go hT t j k hj hk, book_go hT t K K hK hK, book_play hc t k o ho1 hk, book_play hc t K o ho1 hK, hs]
    have h3 := h2 (rel t k) (by rw [hl]; exact rel_lt t k)
    have h4 := (colMax_spec (V.set (rel t K) 0) (goTable.getD (rel t k) []) 0).2 (rel t j)
    rw [set_other V (fun e => hjn (rel_inj t hK hj e).symm)] at h4
    have h5 := (Nat.mul_le_mul_right _ h4).trans h3
    unfold fpot
    generalize V.getD (rel t j) 0 = v at *
    generalize (goTable.getD (rel t k) []).getD (rel t j) 0 = g at *
    generalize (play (majNat cfg.majorKeyProfile) (minNat cfg.minorKeyProfile) o).getD (rel t k) 0 = e at *
    generalize (play (majNat cfg.majorKeyProfile) (minNat cfg.minorKeyProfile) o).getD (rel t K) 0 = d at *
    generalize V'.getD (rel t k) 0 = w at *
    have h6 : ((v * g * e : Nat) : ℝ) ≤ ((w * (100000000 * d) : Nat) : ℝ) := Nat.cast_le.2 h5
    push_cast at h6 ⊢
    have e1 : (v : ℝ) / 10 ^ 9 * (g / 144442221 * (e / 10 ^ 22)) = v * g * e * (1 / (10 ^ 9 * 144442221 * 10 ^ 22)) := by ring
    have e2 : (w : ℝ) / 10 ^ 9 * (100000000 / 144442221 * (d / 10 ^ 22)) =
        w * (100000000 * d) * (1 / (10 ^ 9 * 144442221 * 10 ^ 22)) := by ring
    rw [e1, e2]
    exact mul_le_mul_of_nonneg_right h6 (by positivity)

include hT hc in
theorem enterOk_sound (t K : Int) (hK : K ∈ keys) (W V : List Nat) (o : Nat) (os : List Nat) (ho : ∀ x ∈ o :: os, x < 12)
    (h : enterOk (majNat cfg.majorKeyProfile) (minNat cfg.minorKeyProfile) (rel t K) W V (o :: os) = true) :
    ∃ V' : Int → ℝ, (∀ k ∈ keys, k ≠ K → fpot t V k * (book cfg).emis k ((t + o) % 12) ≤ V' k * (book cfg).emis K ((t + o) % 12)) ∧
      Free (book cfg) K V' (os.map (fun x : Nat => (t + (x : Int)) % 12)) (fpot t W) := by
  rw [enterOk, force_eq, Bool.and_eq_true] at h
  obtain ⟨hd, hn⟩ := h
  have hd : 0 < (play (majNat cfg.majorKeyProfile) (minNat cfg.minorKeyProfile) o).getD (rel t K) 0 := Nat.le_of_ble_eq_true hd
  obtain ⟨V', h1, h2⟩ := enter_spec _ hd V _ _ hn
  have ho1 : o < 12 := ho o (by simp)
  refine ⟨fpot t V', fun k hk _ => ?_, ?_⟩
  · rw [book_play hc t k o ho1 hk, book_play hc t K o ho1 hK]
    have h3 := h2 (rel t k)
    unfold fpot
    generalize V.getD (rel t k) 0 = v at *
    generalize (play (majNat cfg.majorKeyProfile) (minNat cfg.minorKeyProfile) o).getD (rel t k) 0 = e at *
    generalize (play (majNat cfg.majorKeyProfile) (minNat cfg.minorKeyProfile) o).getD (rel t K) 0 = d at *
    generalize V'.getD (rel t k) 0 = w at *
    have h6 : ((v * e : Nat) : ℝ) ≤ ((w * d : Nat) : ℝ) := Nat.cast_le.2 h3
    push_cast at h6
    have e1 : (v : ℝ) / 10 ^ 9 * (e / 10 ^ 22) = v * e * (1 / (10 ^ 9 * 10 ^ 22)) := by ring
    have e2 : (w : ℝ) / 10 ^ 9 * (d / 10 ^ 22) = w * d * (1 / (10 ^ 9 * 10 ^ 22)) := by ring
    rw [e1, e2]
    exact mul_le_mul_of_nonneg_right h6 (by positivity)
  · have := freeWalk_sound hT hc t K hK 1 (by decide) W os V' (fun x hx => ho x (by simp [hx])) h1
    simpa only [Nat.cast_one, div_one, one_mul] using this

/-- The numbers of one mode pass all checks. -/
structure Checked (cfg : Config RD) (K : Nat) (phrases : List (List Nat)) (U come in1 in2 off1 off2 : List Nat) : Prop where
  home : U.getD K 0 = 1000
  small : ∀ i < 24, i ≠ K → U.getD i 0 ≤ 900
  notes : ∀ p ∈ phrases, p ≠ [] ∧ ∀ o ∈ p, o < 12
  ok : ∀ p ∈ phrases, phraseOk (majNat cfg.majorKeyProfile) (minNat cfg.minorKeyProfile) K U p = true
  come_ok : comeOk K come = true
  settled : settledOk K in2 U = true
  leave : leaveOk K off2 = true
  enter : ∀ p ∈ phrases, enterOk (majNat cfg.majorKeyProfile) (minNat cfg.minorKeyProfile) K in1 come p = true
  in1_ok : ∀ p ∈ phrases, freeWalk (majNat cfg.majorKeyProfile) (minNat cfg.minorKeyProfile) K 1 in2 in1 p = true
  in2_ok : ∀ p ∈ phrases, freeWalk (majNat cfg.majorKeyProfile) (minNat cfg.minorKeyProfile) K 2 in2 in2 p = true
  off0_ok : ∀ p ∈ phrases, freeWalk (majNat cfg.majorKeyProfile) (minNat cfg.minorKeyProfile) K 1 off1 (fine U) p = true
  off1_ok : ∀ p ∈ phrases, freeWalk (majNat cfg.majorKeyProfile) (minNat cfg.minorKeyProfile) K 1 off2 off1 p = true
  off2_ok : ∀ p ∈ phrases, freeWalk (majNat cfg.majorKeyProfile) (minNat cfg.minorKeyProfile) K 2 off2 off2 p = true

/-- First some numbers, then the half of the one before. -/
noncomputable def halved (t : Int) (a b : List Nat) : Nat → Int → ℝ
  | 0 => fpot t a
  | i + 1 => fun k => (1 / 2) ^ i * fpot t b k

theorem halved_free {b : Tables ℝ} {t K : Int} {x y : List Nat} {p : List Int} (h1 : Free b K (fpot t x) p (fpot t y))
    (h2 : Free b K (fpot t y) p (fun k => 1 / 2 * fpot t y k)) : ∀ i, Free b K (halved t x y i) p (halved t x y (i + 1)) := by
  intro i
  cases i with
  | zero => simpa only [halved, pow_zero, one_mul] using h1
  | succ i =>
    have := h2.smul ((1 / 2 : ℝ) ^ i) (by positivity)
    simpa only [halved, pow_succ, mul_assoc] using this

theorem half_le (n : Nat) (h : 14 ≤ n) {x : ℝ} (hx : 0 ≤ x) : (1 / 2 : ℝ) ^ n * x ≤ (1 / 2) ^ 14 * x :=
  mul_le_mul_of_nonneg_right (pow_le_pow_of_le_one (by norm_num) (by norm_num) h) hx

theorem fpot_nonneg (t : Int) (V : List Nat) (k : Int) : 0 ≤ fpot t V k := by unfold fpot; positivity

include hT hc in
/-- The numbers are what Passage.lean needs. -/
noncomputable def passage (t K : Int) (hK : K ∈ keys) {phrases : List (List Nat)} {U come in1 in2 off1 off2 : List Nat}
    (h : Checked cfg (rel t K) phrases U come in1 in2 off1 off2) :
    Passage (book cfg) K (9 / 10) 16 (fun p => ∃ q ∈ phrases, p = q.map (fun x : Nat => (t + (x : Int)) % 12)) where
  U := pot t U
  B := fun i => match i with
    | 0 => fpot t in1
    | i + 1 => halved t in1 in2 i
  C := fun i => match i with
    | 0 => fpot t (fine U)
    | i + 1 => halved t off1 off2 i
  R := fpot t come
  home := by unfold pot; rw [h.home]; norm_num
  small := fun k hk hne => by
    have := h.small (rel t k) (rel_lt t k) (fun e => hne (rel_inj t hk hK e))
    have : ((U.getD (rel t k) 0 : Nat) : ℝ) ≤ ((900 : Nat) : ℝ) := Nat.cast_le.2 this
    unfold pot
    push_cast at this
    linarith
  later := by
    rintro _ ⟨q, hq, rfl⟩
    exact (phrase_sound hT hc t K hK U q (h.notes q hq).1 (h.notes q hq).2 (h.ok q hq)).later
  pos := by
    rintro _ ⟨q, hq, rfl⟩ o ho
    obtain ⟨x, hx, rfl⟩ := List.mem_map.1 ho
    exact (phrase_sound hT hc t K hK U q (h.notes q hq).1 (h.notes q hq).2 (h.ok q hq)).pos x hx
  first := by
    rintro _ ⟨q, hq, rfl⟩
    obtain ⟨o, os, V, rfl, h0, hl⟩ := (phrase_sound hT hc t K hK U q (h.notes q hq).1 (h.notes q hq).2 (h.ok q hq)).first
    exact ⟨_, _, pot t V, rfl, h0, hl⟩
  come := fun j hj k hk hne => by
    rw [book_go hT t j k hj hk, book_go hT t j K hj hK]
    have h1 := List.all_eq_true.1 h.come_ok (rel t k) (List.mem_range.2 (rel_lt t k))
    have hne' : (rel t k == rel t K) = false := by
      rw [beq_eq_false_iff_ne]
      exact fun e => hne (rel_inj t hk hK e)
    rw [hne', Bool.false_or] at h1
    have h2 := Nat.le_of_ble_eq_true (List.all_eq_true.1 h1 (rel t j) (List.mem_range.2 (rel_lt t j)))
    unfold fpot
    generalize come.getD (rel t k) 0 = v at *
    generalize (goTable.getD (rel t k) []).getD (rel t j) 0 = g at *
    generalize (goTable.getD (rel t K) []).getD (rel t j) 0 = g' at *
    have h3 : ((1000000000 * g : Nat) : ℝ) ≤ ((v * g' : Nat) : ℝ) := Nat.cast_le.2 h2
    push_cast at h3
    have e1 : (g : ℝ) / 144442221 = 1000000000 * g * (1 / (10 ^ 9 * 144442221)) := by ring
    have e2 : (v : ℝ) / 10 ^ 9 * (g' / 144442221) = v * g' * (1 / (10 ^ 9 * 144442221)) := by ring
    rw [e1, e2]
    exact mul_le_mul_of_nonneg_right h3 (by positivity)
  enter := by
    rintro o os ⟨q, hq, e⟩
    match q, e with
    | x :: xs, e =>
      simp only [List.map_cons, List.cons.injEq] at e
      obtain ⟨rfl, rfl⟩ := e
      exact enterOk_sound hT hc t K hK in1 come x xs (h.notes _ hq).2 (h.enter _ hq)
    | [], e => simp at e
  stay := by
    rintro i _ ⟨q, hq, rfl⟩
    refine halved_free ?_ ?_ i
    · have := freeWalk_sound hT hc t K hK 1 (by decide) in2 q in1 (h.notes q hq).2 (h.in1_ok q hq)
      simpa only [Nat.cast_one, div_one, one_mul] using this
    · have := freeWalk_sound hT hc t K hK 2 (by decide) in2 q in2 (h.notes q hq).2 (h.in2_ok q hq)
      simpa only [Nat.cast_ofNat] using this
  settled := fun i hi k hk hne => by
    obtain ⟨n, rfl⟩ : ∃ n, i = n + 2 := ⟨i - 2, by omega⟩
    have h1 := List.all_eq_true.1 h.settled (rel t k) (List.mem_range.2 (rel_lt t k))
    have hne' : (rel t k == rel t K) = false := by
      rw [beq_eq_false_iff_ne]
      exact fun e => hne (rel_inj t hk hK e)
    rw [hne', Bool.false_or] at h1
    have h2 := Nat.le_of_ble_eq_true h1
    refine (half_le n (by omega) (fpot_nonneg t in2 k)).trans ?_
    unfold fpot pot
    generalize in2.getD (rel t k) 0 = v at *
    generalize U.getD (rel t k) 0 = u at *
    have h3 : ((v : Nat) : ℝ) ≤ ((u * 1000000 * 2 ^ 14 : Nat) : ℝ) := Nat.cast_le.2 h2
    push_cast at h3
    have h3 : (v : ℝ) ≤ u * 1000000 * 2 ^ 14 := by linarith
    have e1 : (1 / 2 : ℝ) ^ 14 * (v / 10 ^ 9) = v * (1 / (2 ^ 14 * 10 ^ 9)) := by ring
    have e2 : (u : ℝ) / 1000 = u * 1000000 * 2 ^ 14 * (1 / (2 ^ 14 * 10 ^ 9)) := by ring
    rw [e1, e2]
    exact mul_le_mul_of_nonneg_right h3 (by positivity)
  off := fun k _ _ => by
    unfold pot fpot fine
    dsimp only
    rw [map_getD]
    push_cast
    have : (0 : ℝ) ≤ (U.getD (rel t k) 0 : Nat) := Nat.cast_nonneg _
    exact le_of_eq (by ring)
  away := by
    rintro i _ ⟨q, hq, rfl⟩
    have h0 := freeWalk_sound hT hc t K hK 1 (by decide) off1 q (fine U) (h.notes q hq).2 (h.off0_ok q hq)
    have h1 := freeWalk_sound hT hc t K hK 1 (by decide) off2 q off1 (h.notes q hq).2 (h.off1_ok q hq)
    have h2 := freeWalk_sound hT hc t K hK 2 (by decide) off2 q off2 (h.notes q hq).2 (h.off2_ok q hq)
    simp only [Nat.cast_one, div_one, one_mul, Nat.cast_ofNat] at h0 h1 h2
    cases i with
    | zero => exact h0
    | succ i => exact halved_free h1 h2 i
  leave := fun i hi j hj hne k hk => by
    obtain ⟨n, rfl⟩ : ∃ n, i = n + 2 := ⟨i - 2, by omega⟩
    have h1 := List.all_eq_true.1 (List.all_eq_true.1 h.leave (rel t k) (List.mem_range.2 (rel_lt t k))) (rel t j)
      (List.mem_range.2 (rel_lt t j))
    have hne' : (rel t j == rel t K) = false := by
      rw [beq_eq_false_iff_ne]
      exact fun e => hne (rel_inj t hj hK e)
    rw [hne', Bool.false_or] at h1
    have h2 := Nat.le_of_ble_eq_true h1
    rw [book_go hT t j k hj hk, book_go hT t K k hK hk]
    have hstep := mul_le_mul_of_nonneg_right (half_le n (by omega) (fpot_nonneg t off2 j))
      (show (0 : ℝ) ≤ ((goTable.getD (rel t k) []).getD (rel t j) 0 : Nat) / 144442221 by positivity)
    refine hstep.trans ?_
    unfold fpot
    generalize off2.getD (rel t j) 0 = v at *
    generalize (goTable.getD (rel t k) []).getD (rel t j) 0 = g at *
    generalize (goTable.getD (rel t k) []).getD (rel t K) 0 = g' at *
    have h3 : ((10 * (v * g) : Nat) : ℝ) ≤ ((9 * 1000000000 * g' * 2 ^ 14 : Nat) : ℝ) := Nat.cast_le.2 h2
    push_cast at h3
    have h3 : (10 : ℝ) * (v * g) ≤ 9 * 1000000000 * g' * 2 ^ 14 := by linarith
    have e1 : (1 / 2 : ℝ) ^ 14 * (v / 10 ^ 9) * (g / 144442221) = 10 * (v * g) * (1 / (10 * 2 ^ 14 * 10 ^ 9 * 144442221)) := by ring
    have e2 : (9 / 10 : ℝ) * (g' / 144442221) = 9 * 1000000000 * g' * 2 ^ 14 * (1 / (10 * 2 ^ 14 * 10 ^ 9 * 144442221)) := by ring
    rw [e1, e2]
    exact mul_le_mul_of_nonneg_right h3 (by positivity)
end

/-! ### The default settings -/

theorem major_passes (cfg : Config RD) (hM : cfg.majorKeyProfile = "sapp") (hm : cfg.minorKeyProfile = "sapp") :
    Checked cfg 0 majorPhrases majorPot majorCome majorIn1 majorIn2 majorOff1 majorOff2 where
  home := rfl
  small := majorPot_small
  notes := major_small
  ok := by rw [hM, hm]; exact (all_checked "sapp" "sapp" (by decide) (by decide) (by decide)).1
  come_ok := major_come
  settled := major_settled
  leave := major_leave
  enter := by rw [hM, hm]; exact List.all_eq_true.1 major_enter
  in1_ok := by rw [hM, hm]; exact List.all_eq_true.1 major_in1
  in2_ok := by rw [hM, hm]; exact List.all_eq_true.1 major_in2
  off0_ok := by rw [hM, hm]; exact List.all_eq_true.1 major_off0
  off1_ok := by rw [hM, hm]; exact List.all_eq_true.1 major_off1
  off2_ok := by rw [hM, hm]; exact List.all_eq_true.1 major_off2

theorem minor_passes (cfg : Config RD) (hM : cfg.majorKeyProfile = "sapp") (hm : cfg.minorKeyProfile = "sapp") :
    Checked cfg 12 minorPhrases minorPot minorCome minorIn1 minorIn2 minorOff1 minorOff2 where
  home := rfl
  small := minorPot_small
  notes := minor_small
  ok := by rw [hM, hm]; exact (all_checked "sapp" "sapp" (by decide) (by decide) (by decide)).2
  come_ok := minor_come
  settled := minor_settled
  leave := minor_leave
  enter := by rw [hM, hm]; exact List.all_eq_true.1 minor_enter
  in1_ok := by rw [hM, hm]; exact List.all_eq_true.1 minor_in1
  in2_ok := by rw [hM, hm]; exact List.all_eq_true.1 minor_in2
  off0_ok := by rw [hM, hm]; exact List.all_eq_true.1 minor_off0
  off1_ok := by rw [hM, hm]; exact List.all_eq_true.1 minor_off1
  off2_ok := by rw [hM, hm]; exact List.all_eq_true.1 minor_off2

/-- The passage of either mode. -/
theorem some_passage {cfg : Config RD} (hT : cfg.keyTransition = "exponential10") (hc : Chosen cfg)
    (hM : cfg.majorKeyProfile = "sapp") (hm : cfg.minorKeyProfile = "sapp") (K : Int) (hK : K ∈ keys) :
    Nonempty (Passage (book cfg) K (9 / 10) 16
      (fun p => ∃ q ∈ (if Spec.isMajor K then majorPhrases else minorPhrases), p = q.map (fun x : Nat => (tonic K + (x : Int)) % 12))) := by
  have hr := rel_self K
  by_cases h : Spec.isMajor K = true
  · rw [if_pos h] at hr ⊢
    have := major_passes cfg hM hm
    rw [← hr] at this
    exact ⟨passage hT hc (tonic K) K hK this⟩
  · rw [if_neg h] at hr ⊢
    have := minor_passes cfg hM hm
    rw [← hr] at this
    exact ⟨passage hT hc (tonic K) K hK this⟩

theorem played_map (K : Int) (ps : List (List Nat)) :
    played K ps = (ps.map (fun p => p.map (fun x : Nat => (tonic K + (x : Int)) % 12))).flatten := by
  unfold played
  rw [List.map_flatten]

theorem played_append (K : Int) (ps qs : List (List Nat)) : played K (ps ++ qs) = played K ps ++ played K qs := by
  unfold played
  rw [List.flatten_append, List.map_append]

theorem played_range (K : Int) (ps : List (List Nat)) : ∀ o ∈ played K ps, 0 ≤ o ∧ o < 12 := by
  intro o ho
  unfold played at ho
  obtain ⟨x, _, rfl⟩ := List.mem_map.1 ho
  omega

/-- **C133, the music.**  A sequence of keys that has another key at a note of the passage is less probable, by a tenth, than
some other sequence. -/
theorem C133_improvable (cfg : Config RD) (hc : Chosen cfg) (hT : cfg.keyTransition = "exponential10")
    (hM : cfg.majorKeyProfile = "sapp") (hm : cfg.minorKeyProfile = "sapp") (K : Int) (hK : IsKey K) (pre post : List Int)
    (ps1 ps ps2 : List (List Nat)) (hps : ∀ p ∈ ps1 ++ ps ++ ps2, p ∈ if Spec.isMajor K then majorPhrases else minorPhrases)
    (h1 : pre = [] ∨ 16 ≤ ps1.length) (h2 : post = [] ∨ 16 ≤ ps2.length) (ls : List Int)
    (hl : ls.length = (pre ++ played K (ps1 ++ ps ++ ps2) ++ post).length) (hk : ∀ l ∈ ls, IsKey l) (i : Nat)
    (hi1 : (pre ++ played K ps1).length ≤ i) (hi2 : i < (pre ++ played K (ps1 ++ ps)).length) (hne : ls[i]? ≠ some K) :
    ∃ ys : List Int, ys.length = (pre ++ played K (ps1 ++ ps ++ ps2) ++ post).length ∧ (∀ y ∈ ys, IsKey y) ∧
      prob (book cfg) (pre ++ played K (ps1 ++ ps ++ ps2) ++ post) ls ≤
        9 / 10 * prob (book cfg) (pre ++ played K (ps1 ++ ps ++ ps2) ++ post) ys := by
  have hK' : K ∈ keys := mem_keys.2 hK
  obtain ⟨S⟩ := some_passage hT hc hM hm K hK'
  have ht : NonNeg (book cfg) := (stored1 (fun _ => nan) cfg hc []).nonneg
  have hg : 0 < (book cfg).trans K K := (book_trans hc hK' hK').1
  have hinit : ∀ k ∈ keys, (book cfg).init k = (book cfg).init K := by intro k hk; simp [book, hk, hK']
  simp only [played_append, List.append_assoc, List.length_append] at hl hi1 hi2 ⊢
  have hk' : ∀ l ∈ ls, l ∈ keys := fun l h => mem_keys.2 (hk l h)
  have hP : ∀ qs : List (List Nat), (∀ p ∈ qs, p ∈ if Spec.isMajor K then majorPhrases else minorPhrases) →
      ∀ p ∈ qs.map (fun p => p.map (fun x : Nat => (tonic K + (x : Int)) % 12)),
        ∃ q ∈ (if Spec.isMajor K then majorPhrases else minorPhrases), p = q.map (fun x : Nat => (tonic K + (x : Int)) % 12) := by
    intro qs hqs p hp
    obtain ⟨q, hq, rfl⟩ := List.mem_map.1 hp
    exact ⟨q, hqs q hq, rfl⟩
  have hP1 := hP ps1 (fun p hp => hps p (by simp [hp]))
  have hP0 := hP ps (fun p hp => hps p (by simp [hp]))
  have hP2 := hP ps2 (fun p hp => hps p (by simp [hp]))
  have hkk : ls[i]? = some ls[i] := List.getElem?_eq_getElem (by omega)
  have hkne : ls[i] ≠ K := fun e => hne (by rw [hkk, e])
  have hls : ls = ls.take i ++ ls[i] :: ls.drop (i + 1) := by
    rw [List.cons_getElem_drop_succ, List.take_append_drop]
  have h2' : post = [] ∨ 16 ≤ (ps2.map (fun p => p.map (fun x : Nat => (tonic K + (x : Int)) % 12))).length := by simpa using h2
  have cut : ∀ (l : List Int) (n : Nat) (h : n < l.length), l = l.take n ++ l[n] :: l.drop (n + 1) := by
    intro l n h
    rw [List.cons_getElem_drop_succ, List.take_append_drop]
  by_cases hpre : pre = []
  · subst hpre
    simp only [List.nil_append, List.length_nil, Nat.zero_add] at hl hi1 hi2 ⊢
    have hab := cut (played K ps1 ++ played K ps) i (by simpa using hi2)
    have hab' : ((ps1 ++ ps).map (fun p => p.map (fun x : Nat => (tonic K + (x : Int)) % 12))).flatten =
        (played K ps1 ++ played K ps).take i ++ (played K ps1 ++ played K ps)[i]'(by simpa using hi2) ::
          (played K ps1 ++ played K ps).drop (i + 1) := by
      rw [← hab, List.map_append, List.flatten_append, ← played_map, ← played_map]
    obtain ⟨ys, g1, g2, g3⟩ := opening_better S ht hK' hg hinit _ _ (hP (ps1 ++ ps) (fun p hp => hps p (by
      rcases List.mem_append.1 hp with h | h <;> simp [h]))) hP2 post h2' _ _ _ hab' ls[i] (hk' _ (List.getElem_mem _)) hkne
      (ls.take i) (ls.drop (i + 1)) (by simp only [List.length_take, List.length_append]; omega)
      (by
        rw [← played_map]
        simp only [List.length_drop, List.length_append]
        omega)
      (fun k h => hk' k (List.mem_of_mem_take h)) (fun k h => hk' k (List.mem_of_mem_drop h))
    rw [← hls, ← played_map] at g3
    rw [← played_map] at g1
    have e : played K ps1 ++ (played K ps ++ (played K ps2 ++ post)) = (played K ps1 ++ played K ps).take i ++
        (played K ps1 ++ played K ps)[i]'(by simpa using hi2) ::
          ((played K ps1 ++ played K ps).drop (i + 1) ++ (played K ps2 ++ post)) := by
      conv_rhs => rw [← List.cons_append, ← List.append_assoc, ← hab, List.append_assoc]
    rw [← e] at g1 g3
    exact ⟨ys, by simpa using g1, fun y hy => mem_keys.1 (g2 y hy), g3⟩
  · have hN1 : 16 ≤ ps1.length := by
      rcases h1 with h | h
      · exact absurd h hpre
      · exact h
    obtain ⟨o, pre, rfl⟩ := List.exists_cons_of_ne_nil hpre
    obtain ⟨k0, ls', rfl⟩ : ∃ k0 ls', ls = k0 :: ls' := by
      cases ls with
      | nil => simp at hl; omega
      | cons a b => exact ⟨a, b, rfl⟩
    obtain ⟨i, rfl⟩ : ∃ i', i = i' + 1 := ⟨i - 1, by simp only [List.length_cons] at hi1; omega⟩
    simp only [List.length_cons] at hl hi1 hi2
    simp only [List.getElem_cons_succ] at hkne
    have hin : i - (pre.length + (played K ps1).length) < (played K ps).length := by omega
    have hab := cut (played K ps) (i - (pre.length + (played K ps1).length)) hin
    have hab' : (ps.map (fun p => p.map (fun x : Nat => (tonic K + (x : Int)) % 12))).flatten = _ := (played_map K ps).symm.trans hab
    have hcut := cut ls' i (by omega)
    obtain ⟨ys, g1, g2, g3⟩ := inside_better S ht hK' hg _ _ _ hP1 hP0 hP2 post (by simpa using hN1)
      (by intro e; simp only [List.map_eq_nil_iff] at e; subst e; simp at hN1) h2' _ _ _ hab' ls'[i]
      (hk' _ (by simp)) hkne pre (ls'.take i) (ls'.drop (i + 1))
      (by
        rw [← played_map]
        simp only [List.length_take]
        omega)
      (by
        rw [← played_map]
        simp only [List.length_drop, List.length_append]
        omega)
      (fun k h => hk' k (by simp [List.mem_of_mem_take h])) (fun k h => hk' k (by simp [List.mem_of_mem_drop h])) k0
      ((book cfg).init k0 * (book cfg).emis k0 o) (hk' k0 (by simp)) (mul_nonneg (ht.init _) (ht.emis _ _))
    rw [← hcut, ← played_map, ← played_map] at g3
    rw [← played_map, ← played_map] at g1
    have e : pre ++ (played K ps1 ++ (played K ps ++ (played K ps2 ++ post))) = pre ++ (played K ps1 ++
        ((played K ps).take (i - (pre.length + (played K ps1).length)) ++
          (played K ps)[i - (pre.length + (played K ps1).length)] ::
            ((played K ps).drop (i - (pre.length + (played K ps1).length) + 1) ++ (played K ps2 ++ post)))) := by
      rw [← List.cons_append, ← List.append_assoc (List.take _ _), ← hab]
    rw [← e] at g1 g3
    refine ⟨k0 :: ys, by simp only [List.length_cons, List.length_append] at g1 ⊢; omega, fun y hy => ?_, ?_⟩
    · rcases List.mem_cons.1 hy with rfl | hy
      · exact hk y (by simp)
      · exact mem_keys.1 (g2 y hy)
    · simpa only [List.cons_append, prob] using g3

/-! ### The program -/

theorem stay_cost : ∀ k ∈ keys, ∀ l ∈ keys, goQ "exponential10" l l = goQ "exponential10" 0 0 ∧
    goQ "exponential10" 0 0 ≤ 10 ^ 8 * goQ "exponential10" k l ∧ goQ "exponential10" k l ≤ goQ "exponential10" 0 0 ∧
    (k ≠ l → 10 * goQ "exponential10" k l ≤ goQ "exponential10" 0 0) := by decide +kernel

/-- Keys other than `K` cost `K` at most eight powers of ten each. -/
theorem evidence_home (K : Int) (hK : K ∈ keys) : ∀ ls : List Int, (∀ l ∈ ls, l ∈ keys) →
    (goQ "exponential10" 0 0 : ℝ) ^ ls.length * 10 ^ (8 * ls.count K) ≤
      10 ^ (8 * ls.length) * evidence (fun k l => (goQ "exponential10" k l : ℝ)) ls K := by
  intro ls
  induction ls with
  | nil => intro _; simp [evidence]
  | cons l ls ih =>
    intro h
    have hi := ih (fun x hx => h x (by simp [hx]))
    obtain ⟨c1, c2, c3, _⟩ := stay_cost K hK l (h l (by simp))
    have hs : (0 : ℝ) < (goQ "exponential10" 0 0 : ℝ) := Rat.cast_pos.2 (by decide +kernel)
    have c2' : (goQ "exponential10" 0 0 : ℝ) ≤ 10 ^ 8 * (goQ "exponential10" K l : ℝ) := by
      have := (Rat.cast_le (K := ℝ)).2 c2
      push_cast at this
      exact this
    have hq : (0 : ℝ) < (goQ "exponential10" K l : ℝ) := by nlinarith
    unfold evidence at hi ⊢
    rw [List.map_cons, List.prod_cons, List.length_cons, List.count_cons]
    generalize (List.map (fun l => (goQ "exponential10" K l : ℝ)) ls).prod = E at *
    have e1 : (10 : ℝ) ^ (8 * (ls.length + 1)) = 10 ^ (8 * ls.length) * 10 ^ 8 := by rw [Nat.mul_add, pow_add, Nat.mul_one]
    rw [e1, pow_succ]
    by_cases e : l = K
    · subst e
      simp only [beq_self_eq_true, if_true]
      rw [Nat.mul_add, pow_add, Nat.mul_one]
      rw [c1]
      have := mul_le_mul_of_nonneg_right hi (show (0 : ℝ) ≤ (goQ "exponential10" 0 0 : ℝ) * 10 ^ 8 by positivity)
      nlinarith
    · have hb : (l == K) = false := by simp [e]
      simp only [hb, Bool.false_eq_true, if_false, Nat.add_zero]
      have h0 : (0 : ℝ) ≤ (goQ "exponential10" 0 0 : ℝ) ^ ls.length * 10 ^ (8 * ls.count K) := by positivity
      calc _ = (goQ "exponential10" 0 0 : ℝ) ^ ls.length * 10 ^ (8 * ls.count K) * (goQ "exponential10" 0 0 : ℝ) := by ring
        _ ≤ 10 ^ (8 * ls.length) * E * (10 ^ 8 * (goQ "exponential10" K l : ℝ)) := mul_le_mul hi c2' hs.le (h0.trans hi)
        _ = _ := by ring

/-- Every `K` costs another key a power of ten. -/
theorem evidence_other (K k : Int) (hk : k ∈ keys) (hne : k ≠ K) : ∀ ls : List Int, (∀ l ∈ ls, l ∈ keys) →
    10 ^ ls.count K * evidence (fun k l => (goQ "exponential10" k l : ℝ)) ls k ≤ (goQ "exponential10" 0 0 : ℝ) ^ ls.length := by
  intro ls
  induction ls with
  | nil => intro _; simp [evidence]
  | cons l ls ih =>
    intro h
    have hi := ih (fun x hx => h x (by simp [hx]))
    obtain ⟨c1, c2, c3, c4⟩ := stay_cost k hk l (h l (by simp))
    have hs : (0 : ℝ) < (goQ "exponential10" 0 0 : ℝ) := Rat.cast_pos.2 (by decide +kernel)
    have c2' : (goQ "exponential10" 0 0 : ℝ) ≤ 10 ^ 8 * (goQ "exponential10" k l : ℝ) := by
      have := (Rat.cast_le (K := ℝ)).2 c2
      push_cast at this
      exact this
    have hq : (0 : ℝ) < (goQ "exponential10" k l : ℝ) := by nlinarith
    have c3' : (goQ "exponential10" k l : ℝ) ≤ (goQ "exponential10" 0 0 : ℝ) := (Rat.cast_le (K := ℝ)).2 c3
    unfold evidence at hi ⊢
    rw [List.map_cons, List.prod_cons, List.length_cons, List.count_cons]
    have hE : (0 : ℝ) ≤ (List.map (fun l => (goQ "exponential10" k l : ℝ)) ls).prod := by
      refine List.prod_nonneg (fun x hx => ?_)
      obtain ⟨y, _, rfl⟩ := List.mem_map.1 hx
      have := (goQ_range (s := "exponential10") (by decide) k y).1
      exact Rat.cast_nonneg.2 (le_trans (by norm_num) this)
    generalize (List.map (fun l => (goQ "exponential10" k l : ℝ)) ls).prod = E at *
    rw [pow_succ (goQ "exponential10" 0 0 : ℝ)]
    by_cases e : l = K
    · subst e
      have c4' : 10 * (goQ "exponential10" k l : ℝ) ≤ (goQ "exponential10" 0 0 : ℝ) := by
        have := (Rat.cast_le (K := ℝ)).2 (c4 hne)
        push_cast at this
        exact this
      simp only [beq_self_eq_true, if_true]
      rw [pow_succ]
      calc _ = 10 ^ ls.count l * E * (10 * (goQ "exponential10" k l : ℝ)) := by ring
        _ ≤ _ := mul_le_mul hi c4' (by positivity) (by positivity)
    · have hb : (l == K) = false := by simp [e]
      simp only [hb, Bool.false_eq_true, if_false, Nat.add_zero]
      calc _ = 10 ^ ls.count K * E * (goQ "exponential10" k l : ℝ) := by ring
        _ ≤ _ := mul_le_mul hi c3' hq.le (by positivity)

theorem count_range (K : Int) (ls : List Int) (a n : Nat) (h : ∀ i, a ≤ i → i < a + n → ls[i]? = some K) :
    n ≤ ls.count K := by
  have e : (ls.drop a).take n = List.replicate n K := by
    refine List.ext_getElem? (fun i => ?_)
    by_cases hi : i < n
    · rw [List.getElem?_take_of_lt hi, List.getElem?_drop, h (a + i) (by omega) (by omega), List.getElem?_replicate, if_pos hi]
    · rw [List.getElem?_eq_none, List.getElem?_eq_none]
      · simp only [List.length_replicate]; omega
      · simp only [List.length_take]; omega
  have h1 : ((ls.drop a).take n).count K ≤ ls.count K :=
    ((List.take_sublist _ _).trans (List.drop_sublist _ _)).count_le K
  rwa [e, List.count_replicate_self] at h1

/-- **C133.**  In double arithmetic, with the default settings and whatever the hash order: when phrases of a key are played in the
middle of any music, the notes of all phrases but the first 16 and the last 16 get that key; at the beginning and at the end of a
piece no phrase is excepted.  If these notes are more than eight times as many as the others, the key of the piece is that key. -/
theorem C133_passage {η : ℝ} (lg : ℝ → RD) (hok : LogOk lg) (hlg : LogClose η lg) (hη : η ≤ (2 : ℝ) ^ (-30 : ℤ))
    (iter₁ iter₂ : Iter RD) (hi₁ : iter₁.Ok) (hi₂ : iter₂.Ok) (cfg : Config RD) (hc : Chosen cfg)
    (hT : cfg.keyTransition = "exponential10") (hM : cfg.majorKeyProfile = "sapp") (hm : cfg.minorKeyProfile = "sapp")
    (K : Int) (hK : IsKey K) (pre post : List Int) (hp : ∀ o ∈ pre ++ post, 0 ≤ o ∧ o < 12)
    (ps1 ps ps2 : List (List Nat)) (hps : ∀ p ∈ ps1 ++ ps ++ ps2, p ∈ if Spec.isMajor K then majorPhrases else minorPhrases)
    (h1 : pre = [] ∨ 16 ≤ ps1.length) (h2 : post = [] ∨ 16 ≤ ps2.length) (hne : pre ++ played K (ps1 ++ ps ++ ps2) ++ post ≠ [])
    (hn : (pre ++ played K (ps1 ++ ps ++ ps2) ++ post).length ≤ 2 ^ 19) :
    ∃ d, detect (ieee lg) iter₁ iter₂ cfg ((pre ++ played K (ps1 ++ ps ++ ps2) ++ post).map PitchClass.ofInt) = .ok (.ok d) ∧
      d.localKeys.length = (pre ++ played K (ps1 ++ ps ++ ps2) ++ post).length ∧
      (∀ i : Nat, (pre ++ played K ps1).length ≤ i → i < (pre ++ played K (ps1 ++ ps)).length →
        d.localKeys[i]? = some (Key.ofInt K)) ∧
      (8 * (pre ++ played K (ps1 ++ ps2) ++ post).length < (played K ps).length → d.mainKey = Key.ofInt K) := by
  have hr : ∀ o ∈ pre ++ played K (ps1 ++ ps ++ ps2) ++ post, 0 ≤ o ∧ o < 12 := by
    intro o ho
    rcases List.mem_append.1 ho with ho | ho
    · rcases List.mem_append.1 ho with ho | ho
      · exact hp o (by simp [ho])
      · exact played_range _ _ o ho
    · exact hp o (by simp [ho])
  obtain ⟨d, ls, k, hd, hloc, hll, hlk, hbest, hkey, hkk, hev, _⟩ := C121_program lg hok hlg iter₁ iter₂ hi₁ hi₂ cfg hc _ hr hne
    (hn.trans (by norm_num))
  have hs := slack_tenth hη _ hn
  have hs0 : (0 : ℝ) < (10 : ℝ) ^ (2 * slack η (pre ++ played K (ps1 ++ ps ++ ps2) ++ post).length) := Real.rpow_pos_of_pos (by norm_num) _
  obtain ⟨p1, p2⟩ := some_path hc _ (fun o ho => mem_pcs.2 (hr o ho)) hne
  have hpos : 0 < prob (book cfg) (pre ++ played K (ps1 ++ ps ++ ps2) ++ post) ls := by
    have := hbest _ rfl (fun k hk => mem_keys.1 (p1 k hk))
    by_contra hle
    have h0 := mul_nonpos_of_nonneg_of_nonpos hs0.le (not_lt.1 hle)
    linarith
  have hin : ∀ i : Nat, (pre ++ played K ps1).length ≤ i → i < (pre ++ played K (ps1 ++ ps)).length → ls[i]? = some K := by
    intro i hi1 hi2
    by_contra hlsne
    obtain ⟨ys, y1, y2, y3⟩ := C133_improvable cfg hc hT hM hm K hK pre post ps1 ps ps2 hps h1 h2 ls hll hlk i hi1 hi2 hlsne
    have hb := hbest ys y1 y2
    generalize (10 : ℝ) ^ (2 * slack η (pre ++ played K (ps1 ++ ps ++ ps2) ++ post).length) = c at *
    have b1 := mul_le_mul_of_nonneg_left hb (show (0 : ℝ) ≤ 9 / 10 by norm_num)
    have b2 := mul_lt_mul_of_pos_right hs hpos
    linarith
  refine ⟨d, hd, by rw [hloc, List.length_map, hll], fun i hi1 hi2 => ?_, fun hmaj => ?_⟩
  · rw [hloc, List.getElem?_map, hin i hi1 hi2]
    rfl
  · rw [hkey]
    by_contra hne'
    have hkK : k ≠ K := fun e => hne' (by rw [e])
    have hlk' : ∀ l ∈ ls, l ∈ keys := fun l h => mem_keys.2 (hlk l h)
    have hcount : (played K ps).length ≤ ls.count K := by
      refine count_range K ls (pre ++ played K ps1).length _ (fun i hi1 hi2 => hin i hi1 ?_)
      simp only [played_append, List.length_append] at hi2 ⊢
      omega
    have a1 := evidence_home K (mem_keys.2 hK) ls hlk'
    have a2 := evidence_other K k (mem_keys.2 hkk) hkK ls hlk'
    have a3 := hev K hK
    rw [hT] at a3
    have hlen : 8 * ls.length + 1 ≤ 9 * ls.count K := by
      rw [hll]
      simp only [played_append, List.length_append] at hmaj ⊢
      have := List.count_le_length (l := ls) (a := K)
      omega
    have hsp : (0 : ℝ) < (goQ "exponential10" 0 0 : ℝ) := Rat.cast_pos.2 (by decide +kernel)
    generalize (10 : ℝ) ^ (2 * slack η (pre ++ played K (ps1 ++ ps ++ ps2) ++ post).length) = c at *
    generalize evidence (fun k l => (goQ "exponential10" k l : ℝ)) ls K = EK at *
    generalize evidence (fun k l => (goQ "exponential10" k l : ℝ)) ls k = Ek at *
    have hS : (0 : ℝ) < (goQ "exponential10" 0 0 : ℝ) ^ ls.length := by positivity
    generalize (goQ "exponential10" 0 0 : ℝ) ^ ls.length = s at *
    have b1 : s * 10 ^ (8 * ls.count K) * 10 ^ ls.count K ≤ 10 ^ (8 * ls.length) * (c * s) := by
      calc s * 10 ^ (8 * ls.count K) * 10 ^ ls.count K ≤ 10 ^ (8 * ls.length) * EK * 10 ^ ls.count K :=
            mul_le_mul_of_nonneg_right a1 (by positivity)
        _ ≤ 10 ^ (8 * ls.length) * (c * Ek) * 10 ^ ls.count K :=
            mul_le_mul_of_nonneg_right (mul_le_mul_of_nonneg_left a3 (by positivity)) (by positivity)
        _ = 10 ^ (8 * ls.length) * (c * (10 ^ ls.count K * Ek)) := by ring
        _ ≤ 10 ^ (8 * ls.length) * (c * s) :=
            mul_le_mul_of_nonneg_left (mul_le_mul_of_nonneg_left a2 hs0.le) (by positivity)
    have b2 : (10 : ℝ) ^ (8 * ls.length) * 10 ≤ 10 ^ (8 * ls.count K) * 10 ^ ls.count K := by
      rw [← pow_succ, ← pow_add]
      exact pow_le_pow_right₀ (by norm_num) (by omega)
    have b3 := mul_le_mul_of_nonneg_left b2 hS.le
    have b4 : s * (10 ^ (8 * ls.length) * 10) ≤ 10 ^ (8 * ls.length) * (c * s) := b3.trans (by linarith)
    have b5 : (0 : ℝ) < s * 10 ^ (8 * ls.length) := by positivity
    have b6 : s * 10 ^ (8 * ls.length) * 10 ≤ s * 10 ^ (8 * ls.length) * c := by linarith
    have b7 := le_of_mul_le_mul_left b6 b5
    linarith

/-- **C133, whole program.**  It prints the key in which more than eight ninths of the piece are. -/
theorem C133_main {S P T : Type} {η : ℝ} (lg : ℝ → RD) (hok : LogOk lg) (hlg : LogClose η lg) (hη : η ≤ (2 : ℝ) ^ (-30 : ℤ))
    (E : Env RD S P T) (hF : E.F = ieee lg) (hi₁ : HMM.Iter.Ok E.iter₁) (hi₂ : HMM.Iter.Ok E.iter₂)
    (hj : E.junkMajor.length = 12 ∧ E.junkMinor.length = 12 ∧ E.junkTransition.length = 24)
    (o : Options) (ho : o.Valid) (hk : o.customkeyprofiles = none) (ht : o.customkeytransitions = none)
    (he : o.evaluate = false) (hpr : o.probabilities = false) (hT : o.keytransition = "exponential10")
    (hM : o.majorprofile = "sapp") (hm : o.minorprofile = "sapp") (p : Parsed RD) (hparse : parseArgs E (.ok o) = .ok (.ok p))
    (K : Int) (hK : IsKey K) (pre post : List Int) (hp : ∀ o ∈ pre ++ post, 0 ≤ o ∧ o < 12)
    (ps1 ps ps2 : List (List Nat)) (hps : ∀ p ∈ ps1 ++ ps ++ ps2, p ∈ if Spec.isMajor K then majorPhrases else minorPhrases)
    (h1 : pre = [] ∨ 16 ≤ ps1.length) (h2 : post = [] ∨ 16 ≤ ps2.length)
    (hmaj : 8 * (pre ++ played K (ps1 ++ ps2) ++ post).length < (played K ps).length)
    (hn : (pre ++ played K (ps1 ++ ps ++ ps2) ++ post).length ≤ 2 ^ 19)
    (hread : readInput E p = .ok (.ok ((pre ++ played K (ps1 ++ ps ++ ps2) ++ post).map PitchClass.ofInt))) :
    ∃ name : Str, noteName (name.map Char.toLower) = some (tonic K) ∧
      main E (.ok o) = .ok { stdout := name ++ '\t' :: (if Spec.isMajor K then "major".toList else "minor".toList) ++ ['\n']
                             stderr := [], code := 0 } := by
  obtain ⟨hcfg, hp1, hp2⟩ := parse_cfg E o p hk ht hparse
  have hch : Chosen p.cfg := by
    rw [hcfg]
    exact ⟨⟨hj.2.2, hj.1, hj.2.1⟩, ho.major, ho.minor, ho.trans⟩
  have hne : pre ++ played K (ps1 ++ ps ++ ps2) ++ post ≠ [] := by
    intro e
    have := congrArg List.length e
    simp only [played_append, List.length_append, List.length_nil] at this
    omega
  obtain ⟨d, hd, _, _, hmain⟩ := C133_passage lg hok hlg hη E.iter₁ E.iter₂ hi₁ hi₂ p.cfg hch (by rw [hcfg]; exact hT)
    (by rw [hcfg]; exact hM) (by rw [hcfg]; exact hm) K hK pre post hp ps1 ps ps2 hps h1 h2 hne hn
  obtain ⟨name, hl, _, hname⟩ := C39_line K hK
  refine ⟨name, hname, ?_⟩
  have hpr' : printResult E p d = keyLine (Key.ofInt K) := by
    simp [printResult, hp1, hp2, he, hpr, hmain hmaj]
  have hmode : (if Spec.isMajor K then "major".toList else "minor".toList) =
      if K < 12 then "major".toList else "minor".toList := by
    unfold Spec.isMajor
    by_cases h : K < 12 <;> simp [h]
  simp only [main, hparse, hread, Res.bind_ok, hF, hd, hpr', hl, Res.pure_eq, hmode]

/-- **C133, changes of key.**  Phrases of one key, then phrases of another: all phrases but the last 16 of the first part have its
key, all but the first 16 of the second part have the other. -/
theorem C133_modulation {η : ℝ} (lg : ℝ → RD) (hok : LogOk lg) (hlg : LogClose η lg) (hη : η ≤ (2 : ℝ) ^ (-30 : ℤ))
    (iter₁ iter₂ : Iter RD) (hi₁ : iter₁.Ok) (hi₂ : iter₂.Ok) (cfg : Config RD) (hc : Chosen cfg)
    (hT : cfg.keyTransition = "exponential10") (hM : cfg.majorKeyProfile = "sapp") (hm : cfg.minorKeyProfile = "sapp")
    (K L : Int) (hK : IsKey K) (hL : IsKey L) (ps ps' qs' qs : List (List Nat))
    (hps : ∀ p ∈ ps ++ ps', p ∈ if Spec.isMajor K then majorPhrases else minorPhrases)
    (hqs : ∀ p ∈ qs' ++ qs, p ∈ if Spec.isMajor L then majorPhrases else minorPhrases)
    (h1 : ps'.length = 16) (h2 : qs'.length = 16)
    (hn : (played K (ps ++ ps') ++ played L (qs' ++ qs)).length ≤ 2 ^ 19) :
    ∃ d, detect (ieee lg) iter₁ iter₂ cfg ((played K (ps ++ ps') ++ played L (qs' ++ qs)).map PitchClass.ofInt) = .ok (.ok d) ∧
      (∀ i : Nat, i < (played K ps).length → d.localKeys[i]? = some (Key.ofInt K)) ∧
      ∀ i : Nat, (played K (ps ++ ps') ++ played L qs').length ≤ i → i < (played K (ps ++ ps') ++ played L (qs' ++ qs)).length →
        d.localKeys[i]? = some (Key.ofInt L) := by
  have hne : played K (ps ++ ps') ++ played L (qs' ++ qs) ≠ [] := by
    match ps', h1 with
    | p :: ps', _ =>
      have hp := hps p (by simp)
      have hpne : p ≠ [] := by
        split at hp
        · exact (major_small p hp).1
        · exact (minor_small p hp).1
      intro e
      rw [List.append_eq_nil_iff] at e
      have e := e.1
      rw [played_append, List.append_eq_nil_iff] at e
      have e := e.2
      unfold played at e
      simp only [List.map_eq_nil_iff, List.flatten_cons, List.append_eq_nil_iff] at e
      exact hpne e.1
  obtain ⟨d, hd, _, hk1, _⟩ := C133_passage lg hok hlg hη iter₁ iter₂ hi₁ hi₂ cfg hc hT hM hm K hK [] (played L (qs' ++ qs))
    (fun o ho => played_range L _ o (by simpa using ho)) [] ps ps' (by simpa using hps) (Or.inl rfl) (Or.inr (by omega))
    (by simpa using hne) (by simpa using hn)
  obtain ⟨d', hd', _, hk2, _⟩ := C133_passage lg hok hlg hη iter₁ iter₂ hi₁ hi₂ cfg hc hT hM hm L hL (played K (ps ++ ps')) []
    (fun o ho => played_range K _ o (by simpa using ho)) qs' qs [] (by simpa using hqs) (Or.inr (by omega)) (Or.inl rfl)
    (by simpa using hne) (by simpa using hn)
  simp only [List.nil_append, List.append_nil] at hd hd' hk1 hk2
  rw [hd] at hd'
  cases hd'
  refine ⟨d, hd, fun i hi => hk1 i (by simp [played]) hi, hk2⟩

/-! ### A case -/

/-- The default settings. -/
noncomputable def sapped : Config RD := { plain with majorKeyProfile := "sapp", minorKeyProfile := "sapp" }

theorem sapped_chosen : Chosen sapped := ⟨⟨by simp [sapped, plain], by simp [sapped, plain], by simp [sapped, plain]⟩, by decide, by decide, by decide⟩

/-- Twenty broken triads in C major, then twenty in F sharp minor: the first four and the last four are found. -/
example (iter₁ iter₂ : Iter RD) (hi₁ : iter₁.Ok) (hi₂ : iter₂.Ok) :
    ∃ d, detect (ieee (fun r => rnd64 (Real.logb 10 r))) iter₁ iter₂ sapped
        ((played 0 (List.replicate 4 [0, 4, 7, 0] ++ List.replicate 16 [0, 4, 7, 0]) ++
          played 18 (List.replicate 16 [0, 3, 7, 0] ++ List.replicate 4 [0, 3, 7, 0])).map PitchClass.ofInt) = .ok (.ok d) ∧
      d.localKeys[0]? = some (Key.ofInt 0) ∧ d.localKeys[15]? = some (Key.ofInt 0) ∧ d.localKeys[144]? = some (Key.ofInt 18) ∧
      d.localKeys[159]? = some (Key.ofInt 18) := by
  obtain ⟨d, hd, h1, h2⟩ := C133_modulation _ logOk_rounded logClose_rounded (zpow_le_zpow_right₀ (by norm_num) (by norm_num))
    iter₁ iter₂ hi₁ hi₂ sapped sapped_chosen rfl rfl rfl 0 18 (by decide) (by decide) (List.replicate 4 [0, 4, 7, 0])
    (List.replicate 16 [0, 4, 7, 0]) (List.replicate 16 [0, 3, 7, 0]) (List.replicate 4 [0, 3, 7, 0])
    (by decide) (by decide) rfl rfl (by decide +kernel)
  exact ⟨d, hd, h1 0 (by decide +kernel), h1 15 (by decide +kernel), h2 144 (by decide +kernel) (by decide +kernel),
    h2 159 (by decide +kernel) (by decide +kernel)⟩

end JKD.Phrases
