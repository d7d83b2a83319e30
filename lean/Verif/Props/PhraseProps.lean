import Verif.Spec.Phrases
import Verif.FP.Potential
import Verif.Lemmas.PhraseTable
import Verif.Props.KeyRoundProps
import Verif.Props.TransposeProps
import Verif.Props.ScriptMoveProps
import Mathlib.Tactic.Linarith
import Mathlib.Tactic.Positivity
/-
C125: pieces made of scales, broken chords and cadences get their key.
-/

namespace JKD.Phrases

open Spec HMM RD Detect Main

/-! ### What the computation says -/

theorem force_eq {β : Type} (n : Nat) (k : Nat → β) : force n k = k n := by cases n <;> rfl

theorem colMax_spec : ∀ (V g : List Nat) (acc : Nat), acc ≤ colMax acc V g ∧
    ∀ i, V.getD i 0 * g.getD i 0 ≤ colMax acc V g := by
  intro V
  induction V with
  | nil => intro g acc; simp [colMax]
  | cons v vs ih =>
    intro g acc
    cases g with
    | nil => simp [colMax]
    | cons g gs =>
      rw [colMax, force_eq]
      obtain ⟨h1, h2⟩ := ih gs (acc + (v * g - acc))
      refine ⟨by omega, fun i => ?_⟩
      cases i with
      | zero => simp only [List.getD_cons_zero]; omega
      | succ i => simpa only [List.getD_cons_succ] using h2 i

theorem next_spec (acc : Nat) (V : List Nat) (d : Nat) (hd : 0 < d) : ∀ (G : List (List Nat)) (e : List Nat)
    (cont : List Nat → Bool), next acc V d G e cont = true → ∃ V', cont V' = true ∧
      ∀ i, i < G.length → colMax acc V (G.getD i []) * e.getD i 0 ≤ V'.getD i 0 * d := by
  intro G
  induction G with
  | nil => intro e cont h; exact ⟨[], by simpa [next] using h, fun i hi => absurd hi (by simp)⟩
  | cons g gs ih =>
    intro e cont h
    cases e with
    | nil => exact ⟨[], by simpa [next] using h, fun i _ => by simp⟩
    | cons e es =>
      rw [next, force_eq] at h
      obtain ⟨V', h1, h2⟩ := ih es _ h
      refine ⟨_, h1, fun i hi => ?_⟩
      cases i with
      | zero =>
        simp only [List.getD_cons_zero]
        generalize colMax acc V g * e = n
        have := Nat.div_add_mod (n + (d - 1)) d
        have := Nat.mod_lt (n + (d - 1)) hd
        rw [Nat.mul_comm]
        omega
      | succ i => simpa only [List.getD_cons_succ] using h2 i (by simpa using hi)

theorem below_spec : ∀ (V U : List Nat), below V U = true → ∀ i, V.getD i 0 ≤ U.getD i 0 := by
  intro V
  induction V with
  | nil => intro U _ i; simp
  | cons v vs ih =>
    intro U h i
    cases U with
    | nil => simp [below] at h
    | cons u us =>
      simp only [below, Bool.and_eq_true] at h
      cases i with
      | zero => simpa using Nat.le_of_ble_eq_true h.1
      | succ i => simpa only [List.getD_cons_succ] using ih us h.2 i

/-! ### The tables -/

theorem go_nat : ∀ j ∈ keys, ∀ k ∈ keys,
    goQ "exponential10" j k = ((goTable.getD k.toNat []).getD j.toNat 0 : Nat) / 144442221 := by decide +kernel

theorem play_nat : ∀ M ∈ profileChoices, ∀ m ∈ profileChoices, ∀ k ∈ keys, ∀ o ∈ List.range 12,
    playQ M m k (o : Nat) = ((play (majNat M) (minNat m) o).getD k.toNat 0 : Nat) / 10 ^ 22 := by decide +kernel

theorem go_stay : ∀ k ∈ List.range 24, (goTable.getD k []).getD k 0 = 100000000 := by decide +kernel

/-! ### Moving to another tonic -/

theorem goQ_moved (s : String) (t j k : Int) (hj : j ∈ keys) (hk : k ∈ keys) :
    goQ s (transposeKey t j) (transposeKey t k) = goQ s j k := by
  unfold goQ
  rw [slot_transpose t j k (mem_keys.1 hj) (mem_keys.1 hk)]

theorem playQ_moved (M m : String) (t k o : Int) : playQ M m (transposeKey t k) (transposePc t o) = playQ M m k o :=
  emis_transpose _ _ _ t k o

/-- The place of a key relative to a tonic. -/
def rel (t k : Int) : Nat := (transposeKey (-t) k).toNat

/-- Potentials relative to a tonic. -/
noncomputable def pot (t : Int) (V : List Nat) (k : Int) : ℝ := (V.getD (rel t k) 0 : Nat) / 1000

theorem rel_lt (t k : Int) : rel t k < 24 := by
  have := mem_keys.1 (transposeKey_mem (-t) (n := k))
  unfold IsKey at this
  unfold rel
  omega

theorem rel_int (t k : Int) : ((rel t k : Nat) : Int) = transposeKey (-t) k := by
  have := mem_keys.1 (transposeKey_mem (-t) (n := k))
  unfold IsKey at this
  unfold rel
  omega

theorem rel_inj (t : Int) {j k : Int} (hj : j ∈ keys) (hk : k ∈ keys) (h : rel t j = rel t k) : j = k := by
  refine transposeKey_inj (-t) j hj k hk ?_
  rw [← rel_int, ← rel_int, h]

theorem back_again (t k : Int) (hk : k ∈ keys) : transposeKey t (transposeKey (-t) k) = k := by
  rw [mem_keys] at hk
  unfold IsKey at hk
  unfold transposeKey Spec.isMajor tonic
  by_cases h1 : k < 12
  · simp only [h1, decide_true, if_true]
    split <;> rename_i h <;> simp only [decide_eq_true_eq] at h <;> omega
  · simp only [h1, decide_false, Bool.false_eq_true, if_false]
    split <;> rename_i h <;> simp only [decide_eq_true_eq] at h <;> omega

/-- The tonic of the key, and the key itself, relative to it. -/
theorem rel_self (K : Int) : rel (tonic K) K = if Spec.isMajor K then 0 else 12 := by
  unfold rel transposeKey Spec.isMajor tonic
  by_cases h1 : K < 12 <;> simp only [h1, decide_true, decide_false, if_true, Bool.false_eq_true, if_false] <;> omega

section
variable {cfg : Config RD} (hT : cfg.keyTransition = "exponential10") (hc : Chosen cfg)

include hT in
theorem book_go (t j k : Int) (hj : j ∈ keys) (hk : k ∈ keys) :
    (book cfg).trans j k = ((goTable.getD (rel t k) []).getD (rel t j) 0 : Nat) / 144442221 := by
  simp only [book, hj, hk, and_self, if_true, hT]
  rw [← back_again t j hj, ← back_again t k hk, goQ_moved _ _ _ _ (transposeKey_mem _) (transposeKey_mem _),
    go_nat _ (transposeKey_mem _) _ (transposeKey_mem _), back_again t j hj, back_again t k hk]
  unfold rel
  push_cast
  rfl

include hc in
theorem book_play (t k : Int) (o : Nat) (ho : o < 12) (hk : k ∈ keys) :
    (book cfg).emis k ((t + o) % 12) = ((play (majNat cfg.majorKeyProfile) (minNat cfg.minorKeyProfile) o).getD (rel t k) 0 : Nat) /
      10 ^ 22 := by
  have hp : ((t + o) % 12 : Int) ∈ pcs := by rw [mem_pcs]; omega
  have e : ((t + o) % 12 : Int) = transposePc t o := by unfold transposePc; rw [Int.add_comm]
  simp only [book, hk, hp, and_self, if_true]
  rw [e]
  conv_lhs => rw [← back_again t k hk, playQ_moved]
  rw [play_nat _ hc.major _ hc.minor _ (transposeKey_mem _) o (List.mem_range.2 ho)]
  unfold rel
  push_cast
  rfl

include hT hc in
/-- One note of a phrase. -/
theorem step_sound (t K : Int) (hK : K ∈ keys) (o : Nat) (ho : o < 12) (acc : Nat) (V : List Nat) (hb : backOk (rel t K) V = true)
    (hd : 0 < 100000000 * (play (majNat cfg.majorKeyProfile) (minNat cfg.minorKeyProfile) o).getD (rel t K) 0)
    (cont : List Nat → Bool)
    (h : next acc V (100000000 * (play (majNat cfg.majorKeyProfile) (minNat cfg.minorKeyProfile) o).getD (rel t K) 0) goTable
      (play (majNat cfg.majorKeyProfile) (minNat cfg.minorKeyProfile) o) cont = true) :
    ∃ V', cont V' = true ∧ PotStep (book cfg) K (9 / 10) (pot t V) (pot t V') ((t + o) % 12) ∧
      (acc = 1000 * 100000000 → ∀ k ∈ keys,
        (book cfg).emis k ((t + o) % 12) ≤ pot t V' k * (book cfg).emis K ((t + o) % 12)) := by
  obtain ⟨V', h1, h2⟩ := next_spec acc V _ hd goTable _ cont h
  have hl : goTable.length = 24 := by decide
  have hs : (goTable.getD (rel t K) []).getD (rel t K) 0 = 100000000 := go_stay _ (List.mem_range.2 (rel_lt t K))
  refine ⟨V', h1, ⟨fun j hj k hk => ?_, fun j hj hne => ?_⟩, fun hacc k hk => ?_⟩
  · rw [book_go hT t j k hj hk, book_go hT t K K hK hK, book_play hc t k o ho hk, book_play hc t K o ho hK, hs]
    have h3 := h2 (rel t k) (by rw [hl]; exact rel_lt t k)
    have h4 := (colMax_spec V (goTable.getD (rel t k) []) acc).2 (rel t j)
    have h5 := (Nat.mul_le_mul_right _ h4).trans h3
    unfold pot
    generalize V.getD (rel t j) 0 = v at *
    generalize (goTable.getD (rel t k) []).getD (rel t j) 0 = g at *
    generalize (play (majNat cfg.majorKeyProfile) (minNat cfg.minorKeyProfile) o).getD (rel t k) 0 = e at *
    generalize (play (majNat cfg.majorKeyProfile) (minNat cfg.minorKeyProfile) o).getD (rel t K) 0 = d at *
    generalize V'.getD (rel t k) 0 = w at *
    have h6 : ((v * g * e : Nat) : ℝ) ≤ ((w * (100000000 * d) : Nat) : ℝ) := Nat.cast_le.2 h5
    push_cast at h6 ⊢
    have e1 : (v : ℝ) / 1000 * (g / 144442221 * (e / 10 ^ 22)) = v * g * e * (1 / (1000 * 144442221 * 10 ^ 22)) := by ring
    have e2 : (w : ℝ) / 1000 * (100000000 / 144442221 * (d / 10 ^ 22)) =
        w * (100000000 * d) * (1 / (1000 * 144442221 * 10 ^ 22)) := by ring
    rw [e1, e2]
    exact mul_le_mul_of_nonneg_right h6 (by positivity)
  · rw [book_go hT t j K hj hK, book_go hT t K K hK hK, hs]
    unfold backOk at hb
    have h3 := Nat.le_of_ble_eq_true hb
    have h4 := (colMax_spec (V.set (rel t K) 0) (goTable.getD (rel t K) []) 0).2 (rel t j)
    have hne' : rel t K ≠ rel t j := fun e => hne (rel_inj t hK hj e).symm
    have h5 : (V.set (rel t K) 0).getD (rel t j) 0 = V.getD (rel t j) 0 := by
      simp only [List.getD_eq_getElem?_getD]
      rw [List.getElem?_set_ne hne']
    rw [h5] at h4
    unfold pot
    generalize V.getD (rel t j) 0 = v at *
    generalize (goTable.getD (rel t K) []).getD (rel t j) 0 = g at *
    generalize colMax 0 (V.set (rel t K) 0) (goTable.getD (rel t K) []) = c at *
    have h6 : 10 * (v * g) ≤ 9 * 1000 * 100000000 := (Nat.mul_le_mul_left 10 h4).trans h3
    have h7 : ((10 * (v * g) : Nat) : ℝ) ≤ ((9 * 1000 * 100000000 : Nat) : ℝ) := Nat.cast_le.2 h6
    push_cast at h7 ⊢
    have e1 : (v : ℝ) / 1000 * (g / 144442221) = 10 * (v * g) * (1 / (10000 * 144442221)) := by ring
    have e2 : (9 : ℝ) / 10 * (100000000 / 144442221) = 900000000000 * (1 / (10000 * 144442221)) := by norm_num
    rw [e1, e2]
    exact mul_le_mul_of_nonneg_right h7 (by positivity)
  · rw [book_play hc t k o ho hk, book_play hc t K o ho hK]
    have h3 := h2 (rel t k) (by rw [hl]; exact rel_lt t k)
    have h4 := (colMax_spec V (goTable.getD (rel t k) []) acc).1
    have h5 := (Nat.mul_le_mul_right _ h4).trans h3
    rw [hacc] at h5
    unfold pot
    generalize (play (majNat cfg.majorKeyProfile) (minNat cfg.minorKeyProfile) o).getD (rel t k) 0 = e at *
    generalize (play (majNat cfg.majorKeyProfile) (minNat cfg.minorKeyProfile) o).getD (rel t K) 0 = d at *
    generalize V'.getD (rel t k) 0 = w at *
    have h6 : 1000 * e ≤ w * d := by
      have : 100000000 * (1000 * e) ≤ 100000000 * (w * d) := by
        calc 100000000 * (1000 * e) = 1000 * 100000000 * e := by ring
          _ ≤ w * (100000000 * d) := h5
          _ = 100000000 * (w * d) := by ring
      omega
    have h7 : ((1000 * e : Nat) : ℝ) ≤ ((w * d : Nat) : ℝ) := Nat.cast_le.2 h6
    push_cast at h7
    have e1 : (e : ℝ) / 10 ^ 22 = 1000 * e * (1 / (1000 * 10 ^ 22)) := by ring
    have e2 : (w : ℝ) / 1000 * (d / 10 ^ 22) = w * d * (1 / (1000 * 10 ^ 22)) := by ring
    rw [e1, e2]
    exact mul_le_mul_of_nonneg_right h7 (by positivity)

include hc in
theorem play_pos (t K : Int) (hK : K ∈ keys) (o : Nat) (ho : o < 12)
    (hd : 0 < 100000000 * (play (majNat cfg.majorKeyProfile) (minNat cfg.minorKeyProfile) o).getD (rel t K) 0) :
    0 < (book cfg).emis K ((t + o) % 12) := by
  rw [book_play hc t K o ho hK]
  have : 0 < (play (majNat cfg.majorKeyProfile) (minNat cfg.minorKeyProfile) o).getD (rel t K) 0 := by omega
  have : (0 : ℝ) < ((play (majNat cfg.majorKeyProfile) (minNat cfg.minorKeyProfile) o).getD (rel t K) 0 : Nat) := Nat.cast_pos.2 this
  positivity

include hT hc in
theorem walk_sound (t K : Int) (hK : K ∈ keys) (U : List Nat) : ∀ (os : List Nat) (V : List Nat), (∀ o ∈ os, o < 12) →
    walk (majNat cfg.majorKeyProfile) (minNat cfg.minorKeyProfile) (rel t K) U V os = true →
    Leads (book cfg) K (9 / 10) (pot t V) (os.map (fun x : Nat => (t + (x : Int)) % 12)) (pot t U) ∧
      ∀ o ∈ os, 0 < (book cfg).emis K ((t + o) % 12) := by
  intro os
  induction os with
  | nil =>
    intro V _ h
    refine ⟨.stop (fun k hk => ?_), by simp⟩
    have := below_spec V U (by simpa [walk] using h) (rel t k)
    unfold pot
    exact div_le_div_of_nonneg_right (Nat.cast_le.2 this) (by norm_num)
  | cons o os ih =>
    intro V ho h
    rw [walk, Bool.and_eq_true, force_eq, Bool.and_eq_true] at h
    obtain ⟨hb, hd, hn⟩ := h
    have hd : 0 < 100000000 * (play (majNat cfg.majorKeyProfile) (minNat cfg.minorKeyProfile) o).getD (rel t K) 0 :=
      Nat.le_of_ble_eq_true hd
    obtain ⟨V', h1, h2, _⟩ := step_sound hT hc t K hK o (ho o (by simp)) 0 V hb hd _ hn
    obtain ⟨h3, h4⟩ := ih V' (fun x hx => ho x (by simp [hx])) h1
    refine ⟨.step h2 h3, fun x hx => ?_⟩
    rcases List.mem_cons.1 hx with rfl | hx
    · exact play_pos hc t K hK x (ho x (by simp)) hd
    · exact h4 x hx

/-- What is known about a phrase. -/
structure Good (cfg : Config RD) (t K : Int) (U : List Nat) (p : List Nat) : Prop where
  later : Leads (book cfg) K (9 / 10) (pot t U) (p.map (fun x : Nat => (t + (x : Int)) % 12)) (pot t U)
  first : ∃ o os V, p = o :: os ∧ (∀ k ∈ keys, (book cfg).emis k ((t + (o : Nat)) % 12) ≤ pot t V k * (book cfg).emis K ((t + o) % 12)) ∧
    Leads (book cfg) K (9 / 10) (pot t V) (os.map (fun x : Nat => (t + (x : Int)) % 12)) (pot t U)
  pos : ∀ o ∈ p, 0 < (book cfg).emis K ((t + (o : Nat)) % 12)

include hT hc in
theorem phrase_sound (t K : Int) (hK : K ∈ keys) (U p : List Nat) (hp : p ≠ []) (ho : ∀ o ∈ p, o < 12)
    (h : phraseOk (majNat cfg.majorKeyProfile) (minNat cfg.minorKeyProfile) (rel t K) U p = true) : Good cfg t K U p := by
  match p with
  | o :: os =>
    rw [phraseOk, Bool.and_eq_true, force_eq, Bool.and_eq_true] at h
    obtain ⟨hb, hd, hn⟩ := h
    have hd : 0 < 100000000 * (play (majNat cfg.majorKeyProfile) (minNat cfg.minorKeyProfile) o).getD (rel t K) 0 :=
      Nat.le_of_ble_eq_true hd
    obtain ⟨V', h1, h2, h5⟩ := step_sound hT hc t K hK o (ho o (by simp)) _ U hb hd _ hn
    obtain ⟨h3, h4⟩ := walk_sound hT hc t K hK U os V' (fun x hx => ho x (by simp [hx])) h1
    refine ⟨.step h2 h3, ⟨o, os, V', rfl, h5 rfl, h3⟩, fun x hx => ?_⟩
    rcases List.mem_cons.1 hx with rfl | hx
    · exact play_pos hc t K hK x (ho x (by simp)) hd
    · exact h4 x hx

include hT in
omit hc in
/-- A piece of good phrases is in its key. -/
theorem piece_sound (hnn : NonNeg (book cfg)) (t K : Int) (hK : K ∈ keys) (U : List Nat)
    (hU : ∀ i < 24, i ≠ rel t K → U.getD i 0 ≤ 900) (ps : List (List Nat)) (hne : ps ≠ []) (hg : ∀ p ∈ ps, Good cfg t K U p) :
    let os := ps.flatten.map (fun x : Nat => (t + (x : Int)) % 12)
    os ≠ [] ∧ 0 < prob (book cfg) os (List.replicate os.length K) ∧
    ∀ ks : List Int, ks.length = os.length → (∀ k ∈ ks, k ∈ keys) → ks ≠ List.replicate os.length K →
      prob (book cfg) os ks ≤ 9 / 10 * prob (book cfg) os (List.replicate os.length K) := by
  match ps with
  | p :: ps =>
    obtain ⟨o, os, V, rfl, h0, hl⟩ := (hg p (by simp)).first
    have rest : ∀ qs : List (List Nat), (∀ q ∈ qs, Good cfg t K U q) →
        Leads (book cfg) K (9 / 10) (pot t U) (qs.flatten.map (fun x : Nat => (t + (x : Int)) % 12)) (pot t U) := by
      intro qs
      induction qs with
      | nil => intro _; exact .stop (fun _ _ => le_refl _)
      | cons q qs ih =>
        intro h
        rw [List.flatten_cons, List.map_append]
        exact (h q (by simp)).later.append hnn (ih (fun x hx => h x (by simp [hx])))
    have hall := hl.append hnn (rest ps (fun q hq => hg q (by simp [hq])))
    have hW : ∀ k ∈ keys, k ≠ K → pot t U k ≤ 9 / 10 := by
      intro k hk hkK
      have := hU (rel t k) (rel_lt t k) (fun e => hkK (rel_inj t hk hK e))
      have : ((U.getD (rel t k) 0 : Nat) : ℝ) ≤ ((900 : Nat) : ℝ) := Nat.cast_le.2 this
      unfold pot
      push_cast at this
      linarith
    have hinit : ∀ k ∈ keys, (book cfg).init k = 1 / 24 := by intro k hk; simp [book, hk]
    simp only [List.flatten_cons, List.cons_append, List.map_cons, List.map_append]
    refine ⟨by simp, ?_, fun ks hkl hkk hkne => ?_⟩
    · refine prob_const_pos K ?_ ?_ _ (by simp) ?_
      · rw [book_go hT t K K hK hK, go_stay _ (List.mem_range.2 (rel_lt t K))]
        norm_num
      · rw [hinit K hK]
        norm_num
      · intro q hq
        have : q ∈ ((o :: os) :: ps).flatten.map (fun x : Nat => (t + (x : Int)) % 12) := by
          simpa only [List.flatten_cons, List.cons_append, List.map_cons, List.map_append] using hq
        obtain ⟨x, hx, rfl⟩ := List.mem_map.1 this
        obtain ⟨p, hp, hxp⟩ := List.mem_flatten.1 hx
        exact (hg p hp).pos x hxp
    · refine hall.decided hnn hW hK (fun k hk => ?_) ks hkl hkk hkne
      rw [hinit k hk, hinit K hK]
      have := h0 k hk
      nlinarith
end

/-! ### The phrases -/

theorem major_small : ∀ p ∈ majorPhrases, p ≠ [] ∧ ∀ o ∈ p, o < 12 := by decide
theorem minor_small : ∀ p ∈ minorPhrases, p ≠ [] ∧ ∀ o ∈ p, o < 12 := by decide

theorem majorPot_small : ∀ i < 24, i ≠ 0 → majorPot.getD i 0 ≤ 900 := by decide
theorem minorPot_small : ∀ i < 24, i ≠ 12 → minorPot.getD i 0 ≤ 900 := by decide

theorem all_checked (M m : String) (hM : M ∈ profileChoices) (hm : m ∈ profileChoices)
    (hp : M = "krumhansl_kessler" ↔ m = "krumhansl_kessler") :
    (∀ p ∈ majorPhrases, phraseOk (majNat M) (minNat m) 0 majorPot p = true) ∧
    ∀ p ∈ minorPhrases, phraseOk (majNat M) (minNat m) 12 minorPot p = true := by
  obtain ⟨h1, h2⟩ := all_ok M m hM hm hp
  exact ⟨List.all_eq_true.1 h1, List.all_eq_true.1 h2⟩

/-- **C125, the music.**  For pieces of any length: staying in the key is more probable than every other sequence of keys. -/
theorem C125_most_probable (cfg : Config RD) (hc : Chosen cfg) (hT : cfg.keyTransition = "exponential10")
    (hp : cfg.majorKeyProfile = "krumhansl_kessler" ↔ cfg.minorKeyProfile = "krumhansl_kessler") (K : Int) (hK : IsKey K)
    (os : List Int) (h : Textbook K os) :
    os ≠ [] ∧ (∀ o ∈ os, 0 ≤ o ∧ o < 12) ∧ 0 < prob (book cfg) os (List.replicate os.length K) ∧
    ∀ ks : List Int, ks.length = os.length → (∀ k ∈ ks, IsKey k) → ks ≠ List.replicate os.length K →
      prob (book cfg) os ks ≤ 9 / 10 * prob (book cfg) os (List.replicate os.length K) := by
  obtain ⟨ps, hne, hps, rfl⟩ := h
  have hnn : NonNeg (book cfg) := (stored1 (fun _ => nan) cfg hc []).nonneg
  obtain ⟨c1, c2⟩ := all_checked _ _ hc.major hc.minor hp
  have hk : K ∈ keys := mem_keys.2 hK
  have key : ∃ U, (∀ i < 24, i ≠ rel (tonic K) K → U.getD i 0 ≤ 900) ∧ ∀ p ∈ ps, Good cfg (tonic K) K U p := by
    have hr := rel_self K
    by_cases hm : Spec.isMajor K = true
    · rw [if_pos hm] at hr
      refine ⟨majorPot, by rw [hr]; exact majorPot_small, fun p hp' => ?_⟩
      have hmem := hps p hp'
      rw [if_pos hm] at hmem
      exact phrase_sound hT hc _ K hk _ p (major_small p hmem).1 (major_small p hmem).2 (by rw [hr]; exact c1 p hmem)
    · rw [if_neg hm] at hr
      refine ⟨minorPot, by rw [hr]; exact minorPot_small, fun p hp' => ?_⟩
      have hmem := hps p hp'
      rw [if_neg hm] at hmem
      exact phrase_sound hT hc _ K hk _ p (minor_small p hmem).1 (minor_small p hmem).2 (by rw [hr]; exact c2 p hmem)
  obtain ⟨U, hU, hg⟩ := key
  obtain ⟨h1, h2, h3⟩ := piece_sound hT hnn (tonic K) K hk U hU ps hne hg
  refine ⟨h1, fun o ho => ?_, h2, fun ks hkl hkk hkne => h3 ks hkl (fun k hk' => mem_keys.2 (hkk k hk')) hkne⟩
  obtain ⟨x, _, rfl⟩ := List.mem_map.1 ho
  omega

/-- The rounding of a piece with up to half a million notes costs less than the tenth. -/
theorem slack_tenth {η : ℝ} (hη : η ≤ (2 : ℝ) ^ (-30 : ℤ)) (n : Nat) (hn : n ≤ 2 ^ 19) :
    (10 : ℝ) ^ (2 * slack η n) * (9 / 10) < 1 := by
  have hn' : (n : ℝ) ≤ 2 ^ 19 := by exact_mod_cast hn
  have h0 : (0 : ℝ) ≤ n := Nat.cast_nonneg n
  have h : 2 * slack η n ≤ 1 / 22 := by
    unfold slack
    have a1 : (n : ℝ) * (η + (2 : ℝ) ^ (-51 : ℤ)) ≤ 2 ^ 19 * ((2 : ℝ) ^ (-30 : ℤ) + (2 : ℝ) ^ (-51 : ℤ)) := by
      calc (n : ℝ) * (η + (2 : ℝ) ^ (-51 : ℤ)) ≤ n * ((2 : ℝ) ^ (-30 : ℤ) + (2 : ℝ) ^ (-51 : ℤ)) :=
            mul_le_mul_of_nonneg_left (by linarith) h0
        _ ≤ _ := mul_le_mul_of_nonneg_right hn' (by positivity)
    have a2 : (n : ℝ) ^ 2 * (2 : ℝ) ^ (-44 : ℤ) ≤ (2 ^ 19) ^ 2 * (2 : ℝ) ^ (-44 : ℤ) :=
      mul_le_mul_of_nonneg_right (pow_le_pow_left₀ h0 hn' 2) (by positivity)
    have a3 : 2 * ((2 : ℝ) ^ 19 * ((2 : ℝ) ^ (-30 : ℤ) + (2 : ℝ) ^ (-51 : ℤ)) + (2 ^ 19) ^ 2 * (2 : ℝ) ^ (-44 : ℤ)) ≤ 1 / 22 := by
      norm_num
    refine le_trans ?_ a3
    exact mul_le_mul_of_nonneg_left (add_le_add a1 a2) (by norm_num)
  have e : ((10 : ℝ) ^ (1 / 22 : ℝ)) ^ (22 : ℕ) = 10 := by
    rw [← Real.rpow_natCast, ← Real.rpow_mul (by norm_num)]
    norm_num
  have h2 : (10 : ℝ) ^ (1 / 22 : ℝ) < 10 / 9 := by
    by_contra hlt
    have := pow_le_pow_left₀ (by norm_num) (not_lt.1 hlt) 22
    rw [e] at this
    norm_num at this
  have h3 := (Real.rpow_le_rpow_of_exponent_le (by norm_num : (1 : ℝ) ≤ 10) h).trans_lt h2
  linarith

theorem go_away : ∀ s ∈ transitionChoices, ∀ K ∈ keys, ∀ k ∈ keys, k ≠ K → 2 * goQ s k K ≤ goQ s K K := by decide +kernel

/-- The answer for music for which staying in a key is more probable than everything else by a tenth. -/
theorem heard {η : ℝ} (lg : ℝ → RD) (hok : LogOk lg) (hlg : LogClose η lg) (hη : η ≤ (2 : ℝ) ^ (-30 : ℤ))
    (iter₁ iter₂ : Iter RD) (hi₁ : iter₁.Ok) (hi₂ : iter₂.Ok) (cfg : Config RD) (hc : Chosen cfg)
    (K : Int) (hK : IsKey K) (os : List Int) (hn : os.length ≤ 2 ^ 19) (hne : os ≠ [])
    (ho : ∀ o ∈ os, 0 ≤ o ∧ o < 12) (hpos : 0 < prob (book cfg) os (List.replicate os.length K))
    (hbest : ∀ ks : List Int, ks.length = os.length → (∀ k ∈ ks, IsKey k) → ks ≠ List.replicate os.length K →
      prob (book cfg) os ks ≤ 9 / 10 * prob (book cfg) os (List.replicate os.length K)) :
    ∃ d, detect (ieee lg) iter₁ iter₂ cfg (os.map PitchClass.ofInt) = .ok (.ok d) ∧
      d.localKeys = List.replicate os.length (Key.ofInt K) ∧ d.mainKey = Key.ofInt K := by
  have hs := slack_tenth hη os.length hn
  have hs0 : (0 : ℝ) < (10 : ℝ) ^ (2 * slack η os.length) := Real.rpow_pos_of_pos (by norm_num) _
  have key := C121_decided lg hok hlg iter₁ iter₂ hi₁ hi₂ cfg hc os ho hne (hn.trans (by norm_num))
    (List.replicate os.length K) (by simp) (fun k hk => by rw [List.eq_of_mem_replicate hk]; exact hK) ?_ K hK ?_
  · obtain ⟨d, h1, h2, h3⟩ := key
    exact ⟨d, h1, by rw [h2, List.map_replicate], h3⟩
  · intro ks hkl hkk hkne
    have := mul_le_mul_of_nonneg_left (hbest ks hkl hkk hkne) hs0.le
    have h2 := mul_lt_mul_of_pos_right hs hpos
    generalize (10 : ℝ) ^ (2 * slack η os.length) = c at *
    nlinarith
  · intro k hk hkK
    unfold evidence
    rw [List.map_replicate, List.map_replicate, List.prod_replicate, List.prod_replicate]
    dsimp only
    have hg := go_away _ hc.trans K (mem_keys.2 hK) k (mem_keys.2 hk) hkK
    have hg' : 2 * (goQ cfg.keyTransition k K : ℝ) ≤ (goQ cfg.keyTransition K K : ℝ) := by
      have := (Rat.cast_le (K := ℝ)).2 hg
      push_cast at this
      exact this
    have h0 : (0 : ℝ) ≤ (goQ cfg.keyTransition k K : ℝ) := by
      have := (goQ_range hc.trans k K).1
      exact Rat.cast_nonneg.2 (le_trans (by norm_num) this)
    have h1 : (0 : ℝ) < (goQ cfg.keyTransition K K : ℝ) := by
      have := (goQ_range hc.trans K K).1
      exact Rat.cast_pos.2 (lt_of_lt_of_le (by norm_num) this)
    obtain ⟨m, hm⟩ : ∃ m, os.length = m + 1 := ⟨os.length - 1, by have := List.length_pos_iff.2 hne; omega⟩
    generalize (goQ cfg.keyTransition k K : ℝ) = a at *
    generalize (goQ cfg.keyTransition K K : ℝ) = b at *
    have h2 : a ^ os.length ≤ 9 / 10 * b ^ os.length := by
      rw [hm, pow_succ, pow_succ]
      have : a ^ m ≤ b ^ m := pow_le_pow_left₀ h0 (by linarith) m
      have hbm : 0 < b ^ m := pow_pos h1 m
      nlinarith [mul_le_mul this hg' (by linarith) hbm.le]
    have h3 := mul_le_mul_of_nonneg_left h2 hs0.le
    have h4 := mul_lt_mul_of_pos_right hs (pow_pos h1 os.length)
    rw [one_mul, mul_assoc] at h4
    exact lt_of_le_of_lt h3 h4

/-- **C125.**  In double arithmetic, with the default transitions and profiles of the command line - both Krumhansl-Kessler
or none of them - and whatever the hash order: a piece of up to `2¹⁹` notes made of the phrases of a key is in that key, from
the first note to the last. -/
theorem C125_textbook {η : ℝ} (lg : ℝ → RD) (hok : LogOk lg) (hlg : LogClose η lg) (hη : η ≤ (2 : ℝ) ^ (-30 : ℤ))
    (iter₁ iter₂ : Iter RD) (hi₁ : iter₁.Ok) (hi₂ : iter₂.Ok) (cfg : Config RD) (hc : Chosen cfg)
    (hT : cfg.keyTransition = "exponential10")
    (hp : cfg.majorKeyProfile = "krumhansl_kessler" ↔ cfg.minorKeyProfile = "krumhansl_kessler") (K : Int) (hK : IsKey K)
    (os : List Int) (h : Textbook K os) (hn : os.length ≤ 2 ^ 19) :
    ∃ d, detect (ieee lg) iter₁ iter₂ cfg (os.map PitchClass.ofInt) = .ok (.ok d) ∧
      d.localKeys = List.replicate os.length (Key.ofInt K) ∧ d.mainKey = Key.ofInt K := by
  obtain ⟨hne, ho, hpos, hbest⟩ := C125_most_probable cfg hc hT hp K hK os h
  exact heard lg hok hlg hη iter₁ iter₂ hi₁ hi₂ cfg hc K hK os hn hne ho hpos hbest

/-- **C125, whole program.**  It prints the key of the piece. -/
theorem C125_main {S P T : Type} {η : ℝ} (lg : ℝ → RD) (hok : LogOk lg) (hlg : LogClose η lg) (hη : η ≤ (2 : ℝ) ^ (-30 : ℤ))
    (E : Env RD S P T) (hF : E.F = ieee lg) (hi₁ : HMM.Iter.Ok E.iter₁) (hi₂ : HMM.Iter.Ok E.iter₂)
    (hj : E.junkMajor.length = 12 ∧ E.junkMinor.length = 12 ∧ E.junkTransition.length = 24)
    (o : Options) (ho : o.Valid) (hk : o.customkeyprofiles = none) (ht : o.customkeytransitions = none)
    (he : o.evaluate = false) (hpr : o.probabilities = false) (hT : o.keytransition = "exponential10")
    (hp : o.majorprofile = "krumhansl_kessler" ↔ o.minorprofile = "krumhansl_kessler") (p : Parsed RD)
    (hparse : parseArgs E (.ok o) = .ok (.ok p)) (os : List Int) (hread : readInput E p = .ok (.ok (os.map PitchClass.ofInt)))
    (K : Int) (hK : IsKey K) (h : Textbook K os) (hn : os.length ≤ 2 ^ 19) :
    ∃ name : Str, noteName (name.map Char.toLower) = some (tonic K) ∧
      main E (.ok o) = .ok { stdout := name ++ '\t' :: (if Spec.isMajor K then "major".toList else "minor".toList) ++ ['\n']
                             stderr := [], code := 0 } := by
  obtain ⟨hcfg, hp1, hp2⟩ := parse_cfg E o p hk ht hparse
  have hch : Chosen p.cfg := by
    rw [hcfg]
    exact ⟨⟨hj.2.2, hj.1, hj.2.1⟩, ho.major, ho.minor, ho.trans⟩
  obtain ⟨d, hd, _, hm⟩ := C125_textbook lg hok hlg hη E.iter₁ E.iter₂ hi₁ hi₂ p.cfg hch (by rw [hcfg]; exact hT)
    (by rw [hcfg]; exact hp) K hK os h hn
  obtain ⟨name, hl, _, hname⟩ := C39_line K hK
  refine ⟨name, hname, ?_⟩
  have hpr' : printResult E p d = keyLine (Key.ofInt K) := by
    simp [printResult, hp1, hp2, he, hpr, hm]
  have hmode : (if Spec.isMajor K then "major".toList else "minor".toList) =
      if K < 12 then "major".toList else "minor".toList := by
    unfold Spec.isMajor
    by_cases h : K < 12 <;> simp [h]
  simp only [main, hparse, hread, Res.bind_ok, hF, hd, hpr', hl, Res.pure_eq, hmode]

/-! ### Cases -/

/-- Two bars of "Frère Jacques" and a cadence in G major. -/
example : Textbook 7 (played 7 [[0, 2, 4, 0, 0, 2, 4, 0, 4, 5, 7, 4, 5, 7, 7, 9, 7, 5, 4, 0, 7, 9, 7, 5, 4, 0, 0, 7, 0, 0, 7, 0],
    [0, 4, 7, 5, 9, 0, 7, 11, 2, 0, 4, 7]]) :=
  ⟨_, by decide, by decide, rfl⟩

/-- A C minor scale, as pitch classes. -/
theorem cminor_scale : Textbook 12 [0, 2, 3, 5, 7, 8, 11, 0] := ⟨[[0, 2, 3, 5, 7, 8, 11, 0]], by decide, by decide, rfl⟩

/-- It is heard in C minor, for the correctly rounded logarithm and every hash order. -/
example (iter₁ iter₂ : Iter RD) (hi₁ : iter₁.Ok) (hi₂ : iter₂.Ok) :
    ∃ d, detect (ieee (fun r => rnd64 (Real.logb 10 r))) iter₁ iter₂ plain
        ([0, 2, 3, 5, 7, 8, 11, 0].map PitchClass.ofInt) = .ok (.ok d) ∧
      d.localKeys = List.replicate 8 (Key.ofInt 12) ∧ d.mainKey = Key.ofInt 12 :=
  C125_textbook _ logOk_rounded logClose_rounded (zpow_le_zpow_right₀ (by norm_num) (by norm_num)) iter₁ iter₂ hi₁ hi₂ plain
    plain_chosen rfl (by decide) 12 (by decide) _ cminor_scale (by simp)

end JKD.Phrases
