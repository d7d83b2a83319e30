import Verif.Props.StruckProps
import Verif.Props.PassageKeysProps
import Verif.Props.TestFilesProps
import Verif.Props.NearestKeyProps
/-
C168: a change of key takes no detour.
-/

namespace JKD.Phrases

open Spec HMM RD Detect Main

/-! ### Specification -/

/-- Closely related keys, numbered 0 to 11 for major and 12 to 23 for minor: the same key, its fifths above and below, its relative and
its parallel key, and the relative and parallel keys of the fifths. -/
def Related (a b : Int) : Prop :=
  (b % 12 - a % 12) % 12 ∈ (if (a < 12 ↔ b < 12) then [0, 5, 7] else if a < 12 then [0, 9, 2, 4, 5, 7] else [0, 3, 5, 7, 8, 10] : List Int)

instance (a b : Int) : Decidable (Related a b) := by unfold Related; infer_instance

/-- A direct change: `i` notes in the key `a`, then `n` in the key `b`. -/
def direct (a b : Int) (i n : Nat) : List Int := List.replicate i a ++ List.replicate n b

/-! ### Routes -/

theorem related_near : ∀ s ∈ transitionChoices, ∀ a ∈ keys, ∀ b ∈ keys, Related a b →
    goQ s 0 0 ≤ (if s = "exponential10" then 10 else 2) ^ 2 * goQ s a b := by decide +kernel

section
variable {cfg : Config RD} (hc : Chosen cfg)

theorem changes_zero : ∀ (ms : List Int) (j l : Int), changes (j :: ms ++ [l]) = 0 → j = l ∧ ms = List.replicate ms.length l := by
  intro ms
  induction ms with
  | nil =>
    intro j l h
    refine ⟨?_, rfl⟩
    by_contra hne
    simp [changes, hne] at h
  | cons m ms ih =>
    intro j l h
    have e : changes (j :: (m :: ms) ++ [l]) = (if j = m then 0 else 1) + changes (m :: ms ++ [l]) := rfl
    rw [e] at h
    obtain ⟨h1, h2⟩ := ih m l (by omega)
    have hj : j = m := by
      by_contra hne
      simp [hne] at h
    refine ⟨hj.trans h1, ?_⟩
    rw [List.length_cons, List.replicate_succ, ← h2, h1]

include hc in
theorem route_one : ∀ (ms : List Int) (j l : Int), (∀ k ∈ j :: ms ++ [l], k ∈ keys) → changes (j :: ms ++ [l]) ≤ 1 →
    route cfg.keyTransition (j :: ms ++ [l]) = (goQ cfg.keyTransition 0 0 : ℝ) ^ ms.length * goQ cfg.keyTransition j l := by
  intro ms
  induction ms with
  | nil => intro j l _ _; simp [route]
  | cons m ms ih =>
    intro j l hk h
    have e : changes (j :: (m :: ms) ++ [l]) = (if j = m then 0 else 1) + changes (m :: ms ++ [l]) := rfl
    have e' : route cfg.keyTransition (j :: (m :: ms) ++ [l]) = (goQ cfg.keyTransition j m : ℝ) * route cfg.keyTransition (m :: ms ++ [l]) := rfl
    have hm : m ∈ keys := hk m (by simp)
    have hg := (goQ_price _ hc.trans m hm m hm).2.1
    have hk' : ∀ k ∈ m :: ms ++ [l], k ∈ keys := fun k h' => hk k (by
      simp only [List.cons_append, List.mem_cons] at h' ⊢
      exact Or.inr h')
    rw [e']
    by_cases hjm : j = m
    · subst hjm
      rw [ih j l hk' (by rw [e] at h; omega), hg, List.length_cons]
      ring
    · rw [e, if_neg hjm] at h
      obtain ⟨h1, _⟩ := changes_zero ms m l (by omega)
      subst h1
      rw [ih m m hk' (by omega), hg, List.length_cons]
      ring

include hc in
/-- **C168, the tables.**  Between closely related keys no succession of keys, however long, is more probable than a direct change. -/
theorem C168_route (j l : Int) (hj : IsKey j) (hl : IsKey l) (hr : Related j l) (ms : List Int) (hm : ∀ m ∈ ms, IsKey m) :
    route cfg.keyTransition (j :: ms ++ [l]) ≤ (goQ cfg.keyTransition 0 0 : ℝ) ^ ms.length * goQ cfg.keyTransition j l := by
  have hk : ∀ k ∈ j :: ms ++ [l], k ∈ keys := by
    intro k h
    simp only [List.cons_append, List.mem_cons, List.mem_append, List.not_mem_nil, or_false] at h
    rcases h with rfl | h | rfl
    · exact mem_keys.2 hj
    · exact mem_keys.2 (hm k h)
    · exact mem_keys.2 hl
  by_cases h1 : changes (j :: ms ++ [l]) ≤ 1
  · exact (route_one hc ms j l hk h1).le
  · have hp := moves_price hc _ hk
    rw [route_moves cfg _ hk] at hp
    have hlen : (j :: ms ++ [l]).length - 1 = ms.length + 1 := by simp
    rw [hlen] at hp
    have hr0 : 0 < route cfg.keyTransition (j :: ms ++ [l]) := by
      rw [← route_moves cfg _ hk]
      exact moves_pos hc _ hk
    have hg : (0 : ℝ) < (goQ cfg.keyTransition 0 0 : ℝ) :=
      Rat.cast_pos.2 (goQ_price _ hc.trans 0 (by decide) 0 (by decide)).1
    have hn := (Rat.cast_le (K := ℝ)).2 (related_near _ hc.trans j (mem_keys.2 hj) l (mem_keys.2 hl) hr)
    have hn' : (goQ cfg.keyTransition 0 0 : ℝ) ≤ price cfg.keyTransition ^ 2 * (goQ cfg.keyTransition j l : ℝ) := by
      unfold price
      split at hn <;> rename_i e
      · rw [if_pos e]; push_cast at hn; exact hn
      · rw [if_neg e]; push_cast at hn; exact hn
    have hp1 : (1 : ℝ) ≤ price cfg.keyTransition := by unfold price; split <;> norm_num
    have hpc : price cfg.keyTransition ^ 2 ≤ price cfg.keyTransition ^ changes (j :: ms ++ [l]) := pow_le_pow_right₀ hp1 (by omega)
    have hp2 : 0 < price cfg.keyTransition ^ 2 := by positivity
    refine le_of_mul_le_mul_left ?_ hp2
    calc price cfg.keyTransition ^ 2 * route cfg.keyTransition (j :: ms ++ [l])
        ≤ price cfg.keyTransition ^ changes (j :: ms ++ [l]) * route cfg.keyTransition (j :: ms ++ [l]) :=
          mul_le_mul_of_nonneg_right hpc hr0.le
      _ ≤ (goQ cfg.keyTransition 0 0 : ℝ) ^ (ms.length + 1) := hp
      _ = (goQ cfg.keyTransition 0 0 : ℝ) ^ ms.length * (goQ cfg.keyTransition 0 0 : ℝ) := pow_succ _ _
      _ ≤ (goQ cfg.keyTransition 0 0 : ℝ) ^ ms.length * (price cfg.keyTransition ^ 2 * (goQ cfg.keyTransition j l : ℝ)) :=
          mul_le_mul_of_nonneg_left hn' (by positivity)
      _ = _ := by ring

theorem changes_direct (a b : Int) : ∀ i n : Nat, changes (a :: direct a b i n ++ [b]) ≤ 1 := by
  intro i n
  have h0 : ∀ n, changes (b :: List.replicate n b ++ [b]) = 0 := by
    intro n
    induction n with
    | zero => simp [changes]
    | succ n ih =>
      have : changes (b :: List.replicate (n + 1) b ++ [b]) = (if b = b then 0 else 1) + changes (b :: List.replicate n b ++ [b]) := rfl
      rw [this, ih, if_pos rfl]
  induction i with
  | zero =>
    cases n with
    | zero => simp only [direct, List.replicate_zero, List.nil_append, List.cons_append, changes]; split <;> omega
    | succ n =>
      have : changes (a :: direct a b 0 (n + 1) ++ [b]) = (if a = b then 0 else 1) + changes (b :: List.replicate n b ++ [b]) := rfl
      rw [this, h0]
      split <;> omega
  | succ i ih =>
    have : changes (a :: direct a b (i + 1) n ++ [b]) = (if a = a then 0 else 1) + changes (a :: direct a b i n ++ [b]) := rfl
    rw [this, if_pos rfl]
    omega

end

/-! ### C168 -/

/-- **C168 (partial), closely related keys.**  In double arithmetic, for the profiles and transitions of the command line and any hash
order: the local keys of a passage between two closely related keys explain its notes at least as well, up to a tenth, as a direct change
at any place; no keys are passed through that the notes do not call for.  Missing: other pairs of keys, for which it is false. -/
theorem C168_related_partial {η : ℝ} (lg : ℝ → RD) (hok : LogOk lg) (hlg : LogClose η lg) (hη : η ≤ (2 : ℝ) ^ (-30 : ℤ))
    (iter₁ iter₂ : Iter RD) (hi₁ : iter₁.Ok) (hi₂ : iter₂.Ok) (cfg : Config RD) (hc : Chosen cfg) (pre mid post : List Int)
    (ho : ∀ o ∈ pre ++ mid ++ post, 0 ≤ o ∧ o < 12) (hm : mid ≠ []) (hn : (pre ++ mid ++ post).length ≤ 2 ^ 19) :
    ∃ d a lm b, detect (ieee lg) iter₁ iter₂ cfg ((pre ++ mid ++ post).map PitchClass.ofInt) = .ok (.ok d) ∧
      PassageKeys d pre mid post a lm b ∧
      ∀ j l, a = some j → b = some l → Related j l → ∀ i n, i + n = mid.length →
        9 / 10 * likelihood cfg (direct j l i n) mid ≤ likelihood cfg lm mid := by
  obtain ⟨d, a, lm, b, h1, h2, h3, h4⟩ := C165_passage lg hok hlg iter₁ iter₂ hi₁ hi₂ cfg hc pre mid post ho hm (hn.trans (by norm_num))
  refine ⟨d, a, lm, b, h1, h2, ?_⟩
  rintro j l rfl rfl hr i n hin
  obtain ⟨lp, lq, _, _, hlm, _, hkey, hlast, hhead⟩ := h2
  have hj : IsKey j := hkey j (by simp [List.mem_of_getLast? hlast])
  have hl : IsKey l := hkey l (by simp [List.mem_of_head? hhead])
  have hlmk : ∀ m ∈ lm, IsKey m := fun m h => hkey m (by simp [h])
  have hdl : (direct j l i n).length = mid.length := by simp [direct, hin]
  have hdk : ∀ k ∈ direct j l i n, IsKey k := by
    intro k h
    rcases List.mem_append.1 h with h | h
    · rw [List.eq_of_mem_replicate h]; exact hj
    · rw [List.eq_of_mem_replicate h]; exact hl
  have h5 := h4 (direct j l i n) hdl hdk
  have hs := slack_tenth hη _ hn
  have e1 : route cfg.keyTransition (j :: direct j l i n ++ [l]) = (goQ cfg.keyTransition 0 0 : ℝ) ^ mid.length * goQ cfg.keyTransition j l := by
    rw [route_one hc _ j l (fun k h => ?_) (changes_direct j l i n), hdl]
    simp only [List.cons_append, List.mem_cons, List.mem_append, List.not_mem_nil, or_false] at h
    rcases h with rfl | h | rfl
    · exact mem_keys.2 hj
    · exact mem_keys.2 (hdk k h)
    · exact mem_keys.2 hl
  have e2 := C168_route hc j l hj hl hr lm hlmk
  rw [hlm] at e2
  have f1 : fit cfg (some j) mid (direct j l i n) (some l) = (goQ cfg.keyTransition 0 0 : ℝ) ^ mid.length * goQ cfg.keyTransition j l *
      likelihood cfg (direct j l i n) mid := by rw [← e1]; rfl
  have f2 : fit cfg (some j) mid lm (some l) = route cfg.keyTransition (j :: lm ++ [l]) * likelihood cfg lm mid := rfl
  have hR : 0 < (goQ cfg.keyTransition 0 0 : ℝ) ^ mid.length * goQ cfg.keyTransition j l :=
    mul_pos (pow_pos (Rat.cast_pos.2 (goQ_price _ hc.trans 0 (by decide) 0 (by decide)).1) _)
      (Rat.cast_pos.2 (goQ_price _ hc.trans j (mem_keys.2 hj) l (mem_keys.2 hl)).1)
  have hr0 : 0 < route cfg.keyTransition (j :: lm ++ [l]) := by
    have hk : ∀ k ∈ j :: lm ++ [l], k ∈ keys := by
      intro k h
      simp only [List.cons_append, List.mem_cons, List.mem_append, List.not_mem_nil, or_false] at h
      rcases h with rfl | h | rfl
      · exact mem_keys.2 hj
      · exact mem_keys.2 (hlmk k h)
      · exact mem_keys.2 hl
    rw [← route_moves cfg _ hk]
    exact moves_pos hc _ hk
  rw [f2] at h3
  have hL : 0 < likelihood cfg lm mid := pos_of_mul_pos_right h3 hr0.le
  rw [f1, f2] at h5
  have hs0 : (0 : ℝ) < (10 : ℝ) ^ (2 * slack η (pre ++ mid ++ post).length) := Real.rpow_pos_of_pos (by norm_num) _
  generalize (goQ cfg.keyTransition 0 0 : ℝ) ^ mid.length * goQ cfg.keyTransition j l = R at *
  generalize route cfg.keyTransition (j :: lm ++ [l]) = r at *
  generalize likelihood cfg lm mid = L at *
  generalize likelihood cfg (direct j l i n) mid = A at *
  generalize (10 : ℝ) ^ (2 * slack η (pre ++ mid ++ post).length) = S at *
  have h6 : R * A ≤ R * (S * L) := by
    calc R * A ≤ S * (r * L) := h5
      _ ≤ S * (R * L) := mul_le_mul_of_nonneg_left (mul_le_mul_of_nonneg_right e2 hL.le) hs0.le
      _ = _ := by ring
  have h7 : A ≤ S * L := le_of_mul_le_mul_left h6 hR
  nlinarith

/-! ### C168: the key of the whole -/

theorem related_triangle : ∀ k ∈ keys, ∀ K ∈ keys, ∀ l ∈ keys, Related K l →
    Nearest.apart K l ≤ Nearest.apart k l + Nearest.apart k K := by decide +kernel

theorem total_related {k K : Int} (hk : k ∈ keys) (hK : K ∈ keys) : ∀ ls : List Int, (∀ l ∈ ls, l ∈ keys) → (∀ l ∈ ls, Related K l) →
    Nearest.total ls K + 2 * (Nearest.apart k K * ls.count K) ≤ Nearest.total ls k + Nearest.apart k K * ls.length := by
  intro ls
  induction ls with
  | nil => intro _ _; simp [Nearest.total]
  | cons l ls ih =>
    intro h hr
    have ih := ih (fun x hx => h x (by simp [hx])) (fun x hx => hr x (by simp [hx]))
    have hl := h l (by simp)
    have h3 := related_triangle k hk K hK l hl (hr l (by simp))
    unfold Nearest.total at ih ⊢
    simp only [List.map_cons, List.sum_cons, List.length_cons, List.count_cons]
    by_cases e : l = K
    · subst e
      have h0 := ((Nearest.apart_pos l hl l hl).1).2 rfl
      simp only [beq_self_eq_true, if_true, Nat.mul_add, h0]
      omega
    · simp only [beq_iff_eq, e, if_false, Nat.mul_add, Nat.add_zero]
      omega

/-- **C168, related keys and the key of the whole.**  In double arithmetic, for the profiles and transitions of the command line and any
hash order: if the local keys of a piece are a key and keys closely related to it, and more than half of the notes are in that key, then
it is the key of the piece. -/
theorem C168_majority {η : ℝ} (lg : ℝ → RD) (hok : LogOk lg) (hlg : LogClose η lg) (hη : η ≤ (2 : ℝ) ^ (-30 : ℤ))
    (iter₁ iter₂ : Iter RD) (hi₁ : iter₁.Ok) (hi₂ : iter₂.Ok) (cfg : Config RD) (hc : Chosen cfg) (os : List Int)
    (ho : ∀ o ∈ os, 0 ≤ o ∧ o < 12) (hne : os ≠ []) (hn : os.length ≤ 2 ^ 19) (d : Detection RD)
    (hd : detect (ieee lg) iter₁ iter₂ cfg (os.map PitchClass.ofInt) = .ok (.ok d)) (ls : List Int) (hlk : ∀ l ∈ ls, IsKey l)
    (hloc : d.localKeys = ls.map Key.ofInt) (K : Int) (hK : IsKey K) (hr : ∀ l ∈ ls, Related K l) (h : ls.length < 2 * ls.count K) :
    d.mainKey = Key.ofInt K := by
  obtain ⟨ls', k, hloc', _, hlk', hkey, hnear⟩ := Nearest.ran lg hok hlg hη iter₁ iter₂ hi₁ hi₂ cfg hc os ho hne hn hd
  have e : ls' = ls := by rw [← Nearest.back ls' hlk', ← hloc', hloc, Nearest.back ls hlk]
  subst e
  rw [hkey]
  congr 1
  by_contra hkK
  have hk := mem_keys.2 hnear.1
  have h1 := total_related hk (mem_keys.2 hK) ls' (fun l hl => mem_keys.2 (hlk l hl)) hr
  have h2 := hnear.2 K hK
  have h3 : 0 < Nearest.apart k K := Nat.pos_of_ne_zero (fun e => hkK (((Nearest.apart_pos k hk K (mem_keys.2 hK)).1).1 e))
  have h4 := Nat.mul_lt_mul_of_pos_left h h3
  have h5 : Nearest.apart k K * ls'.length < 2 * (Nearest.apart k K * ls'.count K) := by
    calc _ < Nearest.apart k K * (2 * ls'.count K) := h4
      _ = _ := by ring
  omega

/-! ### C168 violated -/

/-- Three broken major triads on `t`. -/
def triads (t : Int) : List Int := [0, 4, 7, 0, 0, 4, 7, 0, 0, 4, 7, 0].map (fun x : Nat => (t + (x : Int)) % 12)

/-- The keys that the program passes through, from the key `a` to the key `f`. -/
def detour {α : Type} (a b c d f : α) : List α := [a, a, a, a, a, a, a, a, a, a, b, c, d, d, f, f, f, f, f, f, f, f, f, f]

set_option maxRecDepth 100000 in
theorem triads_ok : decidedOk 9 10 (majNat "sapp") (minNat "sapp") [0, 4, 7, 0, 0, 4, 7, 0, 0, 4, 7, 0] (List.replicate 12 0) = true ∧
    votesOk 0 (List.replicate 12 0) = true := by decide +kernel

set_option maxRecDepth 100000 in
theorem tritone_ok : decidedOk 9 10 (majNat "sapp") (minNat "sapp")
    [0, 4, 7, 0, 0, 4, 7, 0, 0, 4, 7, 0, 6, 10, 1, 6, 6, 10, 1, 6, 6, 10, 1, 6] (detour 0 12 3 15 6) = true ∧
    votesOk 3 (detour 0 12 3 15 6) = true := by decide +kernel

theorem rel_detour : ∀ t ∈ pcs, rel t t = 0 ∧ rel t (t + 12) = 12 ∧ rel t ((t + 3) % 12) = 3 ∧ rel t ((t + 3) % 12 + 12) = 15 ∧
    rel t ((t + 6) % 12) = 6 := by decide +kernel

theorem tritone_notes : ∀ t ∈ pcs, triads t ++ triads ((t + 6) % 12) =
    [0, 4, 7, 0, 0, 4, 7, 0, 0, 4, 7, 0, 6, 10, 1, 6, 6, 10, 1, 6, 6, 10, 1, 6].map (fun x : Nat => (t + (x : Int)) % 12) := by decide +kernel

/-- **C168 violated.**  With the default tables, whatever the hash order: three major triads are heard in their key.  Followed by three
major triads a tritone above, the program passes through three other keys between the two, and the key of the whole is the major key
a minor third above the first, which has one of the twenty-four notes. -/
theorem C168_tritone_violated {η : ℝ} (lg : ℝ → RD) (hok : LogOk lg) (hlg : LogClose η lg) (hη : η ≤ (2 : ℝ) ^ (-30 : ℤ))
    (iter₁ iter₂ : Iter RD) (hi₁ : iter₁.Ok) (hi₂ : iter₂.Ok) (cfg : Config RD) (hc : Chosen cfg) (hT : cfg.keyTransition = "exponential10")
    (hM : cfg.majorKeyProfile = "sapp") (hm : cfg.minorKeyProfile = "sapp") (t : Int) (ht : 0 ≤ t ∧ t < 12) :
    (∀ u, u = t ∨ u = (t + 6) % 12 → ∃ d, detect (ieee lg) iter₁ iter₂ cfg ((triads u).map PitchClass.ofInt) = .ok (.ok d) ∧
      d.localKeys = List.replicate 12 (Key.ofInt u) ∧ d.mainKey = Key.ofInt u) ∧
    ∃ d, detect (ieee lg) iter₁ iter₂ cfg ((triads t ++ triads ((t + 6) % 12)).map PitchClass.ofInt) = .ok (.ok d) ∧
      d.localKeys = detour (Key.ofInt t) (Key.ofInt (t + 12)) (Key.ofInt ((t + 3) % 12)) (Key.ofInt ((t + 3) % 12 + 12))
        (Key.ofInt ((t + 6) % 12)) ∧
      d.mainKey = Key.ofInt ((t + 3) % 12) := by
  constructor
  · intro u hu
    have hu' : 0 ≤ u ∧ u < 12 := by omega
    have hK : IsKey u := by unfold IsKey; omega
    have r0 := (rel_detour u (mem_pcs.2 hu')).1
    have := found_keys hT hc lg hok hlg hη iter₁ iter₂ hi₁ hi₂ u [0, 4, 7, 0, 0, 4, 7, 0, 0, 4, 7, 0] (List.replicate 12 u) u hK (by decide)
      (fun l hl => by rw [List.eq_of_mem_replicate hl]; exact hK) (by decide)
      (by rw [hM, hm, List.map_replicate, r0]; exact triads_ok.1) (by rw [List.map_replicate, r0]; exact triads_ok.2)
    rwa [List.map_replicate] at this
  · obtain ⟨r0, r12, r3, r15, r6⟩ := rel_detour t (mem_pcs.2 ht)
    have hls : (detour t (t + 12) ((t + 3) % 12) ((t + 3) % 12 + 12) ((t + 6) % 12)).map (rel t) = detour 0 12 3 15 6 := by
      simp [detour, r0, r12, r3, r15, r6]
    have h := found_keys hT hc lg hok hlg hη iter₁ iter₂ hi₁ hi₂ t
      [0, 4, 7, 0, 0, 4, 7, 0, 0, 4, 7, 0, 6, 10, 1, 6, 6, 10, 1, 6, 6, 10, 1, 6]
      (detour t (t + 12) ((t + 3) % 12) ((t + 3) % 12 + 12) ((t + 6) % 12)) ((t + 3) % 12) (by unfold IsKey; omega) (by decide) (by
        intro l hl
        simp only [detour, List.mem_cons, List.not_mem_nil, or_false] at hl
        have : l = t ∨ l = t + 12 ∨ l = (t + 3) % 12 ∨ l = (t + 3) % 12 + 12 ∨ l = (t + 6) % 12 := by tauto
        unfold IsKey
        omega) (by decide)
      (by rw [hM, hm, hls]; exact tritone_ok.1) (by rw [hls, r3]; exact tritone_ok.2)
    rw [tritone_notes t (mem_pcs.2 ht)]
    exact h

/-- **C168 violated, whole program.**  `justkeydding file` on three broken major triads and the same a tritone above prints the major key
between the two. -/
theorem C168_main_violated {S P T : Type} {η : ℝ} (lg : ℝ → RD) (hok : LogOk lg) (hlg : LogClose η lg)
    (hη : η ≤ (2 : ℝ) ^ (-30 : ℤ)) (E : Env RD S P T) (hF : E.F = ieee lg) (hi₁ : HMM.Iter.Ok E.iter₁) (hi₂ : HMM.Iter.Ok E.iter₂)
    (hj : E.junkMajor.length = 12 ∧ E.junkMinor.length = 12 ∧ E.junkTransition.length = 24) (file : Str) (p : Parsed RD)
    (hparse : parseArgs E (.ok (Options.default file)) = .ok (.ok p)) (t : Int) (ht : 0 ≤ t ∧ t < 12)
    (hread : readInput E p = .ok (.ok ((triads t ++ triads ((t + 6) % 12)).map PitchClass.ofInt))) :
    ∃ name : Str, noteName (name.map Char.toLower) = some ((t + 3) % 12) ∧
      main E (.ok (Options.default file)) = .ok { stdout := name ++ '\t' :: "major".toList ++ ['\n'], stderr := [], code := 0 } := by
  obtain ⟨hcfg, hp1, hp2⟩ := parse_cfg E (Options.default file) p rfl rfl hparse
  have hch : Chosen p.cfg := by
    rw [hcfg]
    have h1 : "sapp" ∈ profileChoices := by decide
    have h2 : "exponential10" ∈ transitionChoices := by decide
    exact ⟨⟨hj.2.2, hj.1, hj.2.1⟩, h1, h1, h2⟩
  obtain ⟨d, hd, _, hm⟩ := (C168_tritone_violated lg hok hlg hη E.iter₁ E.iter₂ hi₁ hi₂ p.cfg hch (by rw [hcfg]; rfl) (by rw [hcfg]; rfl)
    (by rw [hcfg]; rfl) t ht).2
  obtain ⟨name, hl, _, hname⟩ := C39_line ((t + 3) % 12) (by unfold IsKey; omega)
  refine ⟨name, by rw [hname, Int.emod_emod_of_dvd _ (by decide)], ?_⟩
  have hpr' : printResult E p d = keyLine (Key.ofInt ((t + 3) % 12)) := by
    simp [printResult, hp1, hp2, Options.default, hm]
  rw [if_pos (by omega)] at hl
  simp only [main, hparse, hread, Res.bind_ok, hF, hd, hpr', hl, Res.pure_eq]

/-! ### Cases -/

/-- C major is closely related to G major and E minor, and not to F sharp major. -/
example : Related 0 7 ∧ Related 0 16 ∧ ¬ Related 0 6 ∧ ∀ a ∈ keys, (keys.filter (Related a)).length = 9 := by decide

/-- From C major to G major and on to D major: two steps, against one of the table. -/
example (s : String) (hs : s ∈ transitionChoices) : ¬ Related 0 2 ∧ goQ s 0 0 * goQ s 0 2 < goQ s 0 7 * goQ s 7 2 := by
  have : ∀ s ∈ transitionChoices, goQ s 0 0 * goQ s 0 2 < goQ s 0 7 * goQ s 7 2 := by decide +kernel
  exact ⟨by decide, this s hs⟩

/-- Five notes in C major, two in G major and two in A minor: more than half, all closely related. -/
example : (∀ l ∈ [0, 0, 7, 7, 21, 21, 0, 0, 0], IsKey l ∧ Related 0 l) ∧
    [0, 0, 7, 7, 21, 21, 0, 0, 0].length < 2 * [0, 0, 7, 7, 21, 21, 0, 0, 0].count (0 : Int) := by unfold IsKey; decide

example : triads 0 ++ triads 6 = [0, 4, 7, 0, 0, 4, 7, 0, 0, 4, 7, 0, 6, 10, 1, 6, 6, 10, 1, 6, 6, 10, 1, 6] := by decide

end JKD.Phrases
