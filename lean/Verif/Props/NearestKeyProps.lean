import Verif.Props.PassageProps
import Mathlib.Tactic.Linarith
/-
C162: the key of a piece is a key that is nearest to its local keys on the chart of the keys, whichever of the two transition tables is
used; a key of more than three quarters of the notes wins, fewer do not suffice.
-/

namespace JKD.Nearest

open Spec HMM RD Detect Phrases Main

/-- **Specification.**  How far two keys of one mode are apart, by the semitones between their tonics. -/
def likeModes : List Nat := [0, 5, 3, 3, 4, 1, 8, 1, 4, 3, 3, 5]

/-- **Specification.**  How far a major and a minor key are apart, by the semitones from the major to the minor tonic. -/
def mixedModes : List Nat := [1, 7, 2, 6, 2, 2, 6, 2, 7, 1, 4, 4]

/-- **Specification.**  How far two keys are apart on the chart of the keys: one step for the keys a fifth apart, the relative and the
parallel key, eight for the same mode at the tritone. -/
def apart (k l : Int) : Nat :=
  if Spec.isMajor k = Spec.isMajor l then likeModes.getD ((tonic l - tonic k) % 12).toNat 0
  else if Spec.isMajor k then mixedModes.getD ((tonic l - tonic k) % 12).toNat 0
  else mixedModes.getD ((tonic k - tonic l) % 12).toNat 0

/-- **Specification.**  How far key `k` is from the keys `ls`, all in all. -/
def total (ls : List Int) (k : Int) : Nat := (ls.map (apart k)).sum

/-- **Specification.**  No key is nearer to the keys `ls` than `k`. -/
def Nearest (ls : List Int) (k : Int) : Prop := IsKey k ∧ ∀ k', IsKey k' → total ls k ≤ total ls k'

/-- The number by which a transition table falls off per step. -/
def base (s : String) : Nat := if s = "exponential2" then 2 else 10

theorem goQ_apart : ∀ s ∈ transitionChoices, ∀ k ∈ keys, ∀ l ∈ keys, goQ s k l * (base s : Rat) ^ apart k l = goQ s 0 0 := by
  decide +kernel

theorem apart_comm : ∀ k ∈ keys, ∀ l ∈ keys, apart k l = apart l k := by decide +kernel

theorem apart_pos : ∀ k ∈ keys, ∀ l ∈ keys, (apart k l = 0 ↔ k = l) ∧ apart k l ≤ 8 := by decide +kernel

theorem apart_three : ∀ k ∈ keys, ∀ K ∈ keys, ∀ l ∈ keys, apart K l ≤ apart k l + 3 * apart k K := by decide +kernel

theorem base_two (s : String) : 2 ≤ base s := by unfold base; split <;> omega

/-- The evidence for a key falls off by the base of the table with every step that the key is farther away. -/
theorem evidence_total {s : String} (hs : s ∈ transitionChoices) {k : Int} (hk : k ∈ keys) :
    ∀ ls : List Int, (∀ l ∈ ls, l ∈ keys) →
      evidence (fun k l => (goQ s k l : ℝ)) ls k * (base s : ℝ) ^ total ls k = (goQ s 0 0 : ℝ) ^ ls.length := by
  intro ls
  induction ls with
  | nil => intro _; simp [evidence, total]
  | cons l ls ih =>
    intro h
    have ih := ih (fun x hx => h x (by simp [hx]))
    have h1 : (goQ s k l : ℝ) * (base s : ℝ) ^ apart k l = (goQ s 0 0 : ℝ) := by
      have := goQ_apart s hs k hk l (h l (by simp))
      exact_mod_cast congrArg (fun q : Rat => (q : ℝ)) this
    unfold evidence total at ih ⊢
    simp only [List.map_cons, List.prod_cons, List.sum_cons, List.length_cons, pow_add, pow_succ]
    rw [← ih, ← h1]
    ring

theorem total_perm {ls ms : List Int} (h : ls.Perm ms) (k : Int) : total ls k = total ms k := (h.map _).sum_eq

theorem total_append (ls ms : List Int) (k : Int) : total (ls ++ ms) k = total ls k + total ms k := by
  unfold total; simp

theorem total_replicate (m : Nat) (l k : Int) : total (List.replicate m l) k = m * apart k l := by
  unfold total; simp

/-- **C162, the nearest key.**  In double arithmetic, with either transition table, any profiles of the command line, any hash order and
any piece of up to half a million notes: the key of the piece is one that is nearest to its local keys. -/
theorem C162_nearest {η : ℝ} (lg : ℝ → RD) (hok : LogOk lg) (hlg : LogClose η lg) (hη : η ≤ (2 : ℝ) ^ (-30 : ℤ))
    (iter₁ iter₂ : Iter RD) (hi₁ : iter₁.Ok) (hi₂ : iter₂.Ok) (cfg : Config RD) (hc : Chosen cfg) (os : List Int)
    (ho : ∀ o ∈ os, 0 ≤ o ∧ o < 12) (hne : os ≠ []) (hn : os.length ≤ 2 ^ 19) :
    ∃ d ls k, detect (ieee lg) iter₁ iter₂ cfg (os.map PitchClass.ofInt) = .ok (.ok d) ∧
      d.localKeys = ls.map Key.ofInt ∧ ls.length = os.length ∧ (∀ l ∈ ls, IsKey l) ∧ d.mainKey = Key.ofInt k ∧ Nearest ls k := by
  obtain ⟨d, ls, k, hd, hloc, hll, hlk, _, hkey, hkk, hev, _⟩ := C121_program lg hok hlg iter₁ iter₂ hi₁ hi₂ cfg hc os ho hne
    (hn.trans (by norm_num))
  refine ⟨d, ls, k, hd, hloc, hll, hlk, hkey, hkk, fun k' hk' => ?_⟩
  by_contra hlt
  have hlt : total ls k' + 1 ≤ total ls k := by omega
  have hs := slack_tenth hη _ hn
  have hm : ∀ l ∈ ls, l ∈ keys := fun l h => mem_keys.2 (hlk l h)
  have e1 := evidence_total hc.trans (mem_keys.2 hkk) ls hm
  have e2 := evidence_total hc.trans (mem_keys.2 hk') ls hm
  have p1 := evidence_pos hc.trans ls k
  have h3 := hev k' hk'
  have hb : (2 : ℝ) ≤ (base cfg.keyTransition : ℝ) := by exact_mod_cast base_two _
  generalize (base cfg.keyTransition : ℝ) = b at *
  generalize evidence (fun k l => (goQ cfg.keyTransition k l : ℝ)) ls k = E at *
  generalize evidence (fun k l => (goQ cfg.keyTransition k l : ℝ)) ls k' = E' at *
  generalize (10 : ℝ) ^ (2 * slack η os.length) = c at *
  have hbp : (0 : ℝ) < b ^ total ls k' := by positivity
  have h4 : b ^ total ls k' * b ≤ b ^ total ls k := by
    rw [← pow_succ]
    exact pow_le_pow_right₀ (by linarith) hlt
  have h5 : E * (b ^ total ls k' * b) ≤ E' * b ^ total ls k' := by
    rw [e2, ← e1]
    exact mul_le_mul_of_nonneg_left h4 p1.le
  have h6 : E * b ≤ E' := by
    refine le_of_mul_le_mul_right ?_ hbp
    calc E * b * b ^ total ls k' = E * (b ^ total ls k' * b) := by ring
      _ ≤ _ := h5
  have h7 : E * 2 ≤ c * E := (mul_le_mul_of_nonneg_left hb p1.le).trans (h6.trans h3)
  nlinarith

/-- **C162, the scores.**  The score that `-p` prints for a key is, up to rounding, a constant of the run less the distance of the key from the
local keys (times the logarithm of the base of the table); so the nearer of two keys has the greater score. -/
theorem C162_scores {η : ℝ} (lg : ℝ → RD) (hok : LogOk lg) (hlg : LogClose η lg) (hη : η ≤ (2 : ℝ) ^ (-30 : ℤ))
    (iter₁ iter₂ : Iter RD) (hi₁ : iter₁.Ok) (hi₂ : iter₂.Ok) (cfg : Config RD) (hc : Chosen cfg) (os : List Int)
    (ho : ∀ o ∈ os, 0 ≤ o ∧ o < 12) (hne : os ≠ []) (hn : os.length ≤ 2 ^ 19) :
    ∃ (d : Detection RD) (ls : List Int) (v : Int → ℝ),
      detect (ieee lg) iter₁ iter₂ cfg (os.map PitchClass.ofInt) = .ok (.ok d) ∧
      d.localKeys = ls.map Key.ofInt ∧ (∀ l ∈ ls, IsKey l) ∧
      (∀ k, IsKey k → d.probabilities[k.toNat]? = some (fin (v k))) ∧
      (∃ c : ℝ, ∀ k, IsKey k → |v k - (c - total ls k * Real.logb 10 (base cfg.keyTransition))| ≤ slack η os.length) ∧
      ∀ k k', IsKey k → IsKey k' → total ls k < total ls k' → v k' < v k := by
  obtain ⟨d, ls, k, hd, hloc, hll, hlk, _, hkey, hkk, _, hsc⟩ := C121_program lg hok hlg iter₁ iter₂ hi₁ hi₂ cfg hc os ho hne
    (hn.trans (by norm_num))
  have hm : ∀ l ∈ ls, l ∈ keys := fun l h => mem_keys.2 (hlk l h)
  have hb : (2 : ℝ) ≤ (base cfg.keyTransition : ℝ) := by exact_mod_cast base_two _
  have hsc' : ∀ k : Int, ∃ v : ℝ, IsKey k → d.probabilities[k.toNat]? = some (fin v) ∧
      |v - (Real.logb 10 (1 / 24 * (goQ cfg.keyTransition 0 0 : ℝ) ^ ls.length) - total ls k * Real.logb 10 (base cfg.keyTransition))| ≤
        slack η os.length := by
    intro k
    by_cases hk : IsKey k
    · obtain ⟨v, h1, h2⟩ := hsc k hk
      refine ⟨v, fun _ => ⟨h1, ?_⟩⟩
      have e := evidence_total hc.trans (mem_keys.2 hk) ls hm
      have p := evidence_pos hc.trans ls k
      rw [← e, ← mul_assoc, Real.logb_mul (by positivity) (by positivity), Real.logb_pow]
      have : Real.logb 10 (1 / 24 * evidence (fun k l => (goQ cfg.keyTransition k l : ℝ)) ls k) +
          total ls k * Real.logb 10 (base cfg.keyTransition) - total ls k * Real.logb 10 (base cfg.keyTransition) =
          Real.logb 10 (1 / 24 * evidence (fun k l => (goQ cfg.keyTransition k l : ℝ)) ls k) := by ring
      rw [this]
      exact h2
    · exact ⟨0, fun h => absurd h hk⟩
  choose v hv using hsc'
  refine ⟨d, ls, v, hd, hloc, hlk, fun k hk => (hv k hk).1, ⟨_, fun k hk => (hv k hk).2⟩, fun k k' hk hk' hlt => ?_⟩
  have h1 := (abs_le.1 (hv k hk).2).1
  have h2 := (abs_le.1 (hv k' hk').2).2
  have hs := slack_tenth hη _ hn
  have hs2 : 2 * slack η os.length < Real.logb 10 (base cfg.keyTransition) := by
    rw [Real.lt_logb_iff_rpow_lt (by norm_num) (by linarith)]
    linarith
  have hL : (0 : ℝ) ≤ Real.logb 10 (base cfg.keyTransition) := Real.logb_nonneg (by norm_num) (by linarith)
  have hlt' : (total ls k : ℝ) + 1 ≤ total ls k' := by exact_mod_cast hlt
  have h3 := mul_le_mul_of_nonneg_right hlt' hL
  rw [add_mul, one_mul] at h3
  linarith

/-- Only one key has a given number. -/
theorem ofInt_int {k : Int} (hk : IsKey k) : (Key.ofInt k).int = some k := by
  have : ∀ k ∈ keys, (Key.ofInt k).int = some k := by decide +kernel
  exact this k (mem_keys.2 hk)

theorem back (ls : List Int) (h : ∀ l ∈ ls, IsKey l) : (ls.map Key.ofInt).map (fun K => K.int.getD 0) = ls := by
  rw [List.map_map]
  conv_rhs => rw [← List.map_id ls]
  refine List.map_congr_left (fun l hl => ?_)
  simp [ofInt_int (h l hl)]

/-- What is known of a run. -/
theorem ran {η : ℝ} (lg : ℝ → RD) (hok : LogOk lg) (hlg : LogClose η lg) (hη : η ≤ (2 : ℝ) ^ (-30 : ℤ))
    (iter₁ iter₂ : Iter RD) (hi₁ : iter₁.Ok) (hi₂ : iter₂.Ok) (cfg : Config RD) (hc : Chosen cfg) (os : List Int)
    (ho : ∀ o ∈ os, 0 ≤ o ∧ o < 12) (hne : os ≠ []) (hn : os.length ≤ 2 ^ 19) {d : Detection RD}
    (hd : detect (ieee lg) iter₁ iter₂ cfg (os.map PitchClass.ofInt) = .ok (.ok d)) :
    ∃ ls k, d.localKeys = ls.map Key.ofInt ∧ ls.length = os.length ∧ (∀ l ∈ ls, IsKey l) ∧ d.mainKey = Key.ofInt k ∧ Nearest ls k := by
  obtain ⟨d', ls, k, hd', h⟩ := C162_nearest lg hok hlg hη iter₁ iter₂ hi₁ hi₂ cfg hc os ho hne hn
  rw [hd] at hd'
  cases hd'
  exact ⟨ls, k, h⟩

theorem total_count {k K : Int} (hk : k ∈ keys) (hK : K ∈ keys) : ∀ ls : List Int, (∀ l ∈ ls, l ∈ keys) →
    total ls K + 4 * (apart k K * ls.count K) ≤ total ls k + 3 * (apart k K * ls.length) := by
  intro ls
  induction ls with
  | nil => intro _; simp [total]
  | cons l ls ih =>
    intro h
    have ih := ih (fun x hx => h x (by simp [hx]))
    have hl := h l (by simp)
    have h3 := apart_three k hk K hK l hl
    unfold total at ih ⊢
    simp only [List.map_cons, List.sum_cons, List.length_cons, List.count_cons]
    by_cases e : l = K
    · subst e
      have h0 := ((apart_pos l hl l hl).1).2 rfl
      simp only [beq_self_eq_true, if_true, Nat.mul_add, h0]
      omega
    · simp only [beq_iff_eq, e, if_false, Nat.mul_add, Nat.add_zero]
      omega

theorem nearest_quarters {ls : List Int} (hl : ∀ l ∈ ls, IsKey l) {k K : Int} (hn : Nearest ls k) (hK : IsKey K)
    (h : 3 * ls.length < 4 * ls.count K) : k = K := by
  by_contra hne
  have h1 := total_count (mem_keys.2 hn.1) (mem_keys.2 hK) ls (fun l h => mem_keys.2 (hl l h))
  have h2 := hn.2 K hK
  have h3 : 0 < apart k K := Nat.pos_of_ne_zero (fun e => hne (((apart_pos k (mem_keys.2 hn.1) K (mem_keys.2 hK)).1).1 e))
  have h4 := Nat.mul_lt_mul_of_pos_left h h3
  have h5 : 3 * (apart k K * ls.length) < 4 * (apart k K * ls.count K) := by
    calc 3 * (apart k K * ls.length) = apart k K * (3 * ls.length) := by ring
      _ < apart k K * (4 * ls.count K) := h4
      _ = _ := by ring
  omega

/-- **C162, three quarters.**  A key that more than three quarters of the notes have as their local key is the key of the piece. -/
theorem C162_quarters {η : ℝ} (lg : ℝ → RD) (hok : LogOk lg) (hlg : LogClose η lg) (hη : η ≤ (2 : ℝ) ^ (-30 : ℤ))
    (iter₁ iter₂ : Iter RD) (hi₁ : iter₁.Ok) (hi₂ : iter₂.Ok) (cfg : Config RD) (hc : Chosen cfg) (os : List Int)
    (ho : ∀ o ∈ os, 0 ≤ o ∧ o < 12) (hne : os ≠ []) (hn : os.length ≤ 2 ^ 19) (d : Detection RD)
    (hd : detect (ieee lg) iter₁ iter₂ cfg (os.map PitchClass.ofInt) = .ok (.ok d)) (K : Key)
    (h : 3 * d.localKeys.length < 4 * d.localKeys.count K) : d.mainKey = K := by
  obtain ⟨ls, k, hloc, hll, hlk, hkey, hnear⟩ := ran lg hok hlg hη iter₁ iter₂ hi₁ hi₂ cfg hc os ho hne hn hd
  have hmem : K ∈ d.localKeys := List.count_pos_iff.1 (by omega)
  rw [hloc] at hmem
  obtain ⟨n, hnm, rfl⟩ := List.mem_map.1 hmem
  have hcount : (ls.map Key.ofInt).count (Key.ofInt n) = ls.count n := by
    unfold List.count
    rw [List.countP_map]
    refine List.countP_congr (fun l hl => ?_)
    simp only [Function.comp, beq_iff_eq]
    constructor
    · intro e
      have := congrArg Key.int e
      rw [ofInt_int (hlk l hl), ofInt_int (hlk n hnm)] at this
      exact Option.some.inj this
    · rintro rfl; rfl
  rw [hloc, hcount, List.length_map] at h
  rw [hkey, nearest_quarters hlk hnear (hlk n hnm) h]

/-- **C162, more of the same.**  Two runs, with the same or with different tables: if the second has the local keys of the first, in
any order, and besides these only local keys that are the key of the first piece, then it gives the same key. -/
theorem C162_more {η : ℝ} (lg : ℝ → RD) (hok : LogOk lg) (hlg : LogClose η lg) (hη : η ≤ (2 : ℝ) ^ (-30 : ℤ))
    (iter₁ iter₂ iter₁' iter₂' : Iter RD) (hi₁ : iter₁.Ok) (hi₂ : iter₂.Ok) (hi₁' : iter₁'.Ok) (hi₂' : iter₂'.Ok)
    (cfg cfg' : Config RD) (hc : Chosen cfg) (hc' : Chosen cfg') (os os' : List Int)
    (ho : ∀ o ∈ os, 0 ≤ o ∧ o < 12) (ho' : ∀ o ∈ os', 0 ≤ o ∧ o < 12) (hne : os ≠ []) (hne' : os' ≠ [])
    (hn : os.length ≤ 2 ^ 19) (hn' : os'.length ≤ 2 ^ 19) (d d' : Detection RD)
    (hd : detect (ieee lg) iter₁ iter₂ cfg (os.map PitchClass.ofInt) = .ok (.ok d))
    (hd' : detect (ieee lg) iter₁' iter₂' cfg' (os'.map PitchClass.ofInt) = .ok (.ok d'))
    (m : Nat) (hm : 0 < m) (hp : d'.localKeys.Perm (d.localKeys ++ List.replicate m d.mainKey)) : d'.mainKey = d.mainKey := by
  obtain ⟨ls, k, hloc, _, hlk, hkey, hnear⟩ := ran lg hok hlg hη iter₁ iter₂ hi₁ hi₂ cfg hc os ho hne hn hd
  obtain ⟨ls', k', hloc', _, hlk', hkey', hnear'⟩ := ran lg hok hlg hη iter₁' iter₂' hi₁' hi₂' cfg' hc' os' ho' hne' hn' hd'
  have hp' : ls'.Perm (ls ++ List.replicate m k) := by
    have h := hp.map (fun K : Key => K.int.getD 0)
    rw [hloc', hloc, hkey, List.map_append, back ls hlk, back ls' hlk', List.map_replicate, ofInt_int hnear.1] at h
    exact h
  have h1 := hnear.2 k' hnear'.1
  have h2 := hnear'.2 k hnear.1
  rw [total_perm hp', total_perm hp', total_append, total_append, total_replicate, total_replicate,
    ((apart_pos k (mem_keys.2 hnear.1) k (mem_keys.2 hnear.1)).1).2 rfl, Nat.mul_zero] at h2
  have h3 : m * apart k' k = 0 := by omega
  rcases Nat.mul_eq_zero.1 h3 with h | h
  · omega
  · rw [hkey, hkey', ((apart_pos k' (mem_keys.2 hnear'.1) k (mem_keys.2 hnear.1)).1).1 h]

/-- **C162, the table does not matter here.**  Two runs that have the same local keys, in any order, and only one nearest key: both give
it, whichever transition tables they use. -/
theorem C162_tables {η : ℝ} (lg : ℝ → RD) (hok : LogOk lg) (hlg : LogClose η lg) (hη : η ≤ (2 : ℝ) ^ (-30 : ℤ))
    (iter₁ iter₂ iter₁' iter₂' : Iter RD) (hi₁ : iter₁.Ok) (hi₂ : iter₂.Ok) (hi₁' : iter₁'.Ok) (hi₂' : iter₂'.Ok)
    (cfg cfg' : Config RD) (hc : Chosen cfg) (hc' : Chosen cfg') (os os' : List Int)
    (ho : ∀ o ∈ os, 0 ≤ o ∧ o < 12) (ho' : ∀ o ∈ os', 0 ≤ o ∧ o < 12) (hne : os ≠ []) (hne' : os' ≠ [])
    (hn : os.length ≤ 2 ^ 19) (hn' : os'.length ≤ 2 ^ 19) (d d' : Detection RD)
    (hd : detect (ieee lg) iter₁ iter₂ cfg (os.map PitchClass.ofInt) = .ok (.ok d))
    (hd' : detect (ieee lg) iter₁' iter₂' cfg' (os'.map PitchClass.ofInt) = .ok (.ok d'))
    (hp : d'.localKeys.Perm d.localKeys) (ls : List Int) (hls : d.localKeys = ls.map Key.ofInt) (hlk : ∀ l ∈ ls, IsKey l)
    (hone : ∀ k k', Nearest ls k → Nearest ls k' → k = k') : d'.mainKey = d.mainKey := by
  obtain ⟨ms, k, hloc, _, hmk, hkey, hnear⟩ := ran lg hok hlg hη iter₁ iter₂ hi₁ hi₂ cfg hc os ho hne hn hd
  obtain ⟨ls', k', hloc', _, hlk', hkey', hnear'⟩ := ran lg hok hlg hη iter₁' iter₂' hi₁' hi₂' cfg' hc' os' ho' hne' hn' hd'
  have e : ms = ls := by
    have h := congrArg (List.map (fun K : Key => K.int.getD 0)) (hloc.symm.trans hls)
    rwa [back ms hmk, back ls hlk] at h
  subst e
  have hp' : ls'.Perm ms := by
    have h := hp.map (fun K : Key => K.int.getD 0)
    rwa [hloc', hloc, back ms hmk, back ls' hlk'] at h
  have h2 : Nearest ms k' := ⟨hnear'.1, fun x hx => by
    have := hnear'.2 x hx
    rwa [total_perm hp', total_perm hp'] at this⟩
  rw [hkey, hkey', hone k k' hnear h2]

/-! ### Passages -/

/-- **C162, passages.**  A piece more than three quarters of which are phrases in one key, whatever the rest is (the sixteen phrases next
to the rest count as rest), is in this key. -/
theorem C162_passage {η : ℝ} (lg : ℝ → RD) (hok : LogOk lg) (hlg : LogClose η lg) (hη : η ≤ (2 : ℝ) ^ (-30 : ℤ))
    (iter₁ iter₂ : Iter RD) (hi₁ : iter₁.Ok) (hi₂ : iter₂.Ok) (cfg : Config RD) (hc : Chosen cfg)
    (hT : cfg.keyTransition = "exponential10") (hM : cfg.majorKeyProfile = "sapp") (hm : cfg.minorKeyProfile = "sapp")
    (K : Int) (hK : IsKey K) (pre post : List Int) (hp : ∀ o ∈ pre ++ post, 0 ≤ o ∧ o < 12)
    (ps1 ps ps2 : List (List Nat)) (hps : ∀ p ∈ ps1 ++ ps ++ ps2, p ∈ if Spec.isMajor K then majorPhrases else minorPhrases)
    (h1 : pre = [] ∨ 16 ≤ ps1.length) (h2 : post = [] ∨ 16 ≤ ps2.length)
    (hmaj : 3 * (pre ++ played K (ps1 ++ ps2) ++ post).length < (played K ps).length)
    (hn : (pre ++ played K (ps1 ++ ps ++ ps2) ++ post).length ≤ 2 ^ 19) :
    ∃ d, detect (ieee lg) iter₁ iter₂ cfg ((pre ++ played K (ps1 ++ ps ++ ps2) ++ post).map PitchClass.ofInt) = .ok (.ok d) ∧
      d.mainKey = Key.ofInt K := by
  have hne : pre ++ played K (ps1 ++ ps ++ ps2) ++ post ≠ [] := by
    intro e
    have := congrArg List.length e
    simp only [played_append, List.length_append, List.length_nil] at this
    omega
  have hr : ∀ o ∈ pre ++ played K (ps1 ++ ps ++ ps2) ++ post, 0 ≤ o ∧ o < 12 := by
    intro o ho
    rcases List.mem_append.1 ho with ho | ho
    · rcases List.mem_append.1 ho with ho | ho
      · exact hp o (by simp [ho])
      · exact played_range _ _ o ho
    · exact hp o (by simp [ho])
  obtain ⟨d, hd, hl, hin, _⟩ := C133_passage lg hok hlg hη iter₁ iter₂ hi₁ hi₂ cfg hc hT hM hm K hK pre post hp ps1 ps ps2 hps h1 h2 hne hn
  refine ⟨d, hd, ?_⟩
  obtain ⟨ls, k, hloc, hll, hlk, hkey, hnear⟩ := ran lg hok hlg hη iter₁ iter₂ hi₁ hi₂ cfg hc _ hr hne hn hd
  have hcount : (played K ps).length ≤ ls.count K := by
    refine count_range K ls (pre ++ played K ps1).length _ (fun i hi1 hi2 => ?_)
    have h := hin i hi1 (by simp only [played_append, List.length_append] at hi2 ⊢; omega)
    rw [hloc, List.getElem?_map] at h
    cases hi : ls[i]? with
    | none => rw [hi] at h; cases h
    | some x =>
      rw [hi] at h
      have h := congrArg Key.int (Option.some.inj h)
      rw [ofInt_int (hlk x (List.mem_of_getElem? hi)), ofInt_int hK] at h
      exact h
  rw [hkey, nearest_quarters hlk hnear hK]
  rw [hll]
  simp only [played_append, List.length_append] at hmaj ⊢
  omega

/-- **C162, whole program.**  It prints the key in which more than three quarters of the piece are. -/
theorem C162_main {S P T : Type} {η : ℝ} (lg : ℝ → RD) (hok : LogOk lg) (hlg : LogClose η lg) (hη : η ≤ (2 : ℝ) ^ (-30 : ℤ))
    (E : Env RD S P T) (hF : E.F = ieee lg) (hi₁ : HMM.Iter.Ok E.iter₁) (hi₂ : HMM.Iter.Ok E.iter₂)
    (hj : E.junkMajor.length = 12 ∧ E.junkMinor.length = 12 ∧ E.junkTransition.length = 24)
    (o : Options) (ho : o.Valid) (hk : o.customkeyprofiles = none) (ht : o.customkeytransitions = none)
    (he : o.evaluate = false) (hpr : o.probabilities = false) (hT : o.keytransition = "exponential10")
    (hM : o.majorprofile = "sapp") (hm : o.minorprofile = "sapp") (p : Parsed RD) (hparse : parseArgs E (.ok o) = .ok (.ok p))
    (K : Int) (hK : IsKey K) (pre post : List Int) (hp : ∀ o ∈ pre ++ post, 0 ≤ o ∧ o < 12)
    (ps1 ps ps2 : List (List Nat)) (hps : ∀ p ∈ ps1 ++ ps ++ ps2, p ∈ if Spec.isMajor K then majorPhrases else minorPhrases)
    (h1 : pre = [] ∨ 16 ≤ ps1.length) (h2 : post = [] ∨ 16 ≤ ps2.length)
    (hmaj : 3 * (pre ++ played K (ps1 ++ ps2) ++ post).length < (played K ps).length)
    (hn : (pre ++ played K (ps1 ++ ps ++ ps2) ++ post).length ≤ 2 ^ 19)
    (hread : readInput E p = .ok (.ok ((pre ++ played K (ps1 ++ ps ++ ps2) ++ post).map PitchClass.ofInt))) :
    ∃ name : Str, noteName (name.map Char.toLower) = some (tonic K) ∧
      main E (.ok o) = .ok { stdout := name ++ '\t' :: (if Spec.isMajor K then "major".toList else "minor".toList) ++ ['\n']
                             stderr := [], code := 0 } := by
  obtain ⟨hcfg, hp1, hp2⟩ := parse_cfg E o p hk ht hparse
  have hch : Chosen p.cfg := by
    rw [hcfg]
    exact ⟨⟨hj.2.2, hj.1, hj.2.1⟩, ho.major, ho.minor, ho.trans⟩
  obtain ⟨d, hd, hmain⟩ := C162_passage lg hok hlg hη E.iter₁ E.iter₂ hi₁ hi₂ p.cfg hch (by rw [hcfg]; exact hT)
    (by rw [hcfg]; exact hM) (by rw [hcfg]; exact hm) K hK pre post hp ps1 ps ps2 hps h1 h2 hmaj hn
  obtain ⟨name, hl, _, hname⟩ := C39_line K hK
  refine ⟨name, hname, ?_⟩
  have hpr' : printResult E p d = keyLine (Key.ofInt K) := by
    simp [printResult, hp1, hp2, he, hpr, hmain]
  have hmode : (if Spec.isMajor K then "major".toList else "minor".toList) =
      if K < 12 then "major".toList else "minor".toList := by
    unfold Spec.isMajor
    by_cases h : K < 12 <;> simp [h]
  simp only [main, hparse, hread, Res.bind_ok, hF, hd, hpr', hl, Res.pure_eq, hmode]

/-! ### Fewer than three quarters -/

theorem total_two {k K L : Int} (hk : k ∈ keys) (hKL : K ≠ L) : ∀ ls : List Int, (∀ l ∈ ls, l ∈ keys) →
    apart k K * ls.count K + apart k L * ls.count L ≤ total ls k ∧
      total ls k + 8 * ls.count K + 8 * ls.count L ≤ apart k K * ls.count K + apart k L * ls.count L + 8 * ls.length := by
  intro ls
  induction ls with
  | nil => intro _; simp [total]
  | cons l ls ih =>
    intro h
    obtain ⟨i1, i2⟩ := ih (fun x hx => h x (by simp [hx]))
    have hl := (apart_pos k hk l (h l (by simp))).2
    unfold total at i1 i2 ⊢
    simp only [List.map_cons, List.sum_cons, List.length_cons, List.count_cons, beq_iff_eq]
    by_cases e : l = K
    · subst e
      simp only [if_true, if_neg hKL, Nat.mul_add, Nat.add_zero, Nat.mul_one]
      omega
    · by_cases e' : l = L
      · subst e'
        simp only [if_true, if_neg e, Nat.mul_add, Nat.add_zero, Nat.mul_one]
        omega
      · simp only [if_neg e, if_neg e', Nat.add_zero]
        omega

theorem tritone : ∀ K ∈ keys, ∀ L ∈ keys, Spec.isMajor L = Spec.isMajor K → tonic L = (tonic K + 6) % 12 →
    K ≠ L ∧ apart K K = 0 ∧ apart L L = 0 ∧ apart K L = 8 ∧ apart L K = 8 ∧ ∃ k ∈ keys, apart k K = 1 ∧ apart k L = 5 := by
  decide +kernel

/-- **C162, two thirds are not enough.**  A piece that is in one key and then, for more than a quarter of its length, in the key of the
same mode at the tritone: although almost every note has one of the two as its local key, the key that is given is neither.  (The notes
around the change that are not accounted for have to be few.) -/
theorem C162_neither {η : ℝ} (lg : ℝ → RD) (hok : LogOk lg) (hlg : LogClose η lg) (hη : η ≤ (2 : ℝ) ^ (-30 : ℤ))
    (iter₁ iter₂ : Iter RD) (hi₁ : iter₁.Ok) (hi₂ : iter₂.Ok) (cfg : Config RD) (hc : Chosen cfg)
    (hT : cfg.keyTransition = "exponential10") (hM : cfg.majorKeyProfile = "sapp") (hm : cfg.minorKeyProfile = "sapp")
    (K L : Int) (hK : IsKey K) (hL : IsKey L) (hmode : Spec.isMajor L = Spec.isMajor K) (hton : tonic L = (tonic K + 6) % 12)
    (ps ps' qs' qs : List (List Nat))
    (hps : ∀ p ∈ ps ++ ps', p ∈ if Spec.isMajor K then majorPhrases else minorPhrases)
    (hqs : ∀ p ∈ qs' ++ qs, p ∈ if Spec.isMajor L then majorPhrases else minorPhrases)
    (h1 : ps'.length = 16) (h2 : qs'.length = 16)
    (hn : (played K (ps ++ ps') ++ played L (qs' ++ qs)).length ≤ 2 ^ 19)
    (hb : (played K ps).length + 8 * (played K ps' ++ played L qs').length < 3 * (played L qs).length)
    (ha : 5 * (played L qs).length + 8 * (played K ps' ++ played L qs').length < 7 * (played K ps).length) :
    ∃ d, detect (ieee lg) iter₁ iter₂ cfg ((played K (ps ++ ps') ++ played L (qs' ++ qs)).map PitchClass.ofInt) = .ok (.ok d) ∧
      d.localKeys.length = (played K (ps ++ ps') ++ played L (qs' ++ qs)).length ∧
      (∀ i : Nat, i < (played K ps).length → d.localKeys[i]? = some (Key.ofInt K)) ∧
      (∀ i : Nat, (played K (ps ++ ps') ++ played L qs').length ≤ i → i < (played K (ps ++ ps') ++ played L (qs' ++ qs)).length →
        d.localKeys[i]? = some (Key.ofInt L)) ∧
      d.mainKey ≠ Key.ofInt K ∧ d.mainKey ≠ Key.ofInt L := by
  obtain ⟨d, hd, a1, a2⟩ := C133_modulation lg hok hlg hη iter₁ iter₂ hi₁ hi₂ cfg hc hT hM hm K L hK hL ps ps' qs' qs hps hqs h1 h2 hn
  have hlen : (played K (ps ++ ps') ++ played L (qs' ++ qs)).length =
      (played K ps).length + (played K ps' ++ played L qs').length + (played L qs).length := by
    simp only [played_append, List.length_append]
    omega
  have hlen' : (played K (ps ++ ps') ++ played L qs').length = (played K ps).length + (played K ps' ++ played L qs').length := by
    simp only [played_append, List.length_append]
    omega
  have hne : played K (ps ++ ps') ++ played L (qs' ++ qs) ≠ [] := by
    intro e
    rw [e] at hlen
    simp only [List.length_nil] at hlen
    omega
  obtain ⟨ls, k, hloc, hll, hlk, hkey, hnear⟩ := ran lg hok hlg hη iter₁ iter₂ hi₁ hi₂ cfg hc _
    (fun o ho => by
      rcases List.mem_append.1 ho with ho | ho
      · exact played_range _ _ o ho
      · exact played_range _ _ o ho) hne hn hd
  have same : ∀ (i : Nat) (n : Int), IsKey n → d.localKeys[i]? = some (Key.ofInt n) → ls[i]? = some n := by
    intro i n hn' h
    rw [hloc, List.getElem?_map] at h
    cases hi : ls[i]? with
    | none => rw [hi] at h; cases h
    | some x =>
      rw [hi] at h
      have h := congrArg Key.int (Option.some.inj h)
      rw [ofInt_int (hlk x (List.mem_of_getElem? hi)), ofInt_int hn'] at h
      exact h
  have cK : (played K ps).length ≤ ls.count K :=
    count_range K ls 0 _ (fun i _ hi => same i K hK (a1 i (by omega)))
  have cL : (played L qs).length ≤ ls.count L :=
    count_range L ls (played K (ps ++ ps') ++ played L qs').length _ (fun i hi hi' => same i L hL (a2 i hi (by omega)))
  obtain ⟨t0, t1, t2, t3, t4, x, hx, t5, t6⟩ := tritone K (mem_keys.2 hK) L (mem_keys.2 hL) hmode hton
  have hmem : ∀ l ∈ ls, l ∈ keys := fun l h => mem_keys.2 (hlk l h)
  have sx := (total_two hx t0 ls hmem).2
  have sK := (total_two (mem_keys.2 hK) t0 ls hmem).1
  have sL := (total_two (mem_keys.2 hL) t0 ls hmem).1
  have hbest := hnear.2 x (mem_keys.1 hx)
  rw [t5, t6] at sx
  rw [t1, t3] at sK
  rw [t2, t4] at sL
  have inj : ∀ n, IsKey n → d.mainKey = Key.ofInt n → k = n := by
    intro n hn' h
    have h := congrArg Key.int (hkey.symm.trans h)
    rw [ofInt_int hnear.1, ofInt_int hn'] at h
    exact Option.some.inj h
  refine ⟨d, hd, by rw [hloc, List.length_map, hll], a1, a2, fun h => ?_, fun h => ?_⟩
  · have := inj K hK h
    subst this
    omega
  · have := inj L hL h
    subst this
    omega

/-! ### Cases -/

/-- C major three times and F sharp major once: C, F and G are equally near; with C twice only F and G are. -/
example : total [0, 0, 0, 6] 0 = 8 ∧ total [0, 0, 0, 6] 5 = 8 ∧ total [0, 0, 6] 0 = 8 ∧ total [0, 0, 6] 5 = 7 ∧ total [0, 0, 6] 7 = 7 := by
  decide

example : Nearest [0, 0, 6] 5 ∧ ¬ Nearest [0, 0, 6] 0 := by
  refine ⟨⟨by decide, fun k' h => ?_⟩, fun h => ?_⟩
  · have : ∀ k ∈ keys, total [0, 0, 6] 5 ≤ total [0, 0, 6] k := by decide +kernel
    exact this k' (mem_keys.2 h)
  · exact absurd (h.2 5 (by decide)) (by decide)

/-- Two thousand broken triads of C major, then a thousand of F sharp major (and sixteen of each about the change): neither is given. -/
example (iter₁ iter₂ : Iter RD) (hi₁ : iter₁.Ok) (hi₂ : iter₂.Ok) :
    ∃ d, detect (ieee (fun r => rnd64 (Real.logb 10 r))) iter₁ iter₂ sapped
        ((played 0 (List.replicate 2000 [0, 4, 7, 0] ++ List.replicate 16 [0, 4, 7, 0]) ++
          played 6 (List.replicate 16 [0, 4, 7, 0] ++ List.replicate 1000 [0, 4, 7, 0])).map PitchClass.ofInt) = .ok (.ok d) ∧
      d.mainKey ≠ Key.ofInt 0 ∧ d.mainKey ≠ Key.ofInt 6 := by
  have hlen : ∀ (K : Int) (n : Nat), (played K (List.replicate n [0, 4, 7, 0])).length = n * 4 := by
    intro K n
    simp [played]
  have hmem : ∀ n m : Nat, ∀ p ∈ List.replicate n [0, 4, 7, 0] ++ List.replicate m [0, 4, 7, 0], p ∈ majorPhrases := by
    intro n m p hp
    rw [List.replicate_append_replicate] at hp
    rw [List.eq_of_mem_replicate hp]
    decide
  obtain ⟨d, hd, _, _, _, h⟩ := C162_neither _ logOk_rounded logClose_rounded (zpow_le_zpow_right₀ (by norm_num) (by norm_num))
    iter₁ iter₂ hi₁ hi₂ sapped sapped_chosen rfl rfl rfl 0 6 (by decide) (by decide) (by decide) (by decide)
    (List.replicate 2000 [0, 4, 7, 0]) (List.replicate 16 [0, 4, 7, 0]) (List.replicate 16 [0, 4, 7, 0])
    (List.replicate 1000 [0, 4, 7, 0]) (fun p hp => hmem _ _ p hp) (fun p hp => hmem _ _ p hp) (List.length_replicate ..)
    (List.length_replicate ..) (by simp only [List.length_append, played_append, hlen]; norm_num)
    (by simp only [List.length_append, hlen]; norm_num) (by simp only [List.length_append, hlen]; norm_num)
  exact ⟨d, hd, h⟩

/-- Three hundred broken triads of C major before sixteen more and any fifteen notes of anything: it is C major. -/
example (iter₁ iter₂ : Iter RD) (hi₁ : iter₁.Ok) (hi₂ : iter₂.Ok) (post : List Int) (hp : ∀ o ∈ post, 0 ≤ o ∧ o < 12) (hl : post.length = 15) :
    ∃ d, detect (ieee (fun r => rnd64 (Real.logb 10 r))) iter₁ iter₂ sapped
        (([] ++ played 0 ([] ++ List.replicate 300 [0, 4, 7, 0] ++ List.replicate 16 [0, 4, 7, 0]) ++ post).map PitchClass.ofInt) =
          .ok (.ok d) ∧ d.mainKey = Key.ofInt 0 := by
  have hlen : ∀ (K : Int) (n : Nat), (played K (List.replicate n [0, 4, 7, 0])).length = n * 4 := by
    intro K n
    simp [played]
  refine C162_passage _ logOk_rounded logClose_rounded (zpow_le_zpow_right₀ (by norm_num) (by norm_num)) iter₁ iter₂ hi₁ hi₂ sapped
    sapped_chosen rfl rfl rfl 0 (by decide) [] post (by simpa using hp) [] (List.replicate 300 [0, 4, 7, 0])
    (List.replicate 16 [0, 4, 7, 0]) ?_ (Or.inl rfl) (Or.inr (List.length_replicate ..).ge) ?_ ?_
  · intro p hp
    rw [List.nil_append, List.replicate_append_replicate] at hp
    rw [List.eq_of_mem_replicate hp]
    decide
  · simp only [List.nil_append, List.length_append, hlen, hl]
    norm_num
  · simp only [List.nil_append, List.length_append, played_append, hlen, hl]
    norm_num

end JKD.Nearest
