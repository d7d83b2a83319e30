import Verif.FP.Error
import Verif.Props.DefaultProps
import Mathlib.Analysis.SpecialFunctions.Pow.Real
/-
C121: key detection in double arithmetic finds the most probable keys up to rounding.
-/

namespace JKD.HMM

open Spec RD

/-- What is assumed of the C library's `log10`: on positive normal doubles it is finite, of moderate size and off by at most `η`. -/
def LogClose (η : ℝ) (lg : ℝ → RD) : Prop :=
  ∀ r : ℝ, (2 : ℝ) ^ (-1022 : ℤ) ≤ r → r ≤ (2 : ℝ) ^ (1023 : ℤ) →
    ∃ t, lg r = fin t ∧ |t| ≤ 512 ∧ |t - Real.logb 10 r| ≤ η

/-- **Specification.**  The double `a` stores the probability `x`, which is zero or of moderate size. -/
def Entry (x : ℝ) (a : RD) : Prop :=
  (x = 0 ∨ ((2 : ℝ) ^ (-490 : ℤ) ≤ x ∧ x ≤ (2 : ℝ) ^ (490 : ℤ))) ∧ ∃ y, a = fin y ∧ Close ((2 : ℝ) ^ (-53 : ℤ)) x y

/-- The doubles `T` store the probabilities `t`. -/
structure Stored (t : Tables ℝ) (T : Tables RD) : Prop where
  init : ∀ k, Entry (t.init k) (T.init k)
  trans : ∀ j k, Entry (t.trans j k) (T.trans j k)
  emis : ∀ k o, Entry (t.emis k o) (T.emis k o)

/-- How far the score of a sequence of `k` states may be off, in powers of ten. -/
noncomputable def slack (η : ℝ) (k : Nat) : ℝ := k * (η + (2 : ℝ) ^ (-51 : ℤ)) + k ^ 2 * (2 : ℝ) ^ (-44 : ℤ)

theorem Entry.nonneg {x : ℝ} {a : RD} (h : Entry x a) : 0 ≤ x := by
  rcases h.1 with h | h
  · exact h.ge
  · exact (two_zpow_pos _).le.trans h.1

theorem Stored.nonneg {t : Tables ℝ} {T : Tables RD} (h : Stored t T) : NonNeg t where
  init k := (h.init k).nonneg
  trans j k := (h.trans j k).nonneg
  emis k o := (h.emis k o).nonneg

theorem eps_pos : (0 : ℝ) < 2 ^ (-53 : ℤ) := two_zpow_pos _

theorem eps_half : (2 : ℝ) ^ (-53 : ℤ) ≤ 1 / 2 := by norm_num

theorem entry_pos {x : ℝ} {a : RD} (h : Entry x a) (hx : 0 < x) :
    ∃ y, a = fin y ∧ (2 : ℝ) ^ (-491 : ℤ) ≤ y ∧ y ≤ (2 : ℝ) ^ (491 : ℤ) ∧
      |Real.logb 10 y - Real.logb 10 x| ≤ (2 : ℝ) ^ (-53 : ℤ) := by
  obtain ⟨h1, y, rfl, hc⟩ := h
  rcases h1 with h1 | ⟨h1, h2⟩
  · exact absurd h1 hx.ne'
  refine ⟨y, rfl, ?_, ?_, (logb_close hx eps_pos.le eps_half hc).2⟩
  · refine le_trans ?_ hc.1
    calc (2 : ℝ) ^ (-491 : ℤ) = 1 / 2 * 2 ^ (-490 : ℤ) := by
          rw [show (1 : ℝ) / 2 = 2 ^ (-1 : ℤ) by norm_num, ← zpow_add₀ (by norm_num : (2 : ℝ) ≠ 0)]
          norm_num
      _ ≤ (1 - 2 ^ (-53 : ℤ)) * x := mul_le_mul (by norm_num) h1 (two_zpow_pos _).le (by norm_num)
  · refine hc.2.trans ?_
    calc (1 + (2 : ℝ) ^ (-53 : ℤ)) * x ≤ 2 * 2 ^ (490 : ℤ) :=
          mul_le_mul (by norm_num) h2 hx.le (by norm_num)
      _ = (2 : ℝ) ^ (491 : ℤ) := by
          rw [show (2 : ℝ) * 2 ^ (490 : ℤ) = 2 ^ (1 : ℤ) * 2 ^ (490 : ℤ) by norm_num,
            ← zpow_add₀ (by norm_num : (2 : ℝ) ≠ 0)]
          norm_num

section
variable {η : ℝ} {lg : ℝ → RD} (hlg : LogClose η lg)
include hlg

/-- One term of the score. -/
theorem term_close {x y : ℝ} {a b : RD} (hx : Entry x a) (hy : Entry y b) (h : 0 < x * y) :
    ∃ w, (ieee lg).log10 ((ieee lg).mul a b) = fin w ∧ |w| ≤ 512 ∧
      |w - Real.logb 10 (x * y)| ≤ η + 3 * (2 : ℝ) ^ (-53 : ℤ) := by
  have hx0 : 0 < x := by
    rcases hx.nonneg.eq_or_lt with e | e
    · rw [← e, zero_mul] at h; exact absurd h (lt_irrefl _)
    · exact e
  have hy0 : 0 < y := by
    rcases hy.nonneg.eq_or_lt with e | e
    · rw [← e, mul_zero] at h; exact absurd h (lt_irrefl _)
    · exact e
  obtain ⟨u, rfl, u1, u2, u3⟩ := entry_pos hx hx0
  obtain ⟨v, rfl, v1, v2, v3⟩ := entry_pos hy hy0
  have hu0 : 0 < u := (two_zpow_pos _).trans_le u1
  have hv0 : 0 < v := (two_zpow_pos _).trans_le v1
  have h1 : (2 : ℝ) ^ (-982 : ℤ) ≤ u * v := by
    calc (2 : ℝ) ^ (-982 : ℤ) = 2 ^ (-491 : ℤ) * 2 ^ (-491 : ℤ) := by rw [← zpow_add₀ (by norm_num)]; norm_num
      _ ≤ u * v := mul_le_mul u1 v1 (two_zpow_pos _).le hu0.le
  have h2 : u * v ≤ (2 : ℝ) ^ (982 : ℤ) := by
    calc u * v ≤ 2 ^ (491 : ℤ) * 2 ^ (491 : ℤ) := mul_le_mul u2 v2 hv0.le (two_zpow_pos _).le
      _ = (2 : ℝ) ^ (982 : ℤ) := by rw [← zpow_add₀ (by norm_num)]; norm_num
  obtain ⟨z, hz, hz1, hz2⟩ := rnd64_between (by norm_num) (by norm_num) h1 h2
  obtain ⟨z', hz', hc⟩ := rnd64_close (x := u * v)
    (Or.inr (le_trans (zpow_le_zpow_right₀ (by norm_num) (by norm_num)) h1))
    (le_trans h2 (zpow_le_zpow_right₀ (by norm_num) (by norm_num)))
  have hzz : z' = z := by
    rw [hz] at hz'
    injection hz' with hz'
    exact hz'.symm
  subst hzz
  have hzpos : 0 < z' := (two_zpow_pos _).trans_le hz1
  obtain ⟨w, hw, hw1, hw2⟩ := hlg z' (le_trans (zpow_le_zpow_right₀ (by norm_num) (by norm_num)) hz1)
    (le_trans hz2 (zpow_le_zpow_right₀ (by norm_num) (by norm_num)))
  refine ⟨w, ?_, hw1, ?_⟩
  · change log10 lg (rnd64 (u * v)) = fin w
    rw [hz, log10_pos hzpos, hw]
  · have h3 := (logb_close (mul_pos hu0 hv0) eps_pos.le eps_half hc).2
    rw [Real.logb_mul hu0.ne' hv0.ne'] at h3
    rw [Real.logb_mul hx0.ne' hy0.ne']
    rw [abs_le] at *
    constructor <;> linarith [hw2.1, hw2.2, h3.1, h3.2, u3.1, u3.2, v3.1, v3.2]

omit hlg in
theorem slack_step (k : Nat) :
    slack η k + (η + 3 * (2 : ℝ) ^ (-53 : ℤ)) + ((2 : ℝ) ^ (-53 : ℤ) * (512 * (k + 1)) + 2 ^ (-1075 : ℤ)) ≤ slack η (k + 1) := by
  have h1 : (2 : ℝ) ^ (-1075 : ℤ) ≤ 2 ^ (-53 : ℤ) := zpow_le_zpow_right₀ (by norm_num) (by norm_num)
  have h2 : (2 : ℝ) ^ (-51 : ℤ) = 4 * 2 ^ (-53 : ℤ) := by norm_num
  have h3 : (2 : ℝ) ^ (-44 : ℤ) = 512 * 2 ^ (-53 : ℤ) := by norm_num
  unfold slack
  rw [h2, h3]
  have h4 := eps_pos
  have h5 : (0 : ℝ) ≤ k := Nat.cast_nonneg k
  generalize (2 : ℝ) ^ (-53 : ℤ) = ε at *
  push_cast
  have h6 : 0 ≤ k * ε := mul_nonneg h5 h4.le
  nlinarith

omit hlg in
/-- One addition. -/
theorem add_close {a w : ℝ} {k : Nat} (hk : k + 1 ≤ 2 ^ 40) (ha : |a| ≤ 512 * k) (hw : |w| ≤ 512) :
    ∃ s, (ieee lg).add (fin a) (fin w) = fin s ∧ |s| ≤ 512 * (k + 1 : Nat) ∧
      |s - (a + w)| ≤ (2 : ℝ) ^ (-53 : ℤ) * (512 * (k + 1)) + 2 ^ (-1075 : ℤ) := by
  have hB : |a + w| ≤ ((512 * (k + 1) : Nat) : ℝ) := by
    refine (abs_add_le a w).trans ?_
    push_cast
    linarith
  have hr : rndPos ((512 * (k + 1) : Nat) : ℝ) = ((512 * (k + 1) : Nat) : ℝ) := rndPos_nat (by omega)
  have hle : ((512 * (k + 1) : Nat) : ℝ) ≤ 2 ^ 49 := by
    have : 512 * (k + 1) ≤ 2 ^ 49 := by omega
    exact_mod_cast this
  obtain ⟨s, hs, hs1⟩ := rnd64_abs (x := a + w) (B := ((512 * (k + 1) : Nat) : ℝ)) (by
    rw [hr]
    refine hle.trans_lt ?_
    exact pow_lt_pow_right₀ (by norm_num) (by norm_num)) hB
  obtain ⟨s', hs', he⟩ := rnd64_err (x := a + w) (by
    refine (hB.trans hle).trans ?_
    rw [show (2 : ℝ) ^ 49 = 2 ^ (49 : ℤ) by norm_num]
    exact zpow_le_zpow_right₀ (by norm_num) (by norm_num))
  have hss : s' = s := by
    rw [hs] at hs'
    injection hs' with hs'
    exact hs'.symm
  subst hss
  refine ⟨s', hs, ?_, he.trans ?_⟩
  · rw [hr] at hs1
    push_cast at hs1 ⊢
    exact hs1
  · push_cast at hB
    have := mul_le_mul_of_nonneg_left hB eps_pos.le
    linarith

omit hlg in
theorem extendProb_zero (t : Tables ℝ) (prev : Int) (os ks : List Int) : extendProb t 0 prev os ks = 0 := by
  induction os generalizing prev ks with
  | nil => simp [extendProb]
  | cons o os ih =>
    cases ks with
    | nil => simp [extendProb]
    | cons k ks => rw [extendProb, zero_mul, ih]

/-- The score of the rest of a possible path. -/
theorem extend_close {t : Tables ℝ} {T : Tables RD} (hS : Stored t T) (os : List Int) :
    ∀ (ks : List Int) (P a : ℝ) (prev : Int) (k : Nat), ks.length = os.length → k + os.length ≤ 2 ^ 40 → 0 < P →
      0 < extendProb t P prev os ks → |a| ≤ 512 * k → |a - Real.logb 10 P| ≤ slack η k →
      ∃ s, extend (ieee lg) T (fin a) prev os ks = fin s ∧
        |s - Real.logb 10 (extendProb t P prev os ks)| ≤ slack η (k + os.length) := by
  induction os with
  | nil =>
    intro ks P a prev k _ _ _ _ _ h
    exact ⟨a, by simp [extend], by simpa [extendProb] using h⟩
  | cons o os ih =>
    intro ks P a prev k hl hk hP hpos ha herr
    cases ks with
    | nil => simp at hl
    | cons j ks =>
      rw [extendProb] at hpos ⊢
      have hw0 : 0 ≤ t.trans prev j * t.emis j o := mul_nonneg (hS.trans prev j).nonneg (hS.emis j o).nonneg
      have hw : 0 < t.trans prev j * t.emis j o := by
        rcases hw0.eq_or_lt with e | e
        · rw [← e, mul_zero, extendProb_zero] at hpos
          exact absurd hpos (lt_irrefl _)
        · exact e
      obtain ⟨w, hw1, hw2, hw3⟩ := term_close hlg (hS.trans prev j) (hS.emis j o) hw
      rw [List.length_cons] at hk
      obtain ⟨s, hs1, hs2, hs3⟩ := add_close (k := k) (by omega) ha hw2
      rw [extend, hw1, hs1, List.length_cons, show k + (os.length + 1) = k + 1 + os.length by omega]
      refine ih ks _ s j (k + 1) (by simpa using hl) (by omega) (mul_pos hP hw) hpos ?_ ?_
      · exact hs2
      · rw [Real.logb_mul hP.ne' hw.ne']
        refine le_trans ?_ (slack_step k)
        rw [abs_le] at *
        constructor <;> linarith [hs3.1, hs3.2, herr.1, herr.2, hw3.1, hw3.2]

/-- **The score of a possible path in doubles** is the logarithm of its probability, up to `slack`. -/
theorem score_close {t : Tables ℝ} {T : Tables RD} (hS : Stored t T) (os ks : List Int) (hl : ks.length = os.length)
    (hn : os.length ≤ 2 ^ 40) (hp : 0 < prob t os ks) :
    ∃ s, score (ieee lg) T os ks = fin s ∧ |s - Real.logb 10 (prob t os ks)| ≤ slack η os.length := by
  cases os with
  | nil => simp [prob] at hp
  | cons o os =>
    cases ks with
    | nil => simp at hl
    | cons k ks =>
      rw [prob] at hp ⊢
      have hw0 : 0 ≤ t.init k * t.emis k o := mul_nonneg (hS.init k).nonneg (hS.emis k o).nonneg
      have hw : 0 < t.init k * t.emis k o := by
        rcases hw0.eq_or_lt with e | e
        · rw [← e, extendProb_zero] at hp
          exact absurd hp (lt_irrefl _)
        · exact e
      obtain ⟨w, hw1, hw2, hw3⟩ := term_close hlg (hS.init k) (hS.emis k o) hw
      rw [score, hw1]
      have h2 : (2 : ℝ) ^ (-51 : ℤ) = 4 * 2 ^ (-53 : ℤ) := by norm_num
      have h3 : (0 : ℝ) < 2 ^ (-44 : ℤ) := two_zpow_pos _
      obtain ⟨s, hs1, hs2⟩ := extend_close hlg hS os ks _ w k 1 (by simpa using hl) (by rw [List.length_cons] at hn; omega) hw hp
        (by simpa using hw2) (hw3.trans (by
          unfold slack
          rw [h2]
          have := eps_pos
          push_cast
          linarith))
      refine ⟨s, hs1, ?_⟩
      rw [List.length_cons, show os.length + 1 = 1 + os.length by omega]
      exact hs2

omit hlg in
/-- A sum that is not above minus infinity stays so. -/
theorem extend_dead (T : Tables RD) (os : List Int) : ∀ (ks : List Int) (a : RD) (prev : Int),
    (ieee lg).lt (ieee lg).negInf a = false → (ieee lg).lt (ieee lg).negInf (extend (ieee lg) T a prev os ks) = false := by
  induction os with
  | nil => intro ks a prev h; simpa [extend] using h
  | cons o os ih =>
    intro ks a prev h
    cases ks with
    | nil => simpa [extend] using h
    | cons k ks =>
      rw [extend]
      refine ih _ _ _ ?_
      by_contra hne
      have hne := Bool.eq_true_of_not_eq_false hne
      have := (RD.laws RD.binary64 lg).add_negInf _ _ hne
      change (ieee lg).lt (ieee lg).negInf a = true at this
      rw [h] at this
      cases this

omit hlg in
theorem rnd64_zero : rnd64 0 = fin 0 := by
  unfold rnd64 rndMag
  rw [if_pos le_rfl, rndPos_zero, if_pos (by positivity)]

omit hlg in
/-- A factor zero. -/
theorem term_zero {x y : ℝ} {a b : RD} (hx : Entry x a) (hy : Entry y b) (h : x * y = 0) :
    (ieee lg).log10 ((ieee lg).mul a b) = ninf := by
  obtain ⟨_, u, rfl, hu⟩ := hx
  obtain ⟨_, v, rfl, hv⟩ := hy
  have : u * v = 0 := by
    rcases mul_eq_zero.1 h with h | h
    · have h1 := hu.1
      have h2 := hu.2
      rw [h, mul_zero] at h1 h2
      rw [le_antisymm h2 h1, zero_mul]
    · have h1 := hv.1
      have h2 := hv.2
      rw [h, mul_zero] at h1 h2
      rw [le_antisymm h2 h1, mul_zero]
  change log10 lg (rnd64 (u * v)) = ninf
  rw [this, rnd64_zero]
  simp [log10]

omit hlg in
theorem extend_impossible {t : Tables ℝ} {T : Tables RD} (hS : Stored t T) (os : List Int) :
    ∀ (ks : List Int) (P : ℝ) (a : RD) (prev : Int), 0 < P → extendProb t P prev os ks = 0 →
      (ieee lg).lt (ieee lg).negInf (extend (ieee lg) T a prev os ks) = false := by
  induction os with
  | nil => intro ks P a prev hP h; simp [extendProb] at h; exact absurd h hP.ne'
  | cons o os ih =>
    intro ks P a prev hP h
    cases ks with
    | nil => simp [extendProb] at h; exact absurd h hP.ne'
    | cons k ks =>
      rw [extendProb] at h
      rw [extend]
      have hw0 : 0 ≤ t.trans prev k * t.emis k o := mul_nonneg (hS.trans prev k).nonneg (hS.emis k o).nonneg
      rcases hw0.eq_or_lt with e | e
      · rw [term_zero (hS.trans prev k) (hS.emis k o) e.symm]
        refine extend_dead T os ks _ k ?_
        change RD.lt ninf (RD.add binary64 a ninf) = false
        cases a <;> simp [RD.add]
      · exact ih ks _ _ k (mul_pos hP e) h

omit hlg in
/-- A possible path has a positive probability. -/
theorem prob_pos_of_possible {t : Tables ℝ} {T : Tables RD} (hS : Stored t T) (os ks : List Int)
    (h : Possible (ieee lg) T os ks) : 0 < prob t os ks := by
  rcases (prob_nonneg hS.nonneg os ks).eq_or_lt with e | e
  · exfalso
    unfold Possible at h
    cases os with
    | nil => simp [score, RD.ieee, RD.fpu] at h
    | cons o os =>
      cases ks with
      | nil => simp [score, RD.ieee, RD.fpu] at h
      | cons k ks =>
        rw [prob] at e
        rw [score] at h
        have hw0 : 0 ≤ t.init k * t.emis k o := mul_nonneg (hS.init k).nonneg (hS.emis k o).nonneg
        rcases hw0.eq_or_lt with e' | e'
        · rw [term_zero (hS.init k) (hS.emis k o) e'.symm, extend_dead T os ks ninf k rfl] at h
          cases h
        · rw [extend_impossible hS os ks _ _ k e' e.symm] at h
          cases h
  · exact e

/-- A path that the program does not prefer to another one is not much more probable. -/
theorem prob_near {t : Tables ℝ} {T : Tables RD} (hS : Stored t T) (os p q : List Int) (hp : p.length = os.length)
    (hq : q.length = os.length) (hn : os.length ≤ 2 ^ 40) (hpos : 0 < prob t os p)
    (h : (ieee lg).lt (score (ieee lg) T os p) (score (ieee lg) T os q) = false) :
    prob t os q ≤ (10 : ℝ) ^ (2 * slack η os.length) * prob t os p := by
  have h10 : (0 : ℝ) < (10 : ℝ) ^ (2 * slack η os.length) := Real.rpow_pos_of_pos (by norm_num) _
  rcases (prob_nonneg hS.nonneg os q).eq_or_lt with e | e
  · rw [← e]
    exact mul_nonneg h10.le hpos.le
  · obtain ⟨s, hs1, hs2⟩ := score_close hlg hS os p hp hn hpos
    obtain ⟨r, hr1, hr2⟩ := score_close hlg hS os q hq hn e
    rw [hs1, hr1] at h
    have hrs : r ≤ s := (not_lt_fin_fin s r).1 h
    have hlog : Real.logb 10 (prob t os q) ≤ 2 * slack η os.length + Real.logb 10 (prob t os p) := by
      rw [abs_le] at hs2 hr2
      linarith [hs2.1, hs2.2, hr2.1, hr2.2]
    have e1 : (10 : ℝ) ^ (2 * slack η os.length) * prob t os p =
        (10 : ℝ) ^ (2 * slack η os.length + Real.logb 10 (prob t os p)) := by
      rw [Real.rpow_add (by norm_num), Real.rpow_logb (by norm_num) (by norm_num) hpos]
    rw [e1, ← Real.logb_le_iff_le_rpow (by norm_num) e]
    exact hlog

/-- **C121, one model.**  In doubles `runViterbi` finds, for up to `2⁴⁰` observations, a sequence of positive probability that is
most probable up to the factor `10 ^ (2 slack)`, and reports the logarithm of its probability up to `slack`. -/
theorem C121_model (iter : Iter RD) (hiter : iter.Ok) (P : Problem RD) (hP : P.WF) (hobs : P.obs ≠ [])
    (hn : P.obs.length ≤ 2 ^ 40) (t : Tables ℝ) (hS : Stored t (P.tables (ieee lg)))
    (hpos : ∃ ks, P.IsPath ks ∧ 0 < prob t P.obs ks) :
    ∃ h' path m, runViterbi (ieee lg) iter P.fresh = .ok h' ∧
      h'.getKeySequence.map Key.getInt = path.map Res.ok ∧ P.IsPath path ∧ 0 < prob t P.obs path ∧
      h'.getMaximumProbability = .ok (fin m) ∧ |m - Real.logb 10 (prob t P.obs path)| ≤ slack η P.obs.length ∧
      ∀ ks, P.IsPath ks → prob t P.obs ks ≤ (10 : ℝ) ^ (2 * slack η P.obs.length) * prob t P.obs path := by
  obtain ⟨ks0, hk0, hp0⟩ := hpos
  have hposs : ∃ ks, P.IsPath ks ∧ Possible (ieee lg) (P.tables (ieee lg)) P.obs ks := by
    refine ⟨ks0, hk0, ?_⟩
    obtain ⟨s, hs, _⟩ := score_close hlg hS P.obs ks0 hk0.1 hn hp0
    unfold Possible
    rw [hs]
    rfl
  obtain ⟨h', path, h1, h2, h3, h4, h5⟩ := C19_optimal (RD.laws RD.binary64 lg) iter hiter P hP hobs hposs
  obtain ⟨h'', path', _, m, k1, k2, k3, k4, _⟩ := C20_maximum (RD.laws RD.binary64 lg) iter hiter P hP hobs hposs
  have e : h'' = h' := by
    have := k1.symm.trans h1
    injection this
  subst e
  have e2 : path' = path := by
    have := k2.symm.trans h2
    exact List.map_injective_iff.2 (fun a b h => by injection h) this
  subst e2
  have hpp := prob_pos_of_possible hS P.obs path' h4
  obtain ⟨s, hs, hs2⟩ := score_close hlg hS P.obs path' h3.1 hn hpp
  refine ⟨h'', path', s, h1, h2, h3, hpp, ?_, hs2, fun ks hks => ?_⟩
  · rw [k3, k4]
    exact congrArg _ hs
  · exact prob_near hlg hS P.obs path' ks h3.1 hks.1 hn hpp (h5 ks hks)

end

end JKD.HMM

namespace JKD.Detect

open Spec HMM RD

/-! ### The program with the tables of the command line -/

/-- **Specification.**  The numbers printed in the source for the transitions and the two profiles that are chosen. -/
def transQ (s : String) : List Rat := ((KeyTransition.builtins.find? (fun p => p.1 == s)).map Prod.snd).getD []
def majQ (s : String) : List Rat := ((KeyProfile.majBuiltins.find? (fun p => p.1 == s)).map Prod.snd).getD []
def minQ (s : String) : List Rat := ((KeyProfile.minBuiltins.find? (fun p => p.1 == s)).map Prod.snd).getD []

/-- The printed probability of going from key `x` to key `y`. -/
def goQ (s : String) (x y : Int) : Rat := (transQ s).getD (slot x y) 0

/-- The printed probability of pitch class `o` in key `k`. -/
def playQ (M m : String) (k o : Int) : Rat := KeyProfile.emis (majQ M) (minQ m) 0 k o

/-- The first model with the printed numbers. -/
noncomputable def book (cfg : Config RD) : Tables ℝ where
  init k := if k ∈ keys then 1 / 24 else 0
  trans j k := if j ∈ keys ∧ k ∈ keys then (goQ cfg.keyTransition j k : ℝ) else 0
  emis k o := if k ∈ keys ∧ o ∈ pcs then (playQ cfg.majorKeyProfile cfg.minorKeyProfile k o : ℝ) else 0

theorem chosen_trans (F : FPU RD) (cfg : Config RD) (h : cfg.keyTransition ∈ transitionChoices) :
    transArray F cfg = (transQ cfg.keyTransition).map F.ofRat ∧ (transQ cfg.keyTransition).length = 24 ∧
      ∀ q ∈ transQ cfg.keyTransition, (1 / 144442221 : Rat) ≤ q ∧ q ≤ 1 := by
  have key : ∀ s ∈ transitionChoices, s ≠ "custom" ∧
      (∃ p ∈ KeyTransition.builtins, KeyTransition.builtins.find? (fun p => p.1 == s) = some p) ∧ (transQ s).length = 24 ∧
        ∀ q ∈ transQ s, (1 / 144442221 : Rat) ≤ q ∧ q ≤ 1 := by decide +kernel
  obtain ⟨h1, ⟨p, _, h2⟩, h3⟩ := key _ h
  refine ⟨?_, h3⟩
  unfold transArray KeyTransition.specTable transQ
  rw [if_neg h1, h2]
  rfl

theorem chosen_prof (F : FPU RD) (cfg : Config RD) (h : cfg.majorKeyProfile ∈ profileChoices)
    (h' : cfg.minorKeyProfile ∈ profileChoices) :
    profArrays F cfg = ((majQ cfg.majorKeyProfile).map F.ofRat, (minQ cfg.minorKeyProfile).map F.ofRat) ∧
      ∀ q ∈ majQ cfg.majorKeyProfile ++ minQ cfg.minorKeyProfile, q = 0 ∨ ((1 / 144442221 : Rat) ≤ q ∧ q ≤ 1) := by
  have key : ∀ s ∈ profileChoices, s ≠ "custom" ∧
      (∃ p ∈ KeyProfile.majBuiltins, KeyProfile.majBuiltins.find? (fun p => p.1 == s) = some p) ∧
      (∃ p ∈ KeyProfile.minBuiltins, KeyProfile.minBuiltins.find? (fun p => p.1 == s) = some p) ∧
      (∀ q ∈ majQ s, q = 0 ∨ ((1 / 144442221 : Rat) ≤ q ∧ q ≤ 1)) ∧
      ∀ q ∈ minQ s, q = 0 ∨ ((1 / 144442221 : Rat) ≤ q ∧ q ≤ 1) := by decide +kernel
  obtain ⟨h1, ⟨p, _, h2⟩, _, h3, _⟩ := key _ h
  obtain ⟨k1, _, ⟨p', _, k2⟩, _, k3⟩ := key _ h'
  refine ⟨?_, fun q hq => ?_⟩
  · unfold profArrays KeyProfile.Args.arrays KeyProfile.Args.spec profArgs KeyProfile.specTable majQ minQ
    simp only
    rw [if_neg h1, if_neg k1, h2, k2]
    rfl
  · rcases List.mem_append.1 hq with hq | hq
    · exact h3 q hq
    · exact k3 q hq

theorem entry_ofRat (lg : ℝ → RD) (q : Rat) (h : q = 0 ∨ ((1 / 144442221 : Rat) ≤ q ∧ q ≤ 1)) :
    Entry (q : ℝ) ((ieee lg).ofRat q) := by
  change Entry (q : ℝ) (rnd64 q)
  rcases h with rfl | ⟨h1, h2⟩
  · refine ⟨Or.inl (by simp), 0, by rw [Rat.cast_zero, rnd64_zero], by simp [Close]⟩
  · have e1 : ((1 / 144442221 : Rat) : ℝ) ≤ (q : ℝ) := Rat.cast_le.2 h1
    have e2 : (q : ℝ) ≤ ((1 : Rat) : ℝ) := Rat.cast_le.2 h2
    rw [Rat.cast_one] at e2
    have a : (2 : ℝ) ^ (-30 : ℤ) ≤ (q : ℝ) := by
      refine le_trans ?_ e1
      push_cast
      norm_num
    have b : (1 : ℝ) ≤ 2 ^ (490 : ℤ) := one_le_zpow₀ (by norm_num) (by norm_num)
    refine ⟨Or.inr ⟨le_trans (zpow_le_zpow_right₀ (by norm_num) (by norm_num)) a, e2.trans b⟩, ?_⟩
    exact rnd64_close (Or.inr (le_trans (zpow_le_zpow_right₀ (by norm_num) (by norm_num)) a))
      (e2.trans (one_le_zpow₀ (by norm_num) (by norm_num)))

theorem entry_zero (lg : ℝ → RD) : Entry 0 ((ieee lg).zero) := by
  have := entry_ofRat lg 0 (Or.inl rfl)
  rwa [Rat.cast_zero] at this

theorem getD_ofRat (F : FPU RD) (l : List Rat) (i : Nat) : (l.map F.ofRat).getD i F.zero = F.ofRat (l.getD i 0) := by
  rw [List.getD_eq_getElem?_getD, List.getD_eq_getElem?_getD, List.getElem?_map]
  cases l[i]? <;> rfl

theorem getD_range {l : List Rat} (h : ∀ q ∈ l, q = 0 ∨ ((1 / 144442221 : Rat) ≤ q ∧ q ≤ 1)) (i : Nat) :
    l.getD i 0 = 0 ∨ ((1 / 144442221 : Rat) ≤ l.getD i 0 ∧ l.getD i 0 ≤ 1) := by
  rw [List.getD_eq_getElem?_getD]
  cases e : l[i]? with
  | none => exact Or.inl rfl
  | some q => exact h q (List.mem_of_getElem? e)

theorem goQ_range {s : String} (h : s ∈ transitionChoices) (x y : Int) :
    (1 / 144442221 : Rat) ≤ goQ s x y ∧ goQ s x y ≤ 1 := by
  obtain ⟨_, h2, h3⟩ := chosen_trans exact ⟨s, "", "", [], [], []⟩ h
  have hlt : slot x y < (transQ s).length := by
    simp only at h2
    rw [h2]
    exact KeyTransition.slot_lt
  unfold goQ
  rw [List.getD_eq_getElem?_getD, List.getElem?_eq_getElem hlt]
  exact h3 _ (List.getElem_mem hlt)

theorem entry_init (lg : ℝ → RD) (k : Int) :
    Entry (if k ∈ keys then 1 / 24 else 0) (rd (ieee lg) (initMap (ieee lg)) k) := by
  unfold initMap
  by_cases hk : k ∈ keys
  · rw [rd_tab (ieee lg) keys _ hk, if_pos hk]
    have := entry_ofRat lg (1 / 24) (Or.inr ⟨by norm_num, by norm_num⟩)
    push_cast at this
    exact this
  · rw [rd_tab_not (ieee lg) keys _ hk, if_neg hk]
    exact entry_zero lg

theorem entry_go (lg : ℝ → RD) (cfg : Config RD) (hc : Chosen cfg) (j k : Int) :
    Entry (if j ∈ keys ∧ k ∈ keys then (goQ cfg.keyTransition j k : ℝ) else 0)
      (rd2 (ieee lg) (transMap (ieee lg) (transArray (ieee lg) cfg)) j k) := by
  unfold transMap
  by_cases hk : j ∈ keys ∧ k ∈ keys
  · rw [rd2_tab (ieee lg) keys keys _ hk.1 hk.2, if_pos hk, (chosen_trans (ieee lg) cfg hc.trans).1, getD_ofRat]
    exact entry_ofRat lg _ (Or.inr (goQ_range hc.trans j k))
  · rw [rd2_tab_not (ieee lg) keys keys _ hk, if_neg hk]
    exact entry_zero lg

theorem stored1 (lg : ℝ → RD) (cfg : Config RD) (hc : Chosen cfg) (os : List Int) :
    Stored (book cfg) ((stage1 (ieee lg) cfg os).tables (ieee lg)) where
  init k := entry_init lg k
  trans j k := entry_go lg cfg hc j k
  emis k o := by
    change Entry (if k ∈ keys ∧ o ∈ pcs then _ else _) (rd2 (ieee lg) (emisMap (ieee lg) (profArrays (ieee lg) cfg)) k o)
    unfold emisMap
    obtain ⟨h1, h2⟩ := chosen_prof (ieee lg) cfg hc.major hc.minor
    by_cases hk : k ∈ keys ∧ o ∈ pcs
    · rw [rd2_tab (ieee lg) keys pcs _ hk.1 hk.2, if_pos hk, h1]
      unfold playQ KeyProfile.emis
      by_cases hm : Spec.isMajor k = true
      · rw [if_pos hm, if_pos hm, getD_ofRat]
        exact entry_ofRat lg _ (getD_range (fun q hq => h2 q (List.mem_append_left _ hq)) _)
      · rw [if_neg hm, if_neg hm, getD_ofRat]
        exact entry_ofRat lg _ (getD_range (fun q hq => h2 q (List.mem_append_right _ hq)) _)
    · rw [rd2_tab_not (ieee lg) keys pcs _ hk, if_neg hk]
      exact entry_zero lg

theorem stored2 (lg : ℝ → RD) (cfg : Config RD) (hc : Chosen cfg) (ls : List Int) :
    Stored (real2 (fun k l => (goQ cfg.keyTransition k l : ℝ))) ((stage2 (ieee lg) cfg ls).tables (ieee lg)) where
  init k := entry_init lg k
  trans j k := by
    unfold real2
    dsimp only
    by_cases hk : j ∈ keys ∧ k ∈ keys
    · rw [stage2_trans (ieee lg) cfg ls (mem_keys.1 hk.1) (mem_keys.1 hk.2), if_pos hk]
      by_cases hjk : j = k
      · rw [if_pos hjk, if_pos hjk]
        have := entry_ofRat lg 1 (Or.inr ⟨by norm_num, le_refl _⟩)
        rwa [Rat.cast_one] at this
      · rw [if_neg hjk, if_neg hjk]
        exact entry_zero lg
    · rw [if_neg hk]
      have : ((stage2 (ieee lg) cfg ls).tables (ieee lg)).trans j k = (ieee lg).zero :=
        rd2_tab_not (ieee lg) keys keys _ hk
      rw [this]
      exact entry_zero lg
  emis k o := entry_go lg cfg hc k o

theorem evidence_pos {s : String} (h : s ∈ transitionChoices) (ls : List Int) (k : Int) :
    0 < evidence (fun k l => (goQ s k l : ℝ)) ls k := by
  unfold evidence
  refine List.prod_pos (fun x hx => ?_)
  obtain ⟨l, _, rfl⟩ := List.mem_map.1 hx
  have := (goQ_range h k l).1
  have : (0 : Rat) < goQ s k l := lt_of_lt_of_le (by norm_num) this
  exact Rat.cast_pos.2 this

/-- **C121, the program.**  In double arithmetic, for the profiles and transitions of the command line, any hash order and up to `2⁴⁰`
notes: the local keys are a most probable sequence of keys with respect to the printed tables, up to the factor `10 ^ (2 slack)`; the
answer is a key of greatest evidence up to that factor; and the scores that `-p` prints are the logarithms of the evidence up to
`slack`. -/
theorem C121_program {η : ℝ} (lg : ℝ → RD) (hok : LogOk lg) (hlg : LogClose η lg) (iter₁ iter₂ : Iter RD) (hi₁ : iter₁.Ok)
    (hi₂ : iter₂.Ok) (cfg : Config RD) (hc : Chosen cfg) (os : List Int) (ho : ∀ o ∈ os, 0 ≤ o ∧ o < 12) (hne : os ≠ [])
    (hn : os.length ≤ 2 ^ 40) :
    ∃ d ls k, detect (ieee lg) iter₁ iter₂ cfg (os.map PitchClass.ofInt) = .ok (.ok d) ∧
      d.localKeys = ls.map Key.ofInt ∧ ls.length = os.length ∧ (∀ l ∈ ls, IsKey l) ∧
      (∀ ks : List Int, ks.length = os.length → (∀ k ∈ ks, IsKey k) →
        prob (book cfg) os ks ≤ (10 : ℝ) ^ (2 * slack η os.length) * prob (book cfg) os ls) ∧
      d.mainKey = Key.ofInt k ∧ IsKey k ∧
      (∀ k', IsKey k' → evidence (fun k l => (goQ cfg.keyTransition k l : ℝ)) ls k' ≤
        (10 : ℝ) ^ (2 * slack η os.length) * evidence (fun k l => (goQ cfg.keyTransition k l : ℝ)) ls k) ∧
      ∀ k', IsKey k' → ∃ v, d.probabilities[k'.toNat]? = some (fin v) ∧
        |v - Real.logb 10 (1 / 24 * evidence (fun k l => (goQ cfg.keyTransition k l : ℝ)) ls k')| ≤ slack η os.length := by
  have W := RD.laws RD.binary64 lg
  change FPLaws (ieee lg) _ at W
  have hz : ZeroKills (ieee lg) := RD.zeroKills RD.binary64 rnd64_zero lg
  obtain ⟨d0, k0, hd0, _⟩ := C40_binary64 lg hok iter₁ iter₂ hi₁ hi₂ cfg hc os ho hne
  rcases detect_spec W iter₁ iter₂ hi₁ hi₂ cfg hc.wf os ho hne with
    ⟨ht, _⟩ | ⟨p1, h1, p2, h2, k, hr1, R1, hr2, R2, hh, hk, hd⟩
  · rw [hd0] at ht; cases ht
  have hl1 : p1.length = os.length := R1.isPath.1
  have hm1 : ∀ l ∈ p1, IsKey l := fun l h => mem_keys.1 (R1.isPath.2 l h)
  have hp1 : p1 ≠ [] := by
    rintro rfl; exact hne (List.length_eq_zero_iff.1 hl1.symm)
  have hT1 := (stage1 (ieee lg) cfg os).tables_fresh (ieee lg) (stage1_wf (ieee lg) cfg os)
  have hS1 := stored1 lg cfg hc os
  have hS2 := stored2 lg cfg hc p1
  have hposs := R1.possible
  rw [hT1] at hposs
  have hpp : 0 < prob (book cfg) os p1 := prob_pos_of_possible hS1 os p1 hposs
  obtain ⟨k1, hk1, hks, hbest, hvec⟩ := (C25_constant W hz iter₂ hi₂ cfg p1 hp1).2 h2 hr2
  have hk2 : h2.getKeySequence = p2.map Key.ofInt := by
    have := R2.keySeq
    unfold getKeySequence
    simpa [Problem.fresh, build] using this
  have hkk : k = k1 := by
    cases hr : p2 with
    | nil => rw [hr] at hh; simp at hh
    | cons a rest =>
      rw [hr] at hh
      simp only [List.head?_cons, Option.some.injEq] at hh
      subst hh
      rw [hk2, hr] at hks
      have hpos : 0 < p1.length := List.length_pos_iff.2 hp1
      obtain ⟨m, hm⟩ : ∃ m, p1.length = m + 1 := ⟨p1.length - 1, by omega⟩
      rw [hm, List.replicate_succ] at hks
      simp only [List.map_cons, List.cons.injEq] at hks
      have := hks.1
      rw [Key.getInt_ofInt (mem_keys.1 hk)] at this
      injection this
  subst hkk
  have hev : ∀ k', IsKey k' → 0 < prob (real2 (fun k l => (goQ cfg.keyTransition k l : ℝ))) p1 (List.replicate p1.length k') := by
    intro k' hk'
    rw [prob_const _ k' hk' p1 hp1 hm1]
    exact mul_pos (by norm_num) (evidence_pos hc.trans p1 k')
  refine ⟨_, p1, k, hd, rfl, hl1, hm1, ?_, rfl, hk1, ?_, ?_⟩
  · intro ks hkl hkk
    rcases (prob_nonneg hS1.nonneg os ks).eq_or_lt with e | e
    · rw [← e]
      exact mul_nonneg (Real.rpow_nonneg (by norm_num) _) hpp.le
    · refine prob_near hlg hS1 os p1 ks hl1 hkl hn hpp ?_
      have hb := R1.best ks ⟨hkl, fun x hx => mem_keys.2 (hkk x hx)⟩
      rw [hT1] at hb
      refine hb ?_
      obtain ⟨s, hs, _⟩ := score_close hlg hS1 os ks hkl hn e
      unfold Possible
      change (ieee lg).lt (ieee lg).negInf (score (ieee lg) ((stage1 (ieee lg) cfg os).tables (ieee lg)) os ks) = true
      rw [hs]
      rfl
  · intro k' hk'
    have := prob_near hlg hS2 p1 (List.replicate p1.length k) (List.replicate p1.length k') (by simp) (by simp)
      (by rw [hl1]; exact hn) (hev k hk1) (hbest k' hk')
    rw [prob_const _ k' hk' p1 hp1 hm1, prob_const _ k hk1 p1 hp1 hm1, hl1] at this
    unfold evidence
    nlinarith
  · intro k' hk'
    obtain ⟨s, hs, hs2⟩ := score_close hlg hS2 p1 (List.replicate p1.length k') (by simp) (by rw [hl1]; exact hn) (hev k' hk')
    obtain ⟨v, hv1, hv2, _⟩ := hvec k' hk'
    have : v = fin s := by
      rw [hv2 (by unfold Possible; rw [hs]; rfl), hs]
    subst this
    refine ⟨s, hv1, ?_⟩
    rw [prob_const _ k' hk' p1 hp1 hm1, hl1] at hs2
    exact hs2

/-- **C121, decided music.**  If one sequence of keys is more probable than every other one by more than that factor, and one key has
more evidence for it than every other key by more than that factor, then the program finds exactly these, in doubles and in
whatever order it meets the keys. -/
theorem C121_decided {η : ℝ} (lg : ℝ → RD) (hok : LogOk lg) (hlg : LogClose η lg) (iter₁ iter₂ : Iter RD) (hi₁ : iter₁.Ok)
    (hi₂ : iter₂.Ok) (cfg : Config RD) (hc : Chosen cfg) (os : List Int) (ho : ∀ o ∈ os, 0 ≤ o ∧ o < 12) (hne : os ≠ [])
    (hn : os.length ≤ 2 ^ 40) (best : List Int) (hbl : best.length = os.length) (hbk : ∀ k ∈ best, IsKey k)
    (hb : ∀ ks : List Int, ks.length = os.length → (∀ k ∈ ks, IsKey k) → ks ≠ best →
      (10 : ℝ) ^ (2 * slack η os.length) * prob (book cfg) os ks < prob (book cfg) os best)
    (key : Int) (hkey : IsKey key)
    (hk : ∀ k, IsKey k → k ≠ key → (10 : ℝ) ^ (2 * slack η os.length) * evidence (fun k l => (goQ cfg.keyTransition k l : ℝ)) best k <
      evidence (fun k l => (goQ cfg.keyTransition k l : ℝ)) best key) :
    ∃ d, detect (ieee lg) iter₁ iter₂ cfg (os.map PitchClass.ofInt) = .ok (.ok d) ∧
      d.localKeys = best.map Key.ofInt ∧ d.mainKey = Key.ofInt key := by
  obtain ⟨d, ls, k, h1, h2, h3, h4, h5, h6, h7, h8, _⟩ := C121_program lg hok hlg iter₁ iter₂ hi₁ hi₂ cfg hc os ho hne hn
  have e : ls = best := by
    by_contra hne'
    exact absurd (h5 best hbl hbk) (not_le.2 (hb ls h3 h4 hne'))
  subst e
  have e : k = key := by
    by_contra hne'
    exact absurd (h8 key hkey) (not_le.2 (hk k h7 hne'))
  subst e
  exact ⟨d, h1, h2, h6⟩

/-! ### Cases -/

/-- The correctly rounded logarithm satisfies the assumption, with `η = 2⁻⁴³`. -/
theorem logClose_rounded : LogClose ((2 : ℝ) ^ (-43 : ℤ)) (fun r => rnd64 (Real.logb 10 r)) := by
  intro r h1 h2
  obtain ⟨t, ht, ht2⟩ := logOk_rounded r (le_trans (zpow_le_zpow_right₀ (by norm_num) (by norm_num)) h1)
    (le_trans h2 (zpow_le_zpow_right₀ (by norm_num) (by norm_num)))
  refine ⟨t, ht, ht2, ?_⟩
  have habs : |Real.logb 10 r| ≤ 512 := logb_abs (le_trans (zpow_le_zpow_right₀ (by norm_num) (by norm_num)) h1)
    (le_trans h2 (zpow_le_zpow_right₀ (by norm_num) (by norm_num)))
  obtain ⟨t', ht', he⟩ := rnd64_err (x := Real.logb 10 r) (habs.trans (by
    rw [show (512 : ℝ) = 2 ^ (9 : ℤ) by norm_num]
    exact zpow_le_zpow_right₀ (by norm_num) (by norm_num)))
  have : t' = t := by
    have := ht'.symm.trans ht
    injection this
  subst this
  refine he.trans ?_
  have e1 : (2 : ℝ) ^ (-1075 : ℤ) ≤ 2 ^ (-44 : ℤ) := zpow_le_zpow_right₀ (by norm_num) (by norm_num)
  have e2 : (2 : ℝ) ^ (-53 : ℤ) * |Real.logb 10 r| ≤ 2 ^ (-53 : ℤ) * 512 := mul_le_mul_of_nonneg_left habs (two_zpow_pos _).le
  have e3 : (2 : ℝ) ^ (-53 : ℤ) * 512 = 2 ^ (-44 : ℤ) := by norm_num
  have e4 : (2 : ℝ) ^ (-43 : ℤ) = 2 ^ (-44 : ℤ) + 2 ^ (-44 : ℤ) := by norm_num
  rw [e4]
  rw [e3] at e2
  exact add_le_add e2 e1

/-- One of the choices of the command line. -/
noncomputable def plain : Config RD :=
  ⟨"exponential10", "krumhansl_kessler", "krumhansl_kessler", List.replicate 24 (.fin 0), List.replicate 12 (.fin 0),
    List.replicate 12 (.fin 0)⟩

theorem plain_chosen : Chosen plain := ⟨⟨by simp [plain], by simp [plain], by simp [plain]⟩, by decide, by decide, by decide⟩

theorem slack_small : (10 : ℝ) ^ (2 * slack ((2 : ℝ) ^ (-43 : ℤ)) 1) ≤ 103 / 100 := by
  have h : 2 * slack ((2 : ℝ) ^ (-43 : ℤ)) 1 ≤ 1 / 100 := by
    unfold slack
    norm_num
  refine (Real.rpow_le_rpow_of_exponent_le (by norm_num) h).trans ?_
  have e : ((10 : ℝ) ^ (1 / 100 : ℝ)) ^ (100 : ℕ) = 10 := by
    rw [← Real.rpow_natCast, ← Real.rpow_mul (by norm_num)]
    norm_num
  by_contra hlt
  have hlt := not_le.1 hlt
  have := pow_lt_pow_left₀ hlt (by norm_num) (n := 100) (by norm_num)
  rw [e] at this
  norm_num at this

/-- A single C: the hypotheses hold, and the answer is C major whatever the hash order. -/
example (iter₁ iter₂ : Iter RD) (hi₁ : iter₁.Ok) (hi₂ : iter₂.Ok) :
    ∃ d, detect (ieee (fun r => rnd64 (Real.logb 10 r))) iter₁ iter₂ plain [PitchClass.ofInt 0] = .ok (.ok d) ∧
      d.localKeys = [Key.ofInt 0] ∧ d.mainKey = Key.ofInt 0 := by
  have hplay : ∀ k ∈ keys, k ≠ 0 → 103 / 100 * playQ "krumhansl_kessler" "krumhansl_kessler" k 0 <
      playQ "krumhansl_kessler" "krumhansl_kessler" 0 0 := by decide +kernel
  have hgo : ∀ k ∈ keys, k ≠ 0 → 103 / 100 * goQ "exponential10" k 0 < goQ "exponential10" 0 0 := by decide +kernel
  have h0 : (0 : Int) ∈ keys := by decide
  have hp0 : (0 : Int) ∈ pcs := by decide
  refine C121_decided _ logOk_rounded logClose_rounded iter₁ iter₂ hi₁ hi₂ plain plain_chosen [0] (by simp) (by simp) (by simp) [0] rfl
    (by intro k hk; rw [List.mem_singleton.1 hk]; exact mem_keys.1 h0) ?_ 0 (mem_keys.1 h0) ?_
  · intro ks hl hk hne
    obtain ⟨k, rfl⟩ := List.length_eq_one_iff.1 hl
    have hk1 : k ∈ keys := mem_keys.2 (hk k (by simp))
    have hk0 : k ≠ 0 := by rintro rfl; exact hne rfl
    have h := hplay k hk1 hk0
    have h' : (103 : ℝ) / 100 * (playQ "krumhansl_kessler" "krumhansl_kessler" k 0 : ℝ) <
        (playQ "krumhansl_kessler" "krumhansl_kessler" 0 0 : ℝ) := by
      have := (Rat.cast_lt (K := ℝ)).2 h
      push_cast at this
      exact this
    have hq : (0 : ℝ) ≤ (playQ "krumhansl_kessler" "krumhansl_kessler" k 0 : ℝ) := by
      have := (stored1 (fun _ => nan) plain plain_chosen [0]).nonneg.emis k 0
      simpa [book, hk1, hp0, plain] using this
    simp only [prob, extendProb, book, hk1, h0, hp0, if_true, and_self, List.length_singleton, plain]
    have := mul_le_mul_of_nonneg_right slack_small (mul_nonneg (by norm_num : (0 : ℝ) ≤ 1 / 24) hq)
    linarith
  · intro k hk hk0
    have h := hgo k (mem_keys.2 hk) hk0
    have h' : (103 : ℝ) / 100 * (goQ "exponential10" k 0 : ℝ) < (goQ "exponential10" 0 0 : ℝ) := by
      have := (Rat.cast_lt (K := ℝ)).2 h
      push_cast at this
      exact this
    have hq := (evidence_pos (s := "exponential10") (by decide) [0] k).le
    simp only [evidence, List.map_cons, List.map_nil, List.prod_cons, List.prod_nil, mul_one, plain, List.length_singleton] at hq ⊢
    have := mul_le_mul_of_nonneg_right slack_small hq
    exact lt_of_le_of_lt this h'

/-- The first model of that case meets the hypotheses of `C121_model`. -/
example (iter : Iter RD) (hi : iter.Ok) :
    ∃ h' path m, runViterbi (ieee (fun r => rnd64 (Real.logb 10 r))) iter
        (stage1 (ieee (fun r => rnd64 (Real.logb 10 r))) plain [0]).fresh = .ok h' ∧
      h'.getKeySequence.map Key.getInt = path.map Res.ok ∧ h'.getMaximumProbability = .ok (fin m) ∧
      |m - Real.logb 10 (prob (book plain) [0] path)| ≤ slack ((2 : ℝ) ^ (-43 : ℤ)) 1 := by
  have h0 : (0 : Int) ∈ keys := by decide
  have hp0 : (0 : Int) ∈ pcs := by decide
  have hq : (0 : ℝ) < (playQ "krumhansl_kessler" "krumhansl_kessler" 0 0 : ℝ) :=
    Rat.cast_pos.2 (by decide +kernel)
  obtain ⟨h', path, m, h1, h2, _, _, h3, h4, _⟩ := C121_model logClose_rounded iter hi
    (stage1 (ieee (fun r => rnd64 (Real.logb 10 r))) plain [0]) (stage1_wf _ plain [0]) (by simp [stage1]) (by simp [stage1])
    (book plain) (stored1 _ plain plain_chosen [0])
    ⟨[0], ⟨rfl, by intro k hk; rw [List.mem_singleton.1 hk]; exact h0⟩, by
      simp only [stage1, prob, extendProb, book, h0, hp0, if_true, and_self, plain]
      exact mul_pos (by norm_num) hq⟩
  exact ⟨h', path, m, h1, h2, h3, h4⟩

end JKD.Detect
