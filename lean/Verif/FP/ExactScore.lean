import Verif.FP.RD
import Verif.Spec.Path
/-
In exact arithmetic the score of a path is the logarithm of the product of its probabilities.
-/

namespace JKD

namespace Spec

/-- Probability of continuing a path (exact real numbers). -/
def extendProb (t : Tables ℝ) (acc : ℝ) (prev : Int) : List Int → List Int → ℝ
  | o :: os, k :: ks => extendProb t (acc * (t.trans prev k * t.emis k o)) k os ks
  | _, _ => acc

/-- Probability of a state sequence and an observation sequence: the textbook product. -/
def prob (t : Tables ℝ) : List Int → List Int → ℝ
  | o :: os, k :: ks => extendProb t (t.init k * t.emis k o) k os ks
  | _, _ => 0

/-- All entries are non-negative. -/
structure NonNeg (t : Tables ℝ) : Prop where
  init : ∀ k, 0 ≤ t.init k
  trans : ∀ j k, 0 ≤ t.trans j k
  emis : ∀ k o, 0 ≤ t.emis k o

/-- Tables of doubles all of whose entries are the finite numbers of `t`. -/
def finTables (t : Tables ℝ) : Tables RD :=
  { init := fun k => .fin (t.init k), trans := fun j k => .fin (t.trans j k)
    emis := fun k o => .fin (t.emis k o) }

theorem extendProb_nonneg {t : Tables ℝ} (h : NonNeg t) (acc : ℝ) (ha : 0 ≤ acc) (prev : Int)
    (os ks : List Int) : 0 ≤ extendProb t acc prev os ks := by
  induction os generalizing acc prev ks with
  | nil => simpa [extendProb] using ha
  | cons o os ih =>
    cases ks with
    | nil => simpa [extendProb] using ha
    | cons k ks => exact ih _ (mul_nonneg ha (mul_nonneg (h.trans _ _) (h.emis _ _))) _ _

theorem prob_nonneg {t : Tables ℝ} (h : NonNeg t) (os ks : List Int) : 0 ≤ prob t os ks := by
  cases os with
  | nil => simp [prob]
  | cons o os =>
    cases ks with
    | nil => simp [prob]
    | cons k ks => exact extendProb_nonneg h _ (mul_nonneg (h.init _) (h.emis _ _)) _ _ _

end Spec

namespace RD

open Spec

/-- Base-10 logarithm of a non-negative real as a double value (exact). -/
noncomputable def elog (p : ℝ) : RD := exact.log10 (.fin p)

theorem elog_zero : elog 0 = ninf := by simp [elog, exact, fpu, log10]

theorem elog_pos {p : ℝ} (h : 0 < p) : elog p = fin (Real.logb 10 p) := by
  simp [elog, exact, fpu, log10, not_lt.2 h.le, h.ne']

theorem elog_mul {p q : ℝ} (hp : 0 ≤ p) (hq : 0 ≤ q) : exact.add (elog p) (elog q) = elog (p * q) := by
  rcases hp.eq_or_lt with rfl | hp
  · rw [zero_mul, elog_zero]
    rcases hq.eq_or_lt with rfl | hq
    · rw [elog_zero]; rfl
    · rw [elog_pos hq]; rfl
  · rcases hq.eq_or_lt with rfl | hq
    · rw [mul_zero, elog_zero, elog_pos hp]; rfl
    · rw [elog_pos hp, elog_pos hq, elog_pos (mul_pos hp hq), Real.logb_mul hp.ne' hq.ne']
      rfl

theorem lt_elog {p q : ℝ} (hp : 0 ≤ p) (hq : 0 ≤ q) : exact.lt (elog p) (elog q) = true ↔ p < q := by
  change lt _ _ = true ↔ _
  rcases hp.eq_or_lt with rfl | hp
  · rw [elog_zero]
    rcases hq.eq_or_lt with rfl | hq
    · rw [elog_zero]; simp
    · rw [elog_pos hq]; simp [hq]
  · rcases hq.eq_or_lt with rfl | hq
    · rw [elog_zero]; simp [hp.le]
    · rw [elog_pos hp, elog_pos hq, lt_fin_fin, Real.logb_lt_logb_iff (by norm_num) hp hq]

theorem not_lt_elog {p q : ℝ} (hp : 0 ≤ p) (hq : 0 ≤ q) :
    exact.lt (elog p) (elog q) = false ↔ q ≤ p := by
  rw [← not_lt, ← lt_elog hp hq]
  simp

theorem negInf_lt_elog {p : ℝ} (hp : 0 ≤ p) : exact.lt exact.negInf (elog p) = true ↔ 0 < p := by
  have := lt_elog (le_refl 0) hp
  rwa [elog_zero] at this

theorem extend_exact {t : Tables ℝ} (h : NonNeg t) (acc : ℝ) (ha : 0 ≤ acc) (prev : Int)
    (os ks : List Int) :
    extend exact (finTables t) (elog acc) prev os ks = elog (extendProb t acc prev os ks) := by
  induction os generalizing acc prev ks with
  | nil => simp [extend, extendProb]
  | cons o os ih =>
    cases ks with
    | nil => simp [extend, extendProb]
    | cons k ks =>
      have hw := mul_nonneg (h.trans prev k) (h.emis k o)
      have : exact.log10 (exact.mul ((finTables t).trans prev k) ((finTables t).emis k o)) =
          elog (t.trans prev k * t.emis k o) := rfl
      simp only [extend, extendProb]
      rw [this, elog_mul ha hw]
      exact ih _ (mul_nonneg ha hw) _ _

/-- **Score = log of probability**, in exact arithmetic. -/
theorem score_exact {t : Tables ℝ} (h : NonNeg t) (os ks : List Int) :
    score exact (finTables t) os ks = elog (prob t os ks) := by
  cases os with
  | nil => simp only [score, prob]; rw [elog_zero]; rfl
  | cons o os =>
    cases ks with
    | nil => simp only [score, prob]; rw [elog_zero]; rfl
    | cons k ks =>
      have : exact.log10 (exact.mul ((finTables t).init k) ((finTables t).emis k o)) =
          elog (t.init k * t.emis k o) := rfl
      simp only [score, prob]
      rw [this]
      exact extend_exact h _ (mul_nonneg (h.init _) (h.emis _ _)) _ _ _

theorem possible_exact {t : Tables ℝ} (h : NonNeg t) (os ks : List Int) :
    Possible exact (finTables t) os ks ↔ 0 < prob t os ks := by
  unfold Possible
  rw [score_exact h, negInf_lt_elog (prob_nonneg h _ _)]

/-- Numbers are totally ordered. -/
theorem antisymm (a b : RD) (ha : a ≠ nan) (hb : b ≠ nan) (h1 : lt a b = false) (h2 : lt b a = false) :
    a = b := by
  cases a <;> cases b <;> simp [lt] at ha hb h1 h2 ⊢
  linarith

end RD
end JKD
