import Verif.Model.PyScaling
import Verif.Props.DatasetProps
import Mathlib.Tactic.Linarith
import Mathlib.Tactic.FieldSimp
import Mathlib.Tactic.Ring
/-
C59: scaling of the features before training and before prediction.
-/

namespace JKD.Py

variable {K : Type} [Field K] [LinearOrder K] [IsStrictOrderedRing K]

/-! ### Specification -/

/-- `lo` and `hi` are the smallest and the largest entry. -/
def Extremes (x : List K) (lo hi : K) : Prop := (lo ∈ x ∧ ∀ v ∈ x, lo ≤ v) ∧ (hi ∈ x ∧ ∀ v ∈ x, v ≤ hi)

/-- `x'` is `x` stretched linearly onto the range from −1 to 1. -/
def Stretched (x x' : List K) : Prop :=
  ∃ lo hi, Extremes x lo hi ∧ lo < hi ∧ x' = x.map (fun v => 2 * (v - lo) / (hi - lo) - 1)

/-! ### Smallest and largest -/

theorem foldl_min_spec (xs : List K) : ∀ a : K,
    (xs.foldl min a = a ∨ xs.foldl min a ∈ xs) ∧ xs.foldl min a ≤ a ∧ ∀ v ∈ xs, xs.foldl min a ≤ v := by
  induction xs with
  | nil => intro a; simp
  | cons x xs ih =>
    intro a
    obtain ⟨h1, h2, h3⟩ := ih (min a x)
    rw [List.foldl_cons]
    refine ⟨?_, h2.trans (min_le_left _ _), ?_⟩
    · rcases h1 with h1 | h1
      · rw [h1]
        rcases min_choice a x with h | h
        · exact Or.inl h
        · right; rw [h]; simp
      · right; exact List.mem_cons_of_mem _ h1
    · intro v hv
      rcases List.mem_cons.1 hv with rfl | hv
      · exact h2.trans (min_le_right _ _)
      · exact h3 v hv

theorem foldl_max_spec (xs : List K) : ∀ a : K,
    (xs.foldl max a = a ∨ xs.foldl max a ∈ xs) ∧ a ≤ xs.foldl max a ∧ ∀ v ∈ xs, v ≤ xs.foldl max a := by
  induction xs with
  | nil => intro a; simp
  | cons x xs ih =>
    intro a
    obtain ⟨h1, h2, h3⟩ := ih (max a x)
    rw [List.foldl_cons]
    refine ⟨?_, (le_max_left _ _).trans h2, ?_⟩
    · rcases h1 with h1 | h1
      · rw [h1]
        rcases max_choice a x with h | h
        · exact Or.inl h
        · right; rw [h]; simp
      · right; exact List.mem_cons_of_mem _ h1
    · intro v hv
      rcases List.mem_cons.1 hv with rfl | hv
      · exact (le_max_right _ _).trans h2
      · exact h3 v hv

theorem extremes (x : List K) (hx : x ≠ []) : Extremes x (minOf x) (maxOf x) := by
  cases x with
  | nil => exact absurd rfl hx
  | cons a xs =>
    obtain ⟨h1, h2, h3⟩ := foldl_min_spec xs a
    obtain ⟨k1, k2, k3⟩ := foldl_max_spec xs a
    refine ⟨⟨?_, ?_⟩, ?_, ?_⟩
    · rcases h1 with h1 | h1
      · change xs.foldl min a ∈ _; rw [h1]; simp
      · exact List.mem_cons_of_mem _ h1
    · intro v hv
      rcases List.mem_cons.1 hv with rfl | hv
      · exact h2
      · exact h3 v hv
    · rcases k1 with k1 | k1
      · change xs.foldl max a ∈ _; rw [k1]; simp
      · exact List.mem_cons_of_mem _ k1
    · intro v hv
      rcases List.mem_cons.1 hv with rfl | hv
      · exact k2
      · exact k3 v hv

theorem Extremes.unique {x y : List K} (hxy : ∀ v, v ∈ x ↔ v ∈ y) {lo hi lo' hi' : K} (h : Extremes x lo hi)
    (h' : Extremes y lo' hi') : lo = lo' ∧ hi = hi' :=
  ⟨le_antisymm (h.1.2 _ ((hxy _).2 h'.1.1)) (h'.1.2 _ ((hxy _).1 h.1.1)),
    le_antisymm (h'.2.2 _ ((hxy _).1 h.2.1)) (h.2.2 _ ((hxy _).2 h'.2.1))⟩

/-! ### One vector -/

/-- The test for zero accepts 0. -/
def ZeroIsTiny (tiny : K → Bool) : Prop := tiny 0 = true

theorem scale_spread (tiny : K → Bool) (hz : ZeroIsTiny tiny) (x : List K) (hx : x ≠ []) (h : tiny (maxOf x - minOf x) = false) :
    Stretched x (minMaxScale tiny (-1) 1 x) := by
  have he := extremes x hx
  have hle : minOf x ≤ maxOf x := he.1.2 _ he.2.1
  have hne : minOf x ≠ maxOf x := by
    intro heq
    rw [heq, sub_self, hz] at h
    cases h
  have hlt := lt_of_le_of_ne hle hne
  have hpos : maxOf x - minOf x ≠ 0 := by
    have := sub_pos.2 hlt
    exact ne_of_gt this
  refine ⟨minOf x, maxOf x, he, hlt, ?_⟩
  unfold minMaxScale
  simp only [h, Bool.false_eq_true, if_false]
  apply List.map_congr_left
  intro v _
  field_simp
  ring

theorem scale_tiny (tiny : K → Bool) (x : List K) (h : tiny (maxOf x - minOf x) = true) :
    minMaxScale tiny (-1) 1 x = x.map (fun v => 2 * (v - minOf x) - 1) := by
  unfold minMaxScale
  simp only [h, if_true]
  apply List.map_congr_left
  intro v _
  ring

theorem Stretched.props {x x' : List K} (h : Stretched x x') :
    x'.length = x.length ∧ (∀ v ∈ x', -1 ≤ v ∧ v ≤ 1) ∧
    (∀ (i j : Nat) (a b a' b' : K), x[i]? = some a → x[j]? = some b → x'[i]? = some a' → x'[j]? = some b' →
      ((a < b ↔ a' < b') ∧ (a = b ↔ a' = b'))) ∧
    -1 ∈ x' ∧ 1 ∈ x' := by
  obtain ⟨lo, hi, ⟨⟨l1, l2⟩, u1, u2⟩, hlt, rfl⟩ := h
  have hd : 0 < hi - lo := sub_pos.2 hlt
  refine ⟨by simp, ?_, ?_, ?_, ?_⟩
  · intro v hv
    obtain ⟨a, ha, rfl⟩ := List.mem_map.1 hv
    have h1 := l2 a ha
    have h2 := u2 a ha
    constructor
    · have : 0 ≤ 2 * (a - lo) / (hi - lo) := div_nonneg (by linarith) hd.le
      linarith
    · have : 2 * (a - lo) / (hi - lo) ≤ 2 := by rw [div_le_iff₀ hd]; linarith
      linarith
  · intro i j a b a' b' h1 h2 h3 h4
    rw [List.getElem?_map, h1] at h3
    rw [List.getElem?_map, h2] at h4
    simp only [Option.map_some, Option.some.injEq] at h3 h4
    subst h3 h4
    constructor
    · rw [sub_lt_sub_iff_right, div_lt_div_iff_of_pos_right hd]
      constructor <;> intro h <;> linarith
    · constructor
      · rintro rfl; rfl
      · intro h
        have h5 : 2 * (a - lo) / (hi - lo) = 2 * (b - lo) / (hi - lo) := by linarith
        rw [div_left_inj' hd.ne'] at h5
        linarith
  · refine List.mem_map.2 ⟨lo, l1, ?_⟩
    simp
  · refine List.mem_map.2 ⟨hi, u1, ?_⟩
    field_simp
    ring

/-! ### The matrix -/

theorem reshapeRows_spec {α : Type} (w : Nat) (hw : 0 < w) (x : List α) (n : Nat) (h : x.length = w * n) :
    ∃ rows, reshapeRows w x = .ok rows ∧ rows.length = n ∧ (∀ r ∈ rows, r.length = w) ∧
      ∀ i k, i < n → k < w → (rows[i]?).bind (fun r => r[k]?) = x[i * w + k]? := by
  have hn : x.length / w = n := by rw [h]; exact Nat.mul_div_cancel_left n hw
  refine ⟨(List.range (x.length / w)).map (fun r => (x.drop (w * r)).take w), ?_, by simp [hn], ?_, ?_⟩
  · unfold reshapeRows
    rw [if_pos ⟨by omega, by rw [h]; simp⟩]
  · intro r hr
    obtain ⟨k, hk, rfl⟩ := List.mem_map.1 hr
    rw [List.mem_range, hn] at hk
    simp only [List.length_take, List.length_drop, h]
    have : w * k + w ≤ w * n := by rw [← Nat.mul_succ]; exact Nat.mul_le_mul_left w hk
    omega
  · intro i k hi hk
    rw [List.getElem?_map, List.getElem?_range (by omega)]
    simp only [Option.map_some, Option.bind_some]
    rw [List.getElem?_take_of_lt hk, List.getElem?_drop, Nat.mul_comm]

/-- Rows of one width, one after the other. -/
theorem flatten_rows {α : Type} (w : Nat) (rows : List (List α)) (h : ∀ r ∈ rows, r.length = w) :
    rows.flatten.length = w * rows.length ∧
    ∀ i k, k < w → rows.flatten[i * w + k]? = (rows[i]?).bind (fun r => r[k]?) := by
  induction rows with
  | nil => simp
  | cons r rows ih =>
    have hr := h r (by simp)
    obtain ⟨h1, h2⟩ := ih (fun r hr => h r (by simp [hr]))
    refine ⟨by simp [h1, hr]; ring, ?_⟩
    intro i k hk
    rw [List.flatten_cons]
    cases i with
    | zero =>
      rw [Nat.zero_mul, Nat.zero_add, List.getElem?_append_left (by omega)]
      simp
    | succ i =>
      have : (i + 1) * w + k = w + (i * w + k) := by ring
      rw [this, List.getElem?_append_right (by omega), hr, Nat.add_sub_cancel_left, h2 i k hk]
      simp

/-- Block `b` of 24 entries. -/
def block {α : Type} (x : List α) (b : Nat) : List α := (x.drop (24 * b)).take 24

theorem block_get {α : Type} (x : List α) (b k : Nat) (hk : k < 24) : (block x b)[k]? = x[24 * b + k]? := by
  unfold block
  rw [List.getElem?_take_of_lt hk, List.getElem?_drop]

theorem block_length {α : Type} (x : List α) (n b : Nat) (h : x.length = 24 * n) (hb : b < n) : (block x b).length = 24 := by
  unfold block
  simp only [List.length_take, List.length_drop]
  omega

/-- `featureScaling` scales every block of 24 of every row by itself. -/
theorem scaling_blocks (tiny : K → Bool) (X : List (List K)) (hX : X ≠ []) (n : Nat) (hn : 0 < n)
    (hrow : ∀ x ∈ X, x.length = 24 * n) :
    ∃ X', featureScaling tiny X = .ok X' ∧ X'.length = X.length ∧ (∀ x ∈ X', x.length = 24 * n) ∧
      ∀ (i : Nat) (x x' : List K), X[i]? = some x → X'[i]? = some x' → ∀ b < n, block x' b = minMaxScale tiny (-1) 1 (block x b) := by
  obtain ⟨hl, hg⟩ := flatten_rows (24 * n) X hrow
  obtain ⟨rows, r1, r2, r3, r4⟩ := reshapeRows_spec 24 (by decide) X.flatten (n * X.length) (by rw [hl]; ring)
  have hm : ∀ r ∈ rows.map (minMaxScale tiny (-1) 1), r.length = 24 := by
    intro r hr
    obtain ⟨q, hq, rfl⟩ := List.mem_map.1 hr
    unfold minMaxScale
    simp [r3 q hq]
  obtain ⟨fl, fg⟩ := flatten_rows 24 _ hm
  have hlen0 : 0 < X.length := List.length_pos_iff.2 hX
  obtain ⟨X', s1, s2, s3, s4⟩ := reshapeRows_spec (24 * n) (by omega) (rows.map (minMaxScale tiny (-1) 1)).flatten X.length
    (by rw [fl, List.length_map, r2]; ring)
  have hhead : (X.headD []).length = 24 * n := by
    cases X with
    | nil => exact absurd rfl hX
    | cons x X => exact hrow x (by simp)
  refine ⟨X', ?_, s2, s3, ?_⟩
  · unfold featureScaling
    simp only [r1, PyRes.bind_ok]
    rw [if_neg (by
      intro h
      rw [h] at r2
      have : 0 < n * X.length := Nat.mul_pos hn hlen0
      rw [← r2] at this
      exact absurd this (by simp)), hhead]
    exact s1
  · intro i x x' hx hx' b hb
    obtain ⟨hi, hxe⟩ := List.getElem?_eq_some_iff.1 hx
    have hxl : x.length = 24 * n := hrow x (List.mem_of_getElem? hx)
    have hx'l : x'.length = 24 * n := s3 x' (List.mem_of_getElem? hx')
    have hrb : i * n + b < rows.length := by
      rw [r2]
      have : i * n + n ≤ X.length * n := by
        rw [← Nat.succ_mul]; exact Nat.mul_le_mul_right n hi
      rw [Nat.mul_comm n]
      omega
    have hbk : ∀ k < 24, 24 * b + k < 24 * n := by intro k hk; omega
    have hrow_eq : rows[i * n + b] = block x b := by
      apply List.ext_getElem?
      intro k
      by_cases hk : k < 24
      · have h1 := r4 (i * n + b) k (by rw [← r2]; exact hrb) hk
        rw [List.getElem?_eq_getElem hrb] at h1
        simp only [Option.bind_some] at h1
        rw [h1, block_get x b k hk]
        have h2 := hg i (24 * b + k) (hbk k hk)
        rw [hx] at h2
        simp only [Option.bind_some] at h2
        rw [← h2]
        congr 1
        ring
      · rw [List.getElem?_eq_none (by rw [r3 _ (List.getElem_mem hrb)]; omega),
          List.getElem?_eq_none (by rw [block_length x n b hxl hb]; omega)]
    apply List.ext_getElem?
    intro k
    by_cases hk : k < 24
    · rw [block_get x' b k hk]
      have h1 := s4 i (24 * b + k) hi (hbk k hk)
      rw [hx'] at h1
      simp only [Option.bind_some] at h1
      rw [h1]
      have h2 := fg (i * n + b) k hk
      have h3 : i * (24 * n) + (24 * b + k) = (i * n + b) * 24 + k := by ring
      rw [h3, h2, List.getElem?_map, List.getElem?_eq_getElem hrb, hrow_eq]
      rfl
    · rw [List.getElem?_eq_none (by rw [block_length x' n b hx'l hb]; omega), List.getElem?_eq_none]
      unfold minMaxScale
      rw [List.length_map, block_length x n b hxl hb]
      omega

/-- **C59.**  For every matrix whose rows hold `n` blocks of 24: scaling succeeds and keeps the shape, and every block
is stretched by itself onto −1 … 1 (its smallest entry becomes −1, its largest 1, the order of the entries stays);
a constant block, such as the 24 penalties of a failed run, becomes all −1. -/
theorem C59_scaling (tiny : K → Bool) (hz : ZeroIsTiny tiny) (X : List (List K)) (hX : X ≠ []) (n : Nat) (hn : 0 < n)
    (hrow : ∀ x ∈ X, x.length = 24 * n) :
    ∃ X', featureScaling tiny X = .ok X' ∧ X'.length = X.length ∧ (∀ x ∈ X', x.length = 24 * n) ∧
      ∀ (i : Nat) (x x' : List K), X[i]? = some x → X'[i]? = some x' → ∀ b < n,
        (∀ lo hi, Extremes (block x b) lo hi → tiny (hi - lo) = false → Stretched (block x b) (block x' b)) ∧
        (∀ v, block x b = List.replicate 24 v → block x' b = List.replicate 24 (-1)) := by
  obtain ⟨X', h1, h2, h3, h4⟩ := scaling_blocks tiny X hX n hn hrow
  refine ⟨X', h1, h2, h3, ?_⟩
  intro i x x' hx hx' b hb
  rw [h4 i x x' hx hx' b hb]
  have hbl := block_length x n b (hrow x (List.mem_of_getElem? hx)) hb
  have hne : block x b ≠ [] := by intro h; rw [h] at hbl; simp at hbl
  constructor
  · intro lo hi he ht
    obtain ⟨e1, e2⟩ := Extremes.unique (fun _ => Iff.rfl) he (extremes _ hne)
    subst e1 e2
    exact scale_spread tiny hz _ hne ht
  · intro v hv
    have he := extremes _ hne
    have hmin : minOf (block x b) = v := by
      have := he.1.1; rw [hv] at this; rw [hv]; exact List.eq_of_mem_replicate this
    have hmax : maxOf (block x b) = v := by
      have := he.2.1; rw [hv] at this; rw [hv]; exact List.eq_of_mem_replicate this
    rw [scale_tiny tiny _ (by rw [hmin, hmax, sub_self]; exact hz), hmin, hv, List.map_replicate]
    congr 1
    ring

/-- **C59, what "stretched" gives.**  Same length, all entries between −1 and 1, both ends reached, order and ties
kept. -/
theorem C59_stretched {x x' : List K} (h : Stretched x x') :
    x'.length = x.length ∧ (∀ v ∈ x', -1 ≤ v ∧ v ≤ 1) ∧
    (∀ (i j : Nat) (a b a' b' : K), x[i]? = some a → x[j]? = some b → x'[i]? = some a' → x'[j]? = some b' →
      ((a < b ↔ a' < b') ∧ (a = b ↔ a' = b'))) ∧
    -1 ∈ x' ∧ 1 ∈ x' := h.props

/-- **C59, independence of level and unit.**  Scores a·v + c with a > 0 are stretched to the same features: only the
differences between the keys count. -/
theorem C59_affine {x x' y' : List K} (a c : K) (ha : 0 < a) (h : Stretched x x')
    (h' : Stretched (x.map (fun v => a * v + c)) y') : y' = x' := by
  obtain ⟨lo, hi, he, hlt, rfl⟩ := h
  obtain ⟨lo', hi', he', hlt', rfl⟩ := h'
  have hm : Extremes (x.map (fun v => a * v + c)) (a * lo + c) (a * hi + c) := by
    refine ⟨⟨List.mem_map.2 ⟨lo, he.1.1, rfl⟩, ?_⟩, List.mem_map.2 ⟨hi, he.2.1, rfl⟩, ?_⟩
    · intro v hv
      obtain ⟨w, hw, rfl⟩ := List.mem_map.1 hv
      have := mul_le_mul_of_nonneg_left (he.1.2 w hw) ha.le
      linarith
    · intro v hv
      obtain ⟨w, hw, rfl⟩ := List.mem_map.1 hv
      have := mul_le_mul_of_nonneg_left (he.2.2 w hw) ha.le
      linarith
  obtain ⟨e1, e2⟩ := Extremes.unique (fun _ => Iff.rfl) he' hm
  subst e1 e2
  rw [List.map_map]
  apply List.map_congr_left
  intro v _
  have hd : hi - lo ≠ 0 := (sub_pos.2 hlt).ne'
  have hd' : a * hi + c - (a * lo + c) = a * (hi - lo) := by ring
  simp only [Function.comp]
  rw [hd']
  have ha' := ha.ne'
  field_simp
  ring

theorem moved_block {D : Type} (t n : Nat) {x x' : List D} (hx : x.length = 24 * n) (h : Moved t x x') (b : Nat) (hb : b < n) :
    Moved t (block x b) (block x' b) := by
  have hl' : x'.length = 24 * n := by rw [h.1, hx]
  have l1 := block_length x n b hx hb
  have l2 := block_length x' n b hl' hb
  refine ⟨by rw [l1, l2], ?_⟩
  intro i hi
  rw [l1] at hi
  have hm : moved t i < 24 := by unfold moved; omega
  rw [block_get x b i hi, block_get x' b _ hm, ← h.2 (24 * b + i) (by omega)]
  congr 1
  unfold moved
  omega

theorem moved_mem {D : Type} {t n : Nat} {x x' : List D} (hx : x.length = 12 * n) (h : Moved t x x') (v : D) :
    v ∈ x ↔ v ∈ x' := by
  constructor
  · intro hv
    obtain ⟨i, hi, rfl⟩ := List.getElem_of_mem hv
    have := h.2 i hi
    rw [List.getElem?_eq_getElem hi] at this
    exact List.mem_of_getElem? this
  · intro hv
    obtain ⟨j, hj, rfl⟩ := List.getElem_of_mem hv
    rw [h.1] at hj
    let i := 12 * (j / 12) + (j + (12 - t % 12)) % 12
    have hi : i < x.length := by
      show 12 * (j / 12) + (j + (12 - t % 12)) % 12 < x.length
      have : (j + (12 - t % 12)) % 12 < 12 := Nat.mod_lt _ (by decide)
      omega
    have hm : moved t i = j := by
      show 12 * ((12 * (j / 12) + (j + (12 - t % 12)) % 12) / 12) +
        ((12 * (j / 12) + (j + (12 - t % 12)) % 12) + t) % 12 = j
      omega
    have := h.2 i hi
    rw [hm, List.getElem?_eq_getElem (by rw [h.1]; exact hj)] at this
    exact List.mem_of_getElem? this.symm

theorem moved_scale (tiny : K → Bool) (t : Nat) {x x' : List K} (hx : x.length = 24) (h : Moved t x x') :
    Moved t (minMaxScale tiny (-1) 1 x) (minMaxScale tiny (-1) 1 x') := by
  have hne : x ≠ [] := by intro h; rw [h] at hx; simp at hx
  have hne' : x' ≠ [] := by intro h'; have := h.1; rw [h'] at this; simp at this; omega
  obtain ⟨e1, e2⟩ := Extremes.unique (moved_mem (n := 2) (by omega) h) (extremes x hne) (extremes x' hne')
  unfold minMaxScale
  simp only [e1, e2]
  refine ⟨by simp [h.1], ?_⟩
  intro i hi
  rw [List.length_map] at hi
  rw [List.getElem?_map, List.getElem?_map, h.2 i hi]

/-- **C59, scaling and transposing commute.**  The trainer scales and then transposes; a program that transposes
first gets the same features.  In particular a transposed piece, whose scores are the transposed scores (C21), gets
the features the classifier was trained on. -/
theorem C59_commutes (tiny : K → Bool) (n : Nat) (hn : 0 < n) (t : Nat) (x y : List K) (hx : x.length = 24 * n)
    (h : Moved t x y) :
    ∃ x' y', featureScaling tiny [x] = .ok [x'] ∧ featureScaling tiny [y] = .ok [y'] ∧ Moved t x' y' := by
  have hy : y.length = 24 * n := by rw [h.1, hx]
  have one : ∀ z : List K, z.length = 24 * n → ∃ z', featureScaling tiny [z] = .ok [z'] ∧ z'.length = 24 * n ∧
      ∀ b < n, block z' b = minMaxScale tiny (-1) 1 (block z b) := by
    intro z hz
    obtain ⟨Z, h1, h2, h3, h4⟩ := scaling_blocks tiny [z] (by simp) n hn (by simpa using hz)
    obtain ⟨z', rfl⟩ := List.length_eq_one_iff.1 (by simpa using h2)
    exact ⟨z', h1, h3 z' (by simp), fun b hb => h4 0 z z' rfl rfl b hb⟩
  obtain ⟨x', a1, a2, a3⟩ := one x hx
  obtain ⟨y', b1, b2, b3⟩ := one y hy
  refine ⟨x', y', a1, b1, by rw [a2, b2], ?_⟩
  intro i hi
  rw [a2] at hi
  have hb : i / 24 < n := by omega
  have hm := moved_scale tiny t (block_length x n (i / 24) hx hb) (moved_block t n hx h (i / 24) hb)
  rw [← a3 _ hb, ← b3 _ hb] at hm
  have := hm.2 (i % 24) (by rw [block_length x' n _ a2 hb]; omega)
  rw [block_get x' _ _ (by omega), block_get y' _ _ (by unfold moved; omega)] at this
  have e1 : 24 * (i / 24) + i % 24 = i := by omega
  have e2 : 24 * (i / 24) + moved t (i % 24) = moved t i := by unfold moved; omega
  rw [e1, e2] at this
  exact this

/-- **C59, small spread.**  With a version of the scaler that treats a spread below a threshold as zero, a block with
such a spread is only shifted: the features do not reach 1. -/
theorem C59_small_spread_violated (tiny : K → Bool) (x : List K) (hx : x ≠ []) (h : tiny (maxOf x - minOf x) = true)
    (hs : maxOf x - minOf x < 1) : ∀ v ∈ minMaxScale tiny (-1) 1 x, v < 1 := by
  rw [scale_tiny tiny x h]
  intro v hv
  obtain ⟨a, ha, rfl⟩ := List.mem_map.1 hv
  have := (extremes x hx).2.2 a ha
  linarith

/-- Two blocks: one with scores, one of penalties. -/
example : featureScaling (fun r : ℚ => decide (r = 0)) [(List.range 24).map (fun i => (i : ℚ)) ++ List.replicate 24 (-1000000)] =
    .ok [(List.range 24).map (fun i => 2 * (i : ℚ) / 23 - 1) ++ List.replicate 24 (-1)] := by decide +kernel

example : ZeroIsTiny (fun r : ℚ => decide (r = 0)) := by simp [ZeroIsTiny]

end JKD.Py
