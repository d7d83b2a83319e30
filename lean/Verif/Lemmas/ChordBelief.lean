import Verif.Lemmas.ChordExact
import Mathlib.Order.ConditionallyCompleteLattice.Basic
import Mathlib.Tactic.FieldSimp
/-
What the chord smoother keeps in its buffers, in exact arithmetic: the greatest scores, scaled to add up to one.
-/

namespace JKD.Chordino

open JKD.Chroma JKD.ChordViterbi Finset

/-- A sequence of chords for the frames up to `i` that begins with the last chord and ends in `c`. -/
def Leads (n i c : Nat) (q : List Nat) : Prop :=
  q.length = i + 1 ∧ (∀ x ∈ q, x < n) ∧ q[0]? = some (n - 1) ∧ q[i]? = some c

/-- The greatest score of a sequence of chords for the frames up to `i` that begins with the last chord and ends in
`c`; 0 if there is none. -/
noncomputable def top (n : Nat) (g : List (Nat → ℝ)) (i c : Nat) : ℝ :=
  sSup {w | ∃ q, Leads n i c q ∧ w = score n (g.take (i + 1)) q}

/-- The greatest scores by recursion. -/
noncomputable def topr (n : Nat) (g : List (Nat → ℝ)) : Nat → Nat → ℝ
  | 0, c => (if c = n - 1 then 1 else 0) * (g.getD 0 (fun _ => 0)) c
  | i + 1, c => (pick realOps n (fun k => topr n g i k * stay n k c)).2 * (g.getD (i + 1) (fun _ => 0)) c

theorem pick_real (n : Nat) (f : Nat → ℝ) :
    0 ≤ (pick realOps n f).2 ∧ (∀ i < n, f i ≤ (pick realOps n f).2) ∧
      (0 < (pick realOps n f).2 → ∃ i, i < n ∧ f i = (pick realOps n f).2) := by
  obtain ⟨v, h1, h2, h3, h4⟩ := pick_spec n (fun i => some (f i)) f (fun _ _ => rfl)
  rw [pick_some] at h1
  have := Option.some.inj h1
  subst this
  refine ⟨h2, h3, fun h => ?_⟩
  obtain ⟨i, hi, -, e⟩ := h4 h
  exact ⟨i, hi, e⟩

theorem pick_scale (n : Nat) (f f' : Nat → ℝ) {c : ℝ} (hc : 0 < c) (h : ∀ i < n, f' i = c * f i) :
    (pick realOps n f').2 = c * (pick realOps n f).2 := by
  obtain ⟨a1, a2, a3⟩ := pick_real n f
  obtain ⟨b1, b2, b3⟩ := pick_real n f'
  apply le_antisymm
  · rcases b1.eq_or_lt with h0 | h0
    · rw [← h0]
      positivity
    · obtain ⟨i, hi, e⟩ := b3 h0
      rw [← e, h i hi]
      exact mul_le_mul_of_nonneg_left (a2 i hi) hc.le
  · rcases a1.eq_or_lt with h0 | h0
    · rw [← h0, mul_zero]
      exact b1
    · obtain ⟨i, hi, e⟩ := a3 h0
      rw [← e, ← h i hi]
      exact b2 i hi

/-- The score up to a frame. -/
theorem score_take {n : Nat} {g : List (Nat → ℝ)} {i : Nat} (hi : i < g.length) (q : List Nat) :
    score n (g.take (i + 1)) q = (∏ k ∈ range (i + 1), (g.getD k (fun _ => 0)) (q.getD k 0)) *
      ∏ k ∈ range i, stay n (q.getD k 0) (q.getD (k + 1) 0) := by
  unfold score
  rw [List.length_take, Nat.min_eq_left (by omega), Nat.add_sub_cancel]
  congr 1
  refine prod_congr rfl (fun k hk => ?_)
  have hk := mem_range.mp hk
  rw [List.getD_eq_getElem?_getD (l := g.take (i + 1)), List.getElem?_take, if_pos hk, List.getD_eq_getElem?_getD (l := g)]

theorem score_snoc {n : Nat} {g : List (Nat → ℝ)} {i : Nat} (hi : i + 1 < g.length) {q : List Nat} (hq : q.length = i + 1)
    {k : Nat} (hk : q[i]? = some k) (c : Nat) :
    score n (g.take (i + 1 + 1)) (q ++ [c]) =
      score n (g.take (i + 1)) q * stay n k c * (g.getD (i + 1) (fun _ => 0)) c := by
  rw [score_take hi, score_take (by omega), prod_range_succ (n := i + 1), prod_range_succ (n := i) (f := fun k => stay n ((q ++ [c]).getD k 0) ((q ++ [c]).getD (k + 1) 0))]
  have e1 : ∏ x ∈ range (i + 1), (g.getD x (fun _ => 0)) ((q ++ [c]).getD x 0) =
      ∏ x ∈ range (i + 1), (g.getD x (fun _ => 0)) (q.getD x 0) :=
    prod_congr rfl (fun x hx => by rw [getD_snoc_left _ _ _ (by rw [hq]; exact mem_range.mp hx)])
  have e2 : ∏ x ∈ range i, stay n ((q ++ [c]).getD x 0) ((q ++ [c]).getD (x + 1) 0) =
      ∏ x ∈ range i, stay n (q.getD x 0) (q.getD (x + 1) 0) :=
    prod_congr rfl (fun x hx => by
      have := mem_range.mp hx
      rw [getD_snoc_left _ _ _ (by omega), getD_snoc_left _ _ _ (by omega)])
  have e3 : (q ++ [c]).getD i 0 = k := by
    rw [getD_snoc_left _ _ _ (by omega), List.getD_eq_getElem?_getD, hk]
    rfl
  have e4 : (q ++ [c]).getD (i + 1) 0 = c := getD_snoc_right _ _ _ hq.symm
  rw [e1, e2, e3, e4]
  ring

theorem leads_snoc {n i : Nat} {q : List Nat} {k c : Nat} (h : Leads n i k q) (hc : c < n) : Leads n (i + 1) c (q ++ [c]) := by
  obtain ⟨h1, h2, h3, h4⟩ := h
  refine ⟨by simp [h1], ?_, ?_, ?_⟩
  · intro x hx
    rcases List.mem_append.mp hx with hx | hx
    · exact h2 x hx
    · rw [List.mem_singleton.mp hx]
      exact hc
  · rw [List.getElem?_append_left (by omega), h3]
  · rw [List.getElem?_append_right (by omega), h1]
    simp

theorem leads_split {n i : Nat} {q : List Nat} {c : Nat} (h : Leads n (i + 1) c q) :
    ∃ q' k, k < n ∧ c < n ∧ q = q' ++ [c] ∧ Leads n i k q' := by
  obtain ⟨h1, h2, h3, h4⟩ := h
  obtain ⟨q', t, rfl⟩ : ∃ q' t, q = q' ++ [t] := by
    rcases List.eq_nil_or_concat q with h | ⟨p', t, h⟩
    · rw [h] at h1
      simp at h1
    · exact ⟨p', t, by rw [h, List.concat_eq_append]⟩
  have hl : q'.length = i + 1 := by simpa using h1
  have ht : t = c := by
    rw [List.getElem?_append_right (by omega), hl] at h4
    simpa using h4
  subst ht
  refine ⟨q', q'[i], h2 _ (by simp), h2 _ (by simp), rfl, hl, fun x hx => h2 x (by simp [hx]), ?_, ?_⟩
  · rw [List.getElem?_append_left (by omega)] at h3
    exact h3
  · exact List.getElem?_eq_getElem (by omega)

theorem score_nonneg {n : Nat} (hn : 0 < n) {g : List (Nat → ℝ)} (hpos : ∀ o ∈ g, ∀ c, 0 < o c) {i : Nat} (hi : i < g.length)
    (q : List Nat) : 0 ≤ score n (g.take (i + 1)) q := by
  rw [score_take hi]
  refine mul_nonneg (prod_nonneg (fun k hk => ?_)) (prod_nonneg (fun k _ => stay_nonneg n _ _ hn))
  have hk := mem_range.mp hk
  refine (hpos _ ?_ _).le
  rw [List.getD_eq_getElem?_getD, List.getElem?_eq_getElem (by omega)]
  exact List.getElem_mem _

theorem obs_pos {g : List (Nat → ℝ)} (hpos : ∀ o ∈ g, ∀ c, 0 < o c) {i : Nat} (hi : i < g.length) (c : Nat) :
    0 < (g.getD i (fun _ => 0)) c := by
  refine hpos _ ?_ _
  rw [List.getD_eq_getElem?_getD, List.getElem?_eq_getElem hi]
  exact List.getElem_mem _

/-- The recursion computes the greatest scores. -/
theorem topr_spec {n : Nat} (hn : 0 < n) {g : List (Nat → ℝ)} (hpos : ∀ o ∈ g, ∀ c, 0 < o c) (i : Nat) (hi : i < g.length)
    (c : Nat) (hc : c < n) : 0 ≤ topr n g i c ∧ (∀ q, Leads n i c q → score n (g.take (i + 1)) q ≤ topr n g i c) ∧
      (0 < topr n g i c → ∃ q, Leads n i c q ∧ score n (g.take (i + 1)) q = topr n g i c) := by
  induction i generalizing c with
  | zero =>
    unfold topr
    have h0 := obs_pos hpos hi c
    have hsc : score n (g.take (0 + 1)) [c] = (g.getD 0 (fun _ => 0)) c := by
      rw [score_take hi]
      simp
    refine ⟨?_, ?_, ?_⟩
    · split
      · rw [one_mul]; exact h0.le
      · rw [zero_mul]
    · rintro q ⟨h1, h2, h3, h4⟩
      obtain ⟨s, rfl⟩ := List.length_eq_one_iff.1 h1
      have e1 : s = n - 1 := by simpa using h3
      have e2 : s = c := by simpa using h4
      rw [if_pos (by omega), one_mul, e2, hsc]
    · intro h
      by_cases hcn : c = n - 1
      · exact ⟨[c], ⟨rfl, by simpa using hc, by simp [hcn], rfl⟩, by rw [hsc, if_pos hcn, one_mul]⟩
      · rw [if_neg hcn, zero_mul] at h
        exact absurd h (lt_irrefl _)
  | succ i ih =>
    have ih := ih (by omega)
    unfold topr
    obtain ⟨p1, p2, p3⟩ := pick_real n (fun k => topr n g i k * stay n k c)
    have h0 := obs_pos hpos hi c
    refine ⟨mul_nonneg p1 h0.le, ?_, ?_⟩
    · intro q hq
      obtain ⟨q', k, hk, -, rfl, hl⟩ := leads_split hq
      rw [score_snoc hi hl.1 hl.2.2.2]
      refine mul_le_mul_of_nonneg_right ?_ h0.le
      exact (mul_le_mul_of_nonneg_right ((ih k hk).2.1 q' hl) (stay_nonneg n _ _ hn)).trans (p2 k hk)
    · intro h
      have hp : 0 < (pick realOps n (fun k => topr n g i k * stay n k c)).2 := by
        rcases p1.eq_or_lt with h' | h'
        · rw [← h', zero_mul] at h
          exact absurd h (lt_irrefl _)
        · exact h'
      obtain ⟨k, hk, e⟩ := p3 hp
      have ht : 0 < topr n g i k := by
        rcases (ih k hk).1.eq_or_lt with h' | h'
        · rw [← h', zero_mul] at e
          rw [← e] at hp
          exact absurd hp (lt_irrefl _)
        · exact h'
      obtain ⟨q, hq, eq⟩ := (ih k hk).2.2 ht
      refine ⟨q ++ [c], leads_snoc hq hc, ?_⟩
      rw [score_snoc hi hq.1 hq.2.2.2, eq, e]

theorem top_eq {n : Nat} (hn : 0 < n) {g : List (Nat → ℝ)} (hpos : ∀ o ∈ g, ∀ c, 0 < o c) {i : Nat} (hi : i < g.length)
    {c : Nat} (hc : c < n) : top n g i c = topr n g i c := by
  obtain ⟨h1, h2, h3⟩ := topr_spec hn hpos i hi c hc
  unfold top
  by_cases hex : ∃ q, Leads n i c q
  · obtain ⟨q, hq⟩ := hex
    obtain ⟨q', hq', e⟩ : ∃ q, Leads n i c q ∧ score n (g.take (i + 1)) q = topr n g i c := by
      rcases h1.eq_or_lt with h0 | h0
      · refine ⟨q, hq, le_antisymm (h2 q hq) ?_⟩
        rw [← h0]
        exact score_nonneg hn hpos hi q
      · exact h3 h0
    refine IsGreatest.csSup_eq ⟨⟨q', hq', e.symm⟩, ?_⟩
    rintro w ⟨q, hq, rfl⟩
    exact h2 q hq
  · have : {w | ∃ q, Leads n i c q ∧ w = score n (g.take (i + 1)) q} = ∅ := by
      rw [Set.eq_empty_iff_forall_notMem]
      rintro w ⟨q, hq, -⟩
      exact hex ⟨q, hq⟩
    rw [this, Real.sSup_empty]
    rcases h1.eq_or_lt with h0 | h0
    · exact h0
    · obtain ⟨q, hq, -⟩ := h3 h0
      exact absurd ⟨q, hq⟩ hex

theorem topr_last {n : Nat} (hn : 0 < n) {g : List (Nat → ℝ)} (hpos : ∀ o ∈ g, ∀ c, 0 < o c) (i : Nat) (hi : i < g.length) :
    0 < topr n g i (n - 1) := by
  induction i with
  | zero =>
    unfold topr
    rw [if_pos rfl, one_mul]
    exact obs_pos hpos hi _
  | succ i ih =>
    have ih := ih (by omega)
    unfold topr
    refine mul_pos (lt_of_lt_of_le (mul_pos ih ?_) ((pick_real n (fun k => topr n g i k * stay n k (n - 1))).2.1 (n - 1) (by omega))) (obs_pos hpos hi _)
    unfold stay
    rw [if_pos rfl]
    norm_num

theorem topr_sum {n : Nat} (hn : 0 < n) {g : List (Nat → ℝ)} (hpos : ∀ o ∈ g, ∀ c, 0 < o c) {i : Nat} (hi : i < g.length) :
    0 < ∑ c ∈ range n, topr n g i c :=
  sum_pos' (fun c hc => (topr_spec hn hpos i hi c (mem_range.mp hc)).1) ⟨n - 1, mem_range.mpr (by omega), topr_last hn hpos i hi⟩

theorem total_tab (n : Nat) (f : Nat → ℝ) : total realOps (tab n f) = ∑ c ∈ range n, f c := by
  unfold total tab
  rw [List.foldl_map]
  have : ∀ k, (List.range k).foldl (fun x y => realOps.add x (f y)) realOps.zero = ∑ c ∈ range k, f c := by
    intro k
    induction k with
    | zero => rfl
    | succ k ih =>
      rw [List.range_succ, List.foldl_append, ih, sum_range_succ, List.foldl_cons, List.foldl_nil]
      rfl
  exact this n

theorem entry_tab {n : Nat} {f : Nat → Nat → ℝ} {i j : Nat} (hi : i < n) (hj : j < n) :
    entry realOps (tab n (fun i => tab n (f i))) i j = f i j := by
  unfold entry
  rw [tab_getD _ _ _ _ hi, tab_getD _ _ _ _ hj]

/-- The unscaled rows. -/
theorem rawRow_top {n : Nat} (hn : 0 < n) {g : List (Nat → ℝ)} (hpos : ∀ o ∈ g, ∀ c, 0 < o c) {i : Nat} (hi : i + 1 < g.length) :
    rawRow realOps n (tab n (fun i => tab n (stay n i))) (tab n (fun c => topr n g i c / ∑ c ∈ range n, topr n g i c))
        (tab n (g.getD (i + 1) (fun _ => 0))) =
      tab n (fun c => topr n g (i + 1) c / ∑ c ∈ range n, topr n g i c) := by
  have hZ := topr_sum hn hpos (show i < g.length by omega)
  unfold rawRow
  refine List.map_congr_left (fun j hj => ?_)
  have hj := List.mem_range.1 hj
  have ho := obs_pos hpos hi j
  have hch : (choice realOps n (tab n (fun i => tab n (stay n i))) (tab n (fun c => topr n g i c / ∑ c ∈ range n, topr n g i c))
      (tab n (g.getD (i + 1) (fun _ => 0))) j).2 =
      (1 / ∑ c ∈ range n, topr n g i c) * (pick realOps n (fun k => topr n g i k * stay n k j)).2 := by
    unfold choice
    rw [tab_getD _ _ _ _ hj, if_pos (by simpa [realOps] using ho)]
    refine pick_scale n _ _ (by positivity) (fun k hk => ?_)
    rw [tab_getD _ _ _ _ hk, entry_tab hk hj]
    change topr n g i k / _ * stay n k j = _
    ring
  rw [hch, tab_getD _ _ _ _ hj]
  change _ * _ * _ = _
  rw [show topr n g (i + 1) j = (pick realOps n (fun k => topr n g i k * stay n k j)).2 * (g.getD (i + 1) (fun _ => 0)) j from rfl]
  ring

theorem rawFirst_top (n : Nat) (g : List (Nat → ℝ)) :
    rawFirst realOps n (tab n (fun c => if c = n - 1 then (1 : ℝ) else 0)) (tab n (g.getD 0 (fun _ => 0))) = tab n (topr n g 0) := by
  unfold rawFirst
  refine List.map_congr_left (fun j hj => ?_)
  have hj := List.mem_range.1 hj
  rw [tab_getD _ _ _ _ hj, tab_getD _ _ _ _ hj]
  rfl

theorem map_div_tab (n : Nat) (f : Nat → ℝ) (z : ℝ) : (tab n f).map (fun d => realOps.div d z) = tab n (fun c => f c / z) := by
  unfold tab
  rw [List.map_map]
  rfl

/-- The rows of the buffer. -/
theorem rows_top {n : Nat} (hn : 0 < n) {o0 : Nat → ℝ} {os : List (Nat → ℝ)} (hpos : ∀ o ∈ o0 :: os, ∀ c, 0 < o c)
    (i : Nat) (hi : i ≤ os.length) :
    (rows realOps n (tab n (fun c => if c = n - 1 then (1 : ℝ) else 0)) (tab n (fun i => tab n (stay n i))) (tab n o0)
        ((os.map (tab n)).take i).reverse).1 =
      tab n (fun c => topr n (o0 :: os) i c / ∑ c ∈ range n, topr n (o0 :: os) i c) := by
  induction i with
  | zero =>
    rw [List.take_zero]
    change firstRow realOps n _ (tab n o0) = _
    unfold firstRow
    have h := rawFirst_top n (o0 :: os)
    rw [show (o0 :: os).getD 0 (fun _ => 0) = o0 from rfl] at h
    rw [h, total_tab, map_div_tab]
  | succ i ih =>
    have ih := ih (by omega)
    have ho : (os.map (tab n))[i]? = some (tab n ((o0 :: os).getD (i + 1) (fun _ => 0))) := by
      rw [List.getElem?_map, List.getD_eq_getElem?_getD, List.getElem?_cons_succ, List.getElem?_eq_getElem (by omega)]
      rfl
    rw [List.take_add_one, ho, Option.toList_some, List.reverse_append, List.reverse_singleton, List.singleton_append]
    unfold rows
    dsimp only
    rw [ih]
    have hi' : i + 1 < (o0 :: os).length := by simp; omega
    have hZ := topr_sum hn hpos (show i < (o0 :: os).length by omega)
    have hZ' := topr_sum hn hpos hi'
    unfold nextRow
    dsimp only
    rw [rawRow_top hn hpos hi', total_tab, ← sum_div, if_pos (by
      change decide _ = true
      rw [decide_eq_true_eq]
      exact div_pos hZ' hZ), map_div_tab]
    refine tab_congr (fun c _ => ?_)
    field_simp

theorem scale_top {n : Nat} (hn : 0 < n) {o0 : Nat → ℝ} {os : List (Nat → ℝ)} (hpos : ∀ o ∈ o0 :: os, ∀ c, 0 < o c)
    {i : Nat} (hi : i < os.length) :
    nextScale realOps n (tab n (fun i => tab n (stay n i)))
        (tab n (fun c => topr n (o0 :: os) i c / ∑ c ∈ range n, topr n (o0 :: os) i c))
        (tab n ((o0 :: os).getD (i + 1) (fun _ => 0))) =
      (∑ c ∈ range n, topr n (o0 :: os) i c) / ∑ c ∈ range n, topr n (o0 :: os) (i + 1) c := by
  have hi' : i + 1 < (o0 :: os).length := by simp; omega
  have hZ := topr_sum hn hpos (show i < (o0 :: os).length by omega)
  have hZ' := topr_sum hn hpos hi'
  unfold nextScale
  dsimp only
  rw [rawRow_top hn hpos hi', total_tab, ← sum_div, if_pos (by
      change decide _ = true
      rw [decide_eq_true_eq]
      exact div_pos hZ' hZ)]
  change ((1 : Nat) : ℝ) / _ = _
  rw [Nat.cast_one]
  field_simp

/-- What the smoother leaves behind. -/
theorem buffers {n : Nat} (hn : 0 < n) {g : List (Nat → ℝ)} (hg : g ≠ []) (hpos : ∀ o ∈ g, ∀ c, 0 < o c)
    {v : ChordViterbi.Result ℝ}
    (e : viterbiPath (viterbiOps exactFns) (tab n (fun c => if c = n - 1 then exactFns.lit 1 else exactFns.lit 0))
      (tab n (fun i => tab n (fun j => transOf exactFns n i j))) (g.map (tab n)) = .ok v) :
    (∀ i, i < g.length → v.delta.getD i [] = tab n (fun c => top n g i c / ∑ c ∈ range n, top n g i c)) ∧
      v.scale.getD 0 0 = 1 / ∑ c ∈ range n, top n g 0 c ∧
      ∀ i, i + 1 < g.length → v.scale.getD (i + 1) 0 = (∑ c ∈ range n, top n g i c) / ∑ c ∈ range n, top n g (i + 1) c := by
  rw [viterbiOps_exact] at e
  have hini : (fun c => if c = n - 1 then exactFns.lit 1 else exactFns.lit 0) =
      (fun c => if c = n - 1 then (1 : ℝ) else 0) := by
    funext c
    simp
  have htr : (fun i => tab n (fun j => transOf exactFns n i j)) = (fun i => tab n (stay n i)) := by
    funext i
    exact tab_congr (fun j _ => transOf_exact n i j)
  rw [hini, htr] at e
  cases g with
  | nil => exact absurd rfl hg
  | cons o0 os =>
    rw [List.map_cons] at e
    have hs : Sized n (tab n (fun c => if c = n - 1 then (1 : ℝ) else 0)) (tab n (fun i => tab n (stay n i)))
        (tab n o0 :: os.map (tab n)) := by
      refine ⟨hn, tab_length _ _, tab_length _ _, ?_, by simp, ?_⟩
      · intro r hr
        obtain ⟨i, -, rfl⟩ := List.mem_map.1 hr
        exact tab_length _ _
      · intro r hr
        rcases List.mem_cons.mp hr with rfl | hr
        · exact tab_length _ _
        · obtain ⟨i, -, rfl⟩ := List.mem_map.1 hr
          exact tab_length _ _
    obtain ⟨ds, scs, l1, l2, h1, h2, h3, e'⟩ := viterbiPath_full realOps (tab n o0) (os.map (tab n)) hs
    have := res_inj (e.symm.trans e')
    subst this
    dsimp only
    rw [List.length_map] at l1 l2 h1
    have hsum : ∀ i, i < (o0 :: os).length → ∑ c ∈ range n, top n (o0 :: os) i c = ∑ c ∈ range n, topr n (o0 :: os) i c :=
      fun i hi => sum_congr rfl (fun c hc => top_eq hn hpos hi (mem_range.mp hc))
    refine ⟨?_, ?_, ?_⟩
    · intro i hi
      have hi' : i ≤ os.length := by simpa [Nat.lt_succ_iff] using hi
      rw [List.getD_eq_getElem?_getD, h1 i hi', rows_top hn hpos i hi']
      rw [Option.getD_some]
      refine tab_congr (fun c hc => ?_)
      rw [top_eq hn hpos hi hc, hsum i hi]
    · rw [List.getD_eq_getElem?_getD, h2]
      have h := rawFirst_top n (o0 :: os)
      rw [show (o0 :: os).getD 0 (fun _ => 0) = o0 from rfl] at h
      rw [h, total_tab, hsum 0 (by simp)]
      change ((1 : Nat) : ℝ) / _ = _
      rw [Nat.cast_one]
    · intro i hi
      have hi' : i < os.length := by simpa using hi
      have ho : (os.map (tab n))[i]? = some (tab n ((o0 :: os).getD (i + 1) (fun _ => 0))) := by
        rw [List.getElem?_map, List.getD_eq_getElem?_getD, List.getElem?_cons_succ, List.getElem?_eq_getElem (by omega)]
        rfl
      rw [List.getD_eq_getElem?_getD, h3 i _ ho, rows_top hn hpos i hi'.le, scale_top hn hpos hi', hsum i (by omega),
        hsum (i + 1) hi]
      rfl

end JKD.Chordino
