import Verif.Props.GlobalKeyProps
/-
C27: in exact arithmetic the detected keys do not change when tables are multiplied by positive
constants.
-/

namespace JKD.RD

/-- Adding a constant to a score. -/
def shift (c : ℝ) : RD → RD
  | fin r => fin (r + c)
  | a => a

theorem lt_shift (c : ℝ) (a b : RD) : lt (shift c a) (shift c b) = lt a b := by
  cases a <;> cases b <;> simp [shift, lt]

theorem add_shift (c w : ℝ) (a b : RD) :
    exact.add (shift c a) (shift w b) = shift (c + w) (exact.add a b) := by
  change add exactRounding _ _ = shift _ (add exactRounding _ _)
  cases a <;> cases b <;> simp [shift, add, exactRounding]
  ring

/-- Multiplying a table entry by a constant. -/
noncomputable def scale (c : ℝ) (a : RD) : RD := exact.mul (fin c) a

theorem mul_scale {c d : ℝ} (hc : 0 < c) (hd : 0 < d) (a b : RD) :
    exact.mul (scale c a) (scale d b) = scale (c * d) (exact.mul a b) := by
  have hcd := mul_pos hc hd
  unfold scale
  change mul exactRounding (mul exactRounding _ _) (mul exactRounding _ _) =
    mul exactRounding _ (mul exactRounding _ _)
  cases a <;> cases b <;>
    simp [mul, infMul, ninfMul, exactRounding, hc.ne', hd.ne', hc, hd, hcd, hcd.ne']
  all_goals (try split_ifs)
  all_goals simp_all [mul_pos_iff_of_pos_left]
  all_goals first | exact ⟨hc.ne', hd.ne'⟩ | ring

theorem log10_scale {c : ℝ} (hc : 0 < c) (a : RD) :
    exact.log10 (scale c a) = shift (Real.logb 10 c) (exact.log10 a) := by
  unfold scale
  change log10 _ (mul exactRounding _ _) = shift _ (log10 _ _)
  cases a with
  | nan => rfl
  | ninf => simp [mul, ninfMul, hc.ne', hc, log10, shift]
  | pinf => simp [mul, infMul, hc.ne', hc, log10, shift]
  | fin r =>
    simp only [mul, exactRounding, log10]
    rcases lt_trichotomy r 0 with h | h | h
    · rw [if_pos (mul_neg_of_pos_of_neg hc h), if_pos h]; rfl
    · subst h; simp [shift]
    · have := mul_pos hc h
      rw [if_neg this.le.not_gt, if_neg this.ne', if_neg h.le.not_gt, if_neg h.ne',
        Real.logb_mul hc.ne' h.ne', add_comm]
      rfl

theorem scale_zero (c : ℝ) : scale c exact.zero = exact.zero := by
  have : exact.zero = fin 0 := by
    change RD.fin ((0 : Rat) : ℝ) = .fin 0
    rw [Rat.cast_zero]
  rw [this]
  unfold scale
  change RD.fin (c * 0) = fin 0
  rw [mul_zero]

end JKD.RD

namespace JKD.HMM

open Spec RD

/-- The order in which a hash map is visited depends on its keys, not on the values stored. -/
def Iter.KeyBased {D : Type} (iter : Iter D) : Prop := ∀ (f : Node D → Node D) L, iter (vmap f L) = vmap f (iter L)

/-- A node with its score shifted. -/
def shNode (c : ℝ) (n : Node RD) : Node RD := ⟨shift c n.prob, n.prev⟩

theorem get?_vmap {V W : Type} (f : V → W) (m : IMap V) (k : Int) : (vmap f m).get? k = (m.get? k).map f := by
  induction m with
  | nil => rfl
  | cons p m ih =>
    obtain ⟨k', v⟩ := p
    simp only [vmap, List.map_cons, AMap.get?] at ih ⊢
    by_cases h : k' = k
    · simp [h]
    · simp only [h, if_false]; exact ih

theorem foldl_set_vmap {V W : Type} (f : V → W) (l : List Int) (g : Int → V) (g' : Int → W)
    (hg : ∀ s, g' s = f (g s)) (m : IMap V) :
    l.foldl (fun L s => L.set s (g' s)) (vmap f m) = vmap f (l.foldl (fun L s => L.set s (g s)) m) := by
  induction l generalizing m with
  | nil => rfl
  | cons a l ih => simp only [List.foldl_cons]; rw [hg, ← vmap_set, ih]

/-- `P'` is `P` with every initial, transition and emission entry multiplied by `b`, `c`, `d`. -/
structure Scaled (b c d : ℝ) (P P' : Problem RD) : Prop where
  obs : P'.obs = P.obs
  states : P'.states = P.states
  init : ∀ k, (P'.tables exact).init k = scale b ((P.tables exact).init k)
  trans : ∀ j k, (P'.tables exact).trans j k = scale c ((P.tables exact).trans j k)
  emis : ∀ k o, (P'.tables exact).emis k o = scale d ((P.tables exact).emis k o)

section
variable {b c d : ℝ} (hb : 0 < b) (hc : 0 < c) (hd : 0 < d) {P P' : Problem RD} (hP : P.WF) (hP' : P'.WF)
  (S : Scaled b c d P P')
include hb hc hd hP hP' S

omit hc in
theorem firstLayer_scaled (o : Int) :
    firstLayer exact P'.fresh o = vmap (shNode (Real.logb 10 (b * d))) (firstLayer exact P.fresh o) := by
  have hT := P.tables_fresh exact hP
  have hT' := P'.tables_fresh exact hP'
  have hst : P'.fresh.states = P.fresh.states := S.states
  unfold firstLayer
  rw [hst]
  refine foldl_set_vmap (shNode (Real.logb 10 (b * d))) P.fresh.states _ _ ?_ []
  intro s
  have e1 : rd exact P'.fresh.init s = scale b (rd exact P.fresh.init s) := by
    have := S.init s; rw [← hT, ← hT'] at this; exact this
  have e2 : rd2 exact P'.fresh.emis s o = scale d (rd2 exact P.fresh.emis s o) := by
    have := S.emis s o; rw [← hT, ← hT'] at this; exact this
  unfold shNode
  rw [e1, e2, mul_scale hb hd, log10_scale (mul_pos hb hd)]

omit hb in
theorem nextNode_scaled (w : ℝ) (cur : IMap (Node RD)) (o s' : Int) :
    nextNode exact P'.fresh (vmap (shNode w) cur) o s' =
      shNode (w + Real.logb 10 (c * d)) (nextNode exact P.fresh cur o s') := by
  have hT := P.tables_fresh exact hP
  have hT' := P'.tables_fresh exact hP'
  have hst : P'.fresh.states = P.fresh.states := S.states
  unfold nextNode
  rw [hst]
  have aux : ∀ (l : List Int) (n0 : Node RD),
      l.foldl (fun n s =>
        let c := ((vmap (shNode w) cur).get? s).getD (Node.init exact)
        let t := exact.add c.prob (exact.log10 (exact.mul (rd2 exact P'.fresh.trans s s')
          (rd2 exact P'.fresh.emis s' o)))
        if exact.lt n.prob t then ⟨t, s⟩ else n) (shNode (w + Real.logb 10 (c * d)) n0) =
      shNode (w + Real.logb 10 (c * d)) (l.foldl (fun n s =>
        let c := (cur.get? s).getD (Node.init exact)
        let t := exact.add c.prob (exact.log10 (exact.mul (rd2 exact P.fresh.trans s s')
          (rd2 exact P.fresh.emis s' o)))
        if exact.lt n.prob t then ⟨t, s⟩ else n) n0) := by
    intro l
    induction l with
    | nil => intro n0; rfl
    | cons s l ih =>
      intro n0
      rw [List.foldl_cons, List.foldl_cons, ← ih]
      congr 1
      have e1 : rd2 exact P'.fresh.trans s s' = scale c (rd2 exact P.fresh.trans s s') := by
        have := S.trans s s'; rw [← hT, ← hT'] at this; exact this
      have e2 : rd2 exact P'.fresh.emis s' o = scale d (rd2 exact P.fresh.emis s' o) := by
        have := S.emis s' o; rw [← hT, ← hT'] at this; exact this
      have hcur : ((vmap (shNode w) cur).get? s).getD (Node.init exact) =
          shNode w ((cur.get? s).getD (Node.init exact)) := by
        rw [get?_vmap]
        cases cur.get? s <;> rfl
      dsimp only
      rw [e1, e2, mul_scale hc hd, log10_scale (mul_pos hc hd), hcur]
      have hadd := add_shift w (Real.logb 10 (c * d)) ((cur.get? s).getD (Node.init exact)).prob
        (exact.log10 (exact.mul (rd2 exact P.fresh.trans s s') (rd2 exact P.fresh.emis s' o)))
      have hpr : (shNode w ((cur.get? s).getD (Node.init exact))).prob =
          shift w ((cur.get? s).getD (Node.init exact)).prob := rfl
      rw [hpr, hadd]
      have hlt := lt_shift (w + Real.logb 10 (c * d)) n0.prob
        (exact.add ((cur.get? s).getD (Node.init exact)).prob
          (exact.log10 (exact.mul (rd2 exact P.fresh.trans s s') (rd2 exact P.fresh.emis s' o))))
      change exact.lt _ _ = exact.lt _ _ at hlt
      have hn0 : (shNode (w + Real.logb 10 (c * d)) n0).prob = shift (w + Real.logb 10 (c * d)) n0.prob := rfl
      rw [hn0, hlt]
      split <;> rfl
  exact aux P.fresh.states (Node.init exact)

omit hb in
theorem layers_scaled (os : List Int) (w : ℝ) (cur : IMap (Node RD)) (vit vit' : List (IMap (Node RD)))
    (hv : List.Forall₂ (fun L L' => ∃ u, L' = vmap (shNode u) L) vit vit') :
    List.Forall₂ (fun L L' => ∃ u, L' = vmap (shNode u) L) (layers exact P.fresh os cur vit)
      (layers exact P'.fresh os (vmap (shNode w) cur) vit') := by
  induction os generalizing w cur vit vit' with
  | nil => exact hv
  | cons o os ih =>
    simp only [layers]
    have hst : P'.fresh.states = P.fresh.states := S.states
    have hn : nextLayer exact P'.fresh (vmap (shNode w) cur) o =
        vmap (shNode (w + Real.logb 10 (c * d))) (nextLayer exact P.fresh cur o) := by
      unfold nextLayer
      rw [hst]
      exact foldl_set_vmap _ _ _ _ (fun s => nextNode_scaled hc hd hP hP' S w cur o s) []
    rw [hn]
    exact ih _ _ _ _ (List.Forall₂.cons ⟨_, rfl⟩ hv)

end

/-- The chosen end of the path, by scanning the last layer. -/
def chosen {D : Type} (F : FPU D) (iter : Iter D) (L : IMap (Node D)) : Node D :=
  ((iter L).map (fun p => (p.1, p.2.prob))).foldl (pick F) ⟨F.negInf, -1⟩

/-- A run in terms of the layers: choose the end, follow the backpointers. -/
theorem run_form {D : Type} {F : FPU D} {Num : D → Prop} (W : FPLaws F Num)
    (iter : Iter D) (hiter : iter.Ok) (P : Problem D) (hP : P.WF) (o : Int) (os : List Int)
    (hob : P.obs = o :: os) :
    ∃ L rest, layers F P.fresh os (firstLayer F P.fresh o) [firstLayer F P.fresh o] = L :: rest ∧
      ((chosen F iter L).prev = -1 → runViterbi F iter P.fresh = .throw .outOfRange) ∧
      ((chosen F iter L).prev ≠ -1 → ∃ h', runViterbi F iter P.fresh = .ok h' ∧
        h'.getKeySequence = ((trace (L :: rest) (chosen F iter L).prev).map Key.ofInt).reverse) := by
  have hs0 : ∀ s ∈ P.fresh.states, 0 ≤ s := fun s hm => (hP.states s hm).1
  have hinv := finv_layers W P.fresh hs0 os [o] _ [] (finv_init W P.fresh hs0 o)
  rw [List.singleton_append] at hinv
  obtain ⟨_, L, rest, hvit, hnd, hkeys, hnodes⟩ := hinv
  rw [hvit] at hnodes
  refine ⟨L, rest, hvit, ?_⟩
  have hperm := hiter L
  have hmemL : ∀ p ∈ iter L, L.get? p.1 = some p.2 ∧ p.1 ∈ P.fresh.states := by
    intro p hp
    have hpl := hperm.mem_iff.1 hp
    exact ⟨AMap.get?_eq_some_of_mem L hnd hpl, (hkeys p.1).1 (List.mem_map.2 ⟨p, hpl, rfl⟩)⟩
  have hnd' : ((iter L).map Prod.fst).Nodup := ((hperm.map Prod.fst).nodup_iff).2 hnd
  let st0 : BT D := { last := -1, max := F.negInf, probs := List.replicate 24 F.zero, keys := [] }
  obtain ⟨probs, hscan, _, _, _⟩ := scan_spec (F := F) (iter L)
    (fun p hp => hP.states p.1 (hmemL p hp).2) hnd' st0 (by simp [st0])
  obtain ⟨_, _, _, hb4⟩ := pick_spec W ((iter L).map (fun p => (p.1, p.2.prob)))
    ⟨F.negInf, -1⟩ W.num_negInf
  have hscan' : scan F (iter L) st0 = .ok { st0 with
      last := (chosen F iter L).prev, max := (chosen F iter L).prob, probs := probs } := hscan
  change chosen F iter L = _ ∨ _ at hb4
  have hback : backtrack F iter (L :: rest) st0 =
      (match L.get? (chosen F iter L).prev with
        | none => .throw .outOfRange
        | some n => backtrack F iter rest
          { st0 with
            last := n.prev, max := (chosen F iter L).prob, probs := probs
            keys := st0.keys ++ [Key.ofInt (chosen F iter L).prev] }) := by
    rw [backtrack]
    have : st0.last = -1 := rfl
    simp only [this, if_true, hscan', Res.bind_ok]
    cases L.get? (chosen F iter L).prev <;> rfl
  have hrun : runViterbi F iter P.fresh = (do
      let s ← backtrack F iter (L :: rest) st0
      return { P.fresh with
        obs := o :: os, keySeq := s.keys.reverse, maxProb := some s.max, probVec := s.probs
        status := statusHmmViterbiReady }) := by
    unfold runViterbi
    have : P.fresh.obs = o :: os := hob
    rw [this]
    simp only [hvit]
    rfl
  constructor
  · intro hm
    have hnone : L.get? (-1) = none := by
      apply AMap.get?_eq_none_of_not_mem
      intro hmem
      have := hs0 _ ((hkeys _).1 hmem)
      omega
    rw [hrun, hback, hm]
    simp only [hnone, Res.bind_throw]
  · intro hm
    rcases hb4 with hb4 | ⟨p, hp, hb4, hb5⟩
    · rw [hb4] at hm; exact absurd rfl hm
    · obtain ⟨q, hq, rfl⟩ := List.mem_map.1 hp
      obtain ⟨hgq, hqs⟩ := hmemL q hq
      obtain ⟨n, hn, _, hlow, _⟩ := hnodes q.1 hqs
      rw [hgq] at hn
      injection hn with hn
      subst hn
      obtain ⟨halive, _, _⟩ := hlow hb5
      obtain ⟨_, n', hn', halive'⟩ := halive
      rw [hgq] at hn'
      injection hn' with hn'
      subst hn'
      have hbp : (chosen F iter L).prev = q.1 := by
        change chosen F iter L = _ at hb4
        rw [hb4]
      rw [hrun, hback, hbp]
      simp only [hgq]
      rw [backtrack_alive F iter rest _ (by exact halive')]
      refine ⟨_, rfl, ?_⟩
      simp [getKeySequence, trace, hgq, st0]

theorem pick_shift (u : ℝ) (l : List (Int × Node RD)) (n : Node RD) :
    ((vmap (shNode u) l).map (fun p => (p.1, p.2.prob))).foldl (pick exact) (shNode u n) =
      shNode u ((l.map (fun p => (p.1, p.2.prob))).foldl (pick exact) n) := by
  induction l generalizing n with
  | nil => rfl
  | cons p l ih =>
    obtain ⟨k, m⟩ := p
    simp only [vmap, List.map_cons, List.foldl_cons] at ih ⊢
    rw [← ih]
    congr 1
    have hlt := lt_shift u n.prob m.prob
    unfold pick
    have e : exact.lt (shNode u n).prob (shNode u m).prob = exact.lt n.prob m.prob := hlt
    simp only [e]
    split <;> rfl

theorem trace_shift (vit vit' : List (IMap (Node RD)))
    (hv : List.Forall₂ (fun L L' => ∃ u, L' = vmap (shNode u) L) vit vit') (s : Int) :
    trace vit' s = trace vit s := by
  induction hv generalizing s with
  | nil => rfl
  | @cons L L' vit vit' hL hv ih =>
    obtain ⟨u, rfl⟩ := hL
    simp only [trace, get?_vmap]
    cases L.get? s with
    | none => rfl
    | some n => simp only [Option.map_some, shNode, ih]

/-- **C27 (one model).** Exact arithmetic, any two models that differ only by positive factors on their
initial, transition and emission tables, any tables (also with zero, negative, infinite or NaN
entries), any non-empty observations: one run throws iff the other does, and otherwise both return the
same key sequence, ties included. -/
theorem C27_model {b c d : ℝ} (hb : 0 < b) (hc : 0 < c) (hd : 0 < d) {P P' : Problem RD} (hP : P.WF)
    (hP' : P'.WF) (S : Scaled b c d P P') (iter : Iter RD) (hi : iter.Ok) (hk : iter.KeyBased)
    (hne : P.obs ≠ []) :
    (runViterbi exact iter P.fresh = .throw .outOfRange ∧
      runViterbi exact iter P'.fresh = .throw .outOfRange) ∨
    ∃ h h', runViterbi exact iter P.fresh = .ok h ∧ runViterbi exact iter P'.fresh = .ok h' ∧
      h'.getKeySequence = h.getKeySequence := by
  cases hob : P.obs with
  | nil => exact absurd hob hne
  | cons o os =>
    have hob' : P'.obs = o :: os := by rw [S.obs, hob]
    have W := RD.laws RD.exactRounding (fun r => .fin (Real.logb 10 r))
    change FPLaws exact _ at W
    obtain ⟨L, rest, hv, h1, h2⟩ := run_form W iter hi P hP o os hob
    obtain ⟨L', rest', hv', h1', h2'⟩ := run_form W iter hi P' hP' o os hob'
    have hF := firstLayer_scaled hb hd hP hP' S o
    have hsim := layers_scaled hc hd hP hP' S os (Real.logb 10 (b * d)) (firstLayer exact P.fresh o)
      [firstLayer exact P.fresh o] [firstLayer exact P'.fresh o]
      (List.Forall₂.cons ⟨_, hF⟩ List.Forall₂.nil)
    rw [← hF, hv, hv'] at hsim
    cases hsim with
    | cons hL hrest =>
      obtain ⟨u, rfl⟩ := hL
      have hch : chosen exact iter (vmap (shNode u) L) = shNode u (chosen exact iter L) := by
        unfold chosen
        rw [hk]
        exact pick_shift u (iter L) ⟨exact.negInf, -1⟩
      have hprev : (chosen exact iter (vmap (shNode u) L)).prev = (chosen exact iter L).prev := by
        rw [hch]; rfl
      have htr := trace_shift (L :: rest) (vmap (shNode u) L :: rest') (List.Forall₂.cons ⟨u, rfl⟩ hrest) (chosen exact iter L).prev
      rw [hprev] at h1' h2'
      by_cases hm : (chosen exact iter L).prev = -1
      · exact Or.inl ⟨h1 hm, h1' hm⟩
      · obtain ⟨g, hg, hgk⟩ := h2 hm
        obtain ⟨g', hg', hgk'⟩ := h2' hm
        refine Or.inr ⟨g, g', hg, hg', ?_⟩
        rw [hgk, hgk', htr]

end JKD.HMM

namespace JKD.Detect

open Spec HMM RD

theorem rd_tab_scale (c : ℝ) (ks : List Int) (f g : Int → RD) (h : ∀ k ∈ ks, g k = scale c (f k)) (k : Int) :
    rd exact (tab ks g) k = scale c (rd exact (tab ks f) k) := by
  by_cases hk : k ∈ ks
  · rw [rd_tab _ _ _ hk, rd_tab _ _ _ hk, h k hk]
  · rw [rd_tab_not _ _ _ hk, rd_tab_not _ _ _ hk, scale_zero]

theorem rd2_tab_scale (c : ℝ) (ks ls : List Int) (f g : Int → Int → RD)
    (h : ∀ k ∈ ks, ∀ l ∈ ls, g k l = scale c (f k l)) (k l : Int) :
    rd2 exact (tab ks (fun x => tab ls (g x))) k l = scale c (rd2 exact (tab ks (fun x => tab ls (f x))) k l) := by
  by_cases hk : k ∈ ks ∧ l ∈ ls
  · rw [rd2_tab _ _ _ _ hk.1 hk.2, rd2_tab _ _ _ _ hk.1 hk.2, h k hk.1 l hk.2]
  · rw [rd2_tab_not _ _ _ _ hk, rd2_tab_not _ _ _ _ hk, scale_zero]

theorem scale_one (a : RD) : scale 1 a = a := by
  unfold scale
  change mul exactRounding _ _ = _
  cases a <;> simp [mul, exactRounding, infMul, ninfMul]

theorem getD_map_scale (c : ℝ) (l : List RD) (i : Nat) :
    (l.map (scale c)).getD i exact.zero = scale c (l.getD i exact.zero) := by
  rw [List.getD_eq_getElem?_getD, List.getD_eq_getElem?_getD, List.getElem?_map]
  cases l[i]? with
  | none => simp [scale_zero]
  | some v => rfl

/-- **C27 (whole detection).** Exact arithmetic.  If the second configuration selects the transition
table of the first multiplied by `c > 0` and its profiles multiplied by `d > 0`, then on every non-empty
sequence of pitch classes both detections end alike, with the same local keys, the same global keys and
the same main key. -/
theorem C27_detection {c d : ℝ} (hc : 0 < c) (hd : 0 < d) (iter₁ iter₂ : Iter RD) (hi₁ : iter₁.Ok)
    (hi₂ : iter₂.Ok) (hk₁ : iter₁.KeyBased) (hk₂ : iter₂.KeyBased) (cfg cfg' : Config RD)
    (h : Config.WF cfg) (h' : Config.WF cfg')
    (ht : transArray exact cfg' = (transArray exact cfg).map (scale c))
    (hM : (profArrays exact cfg').1 = (profArrays exact cfg).1.map (scale d))
    (hm : (profArrays exact cfg').2 = (profArrays exact cfg).2.map (scale d))
    (os : List Int) (ho : ∀ o ∈ os, 0 ≤ o ∧ o < 12) (hne : os ≠ []) :
    (detect exact iter₁ iter₂ cfg (os.map PitchClass.ofInt) = .throw .outOfRange ∧
      detect exact iter₁ iter₂ cfg' (os.map PitchClass.ofInt) = .throw .outOfRange) ∨
    ∃ r r', detect exact iter₁ iter₂ cfg (os.map PitchClass.ofInt) = .ok (.ok r) ∧
      detect exact iter₁ iter₂ cfg' (os.map PitchClass.ofInt) = .ok (.ok r') ∧
      r'.localKeys = r.localKeys ∧ r'.globalKeys = r.globalKeys ∧ r'.mainKey = r.mainKey := by
  have S1 : Scaled 1 c d (stage1 exact cfg os) (stage1 exact cfg' os) := by
    refine ⟨rfl, rfl, ?_, ?_, ?_⟩
    · intro k; rw [scale_one]; rfl
    · refine rd2_tab_scale c keys keys _ _ ?_
      intro j _ k _
      rw [ht, getD_map_scale]
    · refine rd2_tab_scale d keys pcs _ _ ?_
      intro j _ k _
      unfold KeyProfile.emis
      split
      · rw [hM, getD_map_scale]
      · rw [hm, getD_map_scale]
  have S2 : ∀ ls, Scaled 1 1 c (stage2 exact cfg ls) (stage2 exact cfg' ls) := by
    intro ls
    refine ⟨rfl, rfl, ?_, ?_, ?_⟩
    · intro k; rw [scale_one]; rfl
    · intro j k; rw [scale_one]; rfl
    · refine rd2_tab_scale c keys keys _ _ ?_
      intro j _ k _
      rw [ht, getD_map_scale]
  have W := RD.laws RD.exactRounding (fun r => .fin (Real.logb 10 r))
  change FPLaws exact _ at W
  have one : (0 : ℝ) < 1 := one_pos
  have hW1 := stage1_wf exact cfg os
  have hW1' := stage1_wf exact cfg' os
  rw [detect_eq exact iter₁ iter₂ cfg h os ho, detect_eq exact iter₁ iter₂ cfg' h' os ho]
  rcases C27_model one hc hd hW1 hW1' S1 iter₁ hi₁ hk₁ hne with ⟨e1, e2⟩ | ⟨g, g', e1, e2, ek⟩
  · left; rw [e1, e2]; exact ⟨rfl, rfl⟩
  · rcases fresh_spec W iter₁ hi₁ _ hW1 hne with ⟨_, h0⟩ | ⟨p1, g0, ho1, R1⟩
    · rw [e1] at h0; cases h0
    rcases fresh_spec W iter₁ hi₁ _ hW1' hne with ⟨_, h0⟩ | ⟨p1', g0', ho1', R1'⟩
    · rw [e2] at h0; cases h0
    rw [e1] at ho1; injection ho1 with ee; subst ee
    rw [e2] at ho1'; injection ho1' with ee; subst ee
    have hmem : ∀ k ∈ p1, k ∈ keys := R1.isPath.2
    have hp1 : p1 ≠ [] := by
      have hl : p1.length = os.length := R1.isPath.1
      rintro rfl
      exact hne (List.length_eq_zero_iff.1 hl.symm)
    have hk1 : g.getKeySequence = p1.map Key.ofInt := by
      have := R1.keySeq
      unfold getKeySequence
      simpa [Problem.fresh, build] using this
    rw [e1, e2]
    simp only [Res.bind_ok]
    rw [if_neg (by rw [not_not]; exact R1.status), if_neg (by rw [not_not]; exact R1'.status), ek, hk1,
      ofKeys_eq exact cfg p1 hmem, ofKeys_eq exact cfg' p1 hmem]
    simp only [Res.bind_ok]
    have hW2 := stage2_wf exact cfg p1
    rcases C27_model one one hc hW2 (stage2_wf exact cfg' p1) (S2 p1) iter₂ hi₂ hk₂ hp1 with
      ⟨f1, f2⟩ | ⟨k, k', f1, f2, fk⟩
    · left; rw [f1, f2]; exact ⟨rfl, rfl⟩
    · right
      rcases fresh_spec W iter₂ hi₂ _ hW2 hp1 with ⟨_, h0⟩ | ⟨p2, k0, ho2, R2⟩
      · rw [f1] at h0; cases h0
      rw [f1] at ho2; injection ho2 with ee; subst ee
      have hk2 : k.getKeySequence = p2.map Key.ofInt := by
        have := R2.keySeq
        unfold getKeySequence
        simpa [Problem.fresh, build] using this
      rw [f1, f2]
      simp only [Res.bind_ok, fk]
      cases hp2 : p2 with
      | nil =>
        have hl : p2.length = p1.length := R2.isPath.1
        rw [hp2] at hl
        exact absurd (List.length_eq_zero_iff.1 hl.symm) hp1
      | cons x rest =>
        rw [hk2, hp2]
        exact ⟨_, _, rfl, rfl, rfl, rfl, rfl⟩

/-- Insertion order is an iteration order as the theorem wants it. -/
example : Iter.Ok (fun L : IMap (Node RD) => L) ∧ Iter.KeyBased (fun L : IMap (Node RD) => L) :=
  ⟨fun _ => List.Perm.refl _, fun _ _ => rfl⟩

/-- Custom tables can be scaled: two configurations as the theorem wants them. -/
example (c : ℝ) (T M m : List RD) :
    let cfg : Config RD := ⟨"custom", "custom", "custom", T, M, m⟩
    let cfg' : Config RD := ⟨"custom", "custom", "custom", T.map (scale c), M.map (scale c), m.map (scale c)⟩
    transArray exact cfg' = (transArray exact cfg).map (scale c) ∧
    (profArrays exact cfg').1 = (profArrays exact cfg).1.map (scale c) ∧
    (profArrays exact cfg').2 = (profArrays exact cfg).2.map (scale c) := ⟨rfl, rfl, rfl⟩

/-! ### A concrete case for `C24_detection` -/

/-- A configuration in which only C major plays C, and keys never change. -/
noncomputable def onlyTonic : Config RD :=
  ⟨"zero", "custom", "custom", List.replicate 24 (.fin 0), .fin 1 :: List.replicate 11 (.fin 0),
    List.replicate 12 (.fin 0)⟩

theorem onlyTonic_wf : Config.WF onlyTonic := ⟨by simp [onlyTonic], by simp [onlyTonic], by simp [onlyTonic]⟩

theorem onlyTonic_trans : transArray exact onlyTonic = zeroArray exact := by
  have : KeyTransition.builtins.find? (fun p => p.1 == "zero") =
      some ("zero", KeyTransition.zeroTable) := by decide +kernel
  unfold transArray KeyTransition.specTable onlyTonic
  rw [if_neg (by decide), this]
  rfl

theorem onlyTonic_emis (os : List Int) {k : Int} (hk : k ∈ keys) :
    ((stage1 exact onlyTonic os).tables exact).emis k 0 = if k = 0 then .fin 1 else exact.zero := by
  refine (rd2_tab exact keys pcs _ hk (by decide)).trans ?_
  have hp : profArrays exact onlyTonic =
      (.fin 1 :: List.replicate 11 (.fin 0), List.replicate 12 (.fin 0)) := rfl
  rw [hp]
  unfold KeyProfile.emis
  have hkk := mem_keys.1 hk
  unfold IsKey at hkk
  by_cases h12 : k < 12
  · have hm : Spec.isMajor k = true := by simp [Spec.isMajor, h12]
    rw [hm]
    simp only [if_true]
    by_cases h0 : k = 0
    · subst h0; rfl
    · rw [if_neg h0, exact_zero]
      obtain ⟨i, hi⟩ : ∃ i, KeyProfile.degree k 0 = i + 1 :=
        ⟨KeyProfile.degree k 0 - 1, by unfold KeyProfile.degree; omega⟩
      have hi' : i < 11 := by unfold KeyProfile.degree at hi; omega
      rw [hi, List.getD_eq_getElem?_getD, List.getElem?_cons_succ, List.getElem?_replicate_of_lt hi']
      rfl
  · have hm : Spec.isMajor k = false := by simp [Spec.isMajor, h12]
    have hk0 : k ≠ 0 := by omega
    rw [hm, if_neg hk0, exact_zero]
    simp only [Bool.false_eq_true, if_false]
    have hi' : KeyProfile.degree k 0 < 12 := by unfold KeyProfile.degree; omega
    rw [List.getD_eq_getElem?_getD, List.getElem?_replicate_of_lt hi']
    rfl

theorem mul_zero_dead (x : RD) : exact.lt exact.negInf (exact.log10 (exact.mul x exact.zero)) = false := by
  rw [exact_zero]
  change RD.lt .ninf (RD.log10 _ (RD.mul exactRounding x (.fin 0))) = false
  cases x <;> simp [RD.mul, infMul, ninfMul, exactRounding, RD.log10]

theorem fin_mul (a b : ℝ) : exact.mul (.fin a) (.fin b) = .fin (a * b) := rfl

/-- Two observed Cs: both stages have a strictly best sequence, C major throughout. -/
theorem onlyTonic_unique :
    UniqueBest exact (stage1 exact onlyTonic [0, 0]) [0, 0] ∧
    UniqueBest exact (stage2 exact onlyTonic [0, 0]) [0, 0] := by
  have W := RD.laws RD.exactRounding (fun r => .fin (Real.logb 10 r))
  change FPLaws exact _ at W
  have h0 : (0 : Int) ∈ keys := by decide
  -- shared argument: transitions are the zero table and only key 0 emits
  have main : ∀ P : Problem RD, P.obs = [0, 0] → P.states = keys →
      (∀ k ∈ keys, (P.tables exact).init k = exact.ofRat (1 / 24)) →
      (∀ j ∈ keys, ∀ k ∈ keys, (P.tables exact).trans j k = if j = k then exact.ofRat 1 else exact.zero) →
      (∀ k ∈ keys, (P.tables exact).emis k 0 = if k = 0 then .fin 1 else exact.zero) →
      UniqueBest exact P [0, 0] := by
    intro P ho hs hi ht he
    have hsc : score exact (P.tables exact) P.obs [0, 0] = .fin (Real.logb 10 (1 / 24) + Real.logb 10 1) := by
      rw [ho]
      simp only [score, extend]
      rw [hi 0 h0, ht 0 h0 0 h0, he 0 h0, if_pos rfl, if_pos rfl, exact_ofRat, exact_ofRat, fin_mul, fin_mul]
      have e1 : (((1 / 24 : Rat) : ℝ)) * 1 = 1 / 24 := by norm_num
      have e2 : (((1 : Rat) : ℝ)) * 1 = 1 := by norm_num
      rw [e1, e2]
      have l1 : exact.log10 (.fin (1 / 24)) = .fin (Real.logb 10 (1 / 24)) := elog_pos (by norm_num)
      have l2 : exact.log10 (.fin 1) = .fin (Real.logb 10 1) := elog_pos (by norm_num)
      rw [l1, l2]
      rfl
    have hpos : exact.lt exact.negInf (score exact (P.tables exact) P.obs [0, 0]) = true := by
      rw [hsc]; rfl
    refine ⟨⟨by rw [ho], by rw [hs]; intro k hk; simp at hk; subst hk; exact h0⟩, hpos, ?_⟩
    intro ks hks hne
    -- every other sequence has score minus infinity
    have hl : ks.length = 2 := by rw [hks.1, ho]; rfl
    obtain ⟨a, b, rfl⟩ : ∃ a b, ks = [a, b] := List.length_eq_two.1 hl
    have ha : a ∈ keys := by rw [← hs]; exact hks.2 a (by simp)
    have hb : b ∈ keys := by rw [← hs]; exact hks.2 b (by simp)
    have hni : score exact (P.tables exact) P.obs [a, b] = .ninf := by
      rw [ho]
      simp only [score, extend]
      rw [hi a ha, ht a ha b hb, he a ha, he b hb, exact_ofRat, exact_zero, exact_ofRat]
      by_cases ha0 : a = 0
      · have hb0 : b ≠ 0 := by rintro rfl; exact hne (by rw [ha0])
        rw [if_pos ha0, if_neg hb0, fin_mul]
        have e1 : (((1 / 24 : Rat) : ℝ)) * 1 = 1 / 24 := by norm_num
        have l1 : exact.log10 (.fin (1 / 24)) = .fin (Real.logb 10 (1 / 24)) := elog_pos (by norm_num)
        rw [e1, l1]
        have l2 : ∀ x : ℝ, exact.log10 (exact.mul (.fin x) (.fin 0)) = .ninf := by
          intro x; rw [fin_mul, mul_zero]; exact elog_zero
        split
        · rw [l2]; rfl
        · rw [l2]; rfl
      · rw [if_neg ha0, fin_mul, mul_zero]
        have l1 : exact.log10 (.fin 0) = .ninf := elog_zero
        rw [l1]
        have l2 : ∀ x y : ℝ, exact.log10 (exact.mul (.fin x) (.fin y)) ≠ .pinf := by
          intro x y
          rw [fin_mul]
          change RD.log10 (fun r => .fin (Real.logb 10 r)) (.fin (x * y)) ≠ _
          unfold RD.log10
          dsimp only
          split <;> [skip; split] <;> simp
        have l3 : ∀ x y : ℝ, 0 ≤ x * y → exact.log10 (exact.mul (.fin x) (.fin y)) ≠ .nan := by
          intro x y hxy
          rw [fin_mul]
          change RD.log10 (fun r => .fin (Real.logb 10 r)) (.fin (x * y)) ≠ _
          unfold RD.log10
          dsimp only
          rw [if_neg (not_lt.2 hxy)]
          split <;> simp
        have l4 : ∀ w : RD, w ≠ .nan → w ≠ .pinf → exact.add .ninf w = .ninf := by
          intro w h1 h2
          change RD.add exactRounding _ _ = _
          cases w <;> simp_all [RD.add]
        split <;> split <;> exact l4 _ (l3 _ _ (by norm_num)) (l2 _ _)
    rw [hni, hsc]
    rfl
  constructor
  · apply main _ rfl rfl
    · intro k hk; exact rd_tab exact keys (fun _ => exact.ofRat (1 / 24)) hk
    · intro j hj k hk
      have e : ((stage1 exact onlyTonic [0, 0]).tables exact).trans j k =
          ((stage2 exact onlyTonic [0, 0]).tables exact).trans j k := by
        change rd2 exact (transMap exact (transArray exact onlyTonic)) j k =
          rd2 exact (transMap exact (zeroArray exact)) j k
        rw [onlyTonic_trans]
      rw [e, stage2_trans exact _ _ (mem_keys.1 hj) (mem_keys.1 hk)]
    · intro k hk; exact onlyTonic_emis _ hk
  · apply main _ rfl rfl
    · intro k hk; exact rd_tab exact keys (fun _ => exact.ofRat (1 / 24)) hk
    · intro j hj k hk
      exact stage2_trans exact _ _ (mem_keys.1 hj) (mem_keys.1 hk)
    · intro k hk
      have e : ((stage2 exact onlyTonic [0, 0]).tables exact).emis k 0 =
          ((stage2 exact onlyTonic [0, 0]).tables exact).trans k 0 := by
        change rd2 exact (transMap exact (transArray exact onlyTonic)) k 0 =
          rd2 exact (transMap exact (zeroArray exact)) k 0
        rw [onlyTonic_trans]
      rw [e, stage2_trans exact _ _ (mem_keys.1 hk) (by decide), exact_ofRat, Rat.cast_one]

/-- Up a fourth: C C is heard in C major, F F in F major. -/
example : ∃ d d', detect exact (fun L => L) (fun L => L.reverse) onlyTonic ([0, 0].map PitchClass.ofInt) =
      .ok (.ok d) ∧
    detect exact (fun L => L.reverse) (fun L => L) onlyTonic ([5, 5].map PitchClass.ofInt) = .ok (.ok d') ∧
    d.mainKey.getInt = .ok 0 ∧ d'.mainKey.getInt = .ok 5 := by
  have W := RD.laws RD.exactRounding (fun r => .fin (Real.logb 10 r))
  change FPLaws exact _ at W
  obtain ⟨d, d', k, h1, h2, _, _, hk, h5, h6, _⟩ := C24_detection W (fun L => L) (fun L => L.reverse)
    (fun L => L.reverse) (fun L => L) (fun _ => List.Perm.refl _) (fun L => List.reverse_perm L)
    (fun L => List.reverse_perm L) (fun _ => List.Perm.refl _) onlyTonic onlyTonic_wf 5 [0, 0] (by simp)
    (by simp) [0, 0] [0, 0] onlyTonic_unique.1 onlyTonic_unique.2
  simp only [List.head?_cons, Option.some.injEq] at hk
  subst hk
  exact ⟨d, d', h1, h2, h5, h6⟩

end JKD.Detect
