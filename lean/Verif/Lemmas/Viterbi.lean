import Verif.Model.HMM
import Verif.Spec.Path
import Verif.Spec.FPLaws
/-
Helper lemmas about the Viterbi recursion and its backward pass.
-/

namespace JKD

variable {D : Type}

/-! ### Folds that insert one entry per state -/

theorem get?_foldl_set {V : Type} (l : List Int) (g : Int → V) (m : IMap V) (k : Int) :
    (l.foldl (fun L s => L.set s (g s)) m).get? k = if k ∈ l then some (g k) else m.get? k := by
  induction l generalizing m with
  | nil => simp
  | cons a l ih =>
    simp only [List.foldl_cons, ih, AMap.get?_set, List.mem_cons]
    by_cases h1 : k ∈ l
    · simp [h1]
    · by_cases h2 : k = a <;> simp [h1, h2]

theorem keys_foldl_set {V : Type} (l : List Int) (g : Int → V) (m : IMap V) (hm : m.keys.Nodup) :
    (AMap.keys (l.foldl (fun L s => L.set s (g s)) m)).Nodup ∧
    ∀ k, k ∈ AMap.keys (l.foldl (fun L s => L.set s (g s)) m) ↔ k ∈ l ∨ k ∈ m.keys := by
  induction l generalizing m with
  | nil => exact ⟨hm, by simp⟩
  | cons a l ih =>
    obtain ⟨h1, h2⟩ := ih (m.set a (g a)) (AMap.keys_nodup_set m a (g a) hm)
    refine ⟨h1, fun k => ?_⟩
    simp only [List.foldl_cons, h2, AMap.mem_keys_set, List.mem_cons]
    constructor
    · rintro (h | h | h) <;> simp [h]
    · rintro ((h | h) | h) <;> simp [h]

/-! ### Maximum by a strict comparison -/

section laws
variable {F : FPU D} {Num : D → Prop} (W : FPLaws F Num)
include W

/-- Not-less-than is transitive when the middle value is a number. -/
theorem FPLaws.nlt_trans {a b c : D} (hb : Num b) (h1 : F.lt a b = false) (h2 : F.lt b c = false) :
    F.lt a c = false := by
  cases h : F.lt a c with
  | false => rfl
  | true =>
    rcases W.lt_cotrans a b c hb h with h3 | h3
    · rw [h1] at h3; exact h3.symm
    · rw [h2] at h3; exact h3.symm

theorem FPLaws.nlt_of_lt {a b : D} (h : F.lt a b = true) : F.lt b a = false := by
  cases h' : F.lt b a with
  | false => rfl
  | true =>
    have := W.lt_trans a b a h h'
    rw [W.lt_irrefl] at this
    exact this.symm

/-- One comparison step: keep the best so far. -/
def pick (F : FPU D) (n : Node D) (p : Int × D) : Node D := if F.lt n.prob p.2 then ⟨p.2, p.1⟩ else n

theorem pick_spec (l : List (Int × D)) (n : Node D) (hn : Num n.prob) :
    Num (l.foldl (pick F) n).prob ∧
    F.lt (l.foldl (pick F) n).prob n.prob = false ∧
    (∀ p ∈ l, F.lt (l.foldl (pick F) n).prob p.2 = false) ∧
    (l.foldl (pick F) n = n ∨
      ∃ p ∈ l, l.foldl (pick F) n = ⟨p.2, p.1⟩ ∧ F.lt n.prob p.2 = true) := by
  induction l generalizing n with
  | nil => exact ⟨hn, W.lt_irrefl _, by simp, Or.inl rfl⟩
  | cons a l ih =>
    simp only [List.foldl_cons]
    cases hlt : F.lt n.prob a.2 with
    | true =>
      have hp : pick F n a = ⟨a.2, a.1⟩ := by simp [pick, hlt]
      rw [hp]
      obtain ⟨h1, h2, h3, h4⟩ := ih ⟨a.2, a.1⟩ (W.lt_num _ _ hlt).2
      refine ⟨h1, ?_, ?_, ?_⟩
      · exact W.nlt_trans (W.lt_num _ _ hlt).2 h2 (W.nlt_of_lt hlt)
      · intro p hp
        rcases List.mem_cons.1 hp with rfl | hp
        · exact h2
        · exact h3 p hp
      · right
        rcases h4 with h4 | ⟨p, hp, h4, h5⟩
        · exact ⟨a, by simp, h4, hlt⟩
        · exact ⟨p, by simp [hp], h4, W.lt_trans _ _ _ hlt h5⟩
    | false =>
      have hp : pick F n a = n := by simp [pick, hlt]
      rw [hp]
      obtain ⟨h1, h2, h3, h4⟩ := ih n hn
      refine ⟨h1, h2, ?_, ?_⟩
      · intro p hp
        rcases List.mem_cons.1 hp with rfl | hp
        · exact W.nlt_trans hn h2 hlt
        · exact h3 p hp
      · rcases h4 with h4 | ⟨p, hp, h4, h5⟩
        · exact Or.inl h4
        · exact Or.inr ⟨p, by simp [hp], h4, h5⟩

end laws

/-! ### Path scores, extended on the right -/

namespace Spec

theorem extend_append (F : FPU D) (T : Tables D) (acc : D) (prev : Int) (os ks : List Int)
    (h : os.length = ks.length) (o k : Int) :
    extend F T acc prev (os ++ [o]) (ks ++ [k]) =
      F.add (extend F T acc prev os ks)
        (F.log10 (F.mul (T.trans ((prev :: ks).getLast (by simp)) k) (T.emis k o))) := by
  induction os generalizing acc prev ks with
  | nil =>
    cases ks with
    | nil => simp [extend]
    | cons a ks => simp at h
  | cons a os ih =>
    cases ks with
    | nil => simp at h
    | cons b ks =>
      simp only [List.length_cons, Nat.add_right_cancel_iff] at h
      simp only [List.cons_append, extend, ih _ _ _ h]
      rw [List.getLast_cons (by simp : (b :: ks) ≠ [])]

theorem score_append (F : FPU D) (T : Tables D) (os ks : List Int) (o k' k : Int)
    (h : os.length = ks.length + 1) :
    score F T (os ++ [o]) (ks ++ [k'] ++ [k]) =
      F.add (score F T os (ks ++ [k'])) (F.log10 (F.mul (T.trans k' k) (T.emis k o))) := by
  cases os with
  | nil => simp at h
  | cons a os =>
    cases ks with
    | nil =>
      cases os with
      | nil => simp [score, extend]
      | cons b os => simp at h
    | cons b ks =>
      simp only [List.cons_append, score]
      rw [extend_append F T _ _ os (ks ++ [k']) (by simp at h ⊢; omega)]
      have hlast : (b :: (ks ++ [k'])).getLast (by simp) = k' := by
        rw [List.getLast_cons (by simp), List.getLast_concat]
      rw [hlast]

end Spec

namespace HMM

open Spec

/-- The tables of a model object, as read by `operator[]`. -/
def tables (F : FPU D) (h : HMM D) : Tables D :=
  { init := rd F h.init, trans := rd2 F h.trans, emis := rd2 F h.emis }

/-! ### Backpointers -/

/-- The states met by following backpointers from state `s` of the top layer. -/
def trace : List (IMap (Node D)) → Int → List Int
  | [], _ => []
  | L :: vit, s =>
    s :: (match L.get? s with
      | some n => trace vit n.prev
      | none => [])

/-- Following backpointers from `s` never leaves the non-negative states of the layers, and ends with
backpointer -1. -/
def Alive : List (IMap (Node D)) → Int → Prop
  | [], s => s = -1
  | L :: vit, s => 0 ≤ s ∧ ∃ n, L.get? s = some n ∧ Alive vit n.prev

theorem trace_length {vit : List (IMap (Node D))} {s : Int} (h : Alive vit s) :
    (trace vit s).length = vit.length := by
  induction vit generalizing s with
  | nil => rfl
  | cons L vit ih =>
    obtain ⟨_, n, hn, ha⟩ := h
    simp [trace, hn, ih ha]

theorem backtrack_alive (F : FPU D) (iter : IMap (Node D) → List (Int × Node D))
    (vit : List (IMap (Node D))) (st : BT D) (h : Alive vit st.last) :
    backtrack F iter vit st =
      .ok { st with last := -1, keys := st.keys ++ (trace vit st.last).map Key.ofInt } := by
  induction vit generalizing st with
  | nil =>
    obtain ⟨last, mx, pr, ks⟩ := st
    simp only [Alive] at h
    simp [backtrack, trace, h]
  | cons L vit ih =>
    obtain ⟨h0, n, hn, ha⟩ := h
    have hne : ¬ (st.last = -1) := by omega
    unfold backtrack
    simp only [hne, if_false, Res.bind_ok, hn]
    rw [ih _ (by exact ha)]
    simp [trace, hn]

/-! ### The forward invariant -/

section inv
variable {F : FPU D} {Num : D → Prop} (W : FPLaws F Num)

/-- What is known about the layers after processing the observations `os`: the top layer has exactly
one node per state; no possible path that ends in a state beats its node; and a node above minus
infinity is the score of the path its backpointers spell. -/
structure FInv (F : FPU D) (Num : D → Prop) (h : HMM D) (os : List Int) (vit : List (IMap (Node D))) :
    Prop where
  len : vit.length = os.length
  top : ∃ L rest, vit = L :: rest ∧ L.keys.Nodup ∧ (∀ k, k ∈ L.keys ↔ k ∈ h.states) ∧
    ∀ s ∈ h.states, ∃ n, L.get? s = some n ∧
      (∀ ks, IsPath h.states os (ks ++ [s]) → Possible F (h.tables F) os (ks ++ [s]) →
        Num n.prob ∧ F.lt n.prob (score F (h.tables F) os (ks ++ [s])) = false) ∧
      (F.lt F.negInf n.prob = true →
        Alive vit s ∧ IsPath h.states os (trace vit s).reverse ∧
        score F (h.tables F) os (trace vit s).reverse = n.prob) ∧
      (n.prob = F.negInf ∨ ∃ ks, IsPath h.states os (ks ++ [s]) ∧
        score F (h.tables F) os (ks ++ [s]) = n.prob)

include W

theorem finv_init (h : HMM D) (hs : ∀ s ∈ h.states, 0 ≤ s) (o : Int) :
    FInv F Num h [o] [firstLayer F h o] := by
  refine ⟨rfl, firstLayer F h o, [], rfl, ?_, ?_, ?_⟩
  · exact (keys_foldl_set h.states _ [] (by simp [AMap.keys])).1
  · intro k
    have := (keys_foldl_set h.states (fun s => (⟨F.log10 (F.mul (rd F h.init s) (rd2 F h.emis s o)), -1⟩ : Node D)) []
      (by simp [AMap.keys])).2 k
    simpa [AMap.keys, firstLayer] using this
  · intro s hsm
    have hg : (firstLayer F h o).get? s =
        some ⟨F.log10 (F.mul (rd F h.init s) (rd2 F h.emis s o)), -1⟩ := by
      unfold firstLayer
      rw [get?_foldl_set, if_pos hsm]
    refine ⟨_, hg, ?_, ?_, Or.inr ⟨[], ⟨rfl, by simpa using hsm⟩, by simp [score, extend, tables]⟩⟩
    · intro ks hp hpos
      have hks : ks = [] := by
        have := hp.1
        simp at this
        exact this
      subst hks
      simp only [Possible, List.nil_append, score, extend, tables] at hpos ⊢
      exact ⟨(W.lt_num _ _ hpos).2, W.lt_irrefl _⟩
    · intro hpos
      have ht : trace [firstLayer F h o] s = [s] := by simp [trace, hg]
      rw [ht]
      refine ⟨⟨hs s hsm, _, hg, rfl⟩, ⟨rfl, by simpa using hsm⟩, ?_⟩
      simp [score, extend, tables]

/-- The candidates compared by the inner loop. -/
def cands (F : FPU D) (h : HMM D) (cur : IMap (Node D)) (o s' : Int) : List (Int × D) :=
  h.states.map (fun s => (s, F.add ((cur.get? s).getD (Node.init F)).prob
    (F.log10 (F.mul (rd2 F h.trans s s') (rd2 F h.emis s' o)))))

omit W in
theorem nextNode_eq (h : HMM D) (cur : IMap (Node D)) (o s' : Int) :
    nextNode F h cur o s' = (cands F h cur o s').foldl (pick F) (Node.init F) := by
  unfold nextNode cands
  rw [List.foldl_map]
  rfl

theorem finv_step (h : HMM D) (hs : ∀ s ∈ h.states, 0 ≤ s) (os : List Int) (o : Int)
    (L : IMap (Node D)) (rest : List (IMap (Node D))) (hi : FInv F Num h os (L :: rest)) :
    FInv F Num h (os ++ [o]) (nextLayer F h L o :: L :: rest) := by
  obtain ⟨hlen, L', rest', hL, hnd, hkeys, hnodes⟩ := hi
  injection hL with hL1 hL2
  subst hL1 hL2
  have hosl : os.length = rest.length + 1 := by simpa using hlen.symm
  refine ⟨by simpa using hlen, nextLayer F h L o, L :: rest, rfl, ?_, ?_, ?_⟩
  · exact (keys_foldl_set h.states _ [] (by simp [AMap.keys])).1
  · intro k
    have := (keys_foldl_set h.states (fun s => nextNode F h L o s) [] (by simp [AMap.keys])).2 k
    simpa [AMap.keys, nextLayer] using this
  · intro s hsm
    have hg : (nextLayer F h L o).get? s = some (nextNode F h L o s) := by
      unfold nextLayer
      rw [get?_foldl_set, if_pos hsm]
    have hlow' : F.lt F.negInf (nextNode F h L o s).prob = true →
        Alive (nextLayer F h L o :: L :: rest) s ∧
        IsPath h.states (os ++ [o]) (trace (nextLayer F h L o :: L :: rest) s).reverse ∧
        score F (h.tables F) (os ++ [o]) (trace (nextLayer F h L o :: L :: rest) s).reverse =
          (nextNode F h L o s).prob := by
      intro hpos
      obtain ⟨_, _, _, h4⟩ := pick_spec W (cands F h L o s) (Node.init F) W.num_negInf
      rw [← nextNode_eq] at h4
      rcases h4 with h4 | ⟨p, hp, h4, h5⟩
      · rw [h4] at hpos
        simp only [Node.init] at hpos
        rw [W.lt_irrefl] at hpos
        exact absurd hpos (by simp)
      · obtain ⟨k', hk', rfl⟩ := List.mem_map.1 hp
        obtain ⟨n, hn, _, hlow, _⟩ := hnodes k' hk'
        rw [h4] at hpos
        simp only [hn, Option.getD_some] at hpos h4
        obtain ⟨halive, hpath, hscore⟩ := hlow (W.add_negInf _ _ hpos)
        have ht : trace (nextLayer F h L o :: L :: rest) s = s :: trace (L :: rest) k' := by
          rw [trace]
          simp [hg, h4]
        have hrev : (trace (L :: rest) k').reverse = (trace (L :: rest) k').tail.reverse ++ [k'] := by
          simp [trace]
        have hlen2 : os.length = (trace (L :: rest) k').tail.reverse.length + 1 := by
          have := hpath.1
          simp only [List.length_reverse, trace_length halive] at this
          simp [trace_length halive, hosl]
        rw [ht]
        refine ⟨⟨hs s hsm, _, hg, by rw [h4]; exact halive⟩, ⟨?_, ?_⟩, ?_⟩
        · simpa using hpath.1
        · intro k hk
          simp only [List.reverse_cons, List.mem_append, List.mem_singleton] at hk
          rcases hk with hk | hk
          · exact hpath.2 k hk
          · exact hk ▸ hsm
        · rw [List.reverse_cons, hrev, score_append F (h.tables F) os _ o k' s hlen2, ← hrev, hscore, h4]
          simp [tables]
    refine ⟨_, hg, ?_, hlow', ?_⟩
    · intro ks hp hpos
      -- the path has at least two states
      have hks : ks ≠ [] := by
        rintro rfl
        have := hp.1
        simp at this
        simp [this] at hosl
      obtain ⟨ks', k', rfl⟩ : ∃ ks' k', ks = ks' ++ [k'] :=
        ⟨ks.dropLast, ks.getLast hks, (List.dropLast_concat_getLast hks).symm⟩
      have hl : os.length = ks'.length + 1 := by
        have := hp.1
        simp at this
        omega
      have hk' : k' ∈ h.states := hp.2 k' (by simp)
      have hsc := score_append F (h.tables F) os ks' o k' s hl
      unfold Possible at hpos
      rw [hsc] at hpos ⊢
      obtain ⟨n, hn, hup, _⟩ := hnodes k' hk'
      have hp' : IsPath h.states os (ks' ++ [k']) := by
        refine ⟨by simp [hl], ?_⟩
        intro k hk
        refine hp.2 k ?_
        simp only [List.mem_append] at hk ⊢
        exact Or.inl hk
      have hpos' : Possible F (h.tables F) os (ks' ++ [k']) := W.add_negInf _ _ hpos
      obtain ⟨hnum, hle⟩ := hup ks' hp' hpos'
      obtain ⟨hnum2, hle2⟩ := W.add_mono _ n.prob _ hnum hle hpos
      rw [nextNode_eq]
      obtain ⟨h1, _, h3, _⟩ := pick_spec W (cands F h L o s) (Node.init F) W.num_negInf
      refine ⟨h1, ?_⟩
      have hmem : (k', F.add n.prob (F.log10 (F.mul ((h.tables F).trans k' s) ((h.tables F).emis s o)))) ∈
          cands F h L o s := by
        refine List.mem_map.2 ⟨k', hk', ?_⟩
        simp [hn, tables]
      exact W.nlt_trans hnum2 (h3 _ hmem) hle2
    · cases hlt : F.lt F.negInf (nextNode F h L o s).prob with
      | false =>
        left
        refine W.eq_negInf _ ?_ hlt
        rw [nextNode_eq]
        exact (pick_spec W (cands F h L o s) (Node.init F) W.num_negInf).1
      | true =>
        right
        obtain ⟨_, h2, h3⟩ := hlow' hlt
        refine ⟨(trace (nextLayer F h L o :: L :: rest) s).tail.reverse, ?_⟩
        have : (trace (nextLayer F h L o :: L :: rest) s).tail.reverse ++ [s] =
            (trace (nextLayer F h L o :: L :: rest) s).reverse := by simp [trace]
        rw [this]
        exact ⟨h2, h3⟩

theorem finv_layers (h : HMM D) (hs : ∀ s ∈ h.states, 0 ≤ s) (os done : List Int)
    (L : IMap (Node D)) (rest : List (IMap (Node D))) (hi : FInv F Num h done (L :: rest)) :
    FInv F Num h (done ++ os) (layers F h os L (L :: rest)) := by
  induction os generalizing done L rest with
  | nil => simpa [layers] using hi
  | cons o os ih =>
    have := ih (done ++ [o]) _ _ (finv_step W h hs done o L rest hi)
    simpa [layers] using this

omit W in
/-- The scan of a layer: the probability vector receives every node's value, and the best node is
picked. -/
theorem scan_spec (l : List (Int × Node D)) (hl : ∀ p ∈ l, 0 ≤ p.1 ∧ p.1 < 24)
    (hnd : (l.map Prod.fst).Nodup) (st : BT D) (hlen : st.probs.length = 24) :
    ∃ probs, scan F l st = .ok
        { st with
          last := ((l.map (fun p => (p.1, p.2.prob))).foldl (pick F) ⟨st.max, st.last⟩).prev
          max := ((l.map (fun p => (p.1, p.2.prob))).foldl (pick F) ⟨st.max, st.last⟩).prob
          probs := probs } ∧
      probs.length = 24 ∧
      (∀ p ∈ l, probs[p.1.toNat]? = some p.2.prob) ∧
      (∀ i : Nat, (i : Int) ∉ l.map Prod.fst → probs[i]? = st.probs[i]?) := by
  induction l generalizing st with
  | nil => exact ⟨st.probs, by simp [scan], hlen, by simp, by simp⟩
  | cons p l ih =>
    obtain ⟨hp0, hp1⟩ := hl p (by simp)
    have hset : setAt st.probs p.1 p.2.prob = .ok (st.probs.set p.1.toNat p.2.prob) := by
      unfold setAt
      rw [if_pos ⟨hp0, by rw [hlen]; exact hp1⟩]
    simp only [List.map_cons, List.nodup_cons] at hnd
    let st' : BT D := if F.lt st.max p.2.prob then
        { st with probs := st.probs.set p.1.toNat p.2.prob, max := p.2.prob, last := p.1 }
      else { st with probs := st.probs.set p.1.toNat p.2.prob }
    have hst' : st'.probs = st.probs.set p.1.toNat p.2.prob ∧ st'.keys = st.keys ∧
        (⟨st'.max, st'.last⟩ : Node D) = pick F ⟨st.max, st.last⟩ (p.1, p.2.prob) := by
      simp only [st', pick]
      split <;> simp_all
    obtain ⟨e1, e2, e3⟩ := hst'
    obtain ⟨probs, h1, h2, h3, h4⟩ := ih (fun q hq => hl q (by simp [hq])) hnd.2 st'
      (by rw [e1, List.length_set, hlen])
    have hstep : scan F (p :: l) st = scan F l st' := by
      unfold scan
      simp only [forM_cons, hset, Res.bind_ok, st']
      split <;> rfl
    refine ⟨probs, ?_, h2, ?_, ?_⟩
    · rw [hstep, h1]
      simp only [List.map_cons, List.foldl_cons, ← e3, e2]
    · intro q hq
      rcases List.mem_cons.1 hq with rfl | hq
      · have : ((q.1.toNat : Nat) : Int) ∉ l.map Prod.fst := by
          rw [Int.toNat_of_nonneg hp0]; exact hnd.1
        rw [h4 _ this, e1, List.getElem?_set_self (by rw [hlen]; omega)]
      · exact h3 q hq
    · intro i hi
      simp only [List.map_cons, List.mem_cons, not_or] at hi
      rw [h4 i hi.2, e1, List.getElem?_set_ne (by omega)]

/-- The probability vector a run of `h` reports: the values of the last layer, zero for non-states. -/
def finalVec (F : FPU D) (h : HMM D) : List D :=
  match h.obs with
  | [] => []
  | o :: os =>
    match layers F h os (firstLayer F h o) [firstLayer F h o] with
    | [] => []
    | L :: _ => (List.range 24).map (fun i : Nat => ((L.get? (i : Int)).map Node.prob).getD F.zero)

/-- What a successful run of `h` leaving `h'` with detected path `path` guarantees. -/
structure RunOk (F : FPU D) (Num : D → Prop) (h h' : HMM D) (path : List Int) : Prop where
  isPath : IsPath h.states h.obs path
  possible : Possible F (h.tables F) h.obs path
  keySeq : h'.keySeq = path.map Key.ofInt ++ h.keySeq.reverse
  maxProb : h'.maxProb = some (score F (h.tables F) h.obs path)
  status : h'.status = statusHmmViterbiReady
  frame : h'.obs = h.obs ∧ h'.states = h.states ∧ h'.init = h.init ∧ h'.trans = h.trans ∧ h'.emis = h.emis
  best : ∀ ks, IsPath h.states h.obs ks → Possible F (h.tables F) h.obs ks →
    F.lt (score F (h.tables F) h.obs path) (score F (h.tables F) h.obs ks) = false
  attained : ∃ s ∈ h.states, path.getLast? = some s ∧
    h'.probVec[s.toNat]? = some (score F (h.tables F) h.obs path)
  vecEq : h'.probVec = finalVec F h
  vecLen : h'.probVec.length = 24
  vecOther : ∀ i : Nat, (i : Int) ∉ h.states → h'.probVec[i]? = (List.replicate 24 F.zero)[i]?
  vec : ∀ s ∈ h.states, ∃ v, h'.probVec[s.toNat]? = some v ∧
    (∀ ks, IsPath h.states h.obs (ks ++ [s]) → Possible F (h.tables F) h.obs (ks ++ [s]) →
      Num v ∧ F.lt v (score F (h.tables F) h.obs (ks ++ [s])) = false) ∧
    (F.lt F.negInf v = true → ∃ ks, IsPath h.states h.obs (ks ++ [s]) ∧
      score F (h.tables F) h.obs (ks ++ [s]) = v) ∧
    (v = F.negInf ∨ ∃ ks, IsPath h.states h.obs (ks ++ [s]) ∧
      score F (h.tables F) h.obs (ks ++ [s]) = v) ∧
    F.lt (score F (h.tables F) h.obs path) v = false

/-- Everything about a run on a non-empty observation sequence. -/
theorem run_spec (iter : IMap (Node D) → List (Int × Node D)) (hiter : ∀ L, (iter L).Perm L)
    (h : HMM D) (hs : ∀ s ∈ h.states, 0 ≤ s ∧ s < 24) (hobs : h.obs ≠ []) :
    ((∀ ks, IsPath h.states h.obs ks → ¬ Possible F (h.tables F) h.obs ks) ∧
      runViterbi F iter h = .throw .outOfRange) ∨
    (∃ path h', runViterbi F iter h = .ok h' ∧ RunOk F Num h h' path) := by
  have hs0 : ∀ s ∈ h.states, 0 ≤ s := fun s hm => (hs s hm).1
  cases hob : h.obs with
  | nil => exact absurd hob hobs
  | cons o os =>
    have hinv := finv_layers W h hs0 os [o] _ [] (finv_init W h hs0 o)
    rw [List.singleton_append] at hinv
    obtain ⟨hlen, L, rest, hvit, hnd, hkeys, hnodes⟩ := hinv
    rw [hvit] at hlen hnodes
    have hperm := hiter L
    have hmemL : ∀ p ∈ iter L, L.get? p.1 = some p.2 ∧ p.1 ∈ h.states := by
      intro p hp
      have hpl := hperm.mem_iff.1 hp
      exact ⟨AMap.get?_eq_some_of_mem L hnd hpl, (hkeys p.1).1 (List.mem_map.2 ⟨p, hpl, rfl⟩)⟩
    have hnd' : ((iter L).map Prod.fst).Nodup := ((hperm.map Prod.fst).nodup_iff).2 hnd
    let st0 : BT D := { last := -1, max := F.negInf, probs := List.replicate 24 F.zero, keys := h.keySeq }
    obtain ⟨probs, hscan, hpl, hpm, hpo⟩ := scan_spec (F := F) (iter L)
      (fun p hp => hs p.1 (hmemL p hp).2) hnd' st0 (by simp [st0])
    obtain ⟨hb1, _, hb3, hb4⟩ := pick_spec W ((iter L).map (fun p => (p.1, p.2.prob)))
      ⟨F.negInf, -1⟩ W.num_negInf
    generalize hbest : ((iter L).map (fun p => (p.1, p.2.prob))).foldl (pick F) ⟨F.negInf, -1⟩ = best
      at hb1 hb3 hb4
    have hscan' : scan F (iter L) st0 =
        .ok { st0 with last := best.prev, max := best.prob, probs := probs } := by
      rw [hscan]; simp only [st0, hbest]
    have hback : backtrack F iter (L :: rest) st0 =
        (match L.get? best.prev with
          | none => .throw .outOfRange
          | some n => backtrack F iter rest
            { st0 with
              last := n.prev, max := best.prob, probs := probs
              keys := st0.keys ++ [Key.ofInt best.prev] }) := by
      rw [backtrack]
      have : st0.last = -1 := rfl
      simp only [this, if_true, hscan', Res.bind_ok]
      cases L.get? best.prev <;> rfl
    have hrun : runViterbi F iter h = (do
        let s ← backtrack F iter (L :: rest) st0
        return { h with
          keySeq := s.keys.reverse, maxProb := some s.max, probVec := s.probs
          status := statusHmmViterbiReady }) := by
      unfold runViterbi
      rw [hob]
      simp only [hvit]
      rfl
    have hmem_iter : ∀ s ∈ h.states, ∃ n, L.get? s = some n ∧ (s, n) ∈ iter L := by
      intro s hsm
      obtain ⟨n, hn, _⟩ := hnodes s hsm
      exact ⟨n, hn, hperm.mem_iff.2 (AMap.mem_of_get?_eq_some L hn)⟩
    rcases hb4 with hb4 | ⟨p, hp, hb4, hb5⟩
    · -- nothing above minus infinity
      left
      constructor
      · intro ks hpath hpos
        have hks : ks ≠ [] := by
          rintro rfl
          have := hpath.1
          simp at this
        obtain ⟨ks', s, rfl⟩ : ∃ ks' s, ks = ks' ++ [s] :=
          ⟨ks.dropLast, ks.getLast hks, (List.dropLast_concat_getLast hks).symm⟩
        have hsm := hpath.2 s (by simp)
        obtain ⟨n, hn, hup, _⟩ := hnodes s hsm
        obtain ⟨hnum, hle⟩ := hup ks' hpath hpos
        obtain ⟨n', hn', hit⟩ := hmem_iter s hsm
        rw [hn] at hn'
        injection hn' with hn'
        subst hn'
        have h1 := hb3 (s, n.prob) (List.mem_map.2 ⟨(s, n), hit, rfl⟩)
        rw [hb4] at h1
        have h2 := W.nlt_trans hnum h1 hle
        unfold Possible at hpos
        rw [hpos] at h2
        exact absurd h2 (by simp)
      · rw [hrun, hback, hb4]
        have : L.get? (-1) = none := by
          apply AMap.get?_eq_none_of_not_mem
          intro hm
          have := hs0 _ ((hkeys _).1 hm)
          omega
        simp only [this, Res.bind_throw]
    · right
      obtain ⟨q, hq, rfl⟩ := List.mem_map.1 hp
      obtain ⟨hgq, hqs⟩ := hmemL q hq
      obtain ⟨n, hn, _, hlow, _⟩ := hnodes q.1 hqs
      rw [hgq] at hn
      injection hn with hn
      subst hn
      obtain ⟨halive, hpath, hscore⟩ := hlow hb5
      obtain ⟨_, n', hn', halive'⟩ := halive
      rw [hgq] at hn'
      injection hn' with hn'
      subst hn'
      have htr : trace (L :: rest) q.1 = q.1 :: trace rest q.2.prev := by simp [trace, hgq]
      have hbp : best.prev = q.1 := by rw [hb4]
      have hbpr : best.prob = q.2.prob := by rw [hb4]
      let h' : HMM D := { h with
        keySeq := (st0.keys ++ [Key.ofInt q.1] ++ (trace rest q.2.prev).map Key.ofInt).reverse
        maxProb := some best.prob, probVec := probs, status := statusHmmViterbiReady }
      refine ⟨(trace (L :: rest) q.1).reverse, h', ?_, ?_⟩
      · rw [hrun, hback, hbp]
        simp only [hgq]
        rw [backtrack_alive F iter rest _ (by exact halive')]
        rfl
      · constructor <;> try rw [hob]
        · exact hpath
        · unfold Possible; rw [hscore]; exact hb5
        · simp [h', htr, st0]
        · simp [h', hscore, hbpr]
        · rfl
        · exact ⟨by first | rfl | exact hob, rfl, rfl, rfl, rfl⟩
        · intro ks hpk hposk
          have hks : ks ≠ [] := by
            rintro rfl
            have := hpk.1
            simp at this
          obtain ⟨ks', s, rfl⟩ : ∃ ks' s, ks = ks' ++ [s] :=
            ⟨ks.dropLast, ks.getLast hks, (List.dropLast_concat_getLast hks).symm⟩
          have hsm := hpk.2 s (by simp)
          obtain ⟨n, hn, hup, _⟩ := hnodes s hsm
          obtain ⟨hnum, hle⟩ := hup ks' hpk hposk
          obtain ⟨n', hn', hit⟩ := hmem_iter s hsm
          rw [hn] at hn'
          injection hn' with hn'
          subst hn'
          have h1 := hb3 (s, n.prob) (List.mem_map.2 ⟨(s, n), hit, rfl⟩)
          rw [hbpr] at h1
          rw [hscore]
          exact W.nlt_trans hnum h1 hle
        · refine ⟨q.1, hqs, ?_, ?_⟩
          · simp [htr]
          · rw [hscore]; exact hpm q hq
        · change probs = finalVec F h
          unfold finalVec
          rw [hob]
          simp only [hvit]
          apply List.ext_getElem?
          intro i
          by_cases hi : i < 24
          · rw [List.getElem?_map, List.getElem?_range hi]
            simp only [Option.map_some]
            by_cases hm : (i : Int) ∈ h.states
            · obtain ⟨n, hn, hit⟩ := hmem_iter _ hm
              have := hpm _ hit
              simp only [Int.toNat_natCast] at this
              rw [this, hn]
              rfl
            · have hni : (i : Int) ∉ (iter L).map Prod.fst := by
                intro hm'
                obtain ⟨p, hp, he⟩ := List.mem_map.1 hm'
                exact hm (he ▸ (hmemL p hp).2)
              rw [hpo i hni, AMap.get?_eq_none_of_not_mem L (fun hk => hm ((hkeys _).1 hk))]
              exact List.getElem?_replicate_of_lt hi
          · rw [List.getElem?_eq_none (by omega), List.getElem?_eq_none (by simp; omega)]
        · exact hpl
        · intro i hi
          have : (i : Int) ∉ (iter L).map Prod.fst := by
            intro hm
            obtain ⟨p, hp, he⟩ := List.mem_map.1 hm
            exact hi (he ▸ (hmemL p hp).2)
          exact hpo i this
        · intro s hsm
          obtain ⟨n, hn, hup, hlow, hor⟩ := hnodes s hsm
          obtain ⟨n', hn', hit⟩ := hmem_iter s hsm
          rw [hn] at hn'
          injection hn' with hn'
          subst hn'
          refine ⟨n.prob, hpm (s, n) hit, hup, ?_, hor, ?_⟩
          · intro hpos
            obtain ⟨ha, hpk, hsk⟩ := hlow hpos
            refine ⟨(trace (L :: rest) s).tail.reverse, ?_⟩
            have : (trace (L :: rest) s).tail.reverse ++ [s] = (trace (L :: rest) s).reverse := by
              simp [trace]
            rw [this]
            exact ⟨hpk, hsk⟩
          · have h1 := hb3 (s, n.prob) (List.mem_map.2 ⟨(s, n), hit, rfl⟩)
            rw [hbpr] at h1
            rw [hscore]
            exact h1

end inv
end HMM
end JKD
