import Verif.Lemmas.ChromaExact
/-
The chroma vectors and the approximate transcription of one frame in exact arithmetic.
-/

namespace JKD.Chroma

open Finset

/-- The sum over the notes of pitch class `c` (0 is A) of the semitone spectrum weighted with a window. -/
noncomputable def foldNotes (w : List Rat) (sem : List ℝ) (c : Nat) : ℝ :=
  ∑ t ∈ (range 84).filter (fun t => t % 12 = c), sem.getD t 0 * ((w.getD t 0 : Rat) : ℝ)

theorem foldNotes_step (w : List Rat) {sem sem' : List ℝ} {t : Nat} (ht : t < 84) (v : ℝ)
    (h : ∀ j, sem'.getD j 0 = if j = t then v else sem.getD j 0) (h0 : sem.getD t 0 = 0) (c : Nat) :
    foldNotes w sem' c = foldNotes w sem c + if t % 12 = c then v * ((w.getD t 0 : Rat) : ℝ) else 0 := by
  unfold foldNotes
  have h1 : ∀ j, sem'.getD j 0 * ((w.getD j 0 : Rat) : ℝ) = sem.getD j 0 * ((w.getD j 0 : Rat) : ℝ) +
      if j = t then v * ((w.getD t 0 : Rat) : ℝ) else 0 := by
    intro j
    rw [h]
    split_ifs with hj
    · subst hj
      rw [h0]
      ring
    · ring
  rw [sum_congr rfl (fun j _ => h1 j), sum_add_distrib]
  congr 1
  rw [sum_ite_eq']
  simp [ht]

/-- The chroma vectors are the weighted sums of the semitone spectrum. -/
structure Balanced (r : Notes ℝ) : Prop where
  c : r.chroma.length = 12
  b : r.basschroma.length = 12
  treble : ∀ c, c < 12 → r.chroma[c]? = some (foldNotes treblewindow r.semitones c)
  bass : ∀ c, c < 12 → r.basschroma[c]? = some (foldNotes basswindow r.semitones c)

theorem addNote_balanced {i : Nat} (hi : i < 84) (v : ℝ) {r : Notes ℝ} (hr : Balanced r) {sem : List ℝ}
    (h : ∀ j, sem.getD j 0 = if j = i then v else r.semitones.getD j 0) (h0 : r.semitones.getD i 0 = 0) :
    ∃ r', addNote exactFns i v { r with semitones := sem } = .ok r' ∧ Balanced r' ∧ r'.semitones = sem := by
  obtain ⟨x, y, hx, hy, e⟩ := addNote_eq exactFns hi v (r := { r with semitones := sem }) hr.c hr.b
  refine ⟨_, e, ?_, rfl⟩
  have hx' := hr.treble (i % 12) (by omega)
  have hy' := hr.bass (i % 12) (by omega)
  simp only at hx hy
  rw [hx] at hx'
  rw [hy] at hy'
  cases hx'
  cases hy'
  refine ⟨by simpa using hr.c, by simpa using hr.b, ?_, ?_⟩
  · intro c hc
    simp only
    rw [getElem?_set' (by rw [hr.c]; omega), foldNotes_step treblewindow hi v h h0]
    by_cases hci : c = i % 12
    · subst hci
      rw [if_pos rfl, if_pos rfl]
      rfl
    · rw [if_neg hci, if_neg (Ne.symm hci), hr.treble c hc, add_zero]
  · intro c hc
    simp only
    rw [getElem?_set' (by rw [hr.b]; omega), foldNotes_step basswindow hi v h h0]
    by_cases hci : c = i % 12
    · subst hci
      rw [if_pos rfl, if_pos rfl]
      rfl
    · rw [if_neg hci, if_neg (Ne.symm hci), hr.bass c hc, add_zero]

theorem foldNotes_zero (w : List Rat) {sem : List ℝ} (h : ∀ t, sem.getD t 0 = 0) (c : Nat) :
    foldNotes w sem c = 0 := by
  unfold foldNotes
  apply sum_eq_zero
  intro t _
  rw [h, zero_mul]

theorem getD_replicate_zero (n t : Nat) : (List.replicate n (0 : ℝ)).getD t 0 = 0 := by
  rw [List.getD_eq_getElem?_getD, List.getElem?_replicate]
  split_ifs <;> rfl

theorem balanced_zero {sem : List ℝ} (h : ∀ t, sem.getD t 0 = 0) :
    Balanced { semitones := sem, chroma := List.replicate 12 0, basschroma := List.replicate 12 0 } where
  c := by simp
  b := by simp
  treble c hc := by rw [List.getElem?_replicate, if_pos hc, foldNotes_zero _ h]
  bass c hc := by rw [List.getElem?_replicate, if_pos hc, foldNotes_zero _ h]

theorem getD_append_single (v : List ℝ) (x : ℝ) (j : Nat) :
    (v ++ [x]).getD j 0 = if j = v.length then x else v.getD j 0 := by
  simp only [List.getD_eq_getElem?_getD]
  by_cases h : j < v.length
  · rw [List.getElem?_append_left h, if_neg (by omega)]
  · rw [List.getElem?_append_right (by omega)]
    by_cases h' : j = v.length
    · subst h'
      simp
    · rw [if_neg h', List.getElem?_eq_none (by simp; omega), List.getElem?_eq_none (by omega)]

theorem getD_length (v : List ℝ) {i : Nat} (h : v.length ≤ i) : v.getD i 0 = 0 := by
  rw [List.getD_eq_getElem?_getD, List.getElem?_eq_none h]
  rfl

/-- The plain mapping: a note gets its own bin and half of its neighbours. -/
theorem plainNotes_exact {b : List ℝ} (hb : b.length = nNote) :
    ∃ r, plainNotes exactFns b { semitones := [], chroma := List.replicate 12 0, basschroma := List.replicate 12 0 } =
        .ok r ∧ Balanced r ∧ r.semitones.length = 84 ∧ ∀ t, t < 84 → r.semitones.getD t 0 =
          b.getD (3 * t + 2) 0 / 2 + b.getD (3 * t + 3) 0 + b.getD (3 * t + 4) 0 / 2 := by
  have hb' : b.length = 256 := hb
  unfold plainNotes
  obtain ⟨r, e, h1, h2, h3⟩ := loop_inv (body := fun t (r : Notes ℝ) => do
    let currval ← loop (fun i v => do
      let x ← rd b ((centre t : Int) + ((i : Int) - 1))
      pure (exactFns.add v (exactFns.mul x (exactFns.sub exactFns.one
        (exactFns.abs (exactFns.div (exactFns.mul (exactFns.lit ((i : Rat) - 1)) exactFns.one) (exactFns.lit 2)))))))
      nBPS (exactFns.lit 0)
    addNote exactFns t currval { r with semitones := r.semitones ++ [currval] }) (k := noteRounds)
    (s := { semitones := [], chroma := List.replicate 12 0, basschroma := List.replicate 12 0 })
    (fun k (r : Notes ℝ) => Balanced r ∧ r.semitones.length = k ∧ ∀ t, t < k → r.semitones.getD t 0 =
      b.getD (3 * t + 2) 0 / 2 + b.getD (3 * t + 3) 0 + b.getD (3 * t + 4) 0 / 2)
    ⟨balanced_zero (by intro t; rfl), rfl, by intro t ht; omega⟩ (by
      rintro t ht r ⟨h1, h2, h3⟩
      rw [noteRounds_eq] at ht
      have hv : loop (fun i v => do
          let x ← rd b ((centre t : Int) + ((i : Int) - 1))
          pure (exactFns.add v (exactFns.mul x (exactFns.sub exactFns.one
            (exactFns.abs (exactFns.div (exactFns.mul (exactFns.lit ((i : Rat) - 1)) exactFns.one)
              (exactFns.lit 2))))))) nBPS (exactFns.lit 0) =
          .ok (b.getD (3 * t + 2) 0 / 2 + b.getD (3 * t + 3) 0 + b.getD (3 * t + 4) 0 / 2) := by
        rw [loop_eq (fun i v => v + b.getD (3 * t + 2 + i) 0 * (1 - |(((i : Rat) - 1 : Rat) : ℝ) / 2|))]
        · simp only [nBPS, List.range_succ, List.range_zero, List.nil_append, List.cons_append, List.foldl_cons,
            List.foldl_nil, ex_lit]
          push_cast
          norm_num
          rw [show 3 * t + 2 + 1 = 3 * t + 3 by omega, show 3 * t + 2 + 2 = 3 * t + 4 by omega]
          ring
        · intro i hi v
          simp only [nBPS] at hi
          rw [rd_getD 0 (by simp only [centre, nBPS]; omega) (by rw [hb']; simp only [centre, nBPS]; omega),
            show ((centre t : Int) + ((i : Int) - 1)).toNat = 3 * t + 2 + i by simp only [centre, nBPS]; omega]
          simp
      rw [hv, bind_ok]
      obtain ⟨r', e, g1, g2⟩ := addNote_balanced ht (b.getD (3 * t + 2) 0 / 2 + b.getD (3 * t + 3) 0 +
        b.getD (3 * t + 4) 0 / 2) h1 (sem := r.semitones ++ [b.getD (3 * t + 2) 0 / 2 + b.getD (3 * t + 3) 0 +
        b.getD (3 * t + 4) 0 / 2]) (by
          intro j
          rw [getD_append_single, h2]) (getD_length _ (by omega))
      refine ⟨r', e, g1, by rw [g2]; simp [h2], ?_⟩
      intro j hj
      rw [g2, getD_append_single, h2]
      split_ifs with hjt
      · rw [hjt]
      · exact h3 j (by omega))
  exact ⟨r, e, h1, by rw [h2]; rfl, fun t ht => h3 t (by rw [noteRounds_eq]; exact ht)⟩

/-- The notes with anything in their three bins. -/
noncomputable def heard (b : List ℝ) : List Nat := (List.range 84).filter (sigAt exactFns b)

theorem mem_heard (b : List ℝ) (t : Nat) :
    t ∈ heard b ↔ t < 84 ∧ 0 < b.getD (3 * t + 2) 0 + b.getD (3 * t + 3) 0 + b.getD (3 * t + 4) 0 := by
  unfold heard
  rw [List.mem_filter, List.mem_range]
  apply and_congr_right
  intro _
  unfold sigAt
  simp only [List.range_succ, List.range_zero, List.nil_append, List.cons_append, List.foldl_cons, List.foldl_nil,
    ex_lit, ex_add, ex_lt, decide_eq_true_eq]
  push_cast
  rw [zero_add]

theorem heard_nodup (b : List ℝ) : (heard b).Nodup := List.nodup_range.filter _

/-- The problem handed to the solver: `cd` holds the columns. -/
theorem problem_a {dict b : List ℝ} {cd : List ℝ} (junk : Nnls.St ℝ)
    (hcd : ∀ j s i, (heard b)[j]? = some s → i < nNote →
        cd[j * nNote + i]? = some (exactFns.mul exactFns.one (dict.getD (s * nNote + i) (exactFns.lit 0))))
    {j s l : Nat} (hs : (heard b)[j]? = some s) (hl : 1 ≤ l) (hl' : l ≤ nNote) :
    (problem exactFns cd b junk).a l (j + 1) = dict.getD (s * nNote + (l - 1)) 0 := by
  have h := hcd j s (l - 1) hs (by omega)
  change cd.getD ((j + 1 - 1) * nNote + (l - 1)) _ = _
  rw [Nat.add_sub_cancel, List.getD_eq_getElem?_getD, h]
  simp

/-- The approximate transcription: the semitone spectrum is the solution of the least squares problem whose
columns are the profiles of the notes heard, and zero elsewhere. -/
theorem nnlsNotes_exact {dict : List ℝ} (hd : dict.length = nNote * 84) (junk : Nnls.St ℝ) {b : List ℝ}
    (hb : b.length = nNote) :
    ∃ cd ret r, currDict exactFns dict (heard b) = .ok cd ∧
      (∀ j s i, (heard b)[j]? = some s → i < nNote →
        cd[j * nNote + i]? = some (exactFns.mul exactFns.one (dict.getD (s * nNote + i) (exactFns.lit 0)))) ∧
      Nnls.call Nnls.exact (nNote : Nat) (heard b).length (problem exactFns cd b junk) junk.up = .ok ret ∧
      nnlsNotes exactFns dict junk b
        { semitones := [], chroma := List.replicate 12 0, basschroma := List.replicate 12 0 } = .ok r ∧
      Balanced r ∧ r.semitones.length = 84 ∧
      (∀ j s, (heard b)[j]? = some s → r.semitones.getD s 0 = ret.x (j + 1)) ∧
      (∀ t, t ∉ heard b → r.semitones.getD t 0 = 0) := by
  have hlt : ∀ s ∈ heard b, s < 84 := fun s h => ((mem_heard b s).mp h).1
  have hlen : (heard b).length ≤ 84 := (List.length_filter_le _ _).trans (by simp)
  obtain ⟨cd, e1, l1, p1⟩ := currDict_ok exactFns hd hlt
  obtain ⟨ret, e2⟩ := call_ok exact_ordered (heard b).length (problem exactFns cd b junk) junk.up
  have hnd := heard_nodup b
  unfold nnlsNotes
  rw [significant_eq exactFns hb, bind_ok]
  have hsig : (List.range 84).filter (sigAt exactFns b) = heard b := rfl
  simp only [hsig]
  generalize heard b = sig at *
  refine ⟨cd, ret, ?_⟩
  simp only [e1, bind_ok]
  obtain ⟨r, e, h1, h2, h3, h4⟩ := foldlM_inv (f := fun (r : Notes ℝ) (s : Nat × Nat) => do
      let f3 ← wr r.semitones s.1 (ret.x (s.2 + 1))
      addNote exactFns s.1 (ret.x (s.2 + 1)) { r with semitones := f3 }) (l := sig.zipIdx)
    (b := { semitones := List.replicate 84 0, chroma := List.replicate 12 0, basschroma := List.replicate 12 0 })
    (fun k (r : Notes ℝ) => Balanced r ∧ r.semitones.length = 84 ∧
      (∀ j s, j < k → sig[j]? = some s → r.semitones.getD s 0 = ret.x (j + 1)) ∧
      (∀ t, t ∉ sig.take k → r.semitones.getD t 0 = 0))
    ⟨balanced_zero (getD_replicate_zero 84), by simp, by intro j s hj; omega, fun t _ => getD_replicate_zero 84 t⟩ (by
      rintro k s hk r ⟨h1, h2, h3, h4⟩
      rw [List.getElem?_zipIdx] at hk
      obtain ⟨s, hs', rfl⟩ := Option.map_eq_some_iff.mp hk
      have hs84 := hlt s (List.mem_of_getElem? hs')
      have hklt : k < sig.length := (List.getElem?_eq_some_iff.mp hs').1
      have hnot : s ∉ sig.take k := by
        intro hm
        obtain ⟨i, hi, hie⟩ := List.mem_iff_getElem.mp hm
        rw [List.getElem_take] at hie
        rw [List.length_take] at hi
        have hs'' : sig[i]? = some s := by rw [List.getElem?_eq_getElem (by omega), hie]
        have := (List.getElem?_inj (by omega) hnd).mp (hs''.trans hs'.symm)
        omega
      simp only
      rw [wr_nat _ (by omega), bind_ok]
      obtain ⟨r', e, g1, g2⟩ := addNote_balanced hs84 (ret.x (0 + k + 1)) h1
        (sem := r.semitones.set s (ret.x (0 + k + 1))) (by
          intro j
          rw [getD_set (by omega)]) (h4 s hnot)
      refine ⟨r', e, g1, by rw [g2]; simpa using h2, ?_, ?_⟩
      · intro j s' hj hs''
        rw [g2, getD_set (by omega)]
        by_cases hjk : j = k
        · subst hjk
          rw [hs'] at hs''
          cases hs''
          rw [if_pos rfl, Nat.zero_add]
        · have : s' ≠ s := by
            rintro rfl
            exact hjk ((List.getElem?_inj (by omega) hnd).mp (hs'.trans hs''.symm)).symm
          rw [if_neg this]
          exact h3 j s' (by omega) hs''
      · intro t ht
        rw [List.take_add_one, hs'] at ht
        simp only [Option.toList_some, List.mem_append, List.mem_singleton, not_or] at ht
        rw [g2, getD_set (by omega), if_neg ht.2]
        exact h4 t ht.1)
  rw [List.length_zipIdx] at h3 h4
  rw [List.take_length] at h4
  refine ⟨r, trivial, p1, e2, ?_, h1, h2, ?_, h4⟩
  · rw [if_pos ⟨by decide, by omega, hb⟩]
    change (ofNnls (Nnls.call exactFns.toOps (nNote : Nat) sig.length (problem exactFns cd b junk) junk.up) >>= _) = _
    rw [e2]
    simp only [ofNnls, bind_ok]
    convert e using 2
    simp
  · intro j s hs
    exact h3 j s (List.getElem?_eq_some_iff.mp hs).1 hs

end JKD.Chroma
