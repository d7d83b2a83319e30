import Verif.Props.ChordReportProps
import Verif.Props.UserChordProps
/-
C157: a dictionary of the user - the best sequence of its chords, and the order of its entries.
-/

namespace JKD.Chordino

open JKD.Chroma Finset

/-! ### Specification -/

/-- An entry of a dictionary: the name of a chord type and its 24 numbers. -/
abbrev Entry := Str × List ℝ

/-- Every entry has its 24 numbers. -/
def Complete (l : List Entry) : Prop := ∀ e ∈ l, e.2.length = 24

/-- The dictionary as the plug-in holds it: all names, and all numbers one after another. -/
def held (l : List Entry) : List Str × List ℝ := (l.map Prod.fst, l.flatMap Prod.snd)

/-! ### Proof -/

theorem held_len {l : List Entry} (h : Complete l) : (held l).2.length = 24 * l.length := by
  induction l with
  | nil => rfl
  | cons e l ih =>
    have h1 := h e (by simp)
    have h2 := ih (fun x hx => h x (by simp [hx]))
    unfold held at *
    simp only [List.flatMap_cons, List.length_append, List.length_cons, h1] at *
    omega

theorem held_long {l : List Entry} (h : Complete l) : Long (some (held l)) := by
  intro e he
  cases he
  rw [held_len h]
  simp [held]

theorem held_name (l : List Entry) (t : Nat) : (held l).1.getD t [] = ((l[t]?).map Prod.fst).getD [] := by
  rw [List.getD_eq_getElem?_getD, held, List.getElem?_map]

theorem held_value {l : List Entry} (h : Complete l) (t : Nat) {q : Nat} (hq : q < 24) :
    (held l).2.getD (24 * t + q) 0 = (((l[t]?).map Prod.snd).getD []).getD q 0 := by
  induction l generalizing t with
  | nil => simp [held]
  | cons e l ih =>
    have h1 := h e (by simp)
    have h2 := fun t => ih (fun x hx => h x (by simp [hx])) t
    unfold held at *
    simp only [List.flatMap_cons] at *
    cases t with
    | zero =>
      rw [List.getD_eq_getElem?_getD, List.getElem?_append_left (by omega)]
      simp
    | succ t =>
      rw [List.getD_eq_getElem?_getD, List.getElem?_append_right (by omega), h1,
        show 24 * (t + 1) + q - 24 = 24 * t + q by omega, ← List.getD_eq_getElem?_getD, h2 t]
      simp

/-- Where the entries of a list are in another order of it. -/
theorem places {α : Type} {l l' : List α} (h : l.Perm l') :
    ∃ σ : Equiv.Perm ℕ, (∀ i, l'[σ i]? = l[i]?) ∧ ∀ i, l.length ≤ i → σ i = i := by
  induction h with
  | nil => exact ⟨Equiv.refl _, fun _ => rfl, fun _ _ => rfl⟩
  | cons x _ ih =>
    obtain ⟨σ, h1, h2⟩ := ih
    refine ⟨⟨fun i => match i with | 0 => 0 | i + 1 => σ i + 1, fun i => match i with | 0 => 0 | i + 1 => σ.symm i + 1,
      fun i => by cases i <;> simp, fun i => by cases i <;> simp⟩, ?_, ?_⟩
    · intro i
      cases i with
      | zero => rfl
      | succ i => simpa using h1 i
    · intro i hi
      cases i with
      | zero => rfl
      | succ i =>
        rw [List.length_cons] at hi
        change σ i + 1 = i + 1
        rw [h2 i (by omega)]
  | swap x y l =>
    refine ⟨Equiv.swap 0 1, ?_, ?_⟩
    · intro i
      match i with
      | 0 => rw [Equiv.swap_apply_left]; rfl
      | 1 => rw [Equiv.swap_apply_right]; rfl
      | i + 2 => rw [Equiv.swap_apply_of_ne_of_ne (by omega) (by omega)]; rfl
    · intro i hi
      rw [List.length_cons, List.length_cons] at hi
      exact Equiv.swap_apply_of_ne_of_ne (by omega) (by omega)
  | trans h _ ih ih' =>
    obtain ⟨σ, h1, h2⟩ := ih
    obtain ⟨σ', h1', h2'⟩ := ih'
    refine ⟨σ.trans σ', fun i => ?_, fun i hi => ?_⟩
    · rw [Equiv.trans_apply, h1', h1]
    · rw [Equiv.trans_apply, h2 i hi, h2' i (by rw [← h.length_eq]; exact hi)]

/-- Chord number `c` in another order of the types. -/
def renumbered (σ : Equiv.Perm ℕ) : Equiv.Perm ℕ where
  toFun c := 12 * σ (c / 12) + c % 12
  invFun c := 12 * σ.symm (c / 12) + c % 12
  left_inv c := by
    have h1 : (12 * σ (c / 12) + c % 12) / 12 = σ (c / 12) := by omega
    have h2 : (12 * σ (c / 12) + c % 12) % 12 = c % 12 := by omega
    dsimp only
    rw [h1, h2, Equiv.symm_apply_apply]
    omega
  right_inv c := by
    have h1 : (12 * σ.symm (c / 12) + c % 12) / 12 = σ.symm (c / 12) := by omega
    have h2 : (12 * σ.symm (c / 12) + c % 12) % 12 = c % 12 := by omega
    dsimp only
    rw [h1, h2, Equiv.apply_symm_apply]
    omega

theorem renumbered_div (σ : Equiv.Perm ℕ) (c : Nat) : renumbered σ c / 12 = σ (c / 12) := by
  change (12 * σ (c / 12) + c % 12) / 12 = _
  omega

theorem renumbered_mod (σ : Equiv.Perm ℕ) (c : Nat) : renumbered σ c % 12 = c % 12 := by
  change (12 * σ (c / 12) + c % 12) % 12 = _
  omega

/-- A permutation that fixes all from `n` on keeps those below `n` below. -/
theorem keeps {σ : Equiv.Perm ℕ} {n : Nat} (h : ∀ i, n ≤ i → σ i = i) {i : Nat} (hi : i < n) : σ i < n := by
  by_contra hc
  have := h (σ i) (by omega)
  have := σ.injective this
  omega

/-- The whole dictionary of a user, in closed form. -/
theorem held_dictionary {l : List Entry} (h : Complete l) (boostN harte : ℝ) :
    ∃ d, chordDictionary exactFns (some (held l)) [] [] boostN harte = .ok d ∧ d.1.length = 12 * l.length + 1 ∧
      (∀ c, c < 12 * l.length → d.1.getD c [] = labelAt exactFns harte (held l).1 (held l).2 0 c) ∧
      d.1.getD (12 * l.length) [] = ['N'] ∧
      ∀ c, c < 12 * l.length + 1 → ∀ b, b < 24 → d.2.1.getD (24 * c + b) 0 =
        exactFns.div (loadedAt exactFns (held l).2 0 l.length (24 * c + b))
          (standOf exactFns boostN (12 * l.length + 1) (loadedAt exactFns (held l).2 0 l.length) c) := by
  have h24 : 24 * (typesOf exactFns (some (held l)) harte).1.length ≤ (typesOf exactFns (some (held l)) harte).2.length :=
    typesOf_long exactFns (held_long h) harte
  have hl : (held l).1.length = l.length := by simp [held]
  refine ⟨_, chordDictionary_eq exactFns (some (held l)) [] [] boostN harte 0 h24, ?_, ?_, ?_, ?_⟩
  · dsimp only [typesOf, Option.getD_some]
    rw [List.length_append, tab_length, hl]
    rfl
  · intro c hc
    dsimp only [typesOf, Option.getD_some]
    rw [hl, List.getD_eq_getElem?_getD, List.getElem?_append_left (by rw [tab_length]; exact hc), tab_get, if_pos hc]
    rfl
  · dsimp only [typesOf, Option.getD_some]
    rw [hl, List.getD_eq_getElem?_getD, List.getElem?_append_right (by rw [tab_length]), tab_length]
    simp
  · intro c hc b hb
    dsimp only [typesOf, Option.getD_some]
    rw [hl, List.nil_append, tab_getD _ _ _ _ (by omega), show (24 * c + b) / 24 = c by omega]

/-- What is held for a type moves with it. -/
theorem loaded_moved {l l' : List Entry} (h : Complete l) (h' : Complete l') {σ : Equiv.Perm ℕ} (hl : l'.length = l.length)
    (hσ : ∀ i, l'[σ i]? = l[i]?) (hfix : ∀ i, l.length ≤ i → σ i = i) {c : Nat} (hc : c < 12 * l.length + 1) {b : Nat}
    (hb : b < 24) :
    loadedAt exactFns (held l').2 0 l'.length (24 * renumbered σ c + b) =
      loadedAt exactFns (held l).2 0 l.length (24 * c + b) := by
  have hd := renumbered_div σ c
  have hm := renumbered_mod σ c
  unfold loadedAt
  rw [hl]
  by_cases hlt : c < 12 * l.length
  · have hk := keeps hfix (show c / 12 < l.length by omega)
    rw [if_pos (by omega), if_pos (by omega)]
    unfold rawAt
    rw [show (24 * renumbered σ c + b) / 24 = renumbered σ c by omega, show (24 * renumbered σ c + b) % 24 = b by omega,
      show (24 * c + b) / 24 = c by omega, show (24 * c + b) % 24 = b by omega, hd, hm]
    unfold valuesFor
    have hv : ∀ q, q < 24 → (held l').2.getD (24 * σ (c / 12) + q) 0 = (held l).2.getD (24 * (c / 12) + q) 0 := by
      intro q hq
      rw [held_value h' _ hq, held_value h _ hq, hσ]
    simp only [Nat.add_assoc (24 * _)]
    rw [hv _ (by omega), hv _ (by omega), hv _ (by omega)]
  · have hce : c = 12 * l.length := by omega
    have hs : renumbered σ c = c := by
      have := hfix (c / 12) (by omega)
      omega
    have h0 : ¬ 24 * c + b < 24 * (12 * l.length) := by omega
    rw [hs]
    simp only [if_neg h0]

theorem entry_moved {l l' : List Entry} (h : Complete l) (h' : Complete l') {σ : Equiv.Perm ℕ} (hl : l'.length = l.length)
    (hσ : ∀ i, l'[σ i]? = l[i]?) (hfix : ∀ i, l.length ≤ i → σ i = i) {boostN harte : ℝ} {d d' : List Str × List ℝ × List (List Int)}
    (e : chordDictionary exactFns (some (held l)) [] [] boostN harte = .ok d)
    (e' : chordDictionary exactFns (some (held l')) [] [] boostN harte = .ok d') {c : Nat} (hc : c < 12 * l.length + 1) :
    renumbered σ c < 12 * l.length + 1 ∧ (renumbered σ c + 1 = 12 * l.length + 1 ↔ c + 1 = 12 * l.length + 1) ∧
      d'.1.getD (renumbered σ c) [] = d.1.getD c [] ∧
      ∀ b, b < 24 → d'.2.1.getD (24 * renumbered σ c + b) 0 = d.2.1.getD (24 * c + b) 0 := by
  obtain ⟨x, ex, -, x2, x3, x4⟩ := held_dictionary h boostN harte
  obtain ⟨x', ex', -, x2', x3', x4'⟩ := held_dictionary h' boostN harte
  have := ok_inj (e.symm.trans ex)
  subst this
  have := ok_inj (e'.symm.trans ex')
  subst this
  have hd := renumbered_div σ c
  have hm := renumbered_mod σ c
  have hlt : renumbered σ c < 12 * l.length + 1 ∧ (c < 12 * l.length → renumbered σ c < 12 * l.length) ∧
      (¬ c < 12 * l.length → renumbered σ c = c) := by
    by_cases hlt : c < 12 * l.length
    · have hk := keeps hfix (show c / 12 < l.length by omega)
      exact ⟨by omega, fun _ => by omega, fun hn => absurd hlt hn⟩
    · have := hfix (c / 12) (by omega)
      exact ⟨by omega, fun hn => absurd hn hlt, fun _ => by omega⟩
  obtain ⟨hlt, hlt1, hlt2⟩ := hlt
  refine ⟨hlt, ?_, ?_, ?_⟩
  · constructor
    · intro heq
      by_contra hne
      have := hlt1 (by omega)
      omega
    · intro heq
      rw [hlt2 (by omega)]
      exact heq
  · by_cases hc' : c < 12 * l.length
    · rw [x2' _ (by rw [hl]; exact hlt1 hc'), x2 _ hc']
      unfold labelAt
      rw [hd, hm]
      congr 1
      · unfold slashAt
        congr 1
        funext k
        rw [held_value h' _ (by omega), held_value h _ (by omega), hσ]
      · rw [held_name, held_name, hσ]
    · rw [hlt2 hc', show c = 12 * l.length by omega, x3]
      rw [hl] at x3'
      exact x3'
  · intro b hb
    rw [x4' _ (by rw [hl]; exact hlt) _ hb, x4 _ hc _ hb, loaded_moved h h' hl hσ hfix hc hb]
    congr 1
    unfold standOf
    dsimp only
    have hsum : ∀ (is : List Nat), (∀ i ∈ is, i < 24) → ∀ s0 : ℝ,
        is.foldl (fun s i => exactFns.add s (exactFns.div (exactFns.pow (exactFns.abs
          (loadedAt exactFns (held l').2 0 l'.length (24 * renumbered σ c + i))) (exactFns.lit 2)) (exactFns.lit 24))) s0 =
        is.foldl (fun s i => exactFns.add s (exactFns.div (exactFns.pow (exactFns.abs
          (loadedAt exactFns (held l).2 0 l.length (24 * c + i))) (exactFns.lit 2)) (exactFns.lit 24))) s0 := by
      intro is
      induction is with
      | nil => intro _ _; rfl
      | cons i is ih =>
        intro hi s0
        rw [List.foldl_cons, List.foldl_cons, loaded_moved h h' hl hσ hfix hc (hi i (by simp))]
        exact ih (fun j hj => hi j (by simp [hj])) _
    rw [hsum _ (fun i hi => List.mem_range.1 hi)]
    by_cases hc' : c < 12 * l.length
    · have := hlt1 hc'
      rw [if_pos (by omega), if_pos (by omega)]
    · have := hlt2 hc'
      rw [if_neg (by omega), if_neg (by omega)]

theorem score_renumbered {n : Nat} {ρ : Equiv.Perm ℕ} {g g' : List (Nat → ℝ)} (hl : g'.length = g.length)
    (h : ∀ i, i < g.length → ∀ c, c < n → (g'.getD i (fun _ => 0)) (ρ c) = (g.getD i (fun _ => 0)) c)
    {q : List Nat} (hq : q.length = g.length) (hr : ∀ c ∈ q, c < n) :
    score n g' (q.map ρ) = score n g q := by
  have hget : ∀ i, i < q.length → (q.map ρ).getD i 0 = ρ (q.getD i 0) := by
    intro i hi
    rw [List.getD_eq_getElem?_getD, List.getD_eq_getElem?_getD, List.getElem?_map, List.getElem?_eq_getElem hi]
    rfl
  have hlt : ∀ i, i < q.length → q.getD i 0 < n := by
    intro i hi
    rw [List.getD_eq_getElem?_getD, List.getElem?_eq_getElem hi]
    exact hr _ (List.getElem_mem _)
  unfold score
  rw [hl]
  congr 1
  · refine prod_congr rfl (fun i hi => ?_)
    have hi := mem_range.mp hi
    rw [hget i (by omega), h i hi _ (hlt i (by omega))]
  · refine prod_congr rfl (fun i hi => ?_)
    have hi := mem_range.mp hi
    rw [hget i (by omega), hget (i + 1) (by omega)]
    unfold stay
    simp only [ρ.injective.eq_iff]

theorem best_renumbered {n : Nat} {ρ : Equiv.Perm ℕ} (hlt : ∀ c, ρ c < n ↔ c < n) (hlast : ρ (n - 1) = n - 1)
    {g g' : List (Nat → ℝ)} (hl : g'.length = g.length)
    (h : ∀ i, i < g.length → ∀ c, c < n → (g'.getD i (fun _ => 0)) (ρ c) = (g.getD i (fun _ => 0)) c)
    {p : List Nat} (hp : Best n g' (p.map ρ)) : Best n g p := by
  have hlen : p.length = g.length := by rw [← hl, ← hp.len, List.length_map]
  have hrange : ∀ c ∈ p, c < n := fun c hc => (hlt c).1 (hp.range _ (List.mem_map_of_mem hc))
  refine ⟨hlen, hrange, ?_, ?_⟩
  · have := hp.start
    rw [List.getElem?_map] at this
    cases hp0 : p[0]? with
    | none => rw [hp0] at this; cases this
    | some c =>
      rw [hp0, Option.map_some, Option.some_inj, ← hlast] at this
      rw [ρ.injective this]
  · intro q hq hr h0
    rw [← score_renumbered hl h hq hr, ← score_renumbered hl h hlen hrange]
    refine hp.best _ (by rw [List.length_map, hq, hl]) ?_ ?_
    · intro c hc
      obtain ⟨c', h', rfl⟩ := List.mem_map.1 hc
      exact (hlt c').2 (hr c' h')
    · rw [List.getElem?_map, h0, Option.map_some, hlast]

/-- The best sequence, for any complete dictionary of the user. -/
theorem user_best (fs : Int) {bs : Nat} (hb : 4 ≤ bs) (params : Params ℝ) (hn : params.doNormalizeChroma ≤ 0)
    (boostN harte : ℝ) {l : List Entry} (hc : Complete l) {blocks : List (Int × List ℝ)}
    (hbl : ∀ bl ∈ blocks, bs ≤ bl.2.length) (hne : blocks ≠ []) (junk : Nat → Nnls.St ℝ) :
    ∃ fc f d p, Chroma.runAll exactFns fs bs params blocks junk = .ok (some fc) ∧
      runAll exactFns (some (held l)) fs bs params boostN harte blocks junk = .ok (some f) ∧
      chordDictionary exactFns (some (held l)) [] [] boostN harte = .ok d ∧
      fc.bothchroma.length = blocks.length ∧
      Best (12 * l.length + 1) (fc.bothchroma.map (fun c => share d.2.1 (12 * l.length + 1) c.2)) p ∧
      f.chords = changeList d.1 (blocks.map Prod.fst) p := by
  obtain ⟨fc, f, d, ec, ef, ed, -, h⟩ := run_ok exactFns exact_ordered exact_tunes (held_long hc)
    fs hb params boostN harte hbl junk 0
  obtain ⟨cs, v, hcl, -, hcs, ev, fit', er⟩ := h hne
  obtain ⟨d', ed', d1, -⟩ := held_dictionary hc boostN harte
  have := ok_inj (ed.symm.trans ed')
  subst this
  have hcs := hcs (by simpa using hn)
  have hbl' : fc.bothchroma.length = blocks.length := by
    rw [hcs, List.length_map] at hcl
    exact hcl
  have hrows : cs.map (salienceOf exactFns d.2.1 0 d.1.length) =
      (fc.bothchroma.map (fun c => share d.2.1 (12 * l.length + 1) c.2)).map (tab d.1.length) := by
    rw [hcs, List.map_map, List.map_map]
    refine List.map_congr_left (fun c _ => ?_)
    dsimp only [Function.comp_apply]
    rw [salience_exact _ (by omega), d1]
  rw [hrows] at ev
  obtain ⟨p, hp, hpl, hpn, hp0, hbest⟩ := best_path (by omega) (by
      intro h0
      have := congrArg List.length h0
      rw [List.length_map, hbl'] at this
      exact hne (List.eq_nil_of_length_eq_zero this)) (by
      intro o ho c
      obtain ⟨x, -, rfl⟩ := List.mem_map.1 ho
      exact share_pos _ (by omega) _ _) ev
  rw [d1] at hpn hp0 hbest
  rw [List.length_map, hbl'] at hpl
  obtain ⟨f', ef', k1, -⟩ := report_ok exactFns fit' 0
  have := ok_inj (er.symm.trans ef')
  subst this
  have hget : ∀ i, v.path.getD i 0 = ((p.getD i 0 : Nat) : Int) := by
    intro i
    rw [hp, List.getD_eq_getElem?_getD, List.getElem?_map, List.getD_eq_getElem?_getD]
    cases p[i]? <;> rfl
  have hp0' : p.getD 0 0 = 12 * l.length := by
    rw [List.getD_eq_getElem?_getD, hp0]
    rfl
  have hbef : ∀ i, before d.1.length v.path i = ((p.getD i 0 : Nat) : Int) := by
    intro i
    unfold before
    split
    · next h => rw [h, hp0', d1]; push_cast; ring
    · exact hget i
  refine ⟨fc, f, d, p, ec, ef, ed, hbl', ⟨by rw [List.length_map, hbl']; exact hpl, hpn, hp0, hbest⟩, ?_⟩
  rw [k1]
  unfold changeList changes
  rw [hpl, hget 0]
  simp only [hget, hbef, Int.toNat_natCast, ne_eq, Int.natCast_inj]

theorem share_renumbered {n : Nat} {ρ : Equiv.Perm ℕ} {dict dict' : List ℝ} (hlt : ∀ c, ρ c < n ↔ c < n)
    (hlast : ∀ c, c < n → (ρ c + 1 = n ↔ c + 1 = n))
    (hv : ∀ c, c < n → ∀ b, b < 24 → dict'.getD (24 * ρ c + b) 0 = dict.getD (24 * c + b) 0) (chroma : List ℝ) {c : Nat}
    (hc : c < n) : share dict' n chroma (ρ c) = share dict n chroma c := by
  have hfit : ∀ c, c < n → fit dict' n chroma (ρ c) = fit dict n chroma c := by
    intro c hc
    unfold fit
    have hs : ∑ b ∈ range 24, dict'.getD (24 * ρ c + b) 0 * chroma.getD b 0 =
        ∑ b ∈ range 24, dict.getD (24 * c + b) 0 * chroma.getD b 0 :=
      sum_congr rfl (fun b hb => by rw [hv c hc b (mem_range.mp hb)])
    rw [hs]
    simp only [hlast c hc]
  unfold share
  rw [hfit c hc]
  congr 1
  refine (sum_nbij' ρ ρ.symm ?_ ?_ ?_ ?_ ?_).symm
  · intro a ha
    exact mem_range.mpr ((hlt a).2 (mem_range.mp ha))
  · intro a ha
    refine mem_range.mpr ((hlt _).1 ?_)
    rw [Equiv.apply_symm_apply]
    exact mem_range.mp ha
  · intro a _
    exact Equiv.symm_apply_apply _ _
  · intro a _
    exact Equiv.apply_symm_apply _ _
  · intro a ha
    rw [hfit a (mem_range.mp ha)]

theorem changeList_renumbered {names names' : List Str} {n : Nat} {ρ : Equiv.Perm ℕ}
    (hname : ∀ c, c < n → names'.getD (ρ c) [] = names.getD c []) (ts : List Int) {p : List Nat} (hp : p ≠ [])
    (hr : ∀ c ∈ p, c < n) : changeList names' ts (p.map ρ) = changeList names ts p := by
  have hget : ∀ i, i < p.length → (p.map ρ).getD i 0 = ρ (p.getD i 0) := by
    intro i hi
    rw [List.getD_eq_getElem?_getD, List.getD_eq_getElem?_getD, List.getElem?_map, List.getElem?_eq_getElem hi]
    rfl
  have hlt : ∀ i, i < p.length → p.getD i 0 < n := by
    intro i hi
    rw [List.getD_eq_getElem?_getD, List.getElem?_eq_getElem hi]
    exact hr _ (List.getElem_mem _)
  have hpos := List.length_pos_of_ne_nil hp
  unfold changeList
  rw [List.length_map, hget 0 hpos, hname _ (hlt 0 hpos)]
  congr 2
  refine List.filterMap_congr (fun i hi => ?_)
  have hi := List.mem_range.1 hi
  rw [hget i (by omega), hget (i + 1) (by omega), hname _ (hlt (i + 1) (by omega))]
  simp only [ne_eq, ρ.injective.eq_iff]

/-- **C157, the sequence.**  In exact arithmetic, for any complete dictionary of the user: the plug-in reports the
changes of a sequence of the chords of this dictionary that has the highest score among all that begin with "N". -/
theorem C157_sequence (fs : Int) {bs : Nat} (hb : 4 ≤ bs) (params : Params ℝ) (hn : params.doNormalizeChroma ≤ 0)
    (boostN harte : ℝ) {l : List Entry} (hc : Complete l) {blocks : List (Int × List ℝ)}
    (hbl : ∀ bl ∈ blocks, bs ≤ bl.2.length) (hne : blocks ≠ []) (junk : Nat → Nnls.St ℝ) :
    ∃ fc f d p, Chroma.runAll exactFns fs bs params blocks junk = .ok (some fc) ∧
      runAll exactFns (some (held l)) fs bs params boostN harte blocks junk = .ok (some f) ∧
      chordDictionary exactFns (some (held l)) [] [] boostN harte = .ok d ∧
      Best (12 * l.length + 1) (fc.bothchroma.map (fun c => share d.2.1 (12 * l.length + 1) c.2)) p ∧
      f.chords = changeList d.1 (blocks.map Prod.fst) p := by
  obtain ⟨fc, f, d, p, h1, h2, h3, -, h4, h5⟩ := user_best fs hb params hn boostN harte hc hbl hne junk
  exact ⟨fc, f, d, p, h1, h2, h3, h4, h5⟩

/-- **C157, the order.**  In exact arithmetic, whatever the recording: put in another order, the entries of a dictionary
give the same chroma and again the list of a sequence of the highest score, by the scores of the first order. -/
theorem C157_order (fs : Int) {bs : Nat} (hb : 4 ≤ bs) (params : Params ℝ) (hn : params.doNormalizeChroma ≤ 0)
    (boostN harte : ℝ) {l l' : List Entry} (hc : Complete l) (hperm : l.Perm l') {blocks : List (Int × List ℝ)}
    (hbl : ∀ bl ∈ blocks, bs ≤ bl.2.length) (hne : blocks ≠ []) (junk : Nat → Nnls.St ℝ) :
    ∃ fc f' d p, Chroma.runAll exactFns fs bs params blocks junk = .ok (some fc) ∧
      runAll exactFns (some (held l')) fs bs params boostN harte blocks junk = .ok (some f') ∧
      chordDictionary exactFns (some (held l)) [] [] boostN harte = .ok d ∧
      Best (12 * l.length + 1) (fc.bothchroma.map (fun c => share d.2.1 (12 * l.length + 1) c.2)) p ∧
      f'.chords = changeList d.1 (blocks.map Prod.fst) p := by
  have hc' : Complete l' := fun e he => hc e (hperm.mem_iff.2 he)
  obtain ⟨fc, f', d', p', b1, b2, b3, b4, b5, b6⟩ := user_best fs hb params hn boostN harte hc' hbl hne junk
  obtain ⟨d, ed, -⟩ := held_dictionary hc boostN harte
  obtain ⟨σ, hσ, hfix⟩ := places hperm
  have hl : l'.length = l.length := hperm.length_eq.symm
  have key := fun c hcl => entry_moved hc hc' hl hσ hfix ed b3 (c := c) hcl
  have hfar : ∀ c, 12 * l.length + 1 ≤ c → 12 * l.length ≤ renumbered σ c := by
    intro c hcl
    have h1 := hfix (c / 12) (by omega)
    have h2 := renumbered_div σ c
    omega
  have hlast : renumbered σ (12 * l.length) = 12 * l.length := by
    have h1 := hfix (12 * l.length / 12) (by omega)
    have h2 := renumbered_div σ (12 * l.length)
    have h3 := renumbered_mod σ (12 * l.length)
    omega
  have hlt : ∀ c, renumbered σ c < 12 * l.length + 1 ↔ c < 12 * l.length + 1 := by
    intro c
    constructor
    · intro h
      by_contra hn
      have h1 := hfar c (by omega)
      have h2 : renumbered σ c = renumbered σ (12 * l.length) := by omega
      have := (renumbered σ).injective h2
      omega
    · exact fun h => (key c h).1
  rw [hl] at b5
  have hshare : ∀ i, i < (fc.bothchroma.map (fun c => share d.2.1 (12 * l.length + 1) c.2)).length → ∀ c, c < 12 * l.length + 1 →
      ((fc.bothchroma.map (fun c => share d'.2.1 (12 * l.length + 1) c.2)).getD i (fun _ => 0)) (renumbered σ c) =
        ((fc.bothchroma.map (fun c => share d.2.1 (12 * l.length + 1) c.2)).getD i (fun _ => 0)) c := by
    intro i hi c hcl
    rw [List.length_map] at hi
    rw [List.getD_eq_getElem?_getD, List.getD_eq_getElem?_getD, List.getElem?_map, List.getElem?_map,
      List.getElem?_eq_getElem hi]
    exact share_renumbered hlt (fun c hcl => (key c hcl).2.1) (fun c hcl => (key c hcl).2.2.2) _ hcl
  have hback : (p'.map (renumbered σ).symm).map (renumbered σ) = p' := by
    rw [List.map_map]
    conv_rhs => rw [← List.map_id p']
    exact List.map_congr_left (fun c _ => Equiv.apply_symm_apply _ _)
  have hb' : Best (12 * l.length + 1) (fc.bothchroma.map (fun c => share d.2.1 (12 * l.length + 1) c.2))
      (p'.map (renumbered σ).symm) :=
    best_renumbered hlt hlast (by simp) hshare (by rw [hback]; exact b5)
  refine ⟨fc, f', d, _, b1, b2, ed, hb', ?_⟩
  rw [b6]
  conv_lhs => rw [← hback]
  refine changeList_renumbered (fun c hcl => (key c hcl).2.2.1) _ ?_ hb'.range
  intro h0
  have := hb'.start
  rw [h0] at this
  cases this

/-- **C157, one best sequence.**  If moreover only one sequence of chords has the highest score, the list of chords is
the same for every order of the entries. -/
theorem C157_same_list (fs : Int) {bs : Nat} (hb : 4 ≤ bs) (params : Params ℝ) (hn : params.doNormalizeChroma ≤ 0)
    (boostN harte : ℝ) {l l' : List Entry} (hc : Complete l) (hperm : l.Perm l') {blocks : List (Int × List ℝ)}
    (hbl : ∀ bl ∈ blocks, bs ≤ bl.2.length) (hne : blocks ≠ []) (junk : Nat → Nnls.St ℝ)
    (huniq : ∀ fc d, Chroma.runAll exactFns fs bs params blocks junk = .ok (some fc) →
      chordDictionary exactFns (some (held l)) [] [] boostN harte = .ok d →
      ∀ p q, Best (12 * l.length + 1) (fc.bothchroma.map (fun c => share d.2.1 (12 * l.length + 1) c.2)) p →
        Best (12 * l.length + 1) (fc.bothchroma.map (fun c => share d.2.1 (12 * l.length + 1) c.2)) q → p = q) :
    ∃ f f', runAll exactFns (some (held l)) fs bs params boostN harte blocks junk = .ok (some f) ∧
      runAll exactFns (some (held l')) fs bs params boostN harte blocks junk = .ok (some f') ∧ f'.chords = f.chords := by
  obtain ⟨fc, f, d, p, a1, a2, a3, a4, a5⟩ := C157_sequence fs hb params hn boostN harte hc hbl hne junk
  obtain ⟨fc', f', d', p', b1, b2, b3, b4, b5⟩ := C157_order fs hb params hn boostN harte hc hperm hbl hne junk
  have := Option.some_inj.1 (ok_inj (a1.symm.trans b1))
  subst this
  have := ok_inj (a3.symm.trans b3)
  subst this
  exact ⟨f, f', a2, b2, by rw [a5, b5, huniq fc d a1 a3 _ _ a4 b4]⟩

/-! ### The file -/

/-- The entries of a file. -/
def entries (lines : List (DictFile.Line ℝ)) : List Entry :=
  lines.flatMap (fun | .chord type _ ns _ => [(type, ns.map Prod.snd)] | _ => [])

theorem held_entries (lines : List (DictFile.Line ℝ)) : held (entries lines) = (DictFile.types lines, DictFile.values lines) := by
  unfold held entries DictFile.types DictFile.values
  rw [List.map_flatMap, List.flatMap_assoc]
  congr 1
  · congr 1
    funext l
    cases l <;> rfl
  · congr 1
    funext l
    cases l <;> simp

/-- **C157, the file.**  The lines of a chord.dict in any order, each chord type with its 24 numbers, comments and empty
lines anywhere: every order is read, and the list of chords of a recording is again that of a best sequence by the
dictionary in the first order. -/
theorem C157_file (cast : Str → Res ℝ) (sh : ℝ → Str) {lines lines' : List (DictFile.Line ℝ)} (hperm : lines.Perm lines')
    (h : ∀ l ∈ lines, l.Valid cast sh) (h24 : ∀ l ∈ lines, ∀ t g ns e, l = .chord t g ns e → ns.length = 24)
    (fs : Int) {bs : Nat} (hb : 4 ≤ bs) (params : Params ℝ) (hn : params.doNormalizeChroma ≤ 0) (boostN harte : ℝ)
    {blocks : List (Int × List ℝ)} (hbl : ∀ bl ∈ blocks, bs ≤ bl.2.length) (hne : blocks ≠ []) (junk : Nat → Nnls.St ℝ) :
    ∃ x x' fc f' d p, DictFile.readDict cast (lines.flatMap (fun l => l.text sh ++ ['\n'])) = .ok x ∧
      DictFile.readDict cast (lines'.flatMap (fun l => l.text sh ++ ['\n'])) = .ok x' ∧
      Chroma.runAll exactFns fs bs params blocks junk = .ok (some fc) ∧
      runAll exactFns (some x') fs bs params boostN harte blocks junk = .ok (some f') ∧
      chordDictionary exactFns (some x) [] [] boostN harte = .ok d ∧
      Best (12 * x.1.length + 1) (fc.bothchroma.map (fun c => share d.2.1 (12 * x.1.length + 1) c.2)) p ∧
      f'.chords = changeList d.1 (blocks.map Prod.fst) p := by
  have hc : Complete (entries lines) := by
    intro e he
    obtain ⟨l, hl, hel⟩ := List.mem_flatMap.1 he
    cases l with
    | empty => simp at hel
    | comment t => simp at hel
    | chord t g ns r =>
      rw [List.mem_singleton.1 hel]
      simpa using h24 _ hl t g ns r rfl
  obtain ⟨fc, f', d, p, h1, h2, h3, h4, h5⟩ := C157_order fs hb params hn boostN harte hc
    (l' := entries lines') (hperm.flatMap_right _) hbl hne junk
  have r1 := DictFile.C97_round_trip cast sh lines h
  have r2 := DictFile.C97_round_trip cast sh lines' (fun l hl => h l (hperm.mem_iff.2 hl))
  rw [← held_entries] at r1 r2
  have hl : (held (entries lines)).1.length = (entries lines).length := by simp [held]
  refine ⟨_, _, fc, f', d, p, r1, r2, h1, h2, h3, ?_, h5⟩
  rw [hl]
  exact h4

/-! ### Silence -/

theorem best_even {n : Nat} {g : List (Nat → ℝ)} {x : ℝ} (hx : 0 < x) (hg : ∀ o ∈ g, ∀ c, o c = x) {p : List Nat}
    (hp : Best n g p) : p = List.replicate g.length (n - 1) := by
  by_cases hne : g = []
  · have := hp.len
    rw [hne] at this ⊢
    exact List.eq_nil_of_length_eq_zero this
  have hglen : 0 < g.length := List.length_pos_of_ne_nil hne
  have hn : 0 < n := by
    have h0 := hp.range (n - 1) (List.mem_of_getElem? hp.start)
    omega
  suffices hall : ∀ i, i < g.length → p.getD i 0 = n - 1 by
    refine List.ext_getElem (by rw [hp.len, List.length_replicate]) (fun i h1 h2 => ?_)
    have := hall i (by rw [← hp.len]; exact h1)
    rw [List.getD_eq_getElem?_getD, List.getElem?_eq_getElem h1] at this
    rw [List.getElem_replicate]
    exact this
  by_cases hn1 : n = 1
  · intro i hi
    have hi' : i < p.length := by rw [hp.len]; exact hi
    have := hp.range p[i] (List.getElem_mem _)
    rw [List.getD_eq_getElem?_getD, List.getElem?_eq_getElem hi', Option.getD_some]
    omega
  have hprod : ∀ q : List Nat, ∏ i ∈ range g.length, (g.getD i (fun _ => 0)) (q.getD i 0) = x ^ g.length := by
    intro q
    rw [prod_congr rfl (g := fun _ => x), prod_const, card_range]
    intro i hi
    apply hg
    rw [List.getD_eq_getElem?_getD, List.getElem?_eq_getElem (mem_range.mp hi)]
    exact List.getElem_mem _
  have hstay : ∀ i j, 0 < stay n i j ∧ stay n i j ≤ 0.99 ∧ (j ≠ i → stay n i j < 0.99) := by
    intro i j
    have h2 : (2 : ℝ) ≤ n := by exact_mod_cast (show 2 ≤ n by omega)
    have hlt : (0.01 : ℝ) / ((n : ℝ) - 1) < 0.99 := by
      rw [div_lt_iff₀ (by linarith)]
      linarith
    unfold stay
    split
    · next h => exact ⟨by norm_num, le_refl _, fun h' => absurd h h'⟩
    · exact ⟨div_pos (by norm_num) (by linarith), hlt.le, fun _ => hlt⟩
  have hstep : ∀ i, i < g.length - 1 → p.getD (i + 1) 0 = p.getD i 0 := by
    by_contra hcon
    push Not at hcon
    obtain ⟨i, hi, hch⟩ := hcon
    have hb := hp.best (List.replicate g.length (n - 1)) (by simp) (by
      intro c hc
      rw [List.eq_of_mem_replicate hc]
      omega) (by rw [List.getElem?_replicate, if_pos hglen])
    unfold score at hb
    rw [hprod, hprod] at hb
    have hlt : ∏ i ∈ range (g.length - 1), stay n (p.getD i 0) (p.getD (i + 1) 0) <
        ∏ i ∈ range (g.length - 1), stay n ((List.replicate g.length (n - 1)).getD i 0)
          ((List.replicate g.length (n - 1)).getD (i + 1) 0) := by
      have hc : ∀ j ∈ range (g.length - 1), stay n ((List.replicate g.length (n - 1)).getD j 0)
          ((List.replicate g.length (n - 1)).getD (j + 1) 0) = 0.99 := by
        intro j hj
        have hj := mem_range.mp hj
        rw [List.getD_eq_getElem?_getD, List.getD_eq_getElem?_getD, List.getElem?_replicate, List.getElem?_replicate,
          if_pos (by omega), if_pos (by omega)]
        unfold stay
        rw [if_pos rfl]
      refine prod_lt_prod (fun j _ => (hstay _ _).1) (fun j hj => ?_) ⟨i, mem_range.mpr hi, ?_⟩
      · rw [hc j hj]
        exact (hstay _ _).2.1
      · rw [hc i (mem_range.mpr hi)]
        exact (hstay _ _).2.2 hch
    have := mul_lt_mul_of_pos_left hlt (pow_pos hx g.length)
    linarith
  intro i
  induction i with
  | zero =>
    intro _
    rw [List.getD_eq_getElem?_getD, hp.start]
    rfl
  | succ i ih =>
    intro hi
    rw [hstep i (by omega), ih (by omega)]

/-- For a silent recording there is one best sequence only: no chord in any block. -/
theorem silent_unique {fs : Int} (hfs : 0 < fs) {bs : Nat} (hb : 4 ≤ bs) (params : Params ℝ)
    {blocks : List (Int × List ℝ)} (hbl : ∀ bl ∈ blocks, bs ≤ bl.2.length) (junk : Nat → Nnls.St ℝ)
    (hq : ∀ bl ∈ blocks, ∀ n, n < bs / 2 → Real.sqrt (bl.2.getD (2 * n) 0 ^ 2 + bl.2.getD (2 * n + 1) 0 ^ 2) < 2)
    {fc : Chroma.Features ℝ Int} (e : Chroma.runAll exactFns fs bs params blocks junk = .ok (some fc))
    (hl : fc.bothchroma.length = blocks.length) (dict : List ℝ) {n : Nat} (hn : 0 < n) {p : List Nat}
    (hp : Best n (fc.bothchroma.map (fun c => share dict n c.2)) p) : p = List.replicate blocks.length (n - 1) := by
  have hs : ∀ o ∈ fc.bothchroma.map (fun c => share dict n c.2), ∀ c, o c = 1 / (n : ℝ) := by
    intro o ho c
    obtain ⟨x, hx, rfl⟩ := List.mem_map.1 ho
    obtain ⟨k, hk, rfl⟩ := List.getElem_of_mem hx
    obtain ⟨f', ef', -, -, -, -, hz⟩ := C76_silence hfs hb params hbl junk (List.getElem?_eq_getElem (show k < blocks.length by omega))
      (hq _ (List.getElem_mem _))
    have := ok_inj (e.symm.trans ef')
    cases this
    rw [List.getElem?_eq_getElem hk] at hz
    rw [Option.some.inj hz]
    unfold share
    simp only [fit_silent, Real.rpow_zero]
    rw [sum_const, card_range]
    simp
  have := best_even (by positivity) hs hp
  rw [List.length_map, hl] at this
  exact this

/-- **C157, silence.**  Whatever dictionary the user gives, for a recording whose Fourier magnitudes all stay below two
only "N" is reported, at the first block and at the last. -/
theorem C157_silence {fs : Int} (hfs : 0 < fs) {bs : Nat} (hb : 4 ≤ bs) (params : Params ℝ)
    (hn : params.doNormalizeChroma ≤ 0) (boostN harte : ℝ) {l : List Entry} (hc : Complete l)
    {blocks : List (Int × List ℝ)} (hbl : ∀ bl ∈ blocks, bs ≤ bl.2.length) (hne : blocks ≠ []) (junk : Nat → Nnls.St ℝ)
    (hq : ∀ bl ∈ blocks, ∀ n, n < bs / 2 → Real.sqrt (bl.2.getD (2 * n) 0 ^ 2 + bl.2.getD (2 * n + 1) 0 ^ 2) < 2) :
    ∃ f, runAll exactFns (some (held l)) fs bs params boostN harte blocks junk = .ok (some f) ∧
      f.chords = [((blocks.map Prod.fst).getD 0 0, ['N']), ((blocks.map Prod.fst).getD (blocks.length - 1) 0, ['N'])] := by
  obtain ⟨fc, f, d, p, h1, h2, h3, h4, h5, h6⟩ := user_best fs hb params hn boostN harte hc hbl hne junk
  obtain ⟨d', e', -, -, dN, -⟩ := held_dictionary hc boostN harte
  have := ok_inj (h3.symm.trans e')
  subst this
  have hp := silent_unique hfs hb params hbl junk hq h1 h4 d.2.1 (by omega) h5
  rw [Nat.add_sub_cancel] at hp
  have hpos := List.length_pos_of_ne_nil hne
  have hget : ∀ i, i < blocks.length → p.getD i 0 = 12 * l.length := by
    intro i hi
    rw [hp, List.getD_eq_getElem?_getD, List.getElem?_replicate, if_pos hi]
    rfl
  have hpl : p.length = blocks.length := by rw [hp, List.length_replicate]
  refine ⟨f, h2, ?_⟩
  rw [h6]
  unfold changeList
  have : (List.range (p.length - 1)).filterMap (fun i => if p.getD (i + 1) 0 ≠ p.getD i 0 then
      some ((blocks.map Prod.fst).getD (i + 1) 0, d.1.getD (p.getD (i + 1) 0) []) else none) = [] := by
    rw [List.filterMap_eq_nil_iff]
    intro i hi
    have hi := List.mem_range.mp hi
    rw [if_neg]
    rw [not_not, hget (i + 1) (by omega), hget i (by omega)]
  rw [this, hpl, hget 0 hpos, dN]
  rfl

/-- A case: two kinds of chord in either order, and two blocks, for which there is one best sequence. -/
example (params : Params ℝ) (hn : params.doNormalizeChroma ≤ 0) (junk : Nat → Nnls.St ℝ) :
    ∃ f f', runAll exactFns (some (held [(['m'], List.replicate 24 1), (['7'], List.replicate 24 2)])) 44100 4 params 0.1 0
        [(0, [1, 0, 0, 0]), (46, [0, 0, 0, 1])] junk = .ok (some f) ∧
      runAll exactFns (some (held [(['7'], List.replicate 24 2), (['m'], List.replicate 24 1)])) 44100 4 params 0.1 0
        [(0, [1, 0, 0, 0]), (46, [0, 0, 0, 1])] junk = .ok (some f') ∧ f'.chords = f.chords := by
  have hc : Complete [(['m'], List.replicate 24 (1 : ℝ)), (['7'], List.replicate 24 2)] := by
    intro e he
    simp only [List.mem_cons, List.not_mem_nil, or_false] at he
    rcases he with rfl | rfl <;> simp
  have hbl : ∀ bl ∈ [((0 : Int), [(1 : ℝ), 0, 0, 0]), (46, [0, 0, 0, 1])], 4 ≤ bl.2.length := by simp
  have hq : ∀ bl ∈ [((0 : Int), [(1 : ℝ), 0, 0, 0]), (46, [0, 0, 0, 1])], ∀ n, n < 4 / 2 →
      Real.sqrt (bl.2.getD (2 * n) 0 ^ 2 + bl.2.getD (2 * n + 1) 0 ^ 2) < 2 := by
    intro bl hbl n hn'
    simp only [List.mem_cons, List.not_mem_nil, or_false] at hbl
    have : n = 0 ∨ n = 1 := by omega
    rcases hbl with rfl | rfl <;> rcases this with rfl | rfl <;> norm_num
  refine C157_same_list 44100 (by norm_num) params hn 0.1 0 hc (List.Perm.swap _ _ _) hbl (by simp) junk ?_
  intro fc d e _ p q hp hq'
  obtain ⟨fc', _, _, _, e', -, -, hl, -⟩ := user_best 44100 (by norm_num) params hn 0.1 0 hc hbl (by simp) junk
  have := Option.some_inj.1 (ok_inj (e.symm.trans e'))
  subst this
  rw [silent_unique (by norm_num) (by norm_num) params hbl junk hq e hl d.2.1 (by simp) hp,
    silent_unique (by norm_num) (by norm_num) params hbl junk hq e hl d.2.1 (by simp) hq']

end JKD.Chordino
