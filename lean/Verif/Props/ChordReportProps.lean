import Verif.Props.ChordinoProps
import Verif.Lemmas.ChordBelief
/-
The chord plug-in: how it hears chords and what it reports (C83-C90).
-/

namespace JKD.Chordino

open JKD.Chroma JKD.ChordViterbi Finset

variable {D : Type}

/-! ### C83: the shares of the chords -/

theorem row_get {n : Nat} (f : Nat → ℝ) {c : Nat} (h : c < n) : (tab n f).getD c 0 = f c := tab_getD n f c 0 h

/-- **C83.**  In exact arithmetic, for any dictionary and any chroma: the shares of the chords in a frame are positive
and add up to one, and one chord's share is 1.3 to the power of the difference of the fits times another's, where the
fit is the scalar product of the chord's profile and the chroma - that of the last chord taken at 70 per cent -
limited to the range from 0 to 200. -/
theorem C83_shares {dict chroma : List ℝ} {n : Nat} (hn : 0 < n) (hd : 24 * n ≤ dict.length) (hc : chroma.length = 24) :
    ∃ row, chordSalience exactFns dict n chroma = .ok row ∧ row.length = n ∧ (∀ x ∈ row, 0 < x) ∧ row.sum = 1 ∧
      ∀ c c', c < n → c' < n → row.getD c 0 = (1.3 : ℝ) ^ (fit dict n chroma c - fit dict n chroma c') * row.getD c' 0 := by
  refine ⟨_, (chordSalience_eq exactFns 0 hn hd hc).trans (congrArg Run.ok (salience_exact dict hn chroma)), tab_length _ _, ?_, ?_, ?_⟩
  · intro x hx
    obtain ⟨c, -, rfl⟩ := List.mem_map.1 hx
    exact share_pos dict hn chroma c
  · have : (tab n (share dict n chroma)).sum = ∑ c ∈ range n, share dict n chroma c := by
      unfold tab
      rw [← List.sum_toFinset _ (List.nodup_range), List.toFinset_range]
    rw [this, share_sum dict hn]
  · intro c c' h h'
    rw [row_get _ h, row_get _ h']
    unfold share
    rw [Real.rpow_sub (by norm_num)]
    have := (Real.rpow_pos_of_pos (show (0 : ℝ) < 1.3 by norm_num) (fit dict n chroma c')).ne'
    field_simp

/-- A consequence: of two chords the one that fits better has the greater share. -/
theorem C83_better_fit {dict chroma : List ℝ} {n : Nat} (hn : 0 < n) (hd : 24 * n ≤ dict.length) (hc : chroma.length = 24) :
    ∃ row, chordSalience exactFns dict n chroma = .ok row ∧
      ∀ c c', c < n → c' < n → (row.getD c 0 < row.getD c' 0 ↔ fit dict n chroma c < fit dict n chroma c') := by
  obtain ⟨row, e, hl, hp, -, h⟩ := C83_shares hn hd hc
  refine ⟨row, e, fun c c' h1 h2 => ?_⟩
  have hpos : 0 < row.getD c' 0 := by
    apply hp
    rw [List.getD_eq_getElem?_getD, List.getElem?_eq_getElem (by omega)]
    exact List.getElem_mem _
  rw [h c c' h1 h2]
  constructor
  · intro hlt
    by_contra hge
    have : (1 : ℝ) ≤ 1.3 ^ (fit dict n chroma c - fit dict n chroma c') :=
      Real.one_le_rpow (by norm_num) (sub_nonneg.mpr (not_lt.mp hge))
    nlinarith
  · intro hlt
    have : (1.3 : ℝ) ^ (fit dict n chroma c - fit dict n chroma c') < 1 :=
      Real.rpow_lt_one_of_one_lt_of_neg (by norm_num) (sub_neg.mpr hlt)
    nlinarith

/-- A case: two chords of one dictionary, the chroma of the first. -/
example : ∃ row, chordSalience exactFns (List.replicate 24 1 ++ List.replicate 24 0) 2 (List.replicate 24 1) = .ok row ∧
    row.getD 1 0 < row.getD 0 0 := by
  obtain ⟨row, e, h⟩ := C83_better_fit (dict := List.replicate 24 1 ++ List.replicate 24 0) (chroma := List.replicate 24 1)
    (n := 2) (by norm_num) (by simp) (by simp)
  refine ⟨row, e, (h 1 0 (by norm_num) (by norm_num)).mpr ?_⟩
  unfold fit
  have h0 : ∑ b ∈ range 24, (List.replicate 24 (1 : ℝ) ++ List.replicate 24 0).getD (24 * 0 + b) 0 *
      (List.replicate 24 (1 : ℝ)).getD b 0 = 24 := by
    have : ∀ b ∈ range 24, (List.replicate 24 (1 : ℝ) ++ List.replicate 24 0).getD (24 * 0 + b) 0 *
      (List.replicate 24 (1 : ℝ)).getD b 0 = 1 := by
      intro b hb
      have hb := mem_range.mp hb
      rw [List.getD_eq_getElem?_getD, List.getD_eq_getElem?_getD, List.getElem?_append_left (by simp; omega),
        List.getElem?_replicate, List.getElem?_replicate, if_pos (by omega), if_pos hb]
      norm_num
    rw [sum_congr rfl this]
    simp
  have h1 : ∑ b ∈ range 24, (List.replicate 24 (1 : ℝ) ++ List.replicate 24 0).getD (24 * 1 + b) 0 *
      (List.replicate 24 (1 : ℝ)).getD b 0 = 0 := by
    refine sum_eq_zero (fun b hb => ?_)
    have hb := mem_range.mp hb
    rw [List.getD_eq_getElem?_getD, List.getElem?_append_right (by simp), List.length_replicate,
      List.getElem?_replicate, if_pos (by omega)]
    simp
  rw [h0, h1]
  norm_num

/-! ### C84: transposition -/

/-- A chroma - bass, then treble - transposed `s` semitones up. -/
noncomputable def transposed (s : Nat) (chroma : List ℝ) : List ℝ :=
  tab 24 (fun b => if b < 12 then chroma.getD ((b + 12 - s) % 12) 0 else chroma.getD (12 + (b - 12 + 12 - s) % 12) 0)

theorem sum_rot (s : Nat) (hs : s < 12) (f : Nat → ℝ) : ∑ k ∈ range 12, f k = ∑ k ∈ range 12, f ((k + s) % 12) := by
  refine sum_nbij' (fun k => (k + 12 - s) % 12) (fun k => (k + s) % 12) ?_ ?_ ?_ ?_ ?_
  · intro k hk; rw [mem_range] at *; omega
  · intro k hk; rw [mem_range] at *; omega
  · intro k hk; rw [mem_range] at hk; omega
  · intro k hk; rw [mem_range] at hk; omega
  · intro k hk
    rw [mem_range] at hk
    congr 1
    omega

theorem sum_halves (f : Nat → ℝ) : ∑ b ∈ range 24, f b = ∑ k ∈ range 12, f k + ∑ k ∈ range 12, f (12 + k) :=
  sum_range_add f 12 12

theorem factor_eq (K : Kind) {a b : ℝ} (ha : 0 < a) (hb : 0 < b) {r r' : Nat} (hr : r < 12) (hr' : r' < 12)
    (h : ∑ k ∈ range 12, (a * K.low ((k + 12 - r) % 12)) ^ 2 + ∑ k ∈ range 12, (a * K.treble ((k + 12 - r) % 12)) ^ 2 = 24)
    (h' : ∑ k ∈ range 12, (b * K.low ((k + 12 - r') % 12)) ^ 2 + ∑ k ∈ range 12, (b * K.treble ((k + 12 - r') % 12)) ^ 2 = 24) :
    a = b := by
  have key : ∀ (x : ℝ) (r : Nat), r < 12 → ∑ k ∈ range 12, (x * K.low ((k + 12 - r) % 12)) ^ 2 +
      ∑ k ∈ range 12, (x * K.treble ((k + 12 - r) % 12)) ^ 2 =
      x ^ 2 * (∑ k ∈ range 12, K.low k ^ 2 + ∑ k ∈ range 12, K.treble k ^ 2) := by
    intro x r hr
    rw [sum_rot r hr (fun k => (x * K.low ((k + 12 - r) % 12)) ^ 2),
      sum_rot r hr (fun k => (x * K.treble ((k + 12 - r) % 12)) ^ 2), mul_add, mul_sum, mul_sum]
    congr 1
    · refine sum_congr rfl (fun k hk => ?_)
      have := mem_range.mp hk
      rw [show ((k + r) % 12 + 12 - r) % 12 = k by omega, mul_pow]
    · refine sum_congr rfl (fun k hk => ?_)
      have := mem_range.mp hk
      rw [show ((k + r) % 12 + 12 - r) % 12 = k by omega, mul_pow]
  rw [key a r hr] at h
  rw [key b r' hr'] at h'
  have hne : (∑ k ∈ range 12, K.low k ^ 2 + ∑ k ∈ range 12, K.treble k ^ 2) ≠ 0 := by
    intro h0
    rw [h0] at h
    norm_num at h
  have : a ^ 2 = b ^ 2 := by
    apply mul_right_cancel₀ hne
    rw [h, h']
  exact (pow_left_inj₀ ha.le hb.le (by norm_num)).mp this

theorem transposed_low {s : Nat} (hs : s < 12) (chroma : List ℝ) {k : Nat} (hk : k < 12) :
    (transposed s chroma).getD ((k + s) % 12) 0 = chroma.getD k 0 := by
  unfold transposed
  rw [tab_getD _ _ _ _ (by omega), if_pos (Nat.mod_lt _ (by norm_num)), show ((k + s) % 12 + 12 - s) % 12 = k by omega]

theorem transposed_high {s : Nat} (hs : s < 12) (chroma : List ℝ) {k : Nat} (hk : k < 12) :
    (transposed s chroma).getD (12 + (k + s) % 12) 0 = chroma.getD (12 + k) 0 := by
  unfold transposed
  rw [tab_getD _ _ _ _ (by omega), if_neg (by omega), show (12 + (k + s) % 12 - 12 + 12 - s) % 12 = k by omega]

/-- The chord that `c` becomes when transposed `s` semitones up. -/
def moved (s c : Nat) : Nat := if c < 216 then 12 * (c / 12) + (c % 12 + s) % 12 else c

theorem fit_moved {boostN harte : ℝ} (hb : 0 ≤ boostN) {d : List Str × List ℝ × List (List Int)}
    (e : chordDictionary exactFns none [] [] boostN harte = .ok d) {s : Nat} (hs : s < 12) (chroma : List ℝ) {c : Nat}
    (hc : c < 217) : fit d.2.1 217 (transposed s chroma) (moved s c) = fit d.2.1 217 chroma c := by
  have hsum : ∑ b ∈ range 24, entryOf d.2.1 (moved s c) b * (transposed s chroma).getD b 0 =
      ∑ b ∈ range 24, entryOf d.2.1 c b * chroma.getD b 0 := by
    rw [sum_halves, sum_halves, sum_rot s hs (fun k => entryOf d.2.1 (moved s c) k * (transposed s chroma).getD k 0),
      sum_rot s hs (fun k => entryOf d.2.1 (moved s c) (12 + k) * (transposed s chroma).getD (12 + k) 0)]
    unfold moved
    by_cases h216 : c < 216
    · rw [if_pos h216]
      obtain ⟨d', e', -, -, -, h⟩ := C81_profiles boostN harte
      have := ok_inj (e.symm.trans e')
      subst this
      obtain ⟨K, hK⟩ : ∃ K, kinds[c / 12]? = some K := ⟨_, List.getElem?_eq_getElem (by rw [kinds_length]; omega)⟩
      obtain ⟨a, ha, a1, a2, a3⟩ := h (c / 12) K hK (c % 12) (Nat.mod_lt _ (by norm_num))
      obtain ⟨b, hb, b1, b2, b3⟩ := h (c / 12) K hK ((c % 12 + s) % 12) (Nat.mod_lt _ (by norm_num))
      have hcc : 12 * (c / 12) + c % 12 = c := by omega
      rw [hcc] at a1 a2 a3
      have hab : b = a := by
        refine factor_eq K hb ha (Nat.mod_lt (c % 12 + s) (by norm_num)) (Nat.mod_lt c (by norm_num)) ?_ ?_
        · rw [← b3, sum_halves]
          congr 1
          · exact sum_congr rfl (fun k hk => by rw [b1 k (mem_range.mp hk)])
          · exact sum_congr rfl (fun k hk => by rw [b2 k (mem_range.mp hk)])
        · rw [← a3, sum_halves]
          congr 1
          · exact sum_congr rfl (fun k hk => by rw [a1 k (mem_range.mp hk)])
          · exact sum_congr rfl (fun k hk => by rw [a2 k (mem_range.mp hk)])
      congr 1
      · refine sum_congr rfl (fun k hk => ?_)
        have hk := mem_range.mp hk
        rw [transposed_low hs chroma hk, b1 _ (Nat.mod_lt _ (by norm_num)), a1 k hk, hab,
          show ((k + s) % 12 + 12 - (c % 12 + s) % 12) % 12 = (k + 12 - c % 12) % 12 by omega]
      · refine sum_congr rfl (fun k hk => ?_)
        have hk := mem_range.mp hk
        rw [transposed_high hs chroma hk, b2 _ (Nat.mod_lt _ (by norm_num)), a2 k hk, hab,
          show ((k + s) % 12 + 12 - (c % 12 + s) % 12) % 12 = (k + 12 - c % 12) % 12 by omega]
    · rw [if_neg h216]
      have : c = 216 := by omega
      subst this
      obtain ⟨d', e', -, -, a, -, a1, a2, -⟩ := C81_no_chord hb harte
      have := ok_inj (e.symm.trans e')
      subst this
      congr 1
      · refine sum_congr rfl (fun k hk => ?_)
        have hk := mem_range.mp hk
        rw [transposed_low hs chroma hk, a1 _ (Nat.mod_lt _ (by norm_num)), a1 k hk]
      · refine sum_congr rfl (fun k hk => ?_)
        have hk := mem_range.mp hk
        rw [transposed_high hs chroma hk, a2 _ (Nat.mod_lt _ (by norm_num)), a2 k hk]
  unfold entryOf at hsum
  unfold fit
  rw [hsum]
  have : (moved s c + 1 = 217) = (c + 1 = 217) := by
    unfold moved
    by_cases h : c < 216
    · rw [if_pos h]
      apply propext
      omega
    · rw [if_neg h]
  simp only [this]

theorem moved_lt {s c : Nat} (hc : c < 217) : moved s c < 217 := by
  unfold moved
  split <;> omega

theorem moved_back {s c : Nat} (hs : s ≤ 12) (hc : c < 217) : moved (12 - s) (moved s c) = c := by
  unfold moved
  by_cases h : c < 216
  · rw [if_pos h, if_pos (by omega)]
    omega
  · rw [if_neg h, if_neg h]

theorem moved_forth {s c : Nat} (hs : s ≤ 12) (hc : c < 217) : moved s (moved (12 - s) c) = c := by
  have := moved_back (s := 12 - s) (c := c) (by omega) hc
  rwa [show 12 - (12 - s) = s by omega] at this

theorem share_moved {boostN harte : ℝ} (hb : 0 ≤ boostN) {d : List Str × List ℝ × List (List Int)}
    (e : chordDictionary exactFns none [] [] boostN harte = .ok d) {s : Nat} (hs : s < 12) (chroma : List ℝ) {c : Nat}
    (hc : c < 217) : share d.2.1 217 (transposed s chroma) (moved s c) = share d.2.1 217 chroma c := by
  have htot : ∑ c ∈ range 217, (1.3 : ℝ) ^ fit d.2.1 217 (transposed s chroma) c =
      ∑ c ∈ range 217, (1.3 : ℝ) ^ fit d.2.1 217 chroma c := by
    symm
    refine sum_nbij' (moved s) (moved (12 - s)) ?_ ?_ ?_ ?_ ?_
    · intro c hc; rw [mem_range] at *; exact moved_lt hc
    · intro c hc; rw [mem_range] at *; exact moved_lt hc
    · intro c hc; exact moved_back hs.le (mem_range.mp hc)
    · intro c hc; exact moved_forth hs.le (mem_range.mp hc)
    · intro c hc
      rw [fit_moved hb e hs chroma (mem_range.mp hc)]
  unfold share
  rw [htot, fit_moved hb e hs chroma hc]

/-- **C84.**  In exact arithmetic, with the built-in dictionary and any boost: if the music is transposed `s` semitones
up, so that bass and treble chroma are rotated by `s`, then the share of every chord goes to the chord of the same
kind `s` semitones higher, and that of "N" stays. -/
theorem C84_transposition {boostN : ℝ} (hb : 0 ≤ boostN) (harte : ℝ) {s : Nat} (hs : s < 12) {chroma : List ℝ}
    (hc : chroma.length = 24) :
    ∃ d row row', chordDictionary exactFns none [] [] boostN harte = .ok d ∧
      chordSalience exactFns d.2.1 d.1.length chroma = .ok row ∧
      chordSalience exactFns d.2.1 d.1.length (transposed s chroma) = .ok row' ∧
      (∀ t r, t < 18 → r < 12 → row'.getD (12 * t + (r + s) % 12) 0 = row.getD (12 * t + r) 0) ∧
      row'.getD 216 0 = row.getD 216 0 := by
  obtain ⟨d, e, d1, d2, -⟩ := C81_profiles boostN harte
  have hl : (transposed s chroma).length = 24 := tab_length _ _
  refine ⟨d, _, _, e, (chordSalience_eq exactFns 0 (by omega) (by omega) hc).trans
    (congrArg Run.ok (salience_exact _ (by omega) chroma)), (chordSalience_eq exactFns 0 (by omega) (by omega) hl).trans
    (congrArg Run.ok (salience_exact _ (by omega) _)), ?_⟩
  rw [d1]
  have hall := fun c hc => share_moved hb e hs chroma (c := c) hc
  refine ⟨?_, ?_⟩
  · intro t r ht hr
    rw [row_get _ (by omega), row_get _ (by omega), ← hall (12 * t + r) (by omega)]
    congr 1
    unfold moved
    rw [if_pos (by omega)]
    omega
  · rw [row_get _ (by omega), row_get _ (by omega), ← hall 216 (by omega)]
    rfl

/-- A case: any 24 numbers, transposed a fifth. -/
example (chroma : List ℝ) (hc : chroma.length = 24) : ∃ d row row', chordDictionary exactFns none [] [] 0.1 0 = .ok d ∧
    chordSalience exactFns d.2.1 d.1.length chroma = .ok row ∧
    chordSalience exactFns d.2.1 d.1.length (transposed 7 chroma) = .ok row' ∧
    row'.getD (12 * 0 + 10) 0 = row.getD (12 * 0 + 3) 0 := by
  obtain ⟨d, row, row', h1, h2, h3, h4, -⟩ := C84_transposition (boostN := 0.1) (by norm_num) 0 (s := 7) (by norm_num) hc
  exact ⟨d, row, row', h1, h2, h3, h4 0 3 (by norm_num) (by norm_num)⟩

/-! ### C85: the sequence of chords -/

/-- `p` is a sequence of chords for the frames with these shares that begins with the last chord, "N", and has the
highest score among all such sequences. -/
structure Best (n : Nat) (g : List (Nat → ℝ)) (p : List Nat) : Prop where
  len : p.length = g.length
  range : ∀ c ∈ p, c < n
  start : p[0]? = some (n - 1)
  best : ∀ q : List Nat, q.length = g.length → (∀ c ∈ q, c < n) → q[0]? = some (n - 1) → score n g q ≤ score n g p

theorem moved_inj {s c c' : Nat} (hs : s < 12) (hc : c < 217) (hc' : c' < 217) : (moved s c = moved s c') = (c = c') := by
  apply propext
  constructor
  · intro h
    rw [← moved_back hs.le hc, ← moved_back hs.le hc', h]
  · intro h
    rw [h]

theorem getD_moved {s : Nat} {q : List Nat} {i : Nat} (hi : i < q.length) :
    (q.map (moved s)).getD i 0 = moved s (q.getD i 0) := by
  rw [List.getD_eq_getElem?_getD, List.getD_eq_getElem?_getD, List.getElem?_map, List.getElem?_eq_getElem hi]
  rfl

theorem getD_lt {q : List Nat} (hq : ∀ c ∈ q, c < 217) {i : Nat} (hi : i < q.length) : q.getD i 0 < 217 := by
  rw [List.getD_eq_getElem?_getD, List.getElem?_eq_getElem hi]
  exact hq _ (List.getElem_mem _)

theorem score_moved {s : Nat} (hs : s < 12) {g g' : List (Nat → ℝ)} (hl : g'.length = g.length)
    (h : ∀ i, i < g.length → ∀ c, c < 217 → (g'.getD i (fun _ => 0)) (moved s c) = (g.getD i (fun _ => 0)) c)
    {q : List Nat} (hq : q.length = g.length) (hr : ∀ c ∈ q, c < 217) :
    score 217 g' (q.map (moved s)) = score 217 g q := by
  unfold score
  rw [hl]
  congr 1
  · refine prod_congr rfl (fun i hi => ?_)
    have hi := mem_range.mp hi
    rw [getD_moved (by omega), h i hi _ (getD_lt hr (by omega))]
  · refine prod_congr rfl (fun i hi => ?_)
    have hi := mem_range.mp hi
    rw [getD_moved (by omega), getD_moved (by omega)]
    unfold stay
    simp only [moved_inj hs (getD_lt hr (show i + 1 < q.length by omega)) (getD_lt hr (show i < q.length by omega))]

/-- **C84, the sequence.**  A best sequence of chords for some frames becomes, transposed `s` semitones up, a best
sequence for the frames transposed `s` semitones up. -/
theorem C84_sequence {boostN : ℝ} (hb : 0 ≤ boostN) (harte : ℝ) {s : Nat} (hs : s < 12) (cs : List (List ℝ)) :
    ∃ d, chordDictionary exactFns none [] [] boostN harte = .ok d ∧
      ∀ p, Best 217 (cs.map (share d.2.1 217)) p →
        Best 217 (cs.map (fun c => share d.2.1 217 (transposed s c))) (p.map (moved s)) := by
  obtain ⟨d, e, -⟩ := C81_profiles boostN harte
  refine ⟨d, e, fun p hp => ?_⟩
  have hl : (cs.map (fun c => share d.2.1 217 (transposed s c))).length = (cs.map (share d.2.1 217)).length := by simp
  have hg : ∀ i, i < (cs.map (share d.2.1 217)).length → ∀ c, c < 217 →
      ((cs.map (fun c => share d.2.1 217 (transposed s c))).getD i (fun _ => 0)) (moved s c) =
        ((cs.map (share d.2.1 217)).getD i (fun _ => 0)) c := by
    intro i hi c hc
    rw [List.length_map] at hi
    rw [List.getD_eq_getElem?_getD, List.getD_eq_getElem?_getD, List.getElem?_map, List.getElem?_map,
      List.getElem?_eq_getElem hi]
    exact share_moved hb e hs _ hc
  have h216 : ∀ s, moved s 216 = 216 := fun s => by
    unfold moved
    rw [if_neg (by omega)]
  refine ⟨by rw [List.length_map, hp.len, hl], ?_, ?_, ?_⟩
  · intro c hc
    obtain ⟨c', h', rfl⟩ := List.mem_map.1 hc
    exact moved_lt (hp.range c' h')
  · rw [List.getElem?_map, hp.start]
    exact congrArg some (h216 s)
  · intro q hq hr h0
    have hback : (q.map (moved (12 - s))).map (moved s) = q := by
      rw [List.map_map]
      conv_rhs => rw [← List.map_id q]
      exact List.map_congr_left (fun c hc => moved_forth hs.le (hr c hc))
    have hr' : ∀ c ∈ q.map (moved (12 - s)), c < 217 := by
      intro c hc
      obtain ⟨c', h', rfl⟩ := List.mem_map.1 hc
      exact moved_lt (hr c' h')
    rw [← hback, score_moved hs hl hg (by rw [List.length_map, hq, hl]) hr', score_moved hs hl hg hp.len hp.range]
    refine hp.best _ (by rw [List.length_map, hq, hl]) hr' ?_
    rw [List.getElem?_map, h0]
    exact congrArg some (h216 _)

/-- What is reported for a sequence of chords: the first, every change, and "N" at the time of the last frame. -/
def changeList (names : List Str) (ts : List Int) (p : List Nat) : List (Int × Str) :=
  (ts.getD 0 0, names.getD (p.getD 0 0) []) ::
    ((List.range (p.length - 1)).filterMap (fun i => if p.getD (i + 1) 0 ≠ p.getD i 0 then
      some (ts.getD (i + 1) 0, names.getD (p.getD (i + 1) 0) []) else none)) ++
    [(ts.getD (p.length - 1) 0, ['N'])]

/-- The times go up. -/
def Increasing (ts : List Int) : Prop := ∀ i j : Nat, i < j → j < ts.length → ts.getD i 0 < ts.getD j 0

/-- How much belongs to a chord at a frame: the greatest score of a sequence that leads to it, of all these scores. -/
noncomputable def belief (n : Nat) (g : List (Nat → ℝ)) (i c : Nat) : ℝ := top n g i c / ∑ c ∈ Finset.range n, top n g i c

/-- How much one distribution differs from the next, as the plug-in measures it. -/
noncomputable def divergence (n : Nat) (b b' : Nat → ℝ) : ℝ :=
  ∑ c ∈ Finset.range n, b c * Real.log (b c / max (b' c) 0.0000001 + 0.0000001)

theorem changeOf_exact {n : Nat} {g : List (Nat → ℝ)} {delta : List (List ℝ)} {i : Nat}
    (h : delta.getD i [] = tab n (belief n g i)) (h' : delta.getD (i + 1) [] = tab n (belief n g (i + 1))) :
    changeOf exactFns delta 0 n i = divergence n (belief n g i) (belief n g (i + 1)) := by
  unfold changeOf divergence
  rw [h, h']
  have e : exactFns.lit 0.0000001 = (0.0000001 : ℝ) := by
    rw [ex_lit]
    norm_num
  have e0 : exactFns.lit 0 = (0 : ℝ) := by simp
  generalize exactFns.lit 0.0000001 = eps at e
  simp only [ex_add]
  rw [foldl_sum, e0, zero_add]
  refine sum_congr rfl (fun c hc => ?_)
  have hc := mem_range.mp hc
  rw [tab_getD _ _ _ _ hc, tab_getD _ _ _ _ hc]
  subst e
  by_cases hlt : belief n g (i + 1) c < 0.0000001
  · rw [if_pos (by rw [ex_lt, decide_eq_true_eq]; exact hlt), max_eq_right hlt.le]
    simp only [ex_mul, ex_log, ex_div]
  · rw [if_neg (by rw [ex_lt, decide_eq_true_eq]; exact hlt), max_eq_left (not_lt.mp hlt)]
    simp only [ex_mul, ex_log, ex_div]

/-- Everything about a run in exact arithmetic. -/
theorem run_exact (fs : Int) {bs : Nat} (hb : 4 ≤ bs) (params : Params ℝ) (hn : params.doNormalizeChroma ≤ 0)
    (boostN harte : ℝ) {blocks : List (Int × List ℝ)} (hbl : ∀ bl ∈ blocks, bs ≤ bl.2.length) (hne : blocks ≠ [])
    (junk : Nat → Nnls.St ℝ) :
    ∃ fc f d p, Chroma.runAll exactFns fs bs params blocks junk = .ok (some fc) ∧
      runAll exactFns none fs bs params boostN harte blocks junk = .ok (some f) ∧
      chordDictionary exactFns none [] [] boostN harte = .ok d ∧
      fc.bothchroma.length = blocks.length ∧
      Best 217 (fc.bothchroma.map (fun c => share d.2.1 217 c.2)) p ∧
      f.chords = changeList d.1 (blocks.map Prod.fst) p ∧
      (∃ g, g = fc.bothchroma.map (fun c => share d.2.1 217 c.2) ∧
        f.loglikelihood = tab blocks.length (fun i => ((blocks.map Prod.fst).getD i 0,
          Real.log (∑ c ∈ Finset.range 217, top 217 g i c) -
            if i = 0 then 0 else Real.log (∑ c ∈ Finset.range 217, top 217 g (i - 1) c))) ∧
        f.change = tab blocks.length (fun i => ((blocks.map Prod.fst).getD i 0,
          if i < blocks.length - 1 then divergence 217 (belief 217 g i) (belief 217 g (i + 1)) else 0))) ∧
      (Increasing (blocks.map Prod.fst) →
        (∀ x ∈ f.notes, ∃ a b : Nat, a ≤ b ∧ b < blocks.length ∧ x.timestamp = (blocks.map Prod.fst).getD a 0 ∧
          x.duration = (blocks.map Prod.fst).getD b 0 - (blocks.map Prod.fst).getD a 0 ∧
          x.pitch ∈ d.2.2.getD (p.getD a 0) [] ∧ ∀ i, a ≤ i → i < b → p.getD i 0 = p.getD a 0) ∧
        (∀ i, i < blocks.length - 1 → soundingAt f.notes ((blocks.map Prod.fst).getD i 0) = d.2.2.getD (p.getD i 0) []) ∧
        ∀ i, i < blocks.length - 1 →
          labelInForce f.chords ((blocks.map Prod.fst).getD i 0) = some (d.1.getD (p.getD i 0) [])) := by
  obtain ⟨fc, f, d, ec, ef, ed, -, h⟩ := run_ok exactFns exact_ordered exact_tunes (ext := none) (fun _ h => by cases h)
    fs hb params boostN harte hbl junk 0
  obtain ⟨cs, v, hcl, -, hcs, ev, fit', er⟩ := h hne
  obtain ⟨d', ed', d1, d2, d3, d4, -⟩ := dictionary_sizes exactFns (ext := none) (fun _ h => by cases h) boostN harte
  have := ok_inj (ed.symm.trans ed')
  subst this
  rw [(builtin_types exactFns harte).1] at d1
  have hcs := hcs (by simpa using hn)
  have hbl' : fc.bothchroma.length = blocks.length := by
    rw [hcs, List.length_map] at hcl
    exact hcl
  have hrows : cs.map (salienceOf exactFns d.2.1 0 d.1.length) =
      (fc.bothchroma.map (fun c => share d.2.1 217 c.2)).map (tab d.1.length) := by
    rw [hcs, List.map_map, List.map_map]
    refine List.map_congr_left (fun c _ => ?_)
    dsimp only [Function.comp_apply]
    rw [salience_exact _ (by omega), d1]
  rw [hrows] at ev
  obtain ⟨p, hp, hpl, hpn, hp0, hbest⟩ := best_path (by omega) (by
      intro h0
      have := congrArg List.length h0
      rw [List.length_map, hbl'] at this
      exact hne (List.eq_nil_of_length_eq_zero this)) (by
      intro o ho c
      obtain ⟨x, -, rfl⟩ := List.mem_map.1 ho
      exact share_pos _ (by norm_num) _ _) ev
  rw [d1] at hpn hp0 hbest
  rw [List.length_map, hbl'] at hpl
  have hgpos : ∀ o ∈ fc.bothchroma.map (fun c => share d.2.1 217 c.2), ∀ c, 0 < o c := by
    intro o ho c
    obtain ⟨x, -, rfl⟩ := List.mem_map.1 ho
    exact share_pos _ (by norm_num) _ _
  obtain ⟨u1, u2, u3⟩ := buffers (by omega) (by
      intro h0
      have := congrArg List.length h0
      rw [List.length_map, hbl'] at this
      exact hne (List.eq_nil_of_length_eq_zero this)) hgpos ev
  rw [d1] at u1 u2 u3
  rw [List.length_map, hbl'] at u1 u3
  obtain ⟨f', ef', k1, k2, k3, k4, k5⟩ := report_ok exactFns fit' 0
  have := ok_inj (er.symm.trans ef')
  subst this
  have hblen : 0 < blocks.length := List.length_pos_of_ne_nil hne
  have hget : ∀ i, v.path.getD i 0 = ((p.getD i 0 : Nat) : Int) := by
    intro i
    rw [hp, List.getD_eq_getElem?_getD, List.getElem?_map, List.getD_eq_getElem?_getD]
    cases p[i]? <;> rfl
  have hp0' : p.getD 0 0 = 216 := by
    rw [List.getD_eq_getElem?_getD, hp0]
    rfl
  have hbef : ∀ i, before d.1.length v.path i = ((p.getD i 0 : Nat) : Int) := by
    intro i
    unfold before
    split
    · next h => rw [h, hp0', d1]; rfl
    · exact hget i
  refine ⟨fc, f, d, p, ec, ef, ed, hbl', ⟨by rw [List.length_map, hbl']; exact hpl, hpn, hp0, hbest⟩, ?_, ?_, ?_⟩
  rotate_left
  · refine ⟨_, rfl, ?_, ?_⟩
    · rw [k3]
      refine tab_congr (fun i hi => ?_)
      rw [Prod.mk.injEq]
      refine ⟨rfl, ?_⟩
      have hpos := fun j (hj : j < blocks.length) => topr_sum (n := 217) (by norm_num) hgpos (i := j) (by rw [List.length_map, hbl']; exact hj)
      have hsum : ∀ j, j < blocks.length → 0 < ∑ c ∈ Finset.range 217, top 217 (fc.bothchroma.map (fun c => share d.2.1 217 c.2)) j c := by
        intro j hj
        rw [sum_congr rfl (fun c hc => top_eq (n := 217) (by norm_num) hgpos (by rw [List.length_map, hbl']; exact hj) (mem_range.mp hc))]
        exact hpos j hj
      simp only [ex_neg, ex_log]
      cases i with
      | zero =>
        rw [u2, if_pos rfl, Real.log_div one_ne_zero (hsum 0 hi).ne', Real.log_one]
        ring
      | succ i =>
        rw [u3 i hi, if_neg (by omega), Real.log_div (hsum i (by omega)).ne' (hsum (i + 1) hi).ne', Nat.add_sub_cancel]
        ring
    · rw [k2]
      refine tab_congr (fun i hi => ?_)
      rw [Prod.mk.injEq]
      refine ⟨rfl, ?_⟩
      by_cases hlt : i < blocks.length - 1
      · rw [if_pos hlt, if_pos hlt, d1]
        exact changeOf_exact (u1 i hi) (u1 (i + 1) (by omega))
      · rw [if_neg hlt, if_neg hlt]
        simp
  rotate_right
  · rw [k1]
    unfold changeList changes
    rw [hpl, hget 0]
    simp only [hget, hbef, Int.toNat_natCast, ne_eq, Int.natCast_inj]
  · intro hts
    have hts' : ∀ i j : Nat, i < j → j < blocks.length → (blocks.map Prod.fst).getD i 0 < (blocks.map Prod.fst).getD j 0 :=
      fun i j h1 h2 => hts i j h1 (by simpa using h2)
    obtain ⟨n1, n2⟩ := k4 d4 hts'
    refine ⟨?_, ?_, ?_⟩
    · intro x hx
      obtain ⟨a, b, h1, h2, h3, h4, h5, h6⟩ := n1 x hx
      rw [hbef, Int.toNat_natCast] at h5
      refine ⟨a, b, h1, h2, h3, h4, h5, fun i hi1 hi2 => ?_⟩
      have := h6 i hi1 hi2
      rw [hbef, hbef] at this
      exact_mod_cast this
    · intro i hi
      rw [n2 i hi, hbef, Int.toNat_natCast]
    · intro i hi
      rw [k5 (by rw [hget, hp0', d1]; rfl) hts' i hi, hget, Int.toNat_natCast]

/-- **C85.**  In exact arithmetic the chord plug-in, run over any recording with at least one block and any
parameters, hears the chroma that the chroma plug-in returns for the recording, gives every chord its share in every
frame, and reports the changes of a sequence of chords of the highest score among all sequences that begin with "N":
the score is the product of the shares and, for every step, of 0.99 if the chord stays and of 0.01 divided among the
216 others if it changes. -/
theorem C85_best_sequence (fs : Int) {bs : Nat} (hb : 4 ≤ bs) (params : Params ℝ) (hn : params.doNormalizeChroma ≤ 0)
    (boostN harte : ℝ) {blocks : List (Int × List ℝ)} (hbl : ∀ bl ∈ blocks, bs ≤ bl.2.length) (hne : blocks ≠ [])
    (junk : Nat → Nnls.St ℝ) :
    ∃ fc f d p, Chroma.runAll exactFns fs bs params blocks junk = .ok (some fc) ∧
      runAll exactFns none fs bs params boostN harte blocks junk = .ok (some f) ∧
      chordDictionary exactFns none [] [] boostN harte = .ok d ∧
      Best 217 (fc.bothchroma.map (fun c => share d.2.1 217 c.2)) p ∧
      f.chords = changeList d.1 (blocks.map Prod.fst) p := by
  obtain ⟨fc, f, d, p, h1, h2, h3, -, h4, h5, -, -⟩ := run_exact fs hb params hn boostN harte hbl hne junk
  exact ⟨fc, f, d, p, h1, h2, h3, h4, h5⟩

/-! ### C86: the label in force -/

/-- **C86.**  If the times of the blocks go up, then at the time of every block but the last the last label reported by
then is that of the block's chord in the best sequence. -/
theorem C86_label_in_force (fs : Int) {bs : Nat} (hb : 4 ≤ bs) (params : Params ℝ) (hn : params.doNormalizeChroma ≤ 0)
    (boostN harte : ℝ) {blocks : List (Int × List ℝ)} (hbl : ∀ bl ∈ blocks, bs ≤ bl.2.length) (hne : blocks ≠ [])
    (hts : Increasing (blocks.map Prod.fst)) (junk : Nat → Nnls.St ℝ) :
    ∃ fc f d p, Chroma.runAll exactFns fs bs params blocks junk = .ok (some fc) ∧
      runAll exactFns none fs bs params boostN harte blocks junk = .ok (some f) ∧
      chordDictionary exactFns none [] [] boostN harte = .ok d ∧
      Best 217 (fc.bothchroma.map (fun c => share d.2.1 217 c.2)) p ∧
      ∀ i, i < blocks.length - 1 →
        labelInForce f.chords ((blocks.map Prod.fst).getD i 0) = some (d.1.getD (p.getD i 0) []) := by
  obtain ⟨fc, f, d, p, h1, h2, h3, -, h4, -, -, h6⟩ := run_exact fs hb params hn boostN harte hbl hne junk
  exact ⟨fc, f, d, p, h1, h2, h3, h4, (h6 hts).2.2⟩

/-- **C86, the first label.**  Whatever the recording, the first report is "N" at the time of the first block and the
last is "N" at the time of the last block: the first and the last frame of every recording are declared to be without
chord. -/
theorem C86_ends (fs : Int) {bs : Nat} (hb : 4 ≤ bs) (params : Params ℝ) (hn : params.doNormalizeChroma ≤ 0)
    (boostN harte : ℝ) {blocks : List (Int × List ℝ)} (hbl : ∀ bl ∈ blocks, bs ≤ bl.2.length) (hne : blocks ≠ [])
    (junk : Nat → Nnls.St ℝ) :
    ∃ f, runAll exactFns none fs bs params boostN harte blocks junk = .ok (some f) ∧
      f.chords.head? = some ((blocks.map Prod.fst).getD 0 0, ['N']) ∧
      f.chords.getLast? = some ((blocks.map Prod.fst).getD (blocks.length - 1) 0, ['N']) := by
  obtain ⟨fc, f, d, p, h1, h2, h3, hl, h4, h5, -, -⟩ := run_exact fs hb params hn boostN harte hbl hne junk
  obtain ⟨d', e', -, -, -, -, d5⟩ := dictionary_sizes exactFns (ext := none) (fun _ h => by cases h) boostN harte
  have := ok_inj (h3.symm.trans e')
  subst this
  obtain ⟨d'', e'', d1, -⟩ := C81_profiles boostN harte
  have := ok_inj (h3.symm.trans e'')
  subst this
  have hp0 : p.getD 0 0 = 216 := by
    rw [List.getD_eq_getElem?_getD, h4.start]
    rfl
  have hpl : p.length = blocks.length := by rw [h4.len, List.length_map, hl]
  refine ⟨f, h2, ?_, ?_⟩
  · rw [h5]
    unfold changeList
    rw [List.cons_append, List.head?_cons, hp0]
    rw [d1] at d5
    rw [d5]
  · rw [h5]
    unfold changeList
    rw [List.getLast?_append, hpl]
    rfl

/-- A case: three blocks, the middle one loud; the hypotheses of C85 to C87 hold. -/
example (params : Params ℝ) (hn : params.doNormalizeChroma ≤ 0) (junk : Nat → Nnls.St ℝ) :
    ∃ f d, ∃ p : List Nat, runAll exactFns none 44100 4 params 0.1 0 [(0, [1, 0, 0, 0]), (46, [900, 0, 0, 70]), (92, [1, 0, 0, 0])] junk
        = .ok (some f) ∧ chordDictionary exactFns none [] [] 0.1 0 = .ok d ∧ p.length = 3 ∧
      labelInForce f.chords 46 = some (d.1.getD (p.getD 1 0) []) := by
  obtain ⟨fc, f, d, p, e1, h2, h3, h4, h5⟩ := C86_label_in_force 44100 (bs := 4) (by norm_num) params hn 0.1 0
    (blocks := [(0, [1, 0, 0, 0]), (46, [900, 0, 0, 70]), (92, [1, 0, 0, 0])]) (by simp) (by simp)
    (by
      intro i j h1 h2
      have h2 : j < 3 := h2
      have : (i = 0 ∧ j = 1) ∨ (i = 0 ∧ j = 2) ∨ (i = 1 ∧ j = 2) := by omega
      rcases this with ⟨rfl, rfl⟩ | ⟨rfl, rfl⟩ | ⟨rfl, rfl⟩ <;> decide) junk
  obtain ⟨fc', -, -, -, e2, -, -, hl, -⟩ := run_exact 44100 (bs := 4) (by norm_num) params hn 0.1 0
    (blocks := [(0, [1, 0, 0, 0]), (46, [900, 0, 0, 70]), (92, [1, 0, 0, 0])]) (by simp) (by simp) junk
  have := ok_inj (e1.symm.trans e2)
  cases this
  exact ⟨f, d, p, h2, h3, by rw [h4.len, List.length_map, hl]; rfl, h5 1 (by decide)⟩

/-! ### C87: the notes -/

/-- **C87.**  If the times of the blocks go up, then at the time of every block but the last exactly the notes of the
block's chord in the best sequence are sounding; every note is one of a chord of the sequence, starts at the time of a
block and ends at the time of a block, not before it starts, and lasts no longer than the chord. -/
theorem C87_piano_roll (fs : Int) {bs : Nat} (hb : 4 ≤ bs) (params : Params ℝ) (hn : params.doNormalizeChroma ≤ 0)
    (boostN harte : ℝ) {blocks : List (Int × List ℝ)} (hbl : ∀ bl ∈ blocks, bs ≤ bl.2.length) (hne : blocks ≠ [])
    (hts : Increasing (blocks.map Prod.fst)) (junk : Nat → Nnls.St ℝ) :
    ∃ fc f d p, Chroma.runAll exactFns fs bs params blocks junk = .ok (some fc) ∧
      runAll exactFns none fs bs params boostN harte blocks junk = .ok (some f) ∧
      chordDictionary exactFns none [] [] boostN harte = .ok d ∧
      Best 217 (fc.bothchroma.map (fun c => share d.2.1 217 c.2)) p ∧
      (∀ i, i < blocks.length - 1 → soundingAt f.notes ((blocks.map Prod.fst).getD i 0) = d.2.2.getD (p.getD i 0) []) ∧
      ∀ x ∈ f.notes, 0 ≤ x.duration ∧ ∃ a b : Nat, b < blocks.length ∧ x.timestamp = (blocks.map Prod.fst).getD a 0 ∧
        x.timestamp + x.duration = (blocks.map Prod.fst).getD b 0 ∧
        x.pitch ∈ d.2.2.getD (p.getD a 0) [] ∧ ∀ i, a ≤ i → i < b → p.getD i 0 = p.getD a 0 := by
  obtain ⟨fc, f, d, p, h1, h2, h3, -, h4, -, -, h6⟩ := run_exact fs hb params hn boostN harte hbl hne junk
  obtain ⟨n1, n2, -⟩ := h6 hts
  refine ⟨fc, f, d, p, h1, h2, h3, h4, n2, ?_⟩
  intro x hx
  obtain ⟨a, b, k1, k2, k3, k4, k5, k6⟩ := n1 x hx
  refine ⟨?_, a, b, k2, k3, by rw [k3, k4]; omega, k5, k6⟩
  rw [k4]
  rcases Nat.lt_or_ge a b with h | h
  · have := hts a b h (by simpa using k2)
    omega
  · rw [show a = b by omega]
    omega

/-- **C87 violated.**  A chord heard in the last frame only is reported with notes of no duration at all. -/
theorem C87_empty_notes_violated (F : Fns D) (x : D) :
    ∃ f, report F [['A'], ['N']] [[45], []] [0, 1000] { path := [1, 0], delta := [[x, x], [x, x]], scale := [x, x], warned := false } 2
      = .ok f ∧ f.notes = [{ timestamp := 1000, duration := 0, pitch := 45 }] := ⟨_, rfl, rfl⟩

/-! ### C88: the plug-in runs through -/

/-- **C88.**  For any arithmetic in which comparisons are those of IEEE numbers and the tuning estimate stays within
half a semitone, whatever the parameters, the sampling rate, the block size from four up, the recording, the contents
of uninitialised memory and a chord dictionary read from a file, if it has 24 numbers for each of its kinds: the
chord plug-in runs through without a subscript out of range and returns, for every block with its timestamp, one value
of harmonic change and one of likelihood. -/
theorem C88_plugin_runs (F : Fns D) (hO : Nnls.Ordered F.toOps) (hT : Tunes F) {ext : Option (List Str × List D)}
    (hext : ∀ e, ext = some e → 24 * e.1.length ≤ e.2.length) (fs : Int) {bs : Nat} (hb : 4 ≤ bs) (params : Params D)
    (boostN harte : D) {blocks : List (Int × List D)} (hbl : ∀ bl ∈ blocks, bs ≤ bl.2.length) (junk : Nat → Nnls.St D) :
    ∃ f, runAll F ext fs bs params boostN harte blocks junk = .ok (some f) ∧
      f.change.map Prod.fst = blocks.map Prod.fst ∧ f.loglikelihood.map Prod.fst = blocks.map Prod.fst ∧
      (f.chords = [] ↔ blocks = []) := by
  obtain ⟨fc, f, d, -, ef, -, h0, h⟩ := run_ok F hO hT (ext := ext) hext fs hb params boostN harte hbl junk (F.lit 0)
  refine ⟨f, ef, ?_⟩
  by_cases hne : blocks = []
  · rw [h0 hne, hne]
    simp
  · obtain ⟨cs, v, -, -, -, -, fit', er⟩ := h hne
    obtain ⟨f', ef', k1, k2, k3, -⟩ := report_ok F fit' (F.lit 0)
    have := ok_inj (er.symm.trans ef')
    subst this
    have hts : tab blocks.length (fun i => (blocks.map Prod.fst).getD i 0) = blocks.map Prod.fst := by
      have := eq_tab (blocks.map Prod.fst) 0
      rw [List.length_map] at this
      exact this.symm
    refine ⟨?_, ?_, ?_⟩
    · rw [k2]
      conv_rhs => rw [← hts]
      unfold tab
      rw [List.map_map]
      rfl
    · rw [k3]
      conv_rhs => rw [← hts]
      unfold tab
      rw [List.map_map]
      rfl
    · rw [k1]
      constructor
      · intro h
        simp at h
      · intro h
        exact absurd h hne

/-- A case: a dictionary file with one kind of chord, and two blocks. -/
example (params : Params ℝ) (junk : Nat → Nnls.St ℝ) :
    ∃ f, runAll exactFns (some ([['x']], List.replicate 24 1)) 44100 4 params 0.1 0 [(0, [1, 0, 0, 0]), (46, [900, 0, 0, 70])] junk
      = .ok (some f) ∧ f.change.map Prod.fst = [0, 46] := by
  obtain ⟨f, e, h, -⟩ := C88_plugin_runs exactFns exact_ordered exact_tunes (ext := some ([['x']], List.replicate 24 1))
    (by intro e he; cases he; simp) 44100 (bs := 4) (by norm_num) params 0.1 0
    (blocks := [(0, [1, 0, 0, 0]), (46, [900, 0, 0, 70])]) (by simp) junk
  exact ⟨f, e, h⟩

/-- **C88 violated.**  A dictionary file with fewer than 24 numbers for a kind of chord makes the plug-in read past the
end of the vector of numbers. -/
theorem C88_short_dictionary_violated (F : Fns D) (name : Str) (boostN harte : D) :
    chordDictionary F (some ([name], [])) [] [] boostN harte = .ub := rfl

/-! ### C89: silence -/

theorem fit_silent (dict : List ℝ) (n c : Nat) : fit dict n (List.replicate 24 0) c = 0 := by
  unfold fit
  have : ∑ b ∈ range 24, dict.getD (24 * c + b) 0 * (List.replicate 24 (0 : ℝ)).getD b 0 = 0 := by
    refine sum_eq_zero (fun b hb => ?_)
    rw [List.getD_eq_getElem?_getD (l := List.replicate 24 (0 : ℝ)), List.getElem?_replicate, if_pos (mem_range.mp hb)]
    simp
  rw [this, mul_zero, max_self]
  norm_num

theorem share_silent (dict : List ℝ) (c : Nat) : share dict 217 (List.replicate 24 0) c = 1 / 217 := by
  unfold share
  simp only [fit_silent, Real.rpow_zero]
  rw [sum_const, card_range]
  norm_num

theorem best_silent {g : List (Nat → ℝ)} (hg : ∀ o ∈ g, ∀ c, o c = 1 / 217) {p : List Nat} (hp : Best 217 g p) :
    ∀ i, i < g.length → p.getD i 0 = 216 := by
  have hprod : ∀ q : List Nat, ∏ i ∈ range g.length, (g.getD i (fun _ => 0)) (q.getD i 0) = (1 / 217 : ℝ) ^ g.length := by
    intro q
    rw [prod_congr rfl (g := fun _ => (1 / 217 : ℝ)), prod_const, card_range]
    intro i hi
    apply hg
    rw [List.getD_eq_getElem?_getD, List.getElem?_eq_getElem (mem_range.mp hi)]
    exact List.getElem_mem _
  have hstay : ∀ i j, 0 < stay 217 i j ∧ stay 217 i j ≤ 0.99 ∧ (j ≠ i → stay 217 i j < 0.99) := by
    intro i j
    unfold stay
    split
    · next h => exact ⟨by norm_num, le_refl _, fun h' => absurd h h'⟩
    · exact ⟨by norm_num, by norm_num, fun _ => by norm_num⟩
  by_cases hne : g = []
  · intro i hi
    rw [hne] at hi
    simp at hi
  have hglen : 0 < g.length := List.length_pos_of_ne_nil hne
  have hstep : ∀ i, i < g.length - 1 → p.getD (i + 1) 0 = p.getD i 0 := by
    by_contra hcon
    push Not at hcon
    obtain ⟨i, hi, hch⟩ := hcon
    have hb := hp.best (List.replicate g.length 216) (by simp) (by
      intro c hc
      rw [List.eq_of_mem_replicate hc]
      norm_num) (by rw [List.getElem?_replicate, if_pos hglen])
    unfold score at hb
    rw [hprod, hprod] at hb
    have hlt : ∏ i ∈ range (g.length - 1), stay 217 (p.getD i 0) (p.getD (i + 1) 0) <
        ∏ i ∈ range (g.length - 1), stay 217 ((List.replicate g.length 216).getD i 0) ((List.replicate g.length 216).getD (i + 1) 0) := by
      have hc : ∀ j ∈ range (g.length - 1),
          stay 217 ((List.replicate g.length 216).getD j 0) ((List.replicate g.length 216).getD (j + 1) 0) = 0.99 := by
        intro j hj
        have hj := mem_range.mp hj
        rw [List.getD_eq_getElem?_getD, List.getD_eq_getElem?_getD, List.getElem?_replicate, List.getElem?_replicate,
          if_pos (by omega), if_pos (by omega)]
        unfold stay
        rw [if_pos rfl]
      refine prod_lt_prod (fun j _ => (hstay _ _).1) (fun j hj => ?_) ⟨i, mem_range.mpr hi, ?_⟩
      · rw [hc j hj]
        exact (hstay _ _).2.1
      · rw [hc i (mem_range.mpr hi)]
        exact (hstay _ _).2.2 hch
    have hpos : (0 : ℝ) < (1 / 217) ^ g.length := by positivity
    have := mul_lt_mul_of_pos_left hlt hpos
    linarith
  intro i
  induction i with
  | zero =>
    intro _
    rw [List.getD_eq_getElem?_getD, hp.start]
    rfl
  | succ i ih =>
    intro hi
    rw [hstep i (by omega), ih (by omega)]

/-- **C89.**  In exact arithmetic, if the Fourier magnitudes of all blocks stay below two, no chord and no note is
reported, whatever the parameters: only "N" at the first and "N" at the last block. -/
theorem C89_silence {fs : Int} (hfs : 0 < fs) {bs : Nat} (hb : 4 ≤ bs) (params : Params ℝ)
    (hn : params.doNormalizeChroma ≤ 0) (boostN harte : ℝ) {blocks : List (Int × List ℝ)}
    (hbl : ∀ bl ∈ blocks, bs ≤ bl.2.length) (hne : blocks ≠ []) (hts : Increasing (blocks.map Prod.fst))
    (junk : Nat → Nnls.St ℝ)
    (hq : ∀ bl ∈ blocks, ∀ n, n < bs / 2 → Real.sqrt (bl.2.getD (2 * n) 0 ^ 2 + bl.2.getD (2 * n + 1) 0 ^ 2) < 2) :
    ∃ f, runAll exactFns none fs bs params boostN harte blocks junk = .ok (some f) ∧
      f.chords = [((blocks.map Prod.fst).getD 0 0, ['N']), ((blocks.map Prod.fst).getD (blocks.length - 1) 0, ['N'])] ∧
      f.notes = [] := by
  obtain ⟨fc, f, d, p, h1, h2, h3, hl, h4, h5, -, h6⟩ := run_exact fs hb params hn boostN harte hbl hne junk
  obtain ⟨d', e', -, -, -, d4, d5⟩ := dictionary_sizes exactFns (ext := none) (fun _ h => by cases h) boostN harte
  have := ok_inj (h3.symm.trans e')
  subst this
  obtain ⟨d'', e'', d1, -⟩ := C81_profiles boostN harte
  have := ok_inj (h3.symm.trans e'')
  subst this
  rw [d1] at d4 d5
  have hpl : p.length = blocks.length := by rw [h4.len, List.length_map, hl]
  have hshare : ∀ o ∈ fc.bothchroma.map (fun c => share d.2.1 217 c.2), ∀ c, o c = 1 / 217 := by
    intro o ho c
    obtain ⟨x, hx, rfl⟩ := List.mem_map.1 ho
    obtain ⟨k, hk, rfl⟩ := List.getElem_of_mem hx
    obtain ⟨f', ef', -, -, -, -, hz⟩ := C76_silence hfs hb params hbl junk (List.getElem?_eq_getElem (show k < blocks.length by omega))
      (hq _ (List.getElem_mem _))
    have := ok_inj (h1.symm.trans ef')
    cases this
    rw [List.getElem?_eq_getElem hk] at hz
    rw [Option.some.inj hz]
    exact share_silent _ c
  have hall := best_silent hshare h4
  rw [List.length_map, hl] at hall
  refine ⟨f, h2, ?_, ?_⟩
  · rw [h5]
    unfold changeList
    have : (List.range (p.length - 1)).filterMap (fun i => if p.getD (i + 1) 0 ≠ p.getD i 0 then
        some ((blocks.map Prod.fst).getD (i + 1) 0, d.1.getD (p.getD (i + 1) 0) []) else none) = [] := by
      rw [List.filterMap_eq_nil_iff]
      intro i hi
      have hi := List.mem_range.mp hi
      rw [if_neg]
      rw [not_not, hall (i + 1) (by omega), hall i (by omega)]
    rw [this, hpl, hall 0 (List.length_pos_of_ne_nil hne), d5]
    rfl
  · rw [List.eq_nil_iff_forall_not_mem]
    intro x hx
    obtain ⟨a, b, k1, k2, -, -, k5, -⟩ := (h6 hts).1 x hx
    rw [hall a (by omega), d4] at k5
    exact absurd k5 (List.not_mem_nil)

/-- **C86 violated.**  Consecutive reports need not differ, nor be at different times: for a single quiet block, "N" is
reported twice at the same time. -/
theorem C86_repeated_label_violated (t : Int) (params : Params ℝ) (hn : params.doNormalizeChroma ≤ 0) (boostN harte : ℝ)
    (junk : Nat → Nnls.St ℝ) :
    ∃ f, runAll exactFns none 44100 4 params boostN harte [(t, [0, 0, 0, 0])] junk = .ok (some f) ∧
      f.chords = [(t, ['N']), (t, ['N'])] := by
  obtain ⟨f, e, h, -⟩ := C89_silence (fs := 44100) (by norm_num) (bs := 4) (by norm_num) params hn boostN harte
    (blocks := [(t, [0, 0, 0, 0])]) (by simp) (by simp) (by intro i j h1 h2; simp at h2; omega) junk (by
      intro bl hbl n hn'
      rw [List.mem_singleton.mp hbl]
      have : n = 0 ∨ n = 1 := by omega
      rcases this with rfl | rfl <;> norm_num)
  exact ⟨f, e, h⟩

/-! ### C90: likelihood and harmonic change -/

theorem belief_nonneg {n : Nat} (hn : 0 < n) {g : List (Nat → ℝ)} (hpos : ∀ o ∈ g, ∀ c, 0 < o c) {i : Nat} (hi : i < g.length)
    {c : Nat} (hc : c < n) : 0 ≤ belief n g i c := by
  unfold belief
  refine div_nonneg ?_ (sum_nonneg (fun k hk => ?_))
  · rw [top_eq hn hpos hi hc]
    exact (topr_spec hn hpos i hi c hc).1
  · rw [top_eq hn hpos hi (mem_range.mp hk)]
    exact (topr_spec hn hpos i hi k (mem_range.mp hk)).1

theorem top_total {n : Nat} (hn : 0 < n) {g : List (Nat → ℝ)} (hpos : ∀ o ∈ g, ∀ c, 0 < o c) {i : Nat} (hi : i < g.length) :
    0 < ∑ c ∈ range n, top n g i c := by
  rw [sum_congr rfl (fun c hc => top_eq hn hpos hi (mem_range.mp hc))]
  exact topr_sum hn hpos hi

theorem belief_sum {n : Nat} (hn : 0 < n) {g : List (Nat → ℝ)} (hpos : ∀ o ∈ g, ∀ c, 0 < o c) {i : Nat} (hi : i < g.length) :
    ∑ c ∈ range n, belief n g i c = 1 := by
  unfold belief
  rw [← sum_div]
  exact div_self (top_total hn hpos hi).ne'

/-- Like any divergence, that of the plug-in is not negative, up to what the limit of the denominator adds. -/
theorem divergence_ge {n : Nat} {b b' : Nat → ℝ} (h : ∀ c, c < n → 0 ≤ b c) (h' : ∀ c, c < n → 0 ≤ b' c)
    (hs : ∑ c ∈ range n, b c = 1) (hs' : ∑ c ∈ range n, b' c = 1) : -(n * 0.0000001 : ℝ) ≤ divergence n b b' := by
  have h1 : ∑ c ∈ range n, (b c - (b' c + 0.0000001)) ≤ divergence n b b' := by
    unfold divergence
    refine sum_le_sum (fun c hc => ?_)
    have hc := mem_range.mp hc
    have hm : (0 : ℝ) < max (b' c) 0.0000001 := lt_max_of_lt_right (by norm_num)
    have hle : max (b' c) 0.0000001 ≤ b' c + 0.0000001 := by
      have := h' c hc
      exact max_le (by linarith [show (0 : ℝ) < 0.0000001 by norm_num]) (by linarith)
    rcases (h c hc).eq_or_lt with h0 | h0
    · rw [← h0, zero_mul]
      have := h' c hc
      linarith [show (0 : ℝ) < 0.0000001 by norm_num]
    · have hq : 0 < b c / max (b' c) 0.0000001 := div_pos h0 hm
      have hl : Real.log (b c / max (b' c) 0.0000001) ≤ Real.log (b c / max (b' c) 0.0000001 + 0.0000001) :=
        Real.log_le_log hq (by linarith [show (0 : ℝ) < 0.0000001 by norm_num])
      have hinv : Real.log (max (b' c) 0.0000001 / b c) ≤ max (b' c) 0.0000001 / b c - 1 :=
        Real.log_le_sub_one_of_pos (div_pos hm h0)
      have hneg : Real.log (b c / max (b' c) 0.0000001) = - Real.log (max (b' c) 0.0000001 / b c) := by
        rw [← Real.log_inv, inv_div]
      calc b c - (b' c + 0.0000001) ≤ b c - max (b' c) 0.0000001 := by linarith
        _ = b c * (-(max (b' c) 0.0000001 / b c - 1)) := by field_simp; ring
        _ ≤ b c * Real.log (b c / max (b' c) 0.0000001) := by
            refine mul_le_mul_of_nonneg_left ?_ h0.le
            rw [hneg]
            linarith
        _ ≤ _ := mul_le_mul_of_nonneg_left hl h0.le
  rw [sum_sub_distrib, sum_add_distrib, hs, hs', sum_const, card_range, nsmul_eq_mul] at h1
  linarith

theorem shares_pos (dict : List ℝ) (cs : List (Int × List ℝ)) :
    ∀ o ∈ cs.map (fun c => share dict 217 c.2), ∀ c, 0 < o c := by
  intro o ho c
  obtain ⟨x, -, rfl⟩ := List.mem_map.1 ho
  exact share_pos _ (by norm_num) _ _

/-- **C90, likelihood.**  In exact arithmetic the log likelihoods up to any frame add up to the logarithm of the sum,
over all chords, of the greatest score of a sequence that leads to the chord at that frame. -/
theorem C90_likelihood (fs : Int) {bs : Nat} (hb : 4 ≤ bs) (params : Params ℝ) (hn : params.doNormalizeChroma ≤ 0)
    (boostN harte : ℝ) {blocks : List (Int × List ℝ)} (hbl : ∀ bl ∈ blocks, bs ≤ bl.2.length) (hne : blocks ≠ [])
    (junk : Nat → Nnls.St ℝ) :
    ∃ fc f d, Chroma.runAll exactFns fs bs params blocks junk = .ok (some fc) ∧
      runAll exactFns none fs bs params boostN harte blocks junk = .ok (some f) ∧
      chordDictionary exactFns none [] [] boostN harte = .ok d ∧
      ∀ i, i < blocks.length → ((f.loglikelihood.take (i + 1)).map Prod.snd).sum =
        Real.log (∑ c ∈ range 217, top 217 (fc.bothchroma.map (fun c => share d.2.1 217 c.2)) i c) := by
  obtain ⟨fc, f, d, p, h1, h2, h3, hl, -, -, ⟨g, hg, h5, -⟩, -⟩ := run_exact fs hb params hn boostN harte hbl hne junk
  refine ⟨fc, f, d, h1, h2, h3, ?_⟩
  rw [← hg, h5]
  intro i
  induction i with
  | zero =>
    intro hi
    rw [List.take_add_one, List.take_zero, tab_get, if_pos hi]
    simp
  | succ i ih =>
    intro hi
    rw [List.take_add_one, tab_get, if_pos hi, Option.toList_some, List.map_append, List.sum_append, ih (by omega)]
    simp

/-- **C90, likelihood and score.**  Hence the log likelihoods of a recording add up to the logarithm of the score of the
best sequence, and to at most the logarithm of the number of chords more. -/
theorem C90_total (fs : Int) {bs : Nat} (hb : 4 ≤ bs) (params : Params ℝ) (hn : params.doNormalizeChroma ≤ 0)
    (boostN harte : ℝ) {blocks : List (Int × List ℝ)} (hbl : ∀ bl ∈ blocks, bs ≤ bl.2.length) (hne : blocks ≠ [])
    (junk : Nat → Nnls.St ℝ) :
    ∃ fc f d p, Chroma.runAll exactFns fs bs params blocks junk = .ok (some fc) ∧
      runAll exactFns none fs bs params boostN harte blocks junk = .ok (some f) ∧
      chordDictionary exactFns none [] [] boostN harte = .ok d ∧
      Best 217 (fc.bothchroma.map (fun c => share d.2.1 217 c.2)) p ∧
      Real.log (score 217 (fc.bothchroma.map (fun c => share d.2.1 217 c.2)) p) ≤ (f.loglikelihood.map Prod.snd).sum ∧
      (f.loglikelihood.map Prod.snd).sum ≤
        Real.log (score 217 (fc.bothchroma.map (fun c => share d.2.1 217 c.2)) p) + Real.log 217 := by
  obtain ⟨fc, f, d, p, h1, h2, h3, hl, h4, -, ⟨g, hg, h5, -⟩, -⟩ := run_exact fs hb params hn boostN harte hbl hne junk
  obtain ⟨fc', f', d', e1, e2, e3, hsum⟩ := C90_likelihood fs hb params hn boostN harte hbl hne junk
  cases ok_inj (h1.symm.trans e1)
  cases ok_inj (h2.symm.trans e2)
  cases ok_inj (h3.symm.trans e3)
  refine ⟨fc, f, d, p, h1, h2, h3, h4, ?_⟩
  have hpos := shares_pos d.2.1 fc.bothchroma
  rw [← hg] at h4 hsum hpos ⊢
  have hgl : g.length = blocks.length := by rw [hg, List.length_map, hl]
  have hblen : 0 < blocks.length := List.length_pos_of_ne_nil hne
  have hlast : blocks.length - 1 < g.length := by omega
  have htot := hsum (blocks.length - 1) (by omega)
  rw [show blocks.length - 1 + 1 = blocks.length by omega, List.take_of_length_le (by rw [h5, tab_length])] at htot
  have hgt : g.take (blocks.length - 1 + 1) = g := by rw [List.take_of_length_le (by omega)]
  have hplen : p.length = blocks.length := by rw [h4.len, hgl]
  have hpl : p[blocks.length - 1]? = some p[blocks.length - 1] := List.getElem?_eq_getElem (by omega)
  have hlp : p[blocks.length - 1] < 217 := h4.range _ (List.getElem_mem _)
  have hleads : Leads 217 (blocks.length - 1) p[blocks.length - 1] p := ⟨by omega, h4.range, h4.start, hpl⟩
  -- no sequence is better than p
  have hup : ∀ c, c < 217 → top 217 g (blocks.length - 1) c ≤ score 217 g p := by
    intro c hc
    obtain ⟨t1, t2, t3⟩ := topr_spec (by norm_num) hpos (blocks.length - 1) hlast c hc
    rw [top_eq (by norm_num) hpos hlast hc]
    rcases t1.eq_or_lt with h0 | h0
    · rw [← h0]
      have := score_nonneg (n := 217) (by norm_num) hpos hlast p
      rwa [hgt] at this
    · obtain ⟨q, hq, e⟩ := t3 h0
      rw [hgt] at e
      rw [← e]
      exact h4.best q (by rw [hq.1]; omega) hq.2.1 hq.2.2.1
  have hlow : score 217 g p ≤ ∑ c ∈ range 217, top 217 g (blocks.length - 1) c := by
    have t2 := (topr_spec (by norm_num) hpos (blocks.length - 1) hlast _ hlp).2.1 p hleads
    rw [hgt, ← top_eq (by norm_num) hpos hlast hlp] at t2
    refine t2.trans (single_le_sum (f := fun c => top 217 g (blocks.length - 1) c) (fun c hc => ?_) (mem_range.mpr hlp))
    rw [top_eq (by norm_num) hpos hlast (mem_range.mp hc)]
    exact (topr_spec (by norm_num) hpos _ hlast c (mem_range.mp hc)).1
  have hsumup : ∑ c ∈ range 217, top 217 g (blocks.length - 1) c ≤ 217 * score 217 g p := by
    have := sum_le_card_nsmul (range 217) (fun c => top 217 g (blocks.length - 1) c) _ (fun c hc => hup c (mem_range.mp hc))
    rw [card_range, nsmul_eq_mul] at this
    exact_mod_cast this
  have hT := top_total (n := 217) (by norm_num) hpos hlast
  have hsp : 0 < score 217 g p := by
    by_contra h
    have : 217 * score 217 g p ≤ 0 := by linarith
    linarith
  rw [htot]
  refine ⟨Real.log_le_log hsp hlow, ?_⟩
  rw [add_comm, ← Real.log_mul (by norm_num) hsp.ne']
  exact Real.log_le_log hT hsumup

/-- **C90, harmonic change.**  In exact arithmetic the harmonic change at a frame is the divergence of the distribution
of the chords at the frame from that at the next, and 0 at the last frame.  It is never below
-0.0000217: what the limit of the denominators, a ten-millionth for each of the 217 chords, can do. -/
theorem C90_harmonic_change (fs : Int) {bs : Nat} (hb : 4 ≤ bs) (params : Params ℝ) (hn : params.doNormalizeChroma ≤ 0)
    (boostN harte : ℝ) {blocks : List (Int × List ℝ)} (hbl : ∀ bl ∈ blocks, bs ≤ bl.2.length) (hne : blocks ≠ [])
    (junk : Nat → Nnls.St ℝ) :
    ∃ fc f d, Chroma.runAll exactFns fs bs params blocks junk = .ok (some fc) ∧
      runAll exactFns none fs bs params boostN harte blocks junk = .ok (some f) ∧
      chordDictionary exactFns none [] [] boostN harte = .ok d ∧
      f.change.length = blocks.length ∧
      (∀ i, i + 1 < blocks.length → ∃ t, f.change[i]? = some (t,
        divergence 217 (belief 217 (fc.bothchroma.map (fun c => share d.2.1 217 c.2)) i)
          (belief 217 (fc.bothchroma.map (fun c => share d.2.1 217 c.2)) (i + 1)))) ∧
      (∃ t, f.change[blocks.length - 1]? = some (t, 0)) ∧
      ∀ x ∈ f.change, -0.0000217 ≤ x.2 := by
  obtain ⟨fc, f, d, p, h1, h2, h3, hl, -, -, ⟨g, hg, -, h6⟩, -⟩ := run_exact fs hb params hn boostN harte hbl hne junk
  refine ⟨fc, f, d, h1, h2, h3, ?_⟩
  have hpos := shares_pos d.2.1 fc.bothchroma
  rw [← hg] at hpos ⊢
  have hgl : g.length = blocks.length := by rw [hg, List.length_map, hl]
  have hblen : 0 < blocks.length := List.length_pos_of_ne_nil hne
  rw [h6]
  refine ⟨tab_length _ _, ?_, ?_, ?_⟩
  · intro i hi
    rw [tab_get, if_pos (by omega), if_pos (by omega)]
    exact ⟨_, rfl⟩
  · rw [tab_get, if_pos (by omega), if_neg (by omega)]
    exact ⟨_, rfl⟩
  · intro x hx
    obtain ⟨i, hi, rfl⟩ := List.mem_map.1 hx
    have hi := List.mem_range.1 hi
    dsimp only
    split
    · next hlt =>
      have := divergence_ge (n := 217) (fun c hc => belief_nonneg (by norm_num) hpos (i := i) (by omega) hc)
        (fun c hc => belief_nonneg (by norm_num) hpos (i := i + 1) (by omega) hc) (belief_sum (by norm_num) hpos (by omega))
        (belief_sum (by norm_num) hpos (by omega))
      norm_num at this ⊢
      linarith
    · norm_num

/-- A case: two blocks. -/
example (params : Params ℝ) (hn : params.doNormalizeChroma ≤ 0) (junk : Nat → Nnls.St ℝ) :
    ∃ f, runAll exactFns none 44100 4 params 0.1 0 [(0, [1, 0, 0, 0]), (46, [900, 0, 0, 70])] junk = .ok (some f) ∧
      f.change.length = 2 ∧ ∀ x ∈ f.change, -0.0000217 ≤ x.2 := by
  obtain ⟨fc, f, d, -, e, -, h1, -, -, h2⟩ := C90_harmonic_change 44100 (bs := 4) (by norm_num) params hn 0.1 0
    (blocks := [(0, [1, 0, 0, 0]), (46, [900, 0, 0, 70])]) (by simp) (by simp) junk
  exact ⟨f, e, h1, h2⟩

end JKD.Chordino
