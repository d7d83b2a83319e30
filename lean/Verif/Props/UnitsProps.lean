import Verif.Props.TypedProps
/-
C152: the units of typed-in tables.
-/

namespace JKD.Detect

open Spec HMM RD

theorem getD_scale (c : ℝ) (l : List ℝ) (i : Nat) : (l.map (c * ·)).getD i 0 = c * l.getD i 0 := by
  simp only [List.getD_eq_getElem?_getD, List.getElem?_map]
  cases l[i]? <;> simp

theorem given_scale (c e : ℝ) (go maj min : List ℝ) (j k o : Int) :
    (given (go.map (c * ·)) (maj.map (e * ·)) (min.map (e * ·))).trans j k = c * (given go maj min).trans j k ∧
    (given (go.map (c * ·)) (maj.map (e * ·)) (min.map (e * ·))).emis k o = e * (given go maj min).emis k o := by
  constructor
  · unfold given
    dsimp only
    split
    · exact getD_scale c go _
    · simp
  · unfold given KeyProfile.emis
    dsimp only
    split
    · split
      · exact getD_scale e maj _
      · exact getD_scale e min _
    · simp

theorem extendProb_scale (c e : ℝ) (go maj min : List ℝ) : ∀ (os ks : List Int) (a P : ℝ) (prev : Int), ks.length = os.length →
    extendProb (given (go.map (c * ·)) (maj.map (e * ·)) (min.map (e * ·))) (a * P) prev os ks =
      a * (c * e) ^ os.length * extendProb (given go maj min) P prev os ks := by
  intro os
  induction os with
  | nil =>
    intro ks a P prev h
    have : ks = [] := List.length_eq_zero_iff.1 (by simpa using h)
    subst this
    simp [extendProb]
  | cons o os ih =>
    intro ks a P prev h
    cases ks with
    | nil => simp at h
    | cons k ks =>
      rw [extendProb, extendProb, (given_scale c e go maj min prev k o).1, (given_scale c e go maj min prev k o).2]
      have : a * P * (c * (given go maj min).trans prev k * (e * (given go maj min).emis k o)) =
          a * (c * e) * (P * ((given go maj min).trans prev k * (given go maj min).emis k o)) := by ring
      rw [this, ih ks _ _ k (by simpa using h), List.length_cons, pow_succ]
      ring

/-- Scaled tables scale all probabilities of a piece by the same number. -/
theorem prob_scale (c e : ℝ) (go maj min : List ℝ) (os ks : List Int) (h : ks.length = os.length) (hne : os ≠ []) :
    prob (given (go.map (c * ·)) (maj.map (e * ·)) (min.map (e * ·))) os ks =
      e * (c * e) ^ (os.length - 1) * prob (given go maj min) os ks := by
  cases os with
  | nil => exact absurd rfl hne
  | cons o os =>
    cases ks with
    | nil => simp at h
    | cons k ks =>
      rw [prob, prob, (given_scale c e go maj min 0 k o).2]
      have : (given (go.map (c * ·)) (maj.map (e * ·)) (min.map (e * ·))).init k * (e * (given go maj min).emis k o) =
          e * ((given go maj min).init k * (given go maj min).emis k o) := by
        change (given go maj min).init k * _ = _
        ring
      rw [this, extendProb_scale c e go maj min os ks _ _ k (by simpa using h)]
      simp

theorem speaks_scale (c : ℝ) (go : List ℝ) (ls : List Int) (k : Int) :
    speaks (go.map (c * ·)) ls k = c ^ ls.length * speaks go ls k := by
  unfold speaks
  induction ls with
  | nil => simp
  | cons l ls ih =>
    rw [List.map_cons, List.prod_cons, ih, getD_scale, List.map_cons, List.prod_cons, List.length_cons, pow_succ]
    ring

/-- **Specification.**  A piece is decided by the given numbers, by the factor `f`: one sequence of keys is more probable than every
other one, and speaks more for one key than for every other one. -/
structure DecidedBy (f : ℝ) (go maj min : List ℝ) (os best : List Int) (key : Int) : Prop where
  length : best.length = os.length
  keys : ∀ k ∈ best, IsKey k
  pos : 0 < prob (given go maj min) os best
  other : ∀ ks : List Int, ks.length = os.length → (∀ k ∈ ks, IsKey k) → ks ≠ best →
    f * prob (given go maj min) os ks < prob (given go maj min) os best
  isKey : IsKey key
  main : ∀ k, IsKey k → k ≠ key → f * speaks go best k < speaks go best key

theorem DecidedBy.scale {f : ℝ} {go maj min : List ℝ} {os best : List Int} {key : Int} (h : DecidedBy f go maj min os best key)
    (hne : os ≠ []) {c e : ℝ} (hc : 0 < c) (he : 0 < e) :
    DecidedBy f (go.map (c * ·)) (maj.map (e * ·)) (min.map (e * ·)) os best key where
  length := h.length
  keys := h.keys
  pos := by
    rw [prob_scale c e go maj min os best h.length hne]
    exact mul_pos (by positivity) h.pos
  other ks hl hk hn := by
    rw [prob_scale c e go maj min os best h.length hne, prob_scale c e go maj min os ks hl hne]
    have h0 : 0 < e * (c * e) ^ (os.length - 1) := by positivity
    have := mul_lt_mul_of_pos_left (h.other ks hl hk hn) h0
    linarith
  isKey := h.isKey
  main k hk hn := by
    rw [speaks_scale, speaks_scale]
    have h0 : 0 < c ^ best.length := by positivity
    have := mul_lt_mul_of_pos_left (h.main k hk hn) h0
    linarith

/-- The profile of whole numbers that is read for a note in a key. -/
def wholeEmis (maj min : List Nat) (k o : Int) : Nat :=
  if Spec.isMajor k then maj.getD (KeyProfile.degree k o) 0 else min.getD (KeyProfile.degree k o) 0

theorem getD_cast (l : List Nat) (i : Nat) : (l.map (fun n : Nat => (n : ℝ))).getD i 0 = ((l.getD i 0 : Nat) : ℝ) := by
  simp only [List.getD_eq_getElem?_getD, List.getElem?_map]
  cases l[i]? <;> simp

theorem prob_two (go maj min : List Nat) (a b j k : Int) (hj : IsKey j) (hk : IsKey k) (ha : a ∈ pcs) (hb : b ∈ pcs) :
    prob (given (go.map (fun n : Nat => (n : ℝ))) (maj.map (fun n : Nat => (n : ℝ))) (min.map (fun n : Nat => (n : ℝ)))) [a, b] [j, k] =
      1 / 24 * ((wholeEmis maj min j a * (go.getD (slot j k) 0 * wholeEmis maj min k b) : Nat) : ℝ) := by
  have hj' := mem_keys.2 hj
  have hk' := mem_keys.2 hk
  have e : ∀ i o : Int, KeyProfile.emis (maj.map (fun n : Nat => (n : ℝ))) (min.map (fun n : Nat => (n : ℝ))) 0 i o =
      ((wholeEmis maj min i o : Nat) : ℝ) := by
    intro i o
    unfold KeyProfile.emis wholeEmis
    split <;> exact getD_cast _ _
  simp only [prob, extendProb, given, hj', hk', ha, hb, and_self, if_true, e, getD_cast]
  push_cast
  ring

/-- A table of transitions that favours staying, and profiles that favour the tonic and the third of a major key: the notes C E are
decided for C major by the factor 2, and they still are with the profiles in per cent and the transitions in tenths. -/
example : ∃ go maj min : List ℝ, go.length = 24 ∧ maj.length = 12 ∧ min.length = 12 ∧ DecidedBy 2 go maj min [0, 4] [0, 0] 0 ∧
    DecidedBy 2 (go.map (10 * ·)) (maj.map (100 * ·)) (min.map (100 * ·)) [0, 4] [0, 0] 0 := by
  have h : DecidedBy 2 ((8 :: List.replicate 23 1).map (fun n : Nat => (n : ℝ)))
      ([4, 1, 1, 1, 4, 1, 1, 1, 1, 1, 1, 1].map (fun n : Nat => (n : ℝ))) ((List.replicate 12 1).map (fun n : Nat => (n : ℝ)))
      [0, 4] [0, 0] 0 := by
    have p0 : (0 : Int) ∈ pcs := by decide
    have p4 : (4 : Int) ∈ pcs := by decide
    have k0 : IsKey 0 := by decide
    have v : wholeEmis [4, 1, 1, 1, 4, 1, 1, 1, 1, 1, 1, 1] (List.replicate 12 1) 0 0 * ((8 :: List.replicate 23 1).getD (slot 0 0) 0 *
        wholeEmis [4, 1, 1, 1, 4, 1, 1, 1, 1, 1, 1, 1] (List.replicate 12 1) 0 4) = 128 := by decide
    refine ⟨rfl, by simpa using k0, ?_, ?_, k0, ?_⟩
    · rw [prob_two _ _ _ 0 4 0 0 k0 k0 p0 p4, v]
      norm_num
    · intro ks hl hk hn
      match ks, hl with
      | [j, k], _ =>
        have hj := hk j (by simp)
        have hk := hk k (by simp)
        rw [prob_two _ _ _ 0 4 0 0 k0 k0 p0 p4, prob_two _ _ _ 0 4 j k hj hk p0 p4, v]
        have t : ∀ j ∈ keys, ∀ k ∈ keys, [j, k] ≠ [0, 0] →
            2 * (wholeEmis [4, 1, 1, 1, 4, 1, 1, 1, 1, 1, 1, 1] (List.replicate 12 1) j 0 * ((8 :: List.replicate 23 1).getD (slot j k) 0 *
              wholeEmis [4, 1, 1, 1, 4, 1, 1, 1, 1, 1, 1, 1] (List.replicate 12 1) k 4)) < 128 := by decide +kernel
        have := Nat.cast_lt (α := ℝ) |>.2 (t j (mem_keys.2 hj) k (mem_keys.2 hk) hn)
        rw [Nat.cast_mul] at this
        simp only [Nat.cast_ofNat] at this ⊢
        linarith
    · intro k hk hn
      have t : ∀ k ∈ keys, k ≠ 0 → (8 :: List.replicate 23 1).getD (slot k 0) 0 = 1 := by decide +kernel
      have t0 : (8 :: List.replicate 23 1).getD (slot 0 0) 0 = 8 := by decide
      have e : ∀ k, speaks ((8 :: List.replicate 23 1).map (fun n : Nat => (n : ℝ))) [0, 0] k =
          (((8 :: List.replicate 23 1).getD (slot k 0) 0 : Nat) : ℝ) ^ 2 := by
        intro k
        unfold speaks
        rw [List.map_cons (l := [0]), List.map_cons (l := []), List.map_nil, List.prod_cons, List.prod_cons, List.prod_nil, getD_cast]
        ring
      rw [e, e, t k (mem_keys.2 hk) hn, t0]
      norm_num
  exact ⟨_, _, _, by simp, by simp, by simp, h, h.scale (by simp) (by norm_num) (by norm_num)⟩

end JKD.Detect

namespace JKD.Main

open Spec HMM RD Detect

/-- **C152, decided pieces.**  A MIDI file that is decided by the typed-in numbers gets its key, in double arithmetic. -/
theorem C152_decided {S P T : Type} {η : ℝ} (lg : ℝ → RD) (hlg : LogClose η lg) (E : Env RD S P T) (hF : E.F = ieee lg)
    (hi₁ : Iter.Ok E.iter₁) (hi₂ : Iter.Ok E.iter₂) (hs : E.strictMidi = false)
    (hj : E.junkMajor.length = 12 ∧ E.junkMinor.length = 12 ∧ E.junkTransition.length = 24)
    (o : Options) (hf : o.inputformat = none) (he : o.evaluate = false) (hp : o.probabilities = false)
    (file ext : Str) (hargs : o.args = [file]) (hx : HasExtension file ext) (hl : file.length < npos)
    (hm : ext.map Char.toLower = "mid".toList ∨ ext.map Char.toLower = "midi".toList)
    (K Tr : Str) (hK : o.customkeyprofiles = some K) (hT : o.customkeytransitions = some Tr)
    (maj min go : List ℝ) (hlen : maj.length = 12 ∧ min.length = 12 ∧ go.length = 24)
    (hprof : List.Forall₂ Entry (maj ++ min) (E.nums K)) (hgo : List.Forall₂ Entry go (E.nums Tr))
    (hw : ∀ ev ∈ E.midiEvents file, Midi.WellFormed ev) (os : List Int)
    (hos : os = ((E.midiEvents file).filterMap Midi.sounding).map (fun p : Nat => ((p % 12 : Nat) : Int))) (hne : os ≠ [])
    (hn : os.length ≤ 2 ^ 40) (best : List Int) (key : Int)
    (hd : DecidedBy ((10 : ℝ) ^ (2 * slack η os.length)) go maj min os best key) :
    ∃ line, keyLine (Key.ofInt key) = .ok line ∧ main E (.ok o) = .ok { stdout := line, stderr := [], code := 0 } := by
  have h10 : (0 : ℝ) < (10 : ℝ) ^ (2 * slack η os.length) := Real.rpow_pos_of_pos (by norm_num) _
  rcases C151_typed lg hlg E hF hi₁ hi₂ hs hj o hf he hp file ext hargs hx hl hm K Tr hK hT maj min go hlen hprof hgo hw os hos hne hn with
    ⟨_, h⟩ | ⟨ls, h1, h2, h3, h4, h5⟩
  · exact absurd (h best hd.length hd.keys) hd.pos.ne'
  · have e : ls = best := by
      by_contra hn'
      exact absurd (h4 best hd.length hd.keys) (not_le.2 (hd.other ls h1 h2 hn'))
    subst e
    rcases h5 with ⟨_, h6⟩ | ⟨k, line, h6, h7, h8, h9, h10'⟩
    · obtain ⟨k, hk, hkn⟩ : ∃ k, IsKey k ∧ k ≠ key := by
        by_cases h : key = 0
        · exact ⟨1, by decide, by omega⟩
        · exact ⟨0, by decide, fun h' => h h'.symm⟩
      have := hd.main k hk hkn
      rw [h6 k hk, h6 key hd.isKey, mul_zero] at this
      exact absurd this (lt_irrefl _)
    · have e : k = key := by
        by_contra hn'
        exact absurd (h10' key hd.isKey) (not_le.2 (hd.main k h8 hn'))
      subst e
      exact ⟨line, h7, h6⟩

/-- **C152.**  Typed-in tables may be in any unit: multiplying all transitions by one positive number and all profile values by one
positive number does not change the answer for any piece that is decided by the numbers, in double arithmetic. -/
theorem C152_units {S P T : Type} {η : ℝ} (lg : ℝ → RD) (hlg : LogClose η lg) (E : Env RD S P T) (hF : E.F = ieee lg)
    (hi₁ : Iter.Ok E.iter₁) (hi₂ : Iter.Ok E.iter₂) (hs : E.strictMidi = false)
    (hj : E.junkMajor.length = 12 ∧ E.junkMinor.length = 12 ∧ E.junkTransition.length = 24)
    (o : Options) (hf : o.inputformat = none) (he : o.evaluate = false) (hp : o.probabilities = false)
    (file ext : Str) (hargs : o.args = [file]) (hx : HasExtension file ext) (hl : file.length < npos)
    (hm : ext.map Char.toLower = "mid".toList ∨ ext.map Char.toLower = "midi".toList)
    (K Tr K' Tr' : Str) (maj min go : List ℝ) (hlen : maj.length = 12 ∧ min.length = 12 ∧ go.length = 24)
    (hprof : List.Forall₂ Entry (maj ++ min) (E.nums K)) (hgo : List.Forall₂ Entry go (E.nums Tr))
    (c e : ℝ) (hc : 0 < c) (he' : 0 < e) (hprof' : List.Forall₂ Entry ((maj ++ min).map (e * ·)) (E.nums K'))
    (hgo' : List.Forall₂ Entry (go.map (c * ·)) (E.nums Tr'))
    (hw : ∀ ev ∈ E.midiEvents file, Midi.WellFormed ev) (os : List Int)
    (hos : os = ((E.midiEvents file).filterMap Midi.sounding).map (fun p : Nat => ((p % 12 : Nat) : Int))) (hne : os ≠ [])
    (hn : os.length ≤ 2 ^ 40) (best : List Int) (key : Int)
    (hd : DecidedBy ((10 : ℝ) ^ (2 * slack η os.length)) go maj min os best key) :
    ∃ line, keyLine (Key.ofInt key) = .ok line ∧
      main E (.ok { o with customkeyprofiles := some K, customkeytransitions := some Tr }) = .ok { stdout := line, stderr := [], code := 0 } ∧
      main E (.ok { o with customkeyprofiles := some K', customkeytransitions := some Tr' }) =
        .ok { stdout := line, stderr := [], code := 0 } := by
  obtain ⟨line, h1, h2⟩ := C152_decided lg hlg E hF hi₁ hi₂ hs hj { o with customkeyprofiles := some K, customkeytransitions := some Tr }
    hf he hp file ext hargs hx hl hm K Tr rfl rfl maj min go hlen hprof hgo hw os hos hne hn best key hd
  obtain ⟨line', h1', h2'⟩ := C152_decided lg hlg E hF hi₁ hi₂ hs hj
    { o with customkeyprofiles := some K', customkeytransitions := some Tr' }
    hf he hp file ext hargs hx hl hm K' Tr' rfl rfl (maj.map (e * ·)) (min.map (e * ·)) (go.map (c * ·)) (by simpa using hlen)
    (by rw [← List.map_append]; exact hprof') hgo' hw os hos hne hn best key (hd.scale hne hc he')
  rw [h1] at h1'
  cases h1'
  exact ⟨line, h1, h2, h2'⟩

end JKD.Main
