import Verif.Props.DictFileProps
/-
C160: the spelling of the chords changes nothing but their names.
-/

namespace JKD.Chordino

open Chroma ChordViterbi

variable {D : Type}

/-! ### Specification -/

/-- A list of chords by number, written with the given names. -/
def written (names : List Str) (cs : List (Int × Nat)) : List (Int × Str) :=
  cs.map fun c => (c.1, names.getD c.2 [])

/-- Two dictionaries that differ in the names only: as many chords, and the same numbers and notes for each. -/
def SameChords (d d' : List Str × List D × List (List Int)) : Prop :=
  d'.1.length = d.1.length ∧ d'.2.1 = d.2.1 ∧ d'.2.2 = d.2.2

/-! ### The dictionary -/

theorem types_same (F : Fns D) (ext : Option (List Str × List D)) (harte harte' : D) :
    (typesOf F ext harte').1.length = (typesOf F ext harte).1.length ∧
    (typesOf F ext harte').2 = (typesOf F ext harte).2 := by
  cases ext with
  | some e => exact ⟨rfl, rfl⟩
  | none => exact ⟨(builtin_types F harte').1.trans (builtin_types F harte).1.symm, rfl⟩

/-- Which bass notes have no name does not depend on the root, nor on whether they are named by interval. -/
theorem bass_unnamed : ∀ i < 13, ∀ k < 12, (bassnames.getD i []).getD k [] = [] ↔ (bassnames.getD 12 []).getD k [] = [] := by
  decide +kernel

theorem slash_bare (on : Nat → Bool) {i j : Nat} (hi : i < 13) (hj : j < 13) :
    slashOf on (bassnames.getD i []) = [] ↔ slashOf on (bassnames.getD j []) = [] := by
  have key : ∀ m, m ≤ 11 → ((List.range m).foldl (fun s t => if on (t + 1) then (bassnames.getD i []).getD (t + 1) [] else s) [] = [] ↔
      (List.range m).foldl (fun s t => if on (t + 1) then (bassnames.getD j []).getD (t + 1) [] else s) [] = []) := by
    intro m
    induction m with
    | zero => intro _; rfl
    | succ m ih =>
      intro hm
      rw [List.range_succ, List.foldl_append, List.foldl_append]
      simp only [List.foldl_cons, List.foldl_nil]
      split
      · rw [bass_unnamed i hi (m + 1) (by omega), bass_unnamed j hj (m + 1) (by omega)]
      · exact ih (by omega)
  exact key 11 (by omega)

theorem notes_same (F : Fns D) (harte harte' : D) (dict : List D) (d : D) (c : Nat) :
    notesAt F harte' dict d c = notesAt F harte dict d c := by
  unfold notesAt slashAt
  have h := slash_bare (fun k => F.lt (F.lit 0.99) (dict.getD (24 * (c / 12) + k % 12) d))
    (i := if F.eq harte' (F.lit 0) then c % 12 else 12) (j := if F.eq harte (F.lit 0) then c % 12 else 12)
    (by split <;> omega) (by split <;> omega)
  simp only [h]

theorem dictionary_same (F : Fns D) (ext : Option (List Str × List D)) (boostN harte harte' : D)
    {d : List Str × List D × List (List Int)} (h : chordDictionary F ext [] [] boostN harte = .ok d) :
    ∃ d', chordDictionary F ext [] [] boostN harte' = .ok d' ∧ SameChords d d' ∧
      d'.1.getD (d.1.length - 1) [] = ['N'] ∧ d.1.getD (d.1.length - 1) [] = ['N'] := by
  have hl : Long ext := by
    intro e he
    subst he
    by_contra hn
    rw [(DictFile.C97_complete F e.1 e.2 boostN harte).2 (by omega)] at h
    cases h
  obtain ⟨t1, t2⟩ := types_same F ext harte harte'
  obtain ⟨d1, e1, s1, -, -, -, n1⟩ := dictionary_sizes F hl boostN harte
  obtain ⟨d2, e2, s2, -, -, -, n2⟩ := dictionary_sizes F hl boostN harte'
  have h1 := chordDictionary_eq F ext [] [] boostN harte (F.lit 0) (typesOf_long F hl harte)
  have h2 := chordDictionary_eq F ext [] [] boostN harte' (F.lit 0) (typesOf_long F hl harte')
  have q1 := ok_inj (h.symm.trans e1)
  subst q1
  have hlen : d2.1.length = d.1.length := by rw [s1, s2, t1]
  refine ⟨d2, e2, ⟨hlen, ?_, ?_⟩, by rw [← hlen]; exact n2, n1⟩
  · rw [ok_inj (e2.symm.trans h2), ok_inj (h.symm.trans h1)]
    dsimp only
    rw [t1, t2]
  · rw [ok_inj (e2.symm.trans h2), ok_inj (h.symm.trans h1)]
    dsimp only
    rw [t1, t2]
    congr 2
    exact tab_congr fun c _ => notes_same F harte harte' _ _ c

/-! ### The report -/

/-- A loop beside another. -/
theorem loop_beside {S S' : Type} {body : Nat → S → Run S} {body' : Nat → S' → Run S'} (R : S → S' → Prop) {k : Nat}
    {s : S} {s' : S'} (h0 : R s s')
    (hs : ∀ i a a' b, R a a' → body i a = .ok b → ∃ b', body' i a' = .ok b' ∧ R b b') {r : S}
    (h : loop body k s = .ok r) : ∃ r', loop body' k s' = .ok r' ∧ R r r' := by
  induction k generalizing r with
  | zero =>
    have h : Run.ok s = .ok r := h
    have h := ok_inj h
    subst h
    exact ⟨s', rfl, h0⟩
  | succ k ih =>
    change (loop body k s >>= body k) = _ at h
    obtain ⟨a, e1, e2⟩ := bind_eq_ok.mp h
    obtain ⟨a', e1', h1⟩ := ih e1
    obtain ⟨b', e2', h2⟩ := hs k a a' r h1 e2
    refine ⟨b', ?_, h2⟩
    change (loop body' k s' >>= body' k) = _
    rw [e1', bind_ok, e2']

/-- The same walk with other names. -/
def Beside (names names' : List Str) (w w' : Walk D) : Prop :=
  (∃ cs, w.chords = written names cs ∧ w'.chords = written names' cs ∧ ∀ c ∈ cs, c.2 < names.length) ∧ w'.notes = w.notes ∧
    w'.oldchord = w.oldchord ∧ w'.oldnotes = w.oldnotes ∧ w'.chordchange = w.chordchange

theorem rd_nat {α : Type} {v : List α} {i : Int} {x : α} (h : rd v i = .ok x) : i.toNat < v.length ∧ 0 ≤ i ∧ v[i.toNat]? = some x := by
  unfold rd at h
  split at h
  · rename_i h0
    split at h
    · rename_i y hy
      have := ok_inj h
      subst this
      exact ⟨(List.getElem?_eq_some_iff.mp hy).1, h0, hy⟩
    · cases h
  · cases h

theorem rd_names {names names' : List Str} (hl : names'.length = names.length) {c : Int} {x : Str}
    (h : rd names c = .ok x) :
    rd names' c = .ok (names'.getD c.toNat []) ∧ x = names.getD c.toNat [] ∧ c.toNat < names.length := by
  obtain ⟨h1, h0, h2⟩ := rd_nat h
  refine ⟨?_, ?_, h1⟩
  · unfold rd
    rw [if_pos h0, List.getD_eq_getElem?_getD, List.getElem?_eq_getElem (by omega)]
    rfl
  · rw [List.getD_eq_getElem?_getD, h2]
    rfl

theorem walk_beside (F : Fns D) {names names' : List Str} (hl : names'.length = names.length)
    (chordnotes : List (List Int)) (ts : List Int) (path : List Int) (delta : List (List D)) (nChord i : Nat)
    {w w' r : Walk D} (hw : Beside names names' w w')
    (h : walkFrame F names chordnotes ts path delta nChord i w = .ok r) :
    ∃ r', walkFrame F names' chordnotes ts path delta nChord i w' = .ok r' ∧ Beside names names' r r' := by
  obtain ⟨⟨cs, c1, c2, c3⟩, h1, h2, h3, h4⟩ := hw
  unfold walkFrame at h ⊢
  obtain ⟨c, e1, h⟩ := bind_eq_ok.mp h
  obtain ⟨v, e2, h⟩ := bind_eq_ok.mp h
  obtain ⟨g, e3, h⟩ := bind_eq_ok.mp h
  have h := ok_inj h
  subst h
  rw [e1, bind_ok, h2]
  by_cases hc : c ≠ w.oldchord
  · rw [if_pos hc] at e2 ⊢
    obtain ⟨t, f1, e2⟩ := bind_eq_ok.mp e2
    obtain ⟨l, f2, e2⟩ := bind_eq_ok.mp e2
    obtain ⟨n, f3, e2⟩ := bind_eq_ok.mp e2
    have e2 := ok_inj e2
    subst e2
    obtain ⟨g1, g2, g3⟩ := rd_names hl f2
    rw [f1, bind_ok, g1, bind_ok, f3, bind_ok, pure_eq, bind_ok]
    dsimp only at e3 ⊢
    rw [h4, e3, bind_ok]
    refine ⟨_, rfl, ⟨cs ++ [(t, c.toNat)], ?_, ?_, ?_⟩, ?_, rfl, rfl, rfl⟩
    · simp [written, c1, g2]
    · simp [written, c2]
    · intro x hx
      rcases List.mem_append.mp hx with hx | hx
      · exact c3 x hx
      · rw [List.mem_singleton.mp hx]
        exact g3
    · dsimp only
      rw [h1, h3]
  · rw [if_neg hc] at e2 ⊢
    have e2 := ok_inj e2
    subst e2
    rw [pure_eq, bind_ok, h4, e3, bind_ok]
    exact ⟨_, rfl, ⟨cs, c1, c2, c3⟩, h1, h2, h3, rfl⟩

theorem report_beside (F : Fns D) {names names' : List Str} (hl : names'.length = names.length)
    (hN : names.getD (names.length - 1) [] = ['N']) (hN' : names'.getD (names.length - 1) [] = ['N'])
    (hpos : 0 < names.length)
    (chordnotes : List (List Int)) (ts : List Int) (v : ChordViterbi.Result D) (n : Nat) {f : Features D}
    (h : report F names chordnotes ts v n = .ok f) :
    ∃ f', report F names' chordnotes ts v n = .ok f' ∧ f'.notes = f.notes ∧ f'.change = f.change ∧
      f'.loglikelihood = f.loglikelihood ∧
      ∃ cs, f.chords = written names cs ∧ f'.chords = written names' cs ∧ ∀ c ∈ cs, c.2 < names.length := by
  unfold report at h ⊢
  dsimp only at h ⊢
  obtain ⟨t0, e1, h⟩ := bind_eq_ok.mp h
  obtain ⟨c0, e2, h⟩ := bind_eq_ok.mp h
  obtain ⟨l0, e3, h⟩ := bind_eq_ok.mp h
  obtain ⟨ch0, e4, h⟩ := bind_eq_ok.mp h
  obtain ⟨w, e5, h⟩ := bind_eq_ok.mp h
  obtain ⟨ll, e6, h⟩ := bind_eq_ok.mp h
  obtain ⟨tn, e7, h⟩ := bind_eq_ok.mp h
  obtain ⟨ch, e8, h⟩ := bind_eq_ok.mp h
  have h := ok_inj h
  subst h
  obtain ⟨g1, g2, g3⟩ := rd_names hl e3
  obtain ⟨w', e5', ⟨cs, c1, c2, c3⟩, k1, k2, k3, k4⟩ := loop_beside (Beside names names')
    (s := { chords := [(t0, l0)], notes := [], oldchord := (names.length : Int) - 1, oldnotes := [], chordchange := ch0 })
    (body' := fun t w => walkFrame F names' chordnotes ts v.path v.delta names.length (t + 1) w)
    (s' := { chords := [(t0, names'.getD c0.toNat [])], notes := [], oldchord := (names.length : Int) - 1, oldnotes := [], chordchange := ch0 })
    ⟨⟨[(t0, c0.toNat)], by rw [g2]; rfl, rfl, by simpa using g3⟩, rfl, rfl, rfl, rfl⟩
    (fun i a a' b hr hb => walk_beside F hl chordnotes ts v.path v.delta names.length (i + 1) hr hb) e5
  rw [e1, bind_ok, e2, bind_ok, g1, bind_ok, e4, bind_ok, hl, e5', bind_ok, e6, bind_ok, e7, bind_ok, k4, e8, bind_ok]
  refine ⟨_, rfl, ?_, rfl, rfl, cs ++ [(tn, names.length - 1)], ?_, ?_, ?_⟩
  · dsimp only
    rw [k1, k3]
  · simp only [written, List.map_append, List.map_cons, List.map_nil, hN]
    rw [c1]
    rfl
  · simp only [written, List.map_append, List.map_cons, List.map_nil, hN']
    rw [c2]
    rfl
  · intro x hx
    rcases List.mem_append.mp hx with hx | hx
    · exact c3 x hx
    · rw [List.mem_singleton.mp hx]
      change names.length - 1 < names.length
      omega

/-! ### The property -/

/-- **C160.** In any arithmetic, for any dictionary and any recording: if the plug-in completes with one spelling of the
chords it completes with any other; then the notes, the harmonic change and the likelihood are the same, and so is the
list of chords but for the names, which belong to the same chords: those with the same numbers and the same notes in
the two dictionaries. -/
theorem C160_spelling (F : Fns D) (ext : Option (List Str × List D)) (fs : Int) (bs : Nat) (params : Params D)
    (boostN harte harte' : D) (blocks : List (Int × List D)) (junk : Nat → Nnls.St D) {f : Features D}
    (h : runAll F ext fs bs params boostN harte blocks junk = .ok (some f)) :
    ∃ f', runAll F ext fs bs params boostN harte' blocks junk = .ok (some f') ∧ f'.notes = f.notes ∧
      f'.change = f.change ∧ f'.loglikelihood = f.loglikelihood ∧
      ∃ d d' cs, chordDictionary F ext [] [] boostN harte = .ok d ∧ chordDictionary F ext [] [] boostN harte' = .ok d' ∧
        SameChords d d' ∧ f.chords = written d.1 cs ∧ f'.chords = written d'.1 cs ∧ ∀ c ∈ cs, c.2 < d.1.length := by
  unfold runAll at h ⊢
  obtain ⟨r, e1, h⟩ := bind_eq_ok.mp h
  unfold initialise at e1 ⊢
  obtain ⟨b, b1, e1⟩ := bind_eq_ok.mp e1
  have b1 : Chroma.initialise F fs 1 bs (Base.new F params) = .ok b := b1
  have n1 : ∀ x, (State.new F params boostN x).base = Base.new F params := fun _ => rfl
  rw [n1, b1, bind_ok]
  by_cases hb : b.1
  swap
  · rw [if_neg hb] at e1
    have e1 := ok_inj e1
    subst e1
    cases h
  rw [if_pos hb] at e1 ⊢
  obtain ⟨d, d1, e1⟩ := bind_eq_ok.mp e1
  have e1 := ok_inj e1
  subst e1
  have d1 : chordDictionary F ext [] [] boostN harte = .ok d := d1
  obtain ⟨d', d1', ⟨s1, s2, s3⟩, n2, n3⟩ := dictionary_same F ext boostN harte harte' d1
  have d2 : chordDictionary F ext (State.new F params boostN harte').chorddict (State.new F params boostN harte').chordnotes
      (State.new F params boostN harte').boostN (State.new F params boostN harte').harte = .ok d' := d1'
  rw [d2, bind_ok, pure_eq, bind_ok]
  rw [if_pos rfl] at h ⊢
  dsimp only at h ⊢
  obtain ⟨p, p1, h⟩ := bind_eq_ok.mp h
  obtain ⟨g, g1, h⟩ := bind_eq_ok.mp h
  have h := Option.some.inj (ok_inj h)
  subst h
  rw [p1, bind_ok]
  unfold getRemainingFeatures at g1 ⊢
  dsimp only at g1 ⊢
  by_cases hp : p.logSpectrum.length = 0
  · rw [if_pos hp] at g1 ⊢
    have g1 := ok_inj g1
    subst g1
    exact ⟨_, rfl, rfl, rfl, rfl, d, d', [], d1, d1', ⟨s1, s2, s3⟩, rfl, rfl, by simp⟩
  · rw [if_neg hp] at g1 ⊢
    obtain ⟨t, t1, g1⟩ := bind_eq_ok.mp g1
    obtain ⟨u, u1, g1⟩ := bind_eq_ok.mp g1
    obtain ⟨cg, c1, g1⟩ := bind_eq_ok.mp g1
    obtain ⟨ip, i1, g1⟩ := bind_eq_ok.mp g1
    obtain ⟨tp, q1, g1⟩ := bind_eq_ok.mp g1
    obtain ⟨v, v1, g1⟩ := bind_eq_ok.mp g1
    have hpos : 0 < d.1.length := by
      by_contra h0
      have : d.1 = [] := List.eq_nil_of_length_eq_zero (by omega)
      rw [this] at n3
      simp at n3
    obtain ⟨f', r1, r2, r3, r4, cs, r5, r6, r7⟩ := report_beside F s1 n3 n2 hpos d.2.2 _ v _ g1
    rw [t1, bind_ok, u1, bind_ok, s1, s2, c1, bind_ok, i1, bind_ok, q1, bind_ok, v1, bind_ok, s3, r1, bind_ok]
    exact ⟨f', rfl, r2, r3, r4, d, d', cs, d1, d1', ⟨s1, s2, s3⟩, r5, r6, r7⟩

/-- **C160 (the names).** With the built-in chords: entry by entry the two lists name the same chord at the same time, one
in the usual notation and one in that of Harte, or both say that there is none. -/
theorem C160_names {F : Fns D} (hF : Discerns F) (fs : Int) (bs : Nat) (params : Params D) (boostN : D)
    (blocks : List (Int × List D)) (junk : Nat → Nnls.St D) {f : Features D}
    (h : runAll F none fs bs params boostN (F.lit 0) blocks junk = .ok (some f)) :
    ∃ f', runAll F none fs bs params boostN (F.lit 1) blocks junk = .ok (some f') ∧
      f'.chords.length = f.chords.length ∧
      ∀ (i : Nat) t l, f.chords[i]? = some (t, l) → ∃ l', f'.chords[i]? = some (t, l') ∧
        ((l = ['N'] ∧ l' = ['N']) ∨
          ∃ (k : Nat) (K : Kind) (r : Nat), kinds[k]? = some K ∧ r < 12 ∧ Labels false K r l ∧ Labels true K r l') := by
  obtain ⟨f', e, -, -, -, d, d', cs, d1, d2, ⟨s1, -, -⟩, c1, c2, c3⟩ :=
    C160_spelling F none fs bs params boostN (F.lit 0) (F.lit 1) blocks junk h
  refine ⟨f', e, by rw [c1, c2, written, written, List.length_map, List.length_map], ?_⟩
  obtain ⟨a, a1, a2⟩ := C82_labels hF boostN false
  obtain ⟨a', a1', a2'⟩ := C82_labels hF boostN true
  simp only [Bool.false_eq_true, if_false, if_true] at a1 a1'
  have := ok_inj (a1.symm.trans d1)
  subst this
  have := ok_inj (a1'.symm.trans d2)
  subst this
  obtain ⟨x, x1, x2, -, -, -, x3⟩ := dictionary_sizes F (ext := none) (fun _ h => by cases h) boostN (F.lit 0)
  have := ok_inj (d1.symm.trans x1)
  subst this
  obtain ⟨x', x1', -, -, -, -, x3'⟩ := dictionary_sizes F (ext := none) (fun _ h => by cases h) boostN (F.lit 1)
  have := ok_inj (d2.symm.trans x1')
  subst this
  rw [(builtin_types F (F.lit 0)).1] at x2
  intro i t l hi
  rw [c1, written, List.getElem?_map] at hi
  obtain ⟨c, hc, hl⟩ := Option.map_eq_some_iff.mp hi
  have h1 : c.1 = t := congrArg Prod.fst hl
  have h2 : a.1.getD c.2 [] = l := congrArg Prod.snd hl
  have hlt := c3 c (List.mem_of_getElem? hc)
  refine ⟨a'.1.getD c.2 [], by rw [c2, written, List.getElem?_map, hc, ← h1]; rfl, ?_⟩
  by_cases hN : c.2 = 216
  · left
    constructor
    · rw [← h2, hN]
      rw [x2] at x3
      exact x3
    · rw [hN]
      rw [s1, x2] at x3'
      exact x3'
  · right
    have hk : c.2 / 12 < kinds.length := by
      rw [kinds_length]
      omega
    have hq : 12 * (c.2 / 12) + c.2 % 12 = c.2 := by omega
    obtain ⟨y, y1, y2⟩ := a2 (c.2 / 12) _ (List.getElem?_eq_getElem hk) (c.2 % 12) (by omega)
    obtain ⟨y', y1', y2'⟩ := a2' (c.2 / 12) _ (List.getElem?_eq_getElem hk) (c.2 % 12) (by omega)
    rw [hq] at y1 y1'
    refine ⟨c.2 / 12, _, c.2 % 12, List.getElem?_eq_getElem hk, by omega, ?_, ?_⟩
    · rw [← h2, List.getD_eq_getElem?_getD, y1]
      exact y2
    · rw [List.getD_eq_getElem?_getD, y1']
      exact y2'

/-- A tone, in exact arithmetic: the plug-in completes with the usual notation. -/
example (junk : Nat → Nnls.St ℝ) :
    ∃ f f', runAll exactFns none 1000 1000 (Params.default exactFns) 0.1 (exactFns.lit 0) [(0, toneA 100)] junk = .ok (some f) ∧
      runAll exactFns none 1000 1000 (Params.default exactFns) 0.1 (exactFns.lit 1) [(0, toneA 100)] junk = .ok (some f') ∧
      f'.notes = f.notes := by
  have hl : ∀ bl ∈ [((0 : Int), toneA 100)], 1000 ≤ bl.2.length := by simp [toneA_length]
  obtain ⟨f, e, -⟩ := C88_plugin_runs exactFns exact_ordered exact_tunes (ext := none) (fun _ h => by cases h) 1000 (bs := 1000)
    (by norm_num) (Params.default exactFns) 0.1 (exactFns.lit 0) hl junk
  obtain ⟨f', e', h, -⟩ := C160_spelling exactFns none 1000 1000 _ _ _ (exactFns.lit 1) _ junk e
  exact ⟨f, f', e, e', h⟩

/-- C major on its third: "C/E" and "C/3". -/
example : (∃ K, kinds[11]? = some K ∧ Labels false K 3 ['C', '/', 'E'] ∧ Labels true K 3 ['C', '/', '3']) ∧
    written [['C', '/', 'E'], ['N']] [(0, 0), (5, 1)] = [(0, ['C', '/', 'E']), (5, ['N'])] := by
  refine ⟨⟨_, rfl, ⟨['C'], ['/', 'E'], rfl, rfl, ['E'], rfl, rfl⟩, ⟨['C'], ['/', '3'], rfl, rfl, ['3'], rfl, rfl⟩⟩, rfl⟩

end JKD.Chordino
