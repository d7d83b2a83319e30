import Verif.Lemmas.ChordPath
/-
The chord plug-in after the dictionary: how well the chords fit, the inputs of the smoother, and the reports.
-/

namespace JKD.Chordino

open JKD.Chroma JKD.ChordViterbi

variable {D : Type}

/-! ### How well the chords fit -/

/-- The match of a chord with a chroma. -/
def matchOf (F : Fns D) (dict : List D) (d : D) (chroma : List D) (c : Nat) : D :=
  (List.range 24).foldl (fun v b => F.add v (F.mul (dict.getD (24 * c + b) d) (chroma.getD b d))) (F.lit 0)

/-- The match, clipped. -/
def clipOf (F : Fns D) (v : D) : D :=
  if F.lt (F.lit 200) (if F.lt v (F.lit 0) then F.lit 0 else v) then F.lit 200
  else if F.lt v (F.lit 0) then F.lit 0 else v

/-- The value of a chord. -/
def valueOf (F : Fns D) (dict : List D) (d : D) (n : Nat) (chroma : List D) (c : Nat) : D :=
  F.pow (F.lit 1.3) (clipOf F (if c + 1 = n then F.mul (matchOf F dict d chroma c) (F.lit 0.7)
    else matchOf F dict d chroma c))

theorem chordValue_eq (F : Fns D) {dict : List D} (d : D) (n : Nat) {chroma : List D} {c : Nat}
    (h : 24 * c + 24 ≤ dict.length) (hc : chroma.length = 24) :
    chordValue F dict n chroma c = .ok (valueOf F dict d n chroma c) := by
  unfold chordValue
  rw [loop_eq (fun b v => F.add v (F.mul (dict.getD (24 * c + b) d) (chroma.getD b d))) 24 (F.lit 0)]
  · rfl
  · intro b hb v
    rw [rd_getD dict (24 * c + b) d (by omega), bind_ok, rd_getD chroma b d (by omega), bind_ok]
    rfl

/-- One row of the chordogram. -/
def salienceOf (F : Fns D) (dict : List D) (d : D) (n : Nat) (chroma : List D) : List D :=
  if F.lt (F.lit 0) ((List.range n).foldl (fun s c => F.add s (valueOf F dict d n chroma c)) (F.lit 0)) then
    tab n (fun c => F.div (valueOf F dict d n chroma c)
      ((List.range n).foldl (fun s c => F.add s (valueOf F dict d n chroma c)) (F.lit 0)))
  else tab n (fun c => if c = n - 1 then F.lit 1 else valueOf F dict d n chroma c)

theorem salienceOf_length (F : Fns D) (dict : List D) (d : D) (n : Nat) (chroma : List D) :
    (salienceOf F dict d n chroma).length = n := by
  unfold salienceOf
  split <;> exact tab_length _ _

theorem chordSalience_eq (F : Fns D) {dict : List D} (d : D) {n : Nat} {chroma : List D} (hn : 0 < n)
    (h : 24 * n ≤ dict.length) (hc : chroma.length = 24) :
    chordSalience F dict n chroma = .ok (salienceOf F dict d n chroma) := by
  have key : ∀ k, k ≤ n → loop (fun iChord (r : List D × D) => do
      let v ← chordValue F dict n chroma iChord
      pure (r.1 ++ [v], F.add r.2 v)) k ([], F.lit 0) =
      .ok (tab k (valueOf F dict d n chroma),
        (List.range k).foldl (fun s c => F.add s (valueOf F dict d n chroma c)) (F.lit 0)) := by
    intro k
    induction k with
    | zero => intro _; rfl
    | succ k ih =>
      intro hk
      change (loop _ k _ >>= _) = _
      rw [ih (by omega), bind_ok]
      beta_reduce
      rw [chordValue_eq F (dict := dict) d n (c := k) (by omega) hc, bind_ok, tab_succ, List.range_succ,
        List.foldl_append]
      rfl
  unfold chordSalience salienceOf
  rw [key n (le_refl n), bind_ok]
  dsimp only
  split
  · have := loop_map n (valueOf F dict d n chroma) (fun _ x => F.div x
      ((List.range n).foldl (fun s c => F.add s (valueOf F dict d n chroma c)) (F.lit 0))) 0 n (by omega)
    simp only [Nat.zero_add] at this
    rw [this]
    refine congrArg Run.ok (tab_congr (fun c hc => ?_))
    rw [if_pos ⟨Nat.zero_le _, hc⟩]
  · rw [show ((n : Int) - 1) = ((n - 1 : Nat) : Int) by omega, wr_tab _ _ _ _ (by omega)]

/-! ### The inputs of the smoother -/

theorem initProb_eq (F : Fns D) {n : Nat} (hn : 0 < n) :
    initProb F n = .ok (tab n (fun c => if c = n - 1 then F.lit 1 else F.lit 0)) := by
  unfold initProb
  rw [replicate_eq_tab, show ((n : Int) - 1) = ((n - 1 : Nat) : Int) by omega, wr_tab _ _ _ _ (by omega)]

/-- The probability of going from one chord to another. -/
def transOf (F : Fns D) (n i j : Nat) : D :=
  if j = i then F.lit 0.99 else F.div (F.sub (F.lit 1) (F.lit 0.99)) (F.lit ((n : Rat) - 1))

theorem transProb_eq (F : Fns D) (n : Nat) :
    transProb F n = .ok (tab n (fun i => tab n (fun j => transOf F n i j))) := by
  unfold transProb
  rw [loop_push n [] (fun i => tab n (fun j => transOf F n i j))]
  · rfl
  · intro i hi l
    rw [replicate_eq_tab, wr_tab _ _ _ _ hi, bind_ok]
    rfl

/-! ### The reports -/

/-- The sizes fit. -/
structure Fit (names : List Str) (chordnotes : List (List Int)) (ts : List Int) (v : ChordViterbi.Result D)
    (n : Nat) : Prop where
  pos : 0 < n
  ts : ts.length = n
  path : v.path.length = n
  range : ∀ c ∈ v.path, 0 ≤ c ∧ c < (names.length : Int)
  some : 0 < names.length
  notes : names.length ≤ chordnotes.length
  delta : v.delta.length = n
  rows : ∀ r ∈ v.delta, r.length = names.length
  scale : v.scale.length = n

/-- The chord before frame `i + 1`. -/
def before (m : Nat) (path : List Int) (i : Nat) : Int := if i = 0 then (m : Int) - 1 else path.getD i 0

/-- The reported changes of chord up to frame `k`. -/
def changes (names : List Str) (ts path : List Int) (k : Nat) : List (Int × Str) :=
  (List.range k).filterMap (fun i => if path.getD (i + 1) 0 ≠ before names.length path i then
    some (ts.getD (i + 1) 0, names.getD (path.getD (i + 1) 0).toNat []) else none)

/-- The harmonic change between frame `i` and the next. -/
def changeOf (F : Fns D) (delta : List (List D)) (d : D) (m i : Nat) : D :=
  (List.range m).foldl (fun x c => F.add x (F.mul ((delta.getD i []).getD c d)
    (F.log (F.add (F.div ((delta.getD i []).getD c d)
      (if F.lt ((delta.getD (i + 1) []).getD c d) (F.lit 0.0000001) then F.lit 0.0000001
        else (delta.getD (i + 1) []).getD c d)) (F.lit 0.0000001))))) (F.lit 0)

theorem changeLoop_eq (F : Fns D) (d : D) {delta : List (List D)} {m n i : Nat} (hd : delta.length = n)
    (hr : ∀ r ∈ delta, r.length = m) (hi : i + 1 < n) (g : Nat → D) (hg : g i = F.lit 0) :
    loop (fun iChord change => do
      let before ← rd delta (((i + 1 : Nat) : Int) - 1)
      let num ← rd before iChord
      let now ← rd delta ((i + 1 : Nat) : Int)
      let denom ← rd now iChord
      let eps := F.lit 0.0000001
      let denom := if F.lt denom eps then eps else denom
      let x ← rd change (((i + 1 : Nat) : Int) - 1)
      wr change (((i + 1 : Nat) : Int) - 1) (F.add x (F.mul num (F.log (F.add (F.div num denom) eps))))) m (tab n g) =
    .ok (tab n (fun j => if j = i then changeOf F delta d m i else g j)) := by
  have hrow : ∀ j, j < n → (delta.getD j []).length = m := by
    intro j hj
    apply hr
    rw [List.getD_eq_getElem?_getD, List.getElem?_eq_getElem (by omega)]
    exact List.getElem_mem _
  have e : (((i + 1 : Nat) : Int) - 1) = (i : Nat) := by omega
  unfold changeOf
  rw [e]
  have key : ∀ k, k ≤ m → loop (fun iChord change => do
      let before ← rd delta (i : Nat)
      let num ← rd before iChord
      let now ← rd delta ((i + 1 : Nat) : Int)
      let denom ← rd now iChord
      let eps := F.lit 0.0000001
      let denom := if F.lt denom eps then eps else denom
      let x ← rd change (i : Nat)
      wr change (i : Nat) (F.add x (F.mul num (F.log (F.add (F.div num denom) eps))))) k (tab n g) =
    .ok (tab n (fun j => if j = i then (List.range k).foldl (fun x c => F.add x (F.mul ((delta.getD i []).getD c d)
    (F.log (F.add (F.div ((delta.getD i []).getD c d)
      (if F.lt ((delta.getD (i + 1) []).getD c d) (F.lit 0.0000001) then F.lit 0.0000001
        else (delta.getD (i + 1) []).getD c d)) (F.lit 0.0000001))))) (F.lit 0) else g j)) := by
    intro k
    induction k with
    | zero =>
      intro _
      refine congrArg Run.ok (tab_congr (fun j _ => ?_))
      by_cases h : j = i
      · rw [if_pos h, h, hg]
        rfl
      · rw [if_neg h]
    | succ k ih =>
      intro hk
      change (loop _ k _ >>= _) = _
      rw [ih (by omega), bind_ok]
      beta_reduce
      rw [rd_getD delta i [] (by omega), bind_ok, rd_getD _ k d (by rw [hrow i (by omega)]; omega), bind_ok,
        rd_getD delta (i + 1) [] (by omega), bind_ok, rd_getD _ k d (by rw [hrow (i + 1) (by omega)]; omega), bind_ok]
      dsimp only
      rw [rd_tab _ _ _ (by omega), bind_ok, wr_tab _ _ _ _ (by omega)]
      refine congrArg Run.ok (tab_congr (fun j _ => ?_))
      by_cases h : j = i
      · rw [if_pos h, if_pos rfl, if_pos h, List.range_succ, List.foldl_append]
        rfl
      · rw [if_neg h, if_neg h, if_neg h]
  exact key m (le_refl m)

/-- The notes sounding at a time: those that have started and not yet ended. -/
def soundingAt (notes : List Note) (t : Int) : List Int :=
  (notes.filter (fun n => decide (n.timestamp ≤ t ∧ t < n.timestamp + n.duration))).map Note.pitch

/-- The label in force at a time: the last one reported by then. -/
def labelInForce (chords : List (Int × Str)) (t : Int) : Option Str :=
  ((chords.filter (fun c => decide (c.1 ≤ t))).getLast?).map Prod.snd

/-- The notes that have begun at frame `s` and not been finished. -/
def open' (chordnotes : List (List Int)) (ts path : List Int) (m s : Nat) : List Note :=
  (chordnotes.getD (before m path s).toNat []).map (fun p => { timestamp := ts.getD s 0, duration := -ts.getD s 0, pitch := p })

theorem finish_open (chordnotes : List (List Int)) (ts path : List Int) (m s : Nat) (t : Int) :
    finish t (open' chordnotes ts path m s) = (chordnotes.getD (before m path s).toNat []).map
      (fun p => { timestamp := ts.getD s 0, duration := t - ts.getD s 0, pitch := p }) := by
  unfold finish open'
  rw [List.map_map]
  refine List.map_congr_left (fun p _ => ?_)
  simp only [Function.comp_apply, Note.mk.injEq, true_and, and_true]
  omega

/-- What is known of the notes after `k` frames, of which the last `k - s` have the same chord. -/
structure Rolled (chordnotes : List (List Int)) (ts path : List Int) (m k s : Nat) (notes : List Note) : Prop where
  le : s ≤ k
  same : ∀ i, s ≤ i → i ≤ k → before m path i = before m path s
  ended : ∀ x ∈ notes, x.timestamp + x.duration ≤ ts.getD s 0
  span : ∀ x ∈ notes, ∃ a b : Nat, a < b ∧ b ≤ k ∧ x.timestamp = ts.getD a 0 ∧ x.duration = ts.getD b 0 - ts.getD a 0 ∧
    x.pitch ∈ chordnotes.getD (before m path a).toNat [] ∧ ∀ i, a ≤ i → i < b → before m path i = before m path a
  sounds : ∀ i, i < s → soundingAt notes (ts.getD i 0) = chordnotes.getD (before m path i).toNat []

theorem soundingAt_append (a b : List Note) (t : Int) : soundingAt (a ++ b) t = soundingAt a t ++ soundingAt b t := by
  unfold soundingAt
  rw [List.filter_append, List.map_append]

theorem soundingAt_none {l : List Note} {t : Int} (h : ∀ x ∈ l, t < x.timestamp ∨ x.timestamp + x.duration ≤ t) :
    soundingAt l t = [] := by
  unfold soundingAt
  rw [List.filter_eq_nil_iff.mpr]
  · rfl
  · intro x hx
    have := h x hx
    simp only [decide_eq_true_eq]
    omega

theorem soundingAt_all (ps : List Int) {a b t : Int} (h1 : a ≤ t) (h2 : t < b) :
    soundingAt (ps.map (fun p => { timestamp := a, duration := b - a, pitch := p })) t = ps := by
  unfold soundingAt
  rw [List.filter_eq_self.mpr]
  · rw [List.map_map]
    exact List.map_id' ps
  · intro x hx
    obtain ⟨p, _, rfl⟩ := List.mem_map.1 hx
    simp only [decide_eq_true_eq]
    omega

/-- Finishing the open notes at a later frame. -/
theorem Rolled.finish {chordnotes : List (List Int)} {ts path : List Int} {m k s : Nat} {notes : List Note}
    (h : Rolled chordnotes ts path m k s notes) {e : Nat} (hs : s < e) (he : e ≤ k + 1)
    (hts : ∀ i j : Nat, i < j → j ≤ e → ts.getD i 0 < ts.getD j 0) :
    (∀ x ∈ notes ++ Chordino.finish (ts.getD e 0) (open' chordnotes ts path m s),
      x.timestamp + x.duration ≤ ts.getD e 0) ∧
    (∀ x ∈ notes ++ Chordino.finish (ts.getD e 0) (open' chordnotes ts path m s),
      ∃ a b : Nat, a < b ∧ b ≤ k + 1 ∧ x.timestamp = ts.getD a 0 ∧ x.duration = ts.getD b 0 - ts.getD a 0 ∧
        x.pitch ∈ chordnotes.getD (before m path a).toNat [] ∧ ∀ i, a ≤ i → i < b → before m path i = before m path a) ∧
    ∀ i, i < e → soundingAt (notes ++ Chordino.finish (ts.getD e 0) (open' chordnotes ts path m s)) (ts.getD i 0) =
      chordnotes.getD (before m path i).toNat [] := by
  rw [finish_open]
  refine ⟨?_, ?_, ?_⟩
  · intro x hx
    rcases List.mem_append.mp hx with hx | hx
    · have := h.ended x hx
      have := hts s e hs (le_refl e)
      omega
    · obtain ⟨p, _, rfl⟩ := List.mem_map.1 hx
      dsimp only
      omega
  · intro x hx
    rcases List.mem_append.mp hx with hx | hx
    · obtain ⟨a, b, h1, h2, h3⟩ := h.span x hx
      exact ⟨a, b, h1, by omega, h3⟩
    · obtain ⟨p, hp, rfl⟩ := List.mem_map.1 hx
      exact ⟨s, e, hs, he, rfl, rfl, hp, fun i h1 h2 => h.same i h1 (by omega)⟩
  · intro i hi
    rw [soundingAt_append]
    by_cases his : i < s
    · rw [h.sounds i his]
      rw [soundingAt_none, List.append_nil]
      intro x hx
      obtain ⟨p, _, rfl⟩ := List.mem_map.1 hx
      left
      exact hts i s his (by omega)
    · have hle : ts.getD s 0 ≤ ts.getD i 0 := by
        rcases Nat.lt_or_ge s i with h' | h'
        · exact le_of_lt (hts s i h' (by omega))
        · rw [show i = s by omega]
      rw [soundingAt_none (l := notes), List.nil_append, soundingAt_all _ hle (hts i e hi (le_refl e)),
        h.same i (by omega) (by omega)]
      intro x hx
      right
      have := h.ended x hx
      omega

theorem labelInForce_append {l l' : List (Int × Str)} {t : Int} (h : ∀ c ∈ l', t < c.1) :
    labelInForce (l ++ l') t = labelInForce l t := by
  unfold labelInForce
  rw [List.filter_append, (List.filter_eq_nil_iff (l := l')).mpr, List.append_nil]
  intro c hc
  have := h c hc
  simp only [decide_eq_true_eq]
  omega

theorem labelInForce_snoc (l : List (Int × Str)) {t s : Int} (x : Str) (h : s ≤ t) :
    labelInForce (l ++ [(s, x)]) t = some x := by
  unfold labelInForce
  rw [List.filter_append]
  simp [h]

/-- What the walk over the frames has reached after `k` of them. -/
structure Walked (F : Fns D) (names : List Str) (chordnotes : List (List Int)) (ts path : List Int)
    (delta : List (List D)) (d : D) (n k : Nat) (w : Walk D) : Prop where
  chords : w.chords = (ts.getD 0 0, names.getD (path.getD 0 0).toNat []) :: changes names ts path k
  old : w.oldchord = before names.length path k
  change : w.chordchange = tab n (fun i => if i < k then changeOf F delta d names.length i else F.lit 0)
  roll : chordnotes.getD (names.length - 1) [] = [] → (∀ i j : Nat, i < j → j < n → ts.getD i 0 < ts.getD j 0) →
    ∃ s, Rolled chordnotes ts path names.length k s w.notes ∧
      w.oldnotes = open' chordnotes ts path names.length s
  label : path.getD 0 0 = (names.length : Int) - 1 → (∀ i j : Nat, i < j → j < n → ts.getD i 0 < ts.getD j 0) →
    ∀ i, i ≤ k → labelInForce w.chords (ts.getD i 0) = some (names.getD (path.getD i 0).toNat [])

theorem changes_succ (names : List Str) (ts path : List Int) (k : Nat) :
    changes names ts path (k + 1) = changes names ts path k ++
      (if path.getD (k + 1) 0 ≠ before names.length path k then
        [(ts.getD (k + 1) 0, names.getD (path.getD (k + 1) 0).toNat [])] else []) := by
  unfold changes
  rw [List.range_succ, List.filterMap_append]
  congr 1
  rw [List.filterMap_cons, List.filterMap_nil]
  by_cases h : path.getD (k + 1) 0 = before names.length path k
  · rw [if_neg (by rw [not_not]; exact h), if_neg (by rw [not_not]; exact h)]
  · rw [if_pos h, if_pos h]

theorem before_succ (m : Nat) (path : List Int) (k : Nat) : before m path (k + 1) = path.getD (k + 1) 0 :=
  if_neg (by omega)

theorem rd_path {path : List Int} {i : Nat} (h : i < path.length) : rd path (i : Int) = .ok (path.getD i 0) :=
  rd_getD path i 0 h

theorem rd_chord {α : Type} {l : List α} {c : Int} (d : α) (h0 : 0 ≤ c) (h : c < (l.length : Int)) :
    rd l c = .ok (l.getD c.toNat d) := by
  have := rd_getD l c.toNat d (by omega)
  rwa [show ((c.toNat : Nat) : Int) = c by omega] at this

theorem getD_mem_path {path : List Int} {i : Nat} (h : i < path.length) : path.getD i 0 ∈ path := by
  rw [List.getD_eq_getElem?_getD, List.getElem?_eq_getElem h]
  exact List.getElem_mem _

theorem walkFrame_ok (F : Fns D) {names : List Str} {chordnotes : List (List Int)} {ts : List Int}
    {v : ChordViterbi.Result D} {n : Nat} (hf : Fit names chordnotes ts v n) (d : D) {k : Nat} (hk : k + 1 < n)
    {w : Walk D} (hw : Walked F names chordnotes ts v.path v.delta d n k w) :
    ∃ w', walkFrame F names chordnotes ts v.path v.delta names.length (k + 1) w = .ok w' ∧
      Walked F names chordnotes ts v.path v.delta d n (k + 1) w' := by
  have hp : k + 1 < v.path.length := by rw [hf.path]; exact hk
  obtain ⟨hc0, hc1⟩ := hf.range _ (getD_mem_path hp)
  have hnotes := hf.notes
  unfold walkFrame
  rw [rd_path hp, bind_ok]
  have hchange : (fun (j : Nat) => if j = k then changeOf F v.delta d names.length k
      else (if j < k then changeOf F v.delta d names.length j else F.lit 0)) =
      (fun j => if j < k + 1 then changeOf F v.delta d names.length j else F.lit 0) := by
    funext j
    by_cases h : j = k
    · rw [if_pos h, if_pos (by omega), h]
    · rw [if_neg h]
      by_cases h' : j < k
      · rw [if_pos h', if_pos (by omega)]
      · rw [if_neg h', if_neg (by omega)]
  by_cases hch : v.path.getD (k + 1) 0 = before names.length v.path k
  · rw [if_neg (by rw [hw.old, not_not]; exact hch), pure_eq, bind_ok, hw.change,
      changeLoop_eq F d hf.delta hf.rows hk _ (if_neg (by omega)), bind_ok, hchange]
    refine ⟨_, rfl, ?_, ?_, rfl, ?_, ?_⟩
    · dsimp only
      rw [hw.chords, changes_succ, if_neg (by rw [not_not]; exact hch), List.append_nil]
    · dsimp only
      rw [hw.old, before_succ, hch]
    · intro hN hts
      obtain ⟨s, hr, ho⟩ := hw.roll hN hts
      refine ⟨s, ⟨by have := hr.le; omega, ?_, hr.ended, ?_, hr.sounds⟩, ho⟩
      · intro i h1 h2
        rcases Nat.lt_or_ge k i with h | h
        · rw [show i = k + 1 by omega, before_succ, hch]
          exact hr.same k hr.le (le_refl k)
        · exact hr.same i h1 h
      · intro x hx
        obtain ⟨a, b, h1, h2, h3⟩ := hr.span x hx
        exact ⟨a, b, h1, by omega, h3⟩
    · intro hN hts i hi
      dsimp only
      rcases Nat.lt_or_ge k i with h | h
      · obtain rfl : i = k + 1 := by omega
        have hkk : labelInForce w.chords (ts.getD (k + 1) 0) = labelInForce w.chords (ts.getD k 0) := by
          have hall : ∀ c ∈ w.chords, c.1 ≤ ts.getD k 0 := by
            rw [hw.chords]
            intro c hc
            have hmono : ∀ j : Nat, j ≤ k → ts.getD j 0 ≤ ts.getD k 0 := by
              intro j hj
              rcases Nat.lt_or_ge j k with h' | h'
              · exact le_of_lt (hts j k h' (by omega))
              · rw [show j = k by omega]
            rcases List.mem_cons.mp hc with rfl | hc
            · exact hmono 0 (by omega)
            · unfold changes at hc
              obtain ⟨j, hj, hjc⟩ := List.mem_filterMap.mp hc
              have hj := List.mem_range.mp hj
              split at hjc
              · cases hjc
                exact hmono (j + 1) (by omega)
              · cases hjc
          have hlt := hts k (k + 1) (by omega) hk
          unfold labelInForce
          rw [List.filter_eq_self.mpr, List.filter_eq_self.mpr]
          · intro c hc
            simpa using hall c hc
          · intro c hc
            have := hall c hc
            simp only [decide_eq_true_eq]
            omega
        rw [hkk, hw.label hN hts k (le_refl k), hch]
        unfold before
        split
        · next h0 => rw [h0, hN]
        · rfl
      · exact hw.label hN hts i h
  · rw [if_pos (by rw [hw.old]; exact hch), rd_getD ts (k + 1) 0 (by rw [hf.ts]; exact hk), bind_ok,
      rd_chord [] hc0 hc1, bind_ok, rd_chord [] hc0 (by omega), bind_ok, pure_eq, bind_ok]
    dsimp only
    rw [hw.change, changeLoop_eq F d hf.delta hf.rows hk _ (if_neg (by omega)), bind_ok, hchange]
    refine ⟨_, rfl, ?_, ?_, rfl, ?_, ?_⟩
    · dsimp only
      rw [hw.chords, changes_succ, if_pos hch]
      rfl
    · dsimp only
      rw [before_succ]
    · intro hN hts
      obtain ⟨s, hr, ho⟩ := hw.roll hN hts
      dsimp only
      rw [ho]
      obtain ⟨f1, f2, f3⟩ := hr.finish (e := k + 1) (by have := hr.le; omega) (le_refl _)
        (fun i j h1 h2 => hts i j h1 (by omega))
      refine ⟨k + 1, ⟨le_refl _, ?_, f1, f2, f3⟩, ?_⟩
      · intro i h1 h2
        rw [show i = k + 1 by omega]
      · unfold open'
        rw [before_succ]
    · intro hN hts i hi
      dsimp only
      rcases Nat.lt_or_ge k i with h | h
      · obtain rfl : i = k + 1 := by omega
        exact labelInForce_snoc _ _ (le_refl _)
      · rw [labelInForce_append, hw.label hN hts i h]
        intro c hc
        rw [List.mem_singleton.mp hc]
        exact hts i (k + 1) (by omega) hk

/-- The reports. -/
theorem report_ok (F : Fns D) {names : List Str} {chordnotes : List (List Int)} {ts : List Int}
    {v : ChordViterbi.Result D} {n : Nat} (hf : Fit names chordnotes ts v n) (d : D) :
    ∃ f, report F names chordnotes ts v n = .ok f ∧
      f.chords = (ts.getD 0 0, names.getD (v.path.getD 0 0).toNat []) :: changes names ts v.path (n - 1) ++
        [(ts.getD (n - 1) 0, ['N'])] ∧
      f.change = tab n (fun i => (ts.getD i 0, if i < n - 1 then changeOf F v.delta d names.length i else F.lit 0)) ∧
      f.loglikelihood = tab n (fun i => (ts.getD i 0, F.neg (F.log (v.scale.getD i d)))) ∧
      (chordnotes.getD (names.length - 1) [] = [] → (∀ i j : Nat, i < j → j < n → ts.getD i 0 < ts.getD j 0) →
        (∀ x ∈ f.notes, ∃ a b : Nat, a ≤ b ∧ b < n ∧ x.timestamp = ts.getD a 0 ∧ x.duration = ts.getD b 0 - ts.getD a 0 ∧
          x.pitch ∈ chordnotes.getD (before names.length v.path a).toNat [] ∧
          ∀ i, a ≤ i → i < b → before names.length v.path i = before names.length v.path a) ∧
        ∀ i, i < n - 1 → soundingAt f.notes (ts.getD i 0) = chordnotes.getD (before names.length v.path i).toNat []) ∧
      (v.path.getD 0 0 = (names.length : Int) - 1 → (∀ i j : Nat, i < j → j < n → ts.getD i 0 < ts.getD j 0) →
        ∀ i, i < n - 1 → labelInForce f.chords (ts.getD i 0) = some (names.getD (v.path.getD i 0).toNat [])) := by
  have hn := hf.pos
  have hp0 : 0 < v.path.length := by rw [hf.path]; exact hn
  obtain ⟨hc0, hc1⟩ := hf.range _ (getD_mem_path hp0)
  unfold report
  dsimp only
  have z1 : rd ts 0 = .ok (ts.getD 0 0) := rd_getD ts 0 0 (by rw [hf.ts]; exact hn)
  have z2 : rd v.path 0 = .ok (v.path.getD 0 0) := rd_path hp0
  have z3 : wr (List.replicate n (F.lit 0)) 0 (F.lit 0) = .ok (tab n (fun _ => F.lit 0)) := by
    rw [replicate_eq_tab]
    refine (wr_tab n _ 0 _ hn).trans (congrArg Run.ok (tab_congr (fun i _ => ?_)))
    split <;> rfl
  rw [z1, bind_ok, z2, bind_ok, rd_chord [] hc0 hc1, bind_ok, z3, bind_ok, hf.path]
  obtain ⟨w, ew, hw⟩ := loop_inv (body := fun t w => walkFrame F names chordnotes ts v.path v.delta names.length (t + 1) w)
    (k := n - 1) (s := {
      chords := [(ts.getD 0 0, names.getD (v.path.getD 0 0).toNat [])]
      notes := []
      oldchord := (names.length : Int) - 1
      oldnotes := []
      chordchange := tab n (fun _ => F.lit 0) })
    (fun k w => Walked F names chordnotes ts v.path v.delta d n k w) (by
      refine ⟨rfl, rfl, ?_, ?_, ?_⟩
      · dsimp only
        refine tab_congr (fun i _ => ?_)
        rw [if_neg (by omega)]
      · intro hN hts
        refine ⟨0, ⟨le_refl 0, ?_, by simp, by simp, ?_⟩, ?_⟩
        · intro i _ h
          rw [show i = 0 by omega]
        · intro i h
          omega
        · unfold open' before
          rw [if_pos rfl, show ((names.length : Int) - 1).toNat = names.length - 1 by omega, hN]
          rfl
      · intro hN hts i hi
        rw [show i = 0 by omega]
        exact labelInForce_snoc [] _ (le_refl _))
    (fun i hi w hw => walkFrame_ok F hf d (by omega) hw)
  rw [ew, bind_ok]
  have l1 : loop (fun iFrame (ll : List (Int × D)) => do
    let s ← rd v.scale iFrame
    let t ← rd ts iFrame
    pure (ll ++ [(t, F.neg (F.log s))])) n [] =
      .ok ([] ++ tab n (fun i => (ts.getD i 0, F.neg (F.log (v.scale.getD i d))))) := by
    apply loop_push
    intro i hi l
    rw [rd_getD v.scale i d (by rw [hf.scale]; exact hi), bind_ok, rd_getD ts i 0 (by rw [hf.ts]; exact hi), bind_ok]
    rfl
  have l2 : loop (fun iFrame (ch : List (Int × D)) => do
    let t ← rd ts iFrame
    let x ← rd w.chordchange iFrame
    pure (ch ++ [(t, x)])) n [] =
      .ok ([] ++ tab n (fun i => (ts.getD i 0, if i < n - 1 then changeOf F v.delta d names.length i else F.lit 0))) := by
    apply loop_push
    intro i hi l
    rw [rd_getD ts i 0 (by rw [hf.ts]; exact hi), bind_ok, hw.change, rd_tab _ _ _ hi, bind_ok]
    rfl
  have l3 : rd ts ((ts.length : Int) - 1) = .ok (ts.getD (n - 1) 0) := by
    rw [hf.ts, show ((n : Int) - 1) = ((n - 1 : Nat) : Int) by omega]
    exact rd_getD ts (n - 1) 0 (by rw [hf.ts]; omega)
  rw [l1, bind_ok, l3, bind_ok, l2, bind_ok]
  refine ⟨_, rfl, ?_, rfl, rfl, ?_, ?_⟩
  · dsimp only
    rw [hw.chords]
  · intro hN hts
    dsimp only
    obtain ⟨s, hr, ho⟩ := hw.roll hN hts
    rw [ho]
    have hle := hr.le
    rcases Nat.lt_or_ge s (n - 1) with hs | hs
    · obtain ⟨f1, f2, f3⟩ := hr.finish (e := n - 1) hs (by omega) (fun i j h1 h2 => hts i j h1 (by omega))
      refine ⟨?_, f3⟩
      intro x hx
      rcases List.mem_append.mp hx with hx | hx
      · obtain ⟨a, b, h1, h2, h3⟩ := hr.span x hx
        exact ⟨a, b, by omega, by omega, h3⟩
      · rw [finish_open] at hx
        obtain ⟨p, hp, rfl⟩ := List.mem_map.1 hx
        exact ⟨s, n - 1, by omega, by omega, rfl, rfl, hp, fun i h1 h2 => hr.same i h1 (by omega)⟩
    · obtain rfl : s = n - 1 := by omega
      rw [finish_open]
      refine ⟨?_, ?_⟩
      · intro x hx
        rcases List.mem_append.mp hx with hx | hx
        · obtain ⟨a, b, h1, h2, h3⟩ := hr.span x hx
          exact ⟨a, b, by omega, by omega, h3⟩
        · obtain ⟨p, hp, rfl⟩ := List.mem_map.1 hx
          exact ⟨n - 1, n - 1, le_refl _, by omega, rfl, rfl, hp, fun i h1 h2 => by omega⟩
      · intro i hi
        rw [soundingAt_append, hr.sounds i hi, soundingAt_none, List.append_nil]
        intro x hx
        obtain ⟨p, _, rfl⟩ := List.mem_map.1 hx
        left
        exact hts i (n - 1) hi (by omega)
  · intro hN hts i hi
    dsimp only
    rw [labelInForce_append, hw.label hN hts i (by omega)]
    intro c hc
    rw [List.mem_singleton.mp hc]
    exact hts i (n - 1) hi (by omega)

end JKD.Chordino
