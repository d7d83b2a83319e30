import Verif.Model.PyEnsemble
import Verif.Props.DatasetProps
/-
C45: the feature vector of the ensemble.
-/

namespace JKD.Py

variable {K : Type}

/-! ### Specification -/

/-- What a run contributes: the 24 numbers it printed, or 24 times the penalty. -/
def Contribution (R : Runner K) (penalty : K) (file : Str) (kp kt : Option (List K)) (k : Nat) : Option K :=
  if (R.output file kp kt).length = 24 then ((R.output file kp kt)[k]?).bind R.toFloat
  else some penalty

/-- The program prints numbers whenever it prints 24 words, and `float('-1000000')` is the penalty. -/
structure Numeric (R : Runner K) (penalty : K) : Prop where
  penalty : R.toFloat "-1000000".toList = some penalty
  words : ∀ file kp kt, (R.output file kp kt).length = 24 → ∀ w ∈ R.output file kp kt, ∃ x, R.toFloat w = some x

/-- The mixed names tell their parts apart, and none of them is the name of a profile. -/
def Unambiguous (names : List Str) : Prop :=
  (∀ a ∈ names, ∀ b ∈ names, ∀ c ∈ names, ∀ d ∈ names, mixName a b = mixName c d → a = c ∧ b = d) ∧
  (∀ a ∈ names, ∀ b ∈ names, mixName a b ∉ names)

/-! ### Lists -/

theorem floats_ok (f : Str → Option K) : ∀ ws : List Str, (∀ w ∈ ws, ∃ x, f w = some x) →
    ∃ xs, floats f ws = .ok xs ∧ xs.length = ws.length ∧ ∀ k : Nat, xs[k]? = (ws[k]?).bind f := by
  intro ws
  induction ws with
  | nil => intro _; exact ⟨[], rfl, rfl, by simp⟩
  | cons w ws ih =>
    intro h
    obtain ⟨x, hx⟩ := h w (by simp)
    obtain ⟨xs, h1, h2, h3⟩ := ih (fun w hw => h w (by simp [hw]))
    refine ⟨x :: xs, ?_, by simp [h2], ?_⟩
    · unfold floats
      rw [hx, h1]
      rfl
    · intro k
      cases k with
      | zero => simp [hx]
      | succ k => simpa using h3 k

theorem run_ok (R : Runner K) (penalty : K) (hR : Numeric R penalty) (kp : Store K) (file : Str) (m : Member) :
    ∃ xs, runKeydetection R kp file m = .ok xs ∧ xs.length = 24 ∧
      ∀ k < 24, xs[k]? = Contribution R penalty file (m.1.bind kp) (R.kt m.2) k := by
  unfold runKeydetection Contribution
  by_cases h : (R.output file (m.1.bind kp) (R.kt m.2)).length = 24
  · simp only [h, ne_eq, not_true_eq_false, if_false, if_true]
    obtain ⟨xs, h1, h2, h3⟩ := floats_ok R.toFloat _ (hR.words file (m.1.bind kp) (R.kt m.2) h)
    exact ⟨xs, h1, by rw [h2, h], fun k _ => h3 k⟩
  · simp only [h, ne_eq, not_false_eq_true, if_false, if_true]
    obtain ⟨xs, h1, h2, h3⟩ := floats_ok R.toFloat (List.replicate 24 "-1000000".toList)
      (fun w hw => ⟨penalty, by rw [List.eq_of_mem_replicate hw]; exact hR.penalty⟩)
    refine ⟨xs, h1, by rw [h2]; simp only [List.length_replicate], ?_⟩
    intro k hk
    rw [h3 k, List.getElem?_replicate, if_pos hk]
    exact hR.penalty

theorem mapPy_ok {α β : Type} (f : α → PyRes β) (P : α → β → Prop) : ∀ l : List α,
    (∀ a ∈ l, ∃ b, f a = .ok b ∧ P a b) →
    ∃ bs, mapPy f l = .ok bs ∧ bs.length = l.length ∧ ∀ (i : Nat) (a : α), l[i]? = some a → ∃ b, bs[i]? = some b ∧ P a b := by
  intro l
  induction l with
  | nil => intro _; exact ⟨[], rfl, rfl, by simp⟩
  | cons a l ih =>
    intro h
    obtain ⟨b, hb, hp⟩ := h a (by simp)
    obtain ⟨bs, h1, h2, h3⟩ := ih (fun a ha => h a (by simp [ha]))
    refine ⟨b :: bs, ?_, by simp [h2], ?_⟩
    · unfold mapPy
      rw [hb, h1]
      rfl
    · intro i c hc
      cases i with
      | zero =>
        simp only [List.getElem?_cons_zero, Option.some.injEq] at hc
        subst hc
        exact ⟨b, by simp, hp⟩
      | succ i => simpa using h3 i c (by simpa using hc)

/-- Blocks of equal length, one after the other. -/
theorem flatten_block {α : Type} (n : Nat) (rows : List (List α)) (h : ∀ r ∈ rows, r.length = n) :
    rows.flatten.length = rows.length * n ∧
    ∀ i k, k < n → rows.flatten[i * n + k]? = (rows[i]?).bind (fun r => r[k]?) := by
  induction rows with
  | nil => simp
  | cons r rows ih =>
    have hr := h r (by simp)
    obtain ⟨h1, h2⟩ := ih (fun r hr => h r (by simp [hr]))
    refine ⟨by simp [h1, hr]; ring, ?_⟩
    intro i k hk
    rw [List.flatten_cons]
    cases i with
    | zero =>
      rw [Nat.zero_mul, Nat.zero_add, List.getElem?_append_left (by omega)]
      simp
    | succ i =>
      have : (i + 1) * n + k = n + (i * n + k) := by ring
      rw [this, List.getElem?_append_right (by omega), hr, Nat.add_sub_cancel_left, h2 i k hk]
      simp

theorem product_eq {α β : Type} (a : List α) (b : List β) :
    product a b = (a.map (fun x => b.map (fun y => (x, y)))).flatten := by
  unfold product
  rw [List.flatMap_def]

/-- Product order. -/
theorem product_get {α β : Type} (a : List α) (b : List β) :
    (product a b).length = a.length * b.length ∧
    ∀ i j x y, a[i]? = some x → b[j]? = some y → (product a b)[i * b.length + j]? = some (x, y) := by
  rw [product_eq]
  by_cases hb : b.length = 0
  · have : b = [] := List.length_eq_zero_iff.1 hb
    subst this
    refine ⟨by simp, ?_⟩
    intro i j x y _ h
    simp at h
  · obtain ⟨h1, h2⟩ := flatten_block b.length (a.map (fun x => b.map (fun y => (x, y)))) (by
      intro r hr
      obtain ⟨x, _, rfl⟩ := List.mem_map.1 hr
      simp)
    refine ⟨by simpa using h1, ?_⟩
    intro i j x y hx hy
    obtain ⟨hj, _⟩ := List.getElem?_eq_some_iff.1 hy
    rw [h2 i j hj, List.getElem?_map, hx]
    simp [hy]

/-! ### The theorems -/

/-- The members and the tables behind them, from the attribute and the dictionary. -/
theorem evaluate_members (R : Runner K) (penalty : K) (hR : Numeric R penalty) (kp : Store K) (file : Str)
    (members : List Member) :
    ∃ xs, mapPy (runKeydetection R kp file) members = .ok xs ∧ xs.length = members.length ∧
      (flat xs).length = members.length * 24 ∧
      ∀ (i : Nat) (m : Member) (k : Nat), members[i]? = some m → k < 24 →
        (flat xs)[i * 24 + k]? = Contribution R penalty file (m.1.bind kp) (R.kt m.2) k := by
  obtain ⟨xs, h1, h2, h3⟩ := mapPy_ok (runKeydetection R kp file)
    (fun m b => b.length = 24 ∧ ∀ k < 24, b[k]? = Contribution R penalty file (m.1.bind kp) (R.kt m.2) k) members
    (fun m _ => by
      obtain ⟨b, h1, h2, h3⟩ := run_ok R penalty hR kp file m
      exact ⟨b, h1, h2, h3⟩)
  have hlen : ∀ b ∈ xs, b.length = 24 := by
    intro b hb
    obtain ⟨i, hi, rfl⟩ := List.getElem_of_mem hb
    obtain ⟨b', hb', hp, _⟩ := h3 i members[i] (List.getElem?_eq_getElem (by omega))
    rw [List.getElem?_eq_getElem hi] at hb'
    cases hb'
    exact hp
  obtain ⟨f1, f2⟩ := flatten_block 24 xs hlen
  refine ⟨xs, h1, h2, by rw [flat, f1, h2], ?_⟩
  intro i m k hm hk
  obtain ⟨b, hb, _, hp⟩ := h3 i m hm
  rw [flat, f2 i k hk, hb]
  exact hp k hk

/-- **C45, plain ensemble.**  For every list of profiles and transitions, stored or not, whatever the runs print:
`evaluate` succeeds, the flat feature vector has 24 entries per pair, and the entries for profile `i` and
transition `j` start at 24·(i·|transitions| + j): the printed numbers, or 24 penalties for a run that failed. -/
theorem C45_plain (R : Runner K) (penalty : K) (hR : Numeric R penalty) (kp : Store K) (profiles transitions : List Str)
    (file : Str) :
    ∃ xs e, (Ensembler.new profiles transitions).evaluate R kp file false = .ok (xs, e, kp) ∧
      (flat xs).length = 24 * (profiles.length * transitions.length) ∧
      ∀ i j k p t, profiles[i]? = some p → transitions[j]? = some t → k < 24 →
        (flat xs)[24 * (i * transitions.length + j) + k]? = Contribution R penalty file (kp p) (R.kt t) k := by
  obtain ⟨xs, h1, h2, h3, h4⟩ := evaluate_members R penalty hR kp file (product (profiles.map some) transitions)
  obtain ⟨p1, p2⟩ := product_get (profiles.map some) transitions
  refine ⟨xs, ⟨profiles, transitions, some (product (profiles.map some) transitions)⟩, ?_, ?_, ?_⟩
  · change (mapPy (runKeydetection R kp file) (product (profiles.map some) transitions) >>= _) = _
    rw [h1]
    rfl
  · rw [h3, p1, List.length_map]
    ring
  · intro i j k p t hp ht hk
    have := h4 (i * transitions.length + j) (some p, t) k (p2 i j (some p) t (by simp [hp]) ht) hk
    rw [Nat.mul_comm 24]
    exact this

/-- The dictionary after all mixes. -/
theorem mixAll_spec (names : List Str) (hu : Unambiguous names) (kp₀ : Store K)
    (hh : ∀ n ∈ names, ∃ t, kp₀ n = some t) :
    ∀ (pairs : List (Str × Str)) (kp : Store K), (∀ p ∈ pairs, p.1 ∈ names ∧ p.2 ∈ names) →
      (∀ n ∈ names, kp n = kp₀ n) →
      (mixAll kp pairs).1 = pairs.map (fun p => some (mixName p.1 p.2)) ∧
      (∀ n ∈ names, (mixAll kp pairs).2 n = kp₀ n) ∧
      (∀ a ∈ names, ∀ b ∈ names, ((a, b) ∈ pairs → ∀ ta tb, kp₀ a = some ta → kp₀ b = some tb →
        (mixAll kp pairs).2 (mixName a b) = some (ta.take 12 ++ tb.drop 12)) ∧
        ((a, b) ∉ pairs → (mixAll kp pairs).2 (mixName a b) = kp (mixName a b))) := by
  intro pairs
  induction pairs with
  | nil =>
    intro kp _ hk
    exact ⟨rfl, hk, fun a _ b _ => ⟨fun h => by simp at h, fun _ => rfl⟩⟩
  | cons p ps ih =>
    intro kp hp hk
    obtain ⟨p1, p2⟩ := p
    obtain ⟨m1, m2⟩ := hp (p1, p2) (by simp)
    obtain ⟨t1, e1⟩ := hh p1 m1
    obtain ⟨t2, e2⟩ := hh p2 m2
    have hmix : mix kp p1 p2 = (some (mixName p1 p2),
        fun n => if n = mixName p1 p2 then some (t1.take 12 ++ t2.drop 12) else kp n) := by
      unfold mix
      rw [hk p1 m1, hk p2 m2, e1, e2]
    have hk' : ∀ n ∈ names, (mix kp p1 p2).2 n = kp₀ n := by
      intro n hn
      rw [hmix]
      have : n ≠ mixName p1 p2 := by rintro rfl; exact hu.2 p1 m1 p2 m2 hn
      simp only [if_neg this]
      exact hk n hn
    obtain ⟨i1, i2, i3⟩ := ih (mix kp p1 p2).2 (fun p h => hp p (by simp [h])) hk'
    refine ⟨?_, i2, ?_⟩
    · simp only [mixAll, List.map_cons]
      rw [i1, hmix]
    · intro a ha b hb
      obtain ⟨j1, j2⟩ := i3 a ha b hb
      refine ⟨?_, ?_⟩
      · intro hmem ta tb ea eb
        by_cases hin : (a, b) ∈ ps
        · exact j1 hin ta tb ea eb
        · have heq : (a, b) = (p1, p2) := by
            rcases List.mem_cons.1 hmem with h | h
            · exact h
            · exact absurd h hin
          cases heq
          change (mixAll (mix kp p1 p2).2 ps).2 (mixName p1 p2) = _
          rw [j2 hin, hmix]
          rw [e1] at ea
          rw [e2] at eb
          cases ea; cases eb
          simp
      · intro hnot
        have h1 : (a, b) ∉ ps := fun h => hnot (by simp [h])
        have h2 : (a, b) ≠ (p1, p2) := fun h => hnot (by simp [h])
        change (mixAll (mix kp p1 p2).2 ps).2 (mixName a b) = _
        rw [j2 h1, hmix]
        have : mixName a b ≠ mixName p1 p2 := by
          intro h
          obtain ⟨q1, q2⟩ := hu.1 a ha b hb p1 m1 p2 m2 h
          exact h2 (by rw [q1, q2])
        simp only [if_neg this]

/-- **C45, mixed ensemble.**  With stored profiles whose mixed names are unambiguous, there are 24 entries per
major profile `a`, minor profile `b` and transition `j`, at 24·((a·n + b)·|transitions| + j), and they are what
the program prints for the table that joins the major half of `a` and the minor half of `b`. -/
theorem C45_mixed (R : Runner K) (penalty : K) (hR : Numeric R penalty) (kp : Store K) (profiles transitions : List Str)
    (hu : Unambiguous profiles) (hh : ∀ n ∈ profiles, ∃ t, kp n = some t) (file : Str) :
    ∃ xs e kp', (Ensembler.new profiles transitions).evaluate R kp file true = .ok (xs, e, kp') ∧
      (flat xs).length = 24 * (profiles.length * profiles.length * transitions.length) ∧
      ∀ a b j k p q t tp tq, profiles[a]? = some p → profiles[b]? = some q → transitions[j]? = some t →
        kp p = some tp → kp q = some tq → k < 24 →
        (flat xs)[24 * ((a * profiles.length + b) * transitions.length + j) + k]? =
          Contribution R penalty file (some (tp.take 12 ++ tq.drop 12)) (R.kt t) k := by
  obtain ⟨m1, m2, m3⟩ := mixAll_spec profiles hu kp hh (product profiles profiles) kp (by
    intro p hp
    unfold product at hp
    obtain ⟨x, hx, hp⟩ := List.mem_flatMap.1 hp
    obtain ⟨y, hy, rfl⟩ := List.mem_map.1 hp
    exact ⟨hx, hy⟩) (fun _ _ => rfl)
  obtain ⟨p1, p2⟩ := product_get profiles profiles
  obtain ⟨q1, q2⟩ := product_get (mixAll kp (product profiles profiles)).1 transitions
  obtain ⟨xs, h1, h2, h3, h4⟩ := evaluate_members R penalty hR (mixAll kp (product profiles profiles)).2 file
    (product (mixAll kp (product profiles profiles)).1 transitions)
  refine ⟨xs, ⟨profiles, transitions, some (product (mixAll kp (product profiles profiles)).1 transitions)⟩,
    (mixAll kp (product profiles profiles)).2, ?_, ?_, ?_⟩
  · change (mapPy (runKeydetection R (mixAll kp (product profiles profiles)).2 file)
      (product (mixAll kp (product profiles profiles)).1 transitions) >>= _) = _
    rw [h1]
    rfl
  · rw [h3, q1, m1, List.length_map, p1]
    ring
  · intro a b j k p q t tp tq hp hq ht etp etq hk
    have hpm := List.mem_of_getElem? hp
    have hqm := List.mem_of_getElem? hq
    have hpair := p2 a b p q hp hq
    have hmem : (mixAll kp (product profiles profiles)).1[a * profiles.length + b]? = some (some (mixName p q)) := by
      rw [m1, List.getElem?_map, hpair]
      rfl
    have := h4 ((a * profiles.length + b) * transitions.length + j) (some (mixName p q), t) k
      (q2 _ j _ t hmem ht) hk
    rw [Nat.mul_comm 24, this]
    simp only [Option.bind_some]
    rw [(m3 p hpm q hqm).1 (List.mem_of_getElem? hpair) tp tq etp etq]

/-- **C45 violated, the flag.**  The members are made once: after any call, a later call returns what the first
flag says, whatever flag it is given. -/
theorem C45_flag_violated (R : Runner K) (e : Ensembler) (kp : Store K) (file file' : Str) (flag flag' flag'' : Bool)
    (xs : List (List K)) (e' : Ensembler) (kp' : Store K) (h : e.evaluate R kp file flag = .ok (xs, e', kp')) :
    e'.evaluate R kp' file' flag' = e'.evaluate R kp' file' flag'' := by
  have hs : e'.ensemble.isSome = true := by
    unfold Ensembler.evaluate at h
    cases he : e.ensemble with
    | some m =>
      rw [he] at h
      simp only at h
      obtain ⟨ys, _, h2⟩ := PyRes.bind_eq_ok.1 h
      cases h2
      rw [he]
      rfl
    | none =>
      rw [he] at h
      simp only at h
      obtain ⟨ys, _, h2⟩ := PyRes.bind_eq_ok.1 h
      cases h2
      unfold Ensembler.getEnsemble
      split <;> rfl
  obtain ⟨m, hm⟩ := Option.isSome_iff_exists.1 hs
  unfold Ensembler.evaluate
  rw [hm]

/-- **C45 violated, words that are no numbers.**  If a run prints 24 words and one of them is not a number, the
call ends in ValueError: no feature vector, although a run with 23 words would only be penalised. -/
theorem C45_word_violated (R : Runner K) (kp : Store K) (p t file : Str)
    (h : (R.output file (kp p) (R.kt t)).length = 24) (w : Str) (hw : w ∈ R.output file (kp p) (R.kt t))
    (hf : R.toFloat w = none) :
    (Ensembler.new [p] [t]).evaluate R kp file false = .raise "ValueError" := by
  have hfl : ∀ ws : List Str, w ∈ ws → floats R.toFloat ws = .raise "ValueError" := by
    intro ws
    induction ws with
    | nil => intro h; simp at h
    | cons v ws ih =>
      intro hv
      unfold floats
      cases hv' : R.toFloat v with
      | none => rfl
      | some x =>
        rcases List.mem_cons.1 hv with rfl | hv
        · rw [hf] at hv'; cases hv'
        · rw [ih hv]; rfl
  have hrun : runKeydetection R kp file (some p, t) = .raise "ValueError" := by
    unfold runKeydetection
    simp only [Option.bind_some, h, ne_eq, not_true_eq_false, if_false]
    exact hfl _ hw
  change (mapPy (runKeydetection R kp file) [(some p, t)] >>= _) = _
  unfold mapPy
  rw [hrun]
  rfl

/-- A dictionary with the profiles "a" (all 1) and "a_a" (all 2). -/
def clashStore : Store Nat := fun n =>
  if n = ['a'] then some (List.replicate 24 1) else if n = ['a', '_', 'a'] then some (List.replicate 24 2) else none

/-- **C45 violated, ambiguous names.**  Mixing "a" with itself overwrites a profile called "a_a", and mixing "a"
with "a_a" gives the same name as mixing "a_a" with "a": the members (a, a_a) and (a_a, a) are graded with
one table, which is neither of the two mixtures. -/
theorem C45_names_violated :
    let r := mixAll clashStore (product [['a'], ['a', '_', 'a']] [['a'], ['a', '_', 'a']])
    r.1[1]? = r.1[2]? ∧
    (r.1[1]?.bind id).bind r.2 = some (List.replicate 24 1) ∧
    (r.1[1]?.bind id).bind r.2 ≠ some ((List.replicate 12 1) ++ (List.replicate 12 2)) := by
  decide +kernel

/-! ### Concrete cases -/

/-- The profiles of justkeydding_ensemble.py (28-38). -/
def ensembleProfiles : List Str := ["aarden_essen", "temperley", "krumhansl_kessler", "bellman_budge", "albrecht_shanahan1",
  "albrecht_shanahan2", "sapp", "simple_natural_minor", "simple_harmonic_minor", "simple_melodic_minor"].map String.toList

/-- C45: the profiles of the ensemble program have unambiguous mixed names. -/
example : Unambiguous ensembleProfiles := by
  have h1 : (product ensembleProfiles ensembleProfiles).Nodup ∧
      ((product ensembleProfiles ensembleProfiles).map (fun p => mixName p.1 p.2)).Nodup := by decide +kernel
  have h2 : ∀ a ∈ ensembleProfiles, ∀ b ∈ ensembleProfiles, mixName a b ∉ ensembleProfiles := by decide +kernel
  refine ⟨?_, h2⟩
  intro a ha b hb c hc d hd h
  have hm : ∀ x ∈ ensembleProfiles, ∀ y ∈ ensembleProfiles, (x, y) ∈ product ensembleProfiles ensembleProfiles := by
    intro x hx y hy
    exact List.mem_flatMap.2 ⟨x, hx, List.mem_map.2 ⟨y, hy, rfl⟩⟩
  have := List.inj_on_of_nodup_map h1.2 (hm a ha b hb) (hm c hc d hd) h
  cases this
  exact ⟨rfl, rfl⟩

/-- C45: a program that prints 24 numbers for one file and fails on another. -/
def sampleRunner : Runner Nat where
  output := fun f _ _ => if f = ['x'] then List.replicate 24 ['7'] else []
  toFloat := fun w => some w.length
  kt := fun _ => none

example : Numeric sampleRunner 8 := ⟨rfl, fun _ _ _ _ w _ => ⟨w.length, rfl⟩⟩

end JKD.Py
