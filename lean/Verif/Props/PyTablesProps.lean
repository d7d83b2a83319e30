import Verif.Props.GaProps
import Verif.Model.PyTables
import Verif.Model.KeyProfile
import Verif.Model.KeyTransition
/-
C57: the tables of the optimiser against those of the program; concrete runs of the optimiser on them.
-/

namespace JKD.Opt

/-! ### The state at the start of ga.py -/

/-- The dictionaries as they are after the modules are imported. -/
def imported (rng : List (Draw Rat)) : St Rat where
  kp := fun n => match n with
    | .given s => pyProfiles.lookup s
    | _ => none
  kt := fun n => match n with
    | .given s => pyTransitions.lookup s
    | _ => none
  ratio := initialRatio
  genKp := 0
  genKt := 0
  evoKp := 0
  evoKt := 0
  warns := []
  rng := rng

theorem lookup_mem {V : Type} (k : String) (v : V) : ∀ l : List (String × V), l.lookup k = some v → (k, v) ∈ l := by
  intro l
  induction l with
  | nil => intro h; cases h
  | cons p l ih =>
    intro h
    obtain ⟨a, b⟩ := p
    rw [List.lookup_cons] at h
    split at h
    · rename_i e
      have : k = a := by simpa using e
      cases h
      subst this
      exact List.mem_cons_self
    · exact List.mem_cons_of_mem _ (ih h)

theorem pyProfiles_good : ∀ p ∈ pyProfiles, GoodProfile (1 / 400 : Rat) p.2 := by
  unfold GoodProfile
  decide +kernel

theorem pyTransitions_good : ∀ p ∈ pyTransitions, GoodTransition (1 / 1000000000 : Rat) p.2 := by
  unfold GoodTransition
  decide +kernel

/-- **C57, tables of the optimiser.**  Right after import every stored profile has 24 non-negative entries and
two halves that sum to 1 up to 1/400, every stored transition has 24 non-negative entries that sum to 1 up to
1e-9, and no generated name is taken: the hypotheses of C46, C47 and C56 hold at the start of ga.py. -/
theorem C57_imported (rng : List (Draw Rat)) (hr : ∀ d ∈ rng, 0 ≤ d.unit ∧ d.unit < 1) :
    WF (1 / 400) (imported rng) ∧ ∀ n t, (imported rng).kt n = some t → GoodTransition (1 / 1000000000) t := by
  have hkt : ∀ n t, (imported rng).kt n = some t → GoodTransition (1 / 1000000000) t := by
    intro n t h
    cases n with
    | given s => exact pyTransitions_good _ (lookup_mem s t _ h)
    | _ => cases h
  refine ⟨⟨?_, ?_, fun _ _ => rfl, fun _ _ => rfl, fun _ _ => rfl, fun _ _ => rfl, fun _ _ => rfl, fun _ _ => rfl,
    fun _ _ => rfl, ?_, fun _ h => absurd rfl h, fun _ h => absurd rfl h, hr⟩, hkt⟩
  · intro n t h
    cases n with
    | given s => exact pyProfiles_good _ (lookup_mem s t _ h)
    | _ => cases h
  · intro n t h
    obtain ⟨h1, h2, h3⟩ := hkt n t h
    exact ⟨h1, h2, h3.trans (by norm_num)⟩
  · intro n r h
    change initialRatio n = some r at h
    unfold initialRatio at h
    split at h
    · cases h; norm_num
    · split at h
      · cases h; norm_num
      · cases h

/-- **C57, profiles.**  Every profile of the program (src/keyprofile.cc) has a profile of the same name in the
optimiser, with the same numbers in its half: what the optimiser grades is what the program would use. -/
theorem C57_profiles :
    (∀ p ∈ KeyProfile.majBuiltins, ∃ t, pyProfiles.lookup p.1 = some t ∧ t.take 12 = p.2) ∧
    (∀ p ∈ KeyProfile.minBuiltins, ∃ t, pyProfiles.lookup p.1 = some t ∧ t.drop 12 = p.2) := by
  have h1 : ∀ p ∈ KeyProfile.majBuiltins, (pyProfiles.lookup p.1).map (List.take 12) = some p.2 := by decide +kernel
  have h2 : ∀ p ∈ KeyProfile.minBuiltins, (pyProfiles.lookup p.1).map (List.drop 12) = some p.2 := by decide +kernel
  refine ⟨fun p hp => ?_, fun p hp => ?_⟩
  · obtain ⟨t, h, e⟩ := Option.map_eq_some_iff.1 (h1 p hp)
    exact ⟨t, h, e⟩
  · obtain ⟨t, h, e⟩ := Option.map_eq_some_iff.1 (h2 p hp)
    exact ⟨t, h, e⟩

/-- **C57, transitions.**  The three ratio tables of the program are the optimiser's tables of the same name with
the prefix 'ktg_'. -/
theorem C57_transitions :
    ∀ n ∈ ["linear", "exponential2", "exponential10"], ∃ t,
      KeyTransition.builtins.lookup n = some t ∧ pyTransitions.lookup ("ktg_" ++ n) = some t := by
  have h : ∀ n ∈ ["linear", "exponential2", "exponential10"],
      (KeyTransition.builtins.lookup n).isSome = true ∧
      KeyTransition.builtins.lookup n = pyTransitions.lookup ("ktg_" ++ n) := by decide +kernel
  intro n hn
  obtain ⟨h1, h2⟩ := h n hn
  obtain ⟨t, ht⟩ := Option.isSome_iff_exists.1 h1
  exact ⟨t, ht, h2 ▸ ht⟩

/-- The table `generateGeometric` makes. -/
def geo (r : Rat) : List Rat :=
  (geometricFill r (List.replicate 24 0) 0 keyGroups).map
    (fun x => x / (geometricFill r (List.replicate 24 0) 0 keyGroups).sum)

theorem generateGeometric_run (r : Rat) (h : 0 < r) (s : St Rat) : generateGeometric r s = .done (geo r, s) := by
  unfold generateGeometric normalise geo
  rw [if_neg (geometric_sum_pos r h).ne']
  rfl

def close (t g : List Rat) : Bool :=
  (List.range 24).all (fun i => decide (|t.getD i 0 - g.getD i 0| ≤ 1 / 1000000000000))

/-- **C57, names say the ratio.**  The table 'ktg_exponentialN' is, up to 1e-12 in each entry, the geometric table
that `generate_geometric_key_transition` makes for the ratio N. -/
theorem C57_geometric (s : St Rat) :
    ∀ p ∈ [("ktg_exponential2", (2 : Rat)), ("ktg_exponential4", 4), ("ktg_exponential5", 5), ("ktg_exponential10", 10),
      ("ktg_exponential12", 12), ("ktg_exponential15", 15), ("ktg_exponential20", 20)],
    ∃ t g, pyTransitions.lookup p.1 = some t ∧ generateGeometric p.2 s = .done (g, s) ∧ t.length = 24 ∧
      g.length = 24 ∧ ∀ i < 24, |t.getD i 0 - g.getD i 0| ≤ 1 / 1000000000000 := by
  have h : ∀ p ∈ [("ktg_exponential2", (2 : Rat)), ("ktg_exponential4", 4), ("ktg_exponential5", 5), ("ktg_exponential10", 10),
      ("ktg_exponential12", 12), ("ktg_exponential15", 15), ("ktg_exponential20", 20)],
      ((pyTransitions.lookup p.1).any (fun t => decide (t.length = 24) && close t (geo p.2))) = true ∧
      0 < p.2 ∧ (geo p.2).length = 24 := by
    decide +kernel
  intro p hp
  obtain ⟨h1, h2, h3⟩ := h p hp
  have hrun := generateGeometric_run p.2 h2 s
  generalize geo p.2 = g at h1 h3 hrun
  rw [Option.any_eq_true] at h1
  obtain ⟨t, ht, h4⟩ := h1
  rw [Bool.and_eq_true, decide_eq_true_eq] at h4
  refine ⟨t, g, ht, hrun, h4.1, h3, ?_⟩
  intro i hi
  have h5 := (List.all_eq_true.1 h4.2) i (List.mem_range.2 hi)
  exact of_decide_eq_true h5

/-! ### Concrete runs -/

def Out.isDone {α : Type} : Out α → Bool
  | .done _ => true
  | _ => false

/-- Outcomes that vary. -/
def someDraws : List (Draw Rat) := (List.range 800).map (fun i => ⟨i * i + i / 3 + 1, ((i * 7 % 10 : Nat) : Rat) / 10⟩)

/-- The populations of ga.py (207-221). -/
def mainProfiles : List Name := ["sapp", "temperley", "krumhansl_kessler", "aarden_essen", "albrecht_shanahan1",
  "albrecht_shanahan2", "bellman_budge", "simple_natural_minor", "simple_harmonic_minor", "simple_melodic_minor"].map .given

def mainTransitions : List Name := ["ktg_exponential5", "ktg_exponential10", "ktg_exponential15"].map .given

/-- C46, C47: a generation on the populations of ga.py that finishes, with a crossover, mutations and new members. -/
example : (evolveProfiles 50 100 mainProfiles (imported someDraws)).isDone = true ∧
    (evolveTransitions 50 256 mainTransitions (imported someDraws)).isDone = true := by decide +kernel

/-- C47 -/
example : (generateTransition 256 (imported someDraws)).isDone = true := by decide +kernel

/-- Two files; a profile that is not one of the initial ones scores 1 on both. -/
def newIsBetter : Bench Rat where
  File := Bool
  files := [true, false]
  score := fun f kp _ => if (pyProfiles.map (fun p => some p.2)).contains kp then (if f then 1 / 2 else 3 / 10) else 1

/-- C48, C56: a run of the whole search that finishes. -/
example : ((start newIsBetter mainProfiles mainTransitions >>= mainLoop newIsBetter ⟨50, 100, 256, 3⟩ 5 : Py Rat (Ga Rat))
    (imported someDraws)).isDone = true := by decide +kernel

/-- C48: scores in [-1, 1]. -/
example : ∀ f a b, |newIsBetter.score f a b| ≤ 1 := by
  intro f a b
  simp only [newIsBetter]
  split_ifs <;> norm_num

/-- C56: its hypotheses for the populations of ga.py. -/
example (rng : List (Draw Rat)) : mainProfiles.Nodup ∧ mainTransitions.Nodup ∧
    (∀ k ∈ mainProfiles, ∃ t, (imported rng).kp k = some t) ∧
    (∀ k ∈ mainTransitions, ∃ t, (imported rng).kt k = some t) := by
  refine ⟨by decide, by decide, ?_, ?_⟩
  · have : ∀ k ∈ mainProfiles, ((imported rng).kp k).isSome = true := by
      change ∀ k ∈ mainProfiles, ((imported []).kp k).isSome = true
      decide +kernel
    exact fun k hk => Option.isSome_iff_exists.1 (this k hk)
  · have : ∀ k ∈ mainTransitions, ((imported rng).kt k).isSome = true := by
      change ∀ k ∈ mainTransitions, ((imported []).kt k).isSome = true
      decide +kernel
    exact fun k hk => Option.isSome_iff_exists.1 (this k hk)

end JKD.Opt
