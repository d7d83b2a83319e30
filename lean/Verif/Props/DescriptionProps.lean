import Verif.Model.PluginLibrary
import Verif.Spec.Description
import Verif.Props.OutputsProps
import Verif.Props.PluginParamsProps
import Verif.Props.TuningProps
/-
C155: the plug-ins and the description of them that is shipped (nnls-chroma.n3).
-/

namespace JKD.Library

open JKD.Chroma

variable {D T : Type}

/-! ### Specification -/

/-- The values that the description allows for a parameter, as `float`s. -/
def Permitted (lit : ℚ → ℚ) (d : Description.Parameter) (v : ℚ) : Prop :=
  lit d.minValue ≤ v ∧ v ≤ lit d.maxValue ∧ ∀ q, d.quantizeStep = some q → ∃ k : ℕ, v = lit d.minValue + k * lit q

/-- A plug-in has a parameter as it is described: it lists it, a new plug-in has the default, and whatever is permitted
can be set and is then read, all else being as before. -/
structure HasParameter (lit : ℚ → ℚ) (P : Plugin) (d : Description.Parameter) : Prop where
  listed : d.identifier ∈ (P.parameters lit).map PluginParams.Descriptor.identifier
  default : PluginParams.getParameter lit (PluginParams.Values.new lit) d.identifier = lit d.defaultValue
  set : ∀ p v, Permitted lit d v → ∃ p', PluginParams.setParameter p d.identifier v = .ok p' ∧
    PluginParams.getParameter lit p' d.identifier = v ∧
    ∀ id, id ≠ d.identifier → PluginParams.getParameter lit p' id = PluginParams.getParameter lit p id

/-- The output with an identifier is the one with a number. -/
def Numbered (ds : List Outputs.Descriptor) (identifier : String) (n : Nat) : Prop :=
  ∀ m, (ds[m]?).map Outputs.Descriptor.identifier = some identifier ↔ m = n

/-- Features - times and values - that are as described, for blocks at given times. -/
structure Delivers (o : Description.Output) (times : List T) (l : List (T × List D)) : Prop where
  bins : ∀ f ∈ l, f.2.length = o.binCount
  dense : o.dense = true → l.map Prod.fst = times

/-- The names of the bins in the plug-in's own description of an output. -/
def ownNames (ds : List Outputs.Descriptor) (n : Nat) : Option (List Str) := (ds[n]?).map Outputs.Descriptor.binNames

/-! ### Proof -/

theorem numbered {ds : List Outputs.Descriptor} {identifier : String} {n : Nat}
    (h : (ds.map Outputs.Descriptor.identifier).zipIdx.filter (fun x => x.1 = identifier) = [(identifier, n)]) :
    Numbered ds identifier n := by
  intro m
  rw [← List.getElem?_map]
  constructor
  · intro hm
    have : (identifier, m) ∈ (ds.map Outputs.Descriptor.identifier).zipIdx.filter (fun x => x.1 = identifier) := by
      rw [List.mem_filter]
      exact ⟨List.mk_mem_zipIdx_iff_getElem?.2 hm, by simp⟩
    rw [h] at this
    simpa using this
  · rintro rfl
    have : (identifier, m) ∈ (ds.map Outputs.Descriptor.identifier).zipIdx.filter (fun x => x.1 = identifier) := by
      rw [h]
      simp
    rw [List.mem_filter] at this
    exact List.mk_mem_zipIdx_iff_getElem?.1 this.1

/-- **C155, the library.**  A host of any version of the interface that counts up the numbers finds the three plug-ins
of the description, each once and none besides, and has them all when it gets none for a number. -/
theorem C155_library {version : Nat} (hv : 1 ≤ version) :
    (∀ d ∈ Description.library, ∃! i, (descriptor version i).map Plugin.identifier = some d.identifier) ∧
    (∀ i P, descriptor version i = some P → ∃ d ∈ Description.library, d.identifier = P.identifier) ∧
    ∀ i, descriptor version i = none → ∀ j, i ≤ j → descriptor version j = none := by
  have hval : ∀ i, descriptor version i = if i = 0 then some .chroma else if i = 1 then some .chordino
      else if i = 2 then some .tuning else none := by
    intro i
    unfold descriptor
    rw [if_neg (by omega)]
    rcases i with _ | _ | _ | i <;> simp
  refine ⟨?_, ?_, ?_⟩
  · intro d hd
    simp only [Description.library, List.mem_cons, List.not_mem_nil, or_false] at hd
    rcases hd with rfl | rfl | rfl
    · refine ⟨1, by dsimp only; rw [hval]; rfl, ?_⟩
      intro i hi
      rw [hval] at hi
      by_contra hne
      split_ifs at hi <;> simp [Plugin.identifier, Description.chordino] at hi
    · refine ⟨0, by dsimp only; rw [hval]; rfl, ?_⟩
      intro i hi
      rw [hval] at hi
      by_contra hne
      split_ifs at hi <;> simp [Plugin.identifier, Description.chroma] at hi
    · refine ⟨2, by dsimp only; rw [hval]; rfl, ?_⟩
      intro i hi
      rw [hval] at hi
      by_contra hne
      split_ifs at hi <;> simp [Plugin.identifier, Description.tuning] at hi
  · intro i P hP
    cases P
    · exact ⟨Description.chroma, by simp [Description.library], rfl⟩
    · exact ⟨Description.chordino, by simp [Description.library], rfl⟩
    · exact ⟨Description.tuning, by simp [Description.library], rfl⟩
  · intro i hi j hj
    rw [hval] at hi ⊢
    by_cases h0 : i = 0
    · simp [h0] at hi
    by_cases h1 : i = 1
    · simp [h1] at hi
    by_cases h2 : i = 2
    · simp [h2] at hi
    rw [if_neg (by omega), if_neg (by omega), if_neg (by omega)]

theorem hasParameter {lit : ℚ → ℚ} (h0 : lit 0 = 0) (h1 : lit 1 = 1) {P : Plugin} {d : Description.Parameter}
    (h : (⟨d.identifier, lit d.minValue, lit d.maxValue, lit d.defaultValue, d.quantizeStep.map lit⟩ :
      PluginParams.Descriptor) ∈ P.parameters lit) : HasParameter lit P d := by
  have hP : P.parameters lit ∈ PluginParams.plugins lit := by
    cases P <;> simp [Plugin.parameters, PluginParams.plugins]
  refine ⟨List.mem_map.2 ⟨_, h, rfl⟩, PluginParams.C99_defaults lit h0 _ hP _ h, ?_⟩
  intro p v hv
  refine PluginParams.C99_read_back lit h0 h1 _ hP _ h v ⟨hv.1, hv.2.1, ?_⟩ p
  intro q hq
  obtain ⟨q', hq', rfl⟩ := Option.map_eq_some_iff.1 hq
  exact hv.2.2 q' hq'

/-- **C155, parameters.**  Every parameter the description gives is a parameter of the plug-in and works as described,
for any conversion of literals to `float` that has 0 and 1.  What is missing: `useHMM`. -/
theorem C155_parameters_partial (lit : ℚ → ℚ) (h0 : lit 0 = 0) (h1 : lit 1 = 1) (P : Plugin) (d : Description.Plugin)
    (hd : d ∈ Description.library) (hP : d.identifier = P.identifier) (x : Description.Parameter)
    (hx : x ∈ d.parameters) (hne : x.identifier ≠ "useHMM") : HasParameter lit P x := by
  apply hasParameter h0 h1
  simp only [Description.library, List.mem_cons, List.not_mem_nil, or_false] at hd
  rcases hd with rfl | rfl | rfl <;> cases P <;>
    first
      | (exfalso; revert hP; decide)
      | skip
  all_goals
    simp only [Description.chroma, Description.chordino, Description.tuning, List.mem_cons, List.not_mem_nil,
      or_false] at hx
  · rcases hx with rfl | rfl | rfl | rfl | rfl | rfl
    · simp [Plugin.parameters, PluginParams.chordDescriptors, Description.useNNLS]
    · exact absurd rfl hne
    · simp [Plugin.parameters, PluginParams.chordDescriptors, Description.rollon]
    · simp [Plugin.parameters, PluginParams.chordDescriptors, Description.tuningmode]
    · simp [Plugin.parameters, PluginParams.chordDescriptors, Description.whitening]
    · simp [Plugin.parameters, PluginParams.chordDescriptors, Description.spectralShape]
  · rcases hx with rfl | rfl | rfl | rfl | rfl | rfl
    · simp [Plugin.parameters, PluginParams.baseDescriptors, Description.useNNLS]
    · simp [Plugin.parameters, PluginParams.baseDescriptors, Description.rollon]
    · simp [Plugin.parameters, PluginParams.baseDescriptors, Description.tuningmode]
    · simp [Plugin.parameters, PluginParams.baseDescriptors, Description.whitening]
    · simp [Plugin.parameters, PluginParams.baseDescriptors, Description.spectralShape]
    · simp [Plugin.parameters, PluginParams.baseDescriptors, Description.chromanormalize]
  · subst hx
    simp [Plugin.parameters, PluginParams.tuningDescriptors, Description.rollon]

/-- **C155, the hidden Markov model.**  The description gives the chord plug-in a switch `useHMM`, on by default.  No
plug-in lists it, it reads as off, and setting it to anything changes nothing. -/
theorem C155_use_hmm_violated (lit : ℚ → ℚ) (h1 : lit 1 = 1) :
    ∃ x ∈ Description.chordino.parameters, ¬ HasParameter lit .chordino x ∧
      (∀ P : Plugin, x.identifier ∉ (P.parameters lit).map PluginParams.Descriptor.identifier) ∧
      ∀ p v, PluginParams.getParameter lit p x.identifier ≠ lit x.defaultValue ∧
        PluginParams.setParameter p x.identifier v = .ok p := by
  have hnl : ∀ P : Plugin, "useHMM" ∉ (P.parameters lit).map PluginParams.Descriptor.identifier := by
    intro P
    cases P <;>
      simp [Plugin.parameters, PluginParams.baseDescriptors, PluginParams.chordDescriptors,
        PluginParams.tuningDescriptors]
  refine ⟨Description.useHMM, by simp [Description.chordino], fun h => hnl _ h.listed, hnl, ?_⟩
  intro p v
  constructor
  · simp [Description.useHMM, PluginParams.getParameter, h1]
  · obtain ⟨p', hp'⟩ := PluginParams.set_ok p "useHMM" v (fun h => absurd h (by decide))
    obtain ⟨-, -, -, h⟩ := PluginParams.set_get lit p p' "useHMM" v hp'
    rw [h (by decide)] at hp'
    exact hp'

/-- **C155, what is not described.**  The chord plug-in has two parameters and two outputs the description does not
mention: the boost of the chord "no chord", the syntax of the names, the notes of the chords and the likelihood. -/
theorem C155_undescribed_violated (lit : ℚ → ℚ) :
    (∀ id ∈ ["boostn", "usehartesyntax"], id ∈ (Plugin.chordino.parameters lit).map PluginParams.Descriptor.identifier ∧
      id ∉ Description.chordino.parameters.map Description.Parameter.identifier) ∧
    ∀ id ∈ ["chordnotes", "loglikelihood"], id ∈ Plugin.chordino.outputs.map Outputs.Descriptor.identifier ∧
      id ∉ Description.chordino.outputs.map Description.Output.identifier := by
  constructor
  · intro id hid
    constructor
    · simp only [List.mem_cons, List.not_mem_nil, or_false] at hid
      rcases hid with rfl | rfl <;> simp [Plugin.parameters, PluginParams.chordDescriptors]
    · revert id
      decide
  · decide

/-- **C155, the chroma plug-in.**  Any arithmetic, parameters, sampling rate, block size from four up and recording:
every output of the description is the output with one number, with the names of the bins as described, and has a
feature for every block with as many values as described. -/
theorem C155_chroma_outputs (F : Fns D) (hO : Nnls.Ordered F.toOps) (hT : Tunes F) (fs : Int) {bs : Nat} (hb : 4 ≤ bs)
    (params : Params D) {blocks : List (T × List D)} (hbl : ∀ bl ∈ blocks, bs ≤ bl.2.length) (junk : Nat → Nnls.St D) :
    ∃ out, Outputs.runChroma F fs bs params blocks junk = .ok (some out) ∧
      ∀ o ∈ Description.chroma.outputs, ∃ n, Numbered Plugin.chroma.outputs o.identifier n ∧
        ownNames Plugin.chroma.outputs n = some (o.binNames.map String.toList) ∧
        Delivers o (blocks.map Prod.fst) (out n) := by
  obtain ⟨out, e, h⟩ := Outputs.C116_chroma_outputs F hO hT fs hb params hbl junk
  refine ⟨out, e, ?_⟩
  intro o ho
  have key : ∀ n d, Outputs.chromaOutputs[n]? = some d → d.binCount = o.binCount →
      Delivers o (blocks.map Prod.fst) (out n) := by
    intro n d hd hc
    obtain ⟨k1, k2⟩ := h n d hd
    exact ⟨fun f hf => (k2.bins f hf).trans hc, fun _ => k2.rate k1⟩
  simp only [Description.chroma, List.mem_cons, List.not_mem_nil, or_false] at ho
  rcases ho with rfl | rfl | rfl | rfl | rfl | rfl
  · exact ⟨0, numbered (by decide +kernel), by decide +kernel, key 0 _ rfl rfl⟩
  · exact ⟨1, numbered (by decide +kernel), by decide +kernel, key 1 _ rfl rfl⟩
  · exact ⟨2, numbered (by decide +kernel), by decide +kernel, key 2 _ rfl rfl⟩
  · exact ⟨3, numbered (by decide +kernel), by decide +kernel, key 3 _ rfl rfl⟩
  · exact ⟨4, numbered (by decide +kernel), by decide +kernel, key 4 _ rfl rfl⟩
  · exact ⟨5, numbered (by decide +kernel), by decide +kernel, key 5 _ rfl rfl⟩

/-- **C155, the chord plug-in.**  Any arithmetic, parameters, sampling rate, block size from four up, recording with
times that go up and dictionary of the user with 24 numbers for each type: the chords and the harmonic change of the
description are outputs with one number each, and have as many values as described. -/
theorem C155_chord_outputs (F : Fns D) (hO : Nnls.Ordered F.toOps) (hT : Tunes F) {ext : Option (List Str × List D)}
    (hext : ∀ e, ext = some e → 24 * e.1.length ≤ e.2.length) (fs : Int) {bs : Nat} (hb : 4 ≤ bs) (params : Params D)
    (boostN harte : D) {blocks : List (Int × List D)} (hbl : ∀ bl ∈ blocks, bs ≤ bl.2.length)
    (hts : Chordino.Increasing (blocks.map Prod.fst)) (junk : Nat → Nnls.St D) :
    ∃ f, Chordino.runAll F ext fs bs params boostN harte blocks junk = .ok (some f) ∧
      ∀ o ∈ Description.chordino.outputs, ∃ n, Numbered Plugin.chordino.outputs o.identifier n ∧
        ownNames Plugin.chordino.outputs n = some (o.binNames.map String.toList) ∧
        Delivers o (blocks.map Prod.fst)
          ((Outputs.chordFeatures F f n).map (fun x => (x.timestamp, x.values))) := by
  obtain ⟨f, e, h⟩ := Outputs.C116_chord_outputs F hO hT hext fs hb params boostN harte hbl hts junk
  refine ⟨f, e, ?_⟩
  intro o ho
  have key : ∀ n d, Outputs.chordOutputs[n]? = some d → d.binCount = o.binCount → (o.dense = true → d.fixedRate = true) →
      Delivers o (blocks.map Prod.fst) ((Outputs.chordFeatures F f n).map (fun x => (x.timestamp, x.values))) := by
    intro n d hd hc hr
    have k := h n d hd
    constructor
    · intro x hx
      obtain ⟨y, hy, rfl⟩ := List.mem_map.1 hx
      exact (k.bins y hy).trans hc
    · intro ho
      rw [← k.rate (hr ho), List.map_map]
      rfl
  simp only [Description.chordino, List.mem_cons, List.not_mem_nil, or_false] at ho
  rcases ho with rfl | rfl
  · exact ⟨0, numbered (by decide +kernel), by decide +kernel, key 0 _ rfl rfl (fun h => by cases h)⟩
  · exact ⟨2, numbered (by decide +kernel), by decide +kernel, key 2 _ rfl rfl (fun _ => rfl)⟩

/-- **C155, the tuning plug-in.**  Any arithmetic and recording: the local tuning is as described.  What is missing: the
tuning of the whole. -/
theorem C155_local_tuning_partial (F : Fns D) (hT : Tunes F) (fixed1 : D → Str) (hfix : ∀ x, (fixed1 x).length ≤ 46)
    (zero : T) (fs : Int) {bs : Nat} (hb : 4 ≤ bs) (params : Params D) {blocks : List (T × List D)}
    (hbl : ∀ bl ∈ blocks, bs ≤ bl.2.length) :
    ∃ out, runTuning F fixed1 zero fs bs params blocks = .ok (some out) ∧
      ∀ o ∈ Description.tuning.outputs, o.identifier ≠ "tuning" → ∃ n, Numbered Plugin.tuning.outputs o.identifier n ∧
        ownNames Plugin.tuning.outputs n = some (o.binNames.map String.toList) ∧
        Delivers o (blocks.map Prod.fst) (tuningFeatures out n) := by
  obtain ⟨out, e, h, -, -⟩ := C92_runs F hT fixed1 hfix zero fs hb params hbl
  refine ⟨out, e, ?_⟩
  intro o ho hne
  simp only [Description.tuning, List.mem_cons, List.not_mem_nil, or_false] at ho
  rcases ho with rfl | rfl
  · exact absurd rfl hne
  · refine ⟨1, numbered (by decide +kernel), by decide +kernel, ?_, ?_⟩
    · intro f hf
      obtain ⟨y, -, rfl⟩ := List.mem_map.1 hf
      rfl
    · intro _
      rw [← h]
      exact List.map_map ..

/-- **C155, the tuning of the whole.**  The description says that the output `tuning` gives labels without values.  For
every recording that is not empty it gives a value. -/
theorem C155_tuning_violated (F : Fns D) (hT : Tunes F) (fixed1 : D → Str) (hfix : ∀ x, (fixed1 x).length ≤ 46)
    (zero : T) (fs : Int) {bs : Nat} (hb : 4 ≤ bs) (params : Params D) {blocks : List (T × List D)} (hne : blocks ≠ [])
    (hbl : ∀ bl ∈ blocks, bs ≤ bl.2.length) :
    ∃ o ∈ Description.tuning.outputs, ∃ n, Numbered Plugin.tuning.outputs o.identifier n ∧
      ∃ out, runTuning F fixed1 zero fs bs params blocks = .ok (some out) ∧
        (∃ f, f ∈ tuningFeatures out n ∧ f.2.length = 1) ∧ ¬ Delivers o (blocks.map Prod.fst) (tuningFeatures out n) := by
  obtain ⟨out, e, -, h, -⟩ := C92_runs F hT fixed1 hfix zero fs hb params hbl
  refine ⟨⟨"tuning", 0, [], false⟩, by simp [Description.tuning], 0, numbered (by decide +kernel), out, e, ?_⟩
  have hex : ∃ f, f ∈ tuningFeatures out 0 ∧ f.2.length = 1 := by
    obtain ⟨q, hq⟩ : ∃ q, q ∈ out.2 := by
      rcases hout : out.2 with _ | ⟨q, l⟩
      · rw [hout, List.getLast?_eq_some_getLast hne] at h
        simp at h
      · exact ⟨q, by simp⟩
    exact ⟨_, List.mem_map.2 ⟨q, hq, rfl⟩, rfl⟩
  refine ⟨hex, fun hd => ?_⟩
  obtain ⟨f, hf, h1⟩ := hex
  have := hd.bins f hf
  rw [h1] at this
  cases this

/-- **C155, what the tuning plug-in announces.**  Any arithmetic and recording: both outputs give as many values as the plug-in says. -/
theorem C155_tuning_announced (F : Fns D) (hT : Tunes F) (fixed1 : D → Str) (hfix : ∀ x, (fixed1 x).length ≤ 46)
    (zero : T) (fs : Int) {bs : Nat} (hb : 4 ≤ bs) (params : Params D) {blocks : List (T × List D)}
    (hbl : ∀ bl ∈ blocks, bs ≤ bl.2.length) :
    ∃ out, runTuning F fixed1 zero fs bs params blocks = .ok (some out) ∧
      ∀ n d, Plugin.tuning.outputs[n]? = some d → ∀ f ∈ tuningFeatures out n, f.2.length = d.binCount := by
  obtain ⟨out, e, -, -, -⟩ := C92_runs F hT fixed1 hfix zero fs hb params hbl
  refine ⟨out, e, ?_⟩
  intro n d hd f hf
  match n, hd, hf with
  | 0, hd, hf =>
    obtain rfl := Option.some.inj hd
    obtain ⟨y, -, rfl⟩ := List.mem_map.1 hf
    rfl
  | 1, hd, hf =>
    obtain rfl := Option.some.inj hd
    obtain ⟨y, -, rfl⟩ := List.mem_map.1 hf
    rfl

/-! ### Examples -/

/-- A whitening of one half is permitted by the description, for the conversion that changes nothing, and is read after
it was set in the chord plug-in. -/
example : ∃ p', PluginParams.setParameter (PluginParams.Values.new id) "whitening" (1 / 2) = .ok p' ∧
    PluginParams.getParameter id p' "whitening" = 1 / 2 := by
  have h := C155_parameters_partial id rfl rfl .chordino Description.chordino (by simp [Description.library]) rfl
    Description.whitening (by simp [Description.chordino]) (by decide)
  obtain ⟨p', e, hp, -⟩ := h.set (PluginParams.Values.new id) (1 / 2) (by
    refine ⟨?_, ?_, ?_⟩
    · show (0 : ℚ) ≤ 1 / 2
      norm_num
    · show (1 / 2 : ℚ) ≤ 1
      norm_num
    · intro q hq
      cases hq)
  exact ⟨p', e, hp⟩

/-- Two blocks of silence: the chroma output has number 3, twelve bins from A to A flat, and two features. -/
example (junk : Nat → Nnls.St ℝ) :
    ∃ out, Outputs.runChroma exactFns 44100 4 ⟨1, 0, false, 1, 0.7, 0⟩ [(0, [0, 0, 0, 0]), (1, [0, 0, 0, 0])] junk =
        .ok (some out) ∧ ∃ n, Numbered Plugin.chroma.outputs "chroma" n ∧ (out n).map Prod.fst = [0, 1] := by
  obtain ⟨out, e, h⟩ := C155_chroma_outputs (T := Nat) exactFns exact_ordered exact_tunes 44100 (bs := 4) le_rfl
    ⟨1, 0, false, 1, 0.7, 0⟩ (blocks := [(0, [0, 0, 0, 0]), (1, [0, 0, 0, 0])]) (by simp) junk
  obtain ⟨n, h1, -, h3⟩ := h ⟨"chroma", 12, Description.pitchNames, true⟩ (by simp [Description.chroma])
  exact ⟨out, e, n, h1, h3.dense rfl⟩

end JKD.Library
