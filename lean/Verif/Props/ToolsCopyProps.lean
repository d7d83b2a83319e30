import Verif.Model.ToolsCopy
import Verif.Props.ToolsShellProps
/-
C134: collecting and removing the files of a data set.
-/

namespace JKD.Shell

variable {C : Type}

/-! ### Collecting the chromagrams -/

theorem csv_inj {s s' : Str} (h : s ++ ".csv".toList = s' ++ ".csv".toList) : s = s' := List.append_cancel_right h

theorem csv_ne (s : Str) : s ≠ s ++ ".csv".toList := fun h => by
  have := congrArg List.length h
  simp at this

/-- **Specification.**  The folder holds folders with a chromagram, `x f` in the folder `f`, under the names `fs`, and nothing
else. -/
structure Tracks (fs : List Str) (x : Str → C) (d : Disk C) : Prop where
  here : ∀ f ∈ fs, ∃ g, d f = some (.dir g) ∧ g "bothchroma.csv".toList = some (x f)
  only : ∀ n, n ∉ fs → d n = none

theorem cpChroma_other (d : Disk C) (f n : Str) (h : n ≠ f ++ ".csv".toList) : cpChroma d f n = d n := by
  unfold cpChroma
  rcases hd : d f with _ | (c | g)
  · rfl
  · rfl
  · dsimp only
    rcases hg : g "bothchroma.csv".toList with _ | x
    · rfl
    · dsimp only
      rcases hc : d (f ++ ".csv".toList) with _ | (c | k)
      · exact Function.update_of_ne h _ _
      · exact Function.update_of_ne h _ _
      · exact Function.update_of_ne h _ _

theorem cpChroma_fails (d : Disk C) (f : Str) (h : ∀ g, d f = some (.dir g) → g "bothchroma.csv".toList = none) :
    cpChroma d f = d := by
  unfold cpChroma
  rcases hd : d f with _ | (c | g)
  · rfl
  · rfl
  · dsimp only
    rw [h g hd]

theorem copyChroma_other (fs : List Str) (d : Disk C) (n : Str) (h1 : n ∉ fs) (h2 : ∀ f ∈ fs, n ≠ f ++ ".csv".toList) :
    copyChroma fs d n = d n := by
  induction fs generalizing d with
  | nil => rfl
  | cons f fs ih =>
    rw [copyChroma, ih _ (fun h => h1 (List.mem_cons_of_mem _ h)) (fun g hg => h2 g (List.mem_cons_of_mem _ hg)),
      Function.update_of_ne (fun e => h1 (List.mem_cons.2 (Or.inl e))), cpChroma_other d f n (h2 f List.mem_cons_self)]

theorem cpChroma_good (d : Disk C) (f : Str) (g : Folder C) (x : C) (h : d f = some (.dir g)) (hg : g "bothchroma.csv".toList = some x)
    (hn : d (f ++ ".csv".toList) = none) : cpChroma d f = Function.update d (f ++ ".csv".toList) (some (.file x)) := by
  unfold cpChroma
  rw [h]
  dsimp only
  rw [hg]
  dsimp only
  rw [hn]

/-- **C134, copying, as far as it holds.**  In a folder of folders that all hold a chromagram, and none of whose names is another
one with `.csv`, the script leaves exactly the chromagrams, each under the name of its folder. -/
theorem C134_copied_partial (fs : List Str) (x : Str → C) (d : Disk C) (hd : fs.Nodup) (h : Tracks fs x d)
    (hcsv : ∀ f ∈ fs, f ++ ".csv".toList ∉ fs) :
    (∀ f ∈ fs, copyChroma fs d (f ++ ".csv".toList) = some (.file (x f))) ∧
    ∀ n, (∀ f ∈ fs, n ≠ f ++ ".csv".toList) → copyChroma fs d n = none := by
  have key : ∀ (fs : List Str) (d : Disk C), fs.Nodup → (∀ f ∈ fs, f ++ ".csv".toList ∉ fs) →
      (∀ f ∈ fs, ∃ g, d f = some (.dir g) ∧ g "bothchroma.csv".toList = some (x f)) → (∀ f ∈ fs, d (f ++ ".csv".toList) = none) →
      (∀ f ∈ fs, copyChroma fs d (f ++ ".csv".toList) = some (.file (x f))) ∧ ∀ f ∈ fs, copyChroma fs d f = none := by
    intro fs
    induction fs with
    | nil => intro d _ _ _ _; simp
    | cons f fs ih =>
      intro d hd hcsv hh hn
      rw [List.nodup_cons] at hd
      obtain ⟨g, hg1, hg2⟩ := hh f List.mem_cons_self
      have e := cpChroma_good d f g (x f) hg1 hg2 (hn f List.mem_cons_self)
      have hcf : f ++ ".csv".toList ∉ fs := fun h => hcsv f List.mem_cons_self (List.mem_cons_of_mem _ h)
      have same : ∀ n, n ≠ f → n ≠ f ++ ".csv".toList → Function.update (cpChroma d f) f none n = d n := by
        intro n h1 h2
        rw [Function.update_of_ne h1, e, Function.update_of_ne h2]
      obtain ⟨i1, i2⟩ := ih (Function.update (cpChroma d f) f none) hd.2
        (fun a ha h => hcsv a (List.mem_cons_of_mem _ ha) (List.mem_cons_of_mem _ h))
        (fun a ha => by
          rw [same a (fun e => hd.1 (e ▸ ha)) (fun e => hcf (e ▸ ha))]
          exact hh a (List.mem_cons_of_mem _ ha))
        (fun a ha => by
          rw [same _ (fun e => hcsv a (List.mem_cons_of_mem _ ha) (List.mem_cons.2 (Or.inl e))) (fun e => hd.1 (csv_inj e ▸ ha))]
          exact hn a (List.mem_cons_of_mem _ ha))
      rw [copyChroma]
      constructor
      · intro a ha
        rcases List.mem_cons.1 ha with rfl | ha
        · rw [copyChroma_other fs _ _ hcf (fun b hb e => hd.1 (csv_inj e ▸ hb)), Function.update_of_ne (csv_ne a).symm, e,
            Function.update_self]
        · exact i1 a ha
      · intro a ha
        rcases List.mem_cons.1 ha with rfl | ha
        · by_cases hm : ∃ b ∈ fs, a = b ++ ".csv".toList
          · obtain ⟨b, hb, rfl⟩ := hm
            exact absurd List.mem_cons_self (hcsv b (List.mem_cons_of_mem _ hb))
          · rw [copyChroma_other fs _ _ hd.1 (fun b hb e => hm ⟨b, hb, e⟩), Function.update_self]
        · exact i2 a ha
  obtain ⟨k1, k2⟩ := key fs d hd hcsv h.here (fun f hf => h.only _ (hcsv f hf))
  refine ⟨k1, fun n hn => ?_⟩
  by_cases hm : n ∈ fs
  · exact k2 n hm
  · rw [copyChroma_other fs d n hm hn, h.only n hm]

/-- **C134 is violated: missing chromagrams.**  A folder without a chromagram, and every plain file, is removed with all it
holds, and nothing takes its place. -/
theorem C134_lost_violated (d : Disk C) (f : Str) (h : ∀ g, d f = some (.dir g) → g "bothchroma.csv".toList = none) :
    copyChroma [f] d = Function.update d f none := by
  rw [copyChroma, copyChroma, cpChroma_fails d f h]

/-- **C134 is violated: running the script again.**  It removes all chromagrams that the first run has collected. -/
theorem C134_twice_violated (fs : List Str) (x : Str → C) (d : Disk C) (hd : fs.Nodup) (h : Tracks fs x d)
    (hcsv : ∀ f ∈ fs, f ++ ".csv".toList ∉ fs) (ls : List Str) (hls : ∀ n, n ∈ ls ↔ copyChroma fs d n ≠ none) :
    copyChroma ls (copyChroma fs d) = fun _ => none := by
  obtain ⟨h1, h2⟩ := C134_copied_partial fs x d hd h hcsv
  have key : ∀ (ls : List Str) (d : Disk C), (∀ n g, d n ≠ some (.dir g)) → (∀ n, d n ≠ none → n ∈ ls) →
      copyChroma ls d = fun _ => none := by
    intro ls
    induction ls with
    | nil =>
      intro d _ h
      funext n
      by_contra hn
      simpa using h n hn
    | cons l ls ih =>
      intro d hf h
      rw [copyChroma, cpChroma_fails d l (fun g hg => absurd hg (hf l g))]
      refine ih _ (fun n g => ?_) (fun n hn => ?_)
      · by_cases en : n = l
        · rw [en, Function.update_self]; simp
        · rw [Function.update_of_ne en]; exact hf n g
      · by_cases en : n = l
        · rw [en, Function.update_self] at hn; exact absurd rfl hn
        · rw [Function.update_of_ne en] at hn
          rcases List.mem_cons.1 (h n hn) with e | hm
          · exact absurd e en
          · exact hm
  refine key ls _ (fun n g e => ?_) (fun n hn => (hls n).2 hn)
  by_cases hn : ∃ f ∈ fs, n = f ++ ".csv".toList
  · obtain ⟨f, hf, rfl⟩ := hn
    rw [h1 f hf] at e
    cases e
  · rw [h2 n (fun f hf e => hn ⟨f, hf, e⟩)] at e
    cases e

/-! ### Removing duplicates -/

/-- **Specification.**  The pieces whose features and annotations are both there, in both forms. -/
def Paired (e : Experiment C) : Prop :=
  ∀ s : Str, (e.symbolicFeatures (s ++ ".mid".toList) ≠ none ↔ e.symbolicAnnotations (s ++ ".key".toList) ≠ none) ∧
    (e.chromaFeatures (s ++ ".csv".toList) ≠ none ↔ e.chromaAnnotations (s ++ ".key".toList) ≠ none)

theorem removeDuplicates_eq (fs : List Str) : ∀ e : Experiment C, ∀ n,
    (removeDuplicates fs e).symbolicFeatures n = (if ∃ f ∈ fs, n = f ++ ".mid".toList then none else e.symbolicFeatures n) ∧
    (removeDuplicates fs e).chromaFeatures n = (if ∃ f ∈ fs, n = f ++ ".csv".toList then none else e.chromaFeatures n) ∧
    (removeDuplicates fs e).symbolicAnnotations n = (if ∃ f ∈ fs, n = f ++ ".key".toList then none else e.symbolicAnnotations n) ∧
    (removeDuplicates fs e).chromaAnnotations n = (if ∃ f ∈ fs, n = f ++ ".key".toList then none else e.chromaAnnotations n) := by
  induction fs with
  | nil => intro e n; simp [removeDuplicates]
  | cons f fs ih =>
    intro e n
    rw [removeDuplicates]
    obtain ⟨h1, h2, h3, h4⟩ := ih { symbolicFeatures := rm e.symbolicFeatures (f ++ ".mid".toList)
                                    chromaFeatures := rm e.chromaFeatures (f ++ ".csv".toList)
                                    symbolicAnnotations := rm e.symbolicAnnotations (f ++ ".key".toList)
                                    chromaAnnotations := rm e.chromaAnnotations (f ++ ".key".toList) } n
    have one : ∀ (d : Folder C) (x : Str), (if ∃ a ∈ fs, n = a ++ x then none else rm d (f ++ x) n) =
        if ∃ a ∈ f :: fs, n = a ++ x then none else d n := by
      intro d x
      by_cases h : ∃ a ∈ fs, n = a ++ x
      · rw [if_pos h, if_pos (by obtain ⟨a, ha, e⟩ := h; exact ⟨a, by simp [ha], e⟩)]
      · rw [if_neg h]
        by_cases hf : n = f ++ x
        · rw [if_pos ⟨f, by simp, hf⟩, hf]
          simp [rm]
        · rw [if_neg, rm, Function.update_of_ne hf]
          rintro ⟨a, ha, e⟩
          rcases List.mem_cons.1 ha with rfl | ha
          · exact hf e
          · exact h ⟨a, ha, e⟩
    refine ⟨h1.trans (one _ _), h2.trans (one _ _), h3.trans (one _ _), h4.trans (one _ _)⟩

/-- **C134, duplicates.**  The listed pieces are gone from all four folders, nothing else has changed, and features and annotations
belong together as before. -/
theorem C134_duplicates (fs : List Str) (e : Experiment C) :
    (∀ f ∈ fs, (removeDuplicates fs e).symbolicFeatures (f ++ ".mid".toList) = none ∧
      (removeDuplicates fs e).chromaFeatures (f ++ ".csv".toList) = none ∧
      (removeDuplicates fs e).symbolicAnnotations (f ++ ".key".toList) = none ∧
      (removeDuplicates fs e).chromaAnnotations (f ++ ".key".toList) = none) ∧
    (∀ s, s ∉ fs → (removeDuplicates fs e).symbolicFeatures (s ++ ".mid".toList) = e.symbolicFeatures (s ++ ".mid".toList) ∧
      (removeDuplicates fs e).chromaFeatures (s ++ ".csv".toList) = e.chromaFeatures (s ++ ".csv".toList) ∧
      (removeDuplicates fs e).symbolicAnnotations (s ++ ".key".toList) = e.symbolicAnnotations (s ++ ".key".toList) ∧
      (removeDuplicates fs e).chromaAnnotations (s ++ ".key".toList) = e.chromaAnnotations (s ++ ".key".toList)) ∧
    (Paired e → Paired (removeDuplicates fs e)) := by
  have gone : ∀ f ∈ fs, ∀ x : Str, ∃ a ∈ fs, f ++ x = a ++ x := fun f hf x => ⟨f, hf, rfl⟩
  have kept : ∀ s, s ∉ fs → ∀ x : Str, ¬ ∃ a ∈ fs, s ++ x = a ++ x := by
    rintro s hs x ⟨a, ha, e⟩
    exact hs (List.append_cancel_right e ▸ ha)
  have A : ∀ f ∈ fs, (removeDuplicates fs e).symbolicFeatures (f ++ ".mid".toList) = none ∧
      (removeDuplicates fs e).chromaFeatures (f ++ ".csv".toList) = none ∧
      (removeDuplicates fs e).symbolicAnnotations (f ++ ".key".toList) = none ∧
      (removeDuplicates fs e).chromaAnnotations (f ++ ".key".toList) = none := fun f hf => by
    refine ⟨?_, ?_, ?_, ?_⟩
    · rw [(removeDuplicates_eq fs e _).1, if_pos (gone f hf _)]
    · rw [(removeDuplicates_eq fs e _).2.1, if_pos (gone f hf _)]
    · rw [(removeDuplicates_eq fs e _).2.2.1, if_pos (gone f hf _)]
    · rw [(removeDuplicates_eq fs e _).2.2.2, if_pos (gone f hf _)]
  have B : ∀ s, s ∉ fs → (removeDuplicates fs e).symbolicFeatures (s ++ ".mid".toList) = e.symbolicFeatures (s ++ ".mid".toList) ∧
      (removeDuplicates fs e).chromaFeatures (s ++ ".csv".toList) = e.chromaFeatures (s ++ ".csv".toList) ∧
      (removeDuplicates fs e).symbolicAnnotations (s ++ ".key".toList) = e.symbolicAnnotations (s ++ ".key".toList) ∧
      (removeDuplicates fs e).chromaAnnotations (s ++ ".key".toList) = e.chromaAnnotations (s ++ ".key".toList) := fun s hs => by
    refine ⟨?_, ?_, ?_, ?_⟩
    · rw [(removeDuplicates_eq fs e _).1, if_neg (kept s hs _)]
    · rw [(removeDuplicates_eq fs e _).2.1, if_neg (kept s hs _)]
    · rw [(removeDuplicates_eq fs e _).2.2.1, if_neg (kept s hs _)]
    · rw [(removeDuplicates_eq fs e _).2.2.2, if_neg (kept s hs _)]
  refine ⟨A, B, fun hp s => ?_⟩
  by_cases hs : s ∈ fs
  · obtain ⟨a1, a2, a3, a4⟩ := A s hs
    rw [a1, a2, a3, a4]
    exact ⟨Iff.rfl, Iff.rfl⟩
  · obtain ⟨b1, b2, b3, b4⟩ := B s hs
    rw [b1, b2, b3, b4]
    exact hp s

/-! ### Renaming the output of sonic-annotator -/

theorem take_wav (s x : Str) (hx : x.length = 4) : (s ++ x).take ((s ++ x).length - 4) = s := by
  rw [List.length_append, hx, Nat.add_sub_cancel, List.take_left]

theorem grep_wav (s : Str) : s ≠ [] → grepWav (s ++ ".wav".toList) = true := by
  have h : ∀ s : Str, grepWav (s ++ ".wav".toList) = true := by
    intro s
    induction s with
    | nil => rfl
    | cons c s ih =>
      rw [List.cons_append, grepWav.eq_def]
      split
      · rfl
      · rename_i e
        rw [List.cons.injEq] at e
        rw [← e.2]
        exact ih
      · rename_i e
        cases e
  exact fun _ => h s

theorem renameChromagrams_mvs (fs : List Str) (d : Folder C) : renameChromagrams fs d = mvs ((fs.filter grepWav).map (fun f =>
    (f.take (f.length - 4) ++ vampSuffix ++ ".csv".toList, f.take (f.length - 4) ++ ".csv".toList))) d := by
  induction fs generalizing d with
  | nil => rfl
  | cons f fs ih =>
    rw [renameChromagrams, ih]
    by_cases h : grepWav f = true
    · rw [if_pos h, List.filter_cons_of_pos h]
      rfl
    · rw [if_neg h, List.filter_cons_of_neg (by simpa using h)]

/-- **Specification.**  What sonic-annotator adds to the name of a recording for the output that /repo/tools/extract_chromagrams.sh:3
asks for: an underscore and the output, with underscores for the colons. -/
def annotatorSuffix : Str := '_' :: "vamp:nnls-chroma:nnls-chroma:chroma".toList.map (fun c => if c = ':' then '_' else c)

/-- **C134, chromagrams.**  When every recording has its chromagram and no recording is called like the chromagram of another one,
each chromagram gets the name of its recording and all other files stay, whatever other names the folder holds that do not match. -/
theorem C134_renamed_partial (fs ss : List Str) (d : Folder C) (hm : fs.filter grepWav = ss.map (· ++ ".wav".toList)) (hn : ss.Nodup)
    (hs : ∀ s ∈ ss, d (s ++ annotatorSuffix ++ ".csv".toList) ≠ none) (hv : ∀ s ∈ ss, s ++ annotatorSuffix ∉ ss) :
    Renamed (ss.map (fun s => (s ++ annotatorSuffix ++ ".csv".toList, s ++ ".csv".toList))) d (renameChromagrams fs d) := by
  have hsuf : annotatorSuffix = vampSuffix := by decide
  rw [hsuf] at hs hv ⊢
  rw [renameChromagrams_mvs, hm, List.map_map]
  have e : ((fun f : Str => (f.take (f.length - 4) ++ vampSuffix ++ ".csv".toList, f.take (f.length - 4) ++ ".csv".toList)) ∘
      (· ++ ".wav".toList)) = fun s => (s ++ vampSuffix ++ ".csv".toList, s ++ ".csv".toList) := by
    funext s
    simp only [Function.comp]
    rw [take_wav s ".wav".toList rfl]
  rw [e]
  refine mvs_renamed _ _ ?_ (fun p hp => ?_)
  · unfold Apart
    rw [List.pairwise_map]
    refine List.Pairwise.imp_of_mem ?_ hn
    intro a b ha hb hab
    refine ⟨fun h => hab (List.append_cancel_right (csv_inj h)), fun h => hab (csv_inj h), fun h => ?_, fun h => ?_⟩
    · have : a ++ vampSuffix = b := csv_inj h
      exact hv a ha (this ▸ hb)
    · have : a = b ++ vampSuffix := csv_inj h
      exact hv b hb (this ▸ ha)
  · obtain ⟨s, h1, rfl⟩ := List.mem_map.1 hp
    exact hs s h1

/-! ### Extracting the chromagrams -/

theorem batch_other (extract : C → C) (fs : List Str) (d : Folder C) (n : Str)
    (h : ∀ f ∈ fs, n ≠ f.take (f.length - 4) ++ ".csv".toList) : batchChromagram extract fs d n = d n := by
  induction fs generalizing d with
  | nil => rfl
  | cons f fs ih =>
    rw [batchChromagram, ih _ (fun g hg => h g (by simp [hg]))]
    rcases d f with _ | x
    · rfl
    · exact Function.update_of_ne (h f List.mem_cons_self) _ _

/-- **C134, extraction, as far as it holds.**  When no two recordings differ in the case of the extension only, every recording gets its
own chromagram, and all other files stay. -/
theorem C134_extracted_partial (extract : C → C) (xs : List (Str × Str)) (hx : ∀ x ∈ xs, x.2.map Char.toLower = ".wav".toList)
    (hn : (xs.map Prod.fst).Nodup) (d : Folder C) (c : Str × Str → C) (hc : ∀ x ∈ xs, d (x.1 ++ x.2) = some (c x)) :
    (∀ x ∈ xs, batchChromagram extract (xs.map (fun x => x.1 ++ x.2)) d (x.1 ++ ".csv".toList) = some (extract (c x))) ∧
    ∀ n, (∀ x ∈ xs, n ≠ x.1 ++ ".csv".toList) → batchChromagram extract (xs.map (fun x => x.1 ++ x.2)) d n = d n := by
  have len : ∀ x : Str, x.map Char.toLower = ".wav".toList → x.length = 4 := fun x h => by
    have := congrArg List.length h
    simpa using this
  have apart : ∀ (a s x : Str), x.map Char.toLower = ".wav".toList → a ++ x ≠ s ++ ".csv".toList := by
    intro a s x hx e
    have h := (List.append_inj' e (by rw [len x hx]; rfl)).2
    rw [h] at hx
    exact absurd hx (by decide)
  constructor
  · induction xs generalizing d with
    | nil => simp
    | cons x xs ih =>
      intro y hy
      rw [List.map_cons, List.nodup_cons] at hn
      have hl := len _ (hx x (by simp))
      have other : ∀ z ∈ xs, z.1 ≠ x.1 := fun z hz e => hn.1 (e ▸ List.mem_map_of_mem (f := Prod.fst) hz)
      rw [List.map_cons, batchChromagram, hc x (by simp)]
      dsimp only
      rw [take_wav _ _ hl]
      rcases List.mem_cons.1 hy with rfl | hy
      · rw [batch_other, Function.update_self]
        intro f hf e
        obtain ⟨z, hz, rfl⟩ := List.mem_map.1 hf
        rw [take_wav _ _ (len _ (hx z (by simp [hz])))] at e
        exact other z hz (csv_inj e).symm
      · refine ih (fun z hz => hx z (by simp [hz])) hn.2 _ (fun z hz => ?_) y hy
        rw [Function.update_of_ne (apart _ _ _ (hx z (by simp [hz])))]
        exact hc z (by simp [hz])
  · intro n h
    refine batch_other extract _ d n (fun f hf => ?_)
    obtain ⟨x, hx', rfl⟩ := List.mem_map.1 hf
    rw [take_wav _ _ (len _ (hx x hx'))]
    exact h x hx'

/-- **C134 is violated: `a.wav` and `a.WAV`.**  One chromagram takes the place of the other. -/
theorem C134_case_violated (extract : C → C) (s : Str) (d : Folder C) (x y : C) (hx : d (s ++ ".wav".toList) = some x)
    (hy : d (s ++ ".WAV".toList) = some y) :
    batchChromagram extract [s ++ ".wav".toList, s ++ ".WAV".toList] d (s ++ ".csv".toList) = some (extract y) ∧
    batchChromagram extract [s ++ ".WAV".toList, s ++ ".wav".toList] d (s ++ ".csv".toList) = some (extract x) := by
  have n1 : s ++ ".WAV".toList ≠ s ++ ".csv".toList := fun h => absurd (List.append_cancel_left h) (by decide)
  have n2 : s ++ ".wav".toList ≠ s ++ ".csv".toList := fun h => absurd (List.append_cancel_left h) (by decide)
  constructor
  · simp only [batchChromagram, hx, take_wav s ".wav".toList rfl, take_wav s ".WAV".toList rfl]
    rw [Function.update_of_ne n1, hy]
    simp
  · simp only [batchChromagram, hy, take_wav s ".wav".toList rfl, take_wav s ".WAV".toList rfl]
    rw [Function.update_of_ne n2, hx]
    simp

/-! ### Cases -/

/-- Two track folders. -/
def twoTracks (a b : Str) : Disk Nat := fun n =>
  if n = a then some (.dir (fun m => if m = "bothchroma.csv".toList then some 7 else none))
  else if n = b then some (.dir (fun m => if m = "bothchroma.csv".toList then some 9 else some 1)) else none

theorem twoTracks_ok (a b : Str) (h : b ≠ a) : Tracks [a, b] (fun f => if f = a then 7 else 9) (twoTracks a b) := by
  refine ⟨fun f hf => ?_, fun n hn => ?_⟩
  · simp only [List.mem_cons, List.not_mem_nil, or_false] at hf
    rcases hf with rfl | rfl
    · exact ⟨_, if_pos rfl, by rw [if_pos rfl, if_pos rfl]⟩
    · refine ⟨_, by unfold twoTracks; rw [if_neg h, if_pos rfl], ?_⟩
      rw [if_neg h]
      exact if_pos rfl
  · simp only [List.mem_cons, List.not_mem_nil, or_false, not_or] at hn
    unfold twoTracks
    rw [if_neg hn.1, if_neg hn.2]

example : copyChroma [['3'], ['4']] (twoTracks ['3'] ['4']) (['3'] ++ ".csv".toList) = some (.file 7) :=
  (C134_copied_partial _ _ _ (by decide) (twoTracks_ok ['3'] ['4'] (by decide)) (by decide)).1 ['3'] (by decide)

example : grepWav "prelude.wav".toList = true ∧ grepWav "prelude.csv".toList = false ∧ grepWav "newave.csv".toList = true := by decide

end JKD.Shell
