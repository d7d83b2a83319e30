import Verif.Model.PyFiles
import Verif.Props.DatasetProps
import Mathlib.Data.List.TakeWhile
/-
C60: the files written for a data set (dataset_creator.py).
-/

namespace JKD.Py

variable {K : Type}

/-! ### Dictionaries -/

theorem keys_set_congr {κ V W : Type} [DecidableEq κ] (m : AMap κ V) (m' : AMap κ W) (k : κ) (v : V) (w : W)
    (h : AMap.keys m = AMap.keys m') : AMap.keys (AMap.set m k v) = AMap.keys (AMap.set m' k w) := by
  induction m generalizing m' with
  | nil =>
    cases m' with
    | nil => rfl
    | cons p m' => simp [AMap.keys] at h
  | cons p m ih =>
    cases m' with
    | nil => simp [AMap.keys] at h
    | cons p' m' =>
      obtain ⟨k1, v1⟩ := p
      obtain ⟨k2, v2⟩ := p'
      simp only [AMap.keys, List.map_cons, List.cons.injEq] at h
      obtain ⟨rfl, h⟩ := h
      by_cases hk : k1 = k
      · simp [AMap.set, AMap.keys, hk, h]
      · have := ih m' h
        simp only [AMap.keys] at this
        simp [AMap.set, AMap.keys, hk, this]

theorem set_new {κ V : Type} [DecidableEq κ] (m : AMap κ V) (k : κ) (v : V) (h : k ∉ AMap.keys m) :
    AMap.set m k v = m ++ [(k, v)] := by
  induction m with
  | nil => rfl
  | cons p m ih =>
    obtain ⟨k', v'⟩ := p
    simp only [AMap.keys, List.map_cons, List.mem_cons, not_or] at h
    simp only [AMap.set, if_neg (Ne.symm h.1), List.cons_append]
    rw [ih h.2]

/-! ### Specification -/

/-- The label belonging to a base name: that of the first line of `<base>.key`. -/
def LabelOf (folder : Str → Option Str) (base : Str) (y : Int) : Prop :=
  ∃ text rest, folder (base ++ ".key".toList) = some text ∧ text ≠ [] ∧
    ∃ line, text = line ++ rest ∧ (∀ c ∈ line, c ≠ '\n' ∧ c ≠ '\r') ∧
      (∀ c, rest.head? = some c → c = '\n' ∨ c = '\r') ∧ y = parseLabel line

theorem labelOf_firstLine (folder : Str → Option Str) (base text line : Str)
    (h : folder (base ++ ".key".toList) = some text) (hl : firstLine text = .ok line) :
    LabelOf folder base (parseLabel line) := by
  unfold firstLine at hl
  split at hl
  · cases hl
  · rename_i hne
    cases hl
    refine ⟨text, text.dropWhile (fun c => c ≠ '\n' && c ≠ '\r'), h, hne, _, (List.takeWhile_append_dropWhile).symm, ?_, ?_, rfl⟩
    · intro c hc
      have := List.all_eq_true.1 (List.all_takeWhile (l := text) (p := fun c => c ≠ '\n' && c ≠ '\r')) c hc
      simpa using this
    · intro c hc
      have := List.head?_dropWhile_not (fun c => c ≠ '\n' && c ≠ '\r') text
      rw [hc] at this
      simp only [decide_not, Bool.and_eq_false_imp, Bool.not_eq_eq_eq_not, Bool.not_true, decide_eq_false_iff_not,
        Bool.not_false, decide_eq_true_eq] at this
      by_cases h1 : c = '\n'
      · exact Or.inl h1
      · exact Or.inr (this h1)

/-! ### What the loop leaves behind -/

/-- Invariant of the two dictionaries. -/
structure Aligned (evaluate : Str → PyRes (List K)) (files : List (Str × Str)) (folder : Str → Option Str)
    (c : Creator K) : Prop where
  keys : AMap.keys c.features = AMap.keys c.annotations
  nodup : (AMap.keys c.features).Nodup
  row : ∀ b x, AMap.get? c.features b = some x → ∃ f, (f, b) ∈ files ∧ evaluate f = .ok x
  label : ∀ b y, AMap.get? c.annotations b = some y → LabelOf folder b y

theorem computeLoop_aligned (evaluate : Str → PyRes (List K)) (all : List (Str × Str)) (folder : Str → Option Str) :
    ∀ (fs : List (Str × Str)) (c c' : Creator K), (∀ p ∈ fs, p ∈ all) → c.annotationFolder = some folder →
      Aligned evaluate all folder c → Creator.computeLoop evaluate c fs = .ok c' → c.hasFeatures = false →
      (c'.hasFeatures = true → Aligned evaluate all folder c' ∧
        (∀ p ∈ fs, p.2 ∈ AMap.keys c'.features) ∧ (∀ b ∈ AMap.keys c.features, b ∈ AMap.keys c'.features) ∧
        c'.name = c.name ∧ c'.splits = c.splits) ∧
      ((∃ p ∈ fs, folder (p.2 ++ ".key".toList) = none) → c'.hasFeatures = false) := by
  intro fs
  induction fs with
  | nil =>
    intro c c' _ _ hinv h _
    cases h
    exact ⟨fun _ => ⟨⟨hinv.keys, hinv.nodup, hinv.row, hinv.label⟩, by simp, fun _ h => h, rfl, rfl⟩, by simp⟩
  | cons p fs ih =>
    intro c c' hall hfol hinv h hf
    obtain ⟨f, b⟩ := p
    unfold Creator.computeLoop at h
    obtain ⟨x, hx, h⟩ := PyRes.bind_eq_ok.1 h
    rw [hfol] at h
    simp only at h
    cases ht : folder (b ++ ".key".toList) with
    | none =>
      rw [ht] at h
      cases h
      refine ⟨?_, fun _ => hf⟩
      intro h'
      simp only at h'
      rw [hf] at h'
      cases h'
    | some text =>
      rw [ht] at h
      simp only at h
      obtain ⟨line, hl, h⟩ := PyRes.bind_eq_ok.1 h
      have hinv' : Aligned evaluate all folder { c with
            annotationFolder := some folder
            features := AMap.set c.features b x
            annotations := AMap.set c.annotations b (parseLabel line) } := by
        refine ⟨keys_set_congr _ _ _ _ _ hinv.keys, AMap.keys_nodup_set _ _ _ hinv.nodup, ?_, ?_⟩
        · intro b' x' hb'
          simp only [AMap.get?_set] at hb'
          split at hb'
          · rename_i he
            subst he
            cases hb'
            exact ⟨f, hall _ (by simp), hx⟩
          · exact hinv.row b' x' hb'
        · intro b' y' hb'
          simp only [AMap.get?_set] at hb'
          split at hb'
          · rename_i he
            subst he
            cases hb'
            exact labelOf_firstLine folder _ text line ht hl
          · exact hinv.label b' y' hb'
      obtain ⟨i1, i2⟩ := ih _ c' (fun p hp => hall p (by simp [hp])) rfl hinv' h hf
      refine ⟨?_, ?_⟩
      · intro hh
        obtain ⟨j1, j2, j3, j4, j5⟩ := i1 hh
        refine ⟨j1, ?_, ?_, j4, j5⟩
        · intro p hp
          rcases List.mem_cons.1 hp with rfl | hp
          · exact j3 _ ((AMap.mem_keys_set _ _ _ _).2 (Or.inl rfl))
          · exact j2 p hp
        · intro b' hb'
          exact j3 _ ((AMap.mem_keys_set _ _ _ _).2 (Or.inr hb'))
      · rintro ⟨p, hp, hn⟩
        rcases List.mem_cons.1 hp with rfl | hp
        · simp only at hn
          rw [hn] at ht
          cases ht
        · exact i2 ⟨p, hp, hn⟩

/-! ### `__init__` -/

theorem rsplitDot_spec (root ext : Str) (he : '.' ∉ ext) : rsplitDot (root ++ '.' :: ext) = some (root, ext) := by
  unfold rsplitDot
  have h1 : (root ++ '.' :: ext).reverse.dropWhile (· ≠ '.') = '.' :: root.reverse := by
    rw [List.reverse_append, List.reverse_cons, List.append_assoc,
      List.dropWhile_append_of_pos (by intro c hc; simp; rintro rfl; exact he (by simpa using hc))]
    simp
  rw [h1, List.reverse_cons, List.reverse_reverse]
  split
  · rename_i h; simp at h
  · have : (root ++ ['.']).length = root.length + 1 := by simp
    rw [this]
    simp

/-- `f` is an accepted file with base name `b`. -/
def Accepted (f b : Str) : Prop :=
  ∃ ext, f = b ++ '.' :: ext ∧ '.' ∉ ext ∧ ext ∈ ["mid", "csv", "wav"].map String.toList

theorem rsplitDot_some {f b ext : Str} (h : rsplitDot f = some (b, ext)) : f = b ++ '.' :: ext ∧ '.' ∉ ext := by
  by_cases hd : '.' ∈ f
  · obtain ⟨pre, post, h1, h2⟩ : ∃ pre post, f = pre ++ '.' :: post ∧ '.' ∉ post := by
      clear h
      induction f with
      | nil => simp at hd
      | cons c f ih =>
        by_cases hf : '.' ∈ f
        · obtain ⟨p, q, h1, h2⟩ := ih hf
          exact ⟨c :: p, q, by simp [h1], h2⟩
        · rcases List.mem_cons.1 hd with rfl | hd
          · exact ⟨[], f, rfl, hf⟩
          · exact absurd hd hf
    rw [h1, rsplitDot_spec pre post h2] at h
    cases h
    exact ⟨h1, h2⟩
  · unfold rsplitDot at h
    have : f.reverse.dropWhile (· ≠ '.') = [] := by
      rw [List.dropWhile_eq_nil_iff]
      intro c hc
      simp only [ne_eq, decide_not, Bool.not_eq_eq_eq_not, Bool.not_true, decide_eq_false_iff_not]
      rintro rfl
      exact hd (by simpa using hc)
    rw [this] at h
    cases h

theorem listFiles_spec (l : List Str) : ∀ files, listFiles l = .ok files →
    files.map Prod.fst = l ∧ ∀ p ∈ files, Accepted p.1 p.2 := by
  induction l with
  | nil => intro files h; cases h; simp
  | cons f l ih =>
    intro files h
    unfold listFiles at h
    cases hr : rsplitDot f with
    | none => rw [hr] at h; cases h
    | some q =>
      obtain ⟨b, ext⟩ := q
      rw [hr] at h
      simp only at h
      split at h
      · cases h
      · rename_i hx
        obtain ⟨r, h1, h2⟩ := PyRes.bind_eq_ok.1 h
        cases h2
        obtain ⟨i1, i2⟩ := ih r h1
        refine ⟨by simp [i1], ?_⟩
        intro p hp
        rcases List.mem_cons.1 hp with rfl | hp
        · obtain ⟨h3, h4⟩ := rsplitDot_some hr
          exact ⟨ext, h3, h4, not_not.1 hx⟩
        · exact i2 p hp

theorem listFiles_ok (bases : List Str) (ext : Str → Str)
    (he : ∀ b ∈ bases, ext b ∈ ["mid", "csv", "wav"].map String.toList) :
    listFiles (bases.map (fun b => b ++ '.' :: ext b)) = .ok (bases.map (fun b => (b ++ '.' :: ext b, b))) := by
  induction bases with
  | nil => rfl
  | cons b bases ih =>
    have h1 := he b (by simp)
    have hdot : '.' ∉ ext b := by
      have : ∀ e ∈ ["mid", "csv", "wav"].map String.toList, '.' ∉ e := by decide
      exact this _ h1
    simp only [List.map_cons, listFiles, rsplitDot_spec b (ext b) hdot]
    rw [if_neg (not_not.2 (show ext b ∈ ["mid".toList, "csv".toList, "wav".toList] from h1)), ih (fun b hb => he b (by simp [hb]))]
    rfl

/-! ### C60 -/

/-- **C60, alignment.**  Whatever the folder lists (also several files with one base name): if `compute_features` ends
with everything annotated, the written rows and labels are as many, and row `i` and label `i` belong to one base name
`b`: the row is the evaluation of an accepted file `b.<ext>` of the folder and the label that of `b.key`.  Every file
of the folder has its base name among them. -/
theorem C60_aligned (evaluate : Str → PyRes (List K)) (name : Str) (listing : List Str) (folder : Str → Option Str)
    (splits : AMap Str (List Str)) (ps ts : List Str) (mixed : Bool) (c c' : Creator K)
    (h : Creator.new name listing (some folder) splits = .ok c) (h' : c.computeFeatures evaluate = .ok c')
    (hok : ∀ p ∈ c.files, folder (p.2 ++ ".key".toList) ≠ none) :
    ∃ (bases : List Str) (rows : List (List K)) (labels : List Int),
      (name ++ "_features.pkl".toList, Content.rows rows) ∈ c'.write ps ts mixed ∧
      (name ++ "_annotations.pkl".toList, Content.labels labels) ∈ c'.write ps ts mixed ∧
      bases.Nodup ∧ rows.length = bases.length ∧ labels.length = bases.length ∧
      (∀ f ∈ listing, ∃ b ∈ bases, Accepted f b) ∧
      ∀ (i : Nat) (b : Str), bases[i]? = some b → ∃ f x y, f ∈ listing ∧ Accepted f b ∧ evaluate f = .ok x ∧
        rows[i]? = some x ∧ LabelOf folder b y ∧ labels[i]? = some y := by
  unfold Creator.new at h
  obtain ⟨files, hfiles, h⟩ := PyRes.bind_eq_ok.1 h
  obtain ⟨l1, l2⟩ := listFiles_spec listing files hfiles
  split at h
  · cases h
  · rename_i hne
    cases h
    simp only at hok
    have hinv : Aligned evaluate files folder (⟨name, files, some folder, splits, [], [], false⟩ : Creator K) :=
      ⟨rfl, by simp [AMap.keys], by intro b x h; simp at h, by intro b x h; simp at h⟩
    have hhas : c'.hasFeatures = true := by
      have key : ∀ (fs : List (Str × Str)) (c c' : Creator K), (∀ p ∈ fs, folder (p.2 ++ ".key".toList) ≠ none) →
          c.annotationFolder = some folder → Creator.computeLoop evaluate c fs = .ok c' → c'.hasFeatures = true := by
        intro fs
        induction fs with
        | nil => intro c c' _ _ h; cases h; rfl
        | cons p fs ih =>
          intro c c' hp hfol h
          obtain ⟨f, b⟩ := p
          unfold Creator.computeLoop at h
          obtain ⟨x, hx, h⟩ := PyRes.bind_eq_ok.1 h
          rw [hfol] at h
          simp only at h
          cases ht : folder (b ++ ".key".toList) with
          | none => exact absurd ht (hp (f, b) (by simp))
          | some text =>
            rw [ht] at h
            simp only at h
            obtain ⟨line, hl, h⟩ := PyRes.bind_eq_ok.1 h
            exact ih _ _ (fun p hp' => hp p (by simp [hp'])) (by rfl) h
      exact key files _ c' hok rfl h'
    obtain ⟨i1, -⟩ := computeLoop_aligned evaluate files folder files _ c' (fun _ h => h) rfl hinv h' rfl
    obtain ⟨inv, hkeys, _, hname, _⟩ := i1 hhas
    have hne' : c'.annotations ≠ [] := by
      intro h0
      obtain ⟨p, fs, rfl⟩ := List.exists_cons_of_ne_nil hne
      have := hkeys p (by simp)
      rw [inv.keys, h0] at this
      simp [AMap.keys] at this
    refine ⟨AMap.keys c'.features, c'.features.map Prod.snd, c'.annotations.map Prod.snd, ?_, ?_, inv.nodup, ?_, ?_, ?_, ?_⟩
    · unfold Creator.write
      simp only at hname
      simp [hhas, hname]
    · unfold Creator.write
      simp only at hname
      simp [hhas, hname, hne']
    · simp [AMap.keys]
    · rw [inv.keys]
      simp [AMap.keys]
    · intro f hf
      rw [← l1] at hf
      obtain ⟨p, hp, rfl⟩ := List.mem_map.1 hf
      exact ⟨p.2, hkeys p hp, l2 p hp⟩
    · intro i b hb
      obtain ⟨hi, hbi⟩ := List.getElem?_eq_some_iff.1 hb
      have hi1 : i < c'.features.length := by simpa [AMap.keys] using hi
      have hi2 : i < c'.annotations.length := by rw [inv.keys] at hi; simpa [AMap.keys] using hi
      have e1 : c'.features[i].1 = b := by simpa [AMap.keys] using hbi
      have e2 : c'.annotations[i].1 = b := by
        have : (AMap.keys c'.annotations)[i]? = some b := by rw [← inv.keys]; exact hb
        simp only [AMap.keys, List.getElem?_map, List.getElem?_eq_getElem hi2, Option.map_some, Option.some.injEq] at this
        exact this
      have g1 : AMap.get? c'.features b = some c'.features[i].2 :=
        AMap.get?_eq_some_of_mem _ inv.nodup (by rw [← e1]; exact List.getElem_mem hi1)
      have g2 : AMap.get? c'.annotations b = some c'.annotations[i].2 :=
        AMap.get?_eq_some_of_mem _ (by rw [← inv.keys]; exact inv.nodup) (by rw [← e2]; exact List.getElem_mem hi2)
      obtain ⟨f, hf, hev⟩ := inv.row b _ g1
      refine ⟨f, c'.features[i].2, c'.annotations[i].2, ?_, l2 _ hf, hev, ?_, inv.label b _ g2, ?_⟩
      · rw [← l1]; exact List.mem_map.2 ⟨_, hf, rfl⟩
      · simp [List.getElem?_eq_getElem hi1]
      · simp [List.getElem?_eq_getElem hi2]

/-- The run on a folder with distinct base names and annotations, with the creator it leaves. -/
theorem distinct_run (evaluate : Str → PyRes (List K)) (name : Str) (bases : List Str) (hb : bases ≠ []) (hd : bases.Nodup)
    (ext : Str → Str) (he : ∀ b ∈ bases, ext b ∈ ["mid", "csv", "wav"].map String.toList) (x : Str → List K)
    (hx : ∀ b ∈ bases, evaluate (b ++ '.' :: ext b) = .ok (x b)) (folder : Str → Option Str) (text : Str → Str)
    (ht : ∀ b ∈ bases, folder (b ++ ".key".toList) = some (text b) ∧ text b ≠ []) (splits : AMap Str (List Str)) :
    ∃ c c', Creator.new name (bases.map (fun b => b ++ '.' :: ext b)) (some folder) splits = .ok c ∧
      c.computeFeatures evaluate = .ok c' ∧
      c' = ⟨name, bases.map (fun b => (b ++ '.' :: ext b, b)), some folder, splits, bases.map (fun b => (b, x b)),
        bases.map (fun b => (b, parseLabel ((text b).takeWhile (fun c => c ≠ '\n' && c ≠ '\r')))), true⟩ := by
  let files := bases.map (fun b => (b ++ '.' :: ext b, b))
  have hloop : ∀ (bs : List Str) (c : Creator K), (∀ b ∈ bs, b ∈ bases) → c.annotationFolder = some folder →
      (∀ b ∈ bs, b ∉ AMap.keys c.features ∧ b ∉ AMap.keys c.annotations) → bs.Nodup →
      Creator.computeLoop evaluate c (bs.map (fun b => (b ++ '.' :: ext b, b))) = .ok { c with
        features := c.features ++ bs.map (fun b => (b, x b))
        annotations := c.annotations ++ bs.map (fun b => (b, parseLabel ((text b).takeWhile (fun c => c ≠ '\n' && c ≠ '\r'))))
        hasFeatures := true } := by
    intro bs
    induction bs with
    | nil => intro c _ _ _ _; simp [Creator.computeLoop]
    | cons b bs ih =>
      intro c hbs hfol hnew hnd
      have hbm := hbs b (by simp)
      obtain ⟨n1, n2⟩ := hnew b (by simp)
      rw [List.nodup_cons] at hnd
      obtain ⟨cn, cf, ca, cs, cfe, can, ch⟩ := c
      simp only at hfol n1 n2 hnew
      subst hfol
      simp only [List.map_cons, Creator.computeLoop, hx b hbm, PyRes.bind_ok, (ht b hbm).1]
      simp only [firstLine, if_neg (ht b hbm).2, PyRes.bind_ok]
      rw [ih _ (fun b hb => hbs b (by simp [hb])) (by rfl) ?_ hnd.2]
      · simp [set_new _ _ _ n1, set_new _ _ _ n2]
      · intro b' hb'
        obtain ⟨m1, m2⟩ := hnew b' (by simp [hb'])
        have hne : b' ≠ b := by rintro rfl; exact hnd.1 hb'
        constructor
        · intro h
          rcases (AMap.mem_keys_set _ _ _ _).1 h with h | h
          · exact hne h
          · exact m1 h
        · intro h
          rcases (AMap.mem_keys_set _ _ _ _).1 h with h | h
          · exact hne h
          · exact m2 h
  have hnew : Creator.new name (bases.map (fun b => b ++ '.' :: ext b)) (some folder) splits =
      .ok (⟨name, files, some folder, splits, [], [], false⟩ : Creator K) := by
    unfold Creator.new
    rw [listFiles_ok bases ext he]
    simp only [PyRes.bind_ok]
    rw [if_neg (by simpa using hb)]
    rfl
  have := hloop bases ⟨name, files, some folder, splits, [], [], false⟩ (fun _ h => h) rfl (by simp [AMap.keys]) hd
  exact ⟨_, _, hnew, this, rfl⟩

/-- **C60, one row per file.**  When the base names differ there is one row per file, in the order of the folder. -/
theorem C60_distinct (evaluate : Str → PyRes (List K)) (name : Str) (bases : List Str) (hb : bases ≠ []) (hd : bases.Nodup)
    (ext : Str → Str) (he : ∀ b ∈ bases, ext b ∈ ["mid", "csv", "wav"].map String.toList) (x : Str → List K)
    (hx : ∀ b ∈ bases, evaluate (b ++ '.' :: ext b) = .ok (x b)) (folder : Str → Option Str) (text : Str → Str)
    (ht : ∀ b ∈ bases, folder (b ++ ".key".toList) = some (text b) ∧ text b ≠ []) (splits : AMap Str (List Str))
    (ps ts : List Str) (mixed : Bool) :
    ∃ c c', Creator.new name (bases.map (fun b => b ++ '.' :: ext b)) (some folder) splits = .ok c ∧
      c.computeFeatures evaluate = .ok c' ∧
      (name ++ "_features.pkl".toList, Content.rows (bases.map x)) ∈ c'.write ps ts mixed ∧
      (name ++ "_annotations.pkl".toList, Content.labels (bases.map
        (fun b => parseLabel ((text b).takeWhile (fun c => c ≠ '\n' && c ≠ '\r'))))) ∈ c'.write ps ts mixed := by
  obtain ⟨c, c', h1, h2, rfl⟩ := distinct_run evaluate name bases hb hd ext he x hx folder text ht splits
  refine ⟨c, _, h1, h2, ?_, ?_⟩
  · simp [Creator.write, Function.comp_def]
  · simp [Creator.write, Function.comp_def, hb]

/-- **C60, all or nothing.**  If one annotation file is missing, nothing at all is written. -/
theorem C60_missing (evaluate : Str → PyRes (List K)) (name : Str) (listing : List Str) (folder : Str → Option Str)
    (splits : AMap Str (List Str)) (ps ts : List Str) (mixed : Bool) (c c' : Creator K)
    (h : Creator.new name listing (some folder) splits = .ok c) (h' : c.computeFeatures evaluate = .ok c')
    (f b : Str) (hf : f ∈ listing) (hb : Accepted f b) (hno : folder (b ++ ".key".toList) = none) :
    c'.write ps ts mixed = [] := by
  unfold Creator.new at h
  obtain ⟨files, hfiles, h⟩ := PyRes.bind_eq_ok.1 h
  obtain ⟨l1, l2⟩ := listFiles_spec listing files hfiles
  split at h
  · cases h
  · cases h
    have hinv : Aligned evaluate files folder (⟨name, files, some folder, splits, [], [], false⟩ : Creator K) :=
      ⟨rfl, by simp [AMap.keys], by intro b x h; simp at h, by intro b x h; simp at h⟩
    obtain ⟨-, i2⟩ := computeLoop_aligned evaluate files folder files _ c' (fun _ h => h) rfl hinv h' rfl
    have : c'.hasFeatures = false := by
      apply i2
      rw [← l1] at hf
      obtain ⟨p, hp, rfl⟩ := List.mem_map.1 hf
      obtain ⟨ext, e1, e2, _⟩ := hb
      obtain ⟨ext', e1', e2', _⟩ := l2 p hp
      have h1 := rsplitDot_spec b ext e2
      have h2 := rsplitDot_spec p.2 ext' e2'
      rw [← e1] at h1
      rw [← e1', h1] at h2
      cases h2
      exact ⟨p, hp, hno⟩
    unfold Creator.write
    rw [this]
    rfl

theorem split_ok (c : Creator K) : ∀ (v : List Str) (xs : List (List K)) (ys : List Int) (x : Str → List K) (y : Str → Int),
    (∀ f ∈ v, AMap.get? c.features f = some (x f)) → (c.annotations ≠ [] → ∀ f ∈ v, AMap.get? c.annotations f = some (y f)) →
    c.split v xs ys = (xs ++ v.map x, if c.annotations = [] then ys else ys ++ v.map y) := by
  intro v
  induction v with
  | nil => intro xs ys x y _ _; simp [Creator.split]
  | cons f v ih =>
    intro xs ys x y hx hy
    unfold Creator.split
    rw [hx f (by simp)]
    by_cases ha : c.annotations = []
    · simp only [ha, if_true]
      rw [ih _ _ x y (fun f hf => hx f (by simp [hf])) (fun h => absurd ha h)]
      simp [ha]
    · simp only [if_neg ha]
      rw [hy ha f (by simp)]
      simp only
      rw [ih _ _ x y (fun f hf => hx f (by simp [hf])) (fun h f hf => hy h f (by simp [hf]))]
      simp [ha]

theorem split_bad (c : Creator K) : ∀ (v : List Str) (xs : List (List K)) (ys : List Int),
    (∃ f ∈ v, AMap.get? c.features f = none ∨ (c.annotations ≠ [] ∧ AMap.get? c.annotations f = none)) →
    c.split v xs ys = ([], []) := by
  intro v
  induction v with
  | nil => rintro xs ys ⟨f, hf, _⟩; simp at hf
  | cons g v ih =>
    rintro xs ys ⟨f, hf, hbad⟩
    unfold Creator.split
    cases hg : AMap.get? c.features g with
    | none => rfl
    | some x =>
      simp only
      by_cases ha : c.annotations = []
      · rw [if_pos ha]
        apply ih
        rcases List.mem_cons.1 hf with rfl | hf
        · rcases hbad with h | ⟨h, _⟩
          · rw [h] at hg; cases hg
          · exact absurd ha h
        · exact ⟨f, hf, hbad⟩
      · rw [if_neg ha]
        cases hy : AMap.get? c.annotations g with
        | none => rfl
        | some y =>
          simp only
          apply ih
          rcases List.mem_cons.1 hf with rfl | hf
          · rcases hbad with h | ⟨_, h⟩
            · rw [h] at hg; cases hg
            · rw [h] at hy; cases hy
          · exact ⟨f, hf, hbad⟩

/-- **C60, splits.**  A split whose lines are all known and that has at least one line is written with one row (and
label) per line, in the order of the lines; a split with an unknown line, or without lines, is not written. -/
theorem C60_split (c : Creator K) (k : Str) (v : List Str) :
    (∀ (x : Str → List K) (y : Str → Int), v ≠ [] → c.annotations ≠ [] → (∀ f ∈ v, AMap.get? c.features f = some (x f)) →
      (∀ f ∈ v, AMap.get? c.annotations f = some (y f)) →
      c.writeSplit k v = [(c.name ++ '-' :: k ++ "_features.pkl".toList, .rows (v.map x)),
        (c.name ++ '-' :: k ++ "_annotations.pkl".toList, .labels (v.map y))]) ∧
    (∀ (x : Str → List K), v ≠ [] → c.annotations = [] → (∀ f ∈ v, AMap.get? c.features f = some (x f)) →
      c.writeSplit k v = [(c.name ++ '-' :: k ++ "_features.pkl".toList, .rows (v.map x))]) ∧
    ((v = [] ∨ ∃ f ∈ v, AMap.get? c.features f = none ∨ (c.annotations ≠ [] ∧ AMap.get? c.annotations f = none)) →
      c.writeSplit k v = []) := by
  refine ⟨?_, ?_, ?_⟩
  · intro x y hv ha hx hy
    unfold Creator.writeSplit
    rw [split_ok c v [] [] x y hx (fun _ => hy)]
    simp [hv, ha]
  · intro x hv ha hx
    unfold Creator.writeSplit
    rw [split_ok c v [] [] x (fun _ => 0) hx (fun h => absurd ha h)]
    simp [hv, ha]
  · rintro (rfl | h)
    · rfl
    · unfold Creator.writeSplit
      rw [split_bad c v [] [] h]
      simp

/-- **C60 violated, same base name.**  Two files `a.mid` and `a.csv`: one row is lost, and which one is decided by the
order of `os.listdir`. -/
theorem C60_same_base_violated (x₁ x₂ : List K) (evaluate : Str → PyRes (List K))
    (h₁ : evaluate "a.mid".toList = .ok x₁) (h₂ : evaluate "a.csv".toList = .ok x₂) :
    (∃ c c', Creator.new "d".toList ["a.mid".toList, "a.csv".toList] none [] = .ok c ∧ c.computeFeatures evaluate = .ok c' ∧
      ("d_features.pkl".toList, Content.rows [x₂]) ∈ c'.write [] [] false) ∧
    (∃ c c', Creator.new "d".toList ["a.csv".toList, "a.mid".toList] none [] = .ok c ∧ c.computeFeatures evaluate = .ok c' ∧
      ("d_features.pkl".toList, Content.rows [x₁]) ∈ c'.write [] [] false) := by
  have l1 : listFiles ["a.mid".toList, "a.csv".toList] = .ok [("a.mid".toList, ['a']), ("a.csv".toList, ['a'])] := by
    decide +kernel
  have l2 : listFiles ["a.csv".toList, "a.mid".toList] = .ok [("a.csv".toList, ['a']), ("a.mid".toList, ['a'])] := by
    decide +kernel
  refine ⟨⟨⟨"d".toList, [("a.mid".toList, ['a']), ("a.csv".toList, ['a'])], none, [], [], [], false⟩, ?_⟩,
    ⟨⟨"d".toList, [("a.csv".toList, ['a']), ("a.mid".toList, ['a'])], none, [], [], [], false⟩, ?_⟩⟩
  · refine ⟨⟨"d".toList, [("a.mid".toList, ['a']), ("a.csv".toList, ['a'])], none, [], [(['a'], x₂)], [], true⟩, ?_, ?_, ?_⟩
    · unfold Creator.new
      rw [l1]
      rfl
    · simp only [Creator.computeFeatures, Creator.computeLoop, h₁, h₂, PyRes.bind_ok]
      rfl
    · exact List.mem_cons_of_mem _ (List.mem_cons_self ..)
  · refine ⟨⟨"d".toList, [("a.csv".toList, ['a']), ("a.mid".toList, ['a'])], none, [], [(['a'], x₁)], [], true⟩, ?_, ?_, ?_⟩
    · unfold Creator.new
      rw [l2]
      rfl
    · simp only [Creator.computeFeatures, Creator.computeLoop, h₁, h₂, PyRes.bind_ok]
      rfl
    · exact List.mem_cons_of_mem _ (List.mem_cons_self ..)

/-! ### Concrete case -/

def sampleFolder : Str → Option Str := fun n =>
  if n = "p.key".toList then some "C\n".toList else if n = "q.key".toList then some "a minor\n".toList else none

def sampleEvaluate : Str → PyRes (List Nat) := fun f => .ok [f.length]

/-- C60: two annotated files and two splits, one with an unknown line. -/
example : ∃ c c', Creator.new "d".toList ["p.wav".toList, "q.mid".toList] (some sampleFolder)
      [("s".toList, ["q".toList, "p".toList, "q".toList]), ("t".toList, ["r".toList])] = .ok c ∧
    c.computeFeatures sampleEvaluate = .ok c' ∧
    c'.write ["x".toList] ["y".toList] false =
      [("d_ensemble.txt".toList, .text "x\ny\nmixed_profiles=False\n".toList),
       ("d_features.pkl".toList, .rows [[5], [5]]), ("d_annotations.pkl".toList, .labels [0, 21]),
       ("d-s_features.pkl".toList, .rows [[5], [5], [5]]), ("d-s_annotations.pkl".toList, .labels [21, 0, 21])] := by
  refine ⟨⟨"d".toList, [("p.wav".toList, "p".toList), ("q.mid".toList, "q".toList)], some sampleFolder,
    [("s".toList, ["q".toList, "p".toList, "q".toList]), ("t".toList, ["r".toList])], [], [], false⟩,
    ⟨"d".toList, [("p.wav".toList, "p".toList), ("q.mid".toList, "q".toList)], some sampleFolder,
    [("s".toList, ["q".toList, "p".toList, "q".toList]), ("t".toList, ["r".toList])],
    [("p".toList, [5]), ("q".toList, [5])], [("p".toList, 0), ("q".toList, 21)], true⟩, ?_, ?_, by decide +kernel⟩
  · have : listFiles ["p.wav".toList, "q.mid".toList] = .ok [("p.wav".toList, "p".toList), ("q.mid".toList, "q".toList)] := by
      decide +kernel
    unfold Creator.new
    rw [this]
    rfl
  · have e1 : sampleFolder ("p".toList ++ ".key".toList) = some "C\n".toList := by decide +kernel
    have e2 : sampleFolder ("q".toList ++ ".key".toList) = some "a minor\n".toList := by decide +kernel
    have e3 : firstLine "C\n".toList = .ok "C".toList := by decide +kernel
    have e4 : firstLine "a minor\n".toList = .ok "a minor".toList := by decide +kernel
    have e5 : parseLabel "C".toList = 0 ∧ parseLabel "a minor".toList = 21 := by decide +kernel
    simp only [Creator.computeFeatures, Creator.computeLoop, sampleEvaluate, PyRes.bind_ok, e1, e2, e3, e4, e5.1, e5.2]
    rfl

end JKD.Py
