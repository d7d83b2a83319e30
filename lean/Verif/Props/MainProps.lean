import Verif.Model.Main
import Verif.Model.PyDataset
import Verif.Props.PitchClassProps
import Verif.Props.KeyProps
import Verif.Props.GlobalKeyProps
import Verif.Props.ViterbiProps
import Verif.Props.ChromagramProps
/-
C35-C39, C41, C42: the command line, the output and the exit status.
-/

namespace JKD
namespace Main

open Spec

variable {D S P T : Type}

/-! ### Strings -/

theorem findLast_aux (c : Char) (s : Str) (i : Nat) (acc : Option Nat) (h : c ∉ s) :
    (s.zipIdx i).foldl (fun acc p => if p.1 = c then some p.2 else acc) acc = acc := by
  induction s generalizing i acc with
  | nil => rfl
  | cons a s ih =>
    have ha : a ≠ c := by rintro rfl; simp at h
    rw [List.zipIdx_cons, List.foldl_cons]
    simp only [ha, if_false]
    exact ih _ _ (fun hm => h (by simp [hm]))

theorem findLast_none (c : Char) (s : Str) (h : c ∉ s) : findLast c s = none := findLast_aux c s 0 none h

theorem findLast_some (c : Char) (pre post : Str) (h : c ∉ post) :
    findLast c (pre ++ c :: post) = some pre.length := by
  unfold findLast
  rw [List.zipIdx_append, List.foldl_append, List.zipIdx_cons, List.foldl_cons]
  simp only [if_true]
  rw [findLast_aux c post _ _ h]
  simp

/-! ### C35: `-f` -/

/-- None of the values `-f` accepts is one of the values it is compared with. -/
theorem formatType_choice (f : Str) (hf : f ∈ formatChoices) : formatType f = none := by
  revert f
  decide

/-- **C35 violated, behaviour.**  The program cannot tell the accepted values of `-f` apart: whatever
the variable `inputType` happens to hold, replacing one accepted value by another changes nothing. -/
theorem C35_format_ignored_violated (E : Env D S P T) (o : Options) (f g : Str) (hf : f ∈ formatChoices)
    (hg : g ∈ formatChoices) :
    main E (.ok { o with inputformat := some f }) = main E (.ok { o with inputformat := some g }) := by
  have : ∀ h ∈ formatChoices, main E (.ok { o with inputformat := some h }) =
      main E (.ok { o with inputformat := some ".".toList }) := by
    intro h hh
    have h1 := formatType_choice h hh
    have h2 : formatType ".".toList = none := by decide
    unfold main parseArgs chooseInput
    simp only [h1, h2]
    rfl
  rw [this f hf, this g hg]

/-- **C35 violated, by the standard.**  With any accepted `-f` value and an otherwise correct command line,
the behaviour is undefined: `inputType` is read without ever having been written. -/
theorem C35_format_violated (E : Env D S P T) (o : Options) (f file : Str) (hf : f ∈ formatChoices)
    (ho : o.inputformat = some f) (hargs : o.args = [file]) (hk : o.customkeyprofiles = none)
    (ht : o.customkeytransitions = none) (hjunk : E.junkInputType = none) :
    main E (.ok o) = .ub := by
  have h1 := formatType_choice f hf
  simp [main, parseArgs, hargs, chooseInput, ho, h1, chooseProfiles, hk, chooseTransitions, ht, readInput,
    hjunk]

/-! ### C36: file extensions -/

/-- The extension of a file name: what follows the last dot. -/
def HasExtension (filename ext : Str) : Prop := ∃ pre, filename = pre ++ '.' :: ext ∧ '.' ∉ ext

theorem extensionType_eq (filename ext : Str) (hext : HasExtension filename ext)
    (hlen : filename.length < npos) :
    extensionType filename = .ok (
      if ext.map Char.toLower = "wav".toList then some .wav
      else if ext.map Char.toLower = "csv".toList then some .csv
      else if ext.map Char.toLower = "midi".toList ∨ ext.map Char.toLower = "mid".toList then some .midi
      else none) := by
  obtain ⟨pre, rfl, hno⟩ := hext
  have hpos : findLastPos '.' (pre ++ '.' :: ext) = pre.length := by
    rw [findLastPos, findLast_some '.' pre ext hno]; rfl
  have hsub : substr (pre ++ '.' :: ext) pre.length npos = .ok ('.' :: ext) := by
    unfold substr
    rw [if_pos (by simp), List.drop_left, List.take_of_length_le]
    simp only [List.length_append] at hlen
    omega
  have hlow : ('.' :: ext).map tolowerC = '.' :: ext.map Char.toLower := by
    rw [List.map_cons]
    congr 1
    exact List.map_congr_left (fun c _ => PitchClass.tolowerC_eq c)
  simp only [extensionType, hpos, hsub, Res.bind_ok, hlow]
  have e : ∀ s : String, ('.' :: ext.map Char.toLower = '.' :: s.toList) ↔ (ext.map Char.toLower = s.toList) := by
    intro s; simp
  have e1 : ".wav".toList = '.' :: "wav".toList := by decide
  have e2 : ".csv".toList = '.' :: "csv".toList := by decide
  have e3 : ".midi".toList = '.' :: "midi".toList := by decide
  have e4 : ".mid".toList = '.' :: "mid".toList := by decide
  simp only [e1, e2, e3, e4, e, Res.pure_eq]
  split
  · rfl
  · split
    · rfl
    · split <;> rfl

/-- **C36 (partial).**  Without `-f`, for a name with an extension: the format is wav, csv or midi according
to the text after the last dot, ignoring case; any other extension is the message and exit status 0.
Missing: names without a dot, see `C36_no_dot_violated`. -/
theorem C36_extension_partial (E : Env D S P T) (o : Options) (filename ext : Str)
    (ho : o.inputformat = none) (hext : HasExtension filename ext) (hlen : filename.length < npos) :
    (ext.map Char.toLower = "wav".toList → chooseInput E o filename = .ok (.ok (some .wav))) ∧
    (ext.map Char.toLower = "csv".toList → chooseInput E o filename = .ok (.ok (some .csv))) ∧
    (ext.map Char.toLower = "mid".toList ∨ ext.map Char.toLower = "midi".toList →
      chooseInput E o filename = .ok (.ok (some .midi))) ∧
    (ext.map Char.toLower ∉ ["wav".toList, "csv".toList, "mid".toList, "midi".toList] →
      chooseInput E o filename = .ok (.error { stdout := unknownMessage ++ E.help, stderr := [], code := 0 }) ∧
      (o.args = [filename] →
        main E (.ok o) = .ok { stdout := unknownMessage ++ E.help, stderr := [], code := 0 })) := by
  have h := extensionType_eq filename ext hext hlen
  refine ⟨?_, ?_, ?_, ?_⟩
  · intro he
    rw [if_pos he] at h
    simp [chooseInput, ho, h]
  · intro he
    rw [if_neg (by rw [he]; decide), if_pos he] at h
    simp [chooseInput, ho, h]
  · intro he
    rw [if_neg (by rcases he with he | he <;> rw [he] <;> decide),
      if_neg (by rcases he with he | he <;> rw [he] <;> decide), if_pos he.symm] at h
    simp [chooseInput, ho, h]
  · intro he
    simp only [List.mem_cons, List.not_mem_nil, or_false, not_or] at he
    rw [if_neg he.1, if_neg he.2.1, if_neg (by rintro (h | h); exacts [he.2.2.2 h, he.2.2.1 h])] at h
    have hc : chooseInput E o filename =
        .ok (.error { stdout := unknownMessage ++ E.help, stderr := [], code := 0 }) := by
      simp [chooseInput, ho, h]
    refine ⟨hc, ?_⟩
    intro ha
    simp [main, parseArgs, ha, hc]

/-- **C36 violated.**  A file name without a dot is not rejected gracefully: the program dies of an uncaught
`std::out_of_range`. -/
theorem C36_no_dot_violated (E : Env D S P T) (o : Options) (filename : Str) (ho : o.inputformat = none)
    (ha : o.args = [filename]) (hno : '.' ∉ filename) (hlen : filename.length < npos) :
    main E (.ok o) = .throw .outOfRange := by
  have hpos : findLastPos '.' filename = npos := by
    rw [findLastPos, findLast_none '.' filename hno]; rfl
  have hsub : substr filename npos npos = .throw .outOfRange := by
    unfold substr
    rw [if_neg (by omega)]
  have : extensionType filename = .throw .outOfRange := by
    simp [extensionType, hpos, hsub]
  simp [main, parseArgs, ha, chooseInput, ho, this]

/-- A name with two dots and mixed case. -/
example : HasExtension "my.song_C.WaV".toList "WaV".toList ∧
    ("WaV".toList).map Char.toLower = "wav".toList := by
  exact ⟨⟨"my.song_C".toList, by decide, by decide⟩, by decide⟩

/-! ### C37: custom lists -/

theorem fillProfiles_aux (vals major minor : List D) (hmaj : major.length = 12) (hmin : minor.length = 12)
    (i : Nat) :
    ∃ maj' min', vals.foldl (fun s val =>
        if s.2.2 < 12 then (s.1.set s.2.2 val, s.2.1, s.2.2 + 1)
        else (s.1, s.2.1.set (s.2.2 % 12) val, s.2.2 + 1)) (major, minor, i) =
      (maj', min', i + vals.length) ∧ maj'.length = 12 ∧ min'.length = 12 ∧
      (∀ j, j < 12 → maj'[j]? = if i ≤ j ∧ j < i + vals.length then vals[j - i]? else major[j]?) ∧
      (∀ j, j < 12 → i + vals.length ≤ 24 →
        min'[j]? = if i ≤ 12 + j ∧ 12 + j < i + vals.length then vals[12 + j - i]? else minor[j]?) := by
  induction vals generalizing major minor i with
  | nil =>
    refine ⟨major, minor, rfl, hmaj, hmin, ?_, ?_⟩
    · intro j _
      rw [if_neg (by simp only [List.length_nil]; omega)]
    · intro j _ _
      rw [if_neg (by simp only [List.length_nil]; omega)]
  | cons v vals ih =>
    rw [List.foldl_cons]
    by_cases hi : i < 12
    · simp only [hi, if_true]
      obtain ⟨maj', min', h1, h2, h3, h4, h5⟩ := ih (major.set i v) minor (by simpa using hmaj) hmin (i + 1)
      refine ⟨maj', min', by rw [h1]; simp only [List.length_cons]; congr 2; omega, h2, h3, ?_, ?_⟩
      · intro j hj
        rw [h4 j hj]
        simp only [List.length_cons]
        by_cases hij : i = j
        · subst hij
          rw [if_neg (by omega), if_pos (by omega), List.getElem?_set_self (by omega)]
          simp
        · by_cases hc : i + 1 ≤ j ∧ j < i + 1 + vals.length
          · rw [if_pos hc, if_pos (by omega)]
            have : j - i = (j - (i + 1)) + 1 := by omega
            rw [this, List.getElem?_cons_succ]
          · rw [if_neg hc, if_neg (by omega), List.getElem?_set_ne hij]
      · intro j hj hle
        simp only [List.length_cons] at hle ⊢
        rw [h5 j hj (by omega)]
        by_cases hc : i + 1 ≤ 12 + j ∧ 12 + j < i + 1 + vals.length
        · rw [if_pos hc, if_pos (by omega)]
          have : 12 + j - i = (12 + j - (i + 1)) + 1 := by omega
          rw [this, List.getElem?_cons_succ]
        · rw [if_neg hc, if_neg (by omega)]
    · simp only [hi, if_false]
      obtain ⟨maj', min', h1, h2, h3, h4, h5⟩ :=
        ih major (minor.set (i % 12) v) hmaj (by simpa using hmin) (i + 1)
      refine ⟨maj', min', by rw [h1]; simp only [List.length_cons]; congr 2; omega, h2, h3, ?_, ?_⟩
      · intro j hj
        rw [h4 j hj]
        simp only [List.length_cons]
        rw [if_neg (by omega), if_neg (by omega)]
      · intro j hj hle
        simp only [List.length_cons] at hle ⊢
        rw [h5 j hj (by omega)]
        by_cases hij : i = 12 + j
        · have hm : i % 12 = j := by omega
          rw [if_neg (by omega), if_pos (by omega), hm, List.getElem?_set_self (by omega)]
          have : 12 + j - i = 0 := by omega
          rw [this]; rfl
        · by_cases hc : i + 1 ≤ 12 + j ∧ 12 + j < i + 1 + vals.length
          · rw [if_pos hc, if_pos (by omega)]
            have : 12 + j - i = (12 + j - (i + 1)) + 1 := by omega
            rw [this, List.getElem?_cons_succ]
          · rw [if_neg hc, if_neg (by omega), List.getElem?_set_ne]
            omega

/-- **C37, profiles.**  A custom profile string is accepted exactly when it holds 24 numbers; then the first
12 are the major and the last 12 the minor profile.  Any other count gives the message and exit status 0,
without touching memory outside the arrays. -/
theorem C37_profiles (E : Env D S P T) (o : Options) (s : Str) (ho : o.customkeyprofiles = some s)
    (hmaj : E.junkMajor.length = 12) (hmin : E.junkMinor.length = 12) :
    ((E.nums s).length = 24 →
      chooseProfiles E o = .ok ("custom", "custom", (E.nums s).take 12, (E.nums s).drop 12)) ∧
    ((E.nums s).length ≠ 24 →
      chooseProfiles E o = .error { stdout := countMessage "key profiles" (E.nums s).length ++ E.help
                                    stderr := [], code := 0 }) := by
  obtain ⟨maj', min', h1, h2, h3, h4, h5⟩ := fillProfiles_aux (E.nums s) E.junkMajor E.junkMinor hmaj hmin 0
  have hf : fillProfiles E.junkMajor E.junkMinor (E.nums s) = (maj', min', (E.nums s).length) := by
    unfold fillProfiles
    rw [h1]; simp
  constructor
  · intro hlen
    have e1 : maj' = (E.nums s).take 12 := by
      apply List.ext_getElem?
      intro j
      by_cases hj : j < 12
      · rw [h4 j hj, if_pos (by omega), List.getElem?_take_of_lt hj]; rfl
      · rw [List.getElem?_eq_none (by omega), List.getElem?_eq_none (by simp; omega)]
    have e2 : min' = (E.nums s).drop 12 := by
      apply List.ext_getElem?
      intro j
      by_cases hj : j < 12
      · rw [h5 j hj (by omega), if_pos (by omega), List.getElem?_drop]; rfl
      · rw [List.getElem?_eq_none (by omega), List.getElem?_eq_none (by simp; omega)]
    simp [chooseProfiles, ho, hf, hlen, e1, e2]
  · intro hlen
    simp [chooseProfiles, ho, hf, hlen]

theorem fillTransitions_aux (vals arr : List D) (harr : arr.length = 24) (i : Nat)
    (hle : i + vals.length ≤ 24) :
    ∃ arr', forM vals (arr, i) (fun s val => if s.2 < 24 then Res.ok (s.1.set s.2 val, s.2 + 1) else .ub) =
      .ok (arr', i + vals.length) ∧ arr'.length = 24 ∧
      ∀ j, j < 24 → arr'[j]? = if i ≤ j ∧ j < i + vals.length then vals[j - i]? else arr[j]? := by
  induction vals generalizing arr i with
  | nil =>
    refine ⟨arr, rfl, harr, ?_⟩
    intro j _
    rw [if_neg (by simp only [List.length_nil]; omega)]
  | cons v vals ih =>
    simp only [List.length_cons] at hle
    obtain ⟨arr', h1, h2, h3⟩ := ih (arr.set i v) (by simpa using harr) (i + 1) (by omega)
    refine ⟨arr', ?_, h2, ?_⟩
    · rw [forM_cons]
      simp only [show i < 24 by omega, if_true, Res.bind_ok]
      rw [h1]
      simp only [List.length_cons]
      congr 2
      omega
    · intro j hj
      rw [h3 j hj]
      simp only [List.length_cons]
      by_cases hij : i = j
      · subst hij
        rw [if_neg (by omega), if_pos (by omega), List.getElem?_set_self (by omega)]
        simp
      · by_cases hc : i + 1 ≤ j ∧ j < i + 1 + vals.length
        · rw [if_pos hc, if_pos (by omega)]
          have : j - i = (j - (i + 1)) + 1 := by omega
          rw [this, List.getElem?_cons_succ]
        · rw [if_neg hc, if_neg (by omega), List.getElem?_set_ne hij]

/-- **C37 (partial), transitions.**  Up to 24 numbers: accepted exactly when there are 24, and then they are
the transition array; fewer give the message and exit status 0.  Missing: more than 24 numbers, see
`C37_too_many_violated`. -/
theorem C37_transitions_partial (E : Env D S P T) (o : Options) (s : Str)
    (ho : o.customkeytransitions = some s) (harr : E.junkTransition.length = 24) :
    ((E.nums s).length = 24 → chooseTransitions E o = .ok (.ok ("custom", E.nums s))) ∧
    ((E.nums s).length < 24 →
      chooseTransitions E o = .ok (.error
        { stdout := countMessage "key transitions" (E.nums s).length ++ E.help
          stderr := [], code := 0 })) := by
  constructor
  · intro hlen
    obtain ⟨arr', h1, h2, h3⟩ := fillTransitions_aux (E.nums s) E.junkTransition harr 0 (by omega)
    have e : arr' = E.nums s := by
      apply List.ext_getElem?
      intro j
      by_cases hj : j < 24
      · rw [h3 j hj, if_pos (by omega)]; rfl
      · rw [List.getElem?_eq_none (by omega), List.getElem?_eq_none (by omega)]
    simp [chooseTransitions, ho, fillTransitions, h1, hlen, e]
  · intro hlen
    obtain ⟨arr', h1, h2, h3⟩ := fillTransitions_aux (E.nums s) E.junkTransition harr 0 (by omega)
    simp [chooseTransitions, ho, fillTransitions, h1, Nat.ne_of_lt hlen]

/-- **C37 violated.**  More than 24 custom transitions write past the end of the array. -/
theorem C37_too_many_violated (E : Env D S P T) (o : Options) (s : Str)
    (ho : o.customkeytransitions = some s) (harr : E.junkTransition.length = 24)
    (hlen : 24 < (E.nums s).length) : chooseTransitions E o = .ub := by
  obtain ⟨a, b, c, hs, ha⟩ : ∃ a b c, E.nums s = a ++ b :: c ∧ a.length = 24 := by
    refine ⟨(E.nums s).take 24, (E.nums s)[24], (E.nums s).drop 25, ?_, by simp; omega⟩
    simp
  obtain ⟨arr', h1, h2, h3⟩ := fillTransitions_aux a E.junkTransition harr 0 (by omega)
  have : fillTransitions E.junkTransition (E.nums s) = .ub := by
    rw [hs, fillTransitions, forM_append, h1]
    simp [ha]
  simp [chooseTransitions, ho, this]

/-- The same at the level of the program: the wrong number of profile values is reported, 25 transition
values are undefined behaviour. -/
theorem C37_main_profiles (E : Env D S P T) (o : Options) (file ext s : Str)
    (ha : o.args = [file]) (hfmt : o.inputformat = none) (hext : HasExtension file ext)
    (hlen : file.length < npos)
    (hkind : ext.map Char.toLower ∈ ["wav".toList, "csv".toList, "mid".toList, "midi".toList])
    (ho : o.customkeyprofiles = some s) (hmaj : E.junkMajor.length = 12) (hmin : E.junkMinor.length = 12)
    (hn : (E.nums s).length ≠ 24) :
    main E (.ok o) = .ok { stdout := countMessage "key profiles" (E.nums s).length ++ E.help
                           stderr := [], code := 0 } := by
  have hc := C36_extension_partial E o file ext hfmt hext hlen
  have hex : ∃ t, chooseInput E o file = .ok (.ok (some t)) := by
    simp only [List.mem_cons, List.not_mem_nil, or_false] at hkind
    rcases hkind with h | h | h | h
    · exact ⟨_, hc.1 h⟩
    · exact ⟨_, hc.2.1 h⟩
    · exact ⟨_, hc.2.2.1 (Or.inl h)⟩
    · exact ⟨_, hc.2.2.1 (Or.inr h)⟩
  obtain ⟨t, ht⟩ := hex
  have hp := (C37_profiles E o s ho hmaj hmin).2 hn
  simp [main, parseArgs, ha, ht, hp]

/-! ### C39: the printed key -/

/-- **C39, the line.**  For each of the 24 keys the line is the tonic with an upper-case letter, a tab, and
the mode. -/
theorem C39_line (n : Int) (hn : IsKey n) :
    ∃ t : Str, keyLine (Key.ofInt n) =
        .ok (t ++ '\t' :: (if n < 12 then "major".toList else "minor".toList) ++ ['\n']) ∧
      (∃ c cs, t = c :: cs ∧ c.isUpper = true) ∧ noteName (t.map Char.toLower) = some (n % 12) := by
  have : ∀ n ∈ keys, ∃ t ∈ ["C", "Db", "C#", "D", "Eb", "E", "F", "F#", "G", "Ab", "A", "Bb", "B"].map
      String.toList, keyLine (Key.ofInt n) =
        .ok (t ++ '\t' :: (if n < 12 then "major".toList else "minor".toList) ++ ['\n']) ∧
      noteName (t.map Char.toLower) = some (n % 12) := by decide +kernel
  obtain ⟨t, ht, h1, h2⟩ := this n (mem_keys.2 hn)
  refine ⟨t, h1, ?_, h2⟩
  revert t
  have : ∀ t ∈ ["C", "Db", "C#", "D", "Eb", "E", "F", "F#", "G", "Ab", "A", "Bb", "B"].map String.toList,
      ∃ c cs, t = c :: cs ∧ c.isUpper = true := by
    intro t ht
    simp only [List.map_cons, List.map_nil, List.mem_cons, List.not_mem_nil, or_false] at ht
    rcases ht with rfl | rfl | rfl | rfl | rfl | rfl | rfl | rfl | rfl | rfl | rfl | rfl | rfl <;>
      exact ⟨_, _, rfl, by decide⟩
  intro t ht _ _
  exact this t ht

/-- **C39, unambiguous, and readable by the dataset tools.**  The label parser of dataset_creator.py maps the
printed line back to the key; so two different keys never print the same line. -/
theorem C39_parse_label (n : Int) (hn : IsKey n) :
    ∃ line, keyLine (Key.ofInt n) = .ok line ∧ Py.parseLabel line = n := by
  have : ∀ n ∈ keys, (match keyLine (Key.ofInt n) with
      | .ok line => Py.parseLabel line
      | _ => -2) = n := by decide +kernel
  have h := this n (mem_keys.2 hn)
  obtain ⟨t, ht, _⟩ := C39_line n hn
  rw [ht] at h
  exact ⟨_, ht, h⟩

theorem C39_injective (m n : Int) (hm : IsKey m) (hn : IsKey n)
    (h : keyLine (Key.ofInt m) = keyLine (Key.ofInt n)) : m = n := by
  obtain ⟨l1, h1, h1'⟩ := C39_parse_label m hm
  obtain ⟨l2, h2, h2'⟩ := C39_parse_label n hn
  rw [h1, h2] at h
  cases h
  rw [← h1', h2']

/-! ### C38: the evaluation score -/

/-- The weight of an answer by musical relation of the two keys: 1 for the same key, 0.5 when the answer is
a perfect fifth above the truth, 0.3 for the relative and 0.2 for the parallel key. -/
def weight (truth answer : Int) : Rat :=
  if answer = truth then 1
  else if isMajor answer = isMajor truth ∧ tonic answer = (tonic truth + 7) % 12 then 1 / 2
  else if isMajor answer ≠ isMajor truth ∧ sameScale answer truth then 3 / 10
  else if isMajor answer ≠ isMajor truth ∧ tonic answer = tonic truth then 1 / 5
  else 0

/-- **C38, score.**  For all pairs of keys the score is the weight of the relation. -/
theorem C38_score (truth answer : Int) (ht : IsKey truth) (ha : IsKey answer) :
    score (Key.ofInt answer) (Key.ofInt truth) = .ok (weight truth answer) := by
  have : ∀ t ∈ keys, ∀ a ∈ keys, score (Key.ofInt a) (Key.ofInt t) = .ok (weight t a) := by decide +kernel
  exact this truth (mem_keys.2 ht) answer (mem_keys.2 ha)

/-- The score only depends on the key, not on how the truth is spelled. -/
theorem score_int (answer : Key) (k k' : Key) (h : k.int = k'.int) : score answer k = score answer k' := by
  obtain ⟨i, s⟩ := k
  obtain ⟨j, s'⟩ := k'
  simp only at h
  subst h
  rfl

/-- **C38, file name.**  The truth is what stands between the last `_` and the last `.`. -/
theorem C38_ground_truth (pre name ext : Str) (hn : '_' ∉ name ∧ '.' ∉ name) (he : '_' ∉ ext ∧ '.' ∉ ext) :
    groundTruth (pre ++ '_' :: name ++ '.' :: ext) = .ok (some (Key.ofString name)) := by
  have h1 : findLast '_' (pre ++ '_' :: name ++ '.' :: ext) = some pre.length := by
    have := findLast_some '_' pre (name ++ '.' :: ext) (by
      simp only [List.mem_append, List.mem_cons, not_or]
      exact ⟨hn.1, by decide, he.1⟩)
    simpa using this
  have h2 : findLast '.' (pre ++ '_' :: name ++ '.' :: ext) = some (pre.length + 1 + name.length) := by
    have := findLast_some '.' (pre ++ '_' :: name) ext he.2
    simpa [Nat.add_assoc, Nat.add_comm, Nat.add_left_comm] using this
  have h3 : substr (pre ++ '_' :: name ++ '.' :: ext) (pre.length + 1) name.length = .ok name := by
    unfold substr
    rw [if_pos (by simp)]
    have : pre ++ '_' :: name ++ '.' :: ext = (pre ++ ['_']) ++ (name ++ '.' :: ext) := by simp
    rw [this, List.drop_left' (by simp), List.take_left' rfl]
  simp only [groundTruth, h1, h2]
  rw [if_pos (by omega), show pre.length + 1 + name.length - (pre.length + 1) = name.length by omega, h3]
  rfl

/-- **C38, file name with the last `.` in front of the last `_`.**  The truth is then everything behind the `_`. -/
theorem C38_ground_truth_end (pre name : Str) (hn : '_' ∉ name ∧ '.' ∉ name) (hd : '.' ∈ pre)
    (hlen : name.length + pre.length < 2 ^ 64) :
    groundTruth (pre ++ '_' :: name) = .ok (some (Key.ofString name)) := by
  have h1 : findLast '_' (pre ++ '_' :: name) = some pre.length := findLast_some '_' pre name hn.1
  obtain ⟨a, b, rfl, hb⟩ : ∃ a b, pre = a ++ '.' :: b ∧ '.' ∉ b := by
    obtain ⟨s, t, h, ht⟩ := List.eq_append_cons_of_mem (List.mem_reverse.2 hd)
    exact ⟨t.reverse, s.reverse, by rw [← List.reverse_reverse pre, h]; simp, by simpa using ht⟩
  have h2 : findLast '.' (a ++ '.' :: b ++ '_' :: name) = some a.length := by
    have := findLast_some '.' a (b ++ '_' :: name) (by
      simp only [List.mem_append, List.mem_cons, not_or]
      exact ⟨hb, by decide, hn.2⟩)
    simpa using this
  simp only [groundTruth, h1, h2]
  simp only [List.length_append, List.length_cons] at hlen
  rw [if_neg (by simp only [List.length_append, List.length_cons]; omega)]
  unfold substr
  rw [if_pos (by simp)]
  have : a ++ '.' :: b ++ '_' :: name = (a ++ '.' :: b ++ ['_']) ++ name := by simp
  rw [this, List.drop_left' (by simp [Nat.add_assoc]), List.take_of_length_le]
  · rfl
  · simp only [npos, List.length_append, List.length_cons]; omega

/-- Such a name: a file in a folder with a dot. -/
example : groundTruth "v1.2/bach_Cm".toList = .ok (some (Key.ofString "Cm".toList)) :=
  C38_ground_truth_end "v1.2/bach".toList "Cm".toList (by decide) (by decide) (by decide)

/-- **C38, whole file name.**  For a file named `..._<key>.<ext>` the printed score is the weight. -/
theorem C38_file_name (pre name ext : Str) (hn : '_' ∉ name ∧ '.' ∉ name) (he : '_' ∉ ext ∧ '.' ∉ ext)
    (truth answer : Int) (hname : keyName name = some truth) (ha : IsKey answer) :
    ∃ k, groundTruth (pre ++ '_' :: name ++ '.' :: ext) = .ok (some k) ∧
      score (Key.ofInt answer) k = .ok (weight truth answer) := by
  obtain ⟨hk, _⟩ := (Key.C05_ofString name).1 truth hname
  have hr := Key.keyName_range hname
  refine ⟨Key.ofString name, C38_ground_truth pre name ext hn he, ?_⟩
  rw [← C38_score truth answer hr ha]
  apply score_int
  have h2 := Key.getInt_ofInt hr
  have : ∀ a b : Option Int, Res.read a = .ok truth → Res.read b = .ok truth → a = b := by
    intro a b h h'
    cases a <;> cases b <;> simp_all
  exact this _ _ hk h2

/-- **C38 violated, unknown key.**  When the text in that place is no key name, an indeterminate number is
read. -/
theorem C38_unknown_key_violated (name : Str) (answer : Int) (hname : keyName name = none)
    (ha : IsKey answer) : score (Key.ofInt answer) (Key.ofString name) = .ub := by
  have h := ((Key.C05_ofString name).2 hname).1
  have h2 := Key.getInt_ofInt ha
  simp [score, Key.eq, h, h2]

/-- The weights of dataset.py (dataset.py:112). -/
def pyWeight : Py.Cat → Rat
  | .tonic => 1
  | .fifth => 1 / 2
  | .relative => 3 / 10
  | .parallel => 1 / 5
  | .other => 0

/-- `answer` is a fifth below `truth`, in the same mode. -/
def Subdominant (truth answer : Int) : Prop :=
  isMajor answer = isMajor truth ∧ tonic answer = (tonic truth + 5) % 12

instance (t a : Int) : Decidable (Subdominant t a) := by unfold Subdominant; infer_instance

/-- **C38 (partial), C++ and Python agree** on every pair except a fifth below. -/
theorem C38_agree_partial (truth answer : Int) (ht : IsKey truth) (ha : IsKey answer)
    (hs : ¬ Subdominant truth answer) :
    score (Key.ofInt answer) (Key.ofInt truth) = .ok (pyWeight (Py.compareKeys truth answer)) := by
  have : ∀ t ∈ keys, ∀ a ∈ keys, ¬ Subdominant t a →
      score (Key.ofInt a) (Key.ofInt t) = .ok (pyWeight (Py.compareKeys t a)) := by decide +kernel
  exact this truth (mem_keys.2 ht) answer (mem_keys.2 ha) hs

/-- **C38 violated.**  For every truth, an answer a fifth below scores 0 in C++ and 0.5 in Python. -/
theorem C38_disagree_violated (truth answer : Int) (ht : IsKey truth) (ha : IsKey answer)
    (hs : Subdominant truth answer) :
    score (Key.ofInt answer) (Key.ofInt truth) = .ok 0 ∧ pyWeight (Py.compareKeys truth answer) = 1 / 2 := by
  have : ∀ t ∈ keys, ∀ a ∈ keys, Subdominant t a →
      score (Key.ofInt a) (Key.ofInt t) = .ok 0 ∧ pyWeight (Py.compareKeys t a) = 1 / 2 := by decide +kernel
  exact this truth (mem_keys.2 ht) answer (mem_keys.2 ha) hs

/-- C major answered for G major; a minor answered for e minor. -/
example : Subdominant 7 0 ∧ Subdominant 16 21 ∧ keyName "f#".toList = some 18 := by decide

/-! ### What follows parsing -/

/-- With one file name, no `-f` and a known extension, parsing leaves one of the three input types. -/
theorem parse_type (E : Env D S P T) (o : Options) (p : Parsed D) (ho : o.inputformat = none)
    (hp : parseArgs E (.ok o) = .ok (.ok p)) :
    (p.inputType = some .wav ∨ p.inputType = some .csv ∨ p.inputType = some .midi) ∧
    p.justEvaluation = o.evaluate ∧ p.justProbabilities = o.probabilities ∧ p.chromaOnly = o.chromaonly ∧
    o.args = [p.filename] := by
  unfold parseArgs at hp
  simp only at hp
  split at hp
  · rename_i filename hargs
    obtain ⟨r, hr, hp⟩ := Res.bind_eq_ok.1 hp
    cases r with
    | error out => simp at hp
    | ok it =>
      simp only at hp
      cases hprof : chooseProfiles E o with
      | error out => simp [hprof] at hp
      | ok q =>
        obtain ⟨maj, min, majArr, minArr⟩ := q
        simp only [hprof] at hp
        obtain ⟨r2, hr2, hp⟩ := Res.bind_eq_ok.1 hp
        cases r2 with
        | error out => simp at hp
        | ok tr =>
          obtain ⟨tr, trArr⟩ := tr
          simp only [Res.pure_eq, Res.ok.injEq, Except.ok.injEq] at hp
          subst hp
          refine ⟨?_, rfl, rfl, rfl, hargs⟩
          simp only [chooseInput, ho] at hr
          obtain ⟨x, hx, hr⟩ := Res.bind_eq_ok.1 hr
          cases x with
          | none => simp at hr
          | some t =>
            simp only [Res.pure_eq, Res.ok.injEq, Except.ok.injEq] at hr
            subst hr
            simp only [extensionType] at hx
            obtain ⟨e, _, hx⟩ := Res.bind_eq_ok.1 hx
            split at hx
            · cases hx; simp
            · split at hx
              · cases hx; simp
              · split at hx
                · cases hx; simp
                · cases hx
  · simp at hp

/-! ### C41: `-p` -/

/-- `-e` only sets `justEvaluation`. -/
theorem parse_evaluate (E : Env D S P T) (o : Options) (b : Bool) :
    (∃ p, parseArgs E (.ok o) = .ok (.ok p) ∧ p.justProbabilities = o.probabilities ∧
      parseArgs E (.ok { o with evaluate := b }) = .ok (.ok { p with justEvaluation := b })) ∨
    ((∀ p, parseArgs E (.ok o) ≠ .ok (.ok p)) ∧
      parseArgs E (.ok { o with evaluate := b }) = parseArgs E (.ok o)) := by
  have e1 : ∀ f, chooseInput E { o with evaluate := b } f = chooseInput E o f := fun _ => rfl
  have e2 : chooseProfiles E { o with evaluate := b } = chooseProfiles E o := rfl
  have e3 : chooseTransitions E { o with evaluate := b } = chooseTransitions E o := rfl
  simp only [parseArgs, e1, e2, e3]
  split
  · rename_i filename hargs
    cases hci : chooseInput E o filename with
    | ub => right; simp
    | throw e => right; simp
    | ok r =>
      cases r with
      | error out => right; simp
      | ok it =>
        cases hcp : chooseProfiles E o with
        | error out => right; simp
        | ok q =>
          cases hct : chooseTransitions E o with
          | ub => right; simp
          | throw e => right; simp
          | ok r =>
            cases r with
            | error out => right; simp
            | ok tr => left; exact ⟨_, rfl, rfl, rfl⟩
  · right; simp

/-- **C41, precedence.**  With `-p`, `-e` makes no difference to anything. -/
theorem C41_precedence (E : Env D S P T) (o : Options) (hp : o.probabilities = true) (b : Bool) :
    main E (.ok { o with evaluate := b }) = main E (.ok o) := by
  rcases parse_evaluate E o b with ⟨p, h1, hpp, h2⟩ | ⟨_, h⟩
  · have key : ∀ d : Detection D, printResult E { p with justEvaluation := b } d = printResult E p d := by
      intro d
      simp [printResult, hpp, hp]
    have hr : readInput E { p with justEvaluation := b } = readInput E p := rfl
    simp only [main, h1, h2, Res.bind_ok, hr, key]
  · simp only [main, h]

theorem splitWs_go_word (w s cur : Str) (h : ∀ c ∈ w, Py.isSpace c = false) :
    Py.splitWs.go (w ++ s) cur = Py.splitWs.go s (w.reverse ++ cur) := by
  induction w generalizing cur with
  | nil => rfl
  | cons c w ih =>
    rw [List.cons_append, Py.splitWs.go, if_neg (by simp [h c]), ih _ (fun c hc => h c (by simp [hc]))]
    simp

/-- Python's `split()` undoes joining with blanks. -/
theorem splitWs_join (ws : List Str) (h : ∀ w ∈ ws, w ≠ [] ∧ ∀ c ∈ w, Py.isSpace c = false) :
    Py.splitWs (ws.flatMap (fun w => w ++ [' ']) ++ ['\n']) = ws := by
  unfold Py.splitWs
  induction ws with
  | nil => decide
  | cons w ws ih =>
    obtain ⟨hw, hc⟩ := h w (by simp)
    have e : (w :: ws).flatMap (fun w => w ++ [' ']) ++ ['\n'] =
        w ++ (' ' :: (ws.flatMap (fun w => w ++ [' ']) ++ ['\n'])) := by simp
    rw [e, splitWs_go_word w _ _ hc, Py.splitWs.go, if_pos (by decide), if_neg (by simpa using hw),
      ih (fun w hw => h w (by simp [hw]))]
    simp

/-- **C41.**  With `-p`, on any non-empty pitch-class sequence, the program either dies of `out_of_range` (no
possible key) or prints exactly 24 numbers; as a reader that splits at blanks sees them, the number at
position `k` is the score of key `k` in the second model, the one that picks the key. -/
theorem C41_scores {Num : D → Prop} (E : Env D S P T) (W : FPLaws E.F Num) (hz : ZeroKills E.F)
    (hi₁ : HMM.Iter.Ok E.iter₁) (hi₂ : HMM.Iter.Ok E.iter₂) (o : Options) (p : Parsed D) (os : List Int)
    (hparse : parseArgs E (.ok o) = .ok (.ok p)) (hprob : p.justProbabilities = true)
    (hread : readInput E p = .ok (.ok (os.map PitchClass.ofInt))) (ho : ∀ o ∈ os, 0 ≤ o ∧ o < 12)
    (hne : os ≠ []) (hcfg : Detect.Config.WF p.cfg)
    (hsh : ∀ x, E.sh x ≠ [] ∧ ∀ c ∈ E.sh x, Py.isSpace c = false) :
    main E (.ok o) = .throw .outOfRange ∨
    ∃ out, main E (.ok o) = .ok out ∧ out.code = 0 ∧ out.stderr = [] ∧
      (Py.splitWs out.stdout).length = 24 ∧
      ∃ ls, ls ≠ [] ∧ (∀ l ∈ ls, IsKey l) ∧
        ∀ k, IsKey k → ∃ v, (Py.splitWs out.stdout)[k.toNat]? = some (E.sh v) ∧
          (Spec.Possible E.F ((Detect.stage2 E.F p.cfg ls).tables E.F) ls (List.replicate ls.length k) →
            v = Spec.score E.F ((Detect.stage2 E.F p.cfg ls).tables E.F) ls (List.replicate ls.length k)) ∧
          (¬ Spec.Possible E.F ((Detect.stage2 E.F p.cfg ls).tables E.F) ls (List.replicate ls.length k) →
            E.F.lt E.F.negInf v = false) := by
  rcases Detect.detect_spec W E.iter₁ E.iter₂ hi₁ hi₂ p.cfg hcfg os ho hne with
    ⟨h, _⟩ | ⟨p1, h1, p2, h2, k, _, R1, hr2, R2, _, hk, hd⟩
  · left
    simp [main, hparse, hread, h]
  · right
    have hp1 : p1 ≠ [] := by
      rintro rfl
      have := R1.isPath.1
      apply hne
      exact List.length_eq_zero_iff.1 (by simpa [HMM.Problem.fresh, HMM.build, Detect.stage1] using this.symm)
    have hsplit : Py.splitWs (h2.probVec.flatMap (fun x => E.sh x ++ [' ']) ++ ['\n']) = h2.probVec.map E.sh := by
      rw [← splitWs_join (h2.probVec.map E.sh)
        (by intro w hw; obtain ⟨x, _, rfl⟩ := List.mem_map.1 hw; exact hsh x), List.flatMap_map]
    have hout : main E (.ok o) =
        .ok { stdout := h2.probVec.flatMap (fun x => E.sh x ++ [' ']) ++ ['\n'], stderr := [], code := 0 } := by
      simp [main, hparse, hread, hd, printResult, hprob]
    refine ⟨_, hout, rfl, rfl, by simp only [hsplit]; simp [R2.vecLen], p1, hp1,
      fun l hl => mem_keys.1 (R1.isPath.2 l hl), ?_⟩
    intro k' hk'
    obtain ⟨_, hc⟩ := Detect.C25_constant W hz E.iter₂ hi₂ p.cfg p1 hp1
    obtain ⟨_, _, _, _, hv⟩ := hc h2 hr2
    obtain ⟨v, hv, h3, h4⟩ := hv k' hk'
    refine ⟨v, ?_, h3, h4⟩
    simp only [hsplit, List.getElem?_map]
    have hv' : h2.probVec[k'.toNat]? = some v := hv
    rw [hv']; rfl

/-- **C39, whole program.**  A default run on a non-empty pitch-class sequence either dies of `out_of_range`
or prints one line and reports 0; dataset_creator.py reads that line as the key every position of the second
model was assigned to. -/
theorem C39_output {Num : D → Prop} (E : Env D S P T) (W : FPLaws E.F Num) (hz : ZeroKills E.F)
    (hi₁ : HMM.Iter.Ok E.iter₁) (hi₂ : HMM.Iter.Ok E.iter₂) (o : Options) (p : Parsed D) (os : List Int)
    (hparse : parseArgs E (.ok o) = .ok (.ok p)) (hprob : p.justProbabilities = false)
    (heval : p.justEvaluation = false)
    (hread : readInput E p = .ok (.ok (os.map PitchClass.ofInt))) (ho : ∀ o ∈ os, 0 ≤ o ∧ o < 12)
    (hne : os ≠ []) (hcfg : Detect.Config.WF p.cfg) :
    main E (.ok o) = .throw .outOfRange ∨
    ∃ out d k, main E (.ok o) = .ok out ∧ out.code = 0 ∧ out.stderr = [] ∧
      Detect.detect E.F E.iter₁ E.iter₂ p.cfg (os.map PitchClass.ofInt) = .ok (.ok d) ∧
      IsKey k ∧ d.globalKeys.map Key.getInt = List.replicate os.length (.ok k) ∧
      Py.parseLabel out.stdout = k := by
  rcases Detect.detect_spec W E.iter₁ E.iter₂ hi₁ hi₂ p.cfg hcfg os ho hne with
    ⟨h, _⟩ | ⟨p1, h1, p2, h2, k, _, R1, hr2, R2, _, hk, hd⟩
  · left
    simp [main, hparse, hread, h]
  · right
    obtain ⟨k', _, hk', hm, hg, _⟩ := Detect.C25_detection W hz E.iter₁ E.iter₂ hi₁ hi₂ p.cfg hcfg os ho hne _ hd
    have hkk : k' = k := by
      have := Key.getInt_ofInt (mem_keys.1 hk)
      simp only at hm
      rw [this] at hm
      exact (Res.ok.inj hm).symm
    subst hkk
    obtain ⟨line, hl, hpl⟩ := C39_parse_label k' hk'
    refine ⟨{ stdout := line, stderr := [], code := 0 }, _, k', ?_, rfl, rfl, hd, hk', hg, hpl⟩
    simp [main, hparse, hread, hd, printResult, hprob, heval, hl]

/-- A surrounding in which the hypotheses of C39 and C41 hold: a MIDI file with two notes. -/
noncomputable def demo (E : Env D S P T) : Env D S P T :=
  { E with
    midiEvents := fun _ => [[0x90, 60, 64], [0x80, 60, 0], [0x91, 67, 1]], strictMidi := false
    junkMajor := List.replicate 12 E.F.zero, junkMinor := List.replicate 12 E.F.zero
    junkTransition := List.replicate 24 E.F.zero }

example (E : Env D S P T) : ∃ p, parseArgs (demo E) (.ok (Options.default "a_C.mid".toList)) = .ok (.ok p) ∧
    p.justProbabilities = false ∧ p.justEvaluation = false ∧ Detect.Config.WF p.cfg ∧
    readInput (demo E) p = .ok (.ok ([0, 7].map PitchClass.ofInt)) := by
  have h : extensionType "a_C.mid".toList = .ok (some .midi) := by decide +kernel
  have hp : parseArgs (demo E) (.ok (Options.default "a_C.mid".toList)) = .ok (.ok
      { filename := "a_C.mid".toList, inputType := some .midi
        cfg := { keyTransition := "exponential10", majorKeyProfile := "sapp", minorKeyProfile := "sapp"
                 customKeyTransition := List.replicate 24 E.F.zero
                 majorCustomKeyProfile := List.replicate 12 E.F.zero
                 minorCustomKeyProfile := List.replicate 12 E.F.zero }
        justEvaluation := false, justProbabilities := false, chromaOnly := false }) := by
    simp only [parseArgs, Options.default, chooseInput, h, Res.bind_ok, chooseProfiles, chooseTransitions]
    rfl
  refine ⟨_, hp, rfl, rfl, ⟨by simp, by simp, by simp⟩, ?_⟩
  rfl

/-! ### C42: exit status -/

theorem detect_no_error (E : Env D S P T) (cfg : Config D) (seq : List PitchClass) (s : Int) :
    Detect.detect E.F E.iter₁ E.iter₂ cfg seq ≠ .ok (.error s) := by
  intro h
  simp only [Detect.detect] at h
  obtain ⟨i, _, h⟩ := Res.bind_eq_ok.1 h
  obtain ⟨t, _, h⟩ := Res.bind_eq_ok.1 h
  obtain ⟨e, _, h⟩ := Res.bind_eq_ok.1 h
  obtain ⟨e1, e2⟩ := e
  obtain ⟨m, _, h⟩ := Res.bind_eq_ok.1 h
  obtain ⟨m', hm', h⟩ := Res.bind_eq_ok.1 h
  have hst : m'.getStatus = statusHmmViterbiReady := by
    unfold HMM.runViterbi at hm'
    split at hm'
    · cases hm'
    · obtain ⟨s, _, hm'⟩ := Res.bind_eq_ok.1 hm'
      simp only [Res.pure_eq, Res.ok.injEq] at hm'
      rw [← hm']; rfl
  rw [if_neg (by simp [hst])] at h
  obtain ⟨z, _, h⟩ := Res.bind_eq_ok.1 h
  obtain ⟨n, _, h⟩ := Res.bind_eq_ok.1 h
  obtain ⟨n', _, h⟩ := Res.bind_eq_ok.1 h
  split at h
  · cases h
  · simp at h

/-- **C42 (partial).**  Once the command line was accepted (without `-f` and without `--chroma-only`), a run
that ends normally either found a key, printed it and reports 0, or printed nothing on standard output, a
message on standard error, and reports 1 or 2.  Missing: rejected command lines, see the three `violated`
theorems, and the runs that do not end normally. -/
theorem C42_after_parsing_partial (E : Env D S P T) (hF : OrderLaws E.F) (o : Options) (p : Parsed D)
    (hf : o.inputformat = none) (hc : o.chromaonly = false)
    (hparse : parseArgs E (.ok o) = .ok (.ok p)) (out : Out) (h : main E (.ok o) = .ok out) :
    ((out.code = 1 ∨ out.code = 2) ∧ out.stdout = [] ∧ out.stderr ≠ []) ∨
    (out.code = 0 ∧ ∃ seq d, readInput E p = .ok (.ok seq) ∧
      Detect.detect E.F E.iter₁ E.iter₂ p.cfg seq = .ok (.ok d) ∧ printResult E p d = .ok out.stdout) := by
  obtain ⟨ht, _, _, hco, _⟩ := parse_type E o p hf hparse
  simp only [main, hparse, Res.bind_ok] at h
  obtain ⟨r, hr, h⟩ := Res.bind_eq_ok.1 h
  cases r with
  | ok seq =>
    right
    simp only at h
    obtain ⟨d, hd, h⟩ := Res.bind_eq_ok.1 h
    cases d with
    | error s => exact absurd hd (detect_no_error E _ _ _)
    | ok d =>
      simp only at h
      obtain ⟨line, hl, h⟩ := Res.bind_eq_ok.1 h
      simp only [Res.pure_eq, Res.ok.injEq] at h
      subst h
      exact ⟨rfl, seq, d, hr, hd, hl⟩
  | error out' =>
    left
    simp only [Res.pure_eq, Res.ok.injEq] at h
    subst h
    have chroma : ∀ ft, ft ≠ FileType.other →
        (do
          let chr ← Chromagram.construct E.F E.M E.stof E.pl (E.csvFile p.filename) (E.audioFile p.filename) ft
          if chr.getStatus ≠ statusChromaDiscreteReady then
            return Except.error { stdout := [], stderr := readError, code := chr.getStatus }
          else if p.chromaOnly then
            return .error { stdout := chr.printOriginalChromagram E.F E.sh true, stderr := [], code := 0 }
          else
            let seq ← chr.getPitchClassSequence E.F E.past
            return .ok seq : Res (Except Out (List PitchClass))) = .ok (.error out') →
        (out'.code = 1 ∨ out'.code = 2) ∧ out'.stdout = [] ∧ out'.stderr ≠ [] := by
      intro ft hft hq
      obtain ⟨chr, hchr, hq⟩ := Res.bind_eq_ok.1 hq
      obtain ⟨hst, _, _⟩ := Chromagram.C29_status hF E.M E.stof E.pl _ _ ft hft chr hchr
      split at hq
      · rename_i hne
        simp only [Res.pure_eq, Res.ok.injEq, Except.error.injEq] at hq
        subst hq
        refine ⟨?_, rfl, (by decide : readError ≠ [])⟩
        rcases hst with h | h | h
        · exact Or.inl h
        · exact Or.inr h
        · exact absurd h hne
      · rw [hco, hc] at hq
        simp only [Bool.false_eq_true, if_false] at hq
        obtain ⟨s, _, hq⟩ := Res.bind_eq_ok.1 hq
        simp at hq
    rcases ht with ht | ht | ht
    · simp only [readInput, ht, Res.bind_ok] at hr
      simp only [show ¬ (InputType.wav = InputType.midi) by decide,
        show ¬ (InputType.wav = InputType.csv) by decide, if_false, if_true] at hr
      exact chroma .audio (by decide) hr
    · simp only [readInput, ht, Res.bind_ok] at hr
      simp only [show ¬ (InputType.csv = InputType.midi) by decide, if_false, if_true] at hr
      exact chroma .csv (by decide) hr
    · simp only [readInput, ht, Res.bind_ok, if_true] at hr
      rw [if_neg (by simp [Midi.getStatus, Midi.construct])] at hr
      obtain ⟨s, _, hr⟩ := Res.bind_eq_ok.1 hr
      simp at hr

/-- **C42 violated, no input file** (or more than one): a message, no key, status 0. -/
theorem C42_missing_file_violated (E : Env D S P T) (o : Options) (h : o.args.length ≠ 1) :
    main E (.ok o) = .ok { stdout := missingMessage ++ E.help, stderr := [], code := 0 } := by
  have : parseArgs E (.ok o) = .ok (.error { stdout := missingMessage ++ E.help, stderr := [], code := 0 }) := by
    unfold parseArgs
    simp only
    split
    · rename_i f hf; simp [hf] at h
    · rfl
  simp [main, this]

/-- **C42 violated, unknown extension.** -/
theorem C42_extension_violated (E : Env D S P T) (o : Options) (file ext : Str) (ha : o.args = [file])
    (ho : o.inputformat = none) (hext : HasExtension file ext) (hlen : file.length < npos)
    (hk : ext.map Char.toLower ∉ ["wav".toList, "csv".toList, "mid".toList, "midi".toList]) :
    ∃ out, main E (.ok o) = .ok out ∧ out.code = 0 ∧ out.stdout = unknownMessage ++ E.help :=
  ⟨_, (((C36_extension_partial E o file ext ho hext hlen).2.2.2 hk).2 ha), rfl, rfl⟩

/-- **C42 violated, nothing to analyse.**  When the input yields no pitch class (for instance a MIDI file
without notes, or one that cannot be read), the behaviour is undefined. -/
theorem C42_empty_violated (E : Env D S P T) (o : Options) (p : Parsed D)
    (hparse : parseArgs E (.ok o) = .ok (.ok p)) (hcfg : Detect.Config.WF p.cfg)
    (hread : readInput E p = .ok (.ok [])) : main E (.ok o) = .ub := by
  have h := Detect.detect_eq E.F E.iter₁ E.iter₂ p.cfg hcfg [] (by simp)
  have hv : HMM.runViterbi E.F E.iter₁ (Detect.stage1 E.F p.cfg []).fresh = .ub :=
    HMM.C22_empty_violated E.F E.iter₁ _ rfl
  have : Detect.detect E.F E.iter₁ E.iter₂ p.cfg [] = .ub := by
    simpa [hv] using h
  simp [main, hparse, hread, this]

/-- An unreadable MIDI file is such an input. -/
theorem C42_unreadable_midi_violated (E : Env D S P T) (o : Options) (p : Parsed D)
    (hparse : parseArgs E (.ok o) = .ok (.ok p)) (hcfg : Detect.Config.WF p.cfg)
    (ht : p.inputType = some .midi) (hev : E.midiEvents p.filename = []) : main E (.ok o) = .ub := by
  cases hs : E.strictMidi with
  | true =>
    have : readInput E p = .ub := by
      simp [readInput, ht, hev, Midi.construct, Midi.getPitchClassSequence, Midi.getStatus, hs]
    simp [main, hparse, this]
  | false =>
    apply C42_empty_violated E o p hparse hcfg
    simp [readInput, ht, hev, Midi.construct, Midi.getPitchClassSequence, Midi.getStatus, hs]

end Main
end JKD
