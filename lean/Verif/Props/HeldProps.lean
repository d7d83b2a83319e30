import Verif.Props.MainProps
import Verif.Props.ChromagramProps
/-
C137: what the program hears of a chroma file.
-/

namespace JKD.Chromagram

variable {D S P T : Type} {F : FPU D}

/-- **Specification.**  What a row of a chroma file sounds like: whole units of each of the twelve pitch classes. -/
def Row.heard (F : FPU D) (r : Row D) : List D := (r.frame F).map F.floor

/-- **Specification.**  Two sequences of rows in which the same sounds follow each other, each held for any number of rows. -/
inductive SameSounds (F : FPU D) : List (Row D) → List (Row D) → Prop where
  | done : SameSounds F [] []
  | held {rs rs' l l'} (v : List D) : rs ≠ [] → rs' ≠ [] → (∀ x ∈ v, F.eq x x = true) → (∀ r ∈ rs, r.heard F = v) →
      (∀ r ∈ rs', r.heard F = v) → SameSounds F l l' → SameSounds F (rs ++ l) (rs' ++ l')

theorem sameVector_self {v : List D} (h : ∀ x ∈ v, F.eq x x = true) : sameVector F v v = true := by
  simp only [sameVector, List.all_eq_true]
  intro p hp
  obtain ⟨i, hi, rfl⟩ := List.mem_iff_getElem.1 hp
  simp only [List.getElem_zip]
  exact h _ (List.getElem_mem _)

theorem framesLoop_held (past : Option (List D)) {v : List D} (h : ∀ x ∈ v, F.eq x x = true) (fs : List (List D)) (hne : fs ≠ [])
    (hfs : ∀ f ∈ fs, f = v) (rest : List (List D)) (seq : List PitchClass) :
    framesLoop F past (fs ++ rest) seq = framesLoop F past (v :: rest) seq := by
  obtain ⟨n, rfl⟩ : ∃ n, fs = List.replicate (n + 1) v := by
    refine ⟨fs.length - 1, List.eq_replicate_iff.2 ⟨?_, hfs⟩⟩
    have := List.length_pos_iff.2 hne
    omega
  rw [List.replicate_succ', List.append_assoc, List.singleton_append]
  refine framesLoop_collapse past _ v ?_ rest seq
  rw [← List.replicate_succ']
  generalize n + 1 = m
  induction m with
  | zero => simp
  | succ m ih =>
    cases m with
    | zero => simp
    | succ m =>
      rw [List.replicate_succ, List.replicate_succ] at *
      exact List.isChain_cons_cons.2 ⟨sameVector_self h, ih⟩

theorem framesLoop_same (past : Option (List D)) {l l' : List (Row D)} (h : SameSounds F l l') (seq : List PitchClass) :
    framesLoop F past (l.map (Row.heard F)) seq = framesLoop F past (l'.map (Row.heard F)) seq := by
  have hh : ∀ {l l' : List (Row D)}, SameSounds F l l' → (l.map (Row.heard F)).head? = (l'.map (Row.heard F)).head? := by
    intro l l' h
    cases h with
    | done => rfl
    | @held rs rs' l l' v n n' hv hr hr' _ =>
      cases rs with
      | nil => exact absurd rfl n
      | cons a rs =>
        cases rs' with
        | nil => exact absurd rfl n'
        | cons b rs' => simp [hr a (by simp), hr' b (by simp)]
  induction h generalizing seq with
  | done => rfl
  | @held rs rs' l l' v n n' hv hr hr' hs ih =>
    rw [List.map_append, List.map_append, framesLoop_held past hv _ (by simpa using n) (by simpa using hr),
      framesLoop_held past hv _ (by simpa using n') (by simpa using hr')]
    have e := hh hs
    generalize l.map (Row.heard F) = f at *
    generalize l'.map (Row.heard F) = f' at *
    rcases f with _ | ⟨a, f⟩ <;> rcases f' with _ | ⟨b, f'⟩
    · rfl
    · cases e
    · cases e
    · obtain rfl : a = b := by simpa using e
      rw [framesLoop.eq_3, framesLoop.eq_3]
      simp only [ih]

theorem csv_sorted (hF : OrderLaws F) (stof : Str → Res D) (rows sorted : List (Row D)) (hp : rows.Perm sorted)
    (hrows : ∀ r ∈ rows, r.Ok F stof ∧ r.vals.length = 12)
    (hs : sorted.Pairwise (fun a b => F.lt a.time.2 b.time.2 = true)) :
    csvLines F stof (csvText rows) = .ok (sorted.map (fun r => (r.time.2, r.frame F))) := by
  have hd : rows.Pairwise (fun a b => F.lt a.time.2 b.time.2 = true ∨ F.lt b.time.2 a.time.2 = true) := by
    refine (hp.symm.pairwise_iff ?_).1 (hs.imp Or.inl)
    exact fun h => h.symm
  obtain ⟨m, h1, h2, h3⟩ := C30_csv hF stof rows hrows hd
  rw [h1]
  refine congrArg Res.ok ?_
  refine List.Perm.eq_of_pairwise (le := fun p q => F.lt p.1 q.1 = true) ?_ h2 ?_ (h3.trans (hp.map _))
  · intro a b _ _ hab hba
    have := hF.irrefl a.1
    rw [hF.trans _ _ _ hab hba] at this
    cases this
  · exact List.pairwise_map.2 hs

/-- Reading a chroma file gives the rows by time, in whole units. -/
theorem csv_sequence (hF : OrderLaws F) (M : MixOps S) (stof : Str → Res D) (pl : Plugin S D P T) (audio : Option (AudioFile S))
    (past : Option (List D)) (rows sorted : List (Row D)) (hp : rows.Perm sorted)
    (hrows : ∀ r ∈ rows, r.Ok F stof ∧ r.vals.length = 12)
    (hs : sorted.Pairwise (fun a b => F.lt a.time.2 b.time.2 = true)) :
    ∃ c, construct F M stof pl (some (csvText rows)) audio .csv = .ok c ∧ c.getStatus = statusChromaDiscreteReady ∧
      c.getPitchClassSequence F past = framesLoop F past (sorted.map (Row.heard F)) [] := by
  refine ⟨_, construct_csv hF M stof pl _ audio _ (csv_sorted hF stof rows sorted hp hrows hs), rfl, ?_⟩
  simp only [getPitchClassSequence, List.map_map]
  rfl

end JKD.Chromagram

namespace JKD.Main

open Chromagram

variable {D S P T : Type}

/-- The file that is read is the one argument, and the export of chroma is an option. -/
theorem parse_file (E : Env D S P T) (o : Options) (p : Parsed D) (h : parseArgs E (.ok o) = .ok (.ok p)) :
    p.filename ∈ o.args ∧ p.chromaOnly = o.chromaonly := by
  simp only [parseArgs] at h
  split at h
  · rename_i filename hargs
    cases hci : chooseInput E o filename with
    | ub => rw [hci] at h; simp at h
    | throw e => rw [hci] at h; simp at h
    | ok r =>
      rw [hci] at h
      cases r with
      | error out => simp at h
      | ok it =>
        simp only [Res.bind_ok] at h
        cases hcp : chooseProfiles E o with
        | error out => rw [hcp] at h; simp at h
        | ok q =>
          rw [hcp] at h
          simp only at h
          cases hct : chooseTransitions E o with
          | ub => rw [hct] at h; simp at h
          | throw e => rw [hct] at h; simp at h
          | ok r =>
            rw [hct] at h
            cases r with
            | error out => simp at h
            | ok tr =>
              simp only [Res.bind_ok, Res.pure_eq, Res.ok.injEq, Except.ok.injEq] at h
              rw [← h]
              exact ⟨by simp [hargs], rfl⟩
  · simp at h

/-- **C137.**  A chroma file replaced by another one in which the same sounds follow each other gets the same output and exit status,
whatever the times and the number of rows, for any order of the rows in the file, with any options but the export of chroma. -/
theorem C137_sounds (E : Env D S P T) (hF : OrderLaws E.F) (o : Options) (hc : o.chromaonly = false) (csv csv' : Str → Option Str)
    (rows rows' sorted sorted' : List (Row D))
    (hcsv : ∀ file ∈ o.args, csv file = some (csvText rows)) (hcsv' : ∀ file ∈ o.args, csv' file = some (csvText rows'))
    (hrows : ∀ r ∈ rows, r.Ok E.F E.stof ∧ r.vals.length = 12) (hrows' : ∀ r ∈ rows', r.Ok E.F E.stof ∧ r.vals.length = 12)
    (hp : rows.Perm sorted) (hp' : rows'.Perm sorted')
    (hs : sorted.Pairwise (fun a b => E.F.lt a.time.2 b.time.2 = true))
    (hs' : sorted'.Pairwise (fun a b => E.F.lt a.time.2 b.time.2 = true)) (h : SameSounds E.F sorted sorted') :
    main { E with csvFile := csv } (.ok o) = main { E with csvFile := csv' } (.ok o) := by
  have hparse : parseArgs { E with csvFile := csv } (.ok o) = parseArgs { E with csvFile := csv' } (.ok o) := rfl
  simp only [main, hparse]
  cases hpa : parseArgs { E with csvFile := csv' } (.ok o) with
  | ub => rfl
  | throw e => rfl
  | ok r =>
    cases r with
    | error out => rfl
    | ok p =>
      obtain ⟨hfile, hco⟩ := parse_file _ o p hpa
      rw [hc] at hco
      have hread : readInput { E with csvFile := csv } p = readInput { E with csvFile := csv' } p := by
        obtain ⟨c, h1, h2, h3⟩ := csv_sequence hF E.M E.stof E.pl (E.audioFile p.filename) E.past rows sorted hp hrows hs
        obtain ⟨c', h1', h2', h3'⟩ := csv_sequence hF E.M E.stof E.pl (E.audioFile p.filename) E.past rows' sorted' hp' hrows' hs'
        have e : c.getPitchClassSequence E.F E.past = c'.getPitchClassSequence E.F E.past := by
          rw [h3, h3', framesLoop_same E.past h]
        have key : ∀ ft, (Chromagram.construct E.F E.M E.stof E.pl (some (csvText rows)) (E.audioFile p.filename) ft = 
            Chromagram.construct E.F E.M E.stof E.pl (some (csvText rows')) (E.audioFile p.filename) ft) ∨ ft = .csv := by
          intro ft
          cases ft
          · exact Or.inr rfl
          · exact Or.inl rfl
          · exact Or.inl rfl
        have fin : ∀ ft, (do
            let chr ← Chromagram.construct E.F E.M E.stof E.pl (some (csvText rows)) (E.audioFile p.filename) ft
            if chr.getStatus ≠ statusChromaDiscreteReady then
              return .error { stdout := [], stderr := readError, code := chr.getStatus }
            else if p.chromaOnly then
              return .error { stdout := chr.printOriginalChromagram E.F E.sh true, stderr := [], code := 0 }
            else
              let seq ← chr.getPitchClassSequence E.F E.past
              return .ok seq : Res (Except Out (List PitchClass))) = (do
            let chr ← Chromagram.construct E.F E.M E.stof E.pl (some (csvText rows')) (E.audioFile p.filename) ft
            if chr.getStatus ≠ statusChromaDiscreteReady then
              return .error { stdout := [], stderr := readError, code := chr.getStatus }
            else if p.chromaOnly then
              return .error { stdout := chr.printOriginalChromagram E.F E.sh true, stderr := [], code := 0 }
            else
              let seq ← chr.getPitchClassSequence E.F E.past
              return .ok seq) := by
          intro ft
          rcases key ft with hk | rfl
          · rw [hk]
          · rw [h1, h1']
            simp [h2, h2', hco, e]
        simp only [readInput, hcsv p.filename hfile, hcsv' p.filename hfile, fin]
      rw [Res.bind_ok, Res.bind_ok]
      dsimp only
      rw [hread]
      rfl

/-- Two files that satisfy the hypotheses: a sound held for two rows, then another; and the same in other proportions, with the rows
out of order. -/
example : let a := toyRow '1' "300020000001".toList
    let a' := toyRow '2' "300020000001".toList
    let b := toyRow '3' "020000000000".toList
    let c := toyRow '0' "300020000001".toList
    let d := toyRow '7' "020000000000".toList
    let d' := toyRow '9' "020000000000".toList
    SameSounds toy [a, a', b] [c, d, d'] ∧ [d, c, d'].Perm [c, d, d'] ∧
    [a, a', b].Pairwise (fun a b => toy.lt a.time.2 b.time.2 = true) ∧
    [c, d, d'].Pairwise (fun a b => toy.lt a.time.2 b.time.2 = true) ∧
    csvText [d, c, d'] = "7,0,2,0,0,0,0,0,0,0,0,0,0\n0,3,0,0,0,2,0,0,0,0,0,0,1\n9,0,2,0,0,0,0,0,0,0,0,0,0\n".toList := by
  refine ⟨?_, List.Perm.swap _ _ _, by decide, by decide, by decide⟩
  refine SameSounds.held (rs := [_, _]) (rs' := [_]) [0, 2, 0, 0, 0, 0, 0, 0, 1, 3, 0, 0] (by simp) (by simp) ?_ ?_ ?_ ?_
  · decide
  · decide
  · decide
  · exact SameSounds.held (rs := [_]) (rs' := [_, _]) (l := []) (l' := []) [0, 0, 0, 0, 0, 0, 0, 0, 0, 0, 2, 0] (by simp) (by simp)
      (by decide) (by decide) (by decide) .done

end JKD.Main
