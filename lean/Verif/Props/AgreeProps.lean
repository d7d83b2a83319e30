import Verif.Props.MainProps
import Verif.FP.RD
import Mathlib.Data.EReal.Basic
/-
C136: the key printed without `-p` is the best of the scores printed with `-p`.
-/

namespace JKD.Main

open Spec

variable {D S P T : Type}

/-- `-p` only sets `justProbabilities`. -/
theorem parse_probabilities (E : Env D S P T) (o : Options) (b : Bool) (p : Parsed D) (h : parseArgs E (.ok o) = .ok (.ok p)) :
    parseArgs E (.ok { o with probabilities := b }) = .ok (.ok { p with justProbabilities := b }) := by
  have e1 : ∀ f, chooseInput E { o with probabilities := b } f = chooseInput E o f := fun _ => rfl
  have e2 : chooseProfiles E { o with probabilities := b } = chooseProfiles E o := rfl
  have e3 : chooseTransitions E { o with probabilities := b } = chooseTransitions E o := rfl
  simp only [parseArgs, e1, e2, e3] at h ⊢
  split at h
  · rename_i filename hargs
    cases hci : chooseInput E o filename with
    | ub => rw [hci] at h; simp at h
    | throw e => rw [hci] at h; simp at h
    | ok r =>
      rw [hci] at h
      cases r with
      | error out => simp at h
      | ok it =>
        simp only [Res.bind_ok] at h ⊢
        cases hcp : chooseProfiles E o with
        | error out => rw [hcp] at h; simp at h
        | ok q =>
          rw [hcp] at h
          simp only at h ⊢
          cases hct : chooseTransitions E o with
          | ub => rw [hct] at h; simp at h
          | throw e => rw [hct] at h; simp at h
          | ok r =>
            rw [hct] at h
            cases r with
            | error out => simp at h
            | ok tr =>
              simp only [Res.bind_ok, Res.pure_eq, Res.ok.injEq, Except.ok.injEq] at h ⊢
              rw [← h]
  · simp at h

/-- **C136.**  The same command with and without `-p`, on any non-empty pitch-class sequence: both die of `out_of_range`, or the key
that is printed without `-p` has the greatest of the 24 numbers that are printed with `-p`. -/
theorem C136_agree {Num : D → Prop} (E : Env D S P T) (W : FPLaws E.F Num) (hz : ZeroKills E.F)
    (hi₁ : HMM.Iter.Ok E.iter₁) (hi₂ : HMM.Iter.Ok E.iter₂) (o : Options) (p : Parsed D) (os : List Int)
    (he : o.evaluate = false) (hparse : parseArgs E (.ok o) = .ok (.ok p))
    (hread : readInput E p = .ok (.ok (os.map PitchClass.ofInt))) (ho : ∀ o ∈ os, 0 ≤ o ∧ o < 12)
    (hne : os ≠ []) (hcfg : Detect.Config.WF p.cfg)
    (hsh : ∀ x, E.sh x ≠ [] ∧ ∀ c ∈ E.sh x, Py.isSpace c = false) :
    (main E (.ok { o with probabilities := false }) = .throw .outOfRange ∧
      main E (.ok { o with probabilities := true }) = .throw .outOfRange) ∨
    ∃ line scores k v, main E (.ok { o with probabilities := false }) = .ok { stdout := line, stderr := [], code := 0 } ∧
      main E (.ok { o with probabilities := true }) = .ok { stdout := scores, stderr := [], code := 0 } ∧
      IsKey k ∧ Py.parseLabel line = k ∧ (Py.splitWs scores)[k.toNat]? = some (E.sh v) ∧
      Num v ∧ E.F.lt E.F.negInf v = true ∧ ∀ k', IsKey k' → ∃ v', (Py.splitWs scores)[k'.toNat]? = some (E.sh v') ∧ E.F.lt v v' = false := by
  have hf := parse_probabilities E o false p hparse
  have ht := parse_probabilities E o true p hparse
  have rf : readInput E { p with justProbabilities := false } = .ok (.ok (os.map PitchClass.ofInt)) := hread
  have rt : readInput E { p with justProbabilities := true } = .ok (.ok (os.map PitchClass.ofInt)) := hread
  have hev : p.justEvaluation = false := by
    rcases parse_evaluate E o false with ⟨q, hq, _, hq'⟩ | ⟨hno, _⟩
    · rw [hparse] at hq
      cases hq
      have : ({ o with evaluate := false } : Options) = o := by rw [← he]
      rw [this, hparse] at hq'
      have := congrArg Parsed.justEvaluation (Except.ok.inj (Res.ok.inj hq'))
      exact this
    · exact absurd hparse (hno p)
  rcases Detect.detect_spec W E.iter₁ E.iter₂ hi₁ hi₂ p.cfg hcfg os ho hne with
    ⟨h, _⟩ | ⟨p1, h1, p2, h2, k, _, R1, hr2, R2, hhd, hk, hd⟩
  · left
    simp [main, hf, ht, rf, rt, h]
  · right
    obtain ⟨k', _, hk', hm, hg, _⟩ := Detect.C25_detection W hz E.iter₁ E.iter₂ hi₁ hi₂ p.cfg hcfg os ho hne _ hd
    have hkk : k' = k := by
      have := Key.getInt_ofInt (mem_keys.1 hk)
      simp only at hm
      rw [this] at hm
      exact (Res.ok.inj hm).symm
    subst hkk
    have hp2 : ∀ s ∈ p2, s = k' := by
      intro s hs
      have h1 : Key.getInt (Key.ofInt s) ∈ List.replicate os.length (Res.ok k') := by
        rw [← hg]
        exact List.mem_map.2 ⟨_, List.mem_map.2 ⟨s, hs, rfl⟩, rfl⟩
      have h2 := (List.mem_replicate.1 h1).2
      rw [Key.getInt_ofInt (mem_keys.1 (R2.isPath.2 s hs))] at h2
      exact Res.ok.inj h2
    have hsplit : Py.splitWs (h2.probVec.flatMap (fun x => E.sh x ++ [' ']) ++ ['\n']) = h2.probVec.map E.sh := by
      rw [← splitWs_join (h2.probVec.map E.sh)
        (by intro w hw; obtain ⟨x, _, rfl⟩ := List.mem_map.1 hw; exact hsh x), List.flatMap_map]
    obtain ⟨line, hl, hpl⟩ := C39_parse_label k' hk'
    obtain ⟨s, v, hlast, hv, hpos, hmax⟩ : ∃ s v, p2.getLast? = some s ∧ h2.probVec[s.toNat]? = some v ∧
        E.F.lt E.F.negInf v = true ∧ ∀ k'', IsKey k'' → ∃ v', h2.probVec[k''.toNat]? = some v' ∧ E.F.lt v v' = false := by
      obtain ⟨s, hs, hlast, hv⟩ := R2.attained
      refine ⟨s, _, hlast, hv, R2.possible, fun k'' hk'' => ?_⟩
      obtain ⟨v', hv', hrest⟩ := R2.vec k'' (mem_keys.2 hk'')
      exact ⟨v', hv', hrest.2.2.2⟩
    have hsk := hp2 s (List.mem_of_getLast? hlast)
    subst hsk
    refine ⟨line, h2.probVec.flatMap (fun x => E.sh x ++ [' ']) ++ ['\n'], s, v, ?_, ?_, hk', hpl, ?_, (W.lt_num _ _ hpos).2, hpos, ?_⟩
    · simp only [main, hf, rf, Res.bind_ok, hd]
      simp [printResult, hev, hl]
    · simp [main, ht, rt, hd, printResult]
    · rw [hsplit, List.getElem?_map, hv]
      rfl
    · intro k'' hk''
      obtain ⟨v', hv', hle⟩ := hmax k'' hk''
      refine ⟨v', ?_, hle⟩
      rw [hsplit, List.getElem?_map, hv']
      rfl

/-- **C136, as read.**  Let `val` read what is printed, `none` for "nan".  When printing does not reverse the order of two numbers, the
printed key has the greatest score on paper; and when one score on paper exceeds all others, its key is the printed one. -/
theorem C136_read {Num : D → Prop} (E : Env D S P T) (W : FPLaws E.F Num) (hz : ZeroKills E.F)
    (hi₁ : HMM.Iter.Ok E.iter₁) (hi₂ : HMM.Iter.Ok E.iter₂) (o : Options) (p : Parsed D) (os : List Int)
    (he : o.evaluate = false) (hparse : parseArgs E (.ok o) = .ok (.ok p))
    (hread : readInput E p = .ok (.ok (os.map PitchClass.ofInt))) (ho : ∀ o ∈ os, 0 ≤ o ∧ o < 12)
    (hne : os ≠ []) (hcfg : Detect.Config.WF p.cfg)
    (hsh : ∀ x, E.sh x ≠ [] ∧ ∀ c ∈ E.sh x, Py.isSpace c = false) (val : Str → Option EReal)
    (hnum : ∀ x, Num x → ∃ a, val (E.sh x) = some a)
    (hval : ∀ x y a b, E.F.lt x y = false → val (E.sh x) = some a → val (E.sh y) = some b → b ≤ a) (line scores : Str)
    (hline : main E (.ok { o with probabilities := false }) = .ok { stdout := line, stderr := [], code := 0 })
    (hscores : main E (.ok { o with probabilities := true }) = .ok { stdout := scores, stderr := [], code := 0 }) :
    ∃ k a, IsKey k ∧ Py.parseLabel line = k ∧ (Py.splitWs scores)[k.toNat]?.bind val = some a ∧
      (∀ k' b, IsKey k' → (Py.splitWs scores)[k'.toNat]?.bind val = some b → b ≤ a) ∧
      ∀ K c, IsKey K → (Py.splitWs scores)[K.toNat]?.bind val = some c →
        (∀ k' b, IsKey k' → k' ≠ K → (Py.splitWs scores)[k'.toNat]?.bind val = some b → b < c) → k = K := by
  rcases C136_agree E W hz hi₁ hi₂ o p os he hparse hread ho hne hcfg hsh with
    ⟨h, _⟩ | ⟨l, s, k, v, h1, h2, hk, hp, hw, hn, _, hall⟩
  · rw [hline] at h; cases h
  · rw [hline] at h1
    rw [hscores] at h2
    cases h1
    cases h2
    obtain ⟨a, ha⟩ := hnum v hn
    have hwa : (Py.splitWs scores)[k.toNat]?.bind val = some a := by rw [hw]; exact ha
    have key : ∀ k' b, IsKey k' → (Py.splitWs scores)[k'.toNat]?.bind val = some b → b ≤ a := by
      intro k' b hk' hb
      obtain ⟨v', hv', hle⟩ := hall k' hk'
      rw [hv'] at hb
      exact hval v v' a b hle ha hb
    refine ⟨k, a, hk, hp, hwa, key, fun K c hK hc hgt => ?_⟩
    by_contra hne'
    exact absurd (hgt k a hk hne' hwa) (not_lt.2 (key K c hK hc))

/-- A printer for which the hypotheses of `C136_read` hold: it tells numbers from 0 upwards, negative numbers and "nan". -/
noncomputable def signOnly : RD → Str
  | .nan => "nan".toList
  | .ninf => "-1".toList
  | .fin r => open Classical in if r < 0 then "-1".toList else "1".toList
  | .pinf => "1".toList

example : ∃ val : Str → Option EReal, val "nan".toList = none ∧ val "-1".toList = some (-1) ∧ val "1".toList = some 1 ∧
    (∀ x, x ≠ RD.nan → ∃ a, val (signOnly x) = some a) ∧
    ∀ x y a b, RD.lt x y = false → val (signOnly x) = some a → val (signOnly y) = some b → b ≤ a := by
  have h1 : (-1 : EReal) ≤ 1 := by
    have : ((-1 : ℝ) : EReal) ≤ ((1 : ℝ) : EReal) := EReal.coe_le_coe_iff.2 (by norm_num)
    simpa using this
  refine ⟨fun w => if w = "nan".toList then none else if w = "-1".toList then some (-1) else some 1,
    rfl, rfl, rfl, fun x hx => ?_, fun x y a b h hx hy => ?_⟩
  · cases x with
    | nan => exact absurd rfl hx
    | ninf => exact ⟨-1, rfl⟩
    | fin r => by_cases hr : r < 0
               · exact ⟨-1, by simp only [signOnly, if_pos hr]; rfl⟩
               · exact ⟨1, by simp only [signOnly, if_neg hr]; rfl⟩
    | pinf => exact ⟨1, rfl⟩
  · have cases' : ∀ (x : RD) (a : EReal), (if signOnly x = "nan".toList then none else if signOnly x = "-1".toList then some (-1)
        else some 1) = some a → (a = -1 ∧ RD.lt x (.fin 0) = true) ∨ (a = 1 ∧ RD.lt x (.fin 0) = false ∧ x ≠ .nan) := by
      intro x a hx
      cases x with
      | nan => cases hx
      | ninf => cases hx; exact Or.inl ⟨rfl, rfl⟩
      | fin r => by_cases hr : r < 0
                 · simp only [signOnly, if_pos hr] at hx
                   cases hx
                   exact Or.inl ⟨rfl, (RD.lt_fin_fin _ _).2 hr⟩
                 · simp only [signOnly, if_neg hr] at hx
                   cases hx
                   exact Or.inr ⟨rfl, (RD.not_lt_fin_fin _ _).2 (not_lt.1 hr), by simp⟩
      | pinf => cases hx; exact Or.inr ⟨rfl, rfl, by simp⟩
    rcases cases' x a hx with ⟨rfl, hx'⟩ | ⟨rfl, _⟩ <;> rcases cases' y b hy with ⟨rfl, _⟩ | ⟨rfl, hy', hn⟩
    · exact le_rfl
    · have W := RD.laws RD.exactRounding (fun r => .fin r)
      rcases W.lt_cotrans x y (.fin 0) hn hx' with h' | h'
      · exact absurd h' (by rw [show (RD.fpu _ _).lt x y = RD.lt x y from rfl, h]; simp)
      · exact absurd h' (by rw [show (RD.fpu _ _).lt y (.fin 0) = RD.lt y (.fin 0) from rfl, hy']; simp)
    · exact h1
    · exact le_rfl

end JKD.Main
