import Verif.Props.RepeatProps
/-
C139: what a closing chord does.
-/

namespace JKD.Phrases

open Spec HMM RD Detect Main

/-! ### After a piece in one key -/

/-- **C139 (partial), closing phrases.**  A piece in one key from beginning to end stays in it when textbook phrases in this key are
added, such as the broken tonic triad or a cadence. -/
theorem C139_phrases_partial {η : ℝ} (lg : ℝ → RD) (hok : LogOk lg) (hlg : LogClose η lg) (hη : η ≤ (2 : ℝ) ^ (-30 : ℤ))
    (iter₁ iter₂ : Iter RD) (hi₁ : iter₁.Ok) (hi₂ : iter₂.Ok) (cfg : Config RD) (hc : Chosen cfg)
    (hT : cfg.keyTransition = "exponential10")
    (hp : cfg.majorKeyProfile = "krumhansl_kessler" ↔ cfg.minorKeyProfile = "krumhansl_kessler") (K : Int) (hK : IsKey K)
    (os close : List Int) (h : InKey cfg K os) (h' : Textbook K close) (hn : (os ++ close).length ≤ 2 ^ 19) :
    ∃ d, detect (ieee lg) iter₁ iter₂ cfg ((os ++ close).map PitchClass.ofInt) = .ok (.ok d) ∧
      d.localKeys = List.replicate (os ++ close).length (Key.ofInt K) ∧ d.mainKey = Key.ofInt K := by
  obtain ⟨h1, h2, h3, h4⟩ := inKey_append hc K hK os close h (textbook_inKey cfg hc hT hp K hK close h')
  exact heard lg hok hlg hη iter₁ iter₂ hi₁ hi₂ cfg hc K hK _ hn h1 h2 h3 h4

theorem sapp_top : ∀ k ∈ keys, ∀ o ∈ pcs, 0 ≤ playQ "sapp" "sapp" k o ∧ playQ "sapp" "sapp" k o ≤ playQ "sapp" "sapp" 0 0 := by
  decide +kernel

theorem sapp_tonic : ∀ K ∈ keys, playQ "sapp" "sapp" K (tonic K) = playQ "sapp" "sapp" 0 0 ∧
    playQ "sapp" "sapp" K ((tonic K + 7) % 12) = playQ "sapp" "sapp" 0 0 ∧ 0 < playQ "sapp" "sapp" 0 0 := by
  decide +kernel

theorem goQ_leave : ∀ s ∈ transitionChoices, ∀ j ∈ keys, ∀ k ∈ keys, j ≠ k → goQ s j k ≤ 9 / 10 * goQ s 0 0 := by
  decide +kernel

theorem inKey_note {cfg : Config RD} (hc : Chosen cfg) (hM : cfg.majorKeyProfile = "sapp") (hm : cfg.minorKeyProfile = "sapp") (K : Int)
    (hK : IsKey K) (os : List Int) (h : InKey cfg K os) (o : Int) (ho : o = tonic K ∨ o = (tonic K + 7) % 12) :
    InKey cfg K (os ++ [o]) := by
  have hnn : NonNeg (book cfg) := (stored1 (fun _ => nan) cfg hc []).nonneg
  have ht : 0 ≤ tonic K ∧ tonic K < 12 := by
    unfold tonic
    omega
  have hor : 0 ≤ o ∧ o < 12 := by omega
  have hop : o ∈ pcs := by rw [mem_pcs]; omega
  have hi : ∀ k, IsKey k → (book cfg).init k = 1 / 24 := fun k hk' => by simp only [book]; rw [if_pos (mem_keys.2 hk')]
  have em : ∀ k, IsKey k → (book cfg).emis k o = (playQ "sapp" "sapp" k o : ℝ) := by
    intro k hk
    simp only [book, mem_keys.2 hk, hop, and_self, if_true, hM, hm]
  have tr : ∀ j k, IsKey j → IsKey k → (book cfg).trans j k = (goQ cfg.keyTransition j k : ℝ) := by
    intro j k hj hk
    simp only [book, mem_keys.2 hj, mem_keys.2 hk, and_self, if_true]
  have one : ∀ k, IsKey k → prob (book cfg) [o] [k] = 1 / 24 * (playQ "sapp" "sapp" k o : ℝ) := by
    intro k hk
    rw [prob_split _ (1 / 24) [o] [k] rfl (by simp) (by simpa using hi k hk)]
    simp [moves, plays, em k hk]
  have top : (playQ "sapp" "sapp" K o : ℝ) = (playQ "sapp" "sapp" 0 0 : ℝ) ∧ (0 : ℝ) < (playQ "sapp" "sapp" 0 0 : ℝ) := by
    obtain ⟨a, b, c⟩ := sapp_tonic K (mem_keys.2 hK)
    refine ⟨?_, by exact_mod_cast c⟩
    rcases ho with rfl | rfl
    · rw [a]
    · rw [b]
  have le : ∀ k, IsKey k → 0 ≤ (playQ "sapp" "sapp" k o : ℝ) ∧ (playQ "sapp" "sapp" k o : ℝ) ≤ (playQ "sapp" "sapp" K o : ℝ) := by
    intro k hk
    rw [top.1]
    obtain ⟨a, b⟩ := sapp_top k (mem_keys.2 hk) o hop
    exact ⟨by exact_mod_cast a, by exact_mod_cast b⟩
  have stay : ∀ j k, IsKey j → IsKey k → 0 ≤ (goQ cfg.keyTransition j k : ℝ) ∧
      (goQ cfg.keyTransition j k : ℝ) ≤ (goQ cfg.keyTransition K K : ℝ) ∧ (0 : ℝ) < (goQ cfg.keyTransition K K : ℝ) := by
    intro j k hj hk
    obtain ⟨a, b, c⟩ := goQ_diag _ hc.trans j (mem_keys.2 hj) k (mem_keys.2 hk) K (mem_keys.2 hK)
    exact ⟨by exact_mod_cast a, by exact_mod_cast b, by exact_mod_cast c⟩
  have leave : ∀ k, IsKey k → K ≠ k → (goQ cfg.keyTransition K k : ℝ) ≤ 9 / 10 * (goQ cfg.keyTransition K K : ℝ) := by
    intro k hk hne
    have g1 := goQ_leave _ hc.trans K (mem_keys.2 hK) k (mem_keys.2 hk) hne
    rw [← ((goQ_stay _ hc.trans).2 K (mem_keys.2 hK)).1] at g1
    have g3 : ((goQ cfg.keyTransition K k : ℚ) : ℝ) ≤ ((9 / 10 * goQ cfg.keyTransition K K : ℚ) : ℝ) := by exact_mod_cast g1
    push_cast at g3
    exact g3
  have whole : prob (book cfg) (os ++ [o]) (List.replicate (os ++ [o]).length K) = (goQ cfg.keyTransition K K : ℝ) *
      (prob (book cfg) os (List.replicate os.length K) * (playQ "sapp" "sapp" K o : ℝ)) := by
    rw [List.length_append, List.replicate_add]
    obtain ⟨j, k, hj, hk, e⟩ := prob_join (cfg := cfg) os [o] (List.replicate os.length K) [K] (by simp) rfl
      h.notes (by simp) (by
        intro k hk
        simp only [List.mem_append, List.mem_replicate, List.mem_singleton] at hk
        rcases hk with ⟨_, rfl⟩ | rfl <;> exact hK)
    simp only [List.length_singleton, List.replicate_one]
    rw [e, List.eq_of_mem_replicate hj, List.mem_singleton.1 hk, one K hK, tr K K hK hK]
    ring
  refine ⟨by simp, ?_, ?_, ?_⟩
  · intro x hx
    rcases List.mem_append.1 hx with hx | hx
    · exact h.range x hx
    · rw [List.mem_singleton.1 hx]; exact hor
  · rw [whole, top.1]
    exact mul_pos (stay K K hK hK).2.2 (mul_pos h.possible top.2)
  · intro ks hl hks hne
    rw [whole]
    rw [List.length_append, List.length_singleton] at hl
    obtain ⟨l, k, rfl⟩ : ∃ l k, ks = l ++ [k] := by
      have : ks ≠ [] := by rintro rfl; simp at hl
      exact ⟨ks.dropLast, ks.getLast this, (List.dropLast_append_getLast this).symm⟩
    have hll : l.length = os.length := by simpa using hl
    have hlk : ∀ x ∈ l, IsKey x := fun x hx => hks x (by simp [hx])
    have hkk : IsKey k := hks k (by simp)
    obtain ⟨j, k', hj, hk', e⟩ := prob_join (cfg := cfg) os [o] l [k] hll rfl h.notes (by simp) hks
    rw [List.mem_singleton.1 hk'] at e
    rw [e, one k hkk, tr j k (hlk j hj) hkk]
    obtain ⟨s1, s2, s3⟩ := stay j k (hlk j hj) hkk
    obtain ⟨e1, e2⟩ := le k hkk
    have pn := prob_nonneg hnn os l
    have pp := h.possible
    generalize hR : prob (book cfg) os (List.replicate os.length K) = R at *
    generalize (goQ cfg.keyTransition K K : ℝ) = G at *
    generalize hA : (playQ "sapp" "sapp" k o : ℝ) = a at *
    generalize (playQ "sapp" "sapp" K o : ℝ) = A at *
    by_cases hlr : l = List.replicate os.length K
    · have hkne : K ≠ k := by
        rintro rfl
        apply hne
        rw [hlr]
        simp [List.replicate_add]
      have hjK : j = K := by rw [hlr] at hj; exact List.eq_of_mem_replicate hj
      subst hjK
      have hg := leave k hkk hkne
      rw [hlr, hR]
      calc _ = (goQ cfg.keyTransition j k : ℝ) * (R * a) := by ring
        _ ≤ (9 / 10 * G) * (R * A) := mul_le_mul hg (mul_le_mul_of_nonneg_left e2 pp.le) (mul_nonneg pp.le e1) (by positivity)
        _ = _ := by ring
    · have := h.best l hll hlk hlr
      rw [hR] at this
      calc _ = (goQ cfg.keyTransition j k : ℝ) * (prob (book cfg) os l * a) := by ring
        _ ≤ G * ((9 / 10 * R) * A) := mul_le_mul s2 (mul_le_mul this e2 e1 (by positivity)) (mul_nonneg pn e1) s3.le
        _ = _ := by ring

/-- **C139 (partial), closing notes.**  With the default profiles a piece in one key from beginning to end stays in it whatever number of
tonics and dominants is added, one after the other in any order. -/
theorem C139_notes_partial {η : ℝ} (lg : ℝ → RD) (hok : LogOk lg) (hlg : LogClose η lg) (hη : η ≤ (2 : ℝ) ^ (-30 : ℤ))
    (iter₁ iter₂ : Iter RD) (hi₁ : iter₁.Ok) (hi₂ : iter₂.Ok) (cfg : Config RD) (hc : Chosen cfg)
    (hM : cfg.majorKeyProfile = "sapp") (hm : cfg.minorKeyProfile = "sapp") (K : Int)
    (hK : IsKey K) (os close : List Int) (h : InKey cfg K os) (h' : ∀ o ∈ close, o = tonic K ∨ o = (tonic K + 7) % 12)
    (hn : (os ++ close).length ≤ 2 ^ 19) :
    ∃ d, detect (ieee lg) iter₁ iter₂ cfg ((os ++ close).map PitchClass.ofInt) = .ok (.ok d) ∧
      d.localKeys = List.replicate (os ++ close).length (Key.ofInt K) ∧ d.mainKey = Key.ofInt K := by
  have key : ∀ (close os : List Int), InKey cfg K os → (∀ o ∈ close, o = tonic K ∨ o = (tonic K + 7) % 12) → InKey cfg K (os ++ close) := by
    intro close
    induction close with
    | nil => intro os h _; simpa using h
    | cons o l ih =>
      intro os h h'
      have := ih (os ++ [o]) (inKey_note hc hM hm K hK os h o (h' o (by simp))) (fun q hq => h' q (by simp [hq]))
      rwa [List.append_assoc, List.singleton_append] at this
  obtain ⟨h1, h2, h3, h4⟩ := key close os h h'
  exact heard lg hok hlg hη iter₁ iter₂ hi₁ hi₂ cfg hc K hK _ hn h1 h2 h3 h4

/-! ### A closing chord changes the key -/

/-- G B F♯ F C. -/
def leaving : List Nat := [7, 11, 6, 5, 0]

/-- G B D G: the tonic triad of G major. -/
def closing : List Nat := [7, 11, 2, 7]

/-- **C139 is violated.**  A tune in G major is in C major when it is closed with the tonic triad of G major. -/
theorem C139_closing_violated {S P T : Type} {η : ℝ} (lg : ℝ → RD) (hok : LogOk lg) (hlg : LogClose η lg)
    (hη : η ≤ (2 : ℝ) ^ (-30 : ℤ)) (E : Env RD S P T) (hF : E.F = ieee lg) (hi₁ : HMM.Iter.Ok E.iter₁) (hi₂ : HMM.Iter.Ok E.iter₂)
    (hj : E.junkMajor.length = 12 ∧ E.junkMinor.length = 12 ∧ E.junkTransition.length = 24) (hs : E.strictMidi = false)
    (open_ closed ext ext' : Str) (hx : HasExtension open_ ext) (hx' : HasExtension closed ext') (hl : open_.length < npos)
    (hl' : closed.length < npos) (hm : ext.map Char.toLower = "mid".toList ∨ ext.map Char.toLower = "midi".toList)
    (hm' : ext'.map Char.toLower = "mid".toList ∨ ext'.map Char.toLower = "midi".toList)
    (he : E.midiEvents open_ = track leaving) (he' : E.midiEvents closed = track leaving ++ track closing) :
    Textbook 7 (closing.map (fun o : Nat => (o : Int))) ∧
    main E (.ok (Options.default open_)) = .ok { stdout := "G\tmajor\n".toList, stderr := [], code := 0 } ∧
    main E (.ok (Options.default closed)) = .ok { stdout := "C\tmajor\n".toList, stderr := [], code := 0 } := by
  have r1 : keyLine (Key.ofInt 7) = .ok "G\tmajor\n".toList := by decide +kernel
  have r2 : keyLine (Key.ofInt 0) = .ok "C\tmajor\n".toList := by decide +kernel
  refine ⟨⟨[[0, 4, 7, 0]], by decide, by decide, by decide⟩, ?_, ?_⟩
  · rw [clear_main lg hok hlg hη E hF hi₁ hi₂ hj hs open_ ext hx hl hm
      [(7, 7), (11, 7), (6, 7), (5, 0), (0, 0)] he (by decide) (by decide) (by decide +kernel) 7 (by decide)
      (by decide +kernel), r1]
    rfl
  · rw [clear_main lg hok hlg hη E hF hi₁ hi₂ hj hs closed ext' hx' hl' hm'
      [(7, 7), (11, 7), (6, 7), (5, 0), (0, 0), (7, 0), (11, 0), (2, 0), (7, 0)] he' (by decide) (by decide) (by decide +kernel) 0
      (by decide) (by decide +kernel), r2]
    rfl

/-! ### Cases -/

/-- A C minor scale is in one key and may be closed with C, G and C. -/
example : InKey plain 12 [0, 2, 3, 5, 7, 8, 11, 0] ∧ ∀ o ∈ [(0 : Int), 7, 0], o = tonic 12 ∨ o = (tonic 12 + 7) % 12 :=
  ⟨textbook_inKey plain plain_chosen rfl (by decide) 12 (by decide) _ cminor_scale, by decide⟩

end JKD.Phrases
