import Verif.Props.KeyRoundProps
import Verif.Props.PhraseProps
import Mathlib.Tactic.Linarith
import Mathlib.Tactic.Positivity
/-
C129: the local keys leave a key only for notes that speak for it.  C130: single notes.
-/

namespace JKD.Detect

open Spec HMM RD

/-! ### Specification -/

/-- How probable the notes `os` are when the keys are `ks`, note by note, by the printed profiles. -/
noncomputable def likelihood (cfg : Config RD) (ks os : List Int) : ℝ :=
  (List.zipWith (fun k o => (playQ cfg.majorKeyProfile cfg.minorKeyProfile k o : ℝ)) ks os).prod

/-- How often the key changes. -/
def changes : List Int → Nat
  | j :: k :: ks => (if j = k then 0 else 1) + changes (k :: ks)
  | _ => 0

/-- What a change of key costs at least: the base of the table of transitions. -/
noncomputable def price (s : String) : ℝ := if s = "exponential10" then 10 else 2

/-! ### Products along a path -/

/-- The transitions along a path. -/
noncomputable def moves (t : Tables ℝ) : List Int → ℝ
  | j :: k :: ks => t.trans j k * moves t (k :: ks)
  | _ => 1

noncomputable def plays (t : Tables ℝ) (ks os : List Int) : ℝ := (List.zipWith t.emis ks os).prod

theorem extendProb_eq (t : Tables ℝ) : ∀ (os ks : List Int) (acc : ℝ) (prev : Int), ks.length = os.length →
    extendProb t acc prev os ks = acc * (moves t (prev :: ks) * plays t ks os) := by
  intro os
  induction os with
  | nil => intro ks acc prev h; obtain rfl := List.length_eq_zero_iff.1 h; simp [extendProb, moves, plays]
  | cons o os ih =>
    intro ks acc prev h
    match ks, h with
    | k :: ks, h =>
      rw [extendProb, ih ks _ k (by simpa using h)]
      simp only [moves, plays, List.zipWith_cons_cons, List.prod_cons]
      ring

theorem prob_eq (t : Tables ℝ) (o : Int) (os : List Int) (k : Int) (ks : List Int) (h : ks.length = os.length) :
    prob t (o :: os) (k :: ks) = t.init k * (moves t (k :: ks) * plays t (k :: ks) (o :: os)) := by
  rw [prob, extendProb_eq t os ks _ k h]
  simp only [plays, List.zipWith_cons_cons, List.prod_cons]
  ring

theorem moves_left (t : Tables ℝ) : ∀ (pre xs : List Int), moves t (pre ++ xs) = moves t pre * moves t (pre.getLast?.toList ++ xs) := by
  intro pre
  induction pre with
  | nil => intro xs; simp [moves]
  | cons a pre ih =>
    intro xs
    cases pre with
    | nil => simp [moves]
    | cons b pre =>
      have := ih xs
      rw [List.cons_append] at this
      simp only [List.cons_append, moves, List.getLast?_cons_cons, this]
      ring

theorem moves_right (t : Tables ℝ) : ∀ (xs post : List Int), moves t (xs ++ post) = moves t (xs ++ post.head?.toList) * moves t post := by
  intro xs post
  cases post with
  | nil => simp [moves]
  | cons b post =>
    induction xs with
    | nil => simp [moves]
    | cons a xs ih =>
      cases xs with
      | nil => simp [moves]
      | cons c xs =>
        simp only [List.cons_append, moves, List.head?_cons, Option.toList_some] at ih ⊢
        rw [ih]
        ring

theorem moves_replicate (t : Tables ℝ) (A : Int) : ∀ n, moves t (List.replicate n A) = t.trans A A ^ (n - 1) := by
  intro n
  induction n with
  | zero => simp [moves]
  | succ n ih =>
    cases n with
    | zero => simp [moves]
    | succ n =>
      rw [List.replicate_succ, List.replicate_succ, moves, ← List.replicate_succ, ih]
      simp only [Nat.add_sub_cancel]
      rw [pow_succ]
      ring

/-! ### The tables of the command line -/

theorem goQ_price : ∀ s ∈ transitionChoices, ∀ j ∈ keys, ∀ k ∈ keys, 0 < goQ s j k ∧ goQ s j j = goQ s 0 0 ∧
    (j ≠ k → (if s = "exponential10" then 10 else 2) * goQ s j k ≤ goQ s 0 0) := by decide +kernel

theorem playQ_home : ∀ M ∈ profileChoices, ∀ m ∈ profileChoices, ∀ o ∈ pcs, 0 < playQ M m o o := by decide +kernel

section
variable {cfg : Config RD} (hc : Chosen cfg)

include hc in
theorem book_trans {j k : Int} (hj : j ∈ keys) (hk : k ∈ keys) :
    0 < (book cfg).trans j k ∧ (book cfg).trans j j = (goQ cfg.keyTransition 0 0 : ℝ) ∧
      (j ≠ k → price cfg.keyTransition * (book cfg).trans j k ≤ (goQ cfg.keyTransition 0 0 : ℝ)) := by
  obtain ⟨h1, h2, h3⟩ := goQ_price _ hc.trans j hj k hk
  simp only [book, hj, hk, and_self, if_true]
  refine ⟨Rat.cast_pos.2 h1, by rw [h2], fun hne => ?_⟩
  have := (Rat.cast_le (K := ℝ)).2 (h3 hne)
  unfold price
  split at this <;> rename_i e
  · rw [if_pos e]; push_cast at this; exact this
  · rw [if_neg e]; push_cast at this; exact this

include hc in
theorem moves_pos : ∀ ks : List Int, (∀ k ∈ ks, k ∈ keys) → 0 < moves (book cfg) ks := by
  intro ks
  induction ks with
  | nil => intro _; simp [moves]
  | cons a ks ih =>
    intro h
    cases ks with
    | nil => simp [moves]
    | cons b ks =>
      rw [moves]
      exact mul_pos (book_trans hc (h a (by simp)) (h b (by simp))).1 (ih (fun k hk => h k (by simp [hk])))

theorem price_pos (s : String) : 0 < price s := by unfold price; split <;> norm_num

include hc in
/-- Every change of key costs the price. -/
theorem moves_price : ∀ ks : List Int, (∀ k ∈ ks, k ∈ keys) →
    price cfg.keyTransition ^ changes ks * moves (book cfg) ks ≤ (goQ cfg.keyTransition 0 0 : ℝ) ^ (ks.length - 1) := by
  intro ks
  induction ks with
  | nil => intro _; simp [moves, changes]
  | cons a ks ih =>
    intro h
    cases ks with
    | nil => simp [moves, changes]
    | cons b ks =>
      have hi := ih (fun k hk => h k (by simp [hk]))
      obtain ⟨h1, h2, h3⟩ := book_trans hc (h a (by simp)) (h b (by simp))
      rw [moves, changes]
      simp only [List.length_cons, Nat.add_sub_cancel] at hi ⊢
      have hpos : 0 ≤ price cfg.keyTransition ^ changes (b :: ks) * moves (book cfg) (b :: ks) :=
        mul_nonneg (pow_nonneg (price_pos _).le _) (moves_pos hc _ (fun k hk => h k (by simp [hk]))).le
      have hg : (0 : ℝ) < (goQ cfg.keyTransition 0 0 : ℝ) := by rw [← h2]; exact (book_trans hc (h a (by simp)) (h a (by simp))).1
      rw [pow_succ (goQ cfg.keyTransition 0 0 : ℝ)]
      by_cases e : a = b
      · subst e
        rw [if_pos rfl, Nat.zero_add, h2]
        calc _ = price cfg.keyTransition ^ changes (a :: ks) * moves (book cfg) (a :: ks) * (goQ cfg.keyTransition 0 0 : ℝ) := by ring
          _ ≤ _ := mul_le_mul_of_nonneg_right hi hg.le
      · rw [if_neg e, pow_add, pow_one]
        calc _ = price cfg.keyTransition ^ changes (b :: ks) * moves (book cfg) (b :: ks) *
              (price cfg.keyTransition * (book cfg).trans a b) := by ring
          _ ≤ _ := mul_le_mul hi (h3 e) (mul_nonneg (price_pos _).le h1.le) (pow_nonneg hg.le _)

theorem plays_book (ks os : List Int) (hk : ∀ k ∈ ks, k ∈ keys) (ho : ∀ o ∈ os, o ∈ pcs) : plays (book cfg) ks os = likelihood cfg ks os := by
  unfold plays likelihood
  congr 1
  induction ks generalizing os with
  | nil => simp
  | cons k ks ih =>
    cases os with
    | nil => simp
    | cons o os =>
      simp only [List.zipWith_cons_cons, List.cons.injEq]
      refine ⟨?_, ih os (fun x hx => hk x (by simp [hx])) (fun x hx => ho x (by simp [hx]))⟩
      simp only [book, hk k (by simp), ho o (by simp), and_self, if_true]

theorem plays_append (t : Tables ℝ) (k1 k2 o1 o2 : List Int) (h : k1.length = o1.length) :
    plays t (k1 ++ k2) (o1 ++ o2) = plays t k1 o1 * plays t k2 o2 := by
  unfold plays
  rw [List.zipWith_append h, List.prod_append]

include hc in
/-- Some sequence of keys is possible: at every note its own major key. -/
theorem some_path (os : List Int) (ho : ∀ o ∈ os, o ∈ pcs) (hne : os ≠ []) : (∀ k ∈ os, k ∈ keys) ∧ 0 < prob (book cfg) os os := by
  have hk : ∀ k ∈ os, k ∈ keys := fun k hk => by
    have := ho k hk
    rw [mem_pcs] at this
    rw [mem_keys]
    unfold IsKey
    omega
  refine ⟨hk, ?_⟩
  have hpl : ∀ l : List Int, (∀ o ∈ l, o ∈ pcs) → 0 < likelihood cfg l l := by
    intro l
    induction l with
    | nil => intro _; simp [likelihood]
    | cons o l ih =>
      intro h
      unfold likelihood
      rw [List.zipWith_cons_cons, List.prod_cons]
      exact mul_pos (Rat.cast_pos.2 (playQ_home _ hc.major _ hc.minor o (h o (by simp)))) (ih (fun x hx => h x (by simp [hx])))
  match os with
  | o :: os =>
    rw [prob_eq _ _ _ _ _ rfl, plays_book _ _ hk ho]
    refine mul_pos ?_ (mul_pos (moves_pos hc _ hk) (hpl _ ho))
    simp only [book, hk o (by simp), if_true]
    norm_num
end

/-! ### C129 -/

section
variable {η : ℝ} (lg : ℝ → RD) (hok : LogOk lg) (hlg : LogClose η lg) (iter₁ iter₂ : Iter RD) (hi₁ : iter₁.Ok) (hi₂ : iter₂.Ok)
  (cfg : Config RD) (hc : Chosen cfg)

include hok hlg hi₁ hi₂ hc in
/-- The local keys cannot be improved by exchanging a part of them. -/
theorem exchange (os : List Int) (ho : ∀ o ∈ os, 0 ≤ o ∧ o < 12) (hne : os ≠ []) (hn : os.length ≤ 2 ^ 40) :
    ∃ d ls, detect (ieee lg) iter₁ iter₂ cfg (os.map PitchClass.ofInt) = .ok (.ok d) ∧
      d.localKeys = ls.map Key.ofInt ∧ ls.length = os.length ∧ (∀ l ∈ ls, IsKey l) ∧ 0 < likelihood cfg ls os ∧
      ∀ pre mid post opre omid opost alt : List Int, ls = pre ++ mid ++ post → os = opre ++ omid ++ opost →
        pre.length = opre.length → mid.length = omid.length → alt.length = mid.length → (∀ k ∈ alt, IsKey k) →
        moves (book cfg) (pre.getLast?.toList ++ alt ++ post.head?.toList) * likelihood cfg alt omid ≤
          (10 : ℝ) ^ (2 * slack η os.length) *
            (moves (book cfg) (pre.getLast?.toList ++ mid ++ post.head?.toList) * likelihood cfg mid omid) := by
  obtain ⟨d, ls, _, h1, h2, h3, h4, h5, _⟩ := C121_program lg hok hlg iter₁ iter₂ hi₁ hi₂ cfg hc os ho hne hn
  have hop : ∀ o ∈ os, o ∈ pcs := fun o h => by rw [mem_pcs]; exact ho o h
  have hlk : ∀ l ∈ ls, l ∈ keys := fun l h => mem_keys.2 (h4 l h)
  obtain ⟨hp1, hp2⟩ := some_path hc os hop hne
  have hS : (0 : ℝ) < (10 : ℝ) ^ (2 * slack η os.length) := Real.rpow_pos_of_pos (by norm_num) _
  have hpos : 0 < prob (book cfg) os ls := by
    have := h5 os rfl (fun k hk => mem_keys.1 (hp1 k hk))
    by_contra hlt
    have := mul_nonpos_of_nonneg_of_nonpos hS.le (not_lt.1 hlt)
    linarith
  have hprob : ∀ ks : List Int, ks.length = os.length → (∀ k ∈ ks, k ∈ keys) →
      prob (book cfg) os ks = 1 / 24 * (moves (book cfg) ks * likelihood cfg ks os) := by
    intro ks hl hk
    match os, ks, hl with
    | o :: os, k :: ks, hl =>
      rw [prob_eq _ _ _ _ _ (by simpa using hl), plays_book _ _ hk hop]
      simp only [book, hk k (by simp), if_true]
    | [], _, _ => exact absurd rfl hne
  have hpl : 0 < likelihood cfg ls os := by
    rw [hprob ls h3 hlk] at hpos
    have hm := moves_pos hc ls hlk
    by_contra hlt
    have := mul_nonpos_of_nonneg_of_nonpos hm.le (not_lt.1 hlt)
    linarith
  refine ⟨d, ls, h1, h2, h3, h4, hpl, ?_⟩
  rintro pre mid post opre omid opost alt rfl rfl hl1 hl2 hl3 hak
  have hpost : post.length = opost.length := by
    simp only [List.length_append] at h3
    omega
  have hak' : ∀ k ∈ alt, k ∈ keys := fun k h => mem_keys.2 (hak k h)
  have hpk : ∀ k ∈ pre, k ∈ keys := fun k h => hlk k (by simp [h])
  have hqk : ∀ k ∈ post, k ∈ keys := fun k h => hlk k (by simp [h])
  have hmk : ∀ k ∈ mid, k ∈ keys := fun k h => hlk k (by simp [h])
  have hop1 : ∀ o ∈ opre, o ∈ pcs := fun o h => hop o (by simp [h])
  have hop2 : ∀ o ∈ omid, o ∈ pcs := fun o h => hop o (by simp [h])
  have hop3 : ∀ o ∈ opost, o ∈ pcs := fun o h => hop o (by simp [h])
  have hallk : ∀ k ∈ pre ++ alt ++ post, k ∈ keys := by
    intro k hk
    simp only [List.mem_append] at hk
    rcases hk with (hk | hk) | hk
    · exact hpk k hk
    · exact hak' k hk
    · exact hqk k hk
  have hcmp := h5 (pre ++ alt ++ post) (by simp only [List.length_append]; omega) (fun k hk => mem_keys.1 (hallk k hk))
  rw [hprob _ (by simp only [List.length_append]; omega) hallk, hprob _ (by simp only [List.length_append]; omega) hlk] at hcmp
  have split : ∀ x : List Int, (∀ k ∈ x, k ∈ keys) → x.length = omid.length →
      moves (book cfg) (pre ++ x ++ post) * likelihood cfg (pre ++ x ++ post) (opre ++ omid ++ opost) =
        (moves (book cfg) pre * moves (book cfg) post * (likelihood cfg pre opre * likelihood cfg post opost)) *
          (moves (book cfg) (pre.getLast?.toList ++ x ++ post.head?.toList) * likelihood cfg x omid) := by
    intro x hx hxl
    rw [List.append_assoc pre x post, moves_left, ← List.append_assoc, moves_right]
    have e : likelihood cfg (pre ++ (x ++ post)) (opre ++ omid ++ opost) = likelihood cfg pre opre * (likelihood cfg x omid * likelihood cfg post opost) := by
      rw [List.append_assoc]
      rw [← plays_book (cfg := cfg) _ _ hpk hop1, ← plays_book (cfg := cfg) _ _ hx hop2, ← plays_book (cfg := cfg) _ _ hqk hop3,
        ← plays_book (cfg := cfg), plays_append _ _ _ _ _ hl1, plays_append _ _ _ _ _ hxl]
      · intro k hk
        simp only [List.mem_append] at hk
        rcases hk with hk | hk | hk
        · exact hpk k hk
        · exact hx k hk
        · exact hqk k hk
      · intro o h
        exact hop o (by simpa only [List.mem_append, or_assoc] using h)
    rw [e]
    ring
  rw [split alt hak' (by omega), split mid hmk hl2] at hcmp
  have hplm := hpl
  have hC : 0 < moves (book cfg) pre * moves (book cfg) post * (likelihood cfg pre opre * likelihood cfg post opost) := by
    have hm := moves_pos hc _ hlk
    have h0 := mul_pos hm hpl
    rw [split mid hmk hl2] at h0
    have hm1 := moves_pos hc pre hpk
    have hm2 := moves_pos hc post hqk
    have hnn : ∀ ks os : List Int, (∀ k ∈ ks, k ∈ keys) → (∀ o ∈ os, o ∈ pcs) → 0 ≤ likelihood cfg ks os := by
      intro ks os hk ho
      rw [← plays_book (cfg := cfg) _ _ hk ho]
      unfold plays
      refine List.prod_nonneg (fun x hx => ?_)
      obtain ⟨i, hi, rfl⟩ := List.getElem_of_mem hx
      rw [List.getElem_zipWith]
      exact (stored1 (fun _ => nan) cfg hc []).nonneg.emis _ _
    have h6 := mul_nonneg (hnn pre opre hpk hop1) (hnn post opost hqk hop3)
    rcases h6.eq_or_lt with e | e
    · rw [← e] at h0; simp at h0
    · exact mul_pos (mul_pos hm1 hm2) e
  generalize moves (book cfg) pre * moves (book cfg) post * (likelihood cfg pre opre * likelihood cfg post opost) = C at *
  have e1 : C * (moves (book cfg) (pre.getLast?.toList ++ alt ++ post.head?.toList) * likelihood cfg alt omid) ≤
      C * ((10 : ℝ) ^ (2 * slack η (opre ++ omid ++ opost).length) *
        (moves (book cfg) (pre.getLast?.toList ++ mid ++ post.head?.toList) * likelihood cfg mid omid)) := by
    linarith
  exact le_of_mul_le_mul_left e1 hC


include hok hlg hi₁ hi₂ hc in
/-- **C129.**  In double arithmetic, for the tables of the command line and any hash order: take any part of the detected local keys
that begins after the key `A` (or at the beginning) and ends before the key `A` (or at the end).  Its notes are more probable with the
detected keys than with `A` throughout, by the price of a change for every change of key in and around it, up to the factor
`10 ^ (2 slack)` of rounding.  Every note is possible in the key detected for it. -/
theorem C129_evidence (os : List Int) (ho : ∀ o ∈ os, 0 ≤ o ∧ o < 12) (hne : os ≠ []) (hn : os.length ≤ 2 ^ 40) :
    ∃ d ls, detect (ieee lg) iter₁ iter₂ cfg (os.map PitchClass.ofInt) = .ok (.ok d) ∧
      d.localKeys = ls.map Key.ofInt ∧ ls.length = os.length ∧ (∀ l ∈ ls, IsKey l) ∧
      (∀ (i : Nat) (l o : Int), ls[i]? = some l → os[i]? = some o → 0 < playQ cfg.majorKeyProfile cfg.minorKeyProfile l o) ∧
      ∀ (pre mid post opre omid opost : List Int) (A : Int), ls = pre ++ mid ++ post → os = opre ++ omid ++ opost →
        pre.length = opre.length → mid.length = omid.length → IsKey A →
        (pre = [] ∨ pre.getLast? = some A) → (post = [] ∨ post.head? = some A) →
        price cfg.keyTransition ^ changes (pre.getLast?.toList ++ mid ++ post.head?.toList) *
            likelihood cfg (List.replicate mid.length A) omid ≤
          (10 : ℝ) ^ (2 * slack η os.length) * likelihood cfg mid omid := by
  obtain ⟨d, ls, h1, h2, h3, h4, h5, h6⟩ := exchange lg hok hlg iter₁ iter₂ hi₁ hi₂ cfg hc os ho hne hn
  refine ⟨d, ls, h1, h2, h3, h4, ?_, ?_⟩
  · intro i l o hl hos
    have hop : o ∈ pcs := by rw [mem_pcs]; exact ho o (List.mem_of_getElem? hos)
    have hlk : l ∈ keys := mem_keys.2 (h4 l (List.mem_of_getElem? hl))
    have hnn : 0 ≤ (playQ cfg.majorKeyProfile cfg.minorKeyProfile l o : ℝ) := by
      have := (stored1 (fun _ => nan) cfg hc []).nonneg.emis l o
      simpa only [book, hlk, hop, and_self, if_true] using this
    have hnz : (playQ cfg.majorKeyProfile cfg.minorKeyProfile l o : ℝ) ≠ 0 := by
      intro e
      have : (0 : ℝ) ∈ List.zipWith (fun k o => (playQ cfg.majorKeyProfile cfg.minorKeyProfile k o : ℝ)) ls os := by
        refine List.mem_of_getElem? (i := i) ?_
        rw [List.getElem?_zipWith, hl, hos]
        simp only [e]
      unfold likelihood at h5
      rw [List.prod_eq_zero this] at h5
      exact lt_irrefl _ h5
    exact Rat.cast_pos.1 (lt_of_le_of_ne hnn (Ne.symm hnz))
  · intro pre mid post opre omid opost A hls hos hl1 hl2 hA hpre hpost
    have key := h6 pre mid post opre omid opost (List.replicate mid.length A) hls hos hl1 hl2 (by simp)
      (fun k hk => by rw [List.eq_of_mem_replicate hk]; exact hA)
    have hmem : ∀ k ∈ pre.getLast?.toList ++ mid ++ post.head?.toList, k ∈ keys := by
      intro k hk
      rw [mem_keys]
      refine h4 k ?_
      rw [hls]
      simp only [List.mem_append, Option.mem_toList] at hk ⊢
      rcases hk with (hk | hk) | hk
      · exact Or.inl (Or.inl (List.mem_of_getLast? hk))
      · exact Or.inl (Or.inr hk)
      · exact Or.inr (List.mem_of_head? hk)
    have hrep : pre.getLast?.toList ++ List.replicate mid.length A ++ post.head?.toList =
        List.replicate (pre.getLast?.toList ++ mid ++ post.head?.toList).length A := by
      have e1 : pre.getLast?.toList = List.replicate pre.getLast?.toList.length A := by
        rcases hpre with rfl | e
        · rfl
        · rw [e]; rfl
      have e2 : post.head?.toList = List.replicate post.head?.toList.length A := by
        rcases hpost with rfl | e
        · rfl
        · rw [e]; rfl
      conv_lhs => rw [e1, e2]
      rw [List.replicate_append_replicate, List.replicate_append_replicate]
      congr 1
      simp only [List.length_append]
    rw [hrep, moves_replicate, (book_trans hc (mem_keys.2 hA) (mem_keys.2 hA)).2.1] at key
    have hm := moves_price hc _ hmem
    have hmp := moves_pos hc _ hmem
    have hq : 0 ≤ likelihood cfg (List.replicate mid.length A) omid := by
      unfold likelihood
      refine List.prod_nonneg (fun x hx => ?_)
      obtain ⟨i, hi, rfl⟩ := List.getElem_of_mem hx
      rw [List.getElem_zipWith, List.getElem_replicate]
      have hop : omid[i]'(by simp only [List.length_zipWith] at hi; omega) ∈ pcs := by
        rw [mem_pcs]
        refine ho _ ?_
        rw [hos]
        simp only [List.mem_append]
        exact Or.inl (Or.inr (List.getElem_mem _))
      have := (stored1 (fun _ => nan) cfg hc []).nonneg.emis A (omid[i]'(by simp only [List.length_zipWith] at hi; omega))
      simpa only [book, mem_keys.2 hA, hop, and_self, if_true] using this
    have h7 := (mul_le_mul_of_nonneg_right hm hq).trans key
    generalize moves (book cfg) (pre.getLast?.toList ++ mid ++ post.head?.toList) = mv at *
    generalize price cfg.keyTransition ^ changes (pre.getLast?.toList ++ mid ++ post.head?.toList) = pr at *
    refine le_of_mul_le_mul_left ?_ hmp
    linarith

end

/-! ### How long an excursion lasts -/

theorem changes_start : ∀ (l : List Int) (x A : Int), x ≠ A → 1 ≤ changes (x :: l ++ [A]) := by
  intro l
  induction l with
  | nil => intro x A h; simp [changes, h]
  | cons y l ih =>
    intro x A h
    rw [List.cons_append, List.cons_append, changes, ← List.cons_append]
    by_cases e : x = y
    · subst e
      have := ih x A h
      omega
    · rw [if_neg e]; omega

theorem changes_return : ∀ (l : List Int) (A : Int), (∃ k ∈ l, k ≠ A) → 2 ≤ changes (A :: l ++ [A]) := by
  intro l
  induction l with
  | nil => rintro A ⟨k, hk, _⟩; simp at hk
  | cons y l ih =>
    rintro A ⟨k, hk, hkA⟩
    rw [List.cons_append, List.cons_append, changes, ← List.cons_append]
    by_cases e : A = y
    · subst e
      rcases List.mem_cons.1 hk with rfl | hk
      · exact absurd rfl hkA
      · have := ih A ⟨k, hk, hkA⟩
        omega
    · rw [if_neg e]
      have := changes_start l y A (fun h => e h.symm)
      omega

theorem changes_leave : ∀ (l : List Int) (A : Int), (∃ k ∈ l, k ≠ A) → 1 ≤ changes (A :: l) := by
  intro l
  induction l with
  | nil => rintro A ⟨k, hk, _⟩; simp at hk
  | cons y l ih =>
    rintro A ⟨k, hk, hkA⟩
    rw [changes]
    by_cases e : A = y
    · subst e
      rcases List.mem_cons.1 hk with rfl | hk
      · exact absurd rfl hkA
      · have := ih A ⟨k, hk, hkA⟩
        omega
    · rw [if_neg e]; omega

theorem changes_arrive : ∀ (l : List Int) (A : Int), (∃ k ∈ l, k ≠ A) → 1 ≤ changes (l ++ [A]) := by
  intro l
  induction l with
  | nil => rintro A ⟨k, hk, _⟩; simp at hk
  | cons y l ih =>
    rintro A ⟨k, hk, hkA⟩
    by_cases e : y = A
    · subst e
      rcases List.mem_cons.1 hk with rfl | hk
      · exact absurd rfl hkA
      · have := changes_return l y ⟨k, hk, hkA⟩
        omega
    · exact changes_start l y A e

/-- How much more probable a note can be in another key (Krumhansl and Kessler). -/
theorem kk_ratio : ∀ k ∈ keys, ∀ A ∈ keys, ∀ o ∈ pcs,
    playQ "krumhansl_kessler" "krumhansl_kessler" k o ≤ 285 / 100 * playQ "krumhansl_kessler" "krumhansl_kessler" A o ∧
    0 < playQ "krumhansl_kessler" "krumhansl_kessler" A o := by decide +kernel

/-- Profiles without zeros, and not both those of Aarden. -/
def patient : List (String × String) :=
  [("krumhansl_kessler", "krumhansl_kessler"), ("krumhansl_kessler", "aarden_essen"), ("krumhansl_kessler", "bellman_budge"),
   ("krumhansl_kessler", "temperley"), ("aarden_essen", "krumhansl_kessler"), ("aarden_essen", "bellman_budge"),
   ("aarden_essen", "temperley"), ("bellman_budge", "krumhansl_kessler"), ("bellman_budge", "aarden_essen"),
   ("bellman_budge", "bellman_budge"), ("bellman_budge", "temperley"), ("temperley", "krumhansl_kessler"),
   ("temperley", "aarden_essen"), ("temperley", "bellman_budge"), ("temperley", "temperley")]

/-- A single note in another key never pays for going there and coming back. -/
theorem single_pays : ∀ p ∈ patient, ∀ A ∈ ([0, 12] : List Int), ∀ B ∈ keys,
    A ≠ B → ∀ o ∈ pcs, 27 / 25 * (goQ "exponential10" A B * goQ "exponential10" B A * playQ p.1 p.2 B o) <
      goQ "exponential10" A A * goQ "exponential10" A A * playQ p.1 p.2 A o := by decide +kernel

theorem single_pays_any (M m : String) (hM : (M, m) ∈ patient) (A B o : Int) (hA : A ∈ keys) (hB : B ∈ keys)
    (hne : A ≠ B) (ho : o ∈ pcs) : 27 / 25 * (goQ "exponential10" A B * goQ "exponential10" B A * playQ M m B o) <
      goQ "exponential10" A A * goQ "exponential10" A A * playQ M m A o := by
  have hA0 : transposeKey (-(tonic A)) A ∈ ([0, 12] : List Int) := by
    have h1 := Phrases.rel_self A
    have h2 := Phrases.rel_int (tonic A) A
    rw [h1] at h2
    rw [← h2]
    split <;> simp
  have hpo : transposePc (tonic A) (transposePc (-(tonic A)) o) = o := by
    rw [mem_pcs] at ho
    unfold transposePc
    omega
  have hpm : transposePc (-(tonic A)) o ∈ pcs := by
    rw [mem_pcs]
    unfold transposePc
    omega
  have hne' : transposeKey (-(tonic A)) A ≠ transposeKey (-(tonic A)) B := fun e => hne (transposeKey_inj _ A hA B hB e)
  have key := single_pays (M, m) hM _ hA0 _ (transposeKey_mem (-(tonic A)) (n := B)) hne' _ hpm
  rw [← Phrases.goQ_moved _ (tonic A) _ _ (transposeKey_mem _) (transposeKey_mem _),
    ← Phrases.goQ_moved _ (tonic A) _ _ (transposeKey_mem (-(tonic A)) (n := B)) (transposeKey_mem (-(tonic A)) (n := A)),
    ← Phrases.goQ_moved _ (tonic A) _ _ (transposeKey_mem (-(tonic A)) (n := A)) (transposeKey_mem (-(tonic A)) (n := A)),
    ← Phrases.playQ_moved M m (tonic A) (transposeKey (-(tonic A)) B), ← Phrases.playQ_moved M m (tonic A) (transposeKey (-(tonic A)) A), hpo, Phrases.back_again _ A hA,
    Phrases.back_again _ B hB] at key
  exact key

theorem slack_ninth {η : ℝ} (hη : η ≤ (2 : ℝ) ^ (-30 : ℤ)) (n : Nat) (hn : n ≤ 2 ^ 19) : (10 : ℝ) ^ (2 * slack η n) < 10 / 9 := by
  have := Phrases.slack_tenth hη n hn
  linarith

theorem slack_finer {η : ℝ} (hη : η ≤ (2 : ℝ) ^ (-30 : ℤ)) (n : Nat) (hn : n ≤ 2 ^ 19) : (10 : ℝ) ^ (2 * slack η n) < 27 / 25 := by
  have hn' : (n : ℝ) ≤ 2 ^ 19 := by exact_mod_cast hn
  have h0 : (0 : ℝ) ≤ n := Nat.cast_nonneg n
  have h : 2 * slack η n ≤ 1 / 31 := by
    unfold slack
    have a1 : (n : ℝ) * (η + (2 : ℝ) ^ (-51 : ℤ)) ≤ 2 ^ 19 * ((2 : ℝ) ^ (-30 : ℤ) + (2 : ℝ) ^ (-51 : ℤ)) := by
      calc (n : ℝ) * (η + (2 : ℝ) ^ (-51 : ℤ)) ≤ n * ((2 : ℝ) ^ (-30 : ℤ) + (2 : ℝ) ^ (-51 : ℤ)) :=
            mul_le_mul_of_nonneg_left (by linarith) h0
        _ ≤ _ := mul_le_mul_of_nonneg_right hn' (by positivity)
    have a2 : (n : ℝ) ^ 2 * (2 : ℝ) ^ (-44 : ℤ) ≤ (2 ^ 19) ^ 2 * (2 : ℝ) ^ (-44 : ℤ) :=
      mul_le_mul_of_nonneg_right (pow_le_pow_left₀ h0 hn' 2) (by positivity)
    have a3 : 2 * ((2 : ℝ) ^ 19 * ((2 : ℝ) ^ (-30 : ℤ) + (2 : ℝ) ^ (-51 : ℤ)) + (2 ^ 19) ^ 2 * (2 : ℝ) ^ (-44 : ℤ)) ≤ 1 / 31 := by
      norm_num
    refine le_trans ?_ a3
    exact mul_le_mul_of_nonneg_left (add_le_add a1 a2) (by norm_num)
  have e : ((10 : ℝ) ^ (1 / 31 : ℝ)) ^ (31 : ℕ) = 10 := by
    rw [← Real.rpow_natCast, ← Real.rpow_mul (by norm_num)]
    norm_num
  have h2 : (10 : ℝ) ^ (1 / 31 : ℝ) < 27 / 25 := by
    by_contra hlt
    have := pow_le_pow_left₀ (by norm_num) (not_lt.1 hlt) 31
    rw [e] at this
    norm_num at this
  exact (Real.rpow_le_rpow_of_exponent_le (by norm_num : (1 : ℝ) ≤ 10) h).trans_lt h2

section
variable {η : ℝ} (lg : ℝ → RD) (hok : LogOk lg) (hlg : LogClose η lg) (hη : η ≤ (2 : ℝ) ^ (-30 : ℤ)) (iter₁ iter₂ : Iter RD)
  (hi₁ : iter₁.Ok) (hi₂ : iter₂.Ok) (cfg : Config RD) (hc : Chosen cfg) (hT : cfg.keyTransition = "exponential10")

include hok hlg hη hi₁ hi₂ hc hT in
/-- **C130 (partial).**  With the default transitions and with profiles other than `sapp`, and not both `aarden_essen`: a single note
never gets a key of its own between two notes of the same key.  Pieces of up to `2¹⁹` notes.  Missing: the other profiles, among them
the default; for each of them it is false (`C130_profiles_violated`). -/
theorem C130_single_partial (hM : cfg.majorKeyProfile ≠ "sapp") (hm : cfg.minorKeyProfile ≠ "sapp")
    (hMm : ¬ (cfg.majorKeyProfile = "aarden_essen" ∧ cfg.minorKeyProfile = "aarden_essen")) (os : List Int)
    (ho : ∀ o ∈ os, 0 ≤ o ∧ o < 12) (hne : os ≠ []) (hn : os.length ≤ 2 ^ 19) :
    ∃ d ls, detect (ieee lg) iter₁ iter₂ cfg (os.map PitchClass.ofInt) = .ok (.ok d) ∧
      d.localKeys = ls.map Key.ofInt ∧ ls.length = os.length ∧ (∀ l ∈ ls, IsKey l) ∧
      ∀ (pre post : List Int) (A B : Int), ls = pre ++ [A, B, A] ++ post → B = A := by
  obtain ⟨d, ls, h1, h2, h3, h4, _, h6⟩ := exchange lg hok hlg iter₁ iter₂ hi₁ hi₂ cfg hc os ho hne (hn.trans (by norm_num))
  refine ⟨d, ls, h1, h2, h3, h4, ?_⟩
  intro pre post A B hls
  by_contra hBA
  have hlen : pre.length + 3 + post.length = os.length := by
    rw [← h3, hls]
    simp only [List.length_append, List.length_cons, List.length_nil]
  have hA : A ∈ keys := mem_keys.2 (h4 A (by rw [hls]; simp))
  have hB : B ∈ keys := mem_keys.2 (h4 B (by rw [hls]; simp))
  have hi : pre.length + 1 < os.length := by omega
  have hop : os[pre.length + 1] ∈ pcs := by rw [mem_pcs]; exact ho _ (List.getElem_mem hi)
  have hos : os = os.take (pre.length + 1) ++ [os[pre.length + 1]] ++ os.drop (pre.length + 2) := by
    rw [List.append_assoc, List.singleton_append, ← List.drop_eq_getElem_cons hi, List.take_append_drop]
  have key := h6 (pre ++ [A]) [B] (A :: post) (os.take (pre.length + 1)) [os[pre.length + 1]] (os.drop (pre.length + 2)) [A]
    (by rw [hls]; simp) hos (by simp only [List.length_append, List.length_cons, List.length_nil, List.length_take]; omega) rfl rfl
    (by intro k hk; rw [List.mem_singleton.1 hk]; exact mem_keys.1 hA)
  simp only [List.getLast?_append, List.getLast?_singleton, Option.some_or, Option.toList_some, List.head?_cons,
    List.cons_append, List.nil_append, moves, likelihood, List.zipWith_cons_cons, List.zipWith_nil_left,
    List.prod_cons, List.prod_nil, mul_one, book, hA, hB, and_self, if_true, hT] at key
  have hs := slack_finer hη os.length hn
  have hp : (cfg.majorKeyProfile, cfg.minorKeyProfile) ∈ patient := by
    have g1 := hc.major
    have g2 := hc.minor
    generalize cfg.majorKeyProfile = M at *
    generalize cfg.minorKeyProfile = m at *
    have : ∀ M ∈ profileChoices, ∀ m ∈ profileChoices, M ≠ "sapp" → m ≠ "sapp" → ¬ (M = "aarden_essen" ∧ m = "aarden_essen") →
        (M, m) ∈ patient := by decide
    exact this M g1 m g2 hM hm hMm
  have hpay := (Rat.cast_lt (K := ℝ)).2 (single_pays_any _ _ hp A B _ hA hB (fun e => hBA e.symm) hop)
  push_cast at hpay
  have hnn : 0 ≤ (goQ "exponential10" A B : ℝ) * goQ "exponential10" B A *
      playQ cfg.majorKeyProfile cfg.minorKeyProfile B os[pre.length + 1] := by
    have g1 := (book_trans hc hA hB).1
    have g2 := (book_trans hc hB hA).1
    have g3 := (stored1 (fun _ => nan) cfg hc []).nonneg.emis B os[pre.length + 1]
    simp only [book, hA, hB, hop, and_self, if_true, hT] at g1 g2 g3
    exact mul_nonneg (mul_nonneg g1.le g2.le) g3
  have := mul_le_mul_of_nonneg_right hs.le hnn
  linarith

theorem kk_bound (hM : cfg.majorKeyProfile = "krumhansl_kessler") (hm : cfg.minorKeyProfile = "krumhansl_kessler") (A : Int)
    (hA : A ∈ keys) : ∀ (mid omid : List Int), mid.length = omid.length → (∀ k ∈ mid, k ∈ keys) → (∀ o ∈ omid, o ∈ pcs) →
    0 < likelihood cfg (List.replicate mid.length A) omid ∧
      likelihood cfg mid omid ≤ (285 / 100) ^ mid.length * likelihood cfg (List.replicate mid.length A) omid ∧
      0 ≤ likelihood cfg mid omid := by
  intro mid
  induction mid with
  | nil => intro omid h _ _; obtain rfl := List.length_eq_zero_iff.1 h.symm; simp [likelihood]
  | cons k mid ih =>
    intro omid h hk ho
    match omid, h with
    | o :: omid, h =>
      obtain ⟨i1, i2, i3⟩ := ih omid (by simpa using h) (fun x hx => hk x (by simp [hx])) (fun x hx => ho x (by simp [hx]))
      obtain ⟨r1, r2⟩ := kk_ratio k (hk k (by simp)) A hA o (ho o (by simp))
      obtain ⟨_, r3⟩ := kk_ratio k (hk k (by simp)) k (hk k (by simp)) o (ho o (by simp))
      have e1 := (Rat.cast_le (K := ℝ)).2 r1
      have e2 : (0 : ℝ) < _ := Rat.cast_pos.2 r2
      have e3 : (0 : ℝ) < _ := Rat.cast_pos.2 r3
      push_cast at e1
      unfold likelihood at i1 i2 i3 ⊢
      simp only [List.length_cons, List.replicate_succ, List.zipWith_cons_cons, List.prod_cons, hM, hm] at i1 i2 i3 ⊢
      refine ⟨mul_pos e2 i1, ?_, mul_nonneg e3.le i3⟩
      refine (mul_le_mul e1 i2 i3 (by positivity)).trans (le_of_eq ?_)
      rw [pow_succ]
      ring

include hok hlg hη hi₁ hi₂ hc hT in
/-- **C129, Krumhansl and Kessler.**  With these profiles and the default transitions, an excursion to other keys that returns to its
key lasts for at least five notes, and the piece does not begin or end with fewer than three notes outside of the key that follows or
precedes. -/
theorem C129_krumhansl (hM : cfg.majorKeyProfile = "krumhansl_kessler") (hm : cfg.minorKeyProfile = "krumhansl_kessler")
    (os : List Int) (ho : ∀ o ∈ os, 0 ≤ o ∧ o < 12) (hne : os ≠ []) (hn : os.length ≤ 2 ^ 19) :
    ∃ d ls, detect (ieee lg) iter₁ iter₂ cfg (os.map PitchClass.ofInt) = .ok (.ok d) ∧
      d.localKeys = ls.map Key.ofInt ∧ ls.length = os.length ∧ (∀ l ∈ ls, IsKey l) ∧
      ∀ (pre mid post : List Int) (A : Int), (∃ k ∈ mid, k ≠ A) →
        (ls = pre ++ [A] ++ mid ++ [A] ++ post → 5 ≤ mid.length) ∧
        (ls = pre ++ [A] ++ mid → 3 ≤ mid.length) ∧ (ls = mid ++ [A] ++ post → 3 ≤ mid.length) := by
  obtain ⟨d, ls, h1, h2, h3, h4, _, h6⟩ := C129_evidence lg hok hlg iter₁ iter₂ hi₁ hi₂ cfg hc os ho hne (hn.trans (by norm_num))
  refine ⟨d, ls, h1, h2, h3, h4, ?_⟩
  intro pre mid post A hex
  have hs := slack_ninth hη os.length hn
  have hs0 : (0 : ℝ) < (10 : ℝ) ^ (2 * slack η os.length) := Real.rpow_pos_of_pos (by norm_num) _
  have hprice : price cfg.keyTransition = 10 := by rw [hT]; unfold price; rw [if_pos rfl]
  -- the general argument
  have gen : ∀ (p q : List Int) (c : Nat), ls = p ++ mid ++ q → A ∈ ls → (p = [] ∨ p.getLast? = some A) → (q = [] ∨ q.head? = some A) →
      c ≤ changes (p.getLast?.toList ++ mid ++ q.head?.toList) → (10 : ℝ) ^ c < 10 / 9 * (285 / 100) ^ mid.length := by
    intro p q c hls hAl hp hq hch
    have hA : A ∈ keys := mem_keys.2 (h4 A hAl)
    have hlen : p.length + mid.length + q.length = os.length := by
      rw [← h3, hls]
      simp only [List.length_append]
    have hos : os = os.take p.length ++ (os.drop p.length).take mid.length ++ (os.drop p.length).drop mid.length := by
      rw [List.append_assoc, List.take_append_drop, List.take_append_drop]
    have hl : mid.length = ((os.drop p.length).take mid.length).length := by
      simp only [List.length_take, List.length_drop]; omega
    have key := h6 p mid q _ _ _ A hls hos (by simp only [List.length_take]; omega) hl (mem_keys.1 hA) hp hq
    obtain ⟨b1, b2, b3⟩ := kk_bound cfg hM hm A hA mid ((os.drop p.length).take mid.length) hl
      (fun k hk => mem_keys.2 (h4 k (by rw [hls]; simp [hk])))
      (fun o h => by rw [mem_pcs]; exact ho o (List.mem_of_mem_drop (List.mem_of_mem_take h)))
    rw [hprice] at key
    have hc2 : (10 : ℝ) ^ c ≤ 10 ^ changes (p.getLast?.toList ++ mid ++ q.head?.toList) := pow_le_pow_right₀ (by norm_num) hch
    generalize likelihood cfg (List.replicate mid.length A) ((os.drop p.length).take mid.length) = L at *
    generalize likelihood cfg mid ((os.drop p.length).take mid.length) = L' at *
    generalize (10 : ℝ) ^ changes (p.getLast?.toList ++ mid ++ q.head?.toList) = C at *
    have hR : (0 : ℝ) < (285 / 100) ^ mid.length * L := mul_pos (pow_pos (by norm_num) _) b1
    have k1 := (mul_le_mul_of_nonneg_right hc2 b1.le).trans (key.trans (mul_le_mul_of_nonneg_left b2 hs0.le))
    have k2 := mul_lt_mul_of_pos_right hs hR
    have k3 : (10 : ℝ) ^ c * L < 10 / 9 * (285 / 100) ^ mid.length * L := by
      rw [mul_assoc]
      exact lt_of_le_of_lt k1 k2
    exact lt_of_mul_lt_mul_right k3 b1.le
  refine ⟨fun hls => ?_, fun hls => ?_, fun hls => ?_⟩
  · by_contra hlt
    have := gen (pre ++ [A]) ([A] ++ post) 2 (by rw [hls]; simp) (by rw [hls]; simp) (Or.inr (by simp)) (Or.inr (by simp))
      (by simpa using changes_return mid A hex)
    have h5 : ((285 : ℝ) / 100) ^ mid.length ≤ (285 / 100) ^ 4 := pow_le_pow_right₀ (by norm_num) (by omega)
    norm_num at this h5
    linarith
  · by_contra hlt
    have := gen (pre ++ [A]) [] 1 (by rw [hls]; simp) (by rw [hls]; simp) (Or.inr (by simp)) (Or.inl rfl)
      (by simpa using changes_leave mid A hex)
    have h5 : ((285 : ℝ) / 100) ^ mid.length ≤ (285 / 100) ^ 2 := pow_le_pow_right₀ (by norm_num) (by omega)
    norm_num at this h5
    linarith
  · by_contra hlt
    have := gen [] ([A] ++ post) 1 (by rw [hls]; simp) (by rw [hls]; simp) (Or.inl rfl) (Or.inr (by simp))
      (by simpa using changes_arrive mid A hex)
    have h5 : ((285 : ℝ) / 100) ^ mid.length ≤ (285 / 100) ^ 2 := pow_le_pow_right₀ (by norm_num) (by omega)
    norm_num at this h5
    linarith

end

end JKD.Detect
