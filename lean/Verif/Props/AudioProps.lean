import Verif.Props.ChromagramProps
import Mathlib.Data.Real.Basic
import Mathlib.Algebra.BigOperators.Group.List.Basic
import Mathlib.Tactic.Ring
import Mathlib.Tactic.Linarith
/-
C53: the audio reader feeds the plug-in every sample of the file, once and in order.
-/

namespace JKD
namespace Chromagram

variable {D S P T : Type}

/-- The mono signal: one mixed sample per frame. -/
def mono (M : MixOps S) (f : AudioFile S) : List S := f.data.map (mixSample M f.channels)

/-- Block `k` of the mono signal, of `b` samples, padded with silence after the end. -/
def blockAt (M : MixOps S) (f : AudioFile S) (b k : Nat) : List S :=
  (List.range b).map (fun i => (mono M f).getD (k * b + i) M.zero)

/-- How many blocks of `b` samples cover `n` samples. -/
def blockCount (n b : Nat) : Nat := (n + b - 1) / b

/-- The plug-in run on the blocks `ks`: the state reached and the features produced for output `out`. -/
def feed (M : MixOps S) (pl : Plugin S D P T) (out : Nat) (f : AudioFile S) (ks : List Nat)
    (s : P × List (Feature D)) : P × List (Feature D) :=
  ks.foldl (fun s k =>
    let r := pl.process s.1 (blockAt M f pl.blocksize k) (pl.frame2RealTime (k * pl.blocksize))
    (r.1, s.2 ++ r.2 out)) s

theorem mixBlock_eq (M : MixOps S) (f : AudioFile S) (b k : Nat) :
    mixBlock M f.channels b ((f.data.drop (k * b)).take b) = blockAt M f b k := by
  unfold mixBlock blockAt mono
  refine List.map_congr_left ?_
  intro i hi
  rw [List.mem_range] at hi
  rw [List.getElem?_take_of_lt hi, List.getElem?_drop, List.getD_eq_getElem?_getD, List.getElem?_map]
  cases f.data[k * b + i]? <;> rfl

theorem lt_blockCount {n b k : Nat} (hb : 0 < b) : k < blockCount n b ↔ k * b < n := by
  unfold blockCount
  rw [← Nat.succ_le_iff, Nat.le_div_iff_mul_le hb, Nat.succ_mul]
  omega

theorem readLoop_eq (M : MixOps S) (pl : Plugin S D P T) (out : Nat) (f : AudioFile S)
    (hb : 0 < pl.blocksize) (hfr : (f.data.length : Int) ≤ f.frames)
    (hmax : (f.data.length : Int) ≤ 2147483647) (fuel k : Nat) (hk : k ≤ blockCount f.data.length pl.blocksize)
    (hfuel : blockCount f.data.length pl.blocksize < fuel + k) (p : P) (acc : List (Feature D)) :
    readLoop M pl out f fuel (f.data.drop (k * pl.blocksize)) (min (k * pl.blocksize) f.data.length) p acc =
      .ok (feed M pl out f (List.range' k (blockCount f.data.length pl.blocksize - k)) (p, acc)) := by
  have hI : intMax = 2147483647 := rfl
  induction fuel generalizing k p acc with
  | zero => omega
  | succ fuel ih =>
    rw [readLoop]
    by_cases hkc : k < blockCount f.data.length pl.blocksize
    · have hlt := (lt_blockCount hb).1 hkc
      have hmin : min (k * pl.blocksize) f.data.length = k * pl.blocksize := by omega
      have hlen : ((f.data.drop (k * pl.blocksize)).take pl.blocksize).length =
          min pl.blocksize (f.data.length - k * pl.blocksize) := by simp
      have hsucc : (k + 1) * pl.blocksize = k * pl.blocksize + pl.blocksize := Nat.succ_mul _ _
      rw [if_pos (by rw [hmin]; omega)]
      simp only [hlen, hmin]
      rw [if_neg (by omega), if_pos (by omega), mixBlock_eq]
      have hnext : k * pl.blocksize + min pl.blocksize (f.data.length - k * pl.blocksize) =
          min ((k + 1) * pl.blocksize) f.data.length := by omega
      rw [hnext, List.drop_drop, ← hsucc, ih (k + 1) (by omega) (by omega)]
      have hr : blockCount f.data.length pl.blocksize - k =
          (blockCount f.data.length pl.blocksize - (k + 1)) + 1 := by omega
      rw [hr, List.range'_succ]
      rfl
    · have hge : f.data.length ≤ k * pl.blocksize := by
        have := mt (lt_blockCount (n := f.data.length) hb).2 hkc
        omega
      have h0 : blockCount f.data.length pl.blocksize - k = 0 := by omega
      rw [h0]
      simp only [List.drop_eq_nil_of_le hge, List.take_nil, List.length_nil, if_true]
      split <;> rfl

/-- **C53.**  For an audio file of at most `INT_MAX` frames (and a header that does not understate its
length), the plug-in is given the mono mix of the whole file cut into blocks: block `k` starts at frame
`k * blocksize` and carries that frame's timestamp, only the last block is padded with silence, there are
exactly as many blocks as needed, and all features of the `chroma` output are collected in order. -/
theorem C53_blocks (M : MixOps S) (pl : Plugin S D P T) (out : Nat) (f : AudioFile S)
    (hb : 0 < pl.blocksize) (hfr : (f.data.length : Int) ≤ f.frames)
    (hmax : (f.data.length : Int) ≤ 2147483647) :
    readLoop M pl out f (f.data.length + 1) f.data 0 pl.start [] =
      .ok (feed M pl out f (List.range (blockCount f.data.length pl.blocksize)) (pl.start, [])) := by
  have hc : blockCount f.data.length pl.blocksize < f.data.length + 1 + 0 := by
    unfold blockCount
    rw [Nat.div_lt_iff_lt_mul hb]
    have : f.data.length + 1 ≤ (f.data.length + 1) * pl.blocksize := Nat.le_mul_of_pos_right _ hb
    have h2 : (f.data.length + 1) * pl.blocksize = f.data.length * pl.blocksize + pl.blocksize := by ring
    have h3 : f.data.length ≤ f.data.length * pl.blocksize := Nat.le_mul_of_pos_right _ hb
    simp only [Nat.add_zero]
    omega
  have := readLoop_eq M pl out f hb hfr hmax (f.data.length + 1) 0 (by omega) hc pl.start []
  simpa [List.range_eq_range'] using this

/-- **C53, nothing lost.**  The blocks put together are the mono signal followed by silence. -/
theorem C53_blocks_cover (M : MixOps S) (f : AudioFile S) (b : Nat) (hb : 0 < b) :
    ∃ pad, ((List.range (blockCount f.data.length b)).flatMap (blockAt M f b)) =
      mono M f ++ List.replicate pad M.zero ∧ pad < b := by
  have key : ∀ c : Nat, (List.range c).flatMap (blockAt M f b) =
      (List.range (c * b)).map (fun i => (mono M f).getD i M.zero) := by
    intro c
    induction c with
    | zero => simp
    | succ c ih =>
      rw [List.range_succ, List.flatMap_append, ih, List.flatMap_singleton, Nat.succ_mul, List.range_add,
        List.map_append, List.map_map]
      rfl
  have hlow : f.data.length ≤ blockCount f.data.length b * b := by
    by_contra h
    have := (lt_blockCount (n := f.data.length) hb (k := blockCount f.data.length b)).2 (by omega)
    omega
  have hup : blockCount f.data.length b * b ≤ f.data.length + b - 1 := Nat.div_mul_le_self _ _
  refine ⟨blockCount f.data.length b * b - f.data.length, ?_, by omega⟩
  rw [key]
  have hsplit : blockCount f.data.length b * b =
      f.data.length + (blockCount f.data.length b * b - f.data.length) := by omega
  rw [hsplit, List.range_add, List.map_append, List.map_map]
  have hm : (mono M f).length = f.data.length := by simp [mono]
  congr 1
  · apply List.ext_getElem
    · simp [mono]
    · intro i h1 h2
      simp [List.getD_eq_getElem?_getD, h2]
  · rw [← hsplit]
    apply List.ext_getElem
    · simp
    · intro i h1 h2
      simp [List.getD_eq_getElem?_getD, hm]

/-- Real-number mixing. -/
noncomputable def realMix : MixOps ℝ where
  zero := 0
  add a b := a + b
  divInt a n := a / n

/-- **C53, the mix.**  In exact arithmetic a mono sample is the average of the channels. -/
theorem C53_average (fr : List ℝ) : mixSample realMix fr.length fr = fr.sum / fr.length := by
  unfold mixSample
  have key : ∀ (l pre : List ℝ) (acc : ℝ), pre ++ l = fr →
      (List.range' pre.length l.length).foldl
        (fun acc c => realMix.add acc (realMix.divInt (fr.getD c realMix.zero) fr.length)) acc =
      acc + l.sum / fr.length := by
    intro l
    induction l with
    | nil => intro pre acc _; simp
    | cons x l ih =>
      intro pre acc h
      have hx : fr.getD pre.length realMix.zero = x := by
        rw [← h, List.getD_eq_getElem?_getD]; simp
      have := ih (pre ++ [x]) (realMix.add acc (realMix.divInt x fr.length)) (by simpa using h)
      rw [List.length_cons, List.range'_succ, List.foldl_cons, hx]
      simp only [List.length_append, List.length_singleton] at this
      rw [this]
      simp only [realMix, List.sum_cons]
      ring
  have := key fr [] 0 rfl
  simpa [List.range_eq_range', realMix] using this

theorem readLoop_long (M : MixOps S) (pl : Plugin S D P T) (out : Nat) (f : AudioFile S)
    (hb : 0 < pl.blocksize) (hfr : (f.data.length : Int) ≤ f.frames)
    (hmax : 2147483647 < (f.data.length : Int)) (fuel k : Nat) (hk : ((k * pl.blocksize : Nat) : Int) ≤ 2147483647)
    (hfuel : f.data.length < fuel + k) (p : P) (acc : List (Feature D)) :
    readLoop M pl out f fuel (f.data.drop (k * pl.blocksize)) (k * pl.blocksize) p acc = .ub := by
  have hI : intMax = 2147483647 := rfl
  induction fuel generalizing k p acc with
  | zero =>
    have : k ≤ k * pl.blocksize := Nat.le_mul_of_pos_right _ hb
    omega
  | succ fuel ih =>
    have hlen : ((f.data.drop (k * pl.blocksize)).take pl.blocksize).length =
        min pl.blocksize (f.data.length - k * pl.blocksize) := by simp
    rw [readLoop, if_pos (by omega)]
    simp only [hlen]
    rw [if_neg (by omega)]
    split
    · have hfull : min pl.blocksize (f.data.length - k * pl.blocksize) = pl.blocksize := by omega
      have hsucc : (k + 1) * pl.blocksize = k * pl.blocksize + pl.blocksize := Nat.succ_mul _ _
      rw [hfull, List.drop_drop, ← hsucc]
      exact ih (k + 1) (by rw [hsucc]; omega) (by omega) _ _
    · rfl

/-- **C53, limit.**  A file with more than `INT_MAX` frames (13.5 hours at 44.1 kHz) overflows the `int`
frame counter: undefined behaviour.  So the bound in `C53_blocks` cannot be dropped. -/
theorem C53_long_file_violated (M : MixOps S) (pl : Plugin S D P T) (out : Nat) (f : AudioFile S)
    (hb : 0 < pl.blocksize) (hfr : (f.data.length : Int) ≤ f.frames)
    (hmax : 2147483647 < (f.data.length : Int)) :
    readLoop M pl out f (f.data.length + 1) f.data 0 pl.start [] = .ub := by
  have := readLoop_long M pl out f hb hfr hmax (f.data.length + 1) 0 (by simp [intMax]) (by omega)
    pl.start []
  simpa using this

/-! ### The features become frames -/

/-- A feature of the plug-in with the number its timestamp denotes, seen as a row `t, A, A#, ...`. -/
def featureRow (ft : Feature D) (t : D) : Row D := { time := (ft.timestamp, t), vals := ft.values.map (fun x => ([], x)) }

theorem storeValues (F : FPU D) (hF : OrderLaws F) (t : D) (ht : F.eq t t = true) (xs : List D)
    (hx : xs.length = 12) {m : CMap D} (hm : CMap.WF F m) :
    forM xs.zipIdx m (fun m p => m.assign F t ((pcANatural + p.2) % numPitchClasses) p.1) =
      .ok (m.modify F t (fun _ => (featureRow ⟨[], xs⟩ t).frame F)) := by
  have hcong : ∀ f g : List D → List D, (∀ v, v.length = 12 → f v = g v) →
      m.modify F t f = m.modify F t g := by
    intro f g hfg
    have hl := hm.len
    clear hm
    induction m with
    | nil => simp [CMap.modify, hfg _ (show (CMap.zeros F).length = 12 by simp [CMap.zeros])]
    | cons q m ih =>
      obtain ⟨k, v⟩ := q
      simp only [CMap.modify, ih (fun p hp => hl p (by simp [hp])),
        hfg v (hl (k, v) (by simp)), hfg _ (show (CMap.zeros F).length = 12 by simp [CMap.zeros])]
  match xs, hx with
  | [a, b, c, d, e, f, x, h, i, j, k, l], _ =>
    simp only [List.zipIdx_cons, List.zipIdx_nil, forM_cons, forM_nil, Nat.reduceAdd, pcANatural,
      numPitchClasses, Nat.reduceMod]
    simp only [CMap.assign, ht, Bool.true_and, Nat.reduceLT, decide_true, if_true, Res.bind_ok,
      CMap.modify_modify hF]
    congr 1
    apply hcong
    intro v hv
    match v, hv with
    | [_, _, _, _, _, _, _, _, _, _, _, _], _ => rfl

/-- **C53, features.**  If every feature has a readable timestamp and 12 values and the timestamps differ,
the original chromagram has one frame per feature, in increasing time order, with the first value of a
feature at A. -/
theorem C53_features (F : FPU D) (hF : OrderLaws F) (stof : Str → Res D) (fts : List (Feature D × D))
    (hstof : ∀ p ∈ fts, stof p.1.timestamp = .ok p.2 ∧ F.eq p.2 p.2 = true ∧ p.1.values.length = 12)
    (hdist : fts.Pairwise (fun a b => F.lt a.2 b.2 = true ∨ F.lt b.2 a.2 = true)) :
    ∃ m, storeFeatures F stof (fts.map Prod.fst) = .ok m ∧
      m.Pairwise (fun p q => F.lt p.1 q.1 = true) ∧
      m.Perm (fts.map (fun p => (p.2, (featureRow p.1 p.2).frame F))) := by
  have key : ∀ (l : List (Feature D × D)), (∀ p ∈ l, stof p.1.timestamp = .ok p.2 ∧ F.eq p.2 p.2 = true ∧
      p.1.values.length = 12) → ∀ {m : CMap D}, CMap.WF F m →
      forM (l.map Prod.fst) m (fun m ft => do
        let t ← stof ft.timestamp
        forM (ft.values.zipIdx) m (fun m p =>
          m.assign F t ((pcANatural + p.2) % numPitchClasses) p.1)) =
      .ok ((l.map (fun p => featureRow p.1 p.2)).foldl
        (fun m r => m.modify F r.time.2 (fun _ => r.frame F)) m) := by
    intro l
    induction l with
    | nil => intro _ m _; rfl
    | cons p l ih =>
      intro hl m hm
      obtain ⟨h1, h2, h3⟩ := hl p (by simp)
      simp only [List.map_cons, forM_cons, h1, Res.bind_ok, List.foldl_cons]
      rw [storeValues F hF p.2 h2 p.1.values h3 hm, Res.bind_ok]
      exact ih (fun q hq => hl q (by simp [hq])) (hm.modify hF h2 (fun _ _ => by simp [Row.frame]))
  refine ⟨_, key fts hstof CMap.WF.nil, ?_⟩
  have := fold_spec hF (fts.map (fun p => featureRow p.1 p.2)) (by
    intro r hr
    obtain ⟨p, hp, rfl⟩ := List.mem_map.1 hr
    exact (hstof p hp).2.1) CMap.WF.nil (by rw [List.pairwise_map]; exact hdist) (by simp)
  refine ⟨this.1.sorted, ?_⟩
  have h2 := this.2
  rw [List.append_nil, List.map_map] at h2
  exact h2

theorem chromaOutput_last (pre post : List String) (h : "chroma" ∉ post) :
    chromaOutput (pre ++ "chroma" :: post) = some pre.length := by
  unfold chromaOutput
  rw [List.zipIdx_append, List.foldl_append, List.zipIdx_cons, List.foldl_cons, if_pos rfl]
  have key : ∀ (l : List String) (n : Nat) (acc : Option Nat), "chroma" ∉ l →
      (l.zipIdx n).foldl (fun acc p => if p.1 = "chroma" then some p.2 else acc) acc = acc := by
    intro l
    induction l with
    | nil => intro n acc _; rfl
    | cons x l ih =>
      intro n acc hx
      rw [List.zipIdx_cons, List.foldl_cons, if_neg (fun hc => hx (by simp [← hc]))]
      exact ih _ _ (fun hc => hx (by simp [hc]))
  rw [key post _ _ h, Nat.zero_add]

/-- **C53, whole reader.**  A file that can be opened, of at most `INT_MAX` frames, and a plug-in with a `chroma`
output: the chromagram is ready and its original has exactly one frame for each feature of that output, both
those produced block by block and those the plug-in still holds at the end of the file. -/
theorem C53_whole (F : FPU D) (hF : OrderLaws F) (M : MixOps S) (stof : Str → Res D) (pl : Plugin S D P T)
    (pre post : List String) (hout : pl.outputs = pre ++ "chroma" :: post) (hpost : "chroma" ∉ post)
    (hinit : pl.initialise = true) (f : AudioFile S) (hb : 0 < pl.blocksize)
    (hfr : (f.data.length : Int) ≤ f.frames) (hmax : (f.data.length : Int) ≤ 2147483647) (c : Chromagram D)
    (fts : List (Feature D × D))
    (hfts : fts.map Prod.fst =
      (feed M pl pre.length f (List.range (blockCount f.data.length pl.blocksize)) (pl.start, [])).2 ++
      pl.remaining (feed M pl pre.length f (List.range (blockCount f.data.length pl.blocksize)) (pl.start, [])).1
        pre.length)
    (hstof : ∀ p ∈ fts, stof p.1.timestamp = .ok p.2 ∧ F.eq p.2 p.2 = true ∧ p.1.values.length = 12)
    (hdist : fts.Pairwise (fun a b => F.lt a.2 b.2 = true ∨ F.lt b.2 a.2 = true)) :
    ∃ c', getChromagramFromAudio F M stof pl (some f) c = .ok c' ∧ c'.status = statusChromaOriginalReady ∧
      c'.original.Pairwise (fun p q => F.lt p.1 q.1 = true) ∧
      c'.original.Perm (fts.map (fun p => (p.2, (featureRow p.1 p.2).frame F))) := by
  obtain ⟨m, h1, h2, h3⟩ := C53_features F hF stof fts hstof hdist
  refine ⟨{ c with original := m, status := statusChromaOriginalReady }, ?_, rfl, h2, h3⟩
  unfold getChromagramFromAudio
  simp only [hinit, Bool.not_true, Bool.false_eq_true, if_false]
  rw [hout, chromaOutput_last pre post hpost]
  simp only
  rw [C53_blocks M pl pre.length f hb hfr hmax, Res.bind_ok]
  rw [← hfts, h1]
  rfl

/-! ### A concrete run -/

/-- A plug-in that reports each block's first two samples. -/
def echo : Plugin Int Int Unit Nat where
  blocksize := 2
  initialise := true
  outputs := ["logfreqspec", "chroma"]
  start := ()
  process _ blk t := ((), fun out => if out = 1 then [⟨[Char.ofNat (48 + t)], blk⟩] else [])
  remaining _ _ := []
  frame2RealTime n := n

def intMix : MixOps Int := ⟨0, (· + ·), fun a n => a / n⟩

/-- Three stereo frames in blocks of two: the second block is padded. -/
example : (readLoop intMix echo 1 ⟨3, 2, [[2, 4], [6, 8], [10, 20]]⟩ 4 [[2, 4], [6, 8], [10, 20]] 0 () []) =
    .ok ((), [⟨['0'], [3, 7]⟩, ⟨['2'], [15, 0]⟩]) := rfl

/-- A plug-in that reports 12 times the first sample of each block, and one more feature at the end. -/
def echo12 : Plugin Int Int Unit Nat where
  blocksize := 2
  initialise := true
  outputs := ["logfreqspec", "chroma", "bothchroma"]
  start := ()
  process _ blk t := ((), fun out => if out = 1 then [⟨[Char.ofNat (48 + t)], List.replicate 12 (blk.getD 0 0)⟩] else [])
  remaining _ out := if out = 1 then [⟨['9'], List.replicate 12 4⟩] else []
  frame2RealTime n := n

def echoFeatures : List (Feature Int × Int) :=
  [(⟨['0'], List.replicate 12 3⟩, 0), (⟨['2'], List.replicate 12 15⟩, 2), (⟨['9'], List.replicate 12 4⟩, 9)]

/-- C53_whole on a file of three stereo frames. -/
example : ∃ c', getChromagramFromAudio toy intMix toyStof echo12 (some ⟨3, 2, [[2, 4], [6, 8], [10, 20]]⟩)
      ⟨0, [], []⟩ = .ok c' ∧ c'.status = statusChromaOriginalReady ∧
      c'.original.Pairwise (fun p q => toy.lt p.1 q.1 = true) ∧
      c'.original.Perm (echoFeatures.map (fun p => (p.2, (featureRow p.1 p.2).frame toy))) :=
  C53_whole toy toy_orderLaws intMix toyStof echo12 ["logfreqspec"] ["bothchroma"] rfl (by decide) rfl _
    (by decide) (by decide) (by decide) _ echoFeatures rfl
    (by
      intro p hp
      simp only [echoFeatures, List.mem_cons, List.not_mem_nil, or_false] at hp
      rcases hp with rfl | rfl | rfl <;> exact ⟨rfl, rfl, rfl⟩)
    (by simp [echoFeatures, toy])

end Chromagram
end JKD
