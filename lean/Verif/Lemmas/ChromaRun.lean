import Verif.Lemmas.ChromaConv
import Verif.Props.NnlsProps
/-
The chroma plug-in runs through: no subscript leaves its array, every vector has the length announced, and a sign
that the operations preserve is preserved throughout.
-/

namespace JKD.Chroma

variable {D T S α β : Type}

/-- The estimates lie within half a semitone: the integer part of a shift is -2, -1, 0 or 1 bins. -/
def Tunes (F : Fns D) : Prop :=
  ∀ y x : D, -2 ≤ (shiftOf F (F.div (F.atan2 y x) (F.mul (F.lit 2) F.pi))).1 ∧
    (shiftOf F (F.div (F.atan2 y x) (F.mul (F.lit 2) F.pi))).1 ≤ 1

/-- The operations respect `Q`, which stands for "not negative" or for nothing at all. -/
structure Signed (F : Fns D) (Q : D → Prop) : Prop where
  lit : ∀ q : Rat, 0 ≤ q → Q (F.lit q)
  add : ∀ x y, Q x → Q y → Q (F.add x y)
  mul : ∀ x y, Q x → Q y → Q (F.mul x y)
  one : ∀ x, Q x → Q (F.mul F.one x)
  sqrt : ∀ x, Q (F.sqrt x)
  pos : ∀ x, F.lt (F.lit 0) x = true → Q x
  frac : ∀ t, -2 ≤ (shiftOf F t).1 → (shiftOf F t).1 ≤ 1 → Q (shiftOf F t).2 ∧ Q (F.sub F.one (shiftOf F t).2)
  white : ∀ d v w, F.lt (F.lit 0) d = true → F.lt (F.lit 0) v = true → Q (F.div d (F.pow v w))
  weight : ∀ i : Nat, i < 3 →
    Q (F.sub F.one (F.abs (F.div (F.mul (F.lit ((i : Rat) - 1)) F.one) (F.lit 2))))
  quot : ∀ x n, Q x → F.lt (F.lit 0) n = true → Q (F.div x n)
  nnls : ∀ (n : Nat) s rn r, Nnls.call F.toOps (nNote : Nat) n s rn = .ok r → ∀ j, 1 ≤ j → j ≤ n → Q (r.x j)

/-- `Q` allows anything. -/
theorem signed_true (F : Fns D) : Signed F (fun _ => True) :=
  ⟨fun _ _ => trivial, fun _ _ _ _ => trivial, fun _ _ _ _ => trivial, fun _ _ => trivial, fun _ => trivial,
    fun _ _ => trivial, fun _ _ _ => ⟨trivial, trivial⟩, fun _ _ _ _ _ => trivial, fun _ _ => trivial,
    fun _ _ _ _ => trivial, fun _ _ _ _ _ _ _ _ => trivial⟩

/-! ### Setting up -/

theorem cqF_length (F : Fns D) : (cqF F).length = nNote := by simp [cqF, nNote, nBPS]

theorem fftF_length (F : Fns D) (fs : Int) (bs : Nat) : (fftF F fs bs).length = bs / 2 := by simp [fftF]

theorem oversampledF_length (F : Fns D) (fs : Int) (bs : Nat) : (oversampledF F fs bs).length = 80 * bs / 2 := by
  simp [oversampledF]

theorem fftActivation_ok (F : Fns D) (fs : Int) {bs : Nat} (hb : 4 ≤ bs) :
    ∃ act, fftActivation F fs bs = .ok act ∧ act.length = 160 := by
  apply loop_inv (fun i (acc : List D) => acc.length = i) rfl
  intro i hi acc hl
  have h1 : ((i : Int)).toNat < (oversampledF F fs bs).length := by rw [oversampledF_length]; omega
  have h2 : ((1 : Int)).toNat < (fftF F fs bs).length := by
    rw [fftF_length, show ((1 : Int)).toNat = 1 from rfl]; omega
  rw [rd_lt (by omega) h1, bind_ok, rd_lt (by omega) h2, bind_ok]
  exact ⟨_, rfl, by simp [hl]⟩

theorem logFreqMatrix_ok (F : Fns D) (fs : Int) {bs size : Nat} (hb : 4 ≤ bs) (hs : nNote * (bs / 2) ≤ size) :
    ∃ out, logFreqMatrix F fs bs size = .ok out ∧ out.length = size := by
  obtain ⟨act, ea, la⟩ := fftActivation_ok F fs hb
  unfold logFreqMatrix
  simp only [ea, bind_ok]
  obtain ⟨o1, e1, l1⟩ := loop_inv (body := fun i out => wr out (i : Int) (F.lit 0))
    (k := (fftF F fs bs).length * (cqF F).length) (s := List.replicate size (F.lit 0))
    (fun _ (out : List D) => out.length = size) (by simp) (by
      intro i hi out hl
      rw [fftF_length, cqF_length] at hi
      refine ⟨_, wr_nat _ (by rw [hl, ]; nlinarith), by simpa using hl⟩)
  rw [e1, bind_ok]
  apply loop_inv (fun _ (out : List D) => out.length = size) l1
  intro t ht out hl
  rw [fftF_length] at ht
  apply loop_inv (fun _ (out : List D) => out.length = size) hl
  intro iCQ hCQ out hl
  have hCQ' : iCQ < nNote := by rw [cqF_length] at hCQ; exact hCQ
  have h1 : ((iCQ : Int)).toNat < (cqF F).length := by simpa using hCQ
  have h2 : (((t + 1 : Nat) : Int)).toNat < (fftF F fs bs).length := by rw [fftF_length]; omega
  rw [rd_lt (by omega) h1, bind_ok, rd_lt (by omega) h2, bind_ok]
  split_ifs with hn
  · apply loop_inv (fun _ (out : List D) => out.length = size) hl
    intro d hd out hl
    have h3 : (((80 * (t + 1) - 80 + d : Nat) : Int)).toNat < (oversampledF F fs bs).length := by
      rw [oversampledF_length]; omega
    have h4 : ((d : Int)).toNat < act.length := by rw [la]; omega
    have h5 : t + 1 + (fftF F fs bs).length * iCQ < out.length := by
      rw [hl, fftF_length]
      have h6 : bs / 2 * (iCQ + 1) ≤ bs / 2 * nNote := Nat.mul_le_mul_left _ hCQ'
      have h7 : nNote * (bs / 2) = bs / 2 * nNote := Nat.mul_comm _ _
      have h8 : bs / 2 * (iCQ + 1) = bs / 2 * iCQ + bs / 2 := by ring
      omega
    rw [rd_lt (by omega) h3, bind_ok, rd_lt (by omega) h4, bind_ok]
    obtain ⟨x, hx⟩ := getElem?_some_of_lt h5
    rw [rd_nat hx, bind_ok]
    exact ⟨_, wr_nat _ h5, by simpa using hl⟩
  · exact ⟨_, rfl, hl⟩

theorem dictionaryMatrix_ok (F : Fns D) (s : D) {dm : List D} (h : nNote * 84 ≤ dm.length) :
    ∃ out, dictionaryMatrix F s dm = .ok out ∧ out.length = dm.length := by
  unfold dictionaryMatrix
  apply loop_inv (fun _ (out : List D) => out.length = dm.length) rfl
  intro iOut hO out hl
  apply loop_inv (fun _ (out : List D) => out.length = dm.length) hl
  intro hm _ out hl
  apply loop_inv (fun _ (out : List D) => out.length = dm.length) hl
  intro iNote hN out hl
  have h5 : iNote + nNote * iOut < out.length := by
    rw [hl]
    have : nNote * (iOut + 1) ≤ nNote * 84 := Nat.mul_le_mul_left _ (by omega)
    nlinarith
  split_ifs with hc
  · obtain ⟨x, hx⟩ := getElem?_some_of_lt h5
    rw [rd_nat hx, bind_ok]
    exact ⟨_, wr_nat _ h5, by simpa using hl⟩
  · exact ⟨_, rfl, hl⟩

/-- The state after a successful `initialise`, and after any number of blocks. -/
structure Ready (F : Fns D) (Q : D → Prop) (p : Base D T) : Prop where
  mean : p.meanTunings.length = nBPS
  loc : p.localTunings.length = nBPS
  sinv : p.sinvalues.length = nBPS
  cosv : p.cosvalues.length = nBPS
  hw : p.hw.length = hamwinlength
  dict : p.dict.length = nNote * 84
  kernel : ∀ k ∈ p.kernel, Q k.1 ∧ k.2.1 < p.blockSize / 2 ∧ k.2.2 < nNote
  tun : p.localTuning.length = p.logSpectrum.length
  shift : ∀ t ∈ p.localTuning, -2 ≤ (shiftOf F t).1 ∧ (shiftOf F t).1 ≤ 1
  spec : ∀ f ∈ p.logSpectrum, f.2.length = nNote ∧ AllQ Q f.2

theorem initialise_ok (F : Fns D) {Q : D → Prop} (hQ : Signed F Q) (fs : Int) {bs : Nat} (hb : 4 ≤ bs)
    (params : Params D) :
    ∃ p, initialise F fs 1 bs (Base.new F params : Base D T) = .ok (true, p) ∧ Ready F Q p ∧ p.blockSize = bs ∧
      p.params = params ∧ p.logSpectrum = [] ∧ p.frameCount = 0 ∧
      dictionaryMatrix F params.s (List.replicate (nNote * 84) (F.lit 0)) = .ok p.dict ∧
      p.hw = (List.range hamwinlength).map (fun i => F.div (hamming F i)
        ((List.range hamwinlength).foldl (fun s i => F.add s (hamming F i)) (F.lit 0))) := by
  unfold initialise
  obtain ⟨d, e1, l1⟩ := dictionaryMatrix_ok F params.s (dm := List.replicate (nNote * 84) (F.lit 0)) (by simp)
  simp only [Base.new, e1, bind_ok, List.nil_append]
  obtain ⟨hw, e2, l2, c2⟩ := loop_inv (body := fun i hw => do
      let x ← rd hw (i : Int)
      wr hw (i : Int) (F.div x ((List.range hamwinlength).foldl (fun s i => F.add s (hamming F i)) (F.lit 0))))
    (k := hamwinlength) (s := (List.range hamwinlength).map (hamming F))
    (fun i hw => hw.length = hamwinlength ∧ ∀ j, j < hamwinlength → hw[j]? = some (if j < i then
      F.div (hamming F j) ((List.range hamwinlength).foldl (fun s i => F.add s (hamming F i)) (F.lit 0))
      else hamming F j)) ⟨by simp, by
        intro j hj
        rw [List.getElem?_map, List.getElem?_range hj, if_neg (by omega)]
        rfl⟩ (by
      rintro i hi hw ⟨hl, hc⟩
      rw [rd_nat (hc i hi), bind_ok, if_neg (by omega)]
      refine ⟨_, wr_nat _ (by omega), by simpa using hl, ?_⟩
      intro j hj
      rw [getElem?_set' (by omega), hc j hj]
      by_cases hji : j = i
      · rw [if_pos hji, if_pos (by omega), hji]
      · rw [if_neg hji]
        by_cases hlt : j < i
        · rw [if_pos hlt, if_pos (by omega)]
        · rw [if_neg hlt, if_neg (by omega)])
  rw [e2, bind_ok, if_neg (by omega)]
  obtain ⟨temp, e3, l3⟩ := logFreqMatrix_ok F fs (size := nNote * bs / 2) hb (by
    simp only [nNote, nBPS]; omega)
  rw [e3, bind_ok]
  obtain ⟨ker, e4, l4⟩ := loop_inv (body := fun iNote kernel =>
      loop (fun iFFT kernel => do
        let v ← rd temp (iFFT + bs / 2 * iNote : Nat)
        if F.lt (F.lit 0) v then pure (kernel ++ [(v, iFFT, iNote)]) else pure kernel) (bs / 2) kernel)
    (k := nNote) (s := ([] : List (D × Nat × Nat)))
    (fun _ ker => ∀ k ∈ ker, Q k.1 ∧ k.2.1 < bs / 2 ∧ k.2.2 < nNote) (by simp) (by
      intro iNote hN ker hk
      apply loop_inv (fun _ (ker : List (D × Nat × Nat)) => ∀ k ∈ ker, Q k.1 ∧ k.2.1 < bs / 2 ∧ k.2.2 < nNote) hk
      intro iFFT hF ker hk
      have h5 : iFFT + bs / 2 * iNote < temp.length := by
        rw [l3]
        have h6 : bs / 2 * (iNote + 1) ≤ bs / 2 * nNote := Nat.mul_le_mul_left _ hN
        have h7 : bs / 2 * nNote ≤ nNote * bs / 2 := by simp only [nNote, nBPS]; omega
        have h8 : bs / 2 * (iNote + 1) = bs / 2 * iNote + bs / 2 := by ring
        omega
      obtain ⟨x, hx⟩ := getElem?_some_of_lt h5
      rw [rd_nat hx, bind_ok]
      split_ifs with hc
      · refine ⟨_, rfl, ?_⟩
        intro k hk'
        rcases List.mem_append.mp hk' with h | h
        · exact hk k h
        · rw [List.mem_singleton.mp h]
          exact ⟨hQ.pos _ hc, hF, hN⟩
      · exact ⟨_, rfl, hk⟩)
  rw [e4, bind_ok]
  refine ⟨_, rfl, ?_, rfl, rfl, rfl, rfl, rfl, ?_⟩
  rotate_left
  · apply List.ext_getElem?
    intro j
    by_cases hj : j < hamwinlength
    · rw [c2 j hj, if_pos hj, List.getElem?_map, List.getElem?_range hj]
      rfl
    · rw [List.getElem?_eq_none (by change hw.length ≤ j; omega), List.getElem?_eq_none (by simp; omega)]
  exact {
    mean := by simp
    loc := by simp
    sinv := by simp
    cosv := by simp
    hw := l2
    dict := by simpa using l1
    kernel := l4
    tun := rfl
    shift := by simp
    spec := by simp }

/-! ### One block -/

theorem magnitudes_ok (F : Fns D) {Q : D → Prop} (hQ : Signed F Q) (p : Base D T) {fbuf : List D}
    (hf : 2 * (p.blockSize / 2) ≤ fbuf.length) :
    ∃ r, magnitudes F p fbuf = .ok r ∧ r.1.length = p.blockSize / 2 ∧ AllQ Q r.1 := by
  unfold magnitudes
  apply loop_inv (fun i (r : List D × D × D) => r.1.length = i ∧ AllQ Q r.1) ⟨rfl, AllQ.nil⟩
  rintro i hi r ⟨hl, hq⟩
  obtain ⟨x, hx⟩ := getElem?_some_of_lt (v := fbuf) (i := 2 * i) (by omega)
  obtain ⟨y, hy⟩ := getElem?_some_of_lt (v := fbuf) (i := 2 * i + 1) (by omega)
  rw [rd_nat hx, bind_ok, rd_nat hy, bind_ok]
  refine ⟨_, rfl, by simp [hl], hq.append (AllQ.single ?_)⟩
  split_ifs
  · exact hQ.lit _ (by exact_mod_cast Nat.zero_le _)
  · exact hQ.sqrt _

theorem rollonLoop_ok (F : Fns D) {Q : D → Prop} (hQ : Signed F Q) (limit : D) (k : Nat) {i : Nat} (cum : D)
    {mag : List D} (hi : 2 ≤ i) (hk : i + k ≤ mag.length ∨ k = 0) (hq : AllQ Q mag) :
    ∃ r, rollonLoop F limit k i cum mag = .ok r ∧ r.length = mag.length ∧ AllQ Q r := by
  induction k generalizing i cum mag with
  | zero => exact ⟨mag, rfl, rfl, hq⟩
  | succ k ih =>
    unfold rollonLoop
    obtain ⟨x, hx⟩ := getElem?_some_of_lt (v := mag) (i := i) (by omega)
    rw [rd_nat hx, bind_ok]
    dsimp only
    split_ifs with hc
    · rw [wr_ok _ (by omega) (by omega), bind_ok]
      obtain ⟨r, e, l, q⟩ := ih (i := i + 1) (F.add cum (F.pow x (F.lit 2))) (mag := mag.set ((i : Int) - 2).toNat (F.lit 0))
        (by omega) (by simp; omega) (hq.set (hQ.lit 0 (le_refl 0)) _)
      exact ⟨r, e, by simpa using l, q⟩
    · exact ⟨_, rfl, rfl, hq⟩

theorem applyRollon_ok (F : Fns D) {Q : D → Prop} (hQ : Signed F Q) (p : Base D T) (e : D) {mag : List D}
    (hl : mag.length = p.blockSize / 2) (hq : AllQ Q mag) :
    ∃ r, applyRollon F p e mag = .ok r ∧ r.length = p.blockSize / 2 ∧ AllQ Q r := by
  unfold applyRollon
  split_ifs
  · obtain ⟨r, e, l, q⟩ := rollonLoop_ok F hQ (F.div (F.mul e p.params.rollon) (F.lit 100)) (p.blockSize / 2 - 2)
      (i := 2) (F.lit 0) (mag := mag) (by omega) (by omega) hq
    exact ⟨r, e, by omega, q⟩
  · exact ⟨_, rfl, hl, hq⟩

theorem silence_ok (F : Fns D) {Q : D → Prop} (hQ : Signed F Q) (p : Base D T) (m : D) {mag : List D}
    (hl : mag.length = p.blockSize / 2) (hq : AllQ Q mag) :
    ∃ r, silence F p m mag = .ok r ∧ r.length = p.blockSize / 2 ∧ AllQ Q r := by
  unfold silence
  split_ifs
  · apply loop_inv (fun _ (r : List D) => r.length = p.blockSize / 2 ∧ AllQ Q r) ⟨hl, hq⟩
    rintro i hi r ⟨h1, h2⟩
    exact ⟨_, wr_nat _ (by omega), by simpa using h1, h2.set (hQ.lit 0 (le_refl 0)) _⟩
  · exact ⟨_, rfl, hl, hq⟩

theorem mapNotes_ok (F : Fns D) {Q : D → Prop} (hQ : Signed F Q) {kernel : List (D × Nat × Nat)} {mag : List D}
    (hk : ∀ k ∈ kernel, Q k.1 ∧ k.2.1 < mag.length ∧ k.2.2 < nNote) (hq : AllQ Q mag) :
    ∃ r, mapNotes F kernel mag = .ok r ∧ r.length = nNote ∧ AllQ Q r := by
  unfold mapNotes
  apply foldlM_inv (fun _ (r : List D) => r.length = nNote ∧ AllQ Q r)
    ⟨by simp, AllQ.replicate (hQ.lit 0 (le_refl 0)) _⟩
  rintro i k hk' r ⟨h1, h2⟩
  obtain ⟨k1, k2, k3⟩ := hk k (List.mem_of_getElem? hk')
  obtain ⟨x, hx⟩ := getElem?_some_of_lt k2
  obtain ⟨y, hy⟩ := getElem?_some_of_lt (v := r) (by rw [h1]; exact k3)
  rw [rd_nat hx, bind_ok, rd_nat hy, bind_ok]
  exact ⟨_, wr_nat _ (by omega), by simpa using h1,
    h2.set (hQ.add _ _ (h2.get hy) (hQ.mul _ _ (hq.get hx) k1)) _⟩

theorem updateTunings_ok (F : Fns D) {nm : List D} (hn : nm.length = nNote) (p : Base D T)
    (h1 : p.meanTunings.length = nBPS) (h2 : p.localTunings.length = nBPS) :
    ∃ m l, updateTunings F nm p = .ok { p with meanTunings := m, localTunings := l } ∧
      m.length = nBPS ∧ l.length = nBPS := by
  unfold updateTunings
  obtain ⟨m1, e1, l1⟩ := loop_inv (body := fun i mean => do
      let x ← rd mean (i : Int)
      wr mean (i : Int) (F.mul x (F.mul (F.lit (p.frameCount - 1 : Nat)) (F.div F.one (F.lit p.frameCount)))))
    (k := nBPS) (s := p.meanTunings) (fun _ (m : List D) => m.length = nBPS) h1 (by
      intro i hi m hl
      obtain ⟨x, hx⟩ := getElem?_some_of_lt (v := m) (i := i) (by omega)
      rw [rd_nat hx, bind_ok]
      exact ⟨_, wr_nat _ (by omega), by simpa using hl⟩)
  simp only [e1, bind_ok]
  obtain ⟨r, e2, l2, l3⟩ := loop_inv (body := fun t (r : List D × List D) => do
      let mean ← loop (fun i mean => do
        let x ← rd mean (i : Int)
        let v ← rd nm (nBPS * t + i : Nat)
        wr mean (i : Int) (F.add x (F.mul v (F.div F.one (F.lit p.frameCount))))) nBPS r.1
      let loc ← loop (fun i loc => do
        let x ← rd loc (i : Int)
        let v ← rd nm (nBPS * t + i : Nat)
        wr loc (i : Int) (F.add (F.mul x (F.lit 0.997)) (F.mul v (F.sub F.one (F.lit 0.997))))) nBPS r.2
      pure (mean, loc)) (k := tones) (s := (m1, p.localTunings))
    (fun _ (r : List D × List D) => r.1.length = nBPS ∧ r.2.length = nBPS) ⟨l1, h2⟩ (by
      rintro t ht ⟨a, b⟩ ⟨ha, hb⟩
      simp only [tones] at ht
      simp only at ha hb
      obtain ⟨a', ea, la⟩ := loop_inv (body := fun i mean => do
          let x ← rd mean (i : Int)
          let v ← rd nm (nBPS * t + i : Nat)
          wr mean (i : Int) (F.add x (F.mul v (F.div F.one (F.lit p.frameCount))))) (k := nBPS) (s := a)
        (fun _ (m : List D) => m.length = nBPS) ha (by
          intro i hi m hl
          obtain ⟨x, hx⟩ := getElem?_some_of_lt (v := m) (i := i) (by omega)
          obtain ⟨y, hy⟩ := getElem?_some_of_lt (v := nm) (i := nBPS * t + i) (by
            rw [hn]; simp only [nNote, nBPS] at *; omega)
          rw [rd_nat hx, bind_ok, rd_nat hy, bind_ok]
          exact ⟨_, wr_nat _ (by omega), by simpa using hl⟩)
      obtain ⟨b', eb, lb⟩ := loop_inv (body := fun i loc => do
          let x ← rd loc (i : Int)
          let v ← rd nm (nBPS * t + i : Nat)
          wr loc (i : Int) (F.add (F.mul x (F.lit 0.997)) (F.mul v (F.sub F.one (F.lit 0.997))))) (k := nBPS) (s := b)
        (fun _ (m : List D) => m.length = nBPS) hb (by
          intro i hi m hl
          obtain ⟨x, hx⟩ := getElem?_some_of_lt (v := m) (i := i) (by omega)
          obtain ⟨y, hy⟩ := getElem?_some_of_lt (v := nm) (i := nBPS * t + i) (by
            rw [hn]; simp only [nNote, nBPS] at *; omega)
          rw [rd_nat hx, bind_ok, rd_nat hy, bind_ok]
          exact ⟨_, wr_nat _ (by omega), by simpa using hl⟩)
      refine ⟨(a', b'), ?_, la, lb⟩
      simp only [ea, eb, bind_ok]
      rfl)
  simp only [e2, bind_ok]
  exact ⟨r.1, r.2, rfl, l2, l3⟩

theorem normalisedTuning_ok (F : Fns D) (p : Base D T) {sums : List D} (h1 : sums.length = nBPS)
    (h2 : p.sinvalues.length = nBPS) (h3 : p.cosvalues.length = nBPS) :
    ∃ y x, normalisedTuning F p sums = .ok (F.div (F.atan2 y x) (F.mul (F.lit 2) F.pi)) := by
  unfold normalisedTuning
  obtain ⟨r, e, -⟩ := loop_inv (body := fun i (r : D × D) => do
      let m ← rd sums (i : Int)
      let c ← rd p.cosvalues (i : Int)
      let s ← rd p.sinvalues (i : Int)
      pure (F.add r.1 (F.mul m c), F.add r.2 (F.mul m s))) (k := nBPS) (s := (F.lit 0, F.lit 0))
    (fun _ _ => True) trivial (by
      intro i hi r _
      obtain ⟨x, hx⟩ := getElem?_some_of_lt (v := sums) (i := i) (by omega)
      obtain ⟨y, hy⟩ := getElem?_some_of_lt (v := p.cosvalues) (i := i) (by omega)
      obtain ⟨z, hz⟩ := getElem?_some_of_lt (v := p.sinvalues) (i := i) (by omega)
      rw [rd_nat hx, bind_ok, rd_nat hy, bind_ok, rd_nat hz, bind_ok]
      exact ⟨_, rfl, trivial⟩)
  rw [e, bind_ok]
  exact ⟨_, _, rfl⟩

theorem baseProcess_ok (F : Fns D) {Q : D → Prop} (hQ : Signed F Q) (hT : Tunes F) {p : Base D T}
    (hp : Ready F Q p) {fbuf : List D} (hf : 2 * (p.blockSize / 2) ≤ fbuf.length) (ts : T) :
    ∃ p' nm, baseProcess F fbuf ts p = .ok p' ∧ Ready F Q p' ∧ p'.blockSize = p.blockSize ∧
      p'.params = p.params ∧ p'.logSpectrum = p.logSpectrum ++ [(ts, nm)] ∧ p'.frameCount = p.frameCount + 1 ∧
      p'.dict = p.dict ∧ p'.hw = p.hw ∧ p'.kernel = p.kernel := by
  unfold baseProcess
  obtain ⟨r, e1, l1, q1⟩ := magnitudes_ok F hQ { p with frameCount := p.frameCount + 1 } (fbuf := fbuf) hf
  obtain ⟨m2, e2, l2, q2⟩ := applyRollon_ok F hQ { p with frameCount := p.frameCount + 1 } r.2.2 l1 q1
  obtain ⟨m3, e3, l3, q3⟩ := silence_ok F hQ { p with frameCount := p.frameCount + 1 } r.2.1 l2 q2
  obtain ⟨nm, e4, l4, q4⟩ := mapNotes_ok F hQ (kernel := p.kernel) (mag := m3)
    (by rw [l3]; exact hp.kernel) q3
  obtain ⟨m5, l5, e5, n5, n5'⟩ := updateTunings_ok F l4 { p with frameCount := p.frameCount + 1 } hp.mean hp.loc
  obtain ⟨y, x, e6⟩ := normalisedTuning_ok F
    { p with frameCount := p.frameCount + 1, meanTunings := m5, localTunings := l5 } n5' hp.sinv hp.cosv
  simp only [e1, e2, e3, e4, e5, e6, bind_ok]
  refine ⟨_, nm, rfl, ?_, rfl, rfl, rfl, rfl, rfl, rfl, rfl⟩
  exact {
    mean := n5
    loc := n5'
    sinv := hp.sinv
    cosv := hp.cosv
    hw := hp.hw
    dict := hp.dict
    kernel := hp.kernel
    tun := by simp [hp.tun]
    shift := by
      intro t ht
      rcases List.mem_append.mp ht with h | h
      · exact hp.shift t h
      · rw [List.mem_singleton.mp h]
        exact hT y x
    spec := by
      intro f hf
      rcases List.mem_append.mp hf with h | h
      · exact hp.spec f h
      · rw [List.mem_singleton.mp h]
        exact ⟨l4, q4⟩ }

/-! ### Collecting the features -/

theorem tuneFrame_ok (F : Fns D) {Q : D → Prop} (hQ : Signed F Q) {f1 : List D} (hl : f1.length = nNote)
    (hq : AllQ Q f1) {t : D} (ht : -2 ≤ (shiftOf F t).1 ∧ (shiftOf F t).1 ≤ 1) :
    ∃ f2, tuneFrame F (shiftOf F t).1 (shiftOf F t).2 f1 = .ok f2 ∧ f2.length = nNote ∧ AllQ Q f2 := by
  unfold tuneFrame
  obtain ⟨f2, e, l, q⟩ := loop_inv (body := fun k f2 => do
      let x ← rd f1 ((k : Int) + 2 + (shiftOf F t).1)
      let y ← rd f1 ((k : Int) + 2 + (shiftOf F t).1 + 1)
      pure (f2 ++ [F.add (F.mul x (F.sub F.one (shiftOf F t).2)) (F.mul y (shiftOf F t).2)]))
    (k := f1.length - 3 - 2) (s := [F.lit 0, F.lit 0])
    (fun k (f2 : List D) => f2.length = k + 2 ∧ AllQ Q f2)
    ⟨rfl, AllQ.replicate (hQ.lit 0 (le_refl 0)) 2⟩ (by
      rintro k hk f2 ⟨h1, h2⟩
      obtain ⟨x, ex, hx⟩ := rd_ex (v := f1) (i := (k : Int) + 2 + (shiftOf F t).1) (by omega) (by omega)
      obtain ⟨y, ey, hy⟩ := rd_ex (v := f1) (i := (k : Int) + 2 + (shiftOf F t).1 + 1) (by omega) (by omega)
      rw [ex, bind_ok, ey, bind_ok]
      refine ⟨_, rfl, by simp [h1], h2.append (AllQ.single ?_)⟩
      exact hQ.add _ _ (hQ.mul _ _ (hq.get hx) (hQ.frac t ht.1 ht.2).2) (hQ.mul _ _ (hq.get hy) (hQ.frac t ht.1 ht.2).1))
  rw [e, bind_ok]
  refine ⟨_, rfl, ?_, q.append (AllQ.replicate (hQ.lit 0 (le_refl 0)) 3)⟩
  rw [List.length_append, l, hl]
  rfl

theorem whitenFrame_ok (F : Fns D) {Q : D → Prop} (hQ : Signed F Q) {hw f2 : List D} (hh : hw.length = hamwinlength)
    (w : D) (hl : f2.length = nNote) (hq : AllQ Q f2) :
    ∃ r, whitenFrame F hw w f2 = .ok r ∧ r.1.length = nNote ∧ AllQ Q r.1 ∧
      ((∀ x, Q x → F.lt x (F.lit 0) = false) → r.2 = false) := by
  unfold whitenFrame
  obtain ⟨mean, e1, l1, -⟩ := conv_spec F f2 hw (by rw [hh]; rfl) (by rw [hh, hl]; decide) (by omega)
  obtain ⟨sq, e2, l2⟩ := loop_inv (body := fun i sq => do
      let x ← rd f2 (i : Int)
      let m ← rd mean (i : Int)
      pure (sq ++ [F.mul (F.sub x m) (F.sub x m)])) (k := nNote) (s := [])
    (fun i (sq : List D) => sq.length = i) rfl (by
      intro i hi sq h
      obtain ⟨x, hx⟩ := getElem?_some_of_lt (v := f2) (i := i) (by omega)
      obtain ⟨y, hy⟩ := getElem?_some_of_lt (v := mean) (i := i) (by omega)
      rw [rd_nat hx, bind_ok, rd_nat hy, bind_ok]
      exact ⟨_, rfl, by simp [h]⟩)
  obtain ⟨std, e3, l3, -⟩ := conv_spec F sq hw (by rw [hh]; rfl) (by rw [hh, l2]; decide) (by omega)
  rw [e1, bind_ok, e2, bind_ok, e3, bind_ok]
  obtain ⟨r, e, l, q, n⟩ := loop_inv (body := fun i (r : List D × Bool) => do
    let v ← rd std (i : Int)
    let v := F.sqrt v
    let f2 ← (if F.lt (F.lit 0) v then do
        let x ← rd r.1 (i : Int)
        let m ← rd mean (i : Int)
        wr r.1 (i : Int) (if F.lt (F.lit 0) (F.sub x m) then F.div (F.sub x m) (F.pow v w) else F.lit 0)
      else pure r.1)
    let x ← rd f2 (i : Int)
    pure (f2, r.2 || F.lt x (F.lit 0))) (k := nNote) (s := (f2, false))
    (fun _ (r : List D × Bool) => r.1.length = nNote ∧ AllQ Q r.1 ∧
      ((∀ x, Q x → F.lt x (F.lit 0) = false) → r.2 = false)) ⟨hl, hq, fun _ => rfl⟩ (by
      rintro i hi ⟨f, c⟩ ⟨h1, h2, h3⟩
      simp only at h1 h2 h3
      obtain ⟨v, hv⟩ := getElem?_some_of_lt (v := std) (i := i) (by omega)
      obtain ⟨x, hx⟩ := getElem?_some_of_lt (v := f) (i := i) (by omega)
      obtain ⟨y, hy⟩ := getElem?_some_of_lt (v := mean) (i := i) (by omega)
      rw [rd_nat hv, bind_ok]
      dsimp only
      have key : ∀ f' : List D, f'.length = nNote → AllQ Q f' → ∃ x', f'[i]? = some x' ∧
          ((∀ x, Q x → F.lt x (F.lit 0) = false) → (c || F.lt x' (F.lit 0)) = false) := by
        intro f' hl' hq'
        obtain ⟨x', hx'⟩ := getElem?_some_of_lt (v := f') (i := i) (by omega)
        refine ⟨x', hx', ?_⟩
        intro hn
        rw [h3 hn, hn _ (hq'.get hx')]
        rfl
      split_ifs with hc
      · rw [rd_nat hx, bind_ok, rd_nat hy, bind_ok, wr_nat _ (by omega), bind_ok]
        have hq' : AllQ Q (f.set i (if F.lt (F.lit 0) (F.sub x y) then F.div (F.sub x y) (F.pow (F.sqrt v) w)
            else F.lit 0)) := by
          apply h2.set
          split_ifs with hd
          · exact hQ.white _ _ _ hd hc
          · exact hQ.lit 0 (le_refl 0)
        obtain ⟨x', hx', hn'⟩ := key _ (by simpa using h1) hq'
        rw [rd_nat hx', bind_ok]
        exact ⟨_, rfl, by simpa using h1, hq', hn'⟩
      · obtain ⟨x', hx', hn'⟩ := key f h1 h2
        rw [pure_eq, bind_ok, rd_nat hx', bind_ok]
        exact ⟨_, rfl, h1, h2, hn'⟩)
  exact ⟨r, e, l, q, n⟩

theorem tuneAll_ok (F : Fns D) {Q : D → Prop} (hQ : Signed F Q) {p : Base D T} (hp : Ready F Q p) {tuning : D}
    (ht : -2 ≤ (shiftOf F tuning).1 ∧ (shiftOf F tuning).1 ≤ 1) :
    ∃ r, tuneAll F p tuning = .ok r ∧ r.1.map Prod.fst = p.logSpectrum.map Prod.fst ∧
      (∀ f ∈ r.1, f.2.length = nNote ∧ AllQ Q f.2) ∧ ((∀ x, Q x → F.lt x (F.lit 0) = false) → r.2 = false) := by
  unfold tuneAll
  obtain ⟨r, e, h1, h2, h3⟩ := foldlM_inv (f := fun (r : List (T × List D) × Bool) (fr : (T × List D) × Nat) => do
      let shift ← (if p.params.tuneLocal then do
          let t ← rd p.localTuning fr.2
          pure (shiftOf F t)
        else pure (shiftOf F tuning))
      let f2 ← tuneFrame F shift.1 shift.2 fr.1.2
      let w ← whitenFrame F p.hw p.params.whitening f2
      pure (r.1 ++ [(fr.1.1, w.1)], r.2 || w.2)) (l := p.logSpectrum.zipIdx) (b := ([], false))
    (fun i (r : List (T × List D) × Bool) => r.1.map Prod.fst = (p.logSpectrum.map Prod.fst).take i ∧
      (∀ f ∈ r.1, f.2.length = nNote ∧ AllQ Q f.2) ∧ ((∀ x, Q x → F.lt x (F.lit 0) = false) → r.2 = false))
    ⟨by simp, by simp, fun _ => rfl⟩ (by
      rintro i fr hfr ⟨r, c⟩ ⟨h1, h2, h3⟩
      simp only at h1 h2 h3
      rw [List.getElem?_zipIdx] at hfr
      obtain ⟨f, hf, rfl⟩ := Option.map_eq_some_iff.mp hfr
      have hi : i < p.logSpectrum.length := (List.getElem?_eq_some_iff.mp hf).1
      obtain ⟨s1, s2⟩ := hp.spec f (List.mem_of_getElem? hf)
      have hs : ∃ t, (if p.params.tuneLocal then do
          let t ← rd p.localTuning ((0 + i : Nat) : Int)
          pure (shiftOf F t)
        else pure (shiftOf F tuning)) = Run.ok (shiftOf F t) ∧
          -2 ≤ (shiftOf F t).1 ∧ (shiftOf F t).1 ≤ 1 := by
        split_ifs
        · obtain ⟨t, h⟩ := getElem?_some_of_lt (v := p.localTuning) (i := 0 + i) (by rw [hp.tun]; omega)
          rw [rd_nat h, bind_ok]
          exact ⟨t, rfl, hp.shift t (List.mem_of_getElem? h)⟩
        · exact ⟨tuning, rfl, ht⟩
      obtain ⟨t, e1, ht'⟩ := hs
      obtain ⟨f2, e2, l2, q2⟩ := tuneFrame_ok F hQ s1 s2 ht'
      obtain ⟨w, e3, l3, q3, n3⟩ := whitenFrame_ok F hQ hp.hw p.params.whitening l2 q2
      simp only [e1, e2, e3, bind_ok]
      refine ⟨_, rfl, ?_, ?_, ?_⟩
      · simp only [List.map_append, h1, List.map_cons, List.map_nil]
        rw [List.take_add_one, List.getElem?_map, hf]
        rfl
      · intro g hg
        rcases List.mem_append.mp hg with h | h
        · exact h2 g h
        · rw [List.mem_singleton.mp h]
          exact ⟨l3, q3⟩
      · intro hn
        simp only
        rw [h3 hn, n3 hn]
        rfl)
  refine ⟨r, e, ?_, h2, h3⟩
  rw [h1, List.take_of_length_le (by simp)]

/-- The chroma vectors have twelve values each. -/
structure NotesOk (Q : D → Prop) (r : Notes D) : Prop where
  c : r.chroma.length = 12
  b : r.basschroma.length = 12
  qs : AllQ Q r.semitones
  qc : AllQ Q r.chroma
  qb : AllQ Q r.basschroma

theorem treblewindow_length : treblewindow.length = 84 := rfl

theorem basswindow_length : basswindow.length = 84 := rfl

theorem treblewindow_nonneg : ∀ q ∈ treblewindow, 0 ≤ q := by decide +kernel

theorem basswindow_nonneg : ∀ q ∈ basswindow, 0 ≤ q := by decide +kernel

theorem addNote_eq (F : Fns D) {i : Nat} (hi : i < 84) (v : D) {r : Notes D} (hc : r.chroma.length = 12)
    (hb : r.basschroma.length = 12) : ∃ x y, r.chroma[i % 12]? = some x ∧ r.basschroma[i % 12]? = some y ∧
    addNote F i v r = .ok { r with
      chroma := r.chroma.set (i % 12) (F.add x (F.mul v (F.lit (treblewindow.getD i 0))))
      basschroma := r.basschroma.set (i % 12) (F.add y (F.mul v (F.lit (basswindow.getD i 0)))) } := by
  obtain ⟨x, hx⟩ := getElem?_some_of_lt (v := r.chroma) (i := i % 12) (by omega)
  obtain ⟨y, hy⟩ := getElem?_some_of_lt (v := r.basschroma) (i := i % 12) (by omega)
  refine ⟨x, y, hx, hy, ?_⟩
  unfold addNote
  have h1 : rd treblewindow (i : Int) = .ok (treblewindow.getD i 0) :=
    rd_getD 0 (by omega) (by rw [treblewindow_length]; omega)
  have h2 : rd basswindow (i : Int) = .ok (basswindow.getD i 0) :=
    rd_getD 0 (by omega) (by rw [basswindow_length]; omega)
  rw [h1, bind_ok, rd_nat hx, bind_ok, wr_nat _ (by omega), bind_ok, h2, bind_ok, rd_nat hy, bind_ok,
    wr_nat _ (by omega), bind_ok]
  rfl

theorem window_nonneg {w : List Rat} (h : ∀ q ∈ w, 0 ≤ q) (i : Nat) : 0 ≤ w.getD i 0 := by
  rw [List.getD_eq_getElem?_getD]
  cases e : w[i]? with
  | none => exact le_refl 0
  | some q => exact h q (List.mem_of_getElem? e)

theorem addNote_ok (F : Fns D) {Q : D → Prop} (hQ : Signed F Q) {i : Nat} (hi : i < 84) {v : D} (hv : Q v)
    {r : Notes D} (hr : NotesOk Q r) : ∃ r', addNote F i v r = .ok r' ∧ NotesOk Q r' ∧ r'.semitones = r.semitones := by
  obtain ⟨x, y, hx, hy, e⟩ := addNote_eq F hi v hr.c hr.b
  refine ⟨_, e, ?_, rfl⟩
  exact {
    c := by simpa using hr.c
    b := by simpa using hr.b
    qs := hr.qs
    qc := hr.qc.set (hQ.add _ _ (hr.qc.get hx) (hQ.mul _ _ hv (hQ.lit _ (window_nonneg treblewindow_nonneg i)))) _
    qb := hr.qb.set (hQ.add _ _ (hr.qb.get hy) (hQ.mul _ _ hv (hQ.lit _ (window_nonneg basswindow_nonneg i)))) _ }

theorem noteRounds_eq : noteRounds = 84 := rfl

theorem plainNotes_ok (F : Fns D) {Q : D → Prop} (hQ : Signed F Q) {b : List D} (hb : b.length = nNote)
    (hq : AllQ Q b) {r : Notes D} (hr : NotesOk Q r) (hs : r.semitones = []) :
    ∃ r', plainNotes F b r = .ok r' ∧ NotesOk Q r' ∧ r'.semitones.length = 84 := by
  unfold plainNotes
  have hb' : b.length = 256 := hb
  obtain ⟨r', e, h1, h2⟩ := loop_inv (body := fun t (r : Notes D) => do
    let currval ← loop (fun i v => do
      let x ← rd b ((centre t : Int) + ((i : Int) - 1))
      pure (F.add v (F.mul x (F.sub F.one (F.abs (F.div (F.mul (F.lit ((i : Rat) - 1)) F.one) (F.lit 2)))))))
      nBPS (F.lit 0)
    addNote F t currval { r with semitones := r.semitones ++ [currval] }) (k := noteRounds) (s := r)
    (fun t (r : Notes D) => NotesOk Q r ∧ r.semitones.length = t) ⟨hr, by simp [hs]⟩ (by
      rintro t ht r ⟨h1, h2⟩
      rw [noteRounds_eq] at ht
      obtain ⟨v, e1, hv⟩ := loop_inv (body := fun i v => do
          let x ← rd b ((centre t : Int) + ((i : Int) - 1))
          pure (F.add v (F.mul x (F.sub F.one (F.abs (F.div (F.mul (F.lit ((i : Rat) - 1)) F.one) (F.lit 2)))))))
        (k := nBPS) (s := F.lit 0) (fun _ v => Q v) (hQ.lit 0 (le_refl 0)) (by
          intro i hi v hv
          simp only [nBPS] at hi
          obtain ⟨x, ex, hx⟩ := rd_ex (v := b) (i := (centre t : Int) + ((i : Int) - 1))
            (by simp only [centre, nBPS]; omega) (by rw [hb']; simp only [centre, nBPS]; omega)
          rw [ex, bind_ok]
          exact ⟨_, rfl, hQ.add _ _ hv (hQ.mul _ _ (hq.get hx) (hQ.weight i hi))⟩)
      rw [e1, bind_ok]
      obtain ⟨r', e2, h3, h4⟩ := addNote_ok F hQ ht hv (r := { r with semitones := r.semitones ++ [v] })
        { c := h1.c, b := h1.b, qs := h1.qs.append (AllQ.single hv), qc := h1.qc, qb := h1.qb }
      exact ⟨r', e2, h3, by rw [h4]; simp [h2]⟩)
  exact ⟨r', e, h1, by rw [h2]; rfl⟩

/-- What is tested for note `t`: the sum of its three bins is positive. -/
def sigAt (F : Fns D) (b : List D) (t : Nat) : Bool :=
  F.lt (F.lit 0) ((List.range 3).foldl (fun v i => F.add v (b.getD (3 * t + 2 + i) (F.lit 0))) (F.lit 0))

theorem significant_eq (F : Fns D) {b : List D} (hb : b.length = nNote) :
    significant F b [] = .ok ((List.range 84).filter (sigAt F b), List.replicate 84 (F.lit 0)) := by
  have hb' : b.length = 256 := hb
  unfold significant
  obtain ⟨r, e, h⟩ := loop_inv (body := fun t (r : List Nat × List D) => do
    let currval ← loop (fun i v => do
      let x ← rd b ((centre t : Int) + ((i : Int) - 1))
      pure (F.add v x)) nBPS (F.lit 0)
    pure (if F.lt (F.lit 0) currval then r.1 ++ [t] else r.1, r.2 ++ [F.lit 0])) (k := noteRounds) (s := ([], []))
    (fun t (r : List Nat × List D) => r = ((List.range t).filter (sigAt F b), List.replicate t (F.lit 0))) rfl (by
      rintro t ht r rfl
      rw [noteRounds_eq] at ht
      rw [loop_eq (fun i v => F.add v (b.getD (3 * t + 2 + i) (F.lit 0))) nBPS _ (by
        intro i hi v
        simp only [nBPS] at hi
        rw [rd_getD (F.lit 0) (by simp only [centre, nBPS]; omega) (by rw [hb']; simp only [centre, nBPS]; omega),
          show ((centre t : Int) + ((i : Int) - 1)).toNat = 3 * t + 2 + i by simp only [centre, nBPS]; omega]
        rfl), bind_ok]
      refine ⟨_, rfl, ?_⟩
      rw [List.range_succ, List.filter_append, List.replicate_succ']
      simp only [Prod.mk.injEq, and_true]
      rw [List.filter_cons, List.filter_nil]
      change (if sigAt F b t = true then _ else _) = _
      split_ifs <;> simp)
  rw [e, h]
  rfl

theorem currDict_ok (F : Fns D) {dict : List D} (hd : dict.length = nNote * 84) {sig : List Nat}
    (hs : ∀ s ∈ sig, s < 84) :
    ∃ cd, currDict F dict sig = .ok cd ∧ cd.length = nNote * sig.length ∧
      ∀ j s i, sig[j]? = some s → i < nNote →
        cd[j * nNote + i]? = some (F.mul F.one (dict.getD (s * nNote + i) (F.lit 0))) := by
  unfold currDict
  obtain ⟨cd, e, h1, h2⟩ := foldlM_inv (f := fun out (s : Nat × Nat) =>
      loop (fun iBin out => do
        let x ← rd dict (s.1 * nNote + iBin : Nat)
        wr out (s.2 * nNote + iBin : Nat) (F.mul F.one x)) nNote out) (l := sig.zipIdx)
      (b := List.replicate (nNote * sig.length) (F.lit 0))
    (fun k (cd : List D) => cd.length = nNote * sig.length ∧
      ∀ j s i, j < k → sig[j]? = some s → i < nNote →
        cd[j * nNote + i]? = some (F.mul F.one (dict.getD (s * nNote + i) (F.lit 0))))
    ⟨by simp, by intro j s i hj; omega⟩ (by
      rintro k s hk cd ⟨h1, h2⟩
      rw [List.getElem?_zipIdx] at hk
      obtain ⟨s, hs', rfl⟩ := Option.map_eq_some_iff.mp hk
      have hklt : k < sig.length := (List.getElem?_eq_some_iff.mp hs').1
      have hs84 := hs s (List.mem_of_getElem? hs')
      obtain ⟨cd', e, l', p1, p2⟩ := loop_inv (body := fun iBin out => do
          let x ← rd dict (s * nNote + iBin : Nat)
          wr out ((0 + k) * nNote + iBin : Nat) (F.mul F.one x)) (k := nNote) (s := cd)
        (fun m (cd : List D) => cd.length = nNote * sig.length ∧
          (∀ j s i, j < k → sig[j]? = some s → i < nNote →
            cd[j * nNote + i]? = some (F.mul F.one (dict.getD (s * nNote + i) (F.lit 0)))) ∧
          ∀ i, i < m → cd[k * nNote + i]? = some (F.mul F.one (dict.getD (s * nNote + i) (F.lit 0))))
        ⟨h1, h2, by intro i hi; omega⟩ (by
          rintro m hm cd ⟨h1, h2, h3⟩
          have a1 : s * nNote + m < dict.length := by
            rw [hd]
            have h4 : nNote * (s + 1) ≤ nNote * 84 := Nat.mul_le_mul_left _ hs84
            have h5 : nNote * (s + 1) = s * nNote + nNote := by ring
            omega
          have a2 : k * nNote + m < cd.length := by
            rw [h1]
            have h4 : nNote * (k + 1) ≤ nNote * sig.length := Nat.mul_le_mul_left _ hklt
            have h5 : nNote * (k + 1) = k * nNote + nNote := by ring
            omega
          rw [Nat.zero_add, rd_nat' (F.lit 0) a1, bind_ok]
          refine ⟨_, wr_nat _ a2, by simpa using h1, ?_, ?_⟩
          · intro j s' i hj hs'' hi
            have h4 : nNote * (j + 1) ≤ nNote * k := Nat.mul_le_mul_left _ hj
            have h5 : nNote * (j + 1) = j * nNote + nNote := by ring
            have h6 : nNote * k = k * nNote := Nat.mul_comm _ _
            rw [getElem?_set' a2, if_neg (by omega)]
            exact h2 j s' i hj hs'' hi
          · intro i hi
            rw [getElem?_set' a2]
            by_cases him : i = m
            · subst him
              rw [if_pos rfl]
            · rw [if_neg (by omega)]
              exact h3 i (by omega))
      refine ⟨cd', e, l', ?_⟩
      intro j s' i hj hs'' hi
      by_cases hjk : j = k
      · subst hjk
        rw [hs'] at hs''
        cases hs''
        exact p2 i hi
      · exact p1 j s' i (by omega) hs'' hi)
  refine ⟨cd, e, h1, ?_⟩
  intro j s i hs' hi
  rw [List.length_zipIdx] at h2
  exact h2 j s i (List.getElem?_eq_some_iff.mp hs').1 hs' hi

theorem call_ok {F : Fns D} (hO : Nnls.Ordered F.toOps) (n : Nat) (s : Nnls.St D) (rn : D) :
    ∃ r, Nnls.call F.toOps (nNote : Nat) n s rn = .ok r := by
  obtain ⟨r, e, -⟩ := Nnls.C64_nnls_returns hO (nNote : Nat) n s rn
  exact ⟨r, e⟩

theorem nnlsNotes_ok (F : Fns D) {Q : D → Prop} (hQ : Signed F Q) (hO : Nnls.Ordered F.toOps) {dict : List D}
    (hd : dict.length = nNote * 84) (junk : Nnls.St D) {b : List D} (hb : b.length = nNote)
    {r : Notes D} (hr : NotesOk Q r) (hs : r.semitones = []) :
    ∃ r', nnlsNotes F dict junk b r = .ok r' ∧ NotesOk Q r' ∧ r'.semitones.length = 84 := by
  unfold nnlsNotes
  rw [hs, significant_eq F hb, bind_ok]
  generalize hsig : (List.range 84).filter (sigAt F b) = sig
  have hlt : ∀ s ∈ sig, s < 84 := by
    intro s h
    rw [← hsig] at h
    exact List.mem_range.mp (List.mem_filter.mp h).1
  have hlen : sig.length ≤ 84 := by
    rw [← hsig]
    exact (List.length_filter_le _ _).trans (by simp)
  obtain ⟨cd, e1, l1, -⟩ := currDict_ok F hd hlt
  simp only [e1, bind_ok]
  rw [if_pos ⟨by decide, by omega, hb⟩]
  obtain ⟨ret, e2⟩ := call_ok hO sig.length (problem F cd b junk) junk.up
  simp only [e2, ofNnls, bind_ok]
  obtain ⟨r', e, h1, h2⟩ := foldlM_inv (f := fun (r : Notes D) (s : Nat × Nat) => do
      let f3 ← wr r.semitones s.1 (ret.x (s.2 + 1))
      addNote F s.1 (ret.x (s.2 + 1)) { r with semitones := f3 }) (l := sig.zipIdx)
    (b := { r with semitones := List.replicate 84 (F.lit 0) })
    (fun _ (r : Notes D) => NotesOk Q r ∧ r.semitones.length = 84)
    ⟨{ c := hr.c, b := hr.b, qs := AllQ.replicate (hQ.lit 0 (le_refl 0)) _, qc := hr.qc, qb := hr.qb }, by simp⟩ (by
      rintro k s hk r ⟨h1, h2⟩
      rw [List.getElem?_zipIdx] at hk
      obtain ⟨s, hs', rfl⟩ := Option.map_eq_some_iff.mp hk
      have hs84 := hlt s (List.mem_of_getElem? hs')
      have hklt : k < sig.length := (List.getElem?_eq_some_iff.mp hs').1
      have hx : Q (ret.x (0 + k + 1)) := hQ.nnls _ _ _ _ e2 _ (by omega) (by omega)
      simp only
      rw [wr_nat _ (by omega), bind_ok]
      obtain ⟨r', e3, h3, h4⟩ := addNote_ok F hQ hs84 hx (r := { r with semitones := r.semitones.set s (ret.x (0 + k + 1)) })
        { c := h1.c, b := h1.b, qs := h1.qs.set hx _, qc := h1.qc, qb := h1.qb }
      exact ⟨r', e3, h3, by rw [h4]; simpa using h2⟩)
  exact ⟨r', e, h1, h2⟩

/-- The copy of the tuned spectrum and the test for a positive value. -/
theorem copy_eq (F : Fns D) {f2 : List D} (hl : f2.length = nNote) :
    loop (fun i (r : List D × Bool) => do
      let x ← rd f2 (i : Int)
      pure (r.1 ++ [x], r.2 || F.lt (F.lit 0) x)) nNote ([], false) = .ok (f2, f2.any (fun x => F.lt (F.lit 0) x)) := by
  obtain ⟨r, e, h⟩ := loop_inv (body := fun i (r : List D × Bool) => do
      let x ← rd f2 (i : Int)
      pure (r.1 ++ [x], r.2 || F.lt (F.lit 0) x)) (k := nNote) (s := ([], false))
    (fun i (r : List D × Bool) => r = (f2.take i, (f2.take i).any (fun x => F.lt (F.lit 0) x))) rfl (by
      rintro i hi r rfl
      obtain ⟨x, hx⟩ := getElem?_some_of_lt (v := f2) (i := i) (by omega)
      rw [rd_nat hx, bind_ok]
      refine ⟨_, rfl, ?_⟩
      rw [List.take_add_one, hx]
      simp)
  rw [e, h, ← hl, List.take_length]

theorem notesOf_ok (F : Fns D) {Q : D → Prop} (hQ : Signed F Q) (hO : Nnls.Ordered F.toOps) {p : Base D T}
    (hp : Ready F Q p) (junk : Nnls.St D) {f2 : List D} (hl : f2.length = nNote) (hq : AllQ Q f2) :
    ∃ r, notesOf F p junk f2 = .ok r ∧ NotesOk Q r ∧ r.semitones.length = 84 := by
  unfold notesOf
  rw [copy_eq F hl, bind_ok]
  have h0 : NotesOk Q { semitones := [], chroma := List.replicate 12 (F.lit 0), basschroma := List.replicate 12 (F.lit 0) } :=
    { c := by simp, b := by simp, qs := AllQ.nil, qc := AllQ.replicate (hQ.lit 0 (le_refl 0)) _,
      qb := AllQ.replicate (hQ.lit 0 (le_refl 0)) _ }
  dsimp only
  split_ifs
  · exact plainNotes_ok F hQ hl hq h0 rfl
  · exact nnlsNotes_ok F hQ hO hp.dict junk hl h0 rfl
  · refine ⟨_, rfl, ?_, by simp⟩
    exact { c := by simp, b := by simp, qs := AllQ.replicate (hQ.lit 0 (le_refl 0)) _,
            qc := AllQ.replicate (hQ.lit 0 (le_refl 0)) _, qb := AllQ.replicate (hQ.lit 0 (le_refl 0)) _ }

theorem scaleBy_length (F : Fns D) (n : D) (v : List D) : (scaleBy F n v).length = v.length := by
  unfold scaleBy
  split_ifs <;> simp

theorem scaleBy_ok (F : Fns D) {Q : D → Prop} (hQ : Signed F Q) (n : D) {v : List D} (h : AllQ Q v) :
    AllQ Q (scaleBy F n v) := by
  unfold scaleBy
  split_ifs with hn
  · intro x hx
    obtain ⟨y, hy, rfl⟩ := List.mem_map.mp hx
    exact hQ.quot _ _ (h y hy) hn
  · exact h

theorem chromas_ok (F : Fns D) {Q : D → Prop} (hQ : Signed F Q) (d : D) {r : Notes D} (h : NotesOk Q r) :
    ((chromas F d r).1.length = 12 ∧ AllQ Q (chromas F d r).1) ∧
    ((chromas F d r).2.1.length = 12 ∧ AllQ Q (chromas F d r).2.1) ∧
    ((chromas F d r).2.2.length = 24 ∧ AllQ Q (chromas F d r).2.2) := by
  unfold chromas
  dsimp only
  split_ifs
  · refine ⟨⟨?_, scaleBy_ok F hQ _ h.qc⟩, ⟨?_, scaleBy_ok F hQ _ h.qb⟩, ⟨?_, scaleBy_ok F hQ _ (h.qb.append h.qc)⟩⟩
    · rw [scaleBy_length, h.c]
    · rw [scaleBy_length, h.b]
    · rw [scaleBy_length, List.length_append, h.c, h.b]
  · refine ⟨⟨h.c, h.qc⟩, ⟨h.b, h.qb⟩, ⟨?_, h.qb.append h.qc⟩⟩
    rw [List.length_append, h.c, h.b]

/-- One output of the plug-in: a vector of `n` values for each of the frames, with its timestamp. -/
def Output (Q : D → Prop) (ts : List T) (n : Nat) (l : List (T × List D)) : Prop :=
  l.map Prod.fst = ts ∧ ∀ f ∈ l, f.2.length = n ∧ AllQ Q f.2

theorem Output.snoc {Q : D → Prop} {ts : List T} {n : Nat} {l : List (T × List D)} {i : Nat} {t : T} {v : List D}
    (h : Output Q (ts.take i) n l) (ht : ts[i]? = some t) (hv : v.length = n ∧ AllQ Q v) :
    Output Q (ts.take (i + 1)) n (l ++ [(t, v)]) := by
  refine ⟨?_, ?_⟩
  · rw [List.map_append, h.1, List.take_add_one, ht]
    rfl
  · intro f hf
    rcases List.mem_append.mp hf with h' | h'
    · exact h.2 f h'
    · rw [List.mem_singleton.mp h']
      exact hv

/-- What the outputs have to do with each other, frame by frame. -/
def Frames (F : Fns D) (p : Base D T) (junk : Nat → Nnls.St D) (f : Features D T) : Prop :=
  ∀ i t f2, f.tunedlogfreqspec[i]? = some (t, f2) → ∃ n, notesOf F p (junk i) f2 = .ok n ∧
    f.semitonespectrum[i]? = some (t, n.semitones) ∧
    f.chroma[i]? = some (t, (chromas F p.params.doNormalizeChroma n).1) ∧
    f.basschroma[i]? = some (t, (chromas F p.params.doNormalizeChroma n).2.1) ∧
    f.bothchroma[i]? = some (t, (chromas F p.params.doNormalizeChroma n).2.2)

/-- Where the tuned spectra come from. -/
def Tuned (F : Fns D) (p : Base D T) (f : Features D T) : Prop :=
  p.logSpectrum ≠ [] → ∃ t r, normalisedTuning F p p.meanTunings = .ok t ∧ tuneAll F p t = .ok r ∧
    f.tunedlogfreqspec = r.1

/-- The state after the blocks of a recording. -/
def Made (F : Fns D) (fs : Int) (bs : Nat) (params : Params D) (blocks : List (T × List D)) (p : Base D T) : Prop :=
  ∃ p0, initialise F fs 1 bs (Base.new F params) = .ok (true, p0) ∧
    blocks.foldlM (fun p bl => baseProcess F bl.2 bl.1 p) p0 = .ok p

theorem getElem?_snoc {α : Type} {l : List α} {i : Nat} (h : l.length = i) (x : α) (j : Nat) :
    (l ++ [x])[j]? = if j = i then some x else l[j]? := by
  subst h
  by_cases h : j < l.length
  · rw [List.getElem?_append_left h, if_neg (by omega)]
  · rw [List.getElem?_append_right (by omega)]
    by_cases h' : j = l.length
    · subst h'
      simp
    · rw [if_neg h', List.getElem?_eq_none (by simp; omega), List.getElem?_eq_none (by omega)]

theorem getRemainingFeatures_ok (F : Fns D) {Q : D → Prop} (hQ : Signed F Q) (hO : Nnls.Ordered F.toOps)
    (hT : Tunes F) {p : Base D T} (hp : Ready F Q p) (junk : Nat → Nnls.St D) :
    ∃ f, getRemainingFeatures F p junk = .ok f ∧
      Output Q (p.logSpectrum.map Prod.fst) nNote f.tunedlogfreqspec ∧
      Output Q (p.logSpectrum.map Prod.fst) 84 f.semitonespectrum ∧
      Output Q (p.logSpectrum.map Prod.fst) 12 f.chroma ∧
      Output Q (p.logSpectrum.map Prod.fst) 12 f.basschroma ∧
      Output Q (p.logSpectrum.map Prod.fst) 24 f.bothchroma ∧
      ((∀ x, Q x → F.lt x (F.lit 0) = false) → f.complained = false) ∧ Frames F p junk f ∧ Tuned F p f := by
  unfold getRemainingFeatures
  split_ifs with h0
  · rw [List.eq_nil_of_length_eq_zero h0]
    have : ∀ n, Output Q (T := T) (List.map Prod.fst ([] : List (T × List D))) n [] := fun n => ⟨rfl, by simp⟩
    exact ⟨_, rfl, this _, this _, this _, this _, this _, fun _ => rfl, fun i t f2 h => (by cases h),
      fun h => absurd (List.eq_nil_of_length_eq_zero h0) h⟩
  · obtain ⟨y, x, e1⟩ := normalisedTuning_ok F p hp.mean hp.sinv hp.cosv
    obtain ⟨tuned, e2, t2, q2, c2⟩ := tuneAll_ok F hQ hp (hT y x)
    simp only [e1, e2, bind_ok]
    obtain ⟨f, e, h1, h2, h3, h4, h5, h6, h7⟩ := foldlM_inv (f := fun (r : Features D T) (fr : (T × List D) × Nat) => do
      let n ← notesOf F p (junk fr.2) fr.1.2
      let c := chromas F p.params.doNormalizeChroma n
      pure { r with
        semitonespectrum := r.semitonespectrum ++ [(fr.1.1, n.semitones)]
        chroma := r.chroma ++ [(fr.1.1, c.1)]
        basschroma := r.basschroma ++ [(fr.1.1, c.2.1)]
        bothchroma := r.bothchroma ++ [(fr.1.1, c.2.2)] }) (l := tuned.1.zipIdx)
      (b := {
        tunedlogfreqspec := tuned.1
        semitonespectrum := []
        chroma := []
        basschroma := []
        bothchroma := []
        complained := tuned.2 })
      (fun i (r : Features D T) => r.tunedlogfreqspec = tuned.1 ∧ r.complained = tuned.2 ∧
        Output Q ((tuned.1.map Prod.fst).take i) 84 r.semitonespectrum ∧
        Output Q ((tuned.1.map Prod.fst).take i) 12 r.chroma ∧
        Output Q ((tuned.1.map Prod.fst).take i) 12 r.basschroma ∧
        Output Q ((tuned.1.map Prod.fst).take i) 24 r.bothchroma ∧
        ∀ j t f2, j < i → tuned.1[j]? = some (t, f2) → ∃ n, notesOf F p (junk j) f2 = .ok n ∧
          r.semitonespectrum[j]? = some (t, n.semitones) ∧
          r.chroma[j]? = some (t, (chromas F p.params.doNormalizeChroma n).1) ∧
          r.basschroma[j]? = some (t, (chromas F p.params.doNormalizeChroma n).2.1) ∧
          r.bothchroma[j]? = some (t, (chromas F p.params.doNormalizeChroma n).2.2))
      ⟨rfl, rfl, ⟨rfl, by simp⟩, ⟨rfl, by simp⟩, ⟨rfl, by simp⟩, ⟨rfl, by simp⟩, by intro j t f2 hj; omega⟩ (by
        rintro i fr hfr r ⟨h1, h2, h3, h4, h5, h6, h7⟩
        rw [List.getElem?_zipIdx] at hfr
        obtain ⟨f, hf, rfl⟩ := Option.map_eq_some_iff.mp hfr
        obtain ⟨s1, s2⟩ := q2 f (List.mem_of_getElem? hf)
        obtain ⟨n, en, hn, ln⟩ := notesOf_ok F hQ hO hp (junk (0 + i)) s1 s2
        simp only [en, bind_ok]
        obtain ⟨c1, c2, c3⟩ := chromas_ok F hQ p.params.doNormalizeChroma hn
        have ht : (tuned.1.map Prod.fst)[i]? = some f.1 := by rw [List.getElem?_map, hf]; rfl
        refine ⟨_, rfl, h1, h2, h3.snoc ht ⟨ln, hn.qs⟩, h4.snoc ht c1, h5.snoc ht c2, h6.snoc ht c3, ?_⟩
        intro j t f2 hj hjf
        have hlen : ∀ {n : Nat} {l : List (T × List D)}, Output Q ((tuned.1.map Prod.fst).take i) n l → l.length = i := by
          intro n l h
          have h8 := congrArg List.length h.1
          have h9 : i < tuned.1.length := (List.getElem?_eq_some_iff.mp hf).1
          simp only [List.length_map, List.length_take] at h8
          omega
        simp only [getElem?_snoc (hlen h3), getElem?_snoc (hlen h4), getElem?_snoc (hlen h5), getElem?_snoc (hlen h6)]
        by_cases hji : j = i
        · subst hji
          rw [hf] at hjf
          cases hjf
          rw [Nat.zero_add] at en
          exact ⟨n, en, if_pos rfl, if_pos rfl, if_pos rfl, if_pos rfl⟩
        · simp only [if_neg hji]
          exact h7 j t f2 (by omega) hjf)
    rw [List.length_zipIdx] at h3 h4 h5 h6 h7
    rw [List.take_of_length_le (by simp), t2] at h3 h4 h5 h6
    refine ⟨f, e, ?_, h3, h4, h5, h6, ?_, ?_, fun _ => ⟨_, tuned, e1, e2, h1⟩⟩
    · rw [h1]
      exact ⟨t2, q2⟩
    · rw [h2]
      exact c2
    · intro i t f2 hi
      rw [h1] at hi
      exact h7 i t f2 (List.getElem?_eq_some_iff.mp hi).1 hi

/-- What is left of a set-up plug-in after any number of blocks. -/
structure SetUp (F : Fns D) (Q : D → Prop) (bs : Nat) (params : Params D) (p : Base D T) : Prop where
  ready : Ready F Q p
  blockSize : p.blockSize = bs
  pars : p.params = params
  dict : dictionaryMatrix F params.s (List.replicate (nNote * 84) (F.lit 0)) = .ok p.dict
  hw : p.hw = (List.range hamwinlength).map (fun i => F.div (hamming F i)
    ((List.range hamwinlength).foldl (fun s i => F.add s (hamming F i)) (F.lit 0)))

/-- A whole run. -/
theorem runAll_ok (F : Fns D) {Q : D → Prop} (hQ : Signed F Q) (hO : Nnls.Ordered F.toOps) (hT : Tunes F) (fs : Int)
    {bs : Nat} (hb : 4 ≤ bs) (params : Params D) {blocks : List (T × List D)}
    (hbl : ∀ bl ∈ blocks, bs ≤ bl.2.length) (junk : Nat → Nnls.St D) :
    ∃ f, runAll F fs bs params blocks junk = .ok (some f) ∧
      Output Q (blocks.map Prod.fst) nNote f.tunedlogfreqspec ∧
      Output Q (blocks.map Prod.fst) 84 f.semitonespectrum ∧
      Output Q (blocks.map Prod.fst) 12 f.chroma ∧
      Output Q (blocks.map Prod.fst) 12 f.basschroma ∧
      Output Q (blocks.map Prod.fst) 24 f.bothchroma ∧
      ((∀ x, Q x → F.lt x (F.lit 0) = false) → f.complained = false) ∧
      ∃ p : Base D T, SetUp F Q bs params p ∧ Frames F p junk f ∧ Tuned F p f ∧ Made F fs bs params blocks p := by
  unfold runAll
  obtain ⟨p0, e0, r0, b0, pa0, s0, -, d0, w0⟩ := initialise_ok (T := T) F hQ fs hb params
  obtain ⟨p, e1, r1, s1⟩ := foldlM_inv (f := fun p (bl : T × List D) => baseProcess F bl.2 bl.1 p) (l := blocks)
    (b := p0) (fun i (p : Base D T) => SetUp F Q bs params p ∧
      p.logSpectrum.map Prod.fst = (blocks.map Prod.fst).take i) ⟨⟨r0, b0, pa0, d0, w0⟩, by rw [s0]; rfl⟩ (by
      rintro i bl hi p ⟨h1, h3⟩
      have hlen := hbl bl (List.mem_of_getElem? hi)
      have hbs := h1.blockSize
      obtain ⟨p', nm, e, g1, g2, g4, g3, -, g5, g6, -⟩ := baseProcess_ok F hQ hT h1.ready (fbuf := bl.2) (by omega) bl.1
      refine ⟨p', e, ⟨g1, by rw [g2, hbs], by rw [g4, h1.pars], by rw [g5]; exact h1.dict, by rw [g6]; exact h1.hw⟩, ?_⟩
      rw [g3, List.map_append, h3, List.take_add_one, List.getElem?_map, hi]
      rfl)
  obtain ⟨f, e2, h2, h3, h4, h5, h6, h7, h8, h9⟩ := getRemainingFeatures_ok F hQ hO hT r1.ready junk
  rw [s1, List.take_of_length_le (by simp)] at h2 h3 h4 h5 h6
  rw [e0, bind_ok, if_pos rfl, e1, bind_ok, e2, bind_ok]
  exact ⟨f, rfl, h2, h3, h4, h5, h6, h7, p, r1, h8, h9, p0, e0, e1⟩

end JKD.Chroma
