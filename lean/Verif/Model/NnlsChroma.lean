import Verif.Model.Nnls
import Mathlib.Data.Rat.Defs
/-
Model of the chroma plug-in of the audio front end (nnls-chroma-1.1/NNLSBase.cpp, NNLSChroma.cpp and the part of
chromamethods.cpp they use): from the Fourier spectrum of one block to the log-frequency spectrum, and from all
of those to the tuned spectrum, the semitone spectrum and the chromagrams.

Simplifications:

* `float` and `double` are one carrier `D`; an expression that C evaluates in `double` and stores in a `float` is
  one operation of the carrier after the other;
* `vector<float>` and the arrays made with `new` are lists; every subscript is checked, and one outside its array
  is the outcome `ub`;  a failed `assert` is the outcome `abort`;
* what the uninitialised local arrays contain is a parameter;
* integers do not overflow: the block size is 16384 (`getPreferredBlockSize`) and the number of frames that of a
  recording;
* a timestamp is a value of a type `T` that is only copied.
-/

namespace JKD.Chroma

/-- The operations on floating-point numbers performed by the plug-in. -/
structure Fns (D : Type) extends Nnls.Ops D where
  /-- a literal, or an integer converted to floating point -/
  lit : Rat → D
  /-- `M_PI` -/
  pi : D
  sin : D → D
  cos : D → D
  log : D → D
  log2 : D → D
  pow : D → D → D
  /-- `atan2(y, x)` -/
  atan2 : D → D → D
  /-- `(int) floor(x)` -/
  floor : D → Int

/-- Outcome of a piece of the code. -/
inductive Run (α : Type) where
  | ok (a : α)
  /-- a subscript outside its array -/
  | ub
  /-- a failed assertion -/
  | abort

/-- Sequencing. -/
protected def Run.bind {α β : Type} : Run α → (α → Run β) → Run β
  | .ok a, f => f a
  | .ub, _ => .ub
  | .abort, _ => .abort

instance : Monad Run where
  pure := Run.ok
  bind := Run.bind

variable {D T S : Type}

/-- `for (i = 0; i < k; ++i) s = body(i, s)`. -/
def loop (body : Nat → S → Run S) : Nat → S → Run S
  | 0, s => .ok s
  | k + 1, s => loop body k s >>= body k

/-- `v[i]`. -/
def rd (v : List D) (i : Int) : Run D :=
  if 0 ≤ i then
    match v[i.toNat]? with
    | some x => .ok x
    | none => .ub
  else .ub

/-- `v[i] = x`. -/
def wr (v : List D) (i : Int) (x : D) : Run (List D) :=
  if 0 ≤ i ∧ i.toNat < v.length then .ok (v.set i.toNat x) else .ub

/-- `nBPS` (chromamethods.h:25). -/
def nBPS : Nat := 3

/-- `nNote` (chromamethods.h:26-27). -/
def nNote : Nat := 7 * 12 * nBPS + 2 * (nBPS / 2 + 1)

/-- `basswindow` (chromamethods.h:35). -/
def basswindow : List Rat :=
  [0.001769, 0.015848, 0.043608, 0.084265, 0.136670, 0.199341, 0.270509, 0.348162, 0.430105, 0.514023, 0.597545,
   0.678311, 0.754038, 0.822586, 0.882019, 0.930656, 0.967124, 0.990393, 0.999803, 0.995091, 0.976388, 0.944223,
   0.899505, 0.843498, 0.777785, 0.704222, 0.624888, 0.542025, 0.457975, 0.375112, 0.295778, 0.222215, 0.156502,
   0.100495, 0.055777, 0.023612, 0.004909, 0, 0, 0, 0, 0, 0, 0, 0, 0, 0, 0, 0, 0, 0, 0, 0, 0, 0, 0, 0, 0, 0, 0, 0,
   0, 0, 0, 0, 0, 0, 0, 0, 0, 0, 0, 0, 0, 0, 0, 0, 0, 0, 0, 0, 0, 0, 0]

/-- `treblewindow` (chromamethods.h:36). -/
def treblewindow : List Rat :=
  [0.000350, 0.003144, 0.008717, 0.017037, 0.028058, 0.041719, 0.057942, 0.076638, 0.097701, 0.121014, 0.146447,
   0.173856, 0.203090, 0.233984, 0.266366, 0.300054, 0.334860, 0.370590, 0.407044, 0.444018, 0.481304, 0.518696,
   0.555982, 0.592956, 0.629410, 0.665140, 0.699946, 0.733634, 0.766016, 0.796910, 0.826144, 0.853553, 0.878986,
   0.902299, 0.923362, 0.942058, 0.958281, 0.971942, 0.982963, 0.991283, 0.996856, 0.999650, 0.999650, 0.996856,
   0.991283, 0.982963, 0.971942, 0.958281, 0.942058, 0.923362, 0.902299, 0.878986, 0.853553, 0.826144, 0.796910,
   0.766016, 0.733634, 0.699946, 0.665140, 0.629410, 0.592956, 0.555982, 0.518696, 0.481304, 0.444018, 0.407044,
   0.370590, 0.334860, 0.300054, 0.266366, 0.233984, 0.203090, 0.173856, 0.146447, 0.121014, 0.097701, 0.076638,
   0.057942, 0.041719, 0.028058, 0.017037, 0.008717, 0.003144, 0.000350]

/-! ### chromamethods.cpp -/

/-- `SpecialConvolution` (chromamethods.cpp:46-72). -/
def specialConvolution (F : Fns D) (convolvee kernel : List D) : Run (List D) :=
  let lenConvolvee := convolvee.length
  let lenKernel := kernel.length
  let Z := List.replicate nNote F.zero
  if lenKernel % 2 = 0 then .abort
  else do
    let Z ← loop (fun t Z => do
      let n := lenKernel - 1 + t
      let s ← loop (fun m s => do
        let c ← rd convolvee ((n : Int) - m)
        let k ← rd kernel m
        pure (F.add s (F.mul c k))) lenKernel F.zero
      wr Z ((n : Int) - (lenKernel / 2 : Nat)) s) (lenConvolvee - (lenKernel - 1)) Z
    let Z ← loop (fun n Z => do
      let z ← rd Z (lenKernel / 2 : Nat)
      wr Z n z) (lenKernel / 2) Z
    loop (fun t Z => do
      let n := lenConvolvee + t
      let z ← rd Z ((lenConvolvee : Int) - (lenKernel / 2 : Nat) - 1)
      wr Z ((n : Int) - (lenKernel / 2 : Nat)) z) (lenKernel / 2) Z

/-- `cospuls` (chromamethods.cpp:74-81). -/
def cospuls (F : Fns D) (x centre width : D) : D :=
  let recipwidth := F.div F.one width
  if F.le (F.abs (F.sub x centre)) (F.mul (F.lit (1 / 2)) width) then
    F.add (F.mul (F.cos (F.mul (F.mul (F.mul (F.sub x centre) (F.lit 2)) F.pi) recipwidth)) (F.lit (1 / 2)))
      (F.lit (1 / 2))
  else F.lit 0

/-- `pitchCospuls` (chromamethods.cpp:83-95). -/
def pitchCospuls (F : Fns D) (x centre : D) (binsperoctave : Nat) : D :=
  let warpedf := F.mul (F.lit (-(binsperoctave : Rat))) (F.sub (F.log2 centre) (F.log2 x))
  let out := cospuls F warpedf (F.lit 0) (F.lit 2)
  let c := F.div (F.log (F.lit 2)) (F.lit binsperoctave)
  if F.lt (F.lit 0) x then F.div out (F.mul c x) else F.lit 0

/-- The pitch-spaced frequencies (chromamethods.cpp:123-134 and 174-184): `maxMIDI` is 105. -/
def cqF (F : Fns D) : List D :=
  (List.range (85 * nBPS)).map (fun j =>
    F.mul (F.lit 440) (F.pow (F.lit 2) (F.mul (F.lit 0.083333333333)
      (F.sub (F.add (F.lit (20 + j / nBPS : Nat)) (F.mul (F.div F.one (F.lit nBPS)) (F.lit (j % nBPS : Nat))))
        (F.lit 69))))) ++
  [F.mul (F.lit 440) (F.pow (F.lit 2) (F.mul (F.lit 0.083333) (F.sub (F.lit 105) (F.lit 69))))]

/-- The linear frequencies (chromamethods.cpp:110-114). -/
def fftF (F : Fns D) (fs : Int) (blocksize : Nat) : List D :=
  (List.range (blocksize / 2)).map (fun i =>
    F.mul (F.lit (i : Nat)) (F.div (F.mul (F.lit fs) F.one) (F.lit blocksize)))

/-- `fft_width` (chromamethods.cpp:115). -/
def fftWidth (F : Fns D) (fs : Int) (blocksize : Nat) : D :=
  F.div (F.mul (F.lit fs) (F.lit 2)) (F.lit blocksize)

/-- The oversampled linear frequencies (chromamethods.cpp:117-121). -/
def oversampledF (F : Fns D) (fs : Int) (blocksize : Nat) : List D :=
  (List.range (80 * blocksize / 2)).map (fun i =>
    F.mul (F.lit (i : Nat)) (F.div (F.div (F.mul (F.lit fs) F.one) (F.lit blocksize)) (F.lit 80)))

/-- `fft_activation` (chromamethods.cpp:138-143). -/
def fftActivation (F : Fns D) (fs : Int) (blocksize : Nat) : Run (List D) :=
  loop (fun iOS acc => do
    let x ← rd (oversampledF F fs blocksize) iOS
    let f1 ← rd (fftF F fs blocksize) 1
    pure (acc ++ [cospuls F x f1 (fftWidth F fs blocksize)])) (2 * 80) []

/-- The test for the generous neighbourhood (chromamethods.cpp:156). -/
def near (F : Fns D) (width cq fft : D) : Bool :=
  F.lt fft (F.add (F.mul cq (F.pow (F.lit 2) (F.lit 0.084))) width) &&
  F.lt (F.sub (F.mul cq (F.pow (F.lit 2) (F.mul (F.neg (F.lit 0.084)) (F.lit 2)))) width) fft

/-- `logFreqMatrix` (chromamethods.cpp:101-166); `size` is the number of entries behind `outmatrix`, all of which
are written before they are read. -/
def logFreqMatrix (F : Fns D) (fs : Int) (blocksize size : Nat) : Run (List D) := do
  let fft := fftF F fs blocksize
  let os := oversampledF F fs blocksize
  let cq := cqF F
  let width := fftWidth F fs blocksize
  let nFFT := fft.length
  let act ← fftActivation F fs blocksize
  let out := List.replicate size (F.lit 0)
  let out ← loop (fun i out => wr out i (F.lit 0)) (nFFT * cq.length) out
  loop (fun t out =>
    let iFFT := t + 1
    let currStart := 80 * iFFT - 80
    loop (fun iCQ out => do
      let c ← rd cq iCQ
      let f ← rd fft iFFT
      if near F width c f then
        loop (fun d out => do
          let x ← rd os (currStart + d : Nat)
          let a ← rd act d
          let o ← rd out (iFFT + nFFT * iCQ : Nat)
          wr out (iFFT + nFFT * iCQ : Nat) (F.add o (F.mul (pitchCospuls F x c (nBPS * 12)) a))) 160 out
      else pure out) cq.length out) (nFFT - 1) out

/-- `dictionaryMatrix` (chromamethods.cpp:168-207); `dm` is added to. -/
def dictionaryMatrix (F : Fns D) (s : D) (dm : List D) : Run (List D) :=
  loop (fun iOut dm =>
    loop (fun h dm =>
      let iHarm := h + 1
      let floatbin := F.add (F.lit ((iOut + 1) * nBPS + 1 : Nat)) (F.mul (F.lit (nBPS * 12 : Nat)) (F.log2 (F.lit iHarm)))
      let amp := F.pow s (F.lit h)
      loop (fun iNote dm =>
        if F.lt (F.abs (F.sub (F.add (F.lit iNote) F.one) floatbin)) (F.lit 2) then do
          let o ← rd dm (iNote + nNote * iOut : Nat)
          wr dm (iNote + nNote * iOut : Nat)
            (F.add o (F.mul (cospuls F (F.add (F.lit iNote) F.one) floatbin (F.lit nBPS)) amp))
        else pure dm) nNote dm) 20 dm) (12 * 7) dm

/-! ### NNLSBase.cpp -/

/-- The parameters a host can set (NNLSBase.cpp:135-219, 268-322). -/
structure Params (D : Type) where
  useNNLS : D
  rollon : D
  tuneLocal : Bool
  whitening : D
  s : D
  doNormalizeChroma : D

/-- The parameters after construction (NNLSBase.cpp:41-50). -/
def Params.default (F : Fns D) : Params D where
  useNNLS := F.one
  rollon := F.zero
  tuneLocal := false
  whitening := F.one
  s := F.lit 0.7
  doNormalizeChroma := F.zero

/-- The state of the plug-in (NNLSBase.h:58-81). -/
structure Base (D T : Type) where
  params : Params D
  frameCount : Nat
  /-- timestamp and values of every frame -/
  logSpectrum : List (T × List D)
  blockSize : Nat
  meanTunings : List D
  localTunings : List D
  localTuning : List D
  /-- value, Fourier bin and log-frequency bin of every positive entry of the mapping -/
  kernel : List (D × Nat × Nat)
  dict : List D
  sinvalues : List D
  cosvalues : List D
  hw : List D

/-- The constructor (NNLSBase.cpp:31-62). -/
def Base.new (F : Fns D) (params : Params D) : Base D T where
  params := params
  frameCount := 0
  logSpectrum := []
  blockSize := 0
  meanTunings := []
  localTunings := []
  localTuning := []
  kernel := []
  dict := List.replicate (nNote * 84) (F.lit 0)
  sinvalues := []
  cosvalues := []
  hw := []

/-- The length of the running window (NNLSBase.cpp:368). -/
def hamwinlength : Nat := nBPS * 6 + 1

/-- One value of the window before scaling (NNLSBase.cpp:371-372). -/
def hamming (F : Fns D) (i : Nat) : D :=
  F.sub (F.lit 0.54) (F.mul (F.lit 0.46)
    (F.cos (F.div (F.mul (F.mul (F.lit 2) F.pi) (F.lit i)) (F.lit (hamwinlength - 1 : Nat)))))

/-- `initialise` (NNLSBase.cpp:351-423): `false` when the number of channels is refused. -/
def initialise (F : Fns D) (fs : Int) (channels blockSize : Nat) (p : Base D T) : Run (Bool × Base D T) := do
  let dict ← dictionaryMatrix F p.params.s p.dict
  let p := { p with
    dict := dict
    sinvalues := p.sinvalues ++ (List.range nBPS).map (fun i =>
      F.sin (F.mul (F.mul (F.lit 2) F.pi) (F.div (F.lit (i : Nat)) (F.lit nBPS))))
    cosvalues := p.cosvalues ++ (List.range nBPS).map (fun i =>
      F.cos (F.mul (F.mul (F.lit 2) F.pi) (F.div (F.lit (i : Nat)) (F.lit nBPS)))) }
  let hw := p.hw ++ (List.range hamwinlength).map (hamming F)
  let hamwinsum := (List.range hamwinlength).foldl (fun s i => F.add s (hamming F i)) (F.lit 0)
  let hw ← loop (fun i hw => do
    let x ← rd hw i
    wr hw i (F.div x hamwinsum)) hamwinlength hw
  let p := { p with
    hw := hw
    meanTunings := p.meanTunings ++ List.replicate nBPS (F.lit 0)
    localTunings := p.localTunings ++ List.replicate nBPS (F.lit 0) }
  if channels < 1 ∨ 1 < channels then pure (false, p)
  else do
    let p := { p with blockSize := blockSize, frameCount := 0 }
    let temp ← logFreqMatrix F fs blockSize (nNote * blockSize / 2)
    let kernel ← loop (fun iNote kernel =>
      loop (fun iFFT kernel => do
        let v ← rd temp (iFFT + blockSize / 2 * iNote : Nat)
        if F.lt (F.lit 0) v then pure (kernel ++ [(v, iFFT, iNote)]) else pure kernel) (blockSize / 2) kernel)
      nNote []
    pure (true, { p with kernel := kernel })

/-- `reset` (NNLSBase.cpp:425-439). -/
def reset (F : Fns D) (p : Base D T) : Run (Base D T) := do
  let p := { p with frameCount := 0, logSpectrum := [] }
  let p ← loop (fun i p => do
    let m ← wr p.meanTunings i (F.lit 0)
    let l ← wr p.localTunings i (F.lit 0)
    pure { p with meanTunings := m, localTunings := l }) nBPS p
  pure { p with localTuning := [] }

/-- The magnitudes with their maximum and, if wanted, the sum of their squares (NNLSBase.cpp:444-459). -/
def magnitudes (F : Fns D) (p : Base D T) (fbuf : List D) : Run (List D × D × D) :=
  loop (fun iBin (r : List D × D × D) => do
    let re ← rd fbuf (2 * iBin : Nat)
    let im ← rd fbuf (2 * iBin + 1 : Nat)
    let m := F.sqrt (F.add (F.mul re re) (F.mul im im))
    let m := if F.lt (F.mul (F.lit p.blockSize) F.one) m then F.lit p.blockSize else m
    let maxmag := if F.lt r.2.1 m then m else r.2.1
    let energysum := if F.lt (F.lit 0) p.params.rollon then F.add r.2.2 (F.pow m (F.lit 2)) else r.2.2
    pure (r.1 ++ [m], maxmag, energysum)) (p.blockSize / 2) ([], F.lit (-10000), F.lit 0)

/-- The loop of the bass noise threshold (NNLSBase.cpp:463-467): `go fuel iBin cumenergy magnitude`. -/
def rollonLoop (F : Fns D) (limit : D) : Nat → Nat → D → List D → Run (List D)
  | 0, _, _, magnitude => .ok magnitude
  | k + 1, iBin, cumenergy, magnitude => do
    let m ← rd magnitude iBin
    let cumenergy := F.add cumenergy (F.pow m (F.lit 2))
    if F.lt cumenergy limit then do
      let magnitude ← wr magnitude ((iBin : Int) - 2) (F.lit 0)
      rollonLoop F limit k (iBin + 1) cumenergy magnitude
    else pure magnitude

/-- The bass noise threshold (NNLSBase.cpp:461-468). -/
def applyRollon (F : Fns D) (p : Base D T) (energysum : D) (magnitude : List D) : Run (List D) :=
  if F.lt (F.lit 0) p.params.rollon then
    rollonLoop F (F.div (F.mul energysum p.params.rollon) (F.lit 100)) (p.blockSize / 2 - 2) 2 (F.lit 0) magnitude
  else pure magnitude

/-- Very quiet blocks count as silent (NNLSBase.cpp:470-475). -/
def silence (F : Fns D) (p : Base D T) (maxmag : D) (magnitude : List D) : Run (List D) :=
  if F.lt maxmag (F.lit 2) then loop (fun i magnitude => wr magnitude i (F.lit 0)) (p.blockSize / 2) magnitude
  else pure magnitude

/-- The mapping to the log-frequency bins (NNLSBase.cpp:477-488). -/
def mapNotes (F : Fns D) (kernel : List (D × Nat × Nat)) (magnitude : List D) : Run (List D) :=
  kernel.foldlM (fun nm k => do
    let m ← rd magnitude k.2.1
    let o ← rd nm k.2.2
    wr nm k.2.2 (F.add o (F.mul m k.1))) (List.replicate nNote (F.lit 0))

/-- The number of rounds of the loop over `iTone` (NNLSBase.cpp:497): `round(256*0.62/3)*3+1` is 160, and the step
is 3. -/
def tones : Nat := 54

/-- The tuning estimates (NNLSBase.cpp:493-504); the frame counter has been increased. -/
def updateTunings (F : Fns D) (nm : List D) (p : Base D T) : Run (Base D T) := do
  let oneOverN := F.div F.one (F.lit p.frameCount)
  let mean ← loop (fun i mean => do
    let x ← rd mean i
    wr mean i (F.mul x (F.mul (F.lit (p.frameCount - 1 : Nat)) oneOverN))) nBPS p.meanTunings
  let r ← loop (fun t (r : List D × List D) => do
    let iTone := nBPS * t
    let mean ← loop (fun i mean => do
      let x ← rd mean i
      let v ← rd nm (iTone + i : Nat)
      wr mean i (F.add x (F.mul v oneOverN))) nBPS r.1
    let loc ← loop (fun i loc => do
      let x ← rd loc i
      let v ← rd nm (iTone + i : Nat)
      wr loc i (F.add (F.mul x (F.lit 0.997)) (F.mul v (F.sub F.one (F.lit 0.997))))) nBPS r.2
    pure (mean, loc)) tones (mean, p.localTunings)
  pure { p with meanTunings := r.1, localTunings := r.2 }

/-- `atan2(imag, real) / (2 π)` of the three sums weighted with the third roots of unity (NNLSBase.cpp:510-517,
NNLSChroma.cpp:231-238). -/
def normalisedTuning (F : Fns D) (p : Base D T) (sums : List D) : Run D := do
  let r ← loop (fun i (r : D × D) => do
    let m ← rd sums i
    let c ← rd p.cosvalues i
    let s ← rd p.sinvalues i
    pure (F.add r.1 (F.mul m c), F.add r.2 (F.mul m s))) nBPS (F.lit 0, F.lit 0)
  pure (F.div (F.atan2 r.2 r.1) (F.mul (F.lit 2) F.pi))

/-- `baseProcess` (NNLSBase.cpp:441-532). -/
def baseProcess (F : Fns D) (fbuf : List D) (timestamp : T) (p : Base D T) : Run (Base D T) := do
  let p := { p with frameCount := p.frameCount + 1 }
  let r ← magnitudes F p fbuf
  let magnitude ← applyRollon F p r.2.2 r.1
  let magnitude ← silence F p r.2.1 magnitude
  let nm ← mapNotes F p.kernel magnitude
  let p ← updateTunings F nm p
  let t ← normalisedTuning F p p.localTunings
  pure { p with localTuning := p.localTuning ++ [t], logSpectrum := p.logSpectrum ++ [(timestamp, nm)] }

/-! ### NNLSChroma.cpp -/

/-- Linear interpolation of the inner bins (NNLSChroma.cpp:262-277). -/
def tuneFrame (F : Fns D) (intShift : Int) (floatShift : D) (f1 : List D) : Run (List D) := do
  let f2 ← loop (fun t f2 => do
    let k : Int := t + 2
    let x ← rd f1 (k + intShift)
    let y ← rd f1 (k + intShift + 1)
    pure (f2 ++ [F.add (F.mul x (F.sub F.one floatShift)) (F.mul y floatShift)])) (f1.length - 3 - 2)
    [F.lit 0, F.lit 0]
  pure (f2 ++ [F.lit 0, F.lit 0, F.lit 0])

/-- Subtraction of the running mean and division by the running standard deviation (NNLSChroma.cpp:279-296); the
second component tells whether the message about a negative value was printed. -/
def whitenFrame (F : Fns D) (hw : List D) (whitening : D) (f2 : List D) : Run (List D × Bool) := do
  let mean ← specialConvolution F f2 hw
  let sq ← loop (fun i sq => do
    let x ← rd f2 i
    let m ← rd mean i
    pure (sq ++ [F.mul (F.sub x m) (F.sub x m)])) nNote []
  let std ← specialConvolution F sq hw
  loop (fun i (r : List D × Bool) => do
    let v ← rd std i
    let v := F.sqrt v
    let f2 ← (if F.lt (F.lit 0) v then do
        let x ← rd r.1 i
        let m ← rd mean i
        wr r.1 i (if F.lt (F.lit 0) (F.sub x m) then F.div (F.sub x m) (F.pow v whitening) else F.lit 0)
      else pure r.1)
    let x ← rd f2 i
    pure (f2, r.2 || F.lt x (F.lit 0))) nNote (f2, false)

/-- The shift of one frame (NNLSChroma.cpp:239-240, 265-268). -/
def shiftOf (F : Fns D) (tuning : D) : Int × D :=
  let intShift := F.floor (F.mul tuning (F.lit 3))
  (intShift, F.sub (F.mul tuning (F.lit 3)) (F.lit intShift))

/-- The first loop over the frames (NNLSChroma.cpp:257-299): the tuned spectra. -/
def tuneAll (F : Fns D) (p : Base D T) (tuning : D) : Run (List (T × List D) × Bool) :=
  p.logSpectrum.zipIdx.foldlM (fun r fr => do
    let shift ← (if p.params.tuneLocal then do
        let t ← rd p.localTuning fr.2
        pure (shiftOf F t)
      else pure (shiftOf F tuning))
    let f2 ← tuneFrame F shift.1 shift.2 fr.1.2
    let w ← whitenFrame F p.hw p.params.whitening f2
    pure (r.1 ++ [(fr.1.1, w.1)], r.2 || w.2)) ([], false)

/-- The semitone spectrum and the two chroma vectors of a frame. -/
structure Notes (D : Type) where
  semitones : List D
  chroma : List D
  basschroma : List D

/-- `chroma[iSemitone % 12] += val * treblewindow[iSemitone]` and the same for the bass
(NNLSChroma.cpp:366-367, 404-405). -/
def addNote (F : Fns D) (iSemitone : Nat) (val : D) (r : Notes D) : Run (Notes D) := do
  let t ← rd treblewindow iSemitone
  let c ← rd r.chroma (iSemitone % 12 : Nat)
  let chroma ← wr r.chroma (iSemitone % 12 : Nat) (F.add c (F.mul val (F.lit t)))
  let t ← rd basswindow iSemitone
  let c ← rd r.basschroma (iSemitone % 12 : Nat)
  let bass ← wr r.basschroma (iSemitone % 12 : Nat) (F.add c (F.mul val (F.lit t)))
  pure { r with chroma := chroma, basschroma := bass }

/-- The number of rounds of `for (iNote = nBPS/2 + 2; iNote < nNote - nBPS/2; iNote += nBPS)`
(NNLSChroma.cpp:360, 377). -/
def noteRounds : Nat := (nNote - nBPS / 2 - (nBPS / 2 + 2) + (nBPS - 1)) / nBPS

/-- The centre bin of round `t` of that loop. -/
def centre (t : Nat) : Nat := nBPS / 2 + 2 + nBPS * t

/-- The plain mapping (NNLSChroma.cpp:360-369). -/
def plainNotes (F : Fns D) (b : List D) (r : Notes D) : Run (Notes D) :=
  loop (fun t r => do
    let currval ← loop (fun i v => do
      let x ← rd b ((centre t : Int) + ((i : Int) - 1))
      pure (F.add v (F.mul x (F.sub F.one (F.abs (F.div (F.mul (F.lit ((i : Rat) - 1)) F.one) (F.lit 2)))))))
      nBPS (F.lit 0)
    addNote F t currval { r with semitones := r.semitones ++ [currval] }) noteRounds r

/-- The notes with anything in their three bins (NNLSChroma.cpp:374-385): also fills the semitone spectrum with
zeros. -/
def significant (F : Fns D) (b : List D) (semitones : List D) : Run (List Nat × List D) :=
  loop (fun t r => do
    let currval ← loop (fun i v => do
      let x ← rd b ((centre t : Int) + ((i : Int) - 1))
      pure (F.add v x)) nBPS (F.lit 0)
    pure (if F.lt (F.lit 0) currval then r.1 ++ [t] else r.1, r.2 ++ [F.lit 0])) noteRounds ([], semitones)

/-- The dictionary restricted to those notes (NNLSChroma.cpp:391-398). -/
def currDict (F : Fns D) (dict : List D) (signif : List Nat) : Run (List D) := do
  let out := List.replicate (nNote * signif.length) (F.lit 0)
  signif.zipIdx.foldlM (fun out s =>
    loop (fun iBin out => do
      let x ← rd dict (s.1 * nNote + iBin : Nat)
      wr out (s.2 * nNote + iBin : Nat) (F.mul F.one x)) nNote out) out

/-- What `nnls` is handed (NNLSChroma.cpp:372-373, 386-399): the subscripts of nnls.c start at one; `junk` is what
the uninitialised arrays contain. -/
def problem (F : Fns D) (cd b : List D) (junk : Nnls.St D) : Nnls.St D :=
  { junk with
    a := fun l j => cd.getD ((j - 1) * nNote + (l - 1)) (F.lit 0)
    b := fun l => b.getD (l - 1) (F.lit 0)
    x := fun j => if j = 1 then junk.x 1 else F.one }

/-- The outcome of `nnls` as an outcome here. -/
def ofNnls {α : Type} : Nnls.Out α → Run α
  | .ok a => .ok a
  | .ub => .ub
  | .stuck => .ub

/-- The approximate transcription (NNLSChroma.cpp:372-406). -/
def nnlsNotes (F : Fns D) (dict : List D) (junk : Nnls.St D) (b : List D) (r : Notes D) : Run (Notes D) := do
  let sig ← significant F b r.semitones
  let cd ← currDict F dict sig.1
  -- the arrays `x`, `w`, `zz` and `indx` have 1084 entries
  if nNote ≤ 84 + 1000 ∧ sig.1.length ≤ 84 + 1000 ∧ b.length = nNote then do
    let ret ← ofNnls (Nnls.call F.toOps nNote sig.1.length (problem F cd b junk) junk.up)
    sig.1.zipIdx.foldlM (fun r s => do
      let x := ret.x (s.2 + 1)
      let f3 ← wr r.semitones s.1 x
      addNote F s.1 x { r with semitones := f3 }) { r with semitones := sig.2 }
  else .ub

/-- The semitone spectrum and the chroma vectors of one tuned frame (NNLSChroma.cpp:338-410). -/
def notesOf (F : Fns D) (p : Base D T) (junk : Nnls.St D) (f2 : List D) : Run (Notes D) := do
  let r ← loop (fun i (r : List D × Bool) => do
    let x ← rd f2 i
    pure (r.1 ++ [x], r.2 || F.lt (F.lit 0) x)) nNote ([], false)
  let start : Notes D := { semitones := [], chroma := List.replicate 12 (F.lit 0), basschroma := List.replicate 12 (F.lit 0) }
  if r.2 then
    if F.eq p.params.useNNLS (F.lit 0) then plainNotes F r.1 start else nnlsNotes F p.dict junk r.1 start
  else pure { start with semitones := List.replicate 84 (F.lit 0) }

/-- `*max_element(v.begin(), v.end())` of a vector that is not empty. -/
def maxElement (F : Fns D) (v : List D) : D :=
  v.foldl (fun m x => if F.lt m x then x else m) (v.headD (F.lit 0))

/-- `s = 0; for (x : v) s += g(x)`. -/
def sumOf (F : Fns D) (g : D → D) (v : List D) : D := v.foldl (fun s x => F.add s (g x)) (F.lit 0)

/-- The norms (NNLSChroma.cpp:419-453). -/
def norms (F : Fns D) (mode : Int) (f4 f5 f6 : List D) : D × D × D :=
  if mode = 1 then
    let a := maxElement F f4
    let b := maxElement F f5
    (a, b, if F.lt a b then b else a)
  else if mode = 2 then (sumOf F id f4, sumOf F id f5, sumOf F id f6)
  else if mode = 3 then
    (F.sqrt (sumOf F (fun x => F.pow x (F.lit 2)) f4), F.sqrt (sumOf F (fun x => F.pow x (F.lit 2)) f5),
      F.sqrt (sumOf F (fun x => F.pow x (F.lit 2)) f6))
  else (F.lit 0, F.lit 0, F.lit 0)

/-- Division by a norm that is positive (NNLSChroma.cpp:454-468). -/
def scaleBy (F : Fns D) (norm : D) (v : List D) : List D :=
  if F.lt (F.lit 0) norm then v.map (fun x => F.div x norm) else v

/-- The treble, the bass and the stacked chroma of a frame (NNLSChroma.cpp:413-469); `floor` is the conversion to
`int`, the value being positive. -/
def chromas (F : Fns D) (doNormalize : D) (r : Notes D) : List D × List D × List D :=
  let f4 := r.chroma
  let f5 := r.basschroma
  let f6 := r.basschroma ++ r.chroma
  if F.lt (F.lit 0) doNormalize then
    let n := norms F (F.floor doNormalize) f4 f5 f6
    (scaleBy F n.1 f4, scaleBy F n.2.1 f5, scaleBy F n.2.2 f6)
  else (f4, f5, f6)

/-- What `getRemainingFeatures` returns, by output. -/
structure Features (D T : Type) where
  tunedlogfreqspec : List (T × List D)
  semitonespectrum : List (T × List D)
  chroma : List (T × List D)
  basschroma : List (T × List D)
  bothchroma : List (T × List D)
  /-- the message about a negative value was printed -/
  complained : Bool

/-- `getRemainingFeatures` (NNLSChroma.cpp:219-481); `junk` is what the uninitialised arrays contain, frame by
frame. -/
def getRemainingFeatures (F : Fns D) (p : Base D T) (junk : Nat → Nnls.St D) : Run (Features D T) :=
  if p.logSpectrum.length = 0 then
    pure {
      tunedlogfreqspec := []
      semitonespectrum := []
      chroma := []
      basschroma := []
      bothchroma := []
      complained := false }
  else do
    let tuning ← normalisedTuning F p p.meanTunings
    let tuned ← tuneAll F p tuning
    tuned.1.zipIdx.foldlM (fun (r : Features D T) fr => do
      let n ← notesOf F p (junk fr.2) fr.1.2
      let c := chromas F p.params.doNormalizeChroma n
      pure { r with
        semitonespectrum := r.semitonespectrum ++ [(fr.1.1, n.semitones)]
        chroma := r.chroma ++ [(fr.1.1, c.1)]
        basschroma := r.basschroma ++ [(fr.1.1, c.2.1)]
        bothchroma := r.bothchroma ++ [(fr.1.1, c.2.2)] })
      { tunedlogfreqspec := tuned.1
        semitonespectrum := []
        chroma := []
        basschroma := []
        bothchroma := []
        complained := tuned.2 }

/-- A run of the plug-in over the blocks of a recording (NNLSChroma.cpp:186-217): set up, process every block,
collect. -/
def runAll (F : Fns D) (fs : Int) (blockSize : Nat) (params : Params D) (blocks : List (T × List D))
    (junk : Nat → Nnls.St D) : Run (Option (Features D T)) := do
  let r ← initialise F fs 1 blockSize (Base.new F params)
  if r.1 then do
    let p ← blocks.foldlM (fun p bl => baseProcess F bl.2 bl.1 p) r.2
    let f ← getRemainingFeatures F p junk
    pure (some f)
  else pure none

end JKD.Chroma
