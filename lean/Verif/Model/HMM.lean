import Verif.Model.FPU
import Verif.Model.Key
import Verif.Model.PitchClass
/-
Model of `HiddenMarkovModel` (include/hiddenmarkovmodel.h, src/hiddenmarkovmodel.cc).
-/

namespace JKD

/-- `Status` constants used here (include/status.h:35-45). -/
def statusHmmUninitialized : Int := 7
def statusHmmViterbiReady : Int := 8

/-- `ViterbiNode` (include/hiddenmarkovmodel.h:46-52). -/
structure Node (D : Type) where
  prob : D
  prev : Int

/-- A default-constructed `ViterbiNode` (include/hiddenmarkovmodel.h:49-51). -/
def Node.init {D : Type} (F : FPU D) : Node D := ⟨F.negInf, -1⟩

/-- A `HiddenMarkovModel` object (include/hiddenmarkovmodel.h:85-95).  `maxProb` is `none` until it
has been assigned (the member has no initialiser).  Simplification: `operator[]` on a missing entry of
the three tables also inserts a zero; reads are modelled (`rd`), the insertion is not, as no modelled
method can tell an inserted zero from a missing entry. -/
structure HMM (D : Type) where
  status : Int
  obs : List Int
  states : List Int
  init : IMap D
  trans : IMap (IMap D)
  emis : IMap (IMap D)
  maxProb : Option D
  probVec : List D
  keySeq : List Key

/-- `m[k]` for a map to `double`: a missing entry reads as 0.0. -/
def rd {D : Type} (F : FPU D) (m : IMap D) (k : Int) : D := (m.get? k).getD F.zero

/-- `m[a][b]`: a missing row reads as an empty row. -/
def rd2 {D : Type} (F : FPU D) (m : IMap (IMap D)) (a b : Int) : D := rd F ((m.get? a).getD []) b

namespace HMM

variable {D : Type}

/-- Reading the ints of a vector of keys (src/hiddenmarkovmodel.cc:47-50, 93-96, 98-101). -/
def keyInts (l : List Key) : Res (List Int) :=
  forM l [] (fun acc k => do let n ← k.getInt; return acc ++ [n])

/-- Reading the ints of a vector of pitch classes (src/hiddenmarkovmodel.cc:42-45). -/
def pcInts (l : List PitchClass) : Res (List Int) :=
  forM l [] (fun acc p => do let n ← p.getInt; return acc ++ [n])

/-- Copying a `std::map` entry by entry (src/hiddenmarkovmodel.cc:52-58). -/
def copy1 (m : IMap D) : IMap D := m.foldl (fun acc p => acc.set p.1 p.2) []

/-- Copying a nested `std::map` entry by entry (src/hiddenmarkovmodel.cc:60-70, 72-82):
`m_x[from][to] = v` for every entry. -/
def copy2 (m : IMap (IMap D)) : IMap (IMap D) :=
  m.foldl (fun acc p =>
    p.2.foldl (fun acc q => acc.set p.1 (((acc.get? p.1).getD []).set q.1 q.2)) acc) []

/-- The common part of the two constructors, with observations and states already read
(src/hiddenmarkovmodel.cc:51-84, 102-135).  The map arguments are keyed by the ints of their keys. -/
def build (obs states : List Int) (init : IMap D) (trans emis : IMap (IMap D)) : HMM D :=
  { status := statusHmmUninitialized, obs := obs, states := states, init := copy1 init
    trans := copy2 trans, emis := copy2 emis, maxProb := none, probVec := [], keySeq := [] }

/-- `HiddenMarkovModel(std::vector<PitchClass>, ...)` (src/hiddenmarkovmodel.cc:35-84). -/
def ofPitchClasses (observations : List PitchClass) (states : List Key) (init : IMap D)
    (trans emis : IMap (IMap D)) : Res (HMM D) := do
  let os ← pcInts observations
  let ss ← keyInts states
  return build os ss init trans emis

/-- `HiddenMarkovModel(std::vector<Key>, ...)` (src/hiddenmarkovmodel.cc:86-135). -/
def ofKeys (observations : List Key) (states : List Key) (init : IMap D)
    (trans emis : IMap (IMap D)) : Res (HMM D) := do
  let os ← keyInts observations
  let ss ← keyInts states
  return build os ss init trans emis

/-- The first layer (src/hiddenmarkovmodel.cc:189-196).  `currentNode.previousState` keeps its default
-1 here. -/
def firstLayer (F : FPU D) (h : HMM D) (o : Int) : IMap (Node D) :=
  h.states.foldl (fun L s => L.set s ⟨F.log10 (F.mul (rd F h.init s) (rd2 F h.emis s o)), -1⟩) []

/-- The inner loop choosing the best predecessor (src/hiddenmarkovmodel.cc:203-215). -/
def nextNode (F : FPU D) (h : HMM D) (cur : IMap (Node D)) (o s' : Int) : Node D :=
  h.states.foldl (fun n s =>
    let c := (cur.get? s).getD (Node.init F)
    let t := F.add c.prob (F.log10 (F.mul (rd2 F h.trans s s') (rd2 F h.emis s' o)))
    if F.lt n.prob t then ⟨t, s⟩ else n) (Node.init F)

/-- One more layer (src/hiddenmarkovmodel.cc:201-219). -/
def nextLayer (F : FPU D) (h : HMM D) (cur : IMap (Node D)) (o : Int) : IMap (Node D) :=
  h.states.foldl (fun L s' => L.set s' (nextNode F h cur o s')) []

/-- The forward pass (src/hiddenmarkovmodel.cc:198-221).  `m_viterbi` is kept with its `back()` as the
head of the list. -/
def layers (F : FPU D) (h : HMM D) (os : List Int) (cur : IMap (Node D)) (vit : List (IMap (Node D))) :
    List (IMap (Node D)) :=
  match os with
  | [] => vit
  | o :: os =>
    let next := nextLayer F h cur o
    layers F h os next (next :: vit)

/-- The variables of the backward pass. -/
structure BT (D : Type) where
  last : Int
  max : D
  probs : List D
  keys : List Key

/-- `probabilities[k] = v`: out of bounds is undefined behaviour. -/
def setAt (l : List D) (k : Int) (v : D) : Res (List D) :=
  if 0 ≤ k ∧ k < l.length then .ok (l.set k.toNat v) else .ub

/-- The scan of the last layer (src/hiddenmarkovmodel.cc:227-236); the argument is the layer in the
iteration order of the `unordered_map`. -/
def scan (F : FPU D) (L : List (Int × Node D)) (s : BT D) : Res (BT D) :=
  forM L s (fun s p => do
    let probs ← setAt s.probs p.1 p.2.prob
    if F.lt s.max p.2.prob then
      return { s with probs := probs, max := p.2.prob, last := p.1 }
    else
      return { s with probs := probs })

/-- The backward pass (src/hiddenmarkovmodel.cc:225-241): one iteration per layer, popping it.
`iter L` is the iteration order of the hash map `L`. -/
def backtrack (F : FPU D) (iter : IMap (Node D) → List (Int × Node D)) :
    List (IMap (Node D)) → BT D → Res (BT D)
  | [], s => .ok s
  | L :: vit, s => do
    let s ← if s.last = -1 then scan F (iter L) s else .ok s
    let s := { s with keys := s.keys ++ [Key.ofInt s.last] }
    match L.get? s.last with
    | none => .throw .outOfRange
    | some n => backtrack F iter vit { s with last := n.prev }

/-- `runViterbi` (src/hiddenmarkovmodel.cc:183-248).  With no observation, `m_observations[0]` /
`std::next(m_observations.begin())` is undefined. -/
def runViterbi (F : FPU D) (iter : IMap (Node D) → List (Int × Node D)) (h : HMM D) : Res (HMM D) :=
  match h.obs with
  | [] => .ub
  | o :: os => do
    let first := firstLayer F h o
    let vit := layers F h os first [first]
    let s ← backtrack F iter vit
      { last := -1, max := F.negInf, probs := List.replicate 24 F.zero, keys := h.keySeq }
    return { h with
      keySeq := s.keys.reverse, maxProb := some s.max, probVec := s.probs
      status := statusHmmViterbiReady }

/-- `getKeySequence` (src/hiddenmarkovmodel.cc:250-252). -/
def getKeySequence (h : HMM D) : List Key := h.keySeq

/-- `getProbabilityVector` (src/hiddenmarkovmodel.cc:254-256). -/
def getProbabilityVector (h : HMM D) : List D := h.probVec

/-- `getMaximumProbability` (src/hiddenmarkovmodel.cc:258-260): indeterminate before a run. -/
def getMaximumProbability (h : HMM D) : Res D := Res.read h.maxProb

/-- `getStatus` (src/hiddenmarkovmodel.cc:262-264). -/
def getStatus (h : HMM D) : Int := h.status

end HMM
end JKD
