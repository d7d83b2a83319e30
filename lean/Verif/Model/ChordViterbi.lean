import Verif.Cpp
/-
Model of `ViterbiPath` (nnls-chroma-1.1/viterbi.cpp), the chord smoother of the bundled NNLS Chroma plug-in.

Simplifications: `delta`, a flat buffer of `nFrame * nState` doubles supplied by the caller, is a list of rows;
that the buffer is big enough is the caller's duty.  The `cerr` message is the Boolean in the result.
-/

namespace JKD.ChordViterbi

/-- The arithmetic on `double` that the function uses. -/
structure Ops (D : Type) where
  zero : D
  /-- conversion from `int` -/
  ofNat : Nat → D
  add : D → D → D
  mul : D → D → D
  div : D → D → D
  gt : D → D → Bool

variable {D : Type}

/-- `v[i]` with an `int` index: out of range is undefined behaviour. -/
def at' {α : Type} (v : List α) (i : Int) : Res α := if 0 ≤ i then Res.read v[i.toNat]? else .ub

/-- The inner loop of the forward step (viterbi.cpp:38-47). -/
def best (O : Ops D) (nState : Nat) (trans : List (List D)) (delta : List D) (j : Nat) : Res (Int × D) :=
  forM (List.range nState) ((nState : Int) - 1, O.zero) (fun b i => do
    let d ← at' delta i
    let row ← at' trans i
    let t ← at' row j
    let cur := O.mul d t
    return if O.gt cur b.2 then ((i : Int), cur) else b)

/-- One frame of the forward step (viterbi.cpp:34-65): the scaled row of `delta`, the row of `psi`, the
scale. -/
def frame (O : Ops D) (nState : Nat) (trans : List (List D)) (delta : List D) (obsRow : List D) :
    Res (List D × List Int × D) := do
  let r ← forM (List.range nState) (([] : List D), ([] : List Int), O.zero) (fun s (j : Nat) => do
    let o ← at' obsRow j
    let b ← if O.gt o O.zero then best O nState trans delta j else Res.ok ((nState : Int) - 1, O.zero)
    let d := O.mul b.2 o
    return (s.1 ++ [d], s.2.1 ++ [b.1], O.add s.2.2 d))
  if O.gt r.2.2 O.zero then
    return (r.1.map (fun d => O.div d r.2.2), r.2.1, O.div (O.ofNat 1) r.2.2)
  else
    return (List.replicate nState (O.div (O.ofNat 1) (O.ofNat nState)), r.2.1, O.ofNat 1)

/-- The first frame (viterbi.cpp:18-27).  There is no test for a zero sum here. -/
def firstFrame (O : Ops D) (nState : Nat) (init : List D) (obs : List (List D)) :
    Res (List D × D) := do
  let r ← forM (List.range nState) (([] : List D), O.zero) (fun s (i : Nat) => do
    let a ← at' init i
    let o0 ← at' obs 0
    let o ← at' o0 i
    let d := O.mul a o
    return (s.1 ++ [d], O.add s.2 d))
  return (r.1.map (fun d => O.div d r.2), O.div (O.ofNat 1) r.2)

/-- The start of the backward step (viterbi.cpp:69-76). -/
def last (O : Ops D) (nState : Nat) (delta : List D) : Res Int := do
  let b ← forM (List.range nState) ((nState : Int) - 1, O.zero) (fun b i => do
    let cur ← at' delta i
    return if O.gt cur b.2 then ((i : Int), cur) else b)
  return b.1

structure Result (D : Type) where
  path : List Int
  delta : List (List D)
  scale : List D
  /-- the message "matrix sizes inconsistent" was printed -/
  warned : Bool

/-- The consistency check (viterbi.cpp:11-13), with the short-circuit of `||`. -/
def inconsistent (nState : Nat) (trans obs : List (List D)) : Res Bool := do
  let t0 ← at' trans 0
  if t0.length ≠ nState then return true
  else if trans.length ≠ nState then return true
  else
    let o0 ← at' obs 0
    return o0.length ≠ nState

/-- `ViterbiPath` (viterbi.cpp:5-84). -/
def viterbiPath (O : Ops D) (init : List D) (trans obs : List (List D)) : Res (Result D) := do
  let nState := init.length
  let warned ← inconsistent nState trans obs
  let f ← firstFrame O nState init obs
  let st ← forM obs.tail ([f.1], [List.replicate nState (0 : Int)], [f.2], f.1) (fun s obsRow => do
    let r ← frame O nState trans s.2.2.2 obsRow
    return (s.1 ++ [r.1], s.2.1 ++ [r.2.1], s.2.2.1 ++ [r.2.2], r.1))
  let l ← last O nState st.2.2.2
  let path ← forM st.2.1.tail.reverse [l] (fun path row => do
    let h ← at' path 0
    let p ← at' row h
    return p :: path)
  return { path := path, delta := st.1, scale := st.2.2.1, warned := warned }

end JKD.ChordViterbi
