/-
Model of the stand-alone example `forward_viterbi` (src/ViterbiSTL.cc).

Simplifications: `std::map<std::string, double>` is a total function (`operator[]` on a missing key gives 0.0;
the maps are parameters by value, so the insertion is never seen); strings are an arbitrary type of names with
decidable equality; doubles are a carrier `K` with the three operations the function uses.  The printing of
the result is left out: the model returns the `final_tracker` that is printed.
-/

namespace JKD.STL

/-- The arithmetic the function uses: `0.0`, `+`, `*`, `>`. -/
structure Arith (K : Type) where
  zero : K
  add : K → K → K
  mul : K → K → K
  gt : K → K → Bool

/-- `class Tracking` (src/ViterbiSTL.cc:42-58). -/
structure Tracking (σ K : Type) where
  prob : K
  v_path : List σ
  v_prob : K

variable {σ ω K : Type}

/-- `Tracking::Tracking()` (src/ViterbiSTL.cc:48-51). -/
def Tracking.new (A : Arith K) : Tracking σ K := { prob := A.zero, v_path := [], v_prob := A.zero }

/-- `T[key] = value` on a map read as a total function. -/
def put {V : Type} [DecidableEq σ] (T : σ → V) (k : σ) (v : V) : σ → V := fun s => if s = k then v else T s

/-- The first loop (src/ViterbiSTL.cc:133-138). -/
def start [DecidableEq σ] (A : Arith K) (states : List σ) (start_p : σ → K) : σ → Tracking σ K :=
  states.foldl (fun T state => put T state
    { prob := start_p state, v_path := [state], v_prob := start_p state }) (fun _ => Tracking.new A)

/-- The body of the innermost loop (src/ViterbiSTL.cc:148-164). -/
def visit (A : Arith K) (trans_p : σ → σ → K) (emit_p : σ → ω → K) (T : σ → Tracking σ K) (output : ω)
    (next_state : σ) (next_tracker : Tracking σ K) (source_state : σ) : Tracking σ K :=
  let source := T source_state
  let p := A.mul (emit_p source_state output) (trans_p source_state next_state)
  let sprob := A.mul source.prob p
  let svprob := A.mul source.v_prob p
  let next_tracker := { next_tracker with prob := A.add next_tracker.prob sprob }
  if A.gt svprob next_tracker.v_prob then
    { next_tracker with v_path := source.v_path ++ [next_state], v_prob := svprob }
  else next_tracker

/-- One round of the loop over the observations (src/ViterbiSTL.cc:140-169). -/
def round [DecidableEq σ] (A : Arith K) (states : List σ) (trans_p : σ → σ → K) (emit_p : σ → ω → K)
    (T : σ → Tracking σ K) (output : ω) : σ → Tracking σ K :=
  states.foldl (fun U next_state => put U next_state
    (states.foldl (visit A trans_p emit_p T output next_state) (Tracking.new A))) (fun _ => Tracking.new A)

/-- The body of the last loop (src/ViterbiSTL.cc:173-181). -/
def collect (A : Arith K) (T : σ → Tracking σ K) (final : Tracking σ K) (state : σ) : Tracking σ K :=
  let tracker := T state
  let final := { final with prob := A.add final.prob tracker.prob }
  if A.gt tracker.v_prob final.v_prob then
    { final with v_path := tracker.v_path, v_prob := tracker.v_prob }
  else final

/-- `forward_viterbi` (src/ViterbiSTL.cc:126-192), up to the printing. -/
def forwardViterbi [DecidableEq σ] (A : Arith K) (obs : List ω) (states : List σ) (start_p : σ → K)
    (trans_p : σ → σ → K) (emit_p : σ → ω → K) : Tracking σ K :=
  let T := obs.foldl (round A states trans_p emit_p) (start A states start_p)
  states.foldl (collect A T) (Tracking.new A)

end JKD.STL
