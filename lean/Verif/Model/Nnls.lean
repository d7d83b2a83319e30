/-
Model of the non-negative least squares solver of the audio front end (nnls-chroma-1.1/nnls.c): minimise
`‖A x - b‖` over `x ≥ 0`.

The code is written with the one-based subscripts it itself uses after its "parameter adjustments"
(nnls.c:228-238).  Simplifications:

* arrays are total functions of their subscripts, the matrix `a` a function of row and column (the code
  addresses `a[l + j * a_dim1]`; the two agree because every caller passes `mda = m`); a subscript that is taken
  from memory or counted by the algorithm is checked, and one outside its array is the outcome `ub`;
* `float` is an arbitrary carrier `D` with the operations the code performs; an expression that C evaluates in
  `double` and stores in a `float` is one operation of the carrier after the other;
* `h12` is modelled for the element and vector strides used here (`iue = ice = 1`, `ncv ≤ 1`);
* the contents of the caller's work arrays and of the uninitialised local `up` are parameters;
* the jumps of the code are loops with a counter each, large enough for the loop to end by itself:  the outcome
  `stuck` means that a counter was too small, and the termination theorem says that it never occurs.
-/

namespace JKD.Nnls

/-- The operations on `float` performed by nnls.c. -/
structure Ops (D : Type) where
  zero : D
  one : D
  two : D
  /-- `.01` -/
  hundredth : D
  add : D → D → D
  sub : D → D → D
  mul : D → D → D
  div : D → D → D
  neg : D → D
  sqrt : D → D
  lt : D → D → Bool
  le : D → D → Bool
  eq : D → D → Bool

/-- Outcome of a piece of the code. -/
inductive Out (α : Type) where
  | ok (a : α)
  /-- a subscript outside its array, or a read of an unassigned variable -/
  | ub
  /-- a loop counter of the model was too small -/
  | stuck

/-- Sequencing. -/
def Out.bind {α β : Type} : Out α → (α → Out β) → Out β
  | .ok a, f => f a
  | .ub, _ => .ub
  | .stuck, _ => .stuck

/-- `k` rounds of `for (i = lo; ; ++i) s = body i s`. -/
def forN {S : Type} (body : Nat → S → S) (lo : Nat) : Nat → S → S
  | 0, s => s
  | k + 1, s => body (lo + k) (forN body lo k s)

/-- `for (i = lo; i <= hi; ++i) s = body i s`. -/
def forUp {S : Type} (lo hi : Nat) (body : Nat → S → S) (s : S) : S := forN body lo (hi + 1 - lo) s

/-- `f[i] = v`. -/
def set {V : Type} (f : Nat → V) (i : Nat) (v : V) : Nat → V := fun k => if k = i then v else f k

variable {D : Type}

/-- `nnls_abs` (nnls.c:17). -/
def Ops.abs (O : Ops D) (x : D) : D := if O.le O.zero x then x else O.neg x

/-- `nnls_max` (nnls.c:16). -/
def Ops.max (O : Ops D) (a b : D) : D := if O.le b a then a else b

/-- `d_sign` (nnls.c:19-24). -/
def Ops.sign (O : Ops D) (a b : D) : D :=
  let x := if O.le O.zero a then a else O.neg a
  if O.le O.zero b then x else O.neg x

/-- `s = init; for (l = lo; l <= hi; ++l) s += f(l);` -/
def Ops.sum (O : Ops D) (init : D) (lo hi : Nat) (f : Nat → D) : D :=
  forUp lo hi (fun l s => O.add s (f l)) init

/-- `g1` (nnls.c:33-66): the cosine, the sine and the length; `sig` is stored last, so it may be the place `a`
was read from. -/
def g1 (O : Ops D) (a b : D) : D × D × D :=
  if O.lt (O.abs b) (O.abs a) then
    let xr := O.div b a
    let yr := O.sqrt (O.add (O.mul xr xr) O.one)
    let d := O.div O.one yr
    let cterm := O.sign d a
    (cterm, O.mul cterm xr, O.mul (O.abs a) yr)
  else if O.eq b O.zero then (O.zero, O.one, O.zero)
  else
    let xr := O.div a b
    let yr := O.sqrt (O.add (O.mul xr xr) O.one)
    let d := O.div O.one yr
    let sterm := O.sign d b
    (O.mul sterm xr, sterm, O.mul (O.abs b) yr)

/-- `h12` with `mode = 1`, `ncv = 0` (nnls.c:96-141): the construction of the transformation; `u` is the column,
`up` the extra component, which keeps its old value when nothing is constructed. -/
def h12Construct (O : Ops D) (lpivot l1 m : Nat) (u : Nat → D) (up : D) : (Nat → D) × D :=
  if lpivot = 0 ∨ l1 ≤ lpivot ∨ m < l1 then (u, up)
  else
    let cl := forUp l1 m (fun j cl => O.max (O.abs (u j)) cl) (O.abs (u lpivot))
    if O.le cl O.zero then (u, up)
    else
      let clinv := O.div O.one cl
      let d := O.mul (u lpivot) clinv
      let sm := O.sum (O.mul d d) l1 m (fun j => O.mul (O.mul (u j) clinv) (O.mul (u j) clinv))
      let cl := O.mul cl (O.sqrt sm)
      let cl := if O.le (u lpivot) O.zero then cl else O.neg cl
      (set u lpivot cl, O.sub (u lpivot) cl)

/-- `h12` with `mode = 2`, `ncv = 1` (nnls.c:96-100, 145-197): the application of the transformation to the
vector `c`. -/
def h12Apply (O : Ops D) (lpivot l1 m : Nat) (u : Nat → D) (up : D) (c : Nat → D) : Nat → D :=
  if lpivot = 0 ∨ l1 ≤ lpivot ∨ m < l1 then c
  else if O.le (O.abs (u lpivot)) O.zero then c
  else
    let b := O.mul up (u lpivot)
    if O.le O.zero b then c
    else
      let b := O.div O.one b
      let sm := O.sum (O.mul (c lpivot) up) l1 m (fun i => O.mul (c i) (u i))
      if O.eq sm O.zero then c
      else
        let sm := O.mul sm b
        forUp l1 m (fun i c => set c i (O.add (c i) (O.mul sm (u i))))
          (set c lpivot (O.add (c lpivot) (O.mul sm up)))

/-- The memory of `nnls` (nnls.c:201-222). `iz2` is always `n` and `itmax` always `3 n`. -/
structure St (D : Type) where
  a : Nat → Nat → D
  b : Nat → D
  x : Nat → D
  w : Nat → D
  zz : Nat → D
  index : Nat → Nat
  iz1 : Nat
  nsetp : Nat
  npp1 : Nat
  iter : Nat
  mode : Nat
  up : D

/-- Column `j` of the matrix. -/
def St.col (s : St D) (j : Nat) : Nat → D := fun l => s.a l j

/-- The matrix with column `j` replaced. -/
def setCol (a : Nat → Nat → D) (j : Nat) (u : Nat → D) : Nat → Nat → D :=
  fun l k => if k = j then u l else a l k

/-- The subscripts `lo … hi` lie in `index`, and what is stored there are columns of `a`. -/
def colsOk (n : Nat) (index : Nat → Nat) (lo hi : Nat) : Bool :=
  decide (∀ q < hi + 1, lo ≤ q → 1 ≤ q ∧ q ≤ n ∧ 1 ≤ index q ∧ index q ≤ n)

/-- The initialisation of `index` and `x` (nnls.c:240-262); the caller's arrays are in `s`. -/
def start (O : Ops D) (n : Nat) (s : St D) : St D :=
  let s := forUp 1 n (fun i s => { s with x := set s.x i O.zero, index := set s.index i i }) s
  { s with iz1 := 1, nsetp := 0, npp1 := 1, iter := 0, mode := 1 }

/-- The components of the dual vector (nnls.c:272-286). -/
def dual (O : Ops D) (m n : Nat) (s : St D) : St D :=
  forUp s.iz1 n (fun iz s =>
    { s with w := set s.w (s.index iz) (O.sum O.zero s.npp1 m (fun l => O.mul (s.a l (s.index iz)) (s.b l))) }) s

/-- The search for the largest positive `w[j]` (nnls.c:288-299): `wmax` and, once assigned, `izmax`. -/
def findMax (O : Ops D) (n : Nat) (s : St D) : D × Option Nat :=
  forUp s.iz1 n (fun iz r => if O.lt r.1 (s.w (s.index iz)) then (s.w (s.index iz), some iz) else r)
    (O.zero, none)

/-- The trial of column `j` (nnls.c:310-358): `.inl` when it is accepted, with `zz` holding the transformed
right-hand side, `.inr` when it is rejected, with `a` restored and `w[j] = 0`. -/
def trial (O : Ops D) (m : Nat) (s : St D) (j : Nat) : St D ⊕ St D :=
  let asave := s.a s.npp1 j
  let r := h12Construct O s.npp1 (s.npp1 + 1) m (s.col j) s.up
  let s := { s with a := setCol s.a j r.1, up := r.2 }
  let unorm := O.sqrt (if s.nsetp = 0 then O.zero
    else O.sum O.zero 1 s.nsetp (fun l => O.mul (s.a l j) (s.a l j)))
  let d2 := O.add unorm (O.mul (O.abs (s.a s.npp1 j)) O.hundredth)
  let reject (s : St D) : St D :=
    { s with a := setCol s.a j (set (s.col j) s.npp1 asave), w := set s.w j O.zero }
  if O.lt O.zero (O.sub d2 unorm) then
    let zz := forUp 1 m (fun l zz => set zz l (s.b l)) s.zz
    let zz := h12Apply O s.npp1 (s.npp1 + 1) m (s.col j) s.up zz
    let s := { s with zz := zz }
    let ztest := O.div (zz s.npp1) (s.a s.npp1 j)
    if O.lt O.zero ztest then .inl s else .inr (reject s)
  else .inr (reject s)

/-- Moving the column at position `iz` from the zero set to the positive set (nnls.c:366-399). -/
def accept (O : Ops D) (m n : Nat) (s : St D) (iz j : Nat) : St D :=
  let s := { s with b := forUp 1 m (fun l b => set b l (s.zz l)) s.b }
  let s := { s with index := set (set s.index iz (s.index s.iz1)) s.iz1 j }
  let s := { s with iz1 := s.iz1 + 1, nsetp := s.npp1, npp1 := s.npp1 + 1 }
  let s := forUp s.iz1 n (fun jz s =>
    { s with a := setCol s.a (s.index jz) (h12Apply O s.nsetp s.npp1 m (s.col j) s.up (s.col (s.index jz))) }) s
  let s := if s.nsetp ≠ m then
      forUp s.npp1 m (fun l s => { s with a := setCol s.a j (set (s.col j) l O.zero) }) s
    else s
  { s with w := set s.w j O.zero }

/-- The triangular solve (nnls.c:565-579), in place in `zz`. -/
def solve (O : Ops D) (s : St D) : St D :=
  { s with zz := (forUp 1 s.nsetp (fun l (r : (Nat → D) × Nat) =>
      let ip := s.nsetp + 1 - l
      let zz := if l ≠ 1 then
          forUp 1 ip (fun ii zz => set zz ii (O.sub (zz ii) (O.mul (s.a ii r.2) (zz (ip + 1))))) r.1
        else r.1
      let jj := s.index ip
      (set zz ip (O.div (zz ip) (s.a ip jj)), jj)) (s.zz, 0)).1 }

/-- The step length (nnls.c:421-434): `alpha` and, once assigned, `jj`. -/
def stepLength (O : Ops D) (s : St D) : D × Option Nat :=
  forUp 1 s.nsetp (fun ip r =>
    let l := s.index ip
    if O.le (s.zz ip) O.zero then
      let t := O.div (O.neg (s.x l)) (O.sub (s.zz ip) (s.x l))
      if O.lt t r.1 then (t, some ip) else r
    else r) (O.two, none)

/-- The interpolation (nnls.c:445-450). -/
def interpolate (O : Ops D) (s : St D) (alpha : D) : St D :=
  forUp 1 s.nsetp (fun ip s =>
    let l := s.index ip
    { s with x := set s.x l (O.add (s.x l) (O.mul alpha (O.sub (s.zz ip) (s.x l)))) }) s

/-- One round of the loop that restores the triangular form after a column has left (nnls.c:461-489). -/
def rotate (O : Ops D) (n : Nat) (j : Nat) (s : St D) : St D :=
  let ii := s.index j
  let s := { s with index := set s.index (j - 1) ii }
  let g := g1 O (s.a (j - 1) ii) (s.a j ii)
  let cc := g.1
  let ss := g.2.1
  let s := { s with a := setCol s.a ii (set (set (s.col ii) (j - 1) g.2.2) j O.zero) }
  let s := forUp 1 n (fun l s =>
    if l ≠ ii then
      let temp := s.a (j - 1) l
      let v := O.add (O.mul cc temp) (O.mul ss (s.a j l))
      let s := { s with a := setCol s.a l (set (s.col l) (j - 1) v) }
      let v := O.add (O.mul (O.neg ss) temp) (O.mul cc (s.a j l))
      { s with a := setCol s.a l (set (s.col l) j v) }
    else s) s
  let temp := s.b (j - 1)
  let s := { s with b := set s.b (j - 1) (O.add (O.mul cc temp) (O.mul ss (s.b j))) }
  { s with b := set s.b j (O.add (O.mul (O.neg ss) temp) (O.mul cc (s.b j))) }

/-- Moving the coefficient at position `jj` from the positive set to the zero set (nnls.c:455-497). -/
def remove (O : Ops D) (n : Nat) (s : St D) (jj : Nat) : St D :=
  let i := s.index jj
  let s := { s with x := set s.x i O.zero }
  let s := if jj ≠ s.nsetp then forUp (jj + 1) s.nsetp (rotate O n) s else s
  let s := { s with npp1 := s.nsetp, nsetp := s.nsetp - 1, iz1 := s.iz1 - 1 }
  { s with index := set s.index s.iz1 i }

/-- The first coefficient of the positive set that is not positive (nnls.c:505-512). -/
def firstBad (O : Ops D) (s : St D) : Option Nat :=
  (List.range' 1 s.nsetp).find? (fun jj => O.le (s.x (s.index jj)) O.zero)

/-- The loop around label `L260` (nnls.c:455-512). -/
def removeAll (O : Ops D) (m n : Nat) : Nat → St D → Nat → Out (St D)
  | 0, _, _ => .stuck
  | fuel + 1, s, jj =>
    if 1 ≤ jj ∧ jj ≤ s.nsetp ∧ s.nsetp ≤ m ∧ 1 ≤ s.iz1 - 1 ∧ s.iz1 - 1 ≤ n ∧ colsOk n s.index 1 s.nsetp then
      let s := remove O n s jj
      match firstBad O s with
      | none => .ok s
      | some jj => removeAll O m n fuel s jj
    else .ub

/-- The secondary loop (nnls.c:411-533): ends with `mode = 3` when the iterations are used up, with `x` updated
otherwise. -/
def secondary (O : Ops D) (m n : Nat) : Nat → St D → Out (St D)
  | 0, _ => .stuck
  | fuel + 1, s =>
    let s := { s with iter := s.iter + 1 }
    if 3 * n < s.iter then .ok { s with mode := 3 }
    else if s.nsetp ≤ m ∧ colsOk n s.index 1 s.nsetp then
      let r := stepLength O s
      if O.eq r.1 O.two then
        .ok (forUp 1 s.nsetp (fun ip s => { s with x := set s.x (s.index ip) (s.zz ip) }) s)
      else
        match r.2 with
        | none => .ub
        | some jj =>
          (removeAll O m n (s.nsetp + 1) (interpolate O s r.1) jj).bind (fun s =>
            let s := { s with zz := forUp 1 m (fun i zz => set zz i (s.b i)) s.zz }
            secondary O m n fuel (solve O s))
    else .ub

/-- The loop around label `L60` (nnls.c:288-359): `.inl` when no `w[j]` is positive any more, `.inr` with the
position and the number of an accepted column otherwise. -/
def select (O : Ops D) (m n : Nat) : Nat → St D → Out (St D ⊕ St D × Nat × Nat)
  | 0, _ => .stuck
  | fuel + 1, s =>
    let r := findMax O n s
    if O.le r.1 O.zero then .ok (.inl s)
    else
      match r.2 with
      | none => .ub
      | some iz =>
        if 1 ≤ iz ∧ iz ≤ n ∧ 1 ≤ s.index iz ∧ s.index iz ≤ n ∧ 1 ≤ s.npp1 ∧ s.npp1 ≤ m ∧ s.nsetp ≤ m then
          match trial O m s (s.index iz) with
          | .inl s => .ok (.inr (s, iz, s.index iz))
          | .inr s => select O m n fuel s
        else .ub

/-- The main loop (nnls.c:263-535). -/
def main (O : Ops D) (m n : Nat) : Nat → St D → Out (St D)
  | 0, _ => .stuck
  | fuel + 1, s =>
    if n < s.iz1 ∨ m ≤ s.nsetp then .ok s
    else if colsOk n s.index s.iz1 n ∧ 1 ≤ s.npp1 then
      (select O m n (n + 1) (dual O m n s)).bind fun r =>
        match r with
        | .inl s => .ok s
        | .inr (s, iz, j) =>
          if 1 ≤ s.iz1 ∧ s.iz1 ≤ iz then
            let s := accept O m n s iz j
            if colsOk n s.index 1 s.nsetp ∧ s.nsetp ≤ m then
              (secondary O m n (3 * n + 2 - s.iter) (solve O s)).bind fun s =>
                if s.mode = 3 then .ok s else main O m n fuel s
            else .ub
          else .ub
    else .ub

/-- What the caller sees on return: the solution, the dual vector, the residual norm, the mode and the
overwritten matrix and right-hand side. -/
structure Ret (D : Type) where
  x : Nat → D
  w : Nat → D
  rnorm : D
  mode : Nat
  a : Nat → Nat → D
  b : Nat → D

/-- Termination (nnls.c:542-560). -/
def finish (O : Ops D) (m n : Nat) (s : St D) : Ret D :=
  if s.npp1 ≤ m then
    { x := s.x, w := s.w, rnorm := O.sqrt (O.sum O.zero s.npp1 m (fun i => O.mul (s.b i) (s.b i))),
      mode := s.mode, a := s.a, b := s.b }
  else
    { x := s.x, w := forUp 1 n (fun j w => set w j O.zero) s.w, rnorm := O.sqrt O.zero,
      mode := s.mode, a := s.a, b := s.b }

/-- `nnls` (nnls.c:201-587) on positive dimensions: `s` holds the matrix and right-hand side and whatever the
caller's other arrays and the uninitialised locals contain. -/
def nnls (O : Ops D) (m n : Nat) (s : St D) : Out (Ret D) :=
  (main O m n (3 * n + 2) (start O n s)).bind fun s => .ok (finish O m n s)

/-- The function as called (nnls.c:201-203, 241-244): dimensions that are not positive are reported as `mode = 2`
and nothing is touched; `rnorm` is what the caller's variable holds. -/
def call (O : Ops D) (m n : Int) (s : St D) (rnorm : D) : Out (Ret D) :=
  if m ≤ 0 ∨ n ≤ 0 then .ok { x := s.x, w := s.w, rnorm := rnorm, mode := 2, a := s.a, b := s.b }
  else nnls O m.toNat n.toNat s

end JKD.Nnls
