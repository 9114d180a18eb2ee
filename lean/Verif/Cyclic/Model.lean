import Verif.Common
import Mathlib.Algebra.Field.Basic
/-!
# Model of `include/bout/cyclic_reduction.hxx`: parallel tridiagonal solver

`T` (BoutReal or dcomplex) is an arbitrary field `K`: exact arithmetic, no rounding.
`tiny v` stands for the pivot test `std::abs(v) < 1e-10` (any decidable test that rejects zero).
Division by an exact zero (which in C++ gives inf/nan) is the outcome `ub`.
`nprocs` processors are modelled together: processor `p` owns `N p` rows of each of the `Nsys` systems.
MPI is modelled by its payloads: a message sent by `q` to `p` arrives unchanged, in any order.
OpenMP loops over independent systems are pointwise definitions.
-/

namespace Verif.Cyclic

/-- One row `a x_{i-1} + b x_i + c x_{i+1} = r` (cyclic_reduction.hxx:130-136, 188-192: `coefs(j, 4*i ..)`). -/
structure Row (K : Type) where
  a : K
  b : K
  c : K
  r : K

variable {K : Type} [Field K] [DecidableEq K] (tiny : K → Prop) [DecidablePred tiny]

/-- cyclic_reduction.hxx:549-572: upper interface loop `for (i = nloc-3; i >= 0; i--)`;
the argument counts the remaining iterations (`i+1`). -/
def upLoop (co : Nat → Row K) : Nat → Row K → Out (Row K)
  | 0, u => .ok u
  | i + 1, u =>
    if tiny u.b then .error (.exc "Zero pivot in CyclicReduce::reduce")
    else
      let beta := (co i).c / u.b
      upLoop co i { a := (co i).a, b := (co i).b - beta * u.a, c := u.c * (-beta),
                    r := (co i).r - beta * u.r }

/-- cyclic_reduction.hxx:577-598: lower interface loop `for (i = 2; i < nloc; i++)`;
first argument = remaining iterations, second = current `i`. -/
def loLoop (co : Nat → Row K) : Nat → Nat → Row K → Out (Row K)
  | 0, _, l => .ok l
  | k + 1, i, l =>
    if tiny l.b then .error (.exc "Zero pivot in CyclicReduce::reduce")
    else
      let alpha := (co i).a / l.b
      loLoop co k (i + 1) { a := l.a * (-alpha), b := (co i).b - alpha * l.c, c := (co i).c,
                            r := (co i).r - alpha * l.r }

/-- cyclic_reduction.hxx:536-611 `reduce` for one system: (upper, lower) interface equations.
With fewer than two rows the code indexes outside the coefficient array. -/
def reduce (co : Nat → Row K) (nloc : Nat) : Out (Row K × Row K) :=
  if nloc < 2 then .error (.ub "co(j, 4*(nloc-2)+i) out of range")
  else
    match upLoop tiny co (nloc - 2) (co (nloc - 2)) with
    | .error e => .error e
    | .ok u =>
      match loLoop tiny co (nloc - 2) 2 (co 1) with
      | .error e => .error e
      | .ok l => .ok (u, l)

/-- cyclic_reduction.hxx:623-634: forward sweep of `back_solve`.  State after row `j`:
`(gam[j+1], xa(i,j))`; at `j = 0` it is `(gam[1], xa(i,0)) = (0, x1)`. -/
def fwd (co : Nat → Row K) (x1 : K) : Nat → K × K
  | 0 => (0, x1)
  | j + 1 =>
    let g := (fwd co x1 j).1
    let y := (fwd co x1 j).2
    let bet := (co (j + 1)).b - (co (j + 1)).a * g
    ((co (j + 1)).c / bet, ((co (j + 1)).r - (co (j + 1)).a * y) / bet)

/-- cyclic_reduction.hxx:629 the pivot `bet` of row `j+1`. -/
def bet (co : Nat → Row K) (x1 : K) (j : Nat) : K :=
  (co (j + 1)).b - (co (j + 1)).a * (fwd co x1 j).1

/-- cyclic_reduction.hxx:635-638: backward sweep, indexed by the distance `d` from the last row. -/
def bwd (co : Nat → Row K) (x1 xn : K) (nloc : Nat) : Nat → K
  | 0 => xn
  | d + 1 => (fwd co x1 (nloc - 2 - d)).2 - (fwd co x1 (nloc - 2 - d)).1 * bwd co x1 xn nloc d

/-- cyclic_reduction.hxx:614-640 `back_solve` for one system. -/
def backSolve (co : Nat → Row K) (nloc : Nat) (x1 xn : K) : Out (Nat → K) :=
  if (List.range (nloc - 2)).all (fun j => decide (bet co x1 j ≠ 0)) then
    .ok (fun j => if j = 0 then x1 else bwd co x1 xn nloc (nloc - 1 - j))
  else .error (.ub "division by zero in back_solve")

/-- cyclic_reduction.hxx:315-341: solve the final pair of equations. -/
def solve2x2 (periodic : Bool) (u l : Row K) : Out (K × K) :=
  let a := u.b
  let b := if periodic then u.c + u.a else u.c
  let c := if periodic then l.a + l.c else l.a
  let d := l.b
  let det := a * d - b * c
  if det = 0 then .error (.ub "division by zero determinant")
  else .ok ((d * u.r - b * l.r) / det, (-c * u.r + a * l.r) / det)

/-! ### Distribution of systems over processors -/

/-- cyclic_reduction.hxx:217-218, 255-259, 484-491: number of systems processor `p` solves. -/
def nsp (Nsys P p : Nat) : Nat := Nsys / P + (if p < Nsys % P then 1 else 0)

/-- cyclic_reduction.hxx:254-276: `s0` as accumulated by the sending loop when it reaches `p`. -/
def sendStart (Nsys P : Nat) : Nat → Nat
  | 0 => 0
  | p + 1 => sendStart Nsys P p + nsp Nsys P p

/-- cyclic_reduction.hxx:484-495 (`allocMemory`): `sys0` on processor `p`. -/
def sys0 (Nsys P p : Nat) : Nat :=
  if p < Nsys % P then Nsys / P * p + p else Nsys / P * p + Nsys % P

/-- cyclic_reduction.hxx:418-423: `s0` used when unpacking the solution from `p`. -/
def scatterStart (Nsys P p : Nat) : Nat :=
  if p > Nsys % P then p * (Nsys / P) + Nsys % P else p * (Nsys / P) + p

/-- First error, if any, among the calls `f 0 ... f (n-1)`. -/
def checkAll {α : Type} (f : Nat → Out α) : Nat → Out Unit
  | 0 => .ok ()
  | n + 1 => match checkAll f n with
    | .error e => .error e
    | .ok _ => match f n with
      | .ok _ => .ok ()
      | .error e => .error e

/-- The value of a call known to have succeeded. -/
def valD {α : Type} (d : α) : Out α → α
  | .ok a => a
  | .error _ => d

/-- The zero row (only a placeholder for `valD`). -/
def Row.zero : Row K := { a := 0, b := 0, c := 0, r := 0 }

/-- cyclic_reduction.hxx:222-252 and 278-298: row `k` of the interface system that processor `p` assembles for
its `i`-th system: rows `2q`, `2q+1` are processor `q`'s interface equations; processor `p`'s own are
copied from `myif(sys0+i)`, the others come in the message from `q`, which starts at `myif_q(s0)`. -/
def ifcs (Nsys P : Nat) (myif : Nat → Nat → Row K × Row K) (p i k : Nat) : Row K :=
  let q := k / 2
  let eqs := if q = p then myif p (sys0 Nsys P p + i) else myif q (sendStart Nsys P p + i)
  if k % 2 = 0 then eqs.1 else eqs.2

/-- cyclic_reduction.hxx:300-351: interface solve of the `i`-th system on processor `p`. -/
def ifaceSolve (P : Nat) (periodic : Bool) (co : Nat → Row K) : Out (Nat → K) :=
  let pair : Out (Row K × Row K) := if P > 1 then reduce tiny co (2 * P) else .ok (co 0, co 1)
  match pair with
  | .error e => .error e
  | .ok (u, l) =>
    match solve2x2 periodic u l with
    | .error e => .error e
    | .ok (x1, xn) => backSolve co (2 * P) x1 xn

/-- cyclic_reduction.hxx:353-442: the pair `(x1[s], xn[s])` on processor `q` after processing the arrivals in
the order `order` (a list of processors; for `q` itself the local copy).  Later writes win. -/
def scatter (Nsys P : Nat) (ifx : Nat → Nat → Nat → K) (q : Nat) (order : List Nat) (s : Nat) : K × K :=
  order.foldl (fun acc p =>
    let start := if p = q then sys0 Nsys P p else scatterStart Nsys P p
    if start ≤ s ∧ s < start + nsp Nsys P p then (ifx p (s - start) (2 * q), ifx p (s - start) (2 * q + 1))
    else acc) (0, 0)

/-- cyclic_reduction.hxx:171-448 `solve` on all processors.  `co p s j` is row `j` of system `s` on
processor `p`; `order q` is the order in which processor `q` sees the solution messages arrive.
For one processor the scatter stage is skipped and `x1, xn` are the interface solution itself. -/
def distSolve (P Nsys : Nat) (N : Nat → Nat) (periodic : Bool) (co : Nat → Nat → Nat → Row K)
    (order : Nat → List Nat) : Out (Nat → Nat → Nat → K) :=
  -- reduce local systems
  let red := fun q s => reduce tiny (co q s) (N q)
  match checkAll (fun q => checkAll (red q) Nsys) P with
  | .error e => .error e
  | .ok _ =>
    let myif := fun q s => valD (Row.zero, Row.zero) (red q s)
    -- gather and solve the interface systems
    let sol := fun p i => ifaceSolve tiny P periodic (ifcs Nsys P myif p i)
    match checkAll (fun p => checkAll (sol p) (nsp Nsys P p)) P with
    | .error e => .error e
    | .ok _ =>
      let ifx := fun p i => valD (fun _ => 0) (sol p i)
      -- scatter back
      let ends := fun q s => if P > 1 then scatter Nsys P ifx q (order q) s else (ifx 0 s 0, ifx 0 s 1)
      -- local back-solve
      let back := fun q s => backSolve (co q s) (N q) (ends q s).1 (ends q s).2
      match checkAll (fun q => checkAll (back q) Nsys) P with
      | .error e => .error e
      | .ok _ => .ok (fun q s => valD (fun _ => 0) (back q s))

/-! ### Messages -/

/-- An MPI point-to-point message: source, destination, tag, length (in values of type `T`). -/
structure Msg where
  src : Nat
  dst : Nat
  tag : Nat
  len : Nat
  deriving DecidableEq

/-- cyclic_reduction.hxx:253-276: gather messages sent by `q`. -/
def gatherSends (Nsys P q : Nat) : List Msg :=
  ((List.range P).filter (fun p => decide (p ≠ q ∧ nsp Nsys P p > 0))).map
    (fun p => { src := q, dst := p, tag := q, len := 8 * nsp Nsys P p })

/-- cyclic_reduction.hxx:222-251: gather receives posted by `p` (only if it has systems to solve). -/
def gatherRecvs (Nsys P p : Nat) : List Msg :=
  if nsp Nsys P p > 0 then
    ((List.range P).filter (fun q => decide (q ≠ p))).map
      (fun q => { src := q, dst := p, tag := q, len := 2 * nsp Nsys P p * 4 })
  else []

/-- cyclic_reduction.hxx:391-408: solution messages sent by `p`. -/
def scatterSends (Nsys P p : Nat) : List Msg :=
  if nsp Nsys P p > 0 then
    ((List.range P).filter (fun q => decide (q ≠ p))).map
      (fun q => { src := p, dst := q, tag := p, len := 2 * nsp Nsys P p })
  else []

/-- cyclic_reduction.hxx:357-389: solution receives posted by `q`. -/
def scatterRecvs (Nsys P q : Nat) : List Msg :=
  ((List.range P).filter (fun p => decide (p ≠ q ∧ nsp Nsys P p > 0))).map
    (fun p => { src := p, dst := q, tag := p, len := 2 * nsp Nsys P p })

/-- cyclic_reduction.hxx:507: length of one row of `recvbuffer` on processor `p`. -/
def recvLen (Nsys P p : Nat) : Nat := (nsp Nsys P p + 1) * 8

end Verif.Cyclic
