import Mathlib.Algebra.Field.Basic
import Mathlib.Algebra.Order.Field.Basic
import Mathlib.Algebra.BigOperators.Group.Finset.Basic
import Mathlib.Algebra.Order.Group.Abs
import Verif.Common

/-!
# `LaplaceMultigrid` (src/invert/laplace/impls/multigrid)

Processors are split in x only; every processor holds `nx × nz` interior cells and one layer of
ghost cells.  A distributed vector is a function of processor `p`, local x index `i`
(`0` and `nx+1` are ghosts) and local z index `k` (`0` and `nz+1` are ghosts).  The C++ stores it
at `i * (nz + 2) + k` of the array of processor `p`.

Simplifications for the whole file: exact arithmetic in an ordered field `K`; `sqrt` is a
parameter; a value that is not a number (a division by a norm which is zero) ends in an exception
here at once, whereas the C++ carries it through every comparison, all of which fail, up to the
iteration limit and throws there; OpenMP, timers, printing and the destructor are not modelled;
the boundary guard width is one cell (wider guards are not read).
-/

namespace Verif.MG

open Finset

/-- A distributed vector: processor, local x index, local z index. -/
abbrev Vec (K : Type) := Nat → Nat → Nat → K
/-- A distributed nine point matrix: row (processor, x, z) and entry `0..8`
(`matmg[level][nn * 9 + s]`, multigrid_laplace.hxx L66). -/
abbrev Mat (K : Type) := Nat → Nat → Nat → Nat → K

/-- Number of processors and local sizes of one level (`xNP`, `lnx[level]`, `lnz[level]`). -/
structure Dim where
  np : Nat
  nx : Nat
  nz : Nat

/-- Cell `(i, k)` is one of the cells the loops run over. -/
def Dim.inside (d : Dim) (i k : Nat) : Bool :=
  decide (1 ≤ i) && decide (i ≤ d.nx) && decide (1 ≤ k) && decide (k ≤ d.nz)

variable {K : Type}

/-- The z part of `communications` with one processor in z: multigrid_alg.cxx L742-747. -/
def commZ (d : Dim) (x : Vec K) : Vec K := fun p i k =>
  if 1 ≤ i ∧ i ≤ d.nx then
    if k = 0 then x p i d.nz else if k = d.nz + 1 then x p i 1 else x p i k
  else x p i k

/-- `MultigridAlg::communications` (multigrid_alg.cxx L694-801) for `zNP == 1`.  The messages are
modelled as copies: the tags match one to one (receive `xProcM`, sent as `rProcI`; receive
`xProcP + xNP`, sent as `rProcI + xNP`).  With one processor the x ghosts are copied
periodically (L795-800), with several the outermost ghost rows are left as they are. -/
def comm (d : Dim) (x : Vec K) : Vec K :=
  let y := commZ d x
  if d.np > 1 then fun p i k =>
    if i = 0 ∧ 0 < p then y (p - 1) d.nx k
    else if i = d.nx + 1 ∧ p + 1 < d.np then y (p + 1) 1 k
    else y p i k
  else fun p i k =>
    if i = 0 then y p d.nx k else if i = d.nx + 1 then y p 1 k else y p i k

variable [Field K] [LinearOrder K]

/-- The eight off-diagonal products of one row: multigrid_alg.cxx L224-231, L571-578. -/
def off (A : Nat → Nat → Nat → K) (x : Nat → Nat → K) (i k : Nat) : K :=
  A i k 3 * x i (k - 1) + A i k 5 * x i (k + 1) + A i k 1 * x (i - 1) k + A i k 7 * x (i + 1) k
    + A i k 0 * x (i - 1) (k - 1) + A i k 2 * x (i - 1) (k + 1) + A i k 6 * x (i + 1) (k - 1)
    + A i k 8 * x (i + 1) (k + 1)

/-- One row of the product: multigrid_alg.cxx L571-579. -/
def row (A : Mat K) (x : Vec K) (p i k : Nat) : K :=
  A p i k 4 * x p i k + off (A p) (x p) i k

/-- `MultigridAlg::multiAVec`, multigrid_alg.cxx L553-584. -/
def multiAVec (d : Dim) (A : Mat K) (x : Vec K) : Vec K :=
  comm d fun p i k => if d.inside i k then row A x p i k else 0

/-- `MultigridAlg::residualVec`, multigrid_alg.cxx L586-615. -/
def residualVec (d : Dim) (A : Mat K) (x b : Vec K) : Vec K :=
  comm d fun p i k => if d.inside i k then b p i k - row A x p i k else 0

/-- `MultigridAlg::vectorProd`, multigrid_alg.cxx L527-551: the sum over the interior cells of
every processor (`MPI_Allreduce` with `MPI_SUM`). -/
def vectorProd (d : Dim) (x y : Vec K) : K :=
  ∑ p ∈ range d.np, ∑ i ∈ range d.nx, ∑ k ∈ range d.nz,
    x p (i + 1) (k + 1) * y p (i + 1) (k + 1)

/-- The cells in the order of the loops `for i { for k {` (multigrid_alg.cxx L240-241). -/
def cells (d : Dim) : List (Nat × Nat) :=
  (List.range d.nx).flatMap fun i => (List.range d.nz).map fun k => (i + 1, k + 1)

/-- Some diagonal entry is below `atol`: the throws at multigrid_alg.cxx L232-234, L251-253,
L269-271.  On several processors one that throws leaves the others waiting; here the whole run
throws. -/
def badDiag (d : Dim) (atol : K) (A : Mat K) : Bool :=
  (List.range d.np).any fun p => (cells d).any fun c => decide (|A p c.1 c.2 4| < atol)

/-- One damped Jacobi sweep, multigrid_alg.cxx L211-238. -/
def jacobi (d : Dim) (omega : K) (A : Mat K) (x b : Vec K) : Vec K :=
  comm d fun p i k =>
    if d.inside i k then
      (1 - omega) * x p i k + omega * (b p i k - off (A p) (x p) i k) / A p i k 4
    else x p i k

/-- The update of one cell by the Gauss-Seidel smoother, multigrid_alg.cxx L242-254. -/
def gsCell (A : Nat → Nat → Nat → K) (b x : Nat → Nat → K) (c : Nat × Nat) : Nat → Nat → K :=
  fun i k => if i = c.1 ∧ k = c.2 then (b c.1 c.2 - off A x c.1 c.2) / A c.1 c.2 4 else x i k

/-- One sweep over a list of cells, in place, on every processor. -/
def gsSweep (cs : List (Nat × Nat)) (A : Mat K) (x b : Vec K) : Vec K := fun p =>
  cs.foldl (gsCell (A p) (b p)) (x p)

/-- Settings shared by the levels (multigrid_laplace.hxx L63-64) and `sqrt`. -/
structure Par (K : Type) where
  mgsm : Nat
  omega : K
  rtol : K
  atol : K
  dtol : K
  sqrt : K → K

/-- `MultigridAlg::smoothings`, multigrid_alg.cxx L202-278: two Jacobi sweeps, or a forward and a
backward Gauss-Seidel sweep. -/
def smoothings (s : Par K) (d : Dim) (A : Mat K) (x b : Vec K) : Out (Vec K) :=
  if badDiag d s.atol A then .error (.exc "Error at matmg")
  else if s.mgsm = 0 then .ok (jacobi d s.omega A (jacobi d s.omega A x b) b)
  else .ok (comm d (gsSweep (cells d).reverse A (comm d (gsSweep (cells d) A x b)) b))

/-- `MultigridAlg::projection`, multigrid_alg.cxx L147-173: `dc` is the coarser level. -/
def projection (dc : Dim) (r : Vec K) : Vec K :=
  comm dc fun p i k =>
    if dc.inside i k then
      (r p (2 * i - 1) (2 * k - 1) + r p (2 * i - 1) (2 * k) + r p (2 * i) (2 * k - 1)
        + r p (2 * i) (2 * k)) / 4
    else 0

/-- `MultigridAlg::prolongation`, multigrid_alg.cxx L175-200: coarse cell `(i, k)` is copied to
the fine cells `(2i-1 .. 2i, 2k-1 .. 2k)`, that is fine cell `(i, k)` receives coarse cell
`((i+1)/2, (k+1)/2)` when that is inside the coarser level `dc`. -/
def prolongation (dc df : Dim) (x : Vec K) : Vec K :=
  comm df fun p i k =>
    if dc.inside ((i + 1) / 2) ((k + 1) / 2) then x p ((i + 1) / 2) ((k + 1) / 2) else 0

/-- `MultigridAlg::setMatrixC`, multigrid_alg.cxx L617-692. -/
def setMatrixC (dc : Dim) (A : Mat K) : Mat K := fun p i k s =>
  if dc.inside i k then
    let i2 := 2 * i - 1
    let k2 := 2 * k - 1
    let m0 := A p i2 k2
    let m1 := A p i2 (k2 + 1)
    let m2 := A p (i2 + 1) k2
    let m3 := A p (i2 + 1) (k2 + 1)
    match s with
    | 4 => (m0 4 + m1 4 + (m2 4 + m3 4) + (m0 5 + m1 3) + (m2 5 + m3 3) + (m0 7 + m2 1)
        + (m1 7 + m3 1) + (m0 8 + m3 0) + (m1 6 + m2 2)) / 8
    | 1 => (m0 1 + m1 1 + (m0 2 + m1 0)) / 8
    | 3 => (m0 3 + m2 3 + (m0 6 + m2 0)) / 8
    | 5 => (m1 5 + m3 5 + (m1 8 + m3 2)) / 8
    | 7 => (m2 7 + m3 7 + (m2 8 + m3 6)) / 8
    | 0 => m0 0 / 8
    | 2 => m1 2 / 8
    | 6 => m2 6 / 8
    | 8 => m3 8 / 8
    | _ => 0
  else 0

/-- The sizes of the levels: multigrid_alg.cxx L52-63.  `top` is the finest level. -/
def levelDim (np nx nz top l : Nat) : Dim :=
  ⟨np, nx / 2 ^ (top - l), nz / 2 ^ (top - l)⟩

/-- The matrices of the levels: `setMultigridC`, multigrid_alg.cxx L511-521 (the same loop at
multigrid_solver.cxx L160-169).  `n` counts down from the finest level. -/
def levelMat (np nx nz top : Nat) (A : Mat K) : Nat → Mat K
  | 0 => A
  | n + 1 => setMatrixC (levelDim np nx nz top (top - (n + 1))) (levelMat np nx nz top A n)

/-- The settings, dimensions and matrices of one hierarchy of levels `0 .. top`. -/
structure Hier (K : Type) where
  par : Par K
  top : Nat
  dim : Nat → Dim
  mat : Nat → Mat K

/-- Smoothing on level `l`. -/
def Hier.smooth (h : Hier K) (l : Nat) (x b : Vec K) : Out (Vec K) :=
  smoothings h.par (h.dim l) (h.mat l) x b

/-- `MultigridAlg::cycleMG`, multigrid_alg.cxx L113-145; `low` is `lowestSolver`. -/
def cycleMG (h : Hier K) (low : Vec K → Vec K → Out (Vec K)) : Nat → Vec K → Vec K → Out (Vec K)
  | 0, sol, rhs => low sol rhs
  | l + 1, sol, rhs => do
    let s1 ← h.smooth (l + 1) sol rhs
    let r := residualVec (h.dim (l + 1)) (h.mat (l + 1)) s1 rhs
    let pr := projection (h.dim l) r
    let y ← cycleMG h low l (fun _ _ _ => 0) pr
    let iy := prolongation (h.dim l) (h.dim (l + 1)) y
    h.smooth (l + 1) (fun p i k => s1 p i k + iy p i k) rhs

/-- The scalars of the Arnoldi process of `pGMRES` (norms, the Hessenberg matrix, the Givens
rotations and the triangular solve, multigrid_alg.cxx L353-370, L385-446), which are NOT modelled:
any values are allowed.  `start` is the factor `1 / |v0|`; `next vs w` the factor of `w` and the
factors of `vs` in the next basis vector; `y vs w` the factors of `vs` in the candidate solution.
`none` stands for a value which is not a number. -/
structure Arn (K : Type) where
  start : Vec K → Option K
  next : List (Vec K) → Vec K → Option (K × List K)
  y : List (Vec K) → Vec K → Option (List K)

/-- `x + Σ c_j v_j` cell by cell, ghosts included (L402-407, L449-460). -/
def axpys (x : Vec K) : List K → List (Vec K) → Vec K
  | c :: cs, v :: vs => axpys (fun p i k => x p i k + c * v p i k) cs vs
  | _, _ => x

/-- What one inner loop of `pGMRES` leaves: the candidate `p`, its residual `r`, the error, the
counter, `perror`, and `etest == 0`. -/
structure Inner (K : Type) where
  p : Vec K
  r : Vec K
  error : K
  num : Nat
  perror : K
  done : Bool

/-- The parts of a hierarchy `pGMRES` uses on one level: the preconditioner (`smoothings` or
`cycleMG` from a zero vector), whether this is the finest level, and `MAXIT`. -/
structure Gm (K : Type) where
  par : Par K
  dim : Dim
  mat : Mat K
  pre : Vec K → Out (Vec K)
  isTop : Bool
  maxit : Nat
  arn : Arn K

/-- One iteration of `for (it = 0; it < MAXGM; it++)` of `pGMRES` up to its tests,
multigrid_alg.cxx L371-489: `vs` is the basis `v[0] .. v[it]`, `v` its last vector.  The result is
`.inl` when the loop is left by `break`, and otherwise `.inr` with the preconditioned vector. -/
def attempt (g : Gm K) (rhs sol : Vec K) (ini : K) (vs : List (Vec K)) (v : Vec K) (perror : K)
    (num : Nat) : Out (Inner K ⊕ (Vec K × Inner K)) := do
  let w ← g.pre (multiAVec g.dim g.mat v)
  match g.arn.y vs w with
  | none => .error (.exc "GMRES reached MAXIT")
  | some y =>
    let p := axpys sol y vs
    let r := residualVec g.dim g.mat p rhs
    let error := g.par.sqrt (vectorProd g.dim r r)
    if error > g.par.dtol then .error (.exc "GMRES reached dtol")
    else if num + 1 > g.maxit then .error (.exc "GMRES reached MAXIT")
    else if error ≤ g.par.rtol * ini + g.par.atol then
      .ok (.inl ⟨p, r, error, num + 1, perror, true⟩)
    else if g.isTop = false ∧ |perror - error| / error < g.par.rtol then
      .ok (.inl ⟨p, r, error, num, perror, decide (vs.length = 1)⟩)
    else .ok (.inr (w, ⟨p, r, error, num + 1, error, false⟩))

/-- The loop `for (it = 0; it < MAXGM; it++)`, multigrid_alg.cxx L371-489; the first argument is
the number of iterations left after this one. -/
def inner (g : Gm K) (rhs sol : Vec K) (ini : K) :
    Nat → List (Vec K) → Vec K → K → Nat → Out (Inner K)
  | 0, vs, v, perror, num => do
    match ← attempt g rhs sol ini vs v perror num with
    | .inl res => .ok res
    | .inr (_, res) => .ok res
  | n + 1, vs, v, perror, num => do
    match ← attempt g rhs sol ini vs v perror num with
    | .inl res => .ok res
    | .inr (w, res) =>
      match g.arn.next vs w with
      | none => .error (.exc "GMRES reached MAXIT")
      | some (a, cs) =>
        let v' := axpys (fun p i k => a * w p i k) cs vs
        inner g rhs sol ini n (vs ++ [v']) v' res.perror res.num

/-- The `do ... while (etest == 1)` loop, multigrid_alg.cxx L350-513.  The first argument bounds
the number of restarts; `runaway` is the outcome when it is used up (never: see the theorems). -/
def outer (g : Gm K) (rhs : Vec K) (ini : K) :
    Nat → Vec K → Vec K → K → Nat → Out (Vec K)
  | 0, _, _, _, _ => .error (.ub "runaway")
  | fuel + 1, w, sol, perror, num =>
    match g.arn.start w with
    | none => .error (.exc "GMRES reached MAXIT")
    | some a => do
      let v0 : Vec K := fun p i k => a * w p i k
      let res ← inner g rhs sol ini 14 [v0] v0 perror num
      let w' ← g.pre res.r
      if res.num > g.maxit then .error (.exc "GMRES Iteration limit")
      else if res.done then .ok res.p
      else outer g rhs ini fuel w' res.p res.perror res.num

/-- `MultigridAlg::pGMRES`, multigrid_alg.cxx L280-509; the guess in `sol` is overwritten by zero
at L316-320. -/
def pGMRES (g : Gm K) (rhs : Vec K) : Out (Vec K) :=
  let ini := g.par.sqrt (vectorProd g.dim rhs rhs)
  if ini < g.par.atol * g.par.rtol then .ok fun _ _ _ => 0
  else do
    let w ← g.pre rhs
    outer g rhs ini (g.maxit + 2) w (fun _ _ _ => 0) ini 0

/-- The `m` loop of `MultigridAlg::solveMG`, multigrid_alg.cxx L830-858; `n` iterations left.
When they are used up the loop simply ends. -/
def mgLoop (h : Hier K) (low : Vec K → Vec K → Out (Vec K)) (rhs : Vec K) (ini : K) :
    Nat → Vec K → Vec K → K → Out (Vec K)
  | 0, sol, _, _ => .ok sol
  | n + 1, sol, r, perror => do
    let y ← cycleMG h low h.top (fun _ _ _ => 0) r
    let sol' : Vec K := fun p i k => sol p i k + y p i k
    let r' := residualVec (h.dim h.top) (h.mat h.top) sol' rhs
    let error := h.par.sqrt (vectorProd (h.dim h.top) r' r')
    if error < h.par.rtol * ini + h.par.atol then .ok sol'
    else if |perror - error| / error < h.par.rtol ∨ error > h.par.dtol then
      .error (.exc "In MG Limited Error")
    else mgLoop h low rhs ini n sol' r' error

/-- `MultigridAlg::solveMG`, multigrid_alg.cxx L803-873. -/
def solveMG (h : Hier K) (low : Vec K → Vec K → Out (Vec K)) (rhs : Vec K) : Out (Vec K) :=
  let ini := h.par.sqrt (vectorProd (h.dim h.top) rhs rhs)
  mgLoop h low rhs ini 150 (fun _ _ _ => 0) rhs ini

/-- The `lowestSolver` of the base class and of `Multigrid1DP` with `kflag == 0`:
`pGMRES(x, b, 0, 0)`, multigrid_alg.cxx L523-525 and multigrid_solver.cxx L421-423.  With
`iplag == 0` the preconditioner is `smoothings` and `MAXIT` is 40000 (L287-291). -/
def lowGmres (h : Hier K) (arn : Arn K) (_x b : Vec K) : Out (Vec K) :=
  pGMRES ⟨h.par, h.dim 0, h.mat 0, fun q => h.smooth 0 (fun _ _ _ => 0) q,
    decide (h.top = 0), 40000, arn⟩ b

/-- Collecting the cells of all processors (`MPI_Allreduce` of arrays which are zero outside the
own part): multigrid_solver.cxx L375-397 and, for matrices, `convertMatrixFS` L512-557. -/
def gather (d : Dim) (b : Vec K) : Vec K := fun _ i k =>
  if 1 ≤ i ∧ i ≤ d.np * d.nx ∧ 1 ≤ k ∧ k ≤ d.nz then
    b ((i - 1) / d.nx) ((i - 1) % d.nx + 1) k else 0

/-- `convertMatrixFS`, multigrid_solver.cxx L512-557. -/
def gatherMat (d : Dim) (A : Mat K) : Mat K := fun _ i k s =>
  if 1 ≤ i ∧ i ≤ d.np * d.nx ∧ 1 ≤ k ∧ k ≤ d.nz then
    A ((i - 1) / d.nx) ((i - 1) % d.nx + 1) k s else 0

/-- Copying the own part back: multigrid_solver.cxx L406-419; the ghost cells of `x` keep their
values until `communications`. -/
def scatter (d : Dim) (x y : Vec K) : Vec K :=
  comm d fun p i k => if d.inside i k then y 0 (p * d.nx + i) k else x p i k

/-- `Multigrid1DP::lowestSolver` with `kflag == 2`, multigrid_solver.cxx L369-420: one cycle of
the serial hierarchy `sMG` (`getSolution(y, r, 1)`, multigrid_alg.cxx L93-94).  `init` says that
`convertMatrixFS` was called; otherwise the matrices of `sMG` are uninitialised memory. -/
def lowSerial (d : Dim) (init : Bool) (hs : Hier K) (arn : Arn K) (x b : Vec K) : Out (Vec K) :=
  if init then do
    let y ← cycleMG hs (lowGmres hs arn) hs.top (comm (hs.dim hs.top) fun _ _ _ => 0) (gather d b)
    .ok (scatter d x y)
  else .error (.ub "uninitialised matrix")

/-- `MultigridAlg::getSolution` with `flag == 0`, multigrid_alg.cxx L79-92.  The ghosts of the
guess are exchanged first, but neither solver reads the guess. -/
def getSolution (h : Hier K) (low : Vec K → Vec K → Out (Vec K)) (arn : Arn K) (mgplag : Nat)
    (b : Vec K) : Out (Vec K) :=
  if h.top = 0 ∨ mgplag = 1 then
    pGMRES ⟨h.par, h.dim h.top, h.mat h.top, fun q => cycleMG h low h.top (fun _ _ _ => 0) q,
      true, if h.top = 0 then 40000 else 500, arn⟩ b
  else solveMG h low b

/-- The loops which reduce the number of levels until the size can be halved that often:
multigrid_laplace.cxx L118-139 and L150-174 (`n` counts from `m` down to 2). -/
def availGo (m : Nat) : Nat → Nat → Nat
  | 0, _ => m
  | n + 1, nn =>
    if n + 1 > 1 then (if nn % 2 ≠ 0 then m - (n + 1) + 1 else availGo m n (nn / 2)) else m

/-- `mglevel` after the checks of both directions, L118-142. -/
def avail (m nx nz : Nat) : Nat :=
  if m > 1 then
    let m1 := availGo m m nx
    availGo m1 m1 nz
  else 1

/-- The number of levels of the serial hierarchy, multigrid_solver.cxx L129-139. -/
def serialGo : Nat → Nat → Nat → Nat → Nat
  | 0, _, _, kk => kk
  | n + 1, nn, mm, kk =>
    if nn % 2 = 0 ∧ mm % 2 = 0 then serialGo n (nn / 2) (mm / 2) (kk + 1) else kk

/-- Coefficients and metric, per global x index (guards 0 and N+1 included) and z index. -/
structure Coef (K : Type) where
  A : Nat → Nat → K
  C1 : Nat → Nat → K
  C2 : Nat → Nat → K
  D : Nat → Nat → K
  dx : Nat → K
  dz : Nat → K
  g11 : Nat → K
  g33 : Nat → K
  g13 : Nat → K
  G1 : Nat → K
  G3 : Nat → K
  d1dx : Nat → K
  gxx : Nat → K

/-- The boundary flags the solver reads: `INVERT_AC_GRAD` and `INVERT_SET`. -/
structure Flags where
  grad : Bool
  set : Bool

/-- The solver object: sizes, options and flags. -/
structure Cfg (K : Type) where
  np : Nat
  nx : Nat
  nz : Nat
  levels : Nat
  plag : Nat
  par : Par K
  inn : Flags
  out : Flags
  startNew : Bool
  nonuniform : Bool
  coef : Coef K
  arn : Arn K
  arnLow : Arn K

/-- Global x index of local index `i` on processor `p` (guard width one). -/
def Cfg.gi (c : Cfg K) (p i : Nat) : Nat := p * c.nx + i

/-- The interior entries set by `generateMatrixF`, multigrid_laplace.cxx L597-656. -/
def baseMat (c : Cfg K) : Mat K := fun p i k s =>
  let gi := c.gi p i
  let k2 := k - 1
  let k2p := (k2 + 1) % c.nz
  let k2m := (k2 + c.nz - 1) % c.nz
  let f := c.coef
  let dz := f.dz gi
  let ddxC := (f.C2 (gi + 1) k2 - f.C2 (gi - 1) k2) / 2 / f.dx gi / f.C1 gi k2
  let ddzC := (f.C2 gi k2p - f.C2 gi k2m) / 2 / dz / f.C1 gi k2
  let ddx := f.D gi k2 * f.g11 gi / f.dx gi / f.dx gi
  let ddz := f.D gi k2 * f.g33 gi / (dz * dz)
  let dxdz := f.D gi k2 * 2 * f.g13 gi / f.dx gi / dz
  let dxd0 := (f.D gi k2 * f.G1 gi + f.g11 gi * ddxC + f.g13 gi * ddzC) / f.dx gi
  let dxd := if c.nonuniform then dxd0 + f.D gi k2 * f.d1dx gi else dxd0
  let dzd := (f.D gi k2 * f.G3 gi + f.g33 gi * ddzC + f.g13 gi * ddxC) / dz
  match s with
  | 0 => dxdz / 4
  | 1 => ddx - dxd / 2
  | 2 => -(dxdz / 4)
  | 3 => ddz - dzd / 2
  | 4 => f.A gi k2 - 2 * (ddx + ddz)
  | 5 => ddz + dzd / 2
  | 6 => -(dxdz / 4)
  | 7 => ddx + dxd / 2
  | 8 => dxdz / 4
  | _ => 0

/-- The inner boundary rows, multigrid_laplace.cxx L662-698: Neumann adds, Dirichlet subtracts the
entries of the ghost row. -/
def innerRow (grad : Bool) (m : Nat → K) : Nat → K := fun s =>
  if s = 0 ∨ s = 1 ∨ s = 2 then 0
  else if s = 3 then (if grad then m 3 + m 0 else m 3 - m 0)
  else if s = 4 then (if grad then m 4 + m 1 else m 4 - m 1)
  else if s = 5 then (if grad then m 5 + m 2 else m 5 - m 2)
  else m s

/-- The outer boundary rows, multigrid_laplace.cxx L699-736. -/
def outerRow (grad : Bool) (m : Nat → K) : Nat → K := fun s =>
  if s = 6 ∨ s = 7 ∨ s = 8 then 0
  else if s = 3 then (if grad then m 3 + m 6 else m 3 - m 6)
  else if s = 4 then (if grad then m 4 + m 7 else m 4 - m 7)
  else if s = 5 then (if grad then m 5 + m 8 else m 5 - m 8)
  else m s

/-- The matrix after `generateMatrixF`, multigrid_laplace.cxx L586-738. -/
def fineMat (c : Cfg K) : Mat K := fun p i k =>
  let m := baseMat c p i k
  let m1 := if p = 0 ∧ i = 1 then innerRow c.inn.grad m else m
  if p + 1 = c.np ∧ i = c.nx then outerRow c.out.grad m1 else m1

/-- The ghost rows of `x` at the inner boundary, multigrid_laplace.cxx L262-301 (as functions of
the z index of `x0`). -/
def ghostIn (c : Cfg K) (x0 : Nat → Nat → K) (z : Nat) : K :=
  if c.inn.grad then
    if c.inn.set then -x0 0 z * c.par.sqrt (c.coef.gxx 1) * c.coef.dx 1 else 0
  else if c.inn.set then 2 * x0 0 z else 0

/-- The ghost rows of `x` at the outer boundary, multigrid_laplace.cxx L302-343.  The gradient
branch tests `inner_boundary_flags & INVERT_SET` (L305). -/
def ghostOut (c : Cfg K) (x0 : Nat → Nat → K) (z : Nat) : K :=
  let n := c.np * c.nx
  if c.out.grad then
    if c.inn.set then x0 (n + 1) z * c.par.sqrt (c.coef.gxx n) * c.coef.dx n else 0
  else if c.out.set then 2 * x0 (n + 1) z else 0

/-- z index of ghost column `k` of a row whose ghosts were exchanged (L345-351). -/
def zOf (nz k : Nat) : Nat := if k = 0 then nz - 1 else if k = nz + 1 then 0 else k - 1

/-- The right hand side after `generateMatrixF` (multigrid_laplace.cxx L250-260 and the `b[ic]`
updates at L671-673, L688-690, L707-709, L725-727). -/
def fineRhs (c : Cfg K) (bin x0 : Nat → Nat → K) : Vec K := fun p i k =>
  let m := baseMat c p i k
  let g := fun k' => ghostIn c x0 (zOf c.nz k')
  let o := fun k' => ghostOut c x0 (zOf c.nz k')
  let b0 := bin (c.gi p i) (k - 1)
  let b1 := if p = 0 ∧ i = 1 then b0 - m 0 * g (k - 1) - m 1 * g k - m 2 * g (k + 1) else b0
  if p + 1 = c.np ∧ i = c.nx then b1 - m 6 * o (k - 1) - m 7 * o k - m 8 * o (k + 1) else b1

/-- `mglevel` of `LaplaceMultigrid`: all levels the global grid allows, L118-142. -/
def Cfg.mglevel (c : Cfg K) : Nat := avail c.levels (c.np * c.nx) c.nz

/-- `aclevel`: the levels the local grid allows, L148-175. -/
def Cfg.aclevel (c : Cfg K) : Nat := avail c.mglevel c.nx c.nz

/-- The distributed hierarchy `kMG` (its finest level is `aclevel - 1`). -/
def Cfg.hier (c : Cfg K) : Hier K :=
  let top := c.aclevel - 1
  ⟨c.par, top, levelDim c.np c.nx c.nz top,
    fun l => levelMat c.np c.nx c.nz top (fineMat c) (top - l)⟩

/-- The serial hierarchy `sMG`, multigrid_solver.cxx L125-145 with the matrices of
`convertMatrixFS` and `setMultigridC`. -/
def Cfg.serial (c : Cfg K) : Hier K :=
  let d := c.hier.dim 0
  let gx := d.np * d.nx
  let top := serialGo (c.mglevel - c.aclevel) gx d.nz 1 - 1
  ⟨c.par, top, levelDim 1 gx d.nz top,
    fun l => levelMat 1 gx d.nz top (gatherMat d (c.hier.mat 0)) (top - l)⟩

/-- `lowestSolver` of `kMG`.  `kflag` is 0 without further levels and 2 with at most `mergempi`
processors (L77, L121-123); `kflag == 1` (more processors, `Multigrid2DPf1D`) is not modelled.
`kMG->setMultigridC(0)`, which calls `convertMatrixFS`, is reached only `if (level > 0)`
(multigrid_laplace.cxx L388-390). -/
def Cfg.low (c : Cfg K) : Vec K → Vec K → Out (Vec K) :=
  if c.mglevel - c.aclevel > 0 then
    lowSerial (c.hier.dim 0) (decide (c.aclevel - 1 > 0)) c.serial c.arnLow
  else lowGmres c.hier c.arnLow

/-- The field returned by `LaplaceMultigrid::solve`: interior cells and the two guard rows,
multigrid_laplace.cxx L472-580. -/
def result (c : Cfg K) (x0 : Nat → Nat → K) (x : Vec K) : Nat → Nat → K := fun gi z =>
  let n := c.np * c.nx
  let first := x 0 1 (z + 1)
  let last := x (c.np - 1) c.nx (z + 1)
  if gi = 0 then
    if c.inn.grad then
      if c.inn.set then first - x0 0 z * c.par.sqrt (c.coef.gxx 1) * c.coef.dx 1 else first
    else if c.inn.set then 2 * x0 0 z - first else -first
  else if gi = n + 1 then
    if c.out.grad then
      if c.inn.set then last + x0 (n + 1) z * c.par.sqrt (c.coef.gxx n) * c.coef.dx n else last
    else if c.out.set then 2 * x0 (n + 1) z - last else -last
  else x ((gi - 1) / c.nx) ((gi - 1) % c.nx + 1) (z + 1)

/-- `LaplaceMultigrid::solve(b, x0)`, multigrid_laplace.cxx L215-584.  The first guess (interior
of `x0`, or zero with `INVERT_START_NEW`, L228-247) is handed to `getSolution`, which does not
read it, so it does not appear. -/
def solve (c : Cfg K) (bin x0 : Nat → Nat → K) : Out (Nat → Nat → K) := do
  let x ← getSolution c.hier c.low c.arn c.plag (fineRhs c bin x0)
  .ok (result c x0 x)

end Verif.MG
