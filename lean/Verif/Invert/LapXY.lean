import Mathlib.Algebra.Field.Basic
import Mathlib.Algebra.BigOperators.Ring.Finset
import Mathlib.Tactic.Ring

/-! # Model of `LaplaceXY` (`src/invert/laplacexy/laplacexy.cxx`)

The X-Y Laplacian solver assembles one sparse PETSc matrix over all processors, numbering the
cells each processor owns, gives it to a Krylov solver and copies the answer back into a
`Field2D`.  The model covers the numbering, the assembly of the matrix in finite volume and in
finite difference form, the boundary rows, the right hand side and the copy back.  PETSc is
represented by the documented meaning of `MatSetValues`/`VecSetValues` with `INSERT_VALUES`
(the last value wins, negative indices are ignored); the Krylov solver by the contract that
it returns a vector satisfying the assembled system. -/

namespace Verif.LapXY

/-- A cell of the local grid, `(x, y)`. -/
abbrev Cell := Int × Int

/-- `for (int i = a; i <= b; i++)`, the loop form used throughout laplacexy.cxx. -/
def upto (a b : Int) : List Int :=
  (List.range (b + 1 - a).toNat).map fun (k : Nat) => a + (k : Int)

/-- What LaplaceXY reads from the mesh on one processor (include/bout/mesh.hxx:
`xstart`, `xend`, `ystart`, `yend`, `LocalNx`, `LocalNy`, `firstX()`, `lastX()`, the indices
visited by `iterateBndryLowerY()`/`iterateBndryUpperY()`, `hasBndryLowerY()` and
`hasBndryUpperY()`, mesh.cxx L400-426). -/
structure LMesh where
  LocalNx : Int
  LocalNy : Int
  xstart : Int
  xend : Int
  ystart : Int
  yend : Int
  firstX : Bool
  lastX : Bool
  lower : List Int
  upper : List Int
  hasLower : Bool
  hasUpper : Bool

/-- `it.ind < xstart or it.ind > xend` negated: not a corner cell (laplacexy.cxx L103, L121,
L603, ...). -/
def LMesh.inX (m : LMesh) (x : Int) : Bool := decide (m.xstart ≤ x) && decide (x ≤ m.xend)

/-- The boundary condition requested on the Y boundaries; any other string is refused by the
constructor (laplacexy.cxx L62-65). -/
inductive YB
  | dirichlet
  | neumann
  | free_o3
  deriving DecidableEq

/-- Options read by the constructor (laplacexy.cxx L41-60). -/
structure Opts where
  finiteVolume : Bool
  xInnerDirichlet : Bool
  yBndry : YB
  includeY : Bool

/-- The first and last X index given a row (laplacexy.cxx L140-147). -/
def LMesh.xs (m : LMesh) : Int := if m.firstX then m.xstart - 1 else m.xstart

/-- See `LMesh.xs`. -/
def LMesh.xe (m : LMesh) : Int := if m.lastX then m.xend + 1 else m.xend

/-- Corner cells of one Y boundary (laplacexy.cxx L109-117, L128-136); they exist only in the
finite difference form. -/
def LMesh.corners (m : LMesh) (fv has : Bool) (y : Int) : List Cell :=
  if !fv && has then
    (if m.firstX then [(m.xstart - 1, y)] else [])
      ++ (if m.lastX then [(m.xend + 1, y)] else [])
  else []

/-- The cells which get a row on this processor, in the order in which the constructor numbers
them (laplacexy.cxx L100-152). -/
def rowCells (fv : Bool) (m : LMesh) : List Cell :=
  ((m.lower.filter m.inX).map fun x => (x, m.ystart - 1))
    ++ m.corners fv m.hasLower (m.ystart - 1)
    ++ ((m.upper.filter m.inX).map fun x => (x, m.yend + 1))
    ++ m.corners fv m.hasUpper (m.yend + 1)
    ++ ((upto m.xs m.xe).flatMap fun x => (upto m.ystart m.yend).map fun y => (x, y))

/-- `indexXY(c) = ind++` for each cell in turn (laplacexy.cxx L96-152). -/
def number : List Cell → Int → (Cell → Int) → Int × (Cell → Int)
  | [], ind, f => (ind, f)
  | c :: cs, ind, f => number cs (ind + 1) (fun d => if d = c then ind else f d)

/-- The local numbering; `-1` marks cells out of the domain (laplacexy.cxx L94-152). -/
def localIndex (fv : Bool) (m : LMesh) : Cell → Int := (number (rowCells fv m) 0 fun _ => -1).2

/-- `LaplaceXY::localSize` (laplacexy.cxx L1799-1845). -/
def localSize (fv : Bool) (m : LMesh) : Int :=
  let nx := m.xend - m.xstart + 1
  let ny := m.yend - m.ystart + 1
  let n := nx * ny
  let n := if m.firstX then n + ny else n
  let n := if m.lastX then n + ny else n
  let n := n + ((m.lower.filter m.inX).length : Int)
  let n := if !fv && m.hasLower then
      n + (if m.firstX then 1 else 0) + (if m.lastX then 1 else 0) else n
  let n := n + ((m.upper.filter m.inX).length : Int)
  if !fv && m.hasUpper then
    n + (if m.firstX then 1 else 0) + (if m.lastX then 1 else 0) else n

/-- All processors of the run: their meshes, and where `communicate` takes the value of a guard
cell from (`none`: not a communicated cell).  The partner cell is one whose value before the
communication is used. -/
structure World where
  nproc : Nat
  mesh : Nat → LMesh
  partner : Nat → Cell → Option (Nat × Cell)

/-- `MatGetOwnershipRange`: rows are dealt out in rank order, `localN` to each processor
(laplacexy.cxx L76-91, L189-190). -/
def World.istart (w : World) (fv : Bool) : Nat → Int
  | 0 => 0
  | r + 1 => w.istart fv r + localSize fv (w.mesh r)

/-- The field `indexXY` after `indexXY += Istart; communicate(indexXY)`
(laplacexy.cxx L192-197). -/
def World.indexXY (w : World) (fv : Bool) (r : Nat) (c : Cell) : Int :=
  match w.partner r c with
  | some (s, d) => localIndex fv (w.mesh s) d + w.istart fv s
  | none => localIndex fv (w.mesh r) c + w.istart fv r

/-- `LaplaceXY::globalIndex` (laplacexy.cxx L1847-1854). -/
def World.globalIndex (w : World) (fv : Bool) (r : Nat) (c : Cell) : Int :=
  let m := w.mesh r
  if c.1 < 0 ∨ m.LocalNx ≤ c.1 ∨ c.2 < 0 ∨ m.LocalNy ≤ c.2 then -1 else w.indexXY fv r c

variable {K : Type} [Field K]

/-- Metric coefficients and the coefficients given to `setCoefs`, on one processor.
`ddyJg` is `DDY(J / g_22)`, used by the finite difference form. -/
structure Coefs (K : Type) where
  A : Cell → K
  B : Cell → K
  J : Cell → K
  g11 : Cell → K
  g22 : Cell → K
  g12 : Cell → K
  g23 : Cell → K
  g_22 : Cell → K
  g_23 : Cell → K
  dx : Cell → K
  dy : Cell → K
  G1 : Cell → K
  G2 : Cell → K
  d1_dx : Cell → K
  d1_dy : Cell → K
  ddyJg : Cell → K

/-- `0.5 * (f(c) + f(d))`. -/
def avg (f : Cell → K) (c d : Cell) : K := 1 / 2 * (f c + f d)

/-- Value of the flux coefficient through an X face (laplacexy.cxx L918-936). -/
def xval (q : Coefs K) (c d : Cell) : K :=
  avg q.A c d * avg q.J c d * avg q.g11 c d / (q.J c * avg q.dx c d * q.dx c)

/-- Value of the flux coefficient through a Y face (laplacexy.cxx L947-969). -/
def yval (q : Coefs K) (c d : Cell) : K :=
  -avg q.A c d * avg q.J c d * avg q.g23 c d * avg q.g_23 c d
    / (avg q.g_22 c d * q.J c * avg q.dy c d * q.dy c)

/-- The stencil of one interior row: column cells and values, in the order in which they are
inserted. -/
abbrev Stencil (K : Type) := List (Cell × K)

/-- One interior row of `setMatrixElementsFiniteVolume` (laplacexy.cxx L910-995). -/
def fvStencil (iy : Bool) (q : Coefs K) (c : Cell) : Stencil K :=
  let xr : Cell := (c.1 + 1, c.2)
  let xl : Cell := (c.1 - 1, c.2)
  let yr : Cell := (c.1, c.2 + 1)
  let yl : Cell := (c.1, c.2 - 1)
  let xp := xval q c xr
  let cc := -xp
  let xm := xval q c xl
  let cc := cc - xm
  let cc := cc + q.B c
  if iy then
    let yp := yval q c yr
    let cc := cc - yp
    let ym := yval q c yl
    let cc := cc - ym
    [(c, cc), (xr, xp), (xl, xm), (yr, yp), (yl, ym)]
  else [(c, cc), (xr, xp), (xl, xm)]

/-- One interior row of `setMatrixElementsFiniteDifference` (laplacexy.cxx L1024-1139). -/
def fdStencil (iy : Bool) (q : Coefs K) (c : Cell) : Stencil K :=
  let xr : Cell := (c.1 + 1, c.2)
  let xl : Cell := (c.1 - 1, c.2)
  let yr : Cell := (c.1, c.2 + 1)
  let yl : Cell := (c.1, c.2 - 1)
  let dx := q.dx c
  let val := q.A c * q.G1 c / (2 * dx)
  let xp := val
  let xm := -val
  let val := q.A c * q.g11 c / (dx * dx)
  let xp := xp + val
  let cc := -2 * val
  let xm := xm + val
  let val := q.A c * q.g11 c * q.d1_dx c / (2 * dx)
  let xp := xp + val
  let xm := xm - val
  let val := q.g11 c * (q.A xr - q.A xl) / (4 * (dx * dx))
  let xp := xp + val
  let xm := xm - val
  let cc := cc + q.B c
  if iy then
    let dy := q.dy c
    let dAdx := (q.A xr - q.A xl) / (2 * dx)
    let dAdy := (q.A yr - q.A yl) / (2 * dy)
    let coef_dfdy := q.G2 c - q.ddyJg c / q.J c
    let val := q.A c * coef_dfdy / (2 * dy)
    let yp := val
    let ym := -val
    let val := q.A c * (q.g22 c - 1 / q.g_22 c) / (dy * dy)
    let yp := yp + val
    let cc := cc - 2 * val
    let ym := ym + val
    let val := q.A c * (q.g22 c - 1 / q.g_22 c) * q.d1_dy c / (2 * dy)
    let yp := yp + val
    let ym := ym - val
    let val := q.A c * q.g12 c / (2 * dx * dy)
    let xpyp := val
    let xpym := -val
    let xmyp := -val
    let xmym := val
    let val := (q.g22 c - 1 / q.g_22 c) * dAdy / (2 * dy)
    let yp := yp + val
    let ym := ym - val
    let val := q.g12 c * dAdx / (2 * dy)
    let yp := yp + val
    let ym := ym - val
    let val := q.g12 c * dAdy / (2 * dx)
    let xp := xp + val
    let xm := xm - val
    [(c, cc), (xr, xp), (xl, xm), (yr, yp), (yl, ym),
     ((c.1 + 1, c.2 + 1), xpyp), ((c.1 + 1, c.2 - 1), xpym),
     ((c.1 - 1, c.2 + 1), xmyp), ((c.1 - 1, c.2 - 1), xmym)]
  else [(c, cc), (xr, xp), (xl, xm)]

/-- Dirichlet row: half of the boundary cell and half of the first cell inside
(laplacexy.cxx L570-577, L604-611, L621-632). -/
def dirichletRow (c i : Cell) : Stencil K := [(c, 1 / 2), (i, 1 / 2)]

/-- Neumann row (laplacexy.cxx L588-596, L648-659). -/
def neumannRow (c i : Cell) : Stencil K := [(c, 1), (i, -1)]

/-- Third order extrapolation (laplacexy.cxx L678-717). -/
def freeRow (c i j k : Cell) : Stencil K := [(c, 1), (i, -3), (j, 3), (k, -1)]

/-- The row of a Y boundary cell at column `x`: `yb` the boundary cell, `d = 1` for the lower
boundary, `d = -1` for the upper one (laplacexy.cxx L617-720). -/
def yRow (b : YB) (x yb d : Int) : Stencil K :=
  match b with
  | .dirichlet => dirichletRow (x, yb) (x, yb + d)
  | .neumann => neumannRow (x, yb) (x, yb + d)
  | .free_o3 => freeRow (x, yb) (x, yb + d) (x, yb + 2 * d) (x, yb + 3 * d)

/-- The row of a corner cell (laplacexy.cxx L722-872): Neumann, otherwise extrapolation. -/
def cornerRow (b : YB) (x yb d : Int) : Stencil K :=
  match b with
  | .neumann => neumannRow (x, yb) (x, yb + d)
  | .dirichlet => freeRow (x, yb) (x, yb + d) (x, yb + 2 * d) (x, yb + 3 * d)
  | .free_o3 => freeRow (x, yb) (x, yb + d) (x, yb + 2 * d) (x, yb + 3 * d)

/-- The rows written by `setCoefs` on one processor, with the stencil of each, in program order
(laplacexy.cxx L550-872). -/
def rowsWritten (o : Opts) (m : LMesh) (q : Coefs K) : List (Cell × Stencil K) :=
  ((upto m.xstart m.xend).flatMap fun x => (upto m.ystart m.yend).map fun y =>
      ((x, y), if o.finiteVolume then fvStencil o.includeY q (x, y)
               else fdStencil o.includeY q (x, y)))
    ++ (if m.firstX then (upto m.ystart m.yend).map fun y =>
          ((m.xstart - 1, y), if o.xInnerDirichlet
            then dirichletRow (m.xstart - 1, y) (m.xstart, y)
            else neumannRow (m.xstart - 1, y) (m.xstart, y)) else [])
    ++ (if m.lastX then (upto m.ystart m.yend).map fun y =>
          ((m.xend + 1, y), dirichletRow (m.xend + 1, y) (m.xend, y)) else [])
    ++ ((m.lower.filter m.inX).map fun x => ((x, m.ystart - 1), yRow o.yBndry x (m.ystart - 1) 1))
    ++ ((m.upper.filter m.inX).map fun x => ((x, m.yend + 1), yRow o.yBndry x (m.yend + 1) (-1)))
    ++ ((m.corners o.finiteVolume m.hasLower (m.ystart - 1)).map fun c =>
          (c, cornerRow o.yBndry c.1 (m.ystart - 1) 1))
    ++ ((m.corners o.finiteVolume m.hasUpper (m.yend + 1)).map fun c =>
          (c, cornerRow o.yBndry c.1 (m.yend + 1) (-1)))

/-- Meaning of a sequence of `MatSetValues(..., INSERT_VALUES)` calls: the last value given to
an entry, zero if none; negative rows and columns are ignored. -/
def entry (ops : List (Int × Int × K)) (i j : Int) : K :=
  ops.foldl (fun v op => if op.1 = i ∧ op.2.1 = j ∧ 0 ≤ i ∧ 0 ≤ j then op.2.2 else v) 0

/-- The calls of one processor (laplacexy.cxx L972-994, L1108-1138, L550-872). -/
def rankOps (w : World) (o : Opts) (r : Nat) (q : Coefs K) : List (Int × Int × K) :=
  (rowsWritten o (w.mesh r) q).flatMap fun p => p.2.map fun e =>
    (w.globalIndex o.finiteVolume r p.1, w.globalIndex o.finiteVolume r e.1, e.2)

/-- The assembled matrix of the whole run. -/
def matOps (w : World) (o : Opts) (q : Nat → Coefs K) : List (Int × Int × K) :=
  (List.range w.nproc).flatMap fun r => rankOps w o r (q r)

/-- The right hand side put in the boundary rows of the finite volume form
(laplacexy.cxx L1299-1400): half the sum of the guess in the boundary cell and in the cell inside
for Dirichlet, zero otherwise.  Of the finite difference form (laplacexy.cxx L1402-1700): the guess
in the boundary cell for Dirichlet, zero otherwise. -/
def bndryVal (fv dir : Bool) (x0 : Cell → K) (c i : Cell) : K :=
  if dir then (if fv then 1 / 2 * (x0 c + x0 i) else x0 c) else 0

/-- Entries of the right hand side written by `solve` on one processor, in program order
(laplacexy.cxx L1170-1180, L1299-1700). -/
def rhsWritten (o : Opts) (m : LMesh) (rhs x0 : Cell → K) : List (Cell × K) :=
  let yd := decide (o.yBndry = .dirichlet)
  ((upto m.xstart m.xend).flatMap fun x => (upto m.ystart m.yend).map fun y =>
      ((x, y), rhs (x, y)))
    ++ (if m.firstX then (upto m.ystart m.yend).map fun y =>
          ((m.xstart - 1, y),
            bndryVal o.finiteVolume o.xInnerDirichlet x0 (m.xstart - 1, y) (m.xstart, y)) else [])
    ++ (if m.lastX then (upto m.ystart m.yend).map fun y =>
          ((m.xend + 1, y),
            bndryVal o.finiteVolume true x0 (m.xend + 1, y) (m.xend, y)) else [])
    ++ ((m.lower.filter m.inX).map fun x => ((x, m.ystart - 1),
            bndryVal o.finiteVolume yd x0 (x, m.ystart - 1) (x, m.ystart)))
    ++ ((m.upper.filter m.inX).map fun x => ((x, m.yend + 1),
            bndryVal o.finiteVolume yd x0 (x, m.yend + 1) (x, m.yend)))
    ++ ((m.corners o.finiteVolume m.hasLower (m.ystart - 1)).map fun c => (c, 0))
    ++ ((m.corners o.finiteVolume m.hasUpper (m.yend + 1)).map fun c => (c, 0))

/-- `VecSetValues(..., INSERT_VALUES)`: the last value wins, entries not written keep the value
`old` of the previous solve. -/
def vecEntry (old : Int → K) (ops : List (Int × K)) (i : Int) : K :=
  ops.foldl (fun v op => if op.1 = i ∧ 0 ≤ i then op.2 else v) (old i)

/-- The right hand side vector of the whole run. -/
def vecOps (w : World) (o : Opts) (rhs x0 : Nat → Cell → K) : List (Int × K) :=
  (List.range w.nproc).flatMap fun r => (rhsWritten o (w.mesh r) (rhs r) (x0 r)).map fun e =>
    (w.globalIndex o.finiteVolume r e.1, e.2)

/-- Contract of `KSPSolve` when it reports convergence, in exact arithmetic: the returned vector
satisfies every row of the assembled system (laplacexy.cxx L1199-1208; a reported failure is
turned into an exception there). -/
def KspSolved (w : World) (o : Opts) (q : Nat → Coefs K) (old : Int → K)
    (rhs x0 : Nat → Cell → K) (xs : Int → K) : Prop :=
  ∀ i : Nat, (i : Int) < w.istart o.finiteVolume w.nproc →
    (∑ j ∈ Finset.range (w.istart o.finiteVolume w.nproc).toNat,
      entry (matOps w o q) (i : Int) (j : Int) * xs (j : Int))
      = vecEntry old (vecOps w o rhs x0) (i : Int)

/-- Cells of the result which `solve` writes, with the row whose value they get, in program order
(laplacexy.cxx L1225-1296). -/
def resultWrites (o : Opts) (m : LMesh) : List (Cell × Cell) :=
  let ok : Int → Bool := fun x =>
    !((o.finiteVolume && (decide (x < m.xstart) || decide (m.xend < x)))
      || (decide (x < m.xstart - 1) || decide (m.xend + 1 < x)))
  ((upto m.xstart m.xend).flatMap fun x => (upto m.ystart m.yend).map fun y => ((x, y), (x, y)))
    ++ (if m.firstX then (upto m.ystart m.yend).flatMap fun y =>
          ((upto 0 (m.xstart - 1)).reverse.map fun x => ((x, y), (m.xstart - 1, y))) else [])
    ++ (if m.lastX then (upto m.ystart m.yend).flatMap fun y =>
          ((upto (m.xend + 1) (m.LocalNx - 1)).map fun x => ((x, y), (m.xend + 1, y))) else [])
    ++ ((m.lower.filter ok).flatMap fun x =>
          (upto 0 (m.ystart - 1)).reverse.map fun y => ((x, y), (x, m.ystart - 1)))
    ++ ((m.upper.filter ok).flatMap fun x =>
          (upto (m.yend + 1) (m.LocalNy - 1)).map fun y => ((x, y), (x, m.yend + 1)))

/-- The field returned by `solve` on processor `r`; `none` where nothing is written (the field is
allocated but not initialised, laplacexy.cxx L1221-1296). -/
def result (w : World) (o : Opts) (xs : Int → K) (r : Nat) (c : Cell) : Option K :=
  (resultWrites o (w.mesh r)).foldl
    (fun v p => if p.1 = c then some (xs (w.globalIndex o.finiteVolume r p.2)) else v) none

/-- `communicate(result)` after the solve: guard cells get the partner's value. -/
def communicated (w : World) (o : Opts) (xs : Int → K) (r : Nat) (c : Cell) : Option K :=
  match w.partner r c with
  | some (s, d) => result w o xs s d
  | none => result w o xs r c

/-- `Coordinates::Laplace_perpXY` at one cell (coordinates.cxx L1838-1884). -/
def laplacePerpXY (q : Coefs K) (f : Cell → K) (c : Cell) : K :=
  let xr : Cell := (c.1 + 1, c.2)
  let xl : Cell := (c.1 - 1, c.2)
  let yr : Cell := (c.1, c.2 + 1)
  let yl : Cell := (c.1, c.2 - 1)
  0 + avg q.A c xr * avg q.J c xr * avg q.g11 c xr / (q.J c * avg q.dx c xr * q.dx c)
        * (f xr - f c)
    + avg q.A c xl * avg q.J c xl * avg q.g11 c xl / (q.J c * avg q.dx c xl * q.dx c)
        * (f xl - f c)
    + -avg q.A c yr * avg q.J c yr * avg q.g23 c yr * avg q.g_23 c yr
        / (avg q.g_22 c yr * q.J c * avg q.dy c yr * q.dy c) * (f yr - f c)
    + -avg q.A c yl * avg q.J c yl * avg q.g23 c yl * avg q.g_23 c yl
        / (avg q.g_22 c yl * q.J c * avg q.dy c yl * q.dy c) * (f yl - f c)

end Verif.LapXY
