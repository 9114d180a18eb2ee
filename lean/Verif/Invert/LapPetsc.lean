import Mathlib.Algebra.Field.Basic
import Mathlib.Algebra.BigOperators.Group.List.Basic
import Mathlib.Tactic.Ring

/-! # Model of `LaplacePetsc` (`src/invert/laplace/impls/petsc/petsc_laplace.cxx`)

The `petsc` perpendicular Laplacian solver assembles, for one X-Z plane spread over all the
processors of an X communicator, one sparse PETSc matrix; it gives the system to a Krylov (or
direct) solver and copies the answer back.  The model covers the constructor's checks and
preallocation, `solve` (flag checks, assembly of all rows, right hand side, initial guess, copy
back), `Element` and `Coeffs`.

PETSc is represented by the documented meaning of the calls made:
* rows are owned in rank order, `localN` of them each (`MatGetOwnershipRange`);
* `MatSetValues(..., INSERT_VALUES)` ignores negative columns; returns an error (ignored by
  `Element`) and changes nothing for a column past the end, or for a new entry when the
  preallocated space of that part of the row (diagonal block/off-diagonal block) is used up;
  replaces the value of an entry which exists and otherwise adds the entry;
* the matrix keeps its entries between solves;
* `KSPSolve` is an arbitrary function of the assembled system; its contract is a hypothesis of
  the theorems. -/

namespace Verif.LapPetsc

/-- The X decomposition seen by the solver: `P` processors in the X communicator, `mx` interior
points each (`xend - xstart + 1`), `xs` guard cells (`xstart`), `nz` points in Z (`LocalNz`).
(boutmesh.cxx L353, L382-388.) -/
structure Grid where
  P : Nat
  mx : Nat
  xs : Nat
  nz : Nat

namespace Grid

/-- `localmesh->LocalNx` (boutmesh.cxx L382). -/
def LocalNx (g : Grid) : Int := (g.mx : Int) + 2 * (g.xs : Int)

/-- `localmesh->xend` (boutmesh.cxx L388). -/
def xend (g : Grid) : Int := (g.xs : Int) + (g.mx : Int) - 1

/-- `localmesh->firstX()` -/
def firstX (_g : Grid) (p : Nat) : Bool := decide (p = 0)

/-- `localmesh->lastX()` -/
def lastX (g : Grid) (p : Nat) : Bool := decide (p + 1 = g.P)

/-- `localN` (petsc_laplace.cxx L116-128). -/
def localN (g : Grid) (p : Nat) : Nat :=
  g.mx * g.nz + (if g.firstX p then g.xs * g.nz else 0) + (if g.lastX p then g.xs * g.nz else 0)

/-- First row of the matrix owned by processor `p` (`MatGetOwnershipRange`, L391): PETSc gives
each rank its `localN` rows in rank order. -/
def Istart (g : Grid) (p : Nat) : Nat := ((List.range p).map g.localN).sum

/-- One past the last row owned by `p`. -/
def Iend (g : Grid) (p : Nat) : Nat := g.Istart p + g.localN p

/-- `size`, the sum of `localN` over the communicator (L131). -/
def size (g : Grid) : Nat := g.Istart g.P

end Grid

/-- The fields read: metric components, the coefficients set by `setCoefA`, ..., the right hand
side and the initial guess, on the y-slice being inverted; `sg11` is `sqrt(g_11)`.  The same
structure serves for global fields (index `0` = outermost inner boundary point). -/
structure Flds (K : Type) where
  dx : Int → Int → K
  dz : Int → Int → K
  g11 : Int → Int → K
  g33 : Int → Int → K
  g13 : Int → Int → K
  G1 : Int → Int → K
  G3 : Int → Int → K
  ist : Int → Int → K
  sg11 : Int → Int → K
  A : Int → Int → K
  C1 : Int → Int → K
  C2 : Int → Int → K
  D : Int → Int → K
  Ex : Int → Int → K
  Ez : Int → Int → K
  b : Int → Int → K
  x0 : Int → Int → K

/-- The part of global fields stored on a processor whose local index `0` is the global index
`k`.  Guard cells hold the neighbour's values (the fields have been communicated). -/
def Flds.shift {K : Type} (f : Flds K) (k : Int) : Flds K where
  dx x z := f.dx (x + k) z
  dz x z := f.dz (x + k) z
  g11 x z := f.g11 (x + k) z
  g33 x z := f.g33 (x + k) z
  g13 x z := f.g13 (x + k) z
  G1 x z := f.G1 (x + k) z
  G3 x z := f.G3 (x + k) z
  ist x z := f.ist (x + k) z
  sg11 x z := f.sg11 (x + k) z
  A x z := f.A (x + k) z
  C1 x z := f.C1 (x + k) z
  C2 x z := f.C2 (x + k) z
  D x z := f.D (x + k) z
  Ex x z := f.Ex (x + k) z
  Ez x z := f.Ez (x + k) z
  b x z := f.b (x + k) z
  x0 x z := f.x0 (x + k) z

/-- Switches of the solver object. -/
structure Opts where
  fourth : Bool
  allTerms : Bool
  nonuniform : Bool
  incShear : Bool
  issetD : Bool
  issetC : Bool
  issetE : Bool
  globalFlags : Nat
  innerFlags : Nat
  outerFlags : Nat

/-- `INVERT_AC_GRAD`, `INVERT_SET`, `INVERT_RHS`, `INVERT_START_NEW`
(include/bout/invert_laplace.hxx L73-95). -/
def acGrad : Nat := 2
/-- See `acGrad`. -/
def invertSet : Nat := 16
/-- See `acGrad`. -/
def invertRhs : Nat := 32
/-- See `acGrad`. -/
def startNew : Nat := 2

/-- `a & b` used as a condition. -/
def has (a b : Nat) : Bool := (a &&& b) != 0

/-- `a & ~b` used as a condition (flags are non-negative). -/
def hasOther (a b : Nat) : Bool := (a ^^^ (a &&& b)) != 0

/-- C's logical not, as an int. -/
def lnot (a : Nat) : Nat := if a = 0 then 1 else 0

/-- `implemented_flags` (L83). -/
def implFlags : Nat := startNew

/-- `implemented_boundary_flags` (L84). -/
def implBndry : Nat := acGrad + invertSet + invertRhs

/-- What the constructor and `solve` throw. -/
inductive Err
  | flag
  | bndryFlag
  | periodicX
  | sanity1
  | sanity2
  | sanity3
  deriving DecidableEq

/-- The constructor's checks (L87-109). -/
def ctorCheck (o : Opts) (periodicX : Bool) : Except Err Unit :=
  if hasOther o.globalFlags implFlags then .error .flag
  else if hasOther o.innerFlags implBndry then .error .bndryFlag
  else if hasOther o.outerFlags implBndry then .error .bndryFlag
  else if periodicX then .error .periodicX
  else .ok ()

/-- The checks at the start of `solve` (L362-381): note `!implemented_flags`. -/
def solveCheck (o : Opts) : Except Err Unit :=
  if has o.globalFlags (lnot implFlags) then .error .flag
  else if hasOther o.innerFlags implBndry then .error .bndryFlag
  else if hasOther o.outerFlags implBndry then .error .bndryFlag
  else .ok ()

/-- `d_nnz`/`o_nnz` (L160-286): the assignments `(index, d_nnz, o_nnz)` made, in order.  The
four branches on `firstX()`/`lastX()` differ only in the off-diagonal numbers of the first and
of the last rows. -/
def nnzWrites (g : Grid) (fourth : Bool) (p : Nat) : List (Int × Nat × Nat) :=
  let n : Int := g.localN p
  if fourth then
    ((List.range g.nz).flatMap fun (i : Nat) =>
        [((i : Int), 15, if g.firstX p then 0 else 10),
         (n - 1 - (i : Int), 15, if g.lastX p then 0 else 10)])
      ++ ((List.range g.nz).flatMap fun (i : Nat) =>
        [((g.nz : Int) + (i : Int), 20, if g.firstX p then 0 else 5),
         (n - 1 - ((g.nz : Int) + (i : Int)), 20, if g.lastX p then 0 else 5)])
      ++ ((List.range (n - 4 * (g.nz : Int)).toNat).flatMap fun (i : Nat) =>
        [(2 * (g.nz : Int) + (i : Int), 25, 0),
         (n - 1 - (2 * (g.nz : Int) + (i : Int)), 25, 0)])
  else
    ((List.range g.nz).flatMap fun (i : Nat) =>
        [((i : Int), 6, if g.firstX p then 0 else 3),
         (n - 1 - (i : Int), 6, if g.lastX p then 0 else 3)])
      ++ ((List.range (n - 2 * (g.nz : Int)).toNat).flatMap fun (i : Nat) =>
        [((g.nz : Int) + (i : Int), 9, 0),
         (n - 1 - ((g.nz : Int) + (i : Int)), 9, 0)])

/-- The space preallocated in local row `k`: diagonal block and off-diagonal block. -/
def nnz (g : Grid) (fourth : Bool) (p : Nat) (k : Int) : Nat × Nat :=
  (nnzWrites g fourth p).foldl (fun acc w => if w.1 = k then w.2 else acc) (0, 0)

/-- `col_new` in `Element` and `zp`, `zm`, ... in `Coeffs`: one wrap of a Z index. -/
def wrapZ (nz : Nat) (z : Int) : Int :=
  if z < 0 then z + (nz : Int) else if z > (nz : Int) - 1 then z - (nz : Int) else z

section
variable {K : Type} [Field K]

/-- The five coefficients computed by `Coeffs`. -/
structure Cf (K : Type) where
  c1 : K
  c2 : K
  c3 : K
  c4 : K
  c5 : K

/-- `ddx_C` (L1054-1058, L1064-1065). -/
def ddxC (fourth : Bool) (f : Flds K) (x z : Int) : K :=
  if fourth then
    (-f.C2 (x + 2) z + 8 * f.C2 (x + 1) z - 8 * f.C2 (x - 1) z + f.C2 (x - 2) z)
      / (12 * f.dx x z * f.C1 x z)
  else (f.C2 (x + 1) z - f.C2 (x - 1) z) / (2 * f.dx x z * f.C1 x z)

/-- `ddz_C` (L1060-1062, L1067-1069). -/
def ddzC (nz : Nat) (fourth : Bool) (f : Flds K) (x z : Int) : K :=
  if fourth then
    (-f.C2 x (wrapZ nz (z + 2)) + 8 * f.C2 x (wrapZ nz (z + 1)) - 8 * f.C2 x (wrapZ nz (z - 1))
        + f.C2 x (wrapZ nz (z - 2))) / (12 * f.dz x z * f.C1 x z)
  else (f.C2 x (wrapZ nz (z + 1)) - f.C2 x (wrapZ nz (z - 1))) / (2 * f.dz x z * f.C1 x z)

/-- `LaplacePetsc::Coeffs` (L1000-1103). -/
def coeffs (g : Grid) (o : Opts) (f : Flds K) (x z : Int) : Cf K :=
  let c : Cf K := ⟨f.g11 x z, f.g33 x z, 2 * f.g13 x z, 0, 0⟩
  let c : Cf K := if o.allTerms then { c with c4 := f.G1 x z, c5 := f.G3 x z } else c
  let c : Cf K :=
    if o.nonuniform then
      if x ≠ 0 ∧ x ≠ g.LocalNx - 1 then
        { c with
          c4 := c.c4 - 1 / 2 * ((f.dx (x + 1) z - f.dx (x - 1) z) / (f.dx x z * f.dx x z)) * c.c1 }
      else c
    else c
  let c : Cf K :=
    if o.incShear then
      { c with c2 := c.c2 + f.g11 x z * f.ist x z * f.ist x z, c3 := 0 }
    else c
  let c : Cf K :=
    if o.issetD then
      ⟨c.c1 * f.D x z, c.c2 * f.D x z, c.c3 * f.D x z, c.c4 * f.D x z, c.c5 * f.D x z⟩
    else c
  let c : Cf K :=
    if o.issetC then
      if x > 1 ∧ x < g.LocalNx - 2 then
        { c with
          c4 := c.c4 + (f.g11 x z * ddxC o.fourth f x z + f.g13 x z * ddzC g.nz o.fourth f x z)
          c5 := c.c5 + (f.g13 x z * ddxC o.fourth f x z + f.g33 x z * ddzC g.nz o.fourth f x z) }
      else c
    else c
  if o.issetE then { c with c4 := c.c4 + f.Ex x z, c5 := c.c5 + f.Ez x z } else c

/-- The `Element` calls of an interior row, as `(xshift, zshift, value)`, given the coefficients
(L516-690). -/
def mainEntries (o : Opts) (f : Flds K) (c : Cf K) (x z : Int) : List (Int × Int × K) :=
  let A0 := f.A x z
  let A1 := c.c1
  let A2 := c.c2
  let A3 := c.c3
  let A4 := c.c4
  let A5 := c.c5
  let dx := f.dx x z
  let dx2 := dx * dx
  let dz := f.dz x z
  let dz2 := dz * dz
  let dxdz := dx * dz
  if o.fourth then
    [(0, 0, A0 - 5 / 2 * (A1 / dx2 + A2 / dz2)),
     (-2, -2, A3 / (144 * dxdz)),
     (-2, -1, -1 * A3 / (18 * dxdz)),
     (-2, 0, 1 / 12 * (-1 * A1 / dx2 + A4 / dx)),
     (-2, 1, A3 / (18 * dxdz)),
     (-2, 2, -1 * A3 / (144 * dxdz)),
     (-1, -2, -1 * A3 / (18 * dxdz)),
     (-1, -1, 4 * A3 / (9 * dxdz)),
     (-1, 0, 4 * A1 / (3 * dx2) - 2 * A4 / (3 * dx)),
     (-1, 1, -4 * A3 / (9 * dxdz)),
     (-1, 2, A3 / (18 * dxdz)),
     (0, -2, 1 / 12 * (-1 * A2 / dz2 + A5 / dz)),
     (0, -1, 4 * A2 / (3 * dz2) - 2 * A5 / (3 * dz)),
     (0, 1, 4 * A2 / (3 * dz2) + 2 * A5 / (3 * dz)),
     (0, 2, -1 / 12 * (A2 / dz2 + A5 / dz)),
     (1, -2, A3 / (18 * dxdz)),
     (1, -1, -4 * A3 / (9 * dxdz)),
     (1, 0, 4 * A1 / (3 * dx2) + 2 * A4 / (3 * dx)),
     (1, 1, 4 * A3 / (9 * dxdz)),
     (1, 2, -1 * A3 / (18 * dxdz)),
     (2, -2, -1 * A3 / (144 * dxdz)),
     (2, -1, A3 / (18 * dxdz)),
     (2, 0, -1 / 12 * (A1 / dx2 + A4 / dx)),
     (2, 1, -1 * A3 / (18 * dxdz)),
     (2, 2, A3 / (144 * dxdz))]
  else
    [(0, 0, A0 - 2 * (A1 / dx2 + A2 / dz2)),
     (-1, -1, A3 / (4 * dxdz)),
     (-1, 0, A1 / dx2 - A4 / (2 * dx)),
     (-1, 1, -1 * A3 / (4 * dxdz)),
     (0, -1, A2 / dz2 - A5 / (2 * dz)),
     (0, 1, A2 / dz2 + A5 / (2 * dz)),
     (1, -1, -1 * A3 / (4 * dxdz)),
     (1, 0, A1 / dx2 + A4 / (2 * dx)),
     (1, 1, A3 / (4 * dxdz))]

/-- The `Element` calls of an interior row (L503-690). -/
def mainCalls (g : Grid) (o : Opts) (f : Flds K) (x z : Int) : List (Int × Int × K) :=
  mainEntries o f (coeffs g o f x z) x z

/-- The `Element` calls of an inner boundary row (L425-472). -/
def innerCalls (o : Opts) (f : Flds K) (x z : Int) : List (Int × Int × K) :=
  let dx := f.dx x z
  let s := f.sg11 x z
  if has o.innerFlags acGrad then
    if o.fourth then
      [(0, 0, -25 / (12 * dx) / s), (1, 0, 4 / dx / s), (2, 0, -3 / dx / s),
       (3, 0, 4 / (3 * dx) / s), (4, 0, -1 / (4 * dx) / s)]
    else [(0, 0, -1 / dx / s), (1, 0, 1 / dx / s), (2, 0, 0)]
  else
    if o.fourth then [(0, 0, 1), (1, 0, 0), (2, 0, 0), (3, 0, 0), (4, 0, 0)]
    else [(0, 0, 1 / 2), (1, 0, 1 / 2), (2, 0, 0)]

/-- The `Element` calls of an outer boundary row (L711-767): the diagonal is set to 1 first. -/
def outerCalls (o : Opts) (f : Flds K) (x z : Int) : List (Int × Int × K) :=
  let dx := f.dx x z
  let s := f.sg11 x z
  (0, 0, 1) ::
    (if has o.outerFlags acGrad then
      if o.fourth then
        [(0, 0, 25 / (12 * dx) / s), (-1, 0, -4 / dx / s), (-2, 0, 3 / dx / s),
         (-3, 0, -4 / (3 * dx) / s), (-4, 0, 1 / (4 * dx) / s)]
      else [(0, 0, 1 / dx / s), (-1, 0, -1 / dx / s), (-2, 0, 0)]
    else
      if o.fourth then [(-1, 0, 0), (-2, 0, 0), (-3, 0, 0), (-4, 0, 0)]
      else [(0, 0, 1 / 2), (-1, 0, 1 / 2), (-2, 0, 0)])

/-- Right hand side of a boundary row (L474-482, L769-777). -/
def bndryRhs (flags : Nat) (f : Flds K) (x z : Int) : K :=
  if has flags invertRhs then f.b x z else if has flags invertSet then f.x0 x z else 0

/-- The column computed by `Element` (L919-942). -/
def column (g : Grid) (p : Nat) (x z xshift zshift : Int) : Int :=
  let xoffset : Int := ((g.Istart p / g.nz : Nat) : Int)
  let rowNew : Int := x + xshift
  let rowNew : Int := if g.firstX p then rowNew else rowNew + (xoffset - (g.xs : Int))
  rowNew * (g.nz : Int) + wrapZ g.nz (z + zshift)

/-- What is written to PETSc for one row: the `MatSetValues` calls, the right hand side and the
initial guess. -/
structure Row (K : Type) where
  i : Int
  entries : List (Int × K)
  rhs : K
  guess : K

/-- One pass of a loop body of `solve`: `Element` calls and `VecSetValues` at row `i`. -/
def mkRow (g : Grid) (p : Nat) (f : Flds K) (calls : Int → Int → List (Int × Int × K))
    (rhs : Int → Int → K) (i : Int) (c : Int × Int) : Row K :=
  { i := i
    entries := (calls c.1 c.2).map fun e => (column g p c.1 c.2 e.1 e.2.1, e.2.2)
    rhs := rhs c.1 c.2
    guess := f.x0 c.1 c.2 }

end

/-- A loop over cells incrementing `i`, as all loops of `solve` do; returns what the bodies
produced and the final `i`. -/
def numbered {α β : Type} (body : Int → α → β) : Int → List α → List β × Int
  | i, [] => ([], i)
  | i, c :: cs => (body i c :: (numbered body (i + 1) cs).1, (numbered body (i + 1) cs).2)

/-- `for (int x = a; x < a + n; x++) for (int z = 0; z < LocalNz; z++)`. -/
def cells (g : Grid) (a : Int) (n : Nat) : List (Int × Int) :=
  (List.range n).flatMap fun (k : Nat) =>
    (List.range g.nz).map fun (z : Nat) => (a + (k : Int), (z : Int))

/-- The cells of the three loops of `solve` on processor `p`: inner boundary, interior, outer
boundary (L417-419, L501-502, L704-706). -/
def innerCells (g : Grid) (p : Nat) : List (Int × Int) :=
  if g.firstX p then cells g 0 g.xs else []
/-- See `innerCells`. -/
def mainCells (g : Grid) : List (Int × Int) := cells g (g.xs : Int) g.mx
/-- See `innerCells`; `x` goes from `xend + 1` to `LocalNx - 1`. -/
def outerCells (g : Grid) (p : Nat) : List (Int × Int) :=
  if g.lastX p then cells g (g.xend + 1) (g.LocalNx - (g.xend + 1)).toNat else []

section
variable {K : Type} [Field K]

/-- The rows written by processor `p` in `solve` (L391-800), with the sanity checks 3 (in
`Element`, L921-923) and 1 (L798-800).  `f` are the fields stored on `p`. -/
def procRows (g : Grid) (o : Opts) (f : Flds K) (p : Nat) : Except Err (List (Row K)) :=
  if g.Istart p % g.nz ≠ 0 then .error .sanity3
  else
    let r1 := numbered (mkRow g p f (innerCalls o f) (bndryRhs o.innerFlags f)) (g.Istart p)
      (innerCells g p)
    let r2 := numbered (mkRow g p f (mainCalls g o f) f.b) r1.2 (mainCells g)
    let r3 := numbered (mkRow g p f (outerCalls o f) (bndryRhs o.outerFlags f)) r2.2
      (outerCells g p)
    if r3.2 ≠ (g.Iend p : Int) then .error .sanity1
    else .ok (r1.1 ++ r2.1 ++ r3.1)

/-- A sparse matrix: for each row the entries present. -/
abbrev Mat (K : Type) := Int → List (Int × K)

/-- A column in the diagonal block of processor `p`. -/
def inDiag (g : Grid) (p : Nat) (c : Int) : Bool :=
  decide ((g.Istart p : Int) ≤ c) && decide (c < (g.Iend p : Int))

/-- `MatSetValues` of one value with `INSERT_VALUES` in row `i` owned by `p` (see the header for
PETSc's rules): the new contents of the row. -/
def insertRow (g : Grid) (fourth : Bool) (p : Nat) (i : Int) (row : List (Int × K))
    (e : Int × K) : List (Int × K) :=
  let cap := nnz g fourth p (i - (g.Istart p : Int))
  if e.1 < 0 then row
  else if (g.size : Int) ≤ e.1 then row
  else if row.any (fun q => decide (q.1 = e.1)) then
    row.map fun q => if q.1 = e.1 then e else q
  else if inDiag g p e.1 then
    if (row.countP fun q => inDiag g p q.1) < cap.1 then row ++ [e] else row
  else
    if (row.countP fun q => !inDiag g p q.1) < cap.2 then row ++ [e] else row

/-- PETSc's objects: the matrix and the vectors `bs`, `xs`. -/
structure Sys (K : Type) where
  mat : Mat K
  bs : Int → K
  xs : Int → K

/-- The calls made for one row. -/
def putRow (g : Grid) (fourth : Bool) (p : Nat) (s : Sys K) (r : Row K) : Sys K where
  mat := fun i =>
    if i = r.i then r.entries.foldl (insertRow g fourth p r.i) (s.mat i) else s.mat i
  bs := fun i => if i = r.i then r.rhs else s.bs i
  xs := fun i => if i = r.i then r.guess else s.xs i

/-- Processors `0, …, p - 1` assemble (each only touches its own rows, so their order does not
matter). -/
def assembleUpTo (g : Grid) (o : Opts) (G : Flds K) (s : Sys K) : Nat → Except Err (Sys K)
  | 0 => .ok s
  | p + 1 => do
    let s' ← assembleUpTo g o G s p
    let rs ← procRows g o (G.shift ((p : Int) * (g.mx : Int))) p
    pure (rs.foldl (putRow g o.fourth p) s')

/-- All processors assemble. -/
def assemble (g : Grid) (o : Opts) (G : Flds K) (s : Sys K) : Except Err (Sys K) :=
  assembleUpTo g o G s g.P

/-- Copying `xs` into `sol` on processor `p` (L863-905): `sol` is zero to begin with (L388). -/
def copyBack (g : Grid) (p : Nat) (xs : Int → K) : Except Err (Int → Int → K) :=
  let body : Int → Int × Int → (Int × Int) × K := fun i c => (c, xs i)
  let r1 := numbered body (g.Istart p) (innerCells g p)
  let r2 := numbered body r1.2 (mainCells g)
  let r3 := numbered body r2.2 (outerCells g p)
  if r3.2 ≠ (g.Iend p : Int) then .error .sanity2
  else .ok ((r1.1 ++ r2.1 ++ r3.1).foldl
    (fun (s : Int → Int → K) w x z => if x = w.1.1 ∧ z = w.1.2 then w.2 else s x z)
    (fun _ _ => 0))

/-- The sequence of results over the processors. -/
def copyAll (g : Grid) (xs : Int → K) : Nat → Except Err (Nat → Int → Int → K)
  | 0 => .ok fun _ _ _ => 0
  | p + 1 => do
    let rest ← copyAll g xs p
    let here ← copyBack g p xs
    pure fun q => if q = p then here else rest q

/-- `LaplacePetsc::solve` on all processors: the state of the PETSc objects afterwards and the
field returned on each processor.  `ksp` is the linear solver: it sees the matrix, the right
hand side and the initial guess, and returns the solution vector. -/
def solve (g : Grid) (o : Opts) (G : Flds K) (ksp : Sys K → Int → K) (s : Sys K) :
    Except Err (Sys K × (Nat → Int → Int → K)) := do
  solveCheck o
  let s' ← assemble g o G s
  let x := ksp s'
  let sol ← copyAll g x g.P
  pure ({ s' with xs := x }, sol)

/-- The PETSc objects after construction: an empty matrix. -/
def fresh (bs xs : Int → K) : Sys K := ⟨fun _ => [], bs, xs⟩

/-- What it means that the linear solver solved the system. -/
def Solved (g : Grid) (s : Sys K) (x : Int → K) : Prop :=
  ∀ i : Int, 0 ≤ i → i < (g.size : Int) →
    ((s.mat i).map fun e => e.2 * x e.1).sum = s.bs i

end

end Verif.LapPetsc
