import Mathlib.Algebra.Field.Basic
import Mathlib.Algebra.BigOperators.Group.List.Basic
import Verif.Common

/-!
# The three-dimensional Laplacian solvers

Model of src/invert/laplace/impls/petsc3damg/petsc3damg.cxx and hypre3d/hypre3d_laplace.cxx, and of the matrices
they are written with: `PetscMatrix` (include/bout/petsc_interface.hxx) and `HypreMatrix`
(include/bout/hypre_interface.hxx), with their views `yup()` and `ydown()` for parallel slices.

A point stands for an unknown: cells that are the same cell on different processors (interior there, guard cell
here) are one point; that the global numbering identifies exactly these is C39.  The grid, its boundaries, the
neighbours of a point and the weights of the parallel transform are arbitrary.  The Krylov solver is external:
what is stated is which equations it is given.  Preallocation, tolerances and the choice of preconditioner are
left out.  Exact arithmetic.
-/

namespace Verif.Lap3D

/-! ## Matrices -/

/-- Writing or adding (`INSERT_VALUES`, `ADD_VALUES`). -/
inductive Mode
  | insert
  | add
  deriving DecidableEq

/-- `PetscMatrix`: the entries, and the mode of the values set since the last assembly (PETSc refuses to mix
them). -/
structure PMat (P K : Type) where
  ent : P → P → K
  mode : Option Mode

variable {P K : Type} [DecidableEq P] [Field K]

/-- One column of `MatSetValues` on a row: PETSc ignores columns that have no number (index -1). -/
def putCol (indexed : P → Bool) (mode : Mode) (r : P → K) (pv : P × K) : P → K :=
  if indexed pv.1 then fun c => if c = pv.1 then (match mode with
    | .insert => pv.2
    | .add => r c + pv.2) else r c
  else r

/-- `PetscMatrix::Element::setValues`, petsc_interface.hxx L437-452: `weight * val` at every position of one
row. -/
def PMat.setValues (indexed : P → Bool) (m : PMat P K) (row : P) (pw : List (P × K)) (val : K) (mode : Mode) :
    Out (PMat P K) :=
  if m.mode = none ∨ m.mode = some mode then
    .ok { ent := fun r => if r = row then (pw.map fun p => (p.1, p.2 * val)).foldl (putCol indexed mode) (m.ent row) else m.ent r,
          mode := some mode }
  else .error (.exc "Error when setting elements of a PETSc matrix.")

/-- Which parallel slice of the matrix: `m`, `m.yup()`, `m.ydown()`. -/
inductive Slice
  | here
  | up
  | down
  deriving DecidableEq

/-- One statement on a matrix. -/
inductive Op (P K : Type)
  /-- `m.slice(row, col) = val` or `+= val` -/
  | put (s : Slice) (row col : P) (mode : Mode) (val : K)
  /-- `m.partialAssemble()` (L525-528) or `m.assemble()` (L518-521) -/
  | assemble

/-- The grid: neighbours, regions of the indexer, which cells have a number, and the weights with which the
parallel transform makes the value of the slice above (below) at a cell, `getWeightsForYUpApproximation`
(`Down`). -/
structure Grid (P K : Type) where
  xp : P → P
  xm : P → P
  yp : P → P
  ym : P → P
  zp : P → P
  zm : P → P
  nobndry : List P
  innerX : List P
  outerX : List P
  lowerY : List P
  upperY : List P
  indexed : P → Bool
  /-- `l.y() == yend && upperY.intersects(l.x())`: the cell above is a boundary cell -/
  atUpper : P → Bool
  atLower : P → Bool
  wUp : P → List (P × K)
  wDown : P → List (P × K)

/-- Positions and weights of an element, petsc_interface.hxx L377-380 and L466-504: the column itself without an
offset. -/
def weights (g : Grid P K) (s : Slice) (col : P) : List (P × K) :=
  match s with
  | .here => [(col, 1)]
  | .up => if (g.wUp col).isEmpty then [(col, 1)] else g.wUp col
  | .down => if (g.wDown col).isEmpty then [(col, 1)] else g.wDown col

/-- `operator()` (L454-506) followed by `=` (L393-399) or `+=` (L400-411). -/
def exec (g : Grid P K) (m : PMat P K) : Op P K → Out (PMat P K)
  | .assemble => .ok { m with mode := none }
  | .put s row col mode val =>
    if g.indexed row = false ∨ g.indexed col = false then .error (.exc "Request to return invalid matrix element")
    else m.setValues g.indexed row (weights g s col) val mode

/-- A sequence of statements. -/
def runOps (g : Grid P K) : PMat P K → List (Op P K) → Out (PMat P K)
  | m, [] => .ok m
  | m, op :: ops => match exec g m op with
    | .error e => .error e
    | .ok m' => runOps g m' ops

/-! ### HypreMatrix -/

/-- `HypreMatrix::V`, `J`: for each row a list of columns with values. -/
abbrev HMat (P K : Type) := P → List (P × K)

/-- `setVal`, hypre_interface.hxx L546-565 (the first entry with the column, else at the end). -/
def setVal (col : P) (v : K) : List (P × K) → List (P × K)
  | [] => [(col, v)]
  | (c, w) :: r => if c = col then (c, v) :: r else (c, w) :: setVal col v r

/-- `addVal`, hypre_interface.hxx L582-601. -/
def addVal (col : P) (v : K) : List (P × K) → List (P × K)
  | [] => [(col, v)]
  | (c, w) :: r => if c = col then (c, w + v) :: r else (c, w) :: addVal col v r

/-- `getVal`, hypre_interface.hxx L517-530. -/
def getVal (col : P) : List (P × K) → K
  | [] => 0
  | (c, w) :: r => if c = col then w else getVal col r

/-- `Element::setValues`, `addValues` (L463-495): one entry after the other. -/
def hput (mode : Mode) (r : List (P × K)) (pv : P × K) : List (P × K) :=
  match mode with
  | .insert => setVal pv.1 pv.2 r
  | .add => addVal pv.1 pv.2 r

/-- `operator()` (L620-670) and `=`, `+=` (L441-459).  Assembling copies all entries (L672-716). -/
def hexec (g : Grid P K) (m : HMat P K) : Op P K → Out (HMat P K)
  | .assemble => .ok m
  | .put s row col mode val =>
    if g.indexed row = false ∨ g.indexed col = false then .error (.exc "Invalid HypreMatrix element")
    else .ok fun r => if r = row then ((weights g s col).map fun p => (p.1, p.2 * val)).foldl (hput mode) (m row) else m r

def hrunOps (g : Grid P K) : HMat P K → List (Op P K) → Out (HMat P K)
  | m, [] => .ok m
  | m, op :: ops => match hexec g m op with
    | .error e => .error e
    | .ok m' => hrunOps g m' ops

/-! ## The solver -/

/-- Metric quantities (`coords`), with `sg11 = sqrt(g_11)`, `sg22 = sqrt(g_22)`. -/
structure Metric (P K : Type) where
  dx : P → K
  dy : P → K
  dz : P → K
  g11 : P → K
  g22 : P → K
  g33 : P → K
  g12 : P → K
  g13 : P → K
  g23 : P → K
  g_22 : P → K
  sg11 : P → K
  sg22 : P → K
  G1 : P → K
  G2 : P → K
  G3 : P → K
  J : P → K
  d1_dx : P → K
  d1_dy : P → K
  nonuniform : Bool
  /-- the derivative operators applied to coefficients, `DDX`, `DDY`, `DDZ` -/
  DDX : (P → K) → P → K
  DDY : (P → K) → P → K
  DDZ : (P → K) → P → K

/-- Coefficient fields and which were set (petsc3damg.hxx, members). -/
structure Coefs (P K : Type) where
  A : P → K
  C1 : P → K
  C2 : P → K
  D : P → K
  Ex : P → K
  Ez : P → K
  issetC : Bool
  issetD : Bool
  issetE : Bool

/-- Boundary flags: gradient (`INVERT_AC_GRAD`), value from `x0` (`INVERT_SET`), value from `b` (`INVERT_RHS`). -/
structure Flags where
  grad : Bool
  set : Bool
  rhs : Bool

structure AllFlags where
  inner : Flags
  outer : Flags
  lower : Flags
  upper : Flags

/-- The two statements of one boundary cell: petsc3damg.cxx L143-194 (constructor). `nb` is the cell inside, `d`
the distance, `sgn` the sign of the cell's own entry in the gradient. -/
def bndryOps (grad : Bool) (i nb : P) (d sgn : K) : List (Op P K) :=
  if grad then [.put .here i i .insert (sgn * 1 / d), .put .here i nb .insert (-sgn * 1 / d)]
  else [.put .here i i .insert (1 / 2), .put .here i nb .insert (1 / 2)]

/-- The constructor's statements, petsc3damg.cxx L142-194, hypre3d_laplace.cxx L99-148. -/
def setupOps (g : Grid P K) (mt : Metric P K) (fl : AllFlags) : List (Op P K) :=
  g.innerX.flatMap (fun i => bndryOps fl.inner.grad i (g.xp i) (mt.dx i * mt.sg11 i) (-1)) ++
  g.outerX.flatMap (fun i => bndryOps fl.outer.grad i (g.xm i) (mt.dx i * mt.sg11 i) 1) ++
  g.lowerY.flatMap (fun i => bndryOps fl.lower.grad i (g.yp i) (mt.dy i * mt.sg22 i) (-1)) ++
  g.upperY.flatMap (fun i => bndryOps fl.upper.grad i (g.ym i) (mt.dy i * mt.sg22 i) 1)

/-- petsc3damg.cxx L396-397: at the boundary the slice is the field itself. -/
def upSlice (g : Grid P K) (l : P) : Slice := if g.atUpper l then .here else .up
def downSlice (g : Grid P K) (l : P) : Slice := if g.atLower l then .here else .down

/-- The first loop of `updateMatrix3D`, petsc3damg.cxx L330-408, at `l`. -/
def insertOps (g : Grid P K) (mt : Metric P K) (c : Coefs P K) (l : P) : List (Op P K) :=
  let dc_dx := mt.DDX c.C2 l
  let dc_dy := mt.DDY c.C2 l
  let dc_dz := mt.DDZ c.C2 l
  let cx := mt.G1 l
  let cz := mt.G3 l
  let cx := if c.issetD then cx * c.D l else cx
  let cz := if c.issetD then cz * c.D l else cz
  let cx := if c.issetC then cx + (mt.g11 l * dc_dx + mt.g12 l * dc_dy + mt.g13 l * dc_dz) / c.C1 l else cx
  let cz := if c.issetC then cz + (mt.g13 l * dc_dx + mt.g23 l * dc_dy + mt.g33 l * dc_dz) / c.C1 l else cz
  let cx := if c.issetE then cx + c.Ex l else cx
  let cz := if c.issetE then cz + c.Ez l else cz
  let cxx := mt.g11 l
  let cyy := mt.g22 l - 1 / mt.g_22 l
  let czz := mt.g33 l
  let cxx := if c.issetD then cxx * c.D l else cxx
  let cyy := if c.issetD then cyy * c.D l else cyy
  let czz := if c.issetD then czz * c.D l else czz
  let cxz := 2 * mt.g13 l
  let cxz := if c.issetD then cxz * c.D l else cxz
  let cx := if mt.nonuniform then cx + cxx * mt.d1_dx l else cx
  let cx := cx / (2 * mt.dx l)
  let cz := cz / (2 * mt.dz l)
  let cxx := cxx / (mt.dx l * mt.dx l)
  let cyy := cyy / (mt.dy l * mt.dy l)
  let czz := czz / (mt.dz l * mt.dz l)
  let cxz := cxz / (4 * mt.dx l * mt.dz l)
  let u := upSlice g l
  let d := downSlice g l
  [.put .here l l .insert (-2 * (cxx + cyy + czz) + c.A l),
   .put .here l (g.xp l) .insert (cx + cxx),
   .put .here l (g.xm l) .insert (-cx + cxx),
   .put .here l (g.zp l) .insert (cz + czz),
   .put .here l (g.zm l) .insert (-cz + czz),
   .put .here l (g.zp (g.xp l)) .insert cxz,
   .put .here l (g.zm (g.xp l)) .insert (-cxz),
   .put .here l (g.zp (g.xm l)) .insert (-cxz),
   .put .here l (g.zm (g.xm l)) .insert cxz,
   .put u l (g.yp l) .insert 0,
   .put d l (g.ym l) .insert 0,
   .put u l (g.yp (g.xp l)) .insert 0,
   .put d l (g.ym (g.xp l)) .insert 0,
   .put u l (g.yp (g.xm l)) .insert 0,
   .put d l (g.ym (g.xm l)) .insert 0,
   .put u l (g.zp (g.yp l)) .insert 0,
   .put u l (g.zm (g.yp l)) .insert 0,
   .put d l (g.zp (g.ym l)) .insert 0,
   .put d l (g.zm (g.ym l)) .insert 0]

/-- The second loop, petsc3damg.cxx L411-465, at `l`. -/
def addOps (g : Grid P K) (mt : Metric P K) (c : Coefs P K) (l : P) : List (Op P K) :=
  let dc_dx := mt.DDX c.C2 l
  let dc_dy := mt.DDY c.C2 l
  let dc_dz := mt.DDZ c.C2 l
  let dJ_dy := mt.DDY (fun p => mt.J p / mt.g_22 p) l
  let cy := mt.G2 l - dJ_dy / mt.J l
  let cy := if c.issetD then cy * c.D l else cy
  let cy := if c.issetC then
    cy + (mt.g12 l * dc_dx + (mt.g22 l - 1 / mt.g_22 l) * dc_dy + mt.g23 l * dc_dz) / c.C1 l else cy
  let cyy := mt.g22 l - 1 / mt.g_22 l
  let cyy := if c.issetD then cyy * c.D l else cyy
  let cxy := 2 * mt.g12 l
  let cyz := 2 * mt.g23 l
  let cxy := if c.issetD then cxy * c.D l else cxy
  let cyz := if c.issetD then cyz * c.D l else cyz
  let cy := if mt.nonuniform then cy + cyy * mt.d1_dy l else cy
  let cy := cy / (2 * mt.dy l)
  let cyy := cyy / (mt.dy l * mt.dy l)
  let cxy := cxy / (4 * mt.dx l)
  let cyz := cyz / (4 * mt.dy l * mt.dz l)
  let u := upSlice g l
  let d := downSlice g l
  [.put u l (g.yp l) .add (cy + cyy),
   .put d l (g.ym l) .add (-cy + cyy),
   .put u l (g.yp (g.xp l)) .add (cxy / mt.dy (g.xp l)),
   .put d l (g.ym (g.xp l)) .add (-cxy / mt.dy (g.xp l)),
   .put u l (g.yp (g.xm l)) .add (-cxy / mt.dy (g.xm l)),
   .put d l (g.ym (g.xm l)) .add (cxy / mt.dy (g.xm l)),
   .put u l (g.zp (g.yp l)) .add cyz,
   .put u l (g.zm (g.yp l)) .add (-cyz),
   .put d l (g.zp (g.ym l)) .add (-cyz),
   .put d l (g.zm (g.ym l)) .add cyz]

/-- `updateMatrix3D`, petsc3damg.cxx L322-467, hypre3d_laplace.cxx L278-418 (which does not assemble between the
loops). -/
def updateOps (g : Grid P K) (mt : Metric P K) (c : Coefs P K) : List (Op P K) :=
  g.nobndry.flatMap (insertOps g mt c) ++ [.assemble] ++ g.nobndry.flatMap (addOps g mt c) ++ [.assemble]

/-- The right-hand side, petsc3damg.cxx L217-261: `b` everywhere with a number, then the boundary cells, region by
region, unless `INVERT_RHS`. -/
def setBndry (f : Flags) (x0 : P → K) (cells : List P) (r : P → K) : P → K :=
  cells.foldl (fun r i => if f.rhs then r else fun p => if p = i then (if f.set then x0 i else 0) else r p) r

def rhsOf (g : Grid P K) (fl : AllFlags) (b x0 : P → K) : P → K :=
  setBndry fl.upper x0 g.upperY (setBndry fl.lower x0 g.lowerY (setBndry fl.outer x0 g.outerX
    (setBndry fl.inner x0 g.innerX b)))

/-- The solver object. -/
structure Solver (P K : Type) where
  coefs : Coefs P K
  flags : AllFlags
  mat : PMat P K
  updateRequired : Bool

/-- Which coefficient a call sets. -/
inductive Coef
  | A
  | C
  | C1
  | C2
  | D
  | Ex
  | Ez

/-- `setCoef…(Field2D)` (`is2d`) and `(Field3D)`, petsc3damg.hxx L76-162.  The 2D `setCoefC1` does not ask for an
update. -/
def setCoef (which : Coef) (is2d : Bool) (v : P → K) (s : Solver P K) : Solver P K :=
  match which with
  | .A => { s with coefs := { s.coefs with A := v }, updateRequired := true }
  | .C => { s with coefs := { s.coefs with C1 := v, C2 := v, issetC := true }, updateRequired := true }
  | .C1 => { s with coefs := { s.coefs with C1 := v, issetC := true },
                    updateRequired := if is2d then s.updateRequired else true }
  | .C2 => { s with coefs := { s.coefs with C2 := v, issetC := true }, updateRequired := true }
  | .D => { s with coefs := { s.coefs with D := v, issetD := true }, updateRequired := true }
  | .Ex => { s with coefs := { s.coefs with Ex := v, issetE := true }, updateRequired := true }
  | .Ez => { s with coefs := { s.coefs with Ez := v, issetE := true }, updateRequired := true }

/-- `if (updateRequired) updateMatrix3D()`, petsc3damg.cxx L213-215 and L315-320. -/
def refresh (g : Grid P K) (mt : Metric P K) (s : Solver P K) : Out (Solver P K) :=
  if s.updateRequired then
    match runOps g s.mat (updateOps g mt s.coefs) with
    | .error e => .error e
    | .ok m => .ok { s with mat := m, updateRequired := false }
  else .ok s

/-- A call by the user. -/
inductive Call (P K : Type)
  | setCoef (which : Coef) (is2d : Bool) (v : P → K)
  /-- `setInnerBoundaryFlags` and so on: only the member changes (invert_laplace.hxx) -/
  | setFlags (fl : AllFlags)
  /-- `solve(b, x0)` -/
  | solve (b x0 : P → K)

/-- What a call of `solve` gives the Krylov solver: matrix and right-hand side. -/
structure System (P K : Type) where
  mat : P → P → K
  rhs : P → K

def call (g : Grid P K) (mt : Metric P K) (s : Solver P K) : Call P K → Out (Solver P K × Option (System P K))
  | .setCoef which is2d v => .ok (setCoef which is2d v s, none)
  | .setFlags fl => .ok ({ s with flags := fl }, none)
  | .solve b x0 => match refresh g mt s with
    | .error e => .error e
    | .ok s' => .ok (s', some { mat := s'.mat.ent, rhs := rhsOf g s'.flags b x0 })

def calls (g : Grid P K) (mt : Metric P K) : Solver P K → List (Call P K) → Out (Solver P K)
  | s, [] => .ok s
  | s, c :: cs => match call g mt s c with
    | .error e => .error e
    | .ok (s', _) => calls g mt s' cs

/-- The constructor, petsc3damg.cxx L42-195. -/
def construct (g : Grid P K) (mt : Metric P K) (fl : AllFlags) : Out (Solver P K) :=
  match runOps g { ent := fun _ _ => 0, mode := none } (setupOps g mt fl) with
  | .error e => .error e
  | .ok m => .ok { coefs := { A := fun _ => 0, C1 := fun _ => 1, C2 := fun _ => 1, D := fun _ => 1, Ex := fun _ => 0,
                              Ez := fun _ => 0, issetC := false, issetD := false, issetE := false },
                   flags := fl, mat := m, updateRequired := true }

/-- Guard cells beyond the first in x, petsc3damg.cxx L286-306: along one line, cell 0 the first boundary cell, 1
and 2 the cells inside, -b the b-th beyond; `n` cells. -/
def extend (n : Nat) (s : Int → K) : Int → K :=
  (List.range n).foldl (fun s (b : Nat) => fun j => if j = -((b : Int) + 1) then
    3 * s (-(b : Int)) - 3 * s (-(b : Int) + 1) + s (-(b : Int) + 2) else s j) s

end Verif.Lap3D
