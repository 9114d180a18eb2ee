import Mathlib.Algebra.BigOperators.Group.Finset.Basic
import Verif.Invert.Lap3D

/-!
# The equation of the three-dimensional Laplacian solvers

    D ∇⊥²x + (1/C1) ∇⊥C2 · ∇⊥x + Ex ∂x/∂x + Ez ∂x/∂z + A x = b

with `∇⊥² = ∇² - ∇∥²`, discretised with central differences on the metric (`DDX`, `D2DX2`, ... of the field `x`,
whose values above and below a cell are those of its parallel slices), and the boundary conditions the flags ask
for.  Nothing here refers to the matrix.
-/

namespace Verif.Lap3D

variable {P K : Type} [DecidableEq P] [Field K]

/-- What the user asked for: the coefficients of the equation. -/
structure Wanted (P K : Type) where
  A : P → K
  C1 : P → K
  C2 : P → K
  D : P → K
  Ex : P → K
  Ez : P → K

/-- Coefficients not set: `A = 0`, `C = 1`, `D = 1`, `E = 0`. -/
def Wanted.initial : Wanted P K :=
  { A := fun _ => 0, C1 := fun _ => 1, C2 := fun _ => 1, D := fun _ => 1, Ex := fun _ => 0, Ez := fun _ => 0 }

/-- A call sets the coefficient it names. -/
def Wanted.after (w : Wanted P K) : Call P K → Wanted P K
  | .setCoef .A _ v => { w with A := v }
  | .setCoef .C _ v => { w with C1 := v, C2 := v }
  | .setCoef .C1 _ v => { w with C1 := v }
  | .setCoef .C2 _ v => { w with C2 := v }
  | .setCoef .D _ v => { w with D := v }
  | .setCoef .Ex _ v => { w with Ex := v }
  | .setCoef .Ez _ v => { w with Ez := v }
  | .setFlags _ => w
  | .solve _ _ => w

def wantedAfter (cs : List (Call P K)) : Wanted P K := cs.foldl Wanted.after Wanted.initial

/-- The flags in force after the calls. -/
def flagsAfter (fl : AllFlags) (cs : List (Call P K)) : AllFlags :=
  cs.foldl (fun fl c => match c with
    | .setFlags f => f
    | _ => fl) fl

/-- The value at `p` of the slice made with the weights `w`. -/
def sliceVal (w : P → List (P × K)) (x : P → K) (p : P) : K :=
  if w p = [] then x p else ((w p).map fun q => q.2 * x q.1).sum

/-- The value of `x` in the plane above (below) `l`, at the cell `p` of that plane: of the parallel slice, but next
to a boundary in y what is stored in the boundary cell. -/
def above (g : Grid P K) (x : P → K) (l p : P) : K := if g.atUpper l then x p else sliceVal g.wUp x p
def below (g : Grid P K) (x : P → K) (l p : P) : K := if g.atLower l then x p else sliceVal g.wDown x p

/-- Derivatives of the unknown at `l`. -/
def dX (g : Grid P K) (mt : Metric P K) (x : P → K) (l : P) : K := (x (g.xp l) - x (g.xm l)) / (2 * mt.dx l)
def dZ (g : Grid P K) (mt : Metric P K) (x : P → K) (l : P) : K := (x (g.zp l) - x (g.zm l)) / (2 * mt.dz l)
def dY (g : Grid P K) (mt : Metric P K) (x : P → K) (l : P) : K :=
  (above g x l (g.yp l) - below g x l (g.ym l)) / (2 * mt.dy l)
def dXX (g : Grid P K) (mt : Metric P K) (x : P → K) (l : P) : K :=
  (x (g.xp l) - 2 * x l + x (g.xm l)) / (mt.dx l * mt.dx l) + (if mt.nonuniform then mt.d1_dx l * dX g mt x l else 0)
def dYY (g : Grid P K) (mt : Metric P K) (x : P → K) (l : P) : K :=
  (above g x l (g.yp l) - 2 * x l + below g x l (g.ym l)) / (mt.dy l * mt.dy l) +
    (if mt.nonuniform then mt.d1_dy l * dY g mt x l else 0)
def dZZ (g : Grid P K) (mt : Metric P K) (x : P → K) (l : P) : K :=
  (x (g.zp l) - 2 * x l + x (g.zm l)) / (mt.dz l * mt.dz l)
/-- d/dx of d/dy, each d/dy with the spacing of its own cell -/
def dXY (g : Grid P K) (mt : Metric P K) (x : P → K) (l : P) : K :=
  ((above g x l (g.yp (g.xp l)) - below g x l (g.ym (g.xp l))) / (2 * mt.dy (g.xp l)) -
    (above g x l (g.yp (g.xm l)) - below g x l (g.ym (g.xm l))) / (2 * mt.dy (g.xm l))) / (2 * mt.dx l)
/-- d/dx of d/dz (spacings do not depend on z) -/
def dXZ (g : Grid P K) (mt : Metric P K) (x : P → K) (l : P) : K :=
  ((x (g.zp (g.xp l)) - x (g.zm (g.xp l))) / (2 * mt.dz l) -
    (x (g.zp (g.xm l)) - x (g.zm (g.xm l))) / (2 * mt.dz l)) / (2 * mt.dx l)
/-- d/dz of d/dy -/
def dYZ (g : Grid P K) (mt : Metric P K) (x : P → K) (l : P) : K :=
  ((above g x l (g.zp (g.yp l)) - below g x l (g.zp (g.ym l))) / (2 * mt.dy l) -
    (above g x l (g.zm (g.yp l)) - below g x l (g.zm (g.ym l))) / (2 * mt.dy l)) / (2 * mt.dz l)

/-- `∇⊥² x = ∇² x - ∇∥² x` with `∇∥² = (1/g_22) ∂²/∂y² + (1/J) ∂(J/g_22)/∂y ∂/∂y`. -/
def laplacePerp (g : Grid P K) (mt : Metric P K) (x : P → K) (l : P) : K :=
  (mt.G1 l * dX g mt x l + mt.G2 l * dY g mt x l + mt.G3 l * dZ g mt x l +
    mt.g11 l * dXX g mt x l + mt.g22 l * dYY g mt x l + mt.g33 l * dZZ g mt x l +
    2 * (mt.g12 l * dXY g mt x l + mt.g13 l * dXZ g mt x l + mt.g23 l * dYZ g mt x l)) -
  (dYY g mt x l / mt.g_22 l + mt.DDY (fun p => mt.J p / mt.g_22 p) l / mt.J l * dY g mt x l)

/-- `∇⊥C · ∇⊥x = ∇C · ∇x - ∇∥C ∇∥x`. -/
def gradPerpDot (g : Grid P K) (mt : Metric P K) (C : P → K) (x : P → K) (l : P) : K :=
  mt.g11 l * mt.DDX C l * dX g mt x l + mt.g22 l * mt.DDY C l * dY g mt x l + mt.g33 l * mt.DDZ C l * dZ g mt x l +
  mt.g12 l * (mt.DDX C l * dY g mt x l + mt.DDY C l * dX g mt x l) +
  mt.g13 l * (mt.DDX C l * dZ g mt x l + mt.DDZ C l * dX g mt x l) +
  mt.g23 l * (mt.DDY C l * dZ g mt x l + mt.DDZ C l * dY g mt x l) -
  mt.DDY C l * dY g mt x l / mt.g_22 l

/-- The left-hand side of the equation. -/
def lhs (g : Grid P K) (mt : Metric P K) (w : Wanted P K) (x : P → K) (l : P) : K :=
  w.D l * laplacePerp g mt x l + 1 / w.C1 l * gradPerpDot g mt w.C2 x l + w.Ex l * dX g mt x l + w.Ez l * dZ g mt x l +
    w.A l * x l

/-- The value a boundary condition prescribes. -/
def bndryVal (f : Flags) (b x0 : P → K) (i : P) : K := if f.rhs then b i else if f.set then x0 i else 0

/-- The condition at a boundary cell `i`: the mean of it and the cell inside, or the gradient across the boundary
along the coordinate (from `lo` to `hi`, one of which is `i`), over the distance `d`. -/
def bndryCond (f : Flags) (b x0 x : P → K) (i lo hi : P) (d : K) : Prop :=
  (if f.grad then (x hi - x lo) / d else (x hi + x lo) / 2) = bndryVal f b x0 i

/-- `x` solves the boundary value problem. -/
structure Solution (g : Grid P K) (mt : Metric P K) (w : Wanted P K) (fl : AllFlags) (b x0 x : P → K) : Prop where
  equation : ∀ l ∈ g.nobndry, lhs g mt w x l = b l
  inner : ∀ i ∈ g.innerX, bndryCond fl.inner b x0 x i i (g.xp i) (mt.dx i * mt.sg11 i)
  outer : ∀ i ∈ g.outerX, bndryCond fl.outer b x0 x i (g.xm i) i (mt.dx i * mt.sg11 i)
  lower : ∀ i ∈ g.lowerY, bndryCond fl.lower b x0 x i i (g.yp i) (mt.dy i * mt.sg22 i)
  upper : ∀ i ∈ g.upperY, bndryCond fl.upper b x0 x i (g.ym i) i (mt.dy i * mt.sg22 i)

/-- `x` solves the linear system: one equation for every unknown. -/
def Solves (pts : Finset P) (sys : System P K) (x : P → K) : Prop :=
  ∀ r ∈ pts, (∑ c ∈ pts, sys.mat r c * x c) = sys.rhs r

/-- The points of the stencil in the plane of `l`. -/
def plane (g : Grid P K) (l : P) : List P :=
  [l, g.xp l, g.xm l, g.zp l, g.zm l, g.zp (g.xp l), g.zm (g.xp l), g.zp (g.xm l), g.zm (g.xm l)]

/-- Cells whose value in the plane above (below) the stencil uses. -/
def aboveCells (g : Grid P K) (l : P) : List P :=
  [g.yp l, g.yp (g.xp l), g.yp (g.xm l), g.zp (g.yp l), g.zm (g.yp l)]
def belowCells (g : Grid P K) (l : P) : List P :=
  [g.ym l, g.ym (g.xp l), g.ym (g.xm l), g.zp (g.ym l), g.zm (g.ym l)]

/-- `q` is one of the cells that make up the value of the slice at `p`. -/
def InSlice (w : P → List (P × K)) (p q : P) : Prop := if w p = [] then q = p else q ∈ (w p).map Prod.fst
def InAbove (g : Grid P K) (l p q : P) : Prop := if g.atUpper l then q = p else InSlice g.wUp p q
def InBelow (g : Grid P K) (l p q : P) : Prop := if g.atLower l then q = p else InSlice g.wDown p q

/-- A grid the solver is made for: every cell with a number is inside or in exactly one boundary; the cells of the
stencil have numbers; the nine cells in the plane of a cell are different (three or more points in z), and the
slices above and below are made from other cells. -/
structure Proper (g : Grid P K) (pts : Finset P) : Prop where
  numbered : ∀ p, g.indexed p = true ↔ p ∈ pts
  regions : ∀ p, p ∈ pts ↔ p ∈ g.nobndry ++ g.innerX ++ g.outerX ++ g.lowerY ++ g.upperY
  once : (g.nobndry ++ g.innerX ++ g.outerX ++ g.lowerY ++ g.upperY).Nodup
  planeCells : ∀ l ∈ g.nobndry, ∀ p ∈ plane g l, p ∈ pts
  planeDiff : ∀ l ∈ g.nobndry, (plane g l).Nodup
  aboveIn : ∀ l ∈ g.nobndry, ∀ p ∈ aboveCells g l, p ∈ pts ∧ ∀ q, InAbove g l p q → q ∈ pts ∧ q ∉ plane g l
  belowIn : ∀ l ∈ g.nobndry, ∀ p ∈ belowCells g l, p ∈ pts ∧ ∀ q, InBelow g l p q → q ∈ pts ∧ q ∉ plane g l
  innerNb : ∀ i ∈ g.innerX, g.xp i ∈ pts ∧ g.xp i ≠ i
  outerNb : ∀ i ∈ g.outerX, g.xm i ∈ pts ∧ g.xm i ≠ i
  lowerNb : ∀ i ∈ g.lowerY, g.yp i ∈ pts ∧ g.yp i ≠ i
  upperNb : ∀ i ∈ g.upperY, g.ym i ∈ pts ∧ g.ym i ≠ i

/-- The derivative operators give zero for a constant. -/
structure Consts (mt : Metric P K) : Prop where
  x : ∀ l, mt.DDX (fun _ => 1) l = 0
  y : ∀ l, mt.DDY (fun _ => 1) l = 0
  z : ∀ l, mt.DDZ (fun _ => 1) l = 0

/-- A call that keeps the kind of every boundary condition. -/
def KeepsKind (fl : AllFlags) : Call P K → Prop
  | .setFlags f => f.inner.grad = fl.inner.grad ∧ f.outer.grad = fl.outer.grad ∧ f.lower.grad = fl.lower.grad ∧
      f.upper.grad = fl.upper.grad
  | _ => True

/-- A call that is not `setCoefC1(Field2D)`. -/
def NotC1Flat : Call P K → Prop
  | .setCoef .C1 is2d _ => is2d = false
  | _ => True

end Verif.Lap3D
