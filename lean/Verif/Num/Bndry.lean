import Mathlib.Algebra.Order.Field.Basic
import Mathlib.Tactic.Ring

/-!
# C31: boundary conditions

Model of `src/mesh/boundary_standard.cxx` (the conditions `dirichlet`, `dirichlet_o3`, `dirichlet_o4`,
`dirichlet_4thorder`, `neumann`, `neumann_o4`, `neumann_4thorder`, `neumannpar`, `robin`, `constgradient`, `free`, `free_o2`,
`free_o3` and the modifiers `relax`, `width`, `toFieldAligned`, `fromFieldAligned`) and of the loops over a boundary
region (`src/mesh/boundary_region.cxx`).

Simplifications: `BoutReal` is a field; a field is a function of `(x, y, z)`, and a `Field2D` is one with a single z
point; a condition is modelled as the list of assignments its loops make, in their order.  Every assignment in these
conditions has the form `f(x + k*bx, y + k*by, z) = expression in f(x + j*bx, y + j*by, z)`; the model names the cell by
`k` and gives the expression as a function of the values along that line.  (Where the code writes `f(xi - bx, yi)` it
is in a branch with `by == 0`, likewise for `bx`.)  The generator's value at a boundary point is an arbitrary function
of the point (`0` when there is no generator).  Not modelled: `neumann_nonorthogonal`, the Laplacian conditions (FFTs)
and `divcurl`, and the checks of `verifyNumPoints` on clone.
-/
namespace Verif.Num

/-! ## Boundary regions -/

/-- The four kinds of boundary region (`boundary_region.hxx` L66-143). -/
inductive Side | xin | xout | ydown | yup
  deriving DecidableEq, Repr

/-- `BoundaryRegion`: kind, limits `ys, ye` or `xs, xe`, current `width` (which the `width` modifier changes), and the
local mesh sizes `LocalNx`, `LocalNy`. -/
structure BReg where
  side : Side
  lo : Int
  hi : Int
  width : Int
  nx : Int
  ny : Int

/-- `bx` of the region (boundary_region.cxx:11, 61, 111, 160). -/
def Side.bx : Side → Int
  | .xin => -1 | .xout => 1 | .ydown => 0 | .yup => 0
/-- `by` of the region. -/
def Side.by : Side → Int
  | .xin => 0 | .xout => 0 | .ydown => -1 | .yup => 1

/-- `first()` (boundary_region.cxx:20-23, 70-73, 120-123, 169-172). -/
def BReg.first (r : BReg) : Int × Int :=
  match r.side with
  | .xin => (r.width - 1, r.lo)
  | .xout => (r.nx - r.width, r.lo)
  | .ydown => (r.lo, r.width - 1)
  | .yup => (r.lo, r.ny - r.width)

/-- `next1d()` (boundary_region.cxx:34-37, 84-87, 134-137, 183-186). -/
def BReg.next1d (r : BReg) (p : Int × Int) : Int × Int :=
  match r.side with
  | .xin => (p.1, p.2 + 1)
  | .xout => (p.1, p.2 + 1)
  | .ydown => (p.1 + 1, p.2)
  | .yup => (p.1 + 1, p.2)

/-- `next()` (boundary_region.cxx:25-32, 75-82, 125-132, 174-181). -/
def BReg.next (r : BReg) (p : Int × Int) : Int × Int :=
  match r.side with
  | .xin => if p.2 + 1 > r.hi then (p.1 - 1, r.lo) else (p.1, p.2 + 1)
  | .xout => if p.2 + 1 > r.hi then (p.1 + 1, r.lo) else (p.1, p.2 + 1)
  | .ydown => if p.2 - 1 < 0 then (p.1 + 1, r.width - 1) else (p.1, p.2 - 1)
  | .yup => if p.2 + 1 ≥ r.ny then (p.1 + 1, r.ny - r.width) else (p.1, p.2 + 1)

/-- `isDone()` (boundary_region.cxx:53-55, 103-105, 153-155, 202-204). -/
def BReg.isDone (r : BReg) (p : Int × Int) : Bool :=
  match r.side with
  | .xin => decide (p.1 < 0 ∨ p.2 > r.hi)
  | .xout => decide (p.1 ≥ r.nx ∨ p.2 > r.hi)
  | .ydown => decide (p.1 > r.hi ∨ p.2 < 0)
  | .yup => decide (p.1 > r.hi ∨ p.2 ≥ r.ny)

/-- `for (; !isDone(); step())` from a point on: the points visited within `fuel` steps and whether the loop ended. -/
def BReg.loop (r : BReg) (step : Int × Int → Int × Int) : Nat → Int × Int → List (Int × Int) × Bool
  | 0, p => ([], r.isDone p)
  | n + 1, p =>
    if r.isDone p then ([], true)
    else
      let rest := BReg.loop r step n (step p)
      (p :: rest.1, rest.2)

/-- The loop from `first()` with the given step function visits exactly `l` and ends. -/
def BReg.Visits (r : BReg) (step : Int × Int → Int × Int) (l : List (Int × Int)) : Prop :=
  ∃ fuel, BReg.loop r step fuel r.first = (l, true)

/-! ## Fields and assignments -/

variable {K : Type} [Field K]

/-- A field on the local grid. -/
abbrev Fld (K : Type) := Int → Int → Int → K

/-- `f(x, y, z) = v`. -/
def Fld.set (f : Fld K) (x y z : Int) (v : K) : Fld K :=
  fun x' y' z' => if x' = x ∧ y' = y ∧ z' = z then v else f x' y' z'

/-- One assignment at a boundary point: `f(x + k*bx, y + k*by, z) = e`, with `e` a function of the values
`j ↦ f(x + j*bx, y + j*by, z)` along the line through the boundary. -/
structure Asg (K : Type) where
  p : Int × Int
  z : Int
  k : Int
  e : (Int → K) → K

/-- The values of `f` along the line through `p` in the direction of the boundary. -/
def along (s : Side) (f : Fld K) (p : Int × Int) (z : Int) : Int → K :=
  fun j => f (p.1 + j * s.bx) (p.2 + j * s.by) z

/-- Execute one assignment. -/
def Asg.exec (s : Side) (f : Fld K) (a : Asg K) : Fld K :=
  f.set (a.p.1 + a.k * s.bx) (a.p.2 + a.k * s.by) a.z (a.e (along s f a.p a.z))

/-- Execute assignments in order. -/
def run (s : Side) (prog : List (Asg K)) (f : Fld K) : Fld K := prog.foldl (Asg.exec s) f

/-- `for (int i = a; i < b; i++)`. -/
def ints (a b : Int) : List Int := (List.range (b - a).toNat).map (fun n : Nat => a + (n : Int))

/-- `for (; !isDone(); next1d()) for (zk = 0; zk < LocalNz; zk++) body`. -/
def pointsZ (pts : List (Int × Int)) (nz : Int) (body : Int × Int → Int → List (Int × ((Int → K) → K))) : List (Asg K) :=
  pts.flatMap fun p => (ints 0 nz).flatMap fun z => (body p z).map fun a => ⟨p, z, a.1, a.2⟩

/-! ## Where the field's points lie relative to the boundary -/

/-- Cell locations. -/
inductive Loc | centre | xlow | ylow | zlow
  deriving DecidableEq, Repr

/-- The three cases of the conditions: the boundary lies between the last grid cell and the first guard cell (`mid`),
on the first guard cell (`outer`, a field staggered towards an upper boundary), or on the last grid cell (`inner`). -/
inductive Mode | mid | outer | inner
  deriving DecidableEq, Repr

/-- Branch taken in `apply` (boundary_standard.cxx:152-290, 315-580 and the same in the other conditions). -/
def mode (stagger : Bool) (loc : Loc) (s : Side) : Mode :=
  if stagger then
    match loc, s with
    | .xlow, .xout => .outer
    | .xlow, .xin => .inner
    | .ylow, .yup => .outer
    | .ylow, .ydown => .inner
    | _, _ => .mid
  else .mid

/-! ## The conditions, one boundary line at a time -/

/-- Linear extrapolation of guard cell `i` from the two before it. -/
def extrap2 (i : Int) (g : Int → K) : K := 2 * g (i - 1) - g (i - 2)
/-- Quadratic extrapolation. -/
def extrap3 (i : Int) (g : Int → K) : K := 3 * g (i - 1) - 3 * g (i - 2) + g (i - 3)
/-- Cubic extrapolation. -/
def extrap4 (i : Int) (g : Int → K) : K := 4 * g (i - 1) - 6 * g (i - 2) + 4 * g (i - 3) - g (i - 4)

/-- The loops that fill the guard cells from number `a` on. -/
def fill (ex : Int → (Int → K) → K) (a w : Int) : List (Int × ((Int → K) → K)) := (ints a w).map fun i => (i, ex i)

/-- The pattern shared by the Dirichlet conditions: `first` for a boundary half way, the value itself on a cell on the
boundary, extrapolation beyond. -/
def dirichletLine (first : K → (Int → K) → K) (ex : Int → (Int → K) → K) (m : Mode) (val : K) (w : Int) :
    List (Int × ((Int → K) → K)) :=
  match m with
  | .mid => (0, first val) :: fill ex 1 w
  | .outer => (0, fun _ => val) :: fill ex 1 w
  | .inner => (-1, fun _ => val) :: fill ex 0 w

/-- `2*val - f(x-bx)` (boundary_standard.cxx:205, 281). -/
def first2 (val : K) (g : Int → K) : K := 2 * val - g (-1)
/-- boundary_standard.cxx:690-692, 781-783, 1007-1009. -/
def first3 (val : K) (g : Int → K) : K := 8/3 * val - 2 * g (-1) + g (-2) / 3
/-- boundary_standard.cxx:1235-1238, 1474-1477. -/
def first4 (val : K) (g : Int → K) : K := 16/5 * val - 3 * g (-1) + g (-2) - 1/5 * g (-3)

/-- boundary_standard.cxx:135-294 `BoundaryDirichlet::apply(Field2D&)` at one boundary point. -/
def dirichlet2D (m : Mode) (val : K) (w : Int) := dirichletLine first2 extrap2 m val w

/-- boundary_standard.cxx:311-457 `BoundaryDirichlet::apply(Field3D&)` on staggered locations in X and Y.  On the inner X
boundary (L349-351) the first guard cell is set twice. -/
def dirichlet3DStag (xlow : Bool) (m : Mode) (val : K) (w : Int) : List (Int × ((Int → K) → K)) :=
  match m with
  | .inner => (-1, fun _ => val) :: ((if xlow then [(0, fun g : Int → K => g (-1))] else []) ++ fill extrap2 0 w)
  | m => dirichletLine first2 extrap2 m val w

/-- boundary_standard.cxx:620-796, 800-1023 `BoundaryDirichlet_O3::apply`. -/
def dirichletO3 (m : Mode) (val : K) (w : Int) := dirichletLine first3 extrap3 m val w

/-- boundary_standard.cxx:1062-1253, 1257-1493 `BoundaryDirichlet_O4::apply`. -/
def dirichletO4 (m : Mode) (val : K) (w : Int) := dirichletLine first4 extrap4 m val w

/-- boundary_standard.cxx:1526-1562 `BoundaryDirichlet_4thOrder::apply`. -/
def dirichlet4th (val : K) : List (Int × ((Int → K) → K)) :=
  [(0, fun g => 128/35 * val - 4 * g (-1) + 2 * g (-2) - 4/3 * g (-3) + 1/7 * g (-4)),
   (1, fun g => -(128/5) * val + 9 * g 0 + 18 * g (-1) - 4 * g (-2) + 3/5 * g (-3))]

/-- boundary_standard.cxx:1731-1937, 1941-2191 `BoundaryNeumann::apply`.  `delta` is `bx*dx + by*dy`, `d` the spacing the
staggered branches multiply the generator's value by (`dx` or `dy`, without sign). -/
def neumannLine (m : Mode) (val delta d : K) (w : Int) : List (Int × ((Int → K) → K)) :=
  match m with
  | .mid => (0, fun g => g (-1) + delta * val) ::
      (if w = 2 then [(1, fun g : Int → K => g (-2) + 3 * delta * val)] else [])
  | .outer => (0, fun g => (4 * g (-1) - g (-2) + 2 * (val * d)) / 3) :: fill extrap3 1 w
  | .inner => (-1, fun g => (4 * g (-2) - g (-3) - 2 * (val * d)) / 3) :: fill extrap3 0 w

/-- boundary_standard.cxx:2248-2270, 2300-2322 `BoundaryNeumann_O4::apply`: throws (`none`) for a width of two. -/
def neumannO4Line (val delta : K) (w : Int) : Option (List (Int × ((Int → K) → K))) :=
  if w = 2 then none
  else some [(0, fun g => 12 * delta * val / 11 + (17 * g (-1) + 9 * g (-2) - 5 * g (-3) + g (-4)) / 22)]

/-- boundary_standard.cxx:2363-2381, 2396-2413 `BoundaryNeumann_4thOrder::apply`; the `delta` of the code is minus the
`delta` here. -/
def neumann4thLine (val delta : K) : List (Int × ((Int → K) → K)) :=
  [(0, fun g => 12 * (-delta) / 11 * val + 17/22 * g (-1) + 9/22 * g (-2) - 5/22 * g (-3) + 1/22 * g (-4)),
   (1, fun g => -24 * (-delta) * val + 27 * g 0 - 27 * g (-1) + g (-2))]

/-- boundary_standard.cxx:3063-3288, 3321-3557 `BoundaryFree_O2::apply`, `BoundaryFree_O3::apply`. -/
def freeLine (ex : Int → (Int → K) → K) (m : Mode) (w : Int) : List (Int × ((Int → K) → K)) :=
  match m with
  | .inner => fill ex (-1) w
  | _ => fill ex 0 w

/-! ## The conditions on a field -/

/-- A condition given line by line, over the points of the `next1d` loop and the z points. -/
def applyLines (s : Side) (pts : List (Int × Int)) (nz : Int)
    (body : Int × Int → Int → List (Int × ((Int → K) → K))) (f : Fld K) : Fld K :=
  run s (pointsZ pts nz body) f

/-- The conditions given line by line. -/
inductive Cond | dirichlet | dirichletX3D | dirichletO3 | dirichletO4 | dirichlet4th | neumann | neumann4th | freeO2 | freeO3
  deriving DecidableEq, Repr

/-- The assignments of a condition at one boundary point: `val` the generator's value, `delta = bx*dx + by*dy`, `d` the
spacing across the boundary.  (`dirichletX3D` is `dirichlet` on a staggered `Field3D`.) -/
def condLine (c : Cond) (m : Mode) (val delta d : K) (w : Int) : List (Int × ((Int → K) → K)) :=
  match c with
  | .dirichlet => dirichlet2D m val w
  | .dirichletX3D => dirichlet3DStag true m val w
  | .dirichletO3 => dirichletO3 m val w
  | .dirichletO4 => dirichletO4 m val w
  | .dirichlet4th => dirichlet4th val
  | .neumann => neumannLine m val delta d w
  | .neumann4th => neumann4thLine val delta
  | .freeO2 => freeLine extrap2 m w
  | .freeO3 => freeLine extrap3 m w

/-- `apply` of a condition on a region: `gen p z` is the generator's value at the boundary point, `d p z` the spacing there
(the code uses the metric of the innermost guard cell or its neighbour; here any function). -/
def applyCond (c : Cond) (r : BReg) (stagger : Bool) (loc : Loc) (pts : List (Int × Int)) (nz : Int)
    (gen d : Int × Int → Int → K) (f : Fld K) : Fld K :=
  applyLines r.side pts nz
    (fun p z => condLine c (mode stagger loc r.side) (gen p z) ((r.side.bx + r.side.by : Int) * d p z) (d p z) r.width) f

/-- boundary_standard.cxx:527-580 (and 459-523 for `CELL_ZLOW`) `BoundaryDirichlet::apply(Field3D&)` with the boundary half
way: after the first guard cells of a point, every further guard cell is set to a generated value `far`. -/
def dirichlet3DMid (s : Side) (pts : List (Int × Int)) (nz w : Int) (gen : Int × Int → Int → K)
    (far : Int × Int → Int → Int → K) (f : Fld K) : Fld K :=
  run s (pts.flatMap fun p =>
    ((ints 0 nz).map fun z => (⟨p, z, 0, first2 (gen p z)⟩ : Asg K)) ++
    ((ints 1 w).flatMap fun i => (ints 0 nz).map fun z => (⟨p, z, i, fun _ => far p i z⟩ : Asg K))) f

/-- A condition applied cell by cell in the order of the `next()` loop. -/
def applyCells (s : Side) (cells : List (Int × Int)) (nz : Int) (e : Int × Int → Int → (Int → K) → K) (f : Fld K) : Fld K :=
  run s (pointsZ cells nz fun p z => [(0, e p z)]) f

/-- boundary_standard.cxx:2557-2576 `BoundaryConstGradient::apply`. -/
def constGradient (s : Side) (cells : List (Int × Int)) (nz : Int) : Fld K → Fld K :=
  applyCells s cells nz fun _ _ g => 2 * g (-1) - g (-2)

/-- boundary_standard.cxx:2511-2553 `BoundaryRobin::apply` when `b` is not (nearly) zero. -/
def robin (s : Side) (cells : List (Int × Int)) (nz : Int) (a b g : K) : Fld K → Fld K :=
  let sign : K := if s.bx < 0 ∨ s.by < 0 then -1 else 1
  applyCells s cells nz fun _ _ l => l (-1) + sign * (g - a * l (-1)) / b

/-- The same when `|b| < 1e-12`. -/
def robinConst (s : Side) (cells : List (Int × Int)) (nz : Int) (a g : K) : Fld K → Fld K :=
  applyCells s cells nz fun _ _ _ => g / a

/-- boundary_standard.cxx:2447-2475 `BoundaryNeumannPar::apply`; `ratio p z` is `sqrt(g_22(x,y) / g_22(x-bx,y-by))`. -/
def neumannPar (s : Side) (cells : List (Int × Int)) (nz : Int) (ratio : Int × Int → Int → K) : Fld K → Fld K :=
  applyCells s cells nz fun p z l => l (-1) * ratio p z

/-- `apply_ddt` of all conditions but `free` (boundary_standard.cxx:585-600 and copies): the time derivative is zero in
the boundary. -/
def applyDdtZero (s : Side) (cells : List (Int × Int)) (nz : Int) : Fld K → Fld K :=
  applyCells s cells nz fun _ _ _ => 0

/-- boundary_standard.cxx:3603-3636 `BoundaryRelax::apply_ddt`: `op` is the modified condition. -/
def relaxDdt (s : Side) (cells : List (Int × Int)) (nz : Int) (r : K) (op : Fld K → Fld K) (f ddt : Fld K) : Fld K :=
  let g := op f
  applyCells s cells nz (fun p z _ => r * (g p.1 p.2 z - f p.1 p.2 z)) ddt

/-- boundary_standard.cxx:3593-3601 `BoundaryRelax::apply` on a `Field2D` and a `Field3D`; `op t` is the modified condition
at time `t`. -/
def relaxApply2D (op : K → Fld K → Fld K) (t : K) (f : Fld K) : Fld K := op t f
/-- L3598: the time is not passed on. -/
def relaxApply3D (op : K → Fld K → Fld K) (_t : K) (f : Fld K) : Fld K := op 0 f

/-- boundary_standard.cxx:3699-3714 `BoundaryToFieldAligned::apply` (and `BoundaryFromFieldAligned`, 3742-3757, with the two
transforms exchanged). -/
def alignedApply (fwd back : Fld K → Fld K) (op : Fld K → Fld K) (f : Fld K) : Fld K := back (op (fwd f))

/-- boundary_standard.cxx:3718-3725, 3761-3768 `apply_ddt` of the same: the new `f` and `ddt(f)`. -/
def alignedDdt (fwd back : Fld K → Fld K) (opddt : Fld K → Fld K → Fld K) (f ddt : Fld K) : Fld K × Fld K :=
  let f := fwd f
  let ddt := fwd ddt
  let ddt := opddt f ddt
  (f, back ddt)

/-- boundary_standard.cxx:3655-3668 `BoundaryWidth::apply`: the region's width is replaced while the condition runs, so
`first()` starts elsewhere. -/
def BReg.withWidth (r : BReg) (w : Int) : BReg := { r with width := w }

end Verif.Num
