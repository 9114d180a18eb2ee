/-
Normalised positions of grid points: `BoutMesh::GlobalX`/`GlobalY` (both overloads), the `Context` at which generators
are evaluated, `FieldFactory::create2D/3D/Perp`, the boundary `Context`, the vector variables of `GridFromOptions` and
the flux surface found by `ballooning`.  Exact arithmetic over an ordered field `R`; `π` is a parameter.
-/
import Verif.Mesh.Model
import Mathlib.Algebra.Order.Field.Basic
import Mathlib.Algebra.Order.Round

namespace Verif.Coord
open Verif.Mesh

variable {R : Type*} [Field R] [LinearOrder R] [IsStrictOrderedRing R]

/-- The two options `mesh:symmetricGlobalX`, `mesh:symmetricGlobalY`, `boutmesh.cxx` L58-65 (default `true`). -/
structure Sym where
  x : Bool
  y : Bool
deriving Repr, DecidableEq

/-- `BoutMesh::GlobalX(int)`, `boutmesh.cxx` L3017-3023. -/
def GlobalX (R : Type*) [Field R] (s : Sym) (c : Cfg) (px jx : Int) : R :=
  if s.x then (1 / 2 + (c.getGlobalXIndex px jx : R) - ((c.nx - c.MX : Int) : R) * (1 / 2)) / (c.MX : R)
  else (c.getGlobalXIndex px jx : R) / (c.MX : R)

/-- `BoutMesh::GlobalX(BoutReal)`, `boutmesh.cxx` L3025-3036, with `XGLOBAL`, L1616-1619. -/
def GlobalXr (s : Sym) (c : Cfg) (px : Int) (jx : R) : R :=
  let xglo := jx + ((px * c.MXSUB : Int) : R)
  if s.x then (1 / 2 + xglo - ((c.nx - c.MX : Int) : R) * (1 / 2)) / (c.MX : R)
  else xglo / (c.MX : R)

/-- `nycore` of `GlobalY`, `boutmesh.cxx` L3041: the number of rows of the core. -/
def nycore (c : Cfg) : Int := (c.jyseps2_1 - c.jyseps1_1) + (c.jyseps2_2 - c.jyseps1_2)

/-- `BoutMesh::GlobalY(int)`, `boutmesh.cxx` L3038-3078. `py` is `PE_YIND`. -/
def GlobalY (R : Type*) [Field R] [LinearOrder R] (s : Sym) (c : Cfg) (py jy : Int) : R :=
  if s.y then
    let yi : R := (c.getGlobalYIndexNoBoundaries py jy : R)
    (if yi < (c.ny_inner : R) then yi - ((c.jyseps1_1 : R) + 1 / 2)
     else yi - ((c.jyseps1_1 : R) + 1 / 2 + ((c.jyseps1_2 - c.jyseps2_1 : Int) : R))) / (nycore c : R)
  else
    let ly := c.getGlobalYIndexNoBoundaries py jy
    ((if mypeInCore c py then
        (if ly ≤ c.jyseps2_1 then ly - (c.jyseps1_1 + 1)
         else ly - (c.jyseps1_1 + 1 + (c.jyseps1_2 - c.jyseps2_1)))
      else if ly ≤ c.jyseps1_1 then 0
      else if ly > c.jyseps2_1 ∧ ly ≤ c.jyseps1_2 then c.jyseps2_1 - c.jyseps1_1
      else if ly > c.jyseps2_2 then nycore c
      else ly : Int) : R) / (nycore c : R)

/-- `BoutMesh::GlobalY(BoutReal)`, `boutmesh.cxx` L3080-3124, with `YGLOBAL`, L1633-1636. -/
def GlobalYr (s : Sym) (c : Cfg) (py : Int) (jy : R) : R :=
  let yglo : R := jy + ((py * c.MYSUB - c.MYG : Int) : R)
  if s.y then
    (if yglo < (c.ny_inner : R) then yglo - ((c.jyseps1_1 : R) + 1 / 2)
     else yglo - ((c.jyseps1_1 : R) + 1 / 2 + ((c.jyseps1_2 - c.jyseps2_1 : Int) : R))) / (nycore c : R)
  else
    (if mypeInCore c py then
        (if yglo ≤ (c.jyseps2_1 : R) then yglo - ((c.jyseps1_1 + 1 : Int) : R)
         else yglo - ((c.jyseps1_1 + 1 + (c.jyseps1_2 - c.jyseps2_1) : Int) : R))
      else if yglo ≤ (c.jyseps1_1 : R) then 0
      else if yglo > (c.jyseps2_1 : R) ∧ yglo ≤ (c.jyseps1_2 : R) then ((c.jyseps2_1 - c.jyseps1_1 : Int) : R)
      else if yglo > (c.jyseps2_2 : R) then (nycore c : R)
      else yglo) / (nycore c : R)

/-- The cell locations, `include/bout/bout_types.hxx` (`CELL_VSHIFT`, `CELL_DEFAULT` do not occur here). -/
inductive Loc where
  | centre | xlow | ylow | zlow
deriving Repr, DecidableEq

/-- The four parameters a generator is evaluated at: `Context`, `generator_context.hxx` L19-86. -/
@[ext] structure Pos (R : Type*) where
  x : R
  y : R
  z : R
  t : R

/-- One processor's view: which mesh, where it is, and the constants. `LocalNz = nz` (`NZPE` is 1). -/
structure View (R : Type*) where
  s : Sym
  c : Cfg
  px : Int
  py : Int
  nz : Int
  pi : R

/-- `Context::Context(int, int, int, CELL_LOC, Mesh*, BoutReal)`, `generator_context.cxx` L9-23. -/
def context (v : View R) (ix iy iz : Int) (loc : Loc) (t : R) : Pos R where
  x := if loc = .xlow then 1 / 2 * (GlobalX R v.s v.c v.px ix + GlobalX R v.s v.c v.px (ix - 1))
       else GlobalX R v.s v.c v.px ix
  y := if loc = .ylow then v.pi * (GlobalY R v.s v.c v.py iy + GlobalY R v.s v.c v.py (iy - 1))
       else 2 * v.pi * GlobalY R v.s v.c v.py iy
  z := if loc = .zlow then 2 * v.pi * ((iz : R) - 1 / 2) / (v.nz : R) else 2 * v.pi * (iz : R) / (v.nz : R)
  t := t

/-- What a boundary `Context` reads of a `BoundaryRegion`: the current guard cell and the outward direction. -/
structure Bnd where
  x : Int
  y : Int
  bx : Int
  by' : Int
deriving Repr, DecidableEq

/-- `Context::Context(const BoundaryRegion*, int, CELL_LOC, BoutReal, Mesh*)`, `generator_context.cxx` L25-47. -/
def contextB (v : View R) (b : Bnd) (iz : Int) (loc : Loc) (t : R) : Pos R :=
  let ix := if b.bx < 0 then b.x + 1 else b.x
  let iy := if b.by' < 0 then b.y + 1 else b.y
  { x := if loc = .xlow ∨ b.bx ≠ 0 then 1 / 2 * (GlobalX R v.s v.c v.px ix + GlobalX R v.s v.c v.px (ix - 1))
         else GlobalX R v.s v.c v.px ix
    y := if loc = .ylow ∨ b.by' ≠ 0 then v.pi * (GlobalY R v.s v.c v.py iy + GlobalY R v.s v.c v.py (iy - 1))
         else 2 * v.pi * GlobalY R v.s v.c v.py iy
    z := if loc = .zlow then 2 * v.pi * ((iz : R) - 1 / 2) / (v.nz : R) else 2 * v.pi * (iz : R) / (v.nz : R)
    t := t }

/-- The position half-way between guard and grid cell as the `CELL_ZLOW` branches of the Dirichlet and Neumann
boundaries compute it, `boundary_standard.cxx` L462-477, L967-982, L1433-1448, L2139-2154. -/
def contextZlow (v : View R) (b : Bnd) (iz : Int) (t : R) : Pos R where
  x := 1 / 2 * (GlobalX R v.s v.c v.px b.x + GlobalX R v.s v.c v.px (b.x - b.bx))
  y := 2 * v.pi * (1 / 2 * (GlobalY R v.s v.c v.py b.y + GlobalY R v.s v.c v.py (b.y - b.by')))
  z := 2 * v.pi * ((iz : R) - 1 / 2) / (v.nz : R)
  t := t

/-- `FieldFactory::create3D`, `field_factory.cxx` L200-240, without the transform from field-aligned coordinates
(`transform_from_field_aligned` false): the value at the local point. A generator is a function of the position. -/
def create3D {V : Type*} (gen : Pos R → V) (v : View R) (loc : Loc) (t : R) (ix iy iz : Int) : V :=
  gen (context v ix iy iz loc t)

/-- `FieldFactory::create2D`, `field_factory.cxx` L165-193, with the `Ind2D` constructor of `Context`,
`generator_context.hxx` L26-28: `z` is that of index 0 and `CELL_ZLOW` counts as `CELL_CENTRE`. -/
def create2D {V : Type*} (gen : Pos R → V) (v : View R) (loc : Loc) (t : R) (ix iy : Int) : V :=
  gen (context v ix iy 0 (if loc = .zlow then .centre else loc) t)

/-- `FieldFactory::createPerp`, `field_factory.cxx` L247-288: an `IndPerp` has `y() == 0` (its `ny` is 1). -/
def createPerp {V : Type*} (gen : Pos R → V) (v : View R) (loc : Loc) (t : R) (ix iz : Int) : V :=
  gen (context v ix 0 iz loc t)

/-- `GridFromOptions::get(std::vector<BoutReal>&)`, `gridfromoptions.cxx` L114-158, directions X and Y:
`OffsetX = PE_XIND*MXSUB`, `OffsetY = PE_YIND*MYSUB` (`boutmesh.cxx` L377-378). The entry `i` of the vector. -/
def getVecX {V : Type*} (gen : Pos R → V) (v : View R) (offset i : Int) : V :=
  gen { context v 0 0 0 .centre 0 with x := GlobalX R v.s v.c v.px (i - v.px * v.c.MXSUB + offset) }
/-- See `getVecX`. -/
def getVecY {V : Type*} (gen : Pos R → V) (v : View R) (offset i : Int) : V :=
  gen { context v 0 0 0 .centre 0 with
        y := 2 * v.pi * GlobalY R v.s v.c v.py (i - v.py * v.c.MYSUB + offset) }

/-- `ROUND`, `include/bout/utils.hxx` L462-464: the cast to `int` truncates. -/
def ROUND [FloorRing R] (x : R) : Int := if x > 0 then ⌊x + 1 / 2⌋ else -⌊-x + 1 / 2⌋

/-- The flux surface `FieldBallooning::generate` looks up, `fieldgenerators.cxx` L80-85; `none` is the conversion of
0/0 to `int` (undefined). -/
def ballooningSurface [FloorRing R] (v : View R) (x : R) : Option Int :=
  if v.c.xend - v.c.xstart = 0 then none
  else
    let dx := (GlobalX R v.s v.c v.px v.c.xend - GlobalX R v.s v.c v.px v.c.xstart) / ((v.c.xend - v.c.xstart : Int) : R)
    some (ROUND ((x - GlobalX R v.s v.c v.px 0) / dx))

/-- `FieldBallooning::generate`, `fieldgenerators.cxx` L64-110, on the surface found: `periodic` and `ts` are the
results of `periodicY(jx, ts)`. -/
def ballooning (gen : Pos R → R) (zlength pi : R) (n : Nat) (periodic : Int → Bool) (ts : Int → R) (jx : Int)
    (p : Pos R) : R :=
  if periodic jx then
    (List.range n).foldl (fun value (k : Nat) =>
      value + gen { p with y := p.y - ((k : R) + 1) * (2 * pi), z := p.z + ((k : R) + 1) * ts jx * (2 * pi) / zlength }
        + gen { p with y := p.y + ((k : R) + 1) * (2 * pi), z := p.z - ((k : R) + 1) * ts jx * (2 * pi) / zlength })
      (gen p)
  else 0

end Verif.Coord
