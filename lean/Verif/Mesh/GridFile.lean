/-
Model of reading a field from a grid file: `GridFile::getField`, `GridFile::readField` and
`GridFile::readgrid_3dvar_real / _fft`, `readgrid_perpvar_real / _fft`
(`src/mesh/data/gridfromfile.cxx`).

A value of the file at `(x, y)` has an abstract type `V` (a number for a 2-D variable, the
list of numbers along Z for a 3-D one).  A local field is a partial map from local indices
to values; `none` is an element that was allocated and never written.  An access outside
the destination field or the source array is undefined behaviour (`Err.ub`).  `check` says
whether the library was built with `CHECK > 0`, i.e. whether `ASSERT1` throws.
`int` does not overflow; warnings written to the log are not modelled, nor are the
attributes `cell_location`, `direction_y`, `direction_z`.
-/
import Verif.Mesh.Model

namespace Verif.Mesh.GridFile

open Verif.Mesh

/-- The integers `a, a+1, …, b-1` in the order of a `for` loop. -/
def irange (a b : Int) : List Int := (List.range (b - a).toNat).map (fun k : Nat => a + (k : Int))

/-- Two nested loops, the first index outermost. -/
def pairs (xs ys : List Int) : List (Int × Int) := xs.flatMap fun x => ys.map fun y => (x, y)

/-- A local field: `none` marks an element not written yet. -/
abbrev Fld (V : Type) := Int → Int → Option V

/-- Assignment to one element. -/
def Fld.set {V : Type} (f : Fld V) (x y : Int) (v : Option V) : Fld V :=
  fun x' y' => if x' = x ∧ y' = y then v else f x' y'

/-- The part of the file that `getField` looks at: members `grid_yguards` and `ny_inner`
set by the constructor (`gridfromfile.cxx` L22-26, both 0 when absent), and whether `nz`
is present. -/
structure File where
  yguards : Int
  nyInner : Int
  hasNz : Bool

/-- The mesh as `getField` sees it on one rank: the layout, the rank's position and
`numberOfXPoints` (`boutmesh.cxx` L149-157). -/
structure View where
  c : Cfg
  px : Int
  py : Int
  nxpoints : Nat

/-- `m->OffsetX`, `boutmesh.cxx` L377. -/
def View.offX (v : View) : Int := v.px * v.c.MXSUB
/-- `m->OffsetY`, `boutmesh.cxx` L378. -/
def View.offY (v : View) : Int := v.py * v.c.MYSUB

/-- `BoutMesh::numberOfYBoundaries`, `boutmesh.cxx` L2329-2335. -/
def numberOfYBoundaries (c : Cfg) : Int := if c.jyseps2_1 ≠ c.jyseps1_2 then 2 else 1

/-- `ASSERT1` (`include/bout/assert.hxx`): throws only in a build with checks. -/
def assert1 (check : Bool) (p : Bool) (msg : String) : Out Unit :=
  if check = true ∧ p = false then .error (.exc msg) else .ok ()

/-- What `getField` hands to `readField`: first source index, first destination index and
number of points, for Y and for X. -/
structure Span where
  ys : Int
  yd : Int
  ny : Int
  xs : Int
  xd : Int
  nx : Int
deriving Repr, DecidableEq

/-- X part of the index computation, `gridfromfile.cxx` L240-258.  The second branch of
the C++ `if … else if` cannot be reached; it is kept as written. -/
def spanX (check : Bool) (v : View) (size0 : Int) : Out (Int × Int) := do
  let mxg := (v.c.LocalNx - (v.c.xend - v.c.xstart + 1)).tdiv 2
  let grid_xguards := (size0 - (v.c.nx - 2 * mxg)).tdiv 2
  assert1 check (decide ((size0 - (v.c.nx - 2 * mxg)).tmod 2 = 0)) "rounding in grid_xguards"
  if grid_xguards ≥ 0 then do
    let xd := grid_xguards - mxg
    assert1 check (decide (xd ≥ 0)) "xd >= 0"
    return (xd, v.c.LocalNx)
  else if grid_xguards = 0 then return (mxg, v.c.LocalNx - 2 * mxg)
  else .error (.exc "Could not read: number of x-boundary guard cells")

/-- Y part of the index computation for Field2D and Field3D, `gridfromfile.cxx` L261-284. -/
def spanY (check : Bool) (v : View) (g size1 : Int) : Out (Int × Int) := do
  let myg := (v.c.LocalNy - (v.c.yend - v.c.ystart + 1)).tdiv 2
  if g > 0 then do
    assert1 check (decide (size1 = v.c.GlobalNy)) "size[1] == GlobalNy"
    let yd := g - myg
    assert1 check (decide (yd ≥ 0)) "yd >= 0"
    return (yd, v.c.LocalNy)
  else if g = 0 then do
    assert1 check (decide (size1 = v.c.GlobalNy - numberOfYBoundaries v.c * 2 * myg))
      "size[1] == GlobalNy - boundaries"
    return (myg, v.c.LocalNy - 2 * myg)
  else .error (.exc "Could not read: number of y-boundary guard cells")

/-- First source row, `gridfromfile.cxx` L213-231. -/
def firstRow (check : Bool) (v : View) (f : File) : Out Int :=
  if v.nxpoints > 1 then do
    assert1 check (decide (v.nxpoints = 2)) "numberOfXPoints == 2"
    return (if v.offY ≥ f.nyInner then v.offY + 2 * f.yguards else v.offY)
  else return v.offY

/-- The index computation of `getField` for a Field2D or Field3D whose data has sizes
`size0 × size1 (× nz)`, `gridfromfile.cxx` L200-284. -/
def span (check : Bool) (v : View) (f : File) (size0 size1 : Int) : Out Span := do
  assert1 check (decide ((v.c.LocalNx - (v.c.xend - v.c.xstart + 1)).tmod 2 = 0)) "mxg"
  assert1 check (decide ((v.c.LocalNy - (v.c.yend - v.c.ystart + 1)).tmod 2 = 0)) "myg"
  let ys ← firstRow check v f
  let (xd, nx) ← spanX check v size0
  let (yd, ny) ← spanY check v f.yguards size1
  return ⟨ys, yd, ny, v.offX, xd, nx⟩

/-- One assignment `var(x - xs + xd, y - ys + yd) = full_var(x, y)`, `gridfromfile.cxx`
L372 (and L640, with `V` the whole Z line), with both accesses checked. -/
def readOne {V : Type} (c : Cfg) (s : Span) (size0 size1 : Int) (full : Int → Int → V)
    (var : Fld V) (p : Int × Int) : Out (Fld V) :=
  let X := p.1 - s.xs + s.xd
  let Y := p.2 - s.ys + s.yd
  if 0 ≤ p.1 ∧ p.1 < size0 ∧ 0 ≤ p.2 ∧ p.2 < size1 ∧
     0 ≤ X ∧ X < c.LocalNx ∧ 0 ≤ Y ∧ Y < c.LocalNy then
    .ok (var.set X Y (some (full p.1 p.2)))
  else .error (.ub "index out of range in readField")

/-- The copy loops of `readField` for Field2D (`gridfromfile.cxx` L370-374) and of
`readgrid_3dvar_real` (L635-643), starting from a freshly allocated field. -/
def readLoop {V : Type} (c : Cfg) (s : Span) (size0 size1 : Int) (full : Int → Int → V) :
    Out (Fld V) :=
  (pairs (irange s.xs (s.xs + s.nx)) (irange s.ys (s.ys + s.ny))).foldlM
    (readOne c s size0 size1 full) (fun _ _ => none)

/-- Assignments `var(p) = var(src p)` for the points of a loop nest in order. -/
def copyLoop {V : Type} (src : Int × Int → Int × Int) (l : List (Int × Int)) (var : Fld V) :
    Fld V :=
  l.foldl (fun w p => w.set p.1 p.2 (w (src p).1 (src p).2)) var

/-- Filling of the X guard cells when the file has none, `gridfromfile.cxx` L301-317. -/
def fillX {V : Type} (c : Cfg) (var : Fld V) : Fld V :=
  copyLoop (fun p => (c.xend, p.2)) (pairs (irange (c.xend + 1) c.LocalNx) (irange 0 c.LocalNy))
    (copyLoop (fun p => (c.xstart, p.2)) (pairs (irange 0 c.xstart) (irange 0 c.LocalNy)) var)

/-- The Y indices visited for each `x` when filling the Y guard cells. -/
def fillYSrc (c : Cfg) (p : Int × Int) : Int × Int :=
  if p.2 < c.ystart then (p.1, c.ystart) else (p.1, c.yend)

/-- Filling of the Y guard cells when the file has none, `gridfromfile.cxx` L322-338. -/
def fillY {V : Type} (c : Cfg) (var : Fld V) : Fld V :=
  copyLoop (fillYSrc c)
    (pairs (irange 0 c.LocalNx) (irange 0 c.ystart ++ irange (c.yend + 1) c.LocalNy)) var

/-- `getField` from the index computation on, `gridfromfile.cxx` L200-344, for a Field2D
with a 2-D variable or a Field3D with a 3-D variable and `nz` in the file. -/
def readField {V : Type} (check : Bool) (v : View) (f : File) (size0 size1 : Int)
    (full : Int → Int → V) : Out (Fld V) := do
  let mxg := (v.c.LocalNx - (v.c.xend - v.c.xstart + 1)).tdiv 2
  let s ← span check v f size0 size1
  let var ← readLoop v.c s size0 size1 full
  let var := if size0 = v.c.nx - 2 * mxg then fillX v.c var else var
  let var := if f.yguards = 0 then fillY v.c var else var
  return var

/-! ### Shapes -/

/-- A variable of the file: `GetDimensions`, `gridfromfile.cxx` L136-154. -/
inductive Var (α : Type) where
  | scalar (v : α)
  | vec (n : Int) (v : Int → α)
  | mat (n m : Int) (v : Int → Int → α)
  | tensor (n m k : Int) (v : Int → Int → Int → α)

/-- What `Mesh::get` of a field returns: its truth value and the field. -/
structure Got (V : Type) where
  found : Bool
  fld : Fld V

/-- A field with the same value everywhere (`var = def`). -/
def constFld {V : Type} (c : Cfg) (v : V) : Fld V :=
  fun x y => if 0 ≤ x ∧ x < c.LocalNx ∧ 0 ≤ y ∧ y < c.LocalNy then some v else none

/-- `GridFile::get(Mesh*, Field2D&, …)`, `gridfromfile.cxx` L125-128 and L158-344. -/
def getField2D {α : Type} (check : Bool) (v : View) (f : File) (data : Option (Var α)) (dflt : α) :
    Out (Got α) :=
  match data with
  | none => .ok ⟨false, constFld v.c dflt⟩
  | some (.scalar a) => .ok ⟨true, constFld v.c a⟩
  | some (.vec n a) =>
      if n ≠ 1 then .error (.exc "Expecting a 2D variable") else .ok ⟨true, constFld v.c (a 0)⟩
  | some (.mat n m a) => (readField check v f n m a).map fun w => ⟨true, w⟩
  | some (.tensor _ _ _ _) => .ok ⟨false, constFld v.c dflt⟩

/-- One Z line packed for the inverse FFT, `gridfromfile.cxx` L588-604: the file holds
`DC, r1, i1, r2, i2, …`; `cplx` makes a complex number.  `none` is an access outside
`zdata`. -/
def packMode {α β : Type} (zero : α) (cplx : α → α → β) (size2 zperiod : Int) (zdata : Int → α)
    (i : Int) : Option β :=
  let maxmode := (size2 - 1).tdiv 2
  let at? (k : Int) : Option α := if 0 ≤ k ∧ k < size2 then some (zdata k) else none
  if i = 0 then (at? 0).map fun r => cplx r zero
  else
    let modenr := i * zperiod
    if modenr ≤ maxmode then do
      let r ← at? (modenr * 2 - 1)
      let im ← at? (modenr * 2)
      return cplx r im
    else some (cplx zero zero)

/-- The mode announcement, `gridfromfile.cxx` L557-571: it computes `maxmode / zperiod`. -/
def announce (size2 zperiod : Int) : Out Unit :=
  let maxmode := (size2 - 1).tdiv 2
  if zperiod > maxmode then .ok ()
  else if zperiod = 0 then .error (.ub "division by zero in readgrid_3dvar_fft")
  else .ok ()

/-- `size[2]` on the dimension list, `gridfromfile.cxx` L389, L441: `std::vector` does not
check the index. -/
def size2 {α : Type} : Var α → Out Int
  | .tensor _ _ k _ => .ok k
  | _ => .error (.ub "size[2] of a vector with fewer elements")

/-- `GridFile::get(Mesh*, Field3D&, …)`, `gridfromfile.cxx` L129-132, L158-344, L377-421,
with `nz` in the file (values along Z are kept as a function); `nz` is `LocalNz`. -/
def getField3D {α : Type} (check : Bool) (v : View) (f : File) (nz : Int) (data : Option (Var α))
    (dflt : α) : Out (Got (Int → α)) :=
  match data with
  | none => .ok ⟨false, constFld v.c fun _ => dflt⟩
  | some (.scalar a) => .ok ⟨true, constFld v.c fun _ => a⟩
  | some (.vec n a) =>
      if n ≠ 1 then .error (.exc "Expecting a 2D variable")
      else .ok ⟨true, constFld v.c fun _ => a 0⟩
  | some (.mat n m a) => do
      let _ ← span check v f n m
      let k ← size2 (Var.mat n m a)
      if k ≠ nz then .error (.exc "3D variable has incorrect size")
      else .error (.exc "Could not read from grid")
  | some (.tensor n m k a) => do
      let _ ← span check v f n m
      if k ≠ nz then .error (.exc "3D variable has incorrect size")
      else (readField check v f n m a).map fun w => ⟨true, w⟩

/-- Reading a FieldPerp whose index is on this rank, up to the copy loop:
`gridfromfile.cxx` L425-450.  The data of a FieldPerp is two-dimensional (L188 rejects
three dimensions). -/
def perpReal {α : Type} (check : Bool) (v : View) (f : File) (nz : Int) (n m : Int)
    (a : Int → Int → α) : Out Unit := do
  let _ ← firstRow check v f
  let _ ← spanX check v n
  let k ← size2 (Var.mat n m a)
  if k ≠ nz then .error (.exc "FieldPerp variable has incorrect size") else .ok ()

end Verif.Mesh.GridFile
