/-
The Flux Coordinate Independent parallel transform: field line maps (`src/mesh/parallel/fci.cxx`, `fci.hxx`), parallel boundary
regions (`src/mesh/parallel_boundary_region.cxx`) and parallel boundary conditions (`src/mesh/parallel_boundary_op.cxx`).

`BoutReal` is an ordered field.  The interpolation in X-Z is a parameter `M` (the methods are modelled in `Num/Interp`, C49).
Memory that has been allocated and not written holds an arbitrary value.
-/
import Verif.Mesh.GField
import Mathlib.Algebra.Order.Field.Basic

namespace Verif.Fci
open Verif.GField (rng loop3)

variable {K : Type} [Field K] [LinearOrder K] [IsStrictOrderedRing K]

/-- A grid point by local index. -/
structure Pt where
  x : Int
  y : Int
  z : Int
deriving DecidableEq

/-- The local mesh. -/
structure Grid where
  xstart : Int
  xend : Int
  ystart : Int
  yend : Int
  nz : Int

/-- `RGN_NOBNDRY`, in the order of iteration. -/
def Grid.interior (g : Grid) : List Pt :=
  (loop3 (g.xend - g.xstart + 1) (g.yend - g.ystart + 1) g.nz).map fun q => ⟨g.xstart + q.1, g.ystart + q.2.1, q.2.2⟩

/-- `i.xp()`, `i.xm()`. -/
def Pt.xp (p : Pt) : Pt := { p with x := p.x + 1 }
/-- See `xp`. -/
def Pt.xm (p : Pt) : Pt := { p with x := p.x - 1 }
/-- `i.zp()`: periodic in Z (C02). -/
def Grid.zp (g : Grid) (p : Pt) : Pt := { p with z := if p.z = g.nz - 1 then 0 else p.z + 1 }
/-- `i.zm()`. -/
def Grid.zm (g : Grid) (p : Pt) : Pt := { p with z := if p.z = 0 then g.nz - 1 else p.z - 1 }
/-- The point `d` rows further in Y. -/
def Pt.next (p : Pt) (d : Int) : Pt := { p with y := p.y + d }

/-- What the grid file gives for the mesh: positions of the points and the spacing. -/
structure Geo (K : Type) where
  R : Pt → K
  Z : Pt → K
  dy : Pt → K

/-- What the grid file gives for one direction: the end of the field line in index space and in space. -/
structure Line (K : Type) where
  xt : Pt → K
  zt : Pt → K
  R' : Pt → K
  Z' : Pt → K

/-- `BoundaryRegionPar::Indices`, `parallel_boundary_region.hxx` L28-37. The angle is always `PI` and never used. -/
structure BPoint (K : Type) where
  p : Pt
  sx : K
  sy : K
  sz : K
  length : K

/-- Differences of a position in X, `fci.cxx` L213-214. -/
def dX (R : Pt → K) (p : Pt) : K := 1 / 2 * (R p.xp - R p.xm)

/-- Differences of a position in Z, `fci.cxx` L216-230: one-sided at the ends. -/
def dZ (g : Grid) (R : Pt → K) (p : Pt) : K :=
  if p.z = 0 then R (g.zp p) - R p
  else if p.z = g.nz - 1 then R p - R (g.zm p)
  else 1 / 2 * (R (g.zp p) - R (g.zm p))

/-- The determinant, `fci.cxx` L232. -/
def det (g : Grid) (geo : Geo K) (p : Pt) : K :=
  dX geo.R p * dZ g geo.Z p - dZ g geo.R p * dX geo.Z p

/-- The change in X index, `fci.cxx` L234-238. -/
def hitX (g : Grid) (geo : Geo K) (m : Line K) (p : Pt) : K :=
  (dZ g geo.Z p * (m.R' p - geo.R p) - dZ g geo.R p * (m.Z' p - geo.Z p)) / det g geo p

/-- The change in Z index, `fci.cxx` L239. -/
def hitZ (g : Grid) (geo : Geo K) (m : Line K) (p : Pt) : K :=
  (dX geo.R p * (m.Z' p - geo.Z p) - dX geo.Z p * (m.R' p - geo.R p)) / det g geo p

/-- The record added to a boundary region, `fci.cxx` L244-248. -/
def record (g : Grid) (geo : Geo K) (m : Line K) (offset : Int) (p : Pt) : BPoint K :=
  { p := p, sx := p.x + hitX g geo m p, sy := p.y + 1 / 2 * offset, sz := p.z + hitZ g geo m p, length := 1 / 2 * geo.dy p }

/-- The state of the loop of `FCIMap::FCIMap`, `fci.cxx` L169-249. -/
structure St (K : Type) where
  mask : Pt → Bool
  inner : List (BPoint K)
  outer : List (BPoint K)

/-- One iteration, `fci.cxx` L169-249. The wrapping of `zt_prime` (L171-178) comes after the weights are calculated and changes
nothing that is used later. -/
def step (g : Grid) (geo : Geo K) (m : Line K) (offset : Int) (s : St K) (p : Pt) : St K :=
  if m.xt p ≥ g.xstart ∧ m.xt p ≤ g.xend then s
  else
    let s1 : St K := { s with mask := fun q => if q = p then true else s.mask q }
    if m.xt p < 0 then { s1 with inner := s1.inner ++ [record g geo m offset p] }
    else { s1 with outer := s1.outer ++ [record g geo m offset p] }

/-- The constructor of `FCIMap`: the mask starts all false; the regions are shared. -/
def build (g : Grid) (geo : Geo K) (m : Line K) (offset : Int) (inner outer : List (BPoint K)) : St K :=
  g.interior.foldl (step g geo m offset) ⟨fun _ => false, inner, outer⟩

/-- The four parallel boundary regions of the mesh and the masks of the maps. -/
structure Tr (K : Type) where
  fwdIn : List (BPoint K)
  bwdIn : List (BPoint K)
  fwdOut : List (BPoint K)
  bwdOut : List (BPoint K)
  mask : Int → Pt → Bool

/-- Both maps of one distance, `fci.hxx` L94-99. -/
def addMaps (g : Grid) (geo : Geo K) (lines : Int → Line K) (t : Tr K) (offset : Int) : Tr K :=
  let a := build g geo (lines offset) offset t.fwdIn t.fwdOut
  let b := build g geo (lines (-offset)) (-offset) t.bwdIn t.bwdOut
  { fwdIn := a.inner, fwdOut := a.outer, bwdIn := b.inner, bwdOut := b.outer
    mask := fun o => if o = offset then a.mask else if o = -offset then b.mask else t.mask o }

/-- The constructor of `FCITransform`, `fci.hxx` L72-101: `offset` from 1 to `ystart`. -/
def construct (g : Grid) (geo : Geo K) (lines : Int → Line K) : Tr K :=
  (rng g.ystart).foldl (fun t o => addMaps g geo lines t (o + 1)) ⟨[], [], [], [], fun _ _ => false⟩

/-- The parallel slices of a field: `slices o` is `ynext(o)`. -/
abbrev Slices (K : Type) := Int → Pt → K

/-- An X-Z interpolation at one point: the values of the row, and where. -/
abbrev Method (K : Type) := (Int → Int → K) → K → K → K

/-- `calcParallelSlices`, `fci.cxx` L327-344: the value for point `p` is stored at `p.next offset`; masked points and points outside the
interior keep what the new field had. -/
def calcSlices (g : Grid) (t : Tr K) (lines : Int → Line K) (M : Method K) (f : Pt → K) (junk : Slices K) : Slices K :=
  fun o q =>
    if q.next (-o) ∈ g.interior ∧ t.mask o (q.next (-o)) = false then
      M (fun x z => f ⟨x, q.y, z⟩) ((lines o).xt (q.next (-o))) ((lines o).zt (q.next (-o)))
    else junk o q

/-- Where boundary values come from, `parallel_boundary_op.hxx` L61. -/
inductive Src (K : Type) where
  | gen (atPoint : Pt → K) (atPosition : K → K → K → K)
  | field (v : Pt → K)
  | real (v : K)

/-- `getValue(x, y, z, t)`, `parallel_boundary_op.cxx` L10-30. -/
def Src.at (s : Src K) (p : Pt) : K :=
  match s with
  | .gen a _ => a p
  | .field v => v p
  | .real v => v

/-- `getValue(bndry, t)`, `parallel_boundary_op.cxx` L32-51. -/
def Src.on (s : Src K) (b : BPoint K) : K :=
  match s with
  | .gen _ a => a b.sx b.sy b.sz
  | .field v => v b.p
  | .real v => v

/-- The parallel boundary conditions. -/
inductive Op where
  | dirichlet
  | dirichletO3
  | dirichletInterp
  | neumann

/-- `BoundaryOpPar_dirichlet::apply`, one point, `parallel_boundary_op.cxx` L92-97. -/
def dirichletVal (f value dy length : K) : K := value - (f - value) * (dy - length) / length

/-- `BoundaryOpPar_dirichlet_O3::apply`, one point, `parallel_boundary_op.cxx` L142-154. -/
def dirichletO3Val (f1 f2 fb dy length : K) : K :=
  let l1 := dy
  let l2 := length
  let l3 := dy - l2
  let denom := l1 * l1 * l2 + l1 * l2 * l2
  let term1 := l2 * l2 * l3 + l2 * l3 * l3
  let term2 := l1 * (l1 + l2 + l3) * (l2 + l3)
  let term3 := l3 * ((l1 + l2) * l3 + (l1 + l2) * (l1 + l2))
  (term1 * f1 + term2 * fb - term3 * f2) / denom

/-- `BoundaryOpPar_dirichlet_interp::apply`, one point, `parallel_boundary_op.cxx` L200-209. -/
def dirichletInterpVal (fprev f fs dy length : K) : K :=
  let s := length * dy
  fprev * (1 - (2 * s / (dy + s))) + 2 * f * ((s - dy) / s) + fs * (dy / s - (2 / s + 1))

/-- `BoundaryOpPar_neumann::apply`, one point, `parallel_boundary_op.cxx` L247-250. -/
def neumannVal (f value dy : K) (dir : Int) : K := f + dir * value * dy

/-- The value a condition puts at `y + dir`. -/
def Op.value (op : Op) (src : Src K) (dy : Pt → K) (f : Pt → K) (dir : Int) (s : Slices K) (b : BPoint K) : K :=
  match op with
  | .dirichlet => dirichletVal (f b.p) (src.on b) (dy b.p) b.length
  | .dirichletO3 => dirichletO3Val (s (-dir) (b.p.next (-dir))) (f b.p) (src.on b) (dy b.p) b.length
  | .dirichletInterp => dirichletInterpVal (s (-dir) (b.p.next (-dir))) (f b.p) (src.on b) (dy b.p) b.length
  | .neumann => neumannVal (f b.p) (src.at b.p) (dy b.p) dir

/-- Slices with one value changed. -/
def put (s : Slices K) (o : Int) (q : Pt) (v : K) : Slices K := fun o' q' => if o' = o ∧ q' = q then v else s o' q'

/-- `apply` of a condition on a region with direction `dir`: the loops of `parallel_boundary_op.cxx` L83-98, L130-155, L191-210, L236-251
over `first`, `next`, `isDone` (`parallel_boundary_region.cxx` L9-37). -/
def Op.apply (op : Op) (src : Src K) (dy : Pt → K) (f : Pt → K) (dir : Int) (bs : List (BPoint K)) (s : Slices K) : Slices K :=
  bs.foldl (fun s b => put s dir (b.p.next dir) (op.value src dy f dir s b)) s

/-- `Field3D::applyParallelBoundary` with the same condition on every region, in the order the regions were added
(`fci.hxx` L87-90). -/
def applyAll (op : Op) (src : Src K) (dy : Pt → K) (f : Pt → K) (t : Tr K) (s : Slices K) : Slices K :=
  let s1 := op.apply src dy f 1 t.fwdIn s
  let s2 := op.apply src dy f (-1) t.bwdIn s1
  let s3 := op.apply src dy f 1 t.fwdOut s2
  op.apply src dy f (-1) t.bwdOut s3

/-! ## Integration over the cell -/

/-- Whether the corner map at `p` is marked as leaving, `fci.cxx` L126-139. -/
def cornerOut (g : Grid) (m : Line K) (p : Pt) : Bool :=
  decide (p ∈ g.interior ∧
    (m.xt p < 0 ∨ m.xt p.xp < 0 ∨ m.xt (g.zp p).xp < 0 ∨ m.xt (g.zp p) < 0))

/-- The mean of four values around the corner, `fci.cxx` L141-149. -/
def cornerMean (g : Grid) (v : Pt → K) (p : Pt) : K := 1 / 4 * (v p + v p.xp + v (g.zp p) + v (g.zp p).xp)

/-- `interp_corner->interpolate(f)` stored at `p.next offset`: defined for interior points that are not marked. -/
def corner (g : Grid) (m : Line K) (offset : Int) (M : Method K) (f : Pt → K) (junk : Pt → K) (p : Pt) : K :=
  if p ∈ g.interior ∧ cornerOut g m p = false then
    M (fun x z => f ⟨x, p.y + offset, z⟩) (cornerMean g m.xt p) (cornerMean g m.zt p)
  else junk (p.next offset)

/-- `FCIMap::integrate` at one point, `fci.cxx` L273-321; `centre` and `junk` are what the interpolated fields hold. -/
def integrate (g : Grid) (m : Line K) (offset : Int) (mask : Pt → Bool) (M : Method K) (f : Pt → K) (junk : Pt → K)
    (result : Pt → K) (p : Pt) : K :=
  if mask p = true then result (p.next offset)
  else
    let fc := M (fun x z => f ⟨x, p.y + offset, z⟩) (m.xt p) (m.zt p)
    if cornerOut g m p = true ∨ cornerOut g m p.xm = true ∨ cornerOut g m (g.zm p) = true ∨
        cornerOut g m (g.zm p).xm = true ∨ p.x = g.xstart then fc
    else
      1 / 2 * (fc + 1 / 4 * (corner g m offset M f junk p + corner g m offset M f junk p.xm +
        corner g m offset M f junk (g.zm p) + corner g m offset M f junk (g.zm p).xm))

end Verif.Fci
