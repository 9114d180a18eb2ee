/-
Model of the named regions of a mesh: `Mesh::createDefaultRegions` (src/mesh/mesh.cxx), `BoutMesh::addBoundaryRegions`
(src/mesh/impls/bout/boutmesh.cxx), and the index conversions of include/bout/mesh.hxx.
-/
import Verif.Region.Props

namespace Verif.MeshRegions
open Verif.Region

/-- Local sizes of a rank (mesh.hxx), and `maxregionblocksize`. -/
structure Local where
  LocalNx : Int
  LocalNy : Int
  LocalNz : Int
  xstart : Int
  xend : Int
  ystart : Int
  yend : Int
  zstart : Int
  zend : Int
  maxb : Int

/-- The regions made by `createDefaultRegions` for one index type. -/
structure Named where
  all : Region
  nobndry : Region
  nox : Region
  noy : Region
  noz : Region
  guards : Region
  xguards : Region
  yguards : Region
  zguards : Region
  nocorners : Region

/-- mesh.cxx:624-653, the 3D regions. -/
def default3D (L : Local) : Out Named := do
  let box := fun xs xe ys ye zs ze => Region.ofBox .ind3D xs xe ys ye zs ze L.LocalNy L.LocalNz L.maxb
  let all ← box 0 (L.LocalNx - 1) 0 (L.LocalNy - 1) 0 (L.LocalNz - 1)
  let nobndry ← box L.xstart L.xend L.ystart L.yend L.zstart L.zend
  let nox ← box L.xstart L.xend 0 (L.LocalNy - 1) 0 (L.LocalNz - 1)
  let noy ← box 0 (L.LocalNx - 1) L.ystart L.yend 0 (L.LocalNz - 1)
  let noz ← box 0 (L.LocalNx - 1) 0 (L.LocalNy - 1) L.zstart L.zend
  let x1 ← box 0 (L.xstart - 1) L.ystart L.yend L.zstart L.zend
  let x2 ← box (L.xend + 1) (L.LocalNx - 1) L.ystart L.yend L.zstart L.zend
  let y1 ← box L.xstart L.xend 0 (L.ystart - 1) L.zstart L.zend
  let y2 ← box L.xstart L.xend (L.yend + 1) (L.LocalNy - 1) L.zstart L.zend
  let z1 ← box L.xstart L.xend L.ystart L.yend 0 (L.zstart - 1)
  let z2 ← box L.xstart L.xend L.ystart L.yend (L.zend + 1) (L.LocalNz - 1)
  return ⟨all, nobndry, nox, noy, noz, all.mask nobndry, x1.add x2, y1.add y2, z1.add z2,
    (((nobndry.add (x1.add x2)).add (y1.add y2)).add (z1.add z2)).asUnique⟩

/-- mesh.cxx:655-681, the 2D regions. -/
def default2D (L : Local) : Out Named := do
  let box := fun xs xe ys ye zs ze => Region.ofBox .ind2D xs xe ys ye zs ze L.LocalNy 1 L.maxb
  let all ← box 0 (L.LocalNx - 1) 0 (L.LocalNy - 1) 0 0
  let nobndry ← box L.xstart L.xend L.ystart L.yend 0 0
  let nox ← box L.xstart L.xend 0 (L.LocalNy - 1) 0 0
  let noy ← box 0 (L.LocalNx - 1) L.ystart L.yend 0 0
  let noz ← box 0 (L.LocalNx - 1) 0 (L.LocalNy - 1) 0 0
  let x1 ← box 0 (L.xstart - 1) L.ystart L.yend 0 0
  let x2 ← box (L.xend + 1) (L.LocalNx - 1) L.ystart L.yend 0 0
  let y1 ← box L.xstart L.xend 0 (L.ystart - 1) 0 0
  let y2 ← box L.xstart L.xend (L.yend + 1) (L.LocalNy - 1) 0 0
  let z1 ← box L.xstart L.xend L.ystart L.yend 0 (-1)
  return ⟨all, nobndry, nox, noy, noz, all.mask nobndry, x1.add x2, y1.add y2, z1.add z1,
    (((nobndry.add (x1.add x2)).add (y1.add y2)).add (z1.add z1)).asUnique⟩

/-- mesh.cxx:683-714, the perpendicular regions. -/
def defaultPerp (L : Local) : Out Named := do
  let box := fun xs xe ys ye zs ze => Region.ofBox .indPerp xs xe ys ye zs ze 1 L.LocalNz L.maxb
  let all ← box 0 (L.LocalNx - 1) 0 0 0 (L.LocalNz - 1)
  let nobndry ← box L.xstart L.xend 0 0 L.zstart L.zend
  let nox ← box L.xstart L.xend 0 0 0 (L.LocalNz - 1)
  let noy ← box 0 (L.LocalNx - 1) 0 0 0 (L.LocalNz - 1)
  let noz ← box 0 (L.LocalNx - 1) 0 0 L.zstart L.zend
  let x1 ← box 0 (L.xstart - 1) 0 0 L.zstart L.zend
  let x2 ← box (L.xend + 1) (L.LocalNx - 1) 0 0 L.zstart L.zend
  let y1 ← box L.xstart L.xend 0 (-1) L.zstart L.zend
  let z1 ← box L.xstart L.xend 0 0 0 (L.zstart - 1)
  let z2 ← box L.xstart L.xend 0 0 (L.zend + 1) (L.LocalNz - 1)
  return ⟨all, nobndry, nox, noy, noz, all.mask nobndry, x1.add x2, y1.add y1, z1.add z2,
    (((nobndry.add (x1.add x2)).add (y1.add y1)).add (z1.add z2)).asUnique⟩

/-! ## Boundary regions -/

/-- One Y side of a rank (boutmesh.hxx: `UDATA_*`, `DDATA_*`). -/
structure YSide where
  indest : Int
  outdest : Int
  xsplit : Int

/-- What `addBoundaryRegions` reads about the rank's place. -/
structure Place where
  firstX : Bool
  lastX : Bool
  firstY : Bool
  lastY : Bool
  periodicX : Bool
  corners : Bool
  down : YSide
  up : YSide

/-- boutmesh.cxx:2431-2440 (and five more times): the columns of a Y boundary, without corner cells. -/
def yColumns (L : Local) (s : YSide) : Int × Int :=
  let xs := 0
  let xe := L.LocalNx - 1
  let xs := if s.indest ≥ 0 ∧ s.xsplit > L.xstart then s.xsplit else xs
  let xe := if s.outdest ≥ 0 ∧ s.xsplit < L.xend + 1 then s.xsplit - 1 else xe
  let xs := if xs < L.xstart then L.xstart else xs
  let xe := if xe > L.xend then L.xend else xe
  (xs, xe)

/-- boutmesh.cxx:2444-2451 (and five more times): corner cells. -/
def withCorners (L : Local) (P : Place) (r : Int × Int) : Int × Int :=
  let xs := if P.corners ∧ P.firstX ∧ r.1 = L.xstart ∧ r.2 > L.xstart then 0 else r.1
  let xe := if P.corners ∧ P.lastX ∧ r.2 = L.xend ∧ xs < L.xend then L.LocalNx - 1 else r.2
  (xs, xe)

/-- The regions made by `addBoundaryRegions` for one index type. -/
structure Boundaries where
  lowerInner : Region
  lowerOuter : Region
  lower : Region
  upperInner : Region
  upperOuter : Region
  upper : Region
  innerThin : Region
  inner : Region
  outerThin : Region
  outer : Region
  bndry : Region
  withX : Region
  withY : Region
  withAll : Region

/-- `if (...) addRegion(box) else addRegion(empty)`. -/
def pick (c : Bool) (r e : Out Region) : Out Region := if c = true then r else e

/-- boutmesh.cxx:2419-2769 `addBoundaryRegions`, for 3D (`t = ind3D`, `zmax = LocalNz - 1`, `nz = LocalNz`) and 2D regions
(`t = ind2D`, `zmax = 0`, `nz = 1`).  In the code the corner test of `RGN_UPPER_INNER_Y` is outside the test of `lastY`; there
`xs = -1` is not `xstart`. -/
def boundaries (L : Local) (P : Place) (t : IndType) (zmax nz : Int) (nobndry : Region) : Out Boundaries := do
  let box := fun xs xe ys ye zs ze => Region.ofBox t xs xe ys ye zs ze L.LocalNy nz L.maxb
  let lo := withCorners L P (yColumns L P.down)
  let up := withCorners L P (yColumns L P.up)
  let li := if !P.firstY then (-1, -2) else lo
  let lowerInner ← box li.1 li.2 0 (L.ystart - 1) 0 zmax
  let lo' := if !P.firstY then lo else (-1, -2)
  let lowerOuter ← box lo'.1 lo'.2 0 (L.ystart - 1) 0 zmax
  let lower ← box lo.1 lo.2 0 (L.ystart - 1) 0 zmax
  let ui := withCorners L P (if !P.lastY then yColumns L P.up else (-1, -2))
  let upperInner ← box ui.1 ui.2 (L.yend + 1) (L.LocalNy - 1) 0 zmax
  let uo := if !P.lastY then (-1, -2) else up
  let upperOuter ← box uo.1 uo.2 (L.yend + 1) (L.LocalNy - 1) 0 zmax
  let upper ← box up.1 up.2 (L.yend + 1) (L.LocalNy - 1) 0 zmax
  let first := P.firstX && !P.periodicX
  let innerThin ← pick (first) (box (L.xstart - 1) (L.xstart - 1) L.ystart L.yend 0 zmax) (box 0 (-1) 0 0 0 0)
  let inner ← pick (first) (box 0 (L.xstart - 1) L.ystart L.yend 0 zmax) (box 0 (-1) 0 0 0 0)
  let last := P.lastX && !P.periodicX
  let outerThin ← pick (last) (box (L.xend + 1) (L.xend + 1) L.ystart L.yend 0 zmax) (box 0 (-1) 0 0 0 0)
  let outer ← pick (last) (box (L.xend + 1) (L.LocalNx - 1) L.ystart L.yend 0 zmax) (box 0 (-1) 0 0 0 0)
  let names := [lowerInner, lowerOuter, lower, upperInner, upperOuter, upper] ++ (if first then [inner] else []) ++
    (if last then [outer] else [])
  let bndry := (names.foldl Region.add {}).asUnique
  return ⟨lowerInner, lowerOuter, lower, upperInner, upperOuter, upper, innerThin, inner, outerThin, outer, bndry,
    ((nobndry.add inner).add outer).asUnique, ((nobndry.add lower).add upper).asUnique, (nobndry.add bndry).asUnique⟩

/-- boutmesh.cxx:2644-2715: `RGN_INNER_X` and `RGN_OUTER_X` of perpendicular regions. -/
def boundariesPerp (L : Local) (P : Place) : Out (Region × Region) := do
  let box := fun xs xe ys ye zs ze => Region.ofBox .indPerp xs xe ys ye zs ze 1 L.LocalNz L.maxb
  let inner ← pick (P.firstX && !P.periodicX) (box 0 (L.xstart - 1) 0 0 0 (L.LocalNz - 1)) (box 0 (-1) 0 0 0 0)
  let outer ← pick (P.lastX && !P.periodicX) (box (L.xend + 1) (L.LocalNx - 1) 0 0 0 (L.LocalNz - 1)) (box 0 (-1) 0 0 0 0)
  return (inner, outer)

/-! ## Index conversions -/

/-- mesh.hxx:731-733 `ind2Dto3D`. -/
def ind2Dto3D (L : Local) (i : Ind) (jz : Int) : Ind := ⟨i.ind * L.LocalNz + jz, L.LocalNy, L.LocalNz⟩
/-- mesh.hxx:736 `ind3Dto2D`. -/
def ind3Dto2D (L : Local) (i : Ind) : Ind := ⟨i.ind.tdiv L.LocalNz, L.LocalNy, 1⟩
/-- mesh.hxx:739-741 `ind3DtoPerp`. -/
def ind3DtoPerp (L : Local) (i : Ind) : Ind := ⟨i.x * L.LocalNz + i.z, 1, L.LocalNz⟩
/-- mesh.hxx:744-747 `indPerpto3D`. -/
def indPerpto3D (L : Local) (i : Ind) (jy : Int) : Ind :=
  ⟨(i.ind - i.z) * L.LocalNy + L.LocalNz * jy + i.z, L.LocalNy, L.LocalNz⟩
/-- mesh.cxx:716-720 and mesh.hxx:750-752: the lookup table of `map3Dto2D`, filled over `RGN_ALL`. -/
def lookup3Dto2D (L : Local) (all : Region) : Int → Option Int :=
  (iterate all.blocks).foldl (fun f i => fun n => if n = i.ind then some (ind3Dto2D L i).ind else f n) (fun _ => none)

end Verif.MeshRegions
