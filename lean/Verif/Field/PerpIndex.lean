import Mathlib.Tactic.Linarith
import Mathlib.Tactic.Ring
import Mathlib.Data.Int.Basic

/-!
# C94: global indices of perpendicular slices

Model of `FieldPerp::getGlobalIndex` and `setIndexFromGlobal` (src/field/fieldperp.cxx:116-141), `BoutMesh::getGlobalYIndex`,
`getLocalYIndex` and `getLocalYIndexNoBoundaries` (src/mesh/impls/bout/boutmesh.cxx:1638-1662) and of what `Options` does with the
index of a slice when it is stored and when it is read (src/sys/options.cxx:280-286, 644-657).

The answers of `hasBndryLowerY` and `hasBndryUpperY` are parameters (C93).  Left out: the data of the slices.
-/
namespace Verif.PerpIndex

/-- The decomposition in y: points per processor, guard cells, points before the upper target, and whether the topology has two
X-points (`jyseps1_2 > jyseps2_1`). -/
structure Decomp where
  mysub : Int
  myg : Int
  nyInner : Int
  doubleNull : Bool

/-- Boundaries of a row of processors. -/
structure Bndry where
  lower : Bool
  upper : Bool

/-- boutmesh.cxx:1640, 1653: "past the upper target". -/
def past (d : Decomp) (pe : Int) : Bool := d.doubleNull && decide (pe * d.mysub + 2 * d.myg + 1 > d.nyInner)

/-- boutmesh.cxx:1638-1645 `getGlobalYIndex`. -/
def toGlobal (d : Decomp) (pe ylocal : Int) : Int :=
  ylocal + pe * d.mysub + if past d pe then 2 * d.myg else 0

/-- boutmesh.cxx:1651-1658 `getLocalYIndex`. -/
def toLocal (d : Decomp) (pe yglobal : Int) : Int :=
  yglobal - pe * d.mysub - if past d pe then 2 * d.myg else 0

/-- boutmesh.cxx:1660-1662 `getLocalYIndexNoBoundaries`. -/
def toLocalNoBndry (d : Decomp) (pe yglobal : Int) : Int := yglobal - pe * d.mysub + d.myg

/-- fieldperp.cxx:118, 130: with `ystart = MYG`. -/
def first (d : Decomp) (b : Bndry) : Int := if b.lower then 0 else d.myg

/-- fieldperp.cxx:119, 131: with `yend = MYG + MYSUB - 1` and `LocalNy = MYSUB + 2 MYG`. -/
def stop (d : Decomp) (b : Bndry) : Int := if b.upper then d.mysub + 2 * d.myg else d.myg + d.mysub - 1 + 1

/-- fieldperp.cxx:116-126 `getGlobalIndex`. -/
def globalIndex (d : Decomp) (b : Bndry) (pe y : Int) : Int :=
  if first d b ≤ y ∧ y < stop d b then toGlobal d pe y else -1

/-- fieldperp.cxx:128-141 `setIndexFromGlobal`. -/
def setFromGlobal (d : Decomp) (b : Bndry) (pe g : Int) : Int :=
  let l := toLocal d pe g
  if first d b ≤ l ∧ l < stop d b then l else -1

/-- options.cxx:284: the attribute stored with a slice. -/
def store (d : Decomp) (b : Bndry) (pe y : Int) : Option Int := some (globalIndex d b pe y)

/-- options.cxx:644-657: the index of the slice that is read; `similar` is the index of `similar_to`. -/
def load (d : Decomp) (b : Bndry) (pe : Int) (attr : Option Int) (similar : Int) : Int :=
  match attr with
  | some g => setFromGlobal d b pe g
  | none => if similar = -1 then toLocalNoBndry d pe 0 else similar

end Verif.PerpIndex
