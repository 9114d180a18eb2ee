import Verif.Common
/-!
# Model of `include/bout/region.hxx`: `SpecificInd` and `Region`

C++ `int` is modelled by `Int` (no overflow).  `/` and `%` on `int` truncate towards zero, so they
are `Int.tdiv` and `Int.tmod`.  Division by zero (`nz = 0` or `ny = 0`) is undefined behaviour in C++;
every theorem that uses these functions has the hypotheses `0 < ny`, `0 < nz`.
The template parameter (`Ind3D`/`Ind2D`/`IndPerp`) only matters for the constructor checks and is
the argument `IndType` there.
-/

namespace Verif.Region

/-- region.hxx:134 `enum class IND_TYPE`. -/
inductive IndType where
  | ind3D | ind2D | indPerp
  deriving DecidableEq, Repr

/-- region.hxx:159-165 `struct SpecificInd`: flat index plus sizes of y and z, all defaulting to -1. -/
@[ext] structure Ind where
  ind : Int := -1
  ny : Int := -1
  nz : Int := -1
  deriving DecidableEq, Repr

namespace Ind

/-- region.hxx:226 `int x() const { return (ind / nz) / ny; }` -/
def x (i : Ind) : Int := (i.ind.tdiv i.nz).tdiv i.ny
/-- region.hxx:227 `int y() const { return (ind / nz) % ny; }` -/
def y (i : Ind) : Int := (i.ind.tdiv i.nz).tmod i.ny
/-- region.hxx:228 `int z() const { return (ind % nz); }` -/
def z (i : Ind) : Int := i.ind.tmod i.nz

/-- region.hxx:270 `xp`. -/
def xp (i : Ind) (dx : Int) : Ind := { i with ind := i.ind + dx * i.ny * i.nz }
/-- region.hxx:272 `xm`: `xp(-dx)`. -/
def xm (i : Ind) (dx : Int) : Ind := i.xp (-dx)
/-- region.hxx:274-282 `yp` as compiled with `CHECK < 3` (no assertion). -/
def yp (i : Ind) (dy : Int) : Ind := { i with ind := i.ind + dy * i.nz }
/-- region.hxx:284 `ym`: `yp(-dy)`. -/
def ym (i : Ind) (dy : Int) : Ind := i.yp (-dy)
/-- region.hxx:274-282 `yp` as compiled with `CHECK >= 4`: throws when the target leaves the y range,
and then (`ASSERT3`) when `|dy| >= ny`. -/
def ypChecked (i : Ind) (dy : Int) : Out Ind :=
  if i.y + dy < 0 ∨ i.y + dy ≥ i.ny then .error (.exc "Offset in y would go out of bounds")
  else if ¬ (dy.natAbs : Int) < i.ny then .error (.exc "ASSERT3(std::abs(dy) < ny)")
  else .ok (i.yp dy)
/-- region.hxx:289-293 `zp` (the `ASSERT3(dz >= 0)` is a hypothesis of the theorems). -/
def zp (i : Ind) (dz₀ : Int) : Ind :=
  let dz := if dz₀ ≤ i.nz then dz₀ else dz₀.tmod i.nz
  { i with ind := if (i.ind + dz).tmod i.nz < dz then i.ind - i.nz + dz else i.ind + dz }
/-- region.hxx:298-302 `zm` (the `ASSERT3(dz >= 0)` is a hypothesis of the theorems). -/
def zm (i : Ind) (dz₀ : Int) : Ind :=
  let dz := if dz₀ ≤ i.nz then dz₀ else dz₀.tmod i.nz
  { i with ind := if i.ind.tmod i.nz < dz then i.ind + i.nz - dz else i.ind - dz }
/-- region.hxx:313-316 `offset(dx, dy, dz)`. -/
def offset (i : Ind) (dx dy dz : Int) : Ind :=
  let temp := if dz > 0 then i.zp dz else i.zm (-dz)
  (temp.yp dy).xp dx
/-- region.hxx:172-175 `operator++`: only `ind` changes. -/
def succ (i : Ind) : Ind := { i with ind := i.ind + 1 }

end Ind

/-! ### Region construction -/

/-- region.hxx:827-848: the `while (!done)` odometer of `createRegionIndices`.
`room` counts the elements of the pre-allocated vector not yet written: writing with no room left is an
out-of-bounds access (UB); elements never written keep their initial `-1`. -/
def fillLoop (xstart xend ystart yend zstart zend ny nz : Int) :
    Nat → Int → Int → Int → Out (List Ind)
  | 0, _, _, _ => .error (.ub "region[j] written out of bounds")
  | room + 1, x, y, z =>
    let here : Ind := { ind := (x * ny + y) * nz + z, ny := ny, nz := nz }
    if x = xend ∧ y = yend ∧ z = zend then
      .ok (here :: List.replicate room { ind := -1, ny := ny, nz := nz })
    else
      -- ++z; if (z > zend) { z = zstart; ++y; if (y > yend) { y = ystart; ++x; } }
      let rest :=
        if z + 1 > zend then
          if y + 1 > yend then
            fillLoop xstart xend ystart yend zstart zend ny nz room (x + 1) ystart zstart
          else
            fillLoop xstart xend ystart yend zstart zend ny nz room x (y + 1) zstart
        else
          fillLoop xstart xend ystart yend zstart zend ny nz room x y (z + 1)
      match rest with
      | .ok l => .ok (here :: l)
      | .error e => .error e

/-- region.hxx:807-850 `createRegionIndices`.  The `ASSERT1`s throw. -/
def createRegionIndices (xstart xend ystart yend zstart zend ny nz : Int) : Out (List Ind) :=
  if xend + 1 ≤ xstart ∨ yend + 1 ≤ ystart ∨ zend + 1 ≤ zstart then .ok []
  else if ¬ ny > 0 then .error (.exc "ASSERT1(ny > 0)")
  else if ¬ nz > 0 then .error (.exc "ASSERT1(nz > 0)")
  else
    let len := (xend - xstart + 1) * (yend - ystart + 1) * (zend - zstart + 1)
    if ¬ len > 0 then .error (.exc "ASSERT1(len > 0)")
    else fillLoop xstart xend ystart yend zstart zend ny nz len.toNat xstart ystart zstart

/-- region.hxx:493-494 `ContiguousBlock`: `[first, second)`. -/
abbrev Block := Ind × Ind

/-- region.hxx:868-877: the inner `for (index++; count < maxregionblocksize; index++)` loop.
`prev` is `indices[index-1]`; the list is what follows.  Returns the inclusive last index of the block
and the indices after it. -/
def takeBlock (maxb : Int) : Ind → Int → List Ind → Ind × List Ind
  | prev, _, [] => (prev, [])
  | prev, count, i :: rest =>
    if count < maxb then
      if i.ind - prev.ind = 1 then takeBlock maxb i (count + 1) rest
      else (prev, i :: rest)
    else (prev, i :: rest)

theorem takeBlock_length_le (maxb : Int) (prev : Ind) (count : Int) (l : List Ind) :
    (takeBlock maxb prev count l).2.length ≤ l.length := by
  induction l generalizing prev count with
  | nil => simp [takeBlock]
  | cons i rest ih =>
    unfold takeBlock
    split
    · split
      · have := ih i (count + 1); simp; omega
      · simp
    · simp

/-- region.hxx:856-888 `getContiguousBlocks` (the `ASSERT1(maxregionblocksize > 0)` is a hypothesis
where a theorem needs it). -/
def getContiguousBlocks (maxb : Int) : List Ind → List Block
  | [] => []
  | start :: rest =>
    let r := takeBlock maxb start 1 rest
    (start, r.1.succ) :: getContiguousBlocks maxb r.2
termination_by l => l.length
decreasing_by
  have := takeBlock_length_le maxb start 1 rest
  simp; omega

/-- region.hxx:112-115 inner loop of `BOUT_FOR_SERIAL`:
`for (auto index = block->first; index < block->second; ++index)`.
The loop variable is a copy of `block->first`, so it carries the `ny, nz` of the first index. -/
def blockPoints (b : Block) : List Ind :=
  (List.range (b.2.ind - b.1.ind).toNat).map fun (k : Nat) => { b.1 with ind := b.1.ind + (k : Int) }

/-- region.hxx:112-115 `BOUT_FOR_SERIAL` / region.hxx:891-897 `getRegionIndices`: the sequence of
loop-variable values visited. -/
def iterate (bs : List Block) : List Ind := bs.flatMap blockPoints

/-- region.hxx:481, 800-803 `class Region`, data members. -/
structure Region where
  indices : List Ind := []
  blocks : List Block := []
  ny : Int := -1
  nz : Int := -1
  deriving DecidableEq, Repr

/-- region.hxx:60-62 `MAXREGIONBLOCKSIZE`, default 64. -/
def maxRegionBlockSize : Int := 64

namespace Region

/-- region.hxx:519-559: `Region(xstart, ..., ny, nz, maxregionblocksize)` with `CHECK > 1`.
Note the second copy of the `zstart`/`ystart` test where the message speaks about `zend`/`yend`. -/
def ofBox (t : IndType) (xstart xend ystart yend zstart zend ny nz : Int)
    (maxb : Int := maxRegionBlockSize) : Out Region :=
  if t = .ind2D ∧ nz ≠ 1 then .error (.exc "expected nz = 1")
  else if t = .ind2D ∧ zstart ≠ 0 then .error (.exc "expected zstart = 0")
  else if t = .ind2D ∧ zstart ≠ 0 then .error (.exc "expected zend = 0")
  else if t = .indPerp ∧ ny ≠ 1 then .error (.exc "expected ny = 1")
  else if t = .indPerp ∧ ystart ≠ 0 then .error (.exc "expected ystart = 0")
  else if t = .indPerp ∧ ystart ≠ 0 then .error (.exc "expected yend = 0")
  else
    match createRegionIndices xstart xend ystart yend zstart zend ny nz with
    | .error e => .error e
    | .ok l =>
      if maxb > 0 then .ok { indices := l, blocks := getContiguousBlocks maxb l, ny := ny, nz := nz }
      else .error (.exc "ASSERT1(maxregionblocksize > 0)")

/-- region.hxx:561-564: `Region(RegionIndices&, maxregionblocksize)`; `ny`, `nz` stay at -1. -/
def ofIndices (l : List Ind) (maxb : Int := maxRegionBlockSize) : Region :=
  { indices := l, blocks := getContiguousBlocks maxb l }

/-- region.hxx:566: `Region(ContiguousBlocks&)`; `ny`, `nz` stay at -1. -/
def ofBlocks (bs : List Block) : Region := { indices := iterate bs, blocks := bs }

/-- region.hxx:587-590 `setIndices`. -/
def setIndices (r : Region) (l : List Ind) (maxb : Int := maxRegionBlockSize) : Region :=
  { r with indices := l, blocks := getContiguousBlocks maxb l }

/-- region.hxx:593-596 `setBlocks`. -/
def setBlocks (r : Region) (bs : List Block) : Region :=
  { r with indices := iterate bs, blocks := bs }

/-- `std::sort` with `operator<` on `ind` (region.hxx:319-349 relational operators).
`std::sort` is unspecified on ties; ties have the same `ind`.  Modelled by a stable merge sort. -/
def stdSort (l : List Ind) : List Ind := l.mergeSort (fun a b => decide (a.ind ≤ b.ind))

/-- `std::unique` + `erase` (region.hxx:622-624): keep the first of each run of equal `ind`. -/
def stdUnique : List Ind → List Ind
  | [] => []
  | [a] => [a]
  | a :: b :: rest => if a.ind = b.ind then stdUnique (a :: rest) else a :: stdUnique (b :: rest)
termination_by l => l.length

/-- `std::binary_search` on a sorted vector: is an element with the same `ind` present? -/
def stdContains (l : List Ind) (v : Ind) : Bool := l.any (fun i => decide (i.ind = v.ind))

/-- region.hxx:600-604 `asSorted` (and 607-610 `sort`): a *new* Region built from indices. -/
def asSorted (r : Region) : Region := ofIndices (stdSort r.indices)

/-- region.hxx:615-626 `asUnique` (and 629-632 `unique`). -/
def asUnique (r : Region) : Region := ofIndices (stdUnique (stdSort r.indices))

/-- region.hxx:636-661 `mask`. -/
def mask (r m : Region) : Region :=
  let maskIndices := stdSort m.indices
  r.setIndices (r.indices.filter fun v => !(stdContains maskIndices v))

/-- region.hxx:665-690 `getIntersection`. -/
def getIntersection (r o : Region) : Region :=
  let otherIndices := stdSort o.indices
  r.setIndices (r.indices.filter fun v => stdContains otherIndices v)

/-- region.hxx:937-942 `operator+` (and 693-696 `operator+=`). -/
def add (l r : Region) : Region := ofIndices (l.indices ++ r.indices)

/-- region.hxx:699-715 `offset(int)`: new indices get the *Region's* `ny, nz`. -/
def offset (r : Region) (n : Int) : Region :=
  if n = 0 then r
  else r.setIndices (r.indices.map fun i => { ind := i.ind + n, ny := r.ny, nz := r.nz })

/-- region.hxx:739-743: the new index value of one point under a non-negative shift. -/
def shiftIndex (shift period index : Int) : Int :=
  (index + shift).tmod period + period * index.tdiv period

/-- region.hxx:723-748 `periodicShift`.  A negative shift with `period <= 0` recurses without bound,
and a positive shift with `period = 0` divides by zero: both are UB outcomes. -/
def periodicShift (r : Region) (shift period : Int) : Out Region :=
  if shift = 0 ∨ period = 1 then .ok r
  else if shift < 0 then
    if _h : period > 0 then periodicShift r (period + shift) period
    else .error (.ub "unbounded recursion in periodicShift")
  else if period = 0 then
    (if r.indices = [] then .ok (r.setIndices []) else .error (.ub "division by zero in periodicShift"))
  else
    .ok (r.setIndices (r.indices.map fun i => { i with ind := shiftIndex shift period i.ind }))
termination_by (-shift).toNat
decreasing_by omega

/-- region.hxx:750 `size()`. -/
def size (r : Region) : Nat := r.indices.length

end Region
end Verif.Region
