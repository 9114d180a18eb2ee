/-
Model of the creation of the X and Y communicators, `BoutMesh::createCommunicators`
(`src/mesh/impls/bout/boutmesh.cxx` L581-922), and of `BoutMesh::getYcomm` (L2404-2413) and
`getXcomm`.

A group is the list of its world ranks in rank order.  `MPI_Comm_create` is collective over the
world: the event list of a rank records every collective call it makes, with the group.  A
communicator is known by the number of the world-collective call that created it.  The world
has `NXPE*NYPE` ranks.  MPI errors abort (`MPI_ERRORS_ARE_FATAL`), modelled as exceptions;
freeing of groups and the debug output are not modelled.
-/
import Verif.Common
import Verif.Mesh.Model

namespace Verif.Mesh

open Verif

/-- A communicator: which creation call made it, whether it is a duplicate, and its members. -/
structure Comm where
  id : Nat
  dup : Bool
  group : List Int
deriving DecidableEq

/-- A collective call. -/
inductive Ev where
  /-- `MPI_Comm_create` over the world with this group. -/
  | create (group : List Int)
  /-- `MPI_Comm_dup` over the members of a communicator. -/
  | dup (c : Comm)
deriving DecidableEq

/-- The state of one rank. -/
structure CSt where
  n : Nat
  evs : List Ev
  comm_x : Option Comm
  comm_inner : Option Comm
  comm_middle : Option Comm
  comm_outer : Option Comm

/-- Before `createCommunicators`: all null (`boutmesh.cxx` L66-71). -/
def CSt.init : CSt := ⟨0, [], none, none, none, none⟩

/-- `MPI_Group_range_incl` of the world group with one range. -/
def rangeIncl (npes first last stride : Int) : Out (List Int) :=
  if first < 0 ∨ last < 0 ∨ npes ≤ first ∨ npes ≤ last ∨ last < first ∨ stride ≤ 0 then
    .error (.exc "MPI_Group_range_incl: invalid range")
  else .ok ((List.range ((last - first) / stride + 1).toNat).map fun (k : Nat) => first + k * stride)

/-- `MPI_Group_union`: the first group, then the members of the second not in the first. -/
def groupUnion (g1 g2 : List Int) : List Int := g1 ++ g2.filter fun r => decide (r ∉ g1)

/-- `MPI_Comm_create(BoutComm::get(), group, &comm_tmp)` on rank `r`. -/
def commCreate (r : Int) (g : List Int) (s : CSt) : Option Comm × CSt :=
  (if r ∈ g then some ⟨s.n, false, g⟩ else none, { s with n := s.n + 1, evs := s.evs ++ [.create g] })

/-- `MPI_Comm_dup`; the null communicator is an error. -/
def commDup (c : Option Comm) (s : CSt) : Out (Comm × CSt) :=
  match c with
  | none => .error (.exc "MPI_Comm_dup: null communicator")
  | some c => .ok ({ c with dup := true }, { s with evs := s.evs ++ [.dup c] })

/-- The group of the ranks at X position `i` from Y position `lo` to `hi`, with the stride
`proc[2] = NXPE`. -/
def yGroup (c : Cfg) (i lo hi : Int) : Out (List Int) :=
  rangeIncl (c.NXPE * c.NYPE) (c.PROC_NUM i lo) (c.PROC_NUM i hi) c.NXPE

/-- One pass of the X loop, L594-625. -/
def createX (c : Cfg) (px py : Int) (s : CSt) (yp : Int) : Out CSt := do
  let g ← rangeIncl (c.NXPE * c.NYPE) (c.PROC_NUM 0 yp) (c.PROC_NUM (c.NXPE - 1) yp) 1
  let (t, s) := commCreate (c.PROC_NUM px py) g s
  if yp = py then
    match t with
    | none => throw (.exc "X communicator null")
    | some _ => return { s with comm_x := t }
  else
    match t with
    | none => return s
    | some _ => throw (.exc "X communicator should be null")

/-- One pass of the outer SOL loop, single null, L641-660. -/
def createOuterSN (c : Cfg) (px py : Int) (s : CSt) (i : Int) : Out CSt := do
  let g ← yGroup c i 0 (c.NYPE - 1)
  let (t, s) := commCreate (c.PROC_NUM px py) g s
  if i = px then
    match t with
    | none => throw (.exc "Single null outer SOL not correct")
    | some _ => return { s with comm_outer := t }
  else
    match t with
    | none => return s
    | some _ => throw (.exc "Single null outer SOL not correct")

/-- `if (comm_tmp != MPI_COMM_NULL) comm_outer = comm_tmp`. -/
def setOuter (t : Option Comm) (s : CSt) : CSt :=
  match t with
  | none => s
  | some _ => { s with comm_outer := t }

/-- One pass of the outer SOL loop, double null, L665-693. -/
def createOuterDN (c : Cfg) (px py : Int) (s : CSt) (i : Int) : Out CSt := do
  let g ← yGroup c i 0 (c.YPROC (c.ny_inner - 1))
  let (t, s) := commCreate (c.PROC_NUM px py) g s
  let s := setOuter t s
  let g ← yGroup c i (c.YPROC c.ny_inner) (c.NYPE - 1)
  let (t, s) := commCreate (c.PROC_NUM px py) g s
  return setOuter t s

/-- `comm_inner = comm_tmp; comm_middle = …`, L729-743 and L779-793; `pf` says that the region
between the separatrices belongs to this private flux region. -/
def setPF (pf : Bool) (t : Option Comm) (s : CSt) : CSt :=
  match t with
  | none => s
  | some _ =>
      if pf = true then { s with comm_inner := t, comm_middle := t }
      else { s with comm_inner := t, comm_middle := s.comm_outer }

/-- A group, or `MPI_GROUP_EMPTY` if the condition is false. -/
def groupIf (b : Prop) [Decidable b] (g : Out (List Int)) : Out (List Int) := if b then g else .ok []

/-- Lower private flux region for X position `i`, L697-757. -/
def createLowerPF (c : Cfg) (px py : Int) (s : CSt) (i : Int) : Out CSt :=
  if c.jyseps1_1 ≥ 0 ∨ c.jyseps2_2 + 1 < c.ny then do
    let g1 ← groupIf (c.jyseps1_1 ≥ 0) (yGroup c i 0 (c.YPROC c.jyseps1_1))
    let g2 ← groupIf (c.jyseps2_2 + 1 < c.ny) (yGroup c i (c.YPROC (c.jyseps2_2 + 1)) (c.NYPE - 1))
    let (t, s) := commCreate (c.PROC_NUM px py) (groupUnion g1 g2) s
    return setPF (decide ((seps c).lower = (seps c).outer)) t s
  else .ok s

/-- Upper private flux region, L759-806. -/
def createUpperPF (c : Cfg) (px py : Int) (s : CSt) (i : Int) : Out CSt :=
  if c.jyseps2_1 ≠ c.jyseps1_2 then do
    let g1 ← yGroup c i (c.YPROC c.ny_inner) (c.YPROC c.jyseps1_2)
    let g2 ← yGroup c i (c.YPROC (c.jyseps2_1 + 1)) (c.YPROC (c.ny_inner - 1))
    let (t, s) := commCreate (c.PROC_NUM px py) (groupUnion g1 g2) s
    return setPF (decide ((seps c).upper = (seps c).outer)) t s
  else .ok s

/-- `comm_inner = comm_tmp`, and the duplicate made when there is no middle region, L843-849. -/
def setCore (c : Cfg) (t : Option Comm) (s : CSt) : Out CSt :=
  match t with
  | none => .ok s
  | some _ =>
      if (seps c).inner = (seps c).outer then do
        let (m, s) ← commDup t { s with comm_inner := t }
        return { s with comm_middle := some m }
      else .ok { s with comm_inner := t }

/-- `if ((proc[0] < 0) || (proc[1] < 0)) throw`, L817-819. -/
def coreGroup1 (c : Cfg) (i : Int) : Out (List Int) :=
  if c.PROC_NUM i (c.YPROC (c.jyseps1_1 + 1)) < 0 ∨ c.PROC_NUM i (c.YPROC c.jyseps2_1) < 0 then
    .error (.exc "Invalid processor range for core processors")
  else yGroup c i (c.YPROC (c.jyseps1_1 + 1)) (c.YPROC c.jyseps2_1)

/-- `if ((proc[0] < 0) || (proc[1] < 0)) group_tmp2 = MPI_GROUP_EMPTY`, L832-836. -/
def coreGroup2 (c : Cfg) (i : Int) : Out (List Int) :=
  if c.PROC_NUM i (c.YPROC (c.jyseps1_2 + 1)) < 0 ∨ c.PROC_NUM i (c.YPROC c.jyseps2_2) < 0 then .ok []
  else yGroup c i (c.YPROC (c.jyseps1_2 + 1)) (c.YPROC c.jyseps2_2)

/-- Core region, L808-858. -/
def createCore (c : Cfg) (px py : Int) (s : CSt) (i : Int) : Out CSt := do
  let g1 ← groupIf (c.jyseps2_1 > c.jyseps1_1) (coreGroup1 c i)
  let g2 ← groupIf (c.jyseps2_2 > c.jyseps1_2) (coreGroup2 c i)
  let (t, s) := commCreate (c.PROC_NUM px py) (groupUnion g1 g2) s
  setCore c t s

/-- The loop body L695-859. -/
def createInner (c : Cfg) (px py : Int) (s : CSt) (i : Int) : Out CSt := do
  let s ← createLowerPF c px py s i
  let s ← createUpperPF c px py s i
  createCore c px py s i

/-- `if (comm_tmp != MPI_COMM_NULL) comm_middle = comm_tmp`. -/
def setMiddle (t : Option Comm) (s : CSt) : CSt :=
  match t with
  | none => s
  | some _ => { s with comm_middle := t }

/-- Unbalanced double null, middle region connected to the bottom, L872-892. -/
def createMiddleLower (c : Cfg) (px py : Int) (s : CSt) (i : Int) : Out CSt := do
  let g1 ← yGroup c i 0 (c.YPROC c.jyseps2_1)
  let g2 ← yGroup c i (c.YPROC (c.jyseps1_2 + 1)) (c.NYPE - 1)
  let (t, s) := commCreate (c.PROC_NUM px py) (groupUnion g1 g2) s
  return setMiddle t s

/-- Unbalanced double null, middle region connected to the top, L897-917. -/
def createMiddleUpper (c : Cfg) (px py : Int) (s : CSt) (i : Int) : Out CSt := do
  let g1 ← yGroup c i (c.YPROC c.ny_inner) (c.YPROC c.jyseps2_2)
  let g2 ← yGroup c i (c.YPROC (c.jyseps1_1 + 1)) (c.YPROC (c.ny_inner - 1))
  let (t, s) := commCreate (c.PROC_NUM px py) (groupUnion g1 g2) s
  return setMiddle t s

/-- `for (int i = 0; i < n; i++)`. -/
def forInts (n : Int) (body : CSt → Int → Out CSt) (s : CSt) : Out CSt :=
  ((List.range n.toNat).map fun k : Nat => (k : Int)).foldlM body s

/-- The outer SOL communicators, L635-694. -/
def createOuter (c : Cfg) (px py : Int) (s : CSt) : Out CSt :=
  if c.jyseps1_2 = c.jyseps2_1 then forInts c.NXPE (createOuterSN c px py) s
  else forInts c.NXPE (createOuterDN c px py) s

/-- The middle communicators, L861-919. -/
def createMiddle (c : Cfg) (px py : Int) (s : CSt) : Out CSt :=
  if (seps c).inner = (seps c).outer then do
    let (m, s) ← commDup s.comm_inner s
    return { s with comm_middle := some m }
  else if (seps c).upper > (seps c).lower then forInts c.NXPE (createMiddleLower c px py) s
  else forInts c.NXPE (createMiddleUpper c px py) s

/-- `BoutMesh::createCommunicators` on the rank at `(px, py)`. -/
def createCommunicators (c : Cfg) (px py : Int) : Out CSt := do
  let s ← forInts c.NYPE (createX c px py) CSt.init
  let s ← createOuter c px py s
  let s ← forInts c.NXPE (createInner c px py) s
  createMiddle c px py s

/-- `BoutMesh::getYcomm`, L2404-2413. -/
def getYcomm (c : Cfg) (px : Int) (s : CSt) (xpos : Int) : Option Comm :=
  if c.getGlobalXIndex px xpos < (seps c).inner then s.comm_inner
  else if c.getGlobalXIndex px xpos < (seps c).outer then s.comm_middle
  else s.comm_outer

/-- `MPI_Comm_rank` on the Y communicator. -/
def yRank (c : Cfg) (px py : Int) (s : CSt) (xpos : Int) : Option Nat :=
  (getYcomm c px s xpos).map fun C => C.group.idxOf (c.PROC_NUM px py)

/-- `MPI_Comm_size` on the Y communicator. -/
def yCommSize (c : Cfg) (px : Int) (s : CSt) (xpos : Int) : Option Nat :=
  (getYcomm c px s xpos).map fun C => C.group.length

/-- `BoutMesh::firstY(int)`, L1564-1576. -/
def firstYx (c : Cfg) (px py : Int) (s : CSt) (xpos : Int) : Bool := decide (yRank c px py s xpos = some 0)

/-- `BoutMesh::lastY(int)`, L1578-1594. -/
def lastYx (c : Cfg) (px py : Int) (s : CSt) (xpos : Int) : Bool :=
  decide ((yRank c px py s xpos).map (fun (k : Nat) => (k : Int)) = (yCommSize c px s xpos).map fun (k : Nat) => (k : Int) - 1)

/-- `SurfaceIter::firstY`, `src/mesh/surfaceiter.cxx` L35-48. -/
def surfFirstY (c : Cfg) (px py : Int) (s : CSt) (xpos : Int) : Bool :=
  if periodicY c px py xpos = true then false else firstYx c px py s xpos

/-- `SurfaceIter::lastY`, `src/mesh/surfaceiter.cxx` L50-62. -/
def surfLastY (c : Cfg) (px py : Int) (s : CSt) (xpos : Int) : Bool :=
  if periodicY c px py xpos = true then false else lastYx c px py s xpos

/-- `Mesh::ySize`, `src/mesh/mesh.cxx` L390-398: the sum of the local sizes over the
communicator. -/
def meshYSize (c : Cfg) (px : Int) (s : CSt) (jx : Int) : Option Int :=
  (yCommSize c px s jx).map fun (k : Nat) => (k : Int) * c.MYSUB

/-- `BoutMesh::ySize`, `boutmesh.cxx` L2365-2402. -/
def ySize (c : Cfg) (px py xpos : Int) : Int :=
  let xg := c.getGlobalXIndex px xpos
  let yg := c.getGlobalYIndexNoBoundaries py c.MYG
  if xg < (seps c).lower ∧ (yg ≤ c.jyseps1_1 ∨ yg > c.jyseps2_2) then c.jyseps1_1 + 1 + (c.ny - c.jyseps2_2)
  else if xg < (seps c).upper ∧ yg > c.jyseps2_1 ∧ yg ≥ c.jyseps1_2 then c.jyseps1_2 - c.jyseps2_1
  else if xg < (seps c).inner then c.jyseps2_1 - c.jyseps1_1 + (c.jyseps2_2 - c.jyseps1_2)
  else if c.jyseps2_1 = c.jyseps1_2 then c.ny
  else if xg ≥ (seps c).inner ∧ xg < (seps c).outer then
    if (seps c).lower < (seps c).upper then c.jyseps2_1 + 1 + (c.ny - c.jyseps1_2)
    else c.jyseps2_2 - c.jyseps1_1
  else if yg < c.ny_inner then c.ny_inner
  else c.ny - c.ny_inner

end Verif.Mesh
