/-
Model of the processor layout of `BoutMesh`
(`src/mesh/impls/bout/boutmesh.cxx`).

C++ `int` is modelled by `Int` without overflow; C++ `/` and `%` on `int` are
`Int.tdiv` and `Int.tmod` (truncation towards zero).  A thrown `BoutException` is
`Except.error`; messages are shortened.  The per-rank object state that the
functions below read and write is split into

* `Cfg`   – the values every rank shares (grid sizes, guard widths, separatrices,
            processor grid), and
* `Conn`  – the connection fields of one rank.

Not modelled: output to the log.
-/
import Verif.Common

namespace Verif.Mesh

/-- Values shared by all ranks: members of `BoutMesh` declared in
`src/mesh/impls/bout/boutmesh.hxx` and set by `BoutMesh::load` or by the testing
constructors (`boutmesh.cxx` L1686-1752). -/
structure Cfg where
  nx : Int
  ny : Int
  MXG : Int
  MYG : Int
  NXPE : Int
  NYPE : Int
  ixseps1 : Int
  ixseps2 : Int
  jyseps1_1 : Int
  jyseps2_1 : Int
  jyseps1_2 : Int
  jyseps2_2 : Int
  ny_inner : Int
  periodicX : Bool
deriving Repr, DecidableEq

namespace Cfg

/-- `setDerivedGridSizes`, `boutmesh.cxx` L352: `MX = nx - 2*MXG`. -/
def MX (c : Cfg) : Int := c.nx - 2 * c.MXG
/-- `setDerivedGridSizes`, `boutmesh.cxx` L353: `MXSUB = MX / NXPE`. -/
def MXSUB (c : Cfg) : Int := c.MX.tdiv c.NXPE
/-- `setDerivedGridSizes`, `boutmesh.cxx` L360: `MY = ny`. -/
def MY (c : Cfg) : Int := c.ny
/-- `setDerivedGridSizes`, `boutmesh.cxx` L361: `MYSUB = MY / NYPE`. -/
def MYSUB (c : Cfg) : Int := c.MY.tdiv c.NYPE
/-- `setDerivedGridSizes`, `boutmesh.cxx` L382. -/
def LocalNx (c : Cfg) : Int := c.MXSUB + 2 * c.MXG
/-- `setDerivedGridSizes`, `boutmesh.cxx` L383. -/
def LocalNy (c : Cfg) : Int := c.MYSUB + 2 * c.MYG
/-- `setDerivedGridSizes`, `boutmesh.cxx` L387-388. -/
def xstart (c : Cfg) : Int := c.MXG
/-- `setDerivedGridSizes`, `boutmesh.cxx` L388. -/
def xend (c : Cfg) : Int := c.MXG + c.MXSUB - 1
/-- `setDerivedGridSizes`, `boutmesh.cxx` L390. -/
def ystart (c : Cfg) : Int := c.MYG
/-- `setDerivedGridSizes`, `boutmesh.cxx` L391. -/
def yend (c : Cfg) : Int := c.MYG + c.MYSUB - 1
/-- `setDerivedGridSizes`, `boutmesh.cxx` L335-343: the size of the global Y index
space that includes boundary cells; a second pair of targets adds `2*MYG`. -/
def GlobalNy (c : Cfg) : Int :=
  if c.jyseps1_2 ≠ c.jyseps2_1 then c.ny + 2 * c.MYG + 2 * c.MYG else c.ny + 2 * c.MYG

/-- The exceptions of `setDerivedGridSizes`, `boutmesh.cxx` L329-366 (the Z split is
not modelled: `NZPE` is always 1). -/
def setDerivedGridSizes (c : Cfg) : Except String Unit :=
  if c.nx ≤ 2 * c.MXG then .error "nx must be greater than 2 times MXG"
  else if c.MX.tmod c.NXPE ≠ 0 then .error "Cannot split X points equally"
  else if c.MY.tmod c.NYPE ≠ 0 then .error "Cannot split Y points equally"
  else .ok ()

/-- `BoutMesh::PROC_NUM`, `boutmesh.cxx` L1604-1613. -/
def PROC_NUM (c : Cfg) (xind yind : Int) : Int :=
  if xind ≥ c.NXPE ∨ xind < 0 then -1
  else if yind ≥ c.NYPE ∨ yind < 0 then -1
  else yind * c.NXPE + xind

/-- The rank-to-position map used when a mesh is loaded, `boutmesh.cxx` L485-486:
`PE_YIND = MYPE / NXPE; PE_XIND = MYPE % NXPE`. -/
def peX (c : Cfg) (mype : Int) : Int := mype.tmod c.NXPE
/-- See `peX`. -/
def peY (c : Cfg) (mype : Int) : Int := mype.tdiv c.NXPE

/-- `BoutMesh::getGlobalXIndex`, `boutmesh.cxx` L1621. `px` is `PE_XIND`. -/
def getGlobalXIndex (c : Cfg) (px xlocal : Int) : Int := xlocal + px * c.MXSUB
/-- `BoutMesh::getGlobalXIndexNoBoundaries`, `boutmesh.cxx` L1623-1625. -/
def getGlobalXIndexNoBoundaries (c : Cfg) (px xlocal : Int) : Int :=
  xlocal + px * c.MXSUB - c.MXG
/-- `BoutMesh::getLocalXIndex`, `boutmesh.cxx` L1627. -/
def getLocalXIndex (c : Cfg) (px xglobal : Int) : Int := xglobal - px * c.MXSUB
/-- `BoutMesh::getLocalXIndexNoBoundaries`, `boutmesh.cxx` L1629-1631. -/
def getLocalXIndexNoBoundaries (c : Cfg) (px xglobal : Int) : Int :=
  xglobal - px * c.MXSUB + c.MXG

/-- `BoutMesh::getGlobalYIndex`, `boutmesh.cxx` L1638-1645. `py` is `PE_YIND`. -/
def getGlobalYIndex (c : Cfg) (py ylocal : Int) : Int :=
  if c.jyseps1_2 > c.jyseps2_1 ∧ py * c.MYSUB + 2 * c.MYG + 1 > c.ny_inner then
    ylocal + py * c.MYSUB + 2 * c.MYG
  else ylocal + py * c.MYSUB
/-- `BoutMesh::getGlobalYIndexNoBoundaries`, `boutmesh.cxx` L1647-1649. -/
def getGlobalYIndexNoBoundaries (c : Cfg) (py ylocal : Int) : Int :=
  ylocal + py * c.MYSUB - c.MYG
/-- `BoutMesh::getLocalYIndex`, `boutmesh.cxx` L1651-1658. -/
def getLocalYIndex (c : Cfg) (py yglobal : Int) : Int :=
  if c.jyseps1_2 > c.jyseps2_1 ∧ py * c.MYSUB + 2 * c.MYG + 1 > c.ny_inner then
    yglobal - py * c.MYSUB - 2 * c.MYG
  else yglobal - py * c.MYSUB
/-- `BoutMesh::getLocalYIndexNoBoundaries`, `boutmesh.cxx` L1660-1662. -/
def getLocalYIndexNoBoundaries (c : Cfg) (py yglobal : Int) : Int :=
  yglobal - py * c.MYSUB + c.MYG

/-- `BoutMesh::YGLOBAL(int, int)`, `boutmesh.cxx` L1664. -/
def YGLOBAL (c : Cfg) (yloc yproc : Int) : Int := yloc + yproc * c.MYSUB - c.MYG
/-- `BoutMesh::YLOCAL`, `boutmesh.cxx` L1666. -/
def YLOCAL (c : Cfg) (yglo yproc : Int) : Int := yglo - yproc * c.MYSUB + c.MYG
/-- `BoutMesh::YPROC`, `boutmesh.cxx` L1676-1681. -/
def YPROC (c : Cfg) (yind : Int) : Int :=
  if yind < 0 ∨ yind ≥ c.ny then -1 else yind.tdiv c.MYSUB
/-- `BoutMesh::XPROC`, `boutmesh.cxx` L1683. -/
def XPROC (c : Cfg) (xind : Int) : Int :=
  if xind ≥ c.MXG then (xind - c.MXG).tdiv c.MXSUB else 0

end Cfg

/-! ### Validation of the decomposition -/

/-- `bout::checkBoutMeshYDecomposition`, `boutmesh.cxx` L166-237.  The result is the
`success` flag; `none` stands for the undefined behaviour of `% 0`, which C++ reaches
when `ny / num_y_processors` is zero and the first test did not return. -/
def checkBoutMeshYDecomposition (num_y_processors ny num_y_guards jyseps1_1 jyseps2_1
    jyseps1_2 jyseps2_2 ny_inner : Int) : Option Bool :=
  let num_local_y_points := ny.tdiv num_y_processors
  if num_local_y_points < num_y_guards ∧ num_y_processors ≠ 1 then some false
  else if num_local_y_points = 0 then none
  else if (jyseps1_1 + 1).tmod num_local_y_points ≠ 0 then some false
  else
    let core : Bool :=
      if jyseps2_1 ≠ jyseps1_2 then
        if (jyseps2_1 - jyseps1_1).tmod num_local_y_points ≠ 0 then false
        else if (jyseps2_2 - jyseps1_2).tmod num_local_y_points ≠ 0 then false
        else if (ny_inner - jyseps2_1 - 1).tmod num_local_y_points ≠ 0 then false
        else if (jyseps1_2 - ny_inner + 1).tmod num_local_y_points ≠ 0 then false
        else true
      else
        if (jyseps2_2 - jyseps1_1).tmod num_local_y_points ≠ 0 then false else true
    if core = false then some false
    else if (ny - jyseps2_2 - 1).tmod num_local_y_points ≠ 0 then some false
    else some true

/-- The result of `BoutMesh::setYDecompositionIndices`, `boutmesh.cxx` L106-157: the
corrected indices and `numberOfXPoints`. -/
structure YDecomp where
  jyseps1_1 : Int
  jyseps2_1 : Int
  jyseps1_2 : Int
  jyseps2_2 : Int
  ny_inner : Int
  numberOfXPoints : Nat
deriving Repr, DecidableEq

/-- `BoutMesh::setYDecompositionIndices`, `boutmesh.cxx` L106-157. -/
def setYDecompositionIndices (ny jyseps1_1_ jyseps2_1_ jyseps1_2_ jyseps2_2_ ny_inner_ : Int) :
    Except String YDecomp := do
  let j11 := if jyseps1_1_ < -1 then -1 else jyseps1_1_
  let j21 := if jyseps2_1_ < j11 then j11 + 1 else jyseps2_1_
  let j12 := if jyseps1_2_ < j21 then j21 else jyseps1_2_
  let j22 := if jyseps2_2_ ≥ ny then ny - 1 else jyseps2_2_
  let j22 ← if j22 < j12 then
      (if j12 ≥ ny then Except.error "jyseps1_2 must be < ny" else Except.ok j12)
    else Except.ok j22
  return { jyseps1_1 := j11, jyseps2_1 := j21, jyseps1_2 := j12, jyseps2_2 := j22
           ny_inner := ny_inner_
           numberOfXPoints := if j11 < 0 ∧ j22 ≥ ny - 1 then 0
                              else if j21 = j12 then 1 else 2 }

/-! ### Automatic choice of the processor grid -/

/-- One iteration of the loop in `BoutMesh::findProcessorSplit`, `boutmesh.cxx`
L291-316.  `nearer a b` stands for the floating point comparison
`fabs(ideal - a) < fabs(ideal - b)`; it is a parameter, so results hold whatever it
returns.  A `none` from the decomposition check (division by zero) aborts. -/
def splitStep (nearer : Int → Int → Bool) (npes mx ny myg j11 j21 j12 j22 nyi : Int)
    (best : Int) (i : Int) : Option Int :=
  if npes.tmod i = 0 ∧ mx.tmod i = 0 ∧ ny.tmod (npes.tdiv i) = 0 then
    match checkBoutMeshYDecomposition (npes.tdiv i) ny myg j11 j21 j12 j22 nyi with
    | none => none
    | some false => some best
    | some true => if best < 1 ∨ nearer i best = true then some i else some best
  else some best

/-- The loop `for (int i = 1; i <= NPES; i++)` of `BoutMesh::findProcessorSplit`,
`boutmesh.cxx` L291: `n` iterations remain, the current one is `i`. -/
def splitLoop (nearer : Int → Int → Bool) (npes mx ny myg j11 j21 j12 j22 nyi : Int) :
    Nat → Int → Int → Option Int
  | 0, _, best => some best
  | n + 1, i, best =>
    match splitStep nearer npes mx ny myg j11 j21 j12 j22 nyi best i with
    | none => none
    | some b => splitLoop nearer npes mx ny myg j11 j21 j12 j22 nyi n (i + 1) b

/-- `BoutMesh::findProcessorSplit`, `boutmesh.cxx` L281-327: `ok (NXPE, NYPE)` or the
exception; `none` is division by zero. -/
def findProcessorSplit (nearer : Int → Int → Bool)
    (npes nx mxg ny myg j11 j21 j12 j22 nyi : Int) : Option (Except String (Int × Int)) :=
  match splitLoop nearer npes (nx - 2 * mxg) ny myg j11 j21 j12 j22 nyi npes.toNat 1 (-1) with
  | none => none
  | some best =>
    if best < 1 then some (.error "Could not find a valid value for NXPE")
    else some (.ok (best, npes.tdiv best))

/-- `BoutMesh::chooseProcessorSplit`, `boutmesh.cxx` L241-279.  `nxpe` is
`some` when the option `NXPE` is set, `nype` is the value read for the option `NYPE`
otherwise (default 1).  `none` is division by zero. -/
def chooseProcessorSplit (npes : Int) (nxpe : Option Int) (nype : Int)
    (ny myg j11 j21 j12 j22 nyi : Int) : Option (Except String (Int × Int)) :=
  let split : Option (Except String (Int × Int)) :=
    match nxpe with
    | some n =>
      if n = 0 then none
      else if npes.tmod n ≠ 0 then some (.error "NPES not divisible by NXPE")
      else some (.ok (n, npes.tdiv n))
    | none =>
      if nype = 0 then none
      else if npes.tmod nype ≠ 0 then some (.error "NPES not divisible by NYPE")
      else some (.ok (npes.tdiv nype, nype))
  match split with
  | none => none
  | some (.error e) => some (.error e)
  | some (.ok (x, y)) =>
    if y = 0 then none
    else match checkBoutMeshYDecomposition y ny myg j11 j21 j12 j22 nyi with
    | none => none
    | some false => some (.error "bad decomposition")
    | some true => some (.ok (x, y))

/-! ### Connections between processors -/

/-- The connection members of one rank, `src/mesh/impls/bout/boutmesh.hxx` L345-350. -/
structure Conn where
  UDATA_XSPLIT : Int
  UDATA_INDEST : Int
  UDATA_OUTDEST : Int
  DDATA_XSPLIT : Int
  DDATA_INDEST : Int
  DDATA_OUTDEST : Int
  IDATA_DEST : Int
  ODATA_DEST : Int
  TS_up_in : Bool
  TS_up_out : Bool
  TS_down_in : Bool
  TS_down_out : Bool
deriving Repr, DecidableEq

/-- `BoutMesh::default_connections`, `boutmesh.cxx` L1763-1785, on the rank at
position `(px, py)`. -/
def default_connections (c : Cfg) (px py : Int) : Conn :=
  let idest := c.PROC_NUM (px - 1) py
  let odest := c.PROC_NUM (px + 1) py
  { UDATA_XSPLIT := 0, UDATA_INDEST := -1, UDATA_OUTDEST := c.PROC_NUM px (py + 1)
    DDATA_XSPLIT := 0, DDATA_INDEST := -1, DDATA_OUTDEST := c.PROC_NUM px (py - 1)
    IDATA_DEST := if c.periodicX ∧ px = 0 then c.PROC_NUM (c.NXPE - 1) py else idest
    ODATA_DEST := if c.periodicX ∧ px = c.NXPE - 1 then c.PROC_NUM 0 py else odest
    TS_up_in := false, TS_up_out := false, TS_down_in := false, TS_down_out := false }

/-- The upper half of `set_connection`, `boutmesh.cxx` L1846-1874: this rank sends up. -/
def connectUp (c : Cfg) (px ypedown xge xlt : Int) (ts : Bool) (s : Conn) : Conn :=
  if xge ≤ c.MXG then
    { s with UDATA_XSPLIT := xlt
             UDATA_INDEST := c.PROC_NUM px ypedown
             UDATA_OUTDEST := if xlt = c.LocalNx then -1 else s.UDATA_OUTDEST
             TS_up_in := ts }
  else
    { s with UDATA_INDEST := if xge ≤ 0 then -1
                             else if s.UDATA_XSPLIT ≤ 0 then s.UDATA_OUTDEST
                             else s.UDATA_INDEST
             UDATA_XSPLIT := xge
             UDATA_OUTDEST := c.PROC_NUM px ypedown
             TS_up_out := ts }

/-- The lower half of `set_connection`, `boutmesh.cxx` L1876-1907: this rank sends down. -/
def connectDown (c : Cfg) (px ypeup xge xlt : Int) (ts : Bool) (s : Conn) : Conn :=
  if xge ≤ c.MXG then
    { s with DDATA_XSPLIT := xlt
             DDATA_INDEST := c.PROC_NUM px ypeup
             DDATA_OUTDEST := if xlt = c.LocalNx then -1 else s.DDATA_OUTDEST
             TS_down_in := ts }
  else
    { s with DDATA_INDEST := if xge = 0 then -1
                             else if s.DDATA_XSPLIT ≤ 0 then s.DDATA_OUTDEST
                             else s.DDATA_INDEST
             DDATA_XSPLIT := xge
             DDATA_OUTDEST := c.PROC_NUM px ypeup
             TS_down_out := ts }

/-- `BoutMesh::set_connection`, `boutmesh.cxx` L1787-1910, on the rank at `(px, py)`,
whose `MYPE` is `NXPE*py + px` (L1703, L1738). -/
def set_connection (c : Cfg) (px py : Int) (ypos1 ypos2 xge xlt : Int) (ts : Bool)
    (s : Conn) : Except String Conn :=
  if xlt ≤ xge then .ok s
  else if ypos1 < 0 ∨ ypos1 ≥ c.MY then .ok s
  else if ypos2 < 0 ∨ ypos2 ≥ c.MY then .ok s
  else
    let ype1 := c.YPROC ypos1
    let ype2 := c.YPROC ypos2
    let yind1 := c.YLOCAL ypos1 ype1
    let yind2 := c.YLOCAL ypos2 ype2
    let dir : Option (Int × Int) :=
      if yind1 = c.MYG ∧ yind2 = c.MYSUB + c.MYG - 1 then some (ype2, ype1)
      else if yind2 = c.MYG ∧ yind1 = c.MYSUB + c.MYG - 1 then some (ype1, ype2)
      else none
    match dir with
    | none => .error "ERROR adding connection: y index not on processor boundary"
    | some (ypeup, ypedown) =>
      if xge ≠ 0 ∧ xlt ≠ c.MX then .error "can only divide X domain in 2"
      else
        let xgeL := c.getLocalXIndex px xge
        let xltL := c.getLocalXIndex px xlt
        if xgeL ≥ c.LocalNx ∨ xltL ≤ 0 then .ok s
        else
          let xgeL := if xgeL < 0 then 0 else xgeL
          let xltL := if xltL > c.LocalNx then c.LocalNx else xltL
          let mype := c.NXPE * py + px
          let s := if mype = c.PROC_NUM px ypeup then
              connectUp c px ypedown xgeL xltL ts s else s
          let s := if mype = c.PROC_NUM px ypedown then
              connectDown c px ypeup xgeL xltL ts s else s
          .ok s

/-- The upper half of `add_target`, `boutmesh.cxx` L1936-1958. -/
def targetUp (c : Cfg) (xge xlt : Int) (s : Conn) : Conn :=
  if xge ≤ c.MXG then
    { s with UDATA_XSPLIT := xlt, UDATA_INDEST := -1
             UDATA_OUTDEST := if xlt ≥ c.LocalNx then -1 else s.UDATA_OUTDEST }
  else
    { s with UDATA_INDEST := if xge ≤ 0 then -1
                             else if s.UDATA_XSPLIT ≤ 0 then s.UDATA_OUTDEST
                             else s.UDATA_INDEST
             UDATA_XSPLIT := xge, UDATA_OUTDEST := -1 }

/-- The lower half of `add_target`, `boutmesh.cxx` L1959-1984. -/
def targetDown (c : Cfg) (xge xlt : Int) (s : Conn) : Conn :=
  if xge ≤ c.MXG then
    { s with DDATA_XSPLIT := xlt, DDATA_INDEST := -1
             DDATA_OUTDEST := if xlt ≥ c.LocalNx then -1 else s.DDATA_OUTDEST }
  else
    { s with DDATA_INDEST := if xge ≤ 0 then -1
                             else if s.DDATA_XSPLIT ≤ 0 then s.DDATA_OUTDEST
                             else s.DDATA_INDEST
             DDATA_XSPLIT := xge, DDATA_OUTDEST := -1 }

/-- `BoutMesh::add_target`, `boutmesh.cxx` L1912-1985.  (A `ypos + 1` outside the grid
makes `YPROC` return -1, and `PROC_NUM px (-1) = -1` is no rank.) -/
def add_target (c : Cfg) (px py : Int) (ypos xge xlt : Int) (s : Conn) : Except String Conn :=
  if xlt ≤ xge then .ok s
  else if ypos < 0 ∨ ypos ≥ c.MY then .ok s
  else
    let ypeup := c.YPROC ypos
    let ypedown := c.YPROC (ypos + 1)
    if ypeup = ypedown then .error "Adding target in middle of processor"
    else
      let xgeL := c.getLocalXIndex px xge
      let xltL := c.getLocalXIndex px xlt
      if xgeL ≥ c.LocalNx ∨ xltL ≤ 0 then .ok s
      else
        let mype := c.NXPE * py + px
        let s := if mype = c.PROC_NUM px ypeup then targetUp c xgeL xltL s else s
        let s := if mype = c.PROC_NUM px ypedown then targetDown c xgeL xltL s else s
        .ok s

/-- The separatrix positions chosen by `topology`, `boutmesh.cxx` L2022-2065. -/
structure Seps where
  inner : Int
  outer : Int
  upper : Int
  lower : Int
deriving Repr, DecidableEq

/-- `topology`, `boutmesh.cxx` L2017-2058. -/
def seps (c : Cfg) : Seps :=
  if c.jyseps2_1 = c.jyseps1_2 then ⟨c.ixseps1, c.ixseps1, c.ixseps1, c.ixseps1⟩
  else if c.ixseps1 = c.ixseps2 then ⟨c.ixseps1, c.ixseps1, c.ixseps1, c.ixseps1⟩
  else if c.ixseps1 < c.ixseps2 then
    { inner := c.ixseps1, lower := c.ixseps1, outer := c.ixseps2, upper := c.ixseps2 }
  else
    { inner := c.ixseps2, upper := c.ixseps2, outer := c.ixseps1, lower := c.ixseps1 }

/-- The checks common to all topologies, `boutmesh.cxx` L1993-2015 (`NPES` is
`NXPE*NYPE` here). -/
def topologyChecks (c : Cfg) : Except String Unit :=
  if c.MYSUB * c.NYPE ≠ c.MY then .error "Topology error: MYSUB*NYPE != MY"
  else if c.MXSUB * c.NXPE ≠ c.MX then .error "Topology error: MXSUB*NXPE != MX"
  else if c.NXPE > 1 ∧ c.MXSUB < c.MXG then .error "Grid X size must be >= guard cell size"
  else if c.MYSUB < c.MYG then .error "Grid Y size must be >= guard cell size"
  else .ok ()

/-- The final clipping of the splits in `topology`, `boutmesh.cxx` L2082-2087. -/
def clipSplits (c : Cfg) (s : Conn) : Conn :=
  { s with DDATA_XSPLIT := if s.DDATA_XSPLIT > c.LocalNx then c.LocalNx else s.DDATA_XSPLIT
           UDATA_XSPLIT := if s.UDATA_XSPLIT > c.LocalNx then c.LocalNx else s.UDATA_XSPLIT }

/-- `BoutMesh::topology`, `boutmesh.cxx` L1992-2105: the connections of the rank at
`(px, py)`. -/
def topology (c : Cfg) (px py : Int) : Except String Conn := do
  topologyChecks c
  let sp := seps c
  let s ←
    if c.jyseps2_1 = c.jyseps1_2 then do
      let s := default_connections c px py
      let s ← set_connection c px py (c.jyseps1_1 + 1) c.jyseps2_2 0 c.ixseps1 true s
      set_connection c px py c.jyseps1_1 (c.jyseps2_2 + 1) 0 c.ixseps1 false s
    else do
      if (c.ny_inner - c.jyseps2_1 - 1).tmod c.MYSUB ≠ 0 then
        throw "Topology error: Upper inner leg"
      if (c.jyseps1_2 - c.ny_inner + 1).tmod c.MYSUB ≠ 0 then
        throw "Topology error: Upper outer leg"
      let s := default_connections c px py
      let s ← set_connection c px py (c.jyseps1_1 + 1) c.jyseps2_2 0 sp.lower
        (decide (c.ixseps1 ≤ c.ixseps2)) s
      let s ← set_connection c px py c.jyseps1_1 (c.jyseps2_2 + 1) 0 sp.lower false s
      let s ← set_connection c px py c.jyseps2_1 (c.jyseps1_2 + 1) 0 sp.upper
        (decide (c.ixseps1 > c.ixseps2)) s
      let s ← set_connection c px py (c.jyseps2_1 + 1) c.jyseps1_2 0 sp.upper false s
      add_target c px py (c.ny_inner - 1) 0 c.nx s
  return clipSplits c s

/-- `MYPE_IN_CORE`, `topology`, `boutmesh.cxx` L2076-2080. -/
def mypeInCore (c : Cfg) (py : Int) : Bool :=
  decide ((seps c).inner > 0 ∧
    ((py * c.MYSUB > c.jyseps1_1 ∧ py * c.MYSUB ≤ c.jyseps2_1) ∨
     (py * c.MYSUB > c.jyseps1_2 ∧ py * c.MYSUB ≤ c.jyseps2_2)))

/-- `BoutMesh::periodicY(int)`, `boutmesh.cxx` L2314-2316. -/
def periodicY (c : Cfg) (px py jx : Int) : Bool :=
  mypeInCore c py && decide (c.getGlobalXIndex px jx < (seps c).inner)

/-- `BoutMesh::hasBranchCutLower`, `boutmesh.cxx` L2337-2349 (the flag only). -/
def hasBranchCutLower (s : Conn) (jx : Int) : Bool :=
  (s.TS_down_in && decide (s.DDATA_INDEST ≠ -1) && decide (jx < s.DDATA_XSPLIT)) ||
  (s.TS_down_out && decide (s.DDATA_OUTDEST ≠ -1) && decide (jx ≥ s.DDATA_XSPLIT))

/-- `BoutMesh::hasBranchCutUpper`, `boutmesh.cxx` L2351-2363 (the flag only). -/
def hasBranchCutUpper (s : Conn) (jx : Int) : Bool :=
  (s.TS_up_in && decide (s.UDATA_INDEST ≠ -1) && decide (jx < s.UDATA_XSPLIT)) ||
  (s.TS_up_out && decide (s.UDATA_OUTDEST ≠ -1) && decide (jx ≥ s.UDATA_XSPLIT))

end Verif.Mesh
