/-
Model of the guard cell exchange of `BoutMesh`
(`src/mesh/impls/bout/boutmesh.cxx` L1055-1464).

One rank is identified by its position `(px, py)` in the processor grid.  MPI is modelled
by lists of messages and of posted receives.  What is left out: timers, `doneComms`, MPI
error codes, the `var_list.empty()` shortcut of `wait`, and the parallel slices
computed after a communication.
-/
import Verif.Comm.Pack
import Verif.Mesh.Sides

namespace Verif.Comm
open Verif.Mesh

/-- Message tags, `boutmesh.cxx` L1059-1065. -/
def IN_SENT_UP : Nat := 0
def OUT_SENT_UP : Nat := 1
def IN_SENT_DOWN : Nat := 2
def OUT_SENT_DOWN : Nat := 3
def IN_SENT_OUT : Nat := 4
def OUT_SENT_IN : Nat := 5

/-- What is communicated: the variables, their Z size, whether X (with or without
corners) and Y guard cells are exchanged. -/
structure Job where
  vars : List Var
  nz : Nat
  doX : Bool
  doY : Bool
  corners : Bool
deriving Repr, DecidableEq

/-- A message as handed to `MPI_Send`/`MPI_Isend`: destination rank, tag, and the slice
`[off, off + len)` of the send buffer.  `now` is the content of the slice at the time of
the call, which a blocking send transmits. -/
structure Send (α : Type) where
  dst : Int
  tag : Nat
  off : Nat
  len : Nat
  now : List α
deriving Repr, DecidableEq

/-- The slice `[off, off + len)` of a buffer. -/
def slice {α : Type} (b : Nat → α) (off len : Nat) : List α :=
  (List.range len).map (fun i => b (off + i))

/-- Packing into the buffer from position `off` on (C++ passes `&buffer[off]`). -/
def packAt {α : Type} (off : Nat) (nz : Nat) (vars : List Var) (xge xlt yge ylt : Int)
    (store : Cell → α) (b : Nat → α) : Packing α :=
  let p := pack_data nz vars xge xlt yge ylt store (fun i => b (off + i))
  { len := p.len, buf := fun i => if i < off then b i else p.buf (i - off) }

/-- One half of `BoutMesh::sendY`, `boutmesh.cxx` L1227-1263 (up) and L1267-1299 (down):
the inner columns `[0, split)` are packed at the start of the buffer and sent to `ind`, the
outer columns `[split, LocalNx)` behind them to `outd`.  Returns the final buffer and the
sends.  `side` is the connection, rows `[yge, ylt)` are sent. -/
def sendSide {α : Type} (c : Cfg) (j : Job) (side : Side) (yge ylt : Int) (tagIn tagOut : Nat)
    (store : Cell → α) (b : Nat → α) : (Nat → α) × List (Send α) :=
  let p1 : Packing α := if side.ind ≠ -1 then
      packAt 0 j.nz j.vars 0 side.split yge ylt store b else ⟨0, b⟩
  let m1 := if side.ind ≠ -1 then
      [⟨side.ind, tagIn, 0, p1.len, slice p1.buf 0 p1.len⟩] else []
  let p2 : Packing α := if side.outd ≠ -1 then
      packAt p1.len j.nz j.vars side.split c.LocalNx yge ylt store p1.buf else ⟨0, p1.buf⟩
  let m2 := if side.outd ≠ -1 then
      [⟨side.outd, tagOut, p1.len, p2.len, slice p2.buf p1.len p2.len⟩] else []
  (p2.buf, m1 ++ m2)

/-- The rows exchanged in X, `boutmesh.cxx` L1182-1183: interior rows, or all rows if
corners are included. -/
def xRows (c : Cfg) (j : Job) : Int × Int :=
  if j.corners then (0, c.LocalNy) else (c.MYG, c.MYG + c.MYSUB)

/-- One send of `BoutMesh::sendX`, `boutmesh.cxx` L1181-1192 (in) and L1196-1207 (out). -/
def sendXSide {α : Type} (c : Cfg) (j : Job) (dest : Int) (xge xlt : Int) (tag : Nat)
    (store : Cell → α) (b : Nat → α) : (Nat → α) × List (Send α) :=
  if dest ≠ -1 then
    let p := packAt 0 j.nz j.vars xge xlt (xRows c j).1 (xRows c j).2 store b
    (p.buf, [⟨dest, tag, 0, p.len, slice p.buf 0 p.len⟩])
  else (b, [])

/-- The send buffers of a communication handle, `boutmesh.hxx` (struct `CommHandle`). -/
structure SendBufs (α : Type) where
  u : Nat → α
  d : Nat → α
  i : Nat → α
  o : Nat → α

/-- A message in flight. -/
structure Msg (α : Type) where
  dst : Int
  tag : Nat
  data : List α
deriving Repr, DecidableEq

/-- A blocking send transmits the slice as it is at the call. -/
def blocking {α : Type} (s : Send α) : Msg α := ⟨s.dst, s.tag, s.now⟩
/-- A non-blocking send may read the slice as late as `wait`, when the buffer has its
final content. -/
def asynchronous {α : Type} (final : Nat → α) (s : Send α) : Msg α :=
  ⟨s.dst, s.tag, slice final s.off s.len⟩

/-- All sends of `BoutMesh::sendX` (L1157-1213; rows `MXG..2*MXG` in, `MXSUB..MXSUB+MXG`
out) and `BoutMesh::sendY` (L1215-1310; rows `MYSUB..MYSUB+MYG` up, `MYG..2*MYG` down) on
one rank, as messages; `async` is the option `async_send`. -/
def sends {α : Type} (c : Cfg) (s : Conn) (j : Job) (async : Bool) (store : Cell → α)
    (b : SendBufs α) : List (Msg α) :=
  let tr (r : (Nat → α) × List (Send α)) : List (Msg α) :=
    if async then r.2.map (asynchronous r.1) else r.2.map blocking
  (if j.doX then
    tr (sendXSide c j s.IDATA_DEST c.MXG (2 * c.MXG) IN_SENT_OUT store b.i) ++
    tr (sendXSide c j s.ODATA_DEST c.MXSUB (c.MXSUB + c.MXG) OUT_SENT_IN store b.o)
   else []) ++
  (if j.doY then
    tr (sendSide c j s.up c.MYSUB (c.MYSUB + c.MYG) IN_SENT_UP OUT_SENT_UP store b.u) ++
    tr (sendSide c j s.down c.MYG (2 * c.MYG) IN_SENT_DOWN OUT_SENT_DOWN store b.d)
   else [])

/-- The receive buffers. -/
inductive RBuf | u | d | i | o
deriving Repr, DecidableEq

/-- A posted receive: index into `ch.request`, source rank, tag, buffer slice. -/
structure Recv where
  slot : Nat
  src : Int
  tag : Nat
  buf : RBuf
  off : Nat
  len : Nat
deriving Repr, DecidableEq

/-- One half of `BoutMesh::post_receiveY`, `boutmesh.cxx` L1096-1112 (up) and L1116-1131
(down). -/
def postSide (c : Cfg) (j : Job) (side : Side) (tagIn tagOut slotIn slotOut : Nat)
    (b : RBuf) : List Recv :=
  let len := if side.ind ≠ -1 then (msg_len j.nz j.vars 0 side.split 0 c.MYG).toNat else 0
  (if side.ind ≠ -1 then [⟨slotIn, side.ind, tagIn, b, 0, len⟩] else []) ++
  (if side.outd ≠ -1 then [⟨slotOut, side.outd, tagOut, b, len,
    (msg_len j.nz j.vars side.split c.LocalNx 0 c.MYG).toNat⟩] else [])

/-- One receive of `BoutMesh::post_receiveX`, `boutmesh.cxx` L1067-1087. -/
def postX (c : Cfg) (j : Job) (src : Int) (tag slot : Nat) (b : RBuf) : List Recv :=
  if src ≠ -1 then
    [⟨slot, src, tag, b, 0,
      (msg_len j.nz j.vars 0 c.MXG 0 (if j.corners then c.LocalNy else c.MYSUB)).toNat⟩]
  else []

/-- All receives posted by one rank. -/
def recvs (c : Cfg) (s : Conn) (j : Job) : List Recv :=
  (if j.doX then
    postX c j s.IDATA_DEST OUT_SENT_IN 4 .i ++ postX c j s.ODATA_DEST IN_SENT_OUT 5 .o
   else []) ++
  (if j.doY then
    postSide c j s.up IN_SENT_DOWN OUT_SENT_DOWN 0 1 .u ++
    postSide c j s.down IN_SENT_UP OUT_SENT_UP 2 3 .d
   else [])

/-- The switch of `BoutMesh::wait`, `boutmesh.cxx` L1345-1389: where the data of a completed
request is unpacked – the rectangle `(xge, xlt, yge, ylt)`, the buffer and the offset. -/
def unpackPlace (c : Cfg) (s : Conn) (j : Job) (slot : Nat) :
    Int × Int × Int × Int × RBuf × Nat :=
  match slot with
  | 0 => (0, s.UDATA_XSPLIT, c.MYSUB + c.MYG, c.MYSUB + 2 * c.MYG, .u, 0)
  | 1 => (s.UDATA_XSPLIT, c.LocalNx, c.MYSUB + c.MYG, c.MYSUB + 2 * c.MYG, .u,
      (msg_len j.nz j.vars 0 s.UDATA_XSPLIT 0 c.MYG).toNat)
  | 2 => (0, s.DDATA_XSPLIT, 0, c.MYG, .d, 0)
  | 3 => (s.DDATA_XSPLIT, c.LocalNx, 0, c.MYG, .d,
      (msg_len j.nz j.vars 0 s.DDATA_XSPLIT 0 c.MYG).toNat)
  | 4 => (0, c.MXG, (xRows c j).1, (xRows c j).2, .i, 0)
  | _ => (c.MXSUB + c.MXG, c.MXSUB + 2 * c.MXG, (xRows c j).1, (xRows c j).2, .o, 0)

/-- The data of a rank while it waits: its fields and the receive buffers. -/
structure Waiting (α : Type) where
  store : Cell → α
  buf : RBuf → Nat → α

/-- An event while waiting: the data of a posted receive lands in its buffer slice, or
`MPI_Waitany` reports the request and its data is unpacked. -/
inductive Event
  | arrive (slot : Nat)
  | unpack (slot : Nat)
deriving Repr, DecidableEq

/-- Data landing in a buffer. -/
def land {α : Type} (r : Recv) (data : List α) (w : Waiting α) : Waiting α :=
  { w with buf := fun b i =>
      if b = r.buf ∧ r.off ≤ i then (data[i - r.off]?).getD (w.buf b i) else w.buf b i }

/-- `unpack_data` for a completed request. -/
def unpackSlot {α : Type} (c : Cfg) (s : Conn) (j : Job) (slot : Nat) (w : Waiting α) :
    Waiting α :=
  let (xge, xlt, yge, ylt, b, off) := unpackPlace c s j slot
  { w with store :=
      (unpack_data j.nz j.vars xge xlt yge ylt (fun i => w.buf b (off + i)) w.store).store }

/-- Run a schedule of events; `incoming slot` is the posted receive with the data it
gets. -/
def runEvents {α : Type} (c : Cfg) (s : Conn) (j : Job)
    (incoming : Nat → Option (Recv × List α)) : List Event → Waiting α → Waiting α
  | [], w => w
  | .arrive n :: es, w =>
    runEvents c s j incoming es
      (match incoming n with
       | some (r, data) => land r data w
       | none => w)
  | .unpack n :: es, w => runEvents c s j incoming es (unpackSlot c s j n w)

/-- The schedules of `wait`: every posted request arrives once and is unpacked once,
arrival before unpacking, otherwise in any order. `pending` requests have not arrived,
`arrived` ones have not been unpacked. -/
inductive Schedule : List Nat → List Nat → List Event → Prop
  | done : Schedule [] [] []
  | arrive {pending arrived es} (n : Nat) (hn : n ∈ pending)
      (h : Schedule (pending.erase n) (n :: arrived) es) :
      Schedule pending arrived (.arrive n :: es)
  | unpack {pending arrived es} (n : Nat) (hn : n ∈ arrived)
      (h : Schedule pending (arrived.erase n) es) :
      Schedule pending arrived (.unpack n :: es)

/-- `shiftZ(*var, jx, jy, angle)`: shift the Z row of `v` at `(jx, jy)`.  `shiftZ up jx row`
is the (FFT based) shift of one row by `ShiftAngle[jx]` below and `-ShiftAngle[jx]` above;
it is a parameter. -/
def shiftRow {α : Type} (shiftZ : Bool → Int → (Nat → α) → Nat → α) (up : Bool) (v : Var)
    (store : Cell → α) (jx jy : Int) : Cell → α :=
  fun d => if d.v = v ∧ d.x = jx ∧ d.y = jy then
      shiftZ up jx (fun z => store { d with z := z }) d.z
    else store d

/-- The loops `for (jx …) for (jy …) shiftZ(*var, jx, jy, …)`. -/
def shiftRect {α : Type} (shiftZ : Bool → Int → (Nat → α) → Nat → α) (up : Bool) (v : Var)
    (xge xlt yge ylt : Int) (store : Cell → α) : Cell → α :=
  (span xge xlt).foldl (fun st jx => (span yge ylt).foldl (fun st jy =>
    shiftRow shiftZ up v st jx jy) st) store

/-- The twist-shift of one variable in `wait`, `boutmesh.cxx` L1416-1452. -/
def twistVar {α : Type} (c : Cfg) (s : Conn) (shiftZ : Bool → Int → (Nat → α) → Nat → α)
    (store : Cell → α) (v : Var) : Cell → α :=
  let st := if s.TS_down_in = true ∧ s.DDATA_INDEST ≠ -1 then
      shiftRect shiftZ false v 0 s.DDATA_XSPLIT 0 c.MYG store else store
  let st := if s.TS_down_out = true ∧ s.DDATA_OUTDEST ≠ -1 then
      shiftRect shiftZ false v s.DDATA_XSPLIT c.LocalNx 0 c.MYG st else st
  let st := if s.TS_up_in = true ∧ s.UDATA_INDEST ≠ -1 then
      shiftRect shiftZ true v 0 s.UDATA_XSPLIT (c.LocalNy - c.MYG) c.LocalNy st else st
  if s.TS_up_out = true ∧ s.UDATA_OUTDEST ≠ -1 then
    shiftRect shiftZ true v s.UDATA_XSPLIT c.LocalNx (c.LocalNy - c.MYG) c.LocalNy st else st

/-- The twist-shift step of `wait`, `boutmesh.cxx` L1410-1453.  `aligned v` stands for
`var->requiresTwistShift(TwistShift)`.  The list of 3D fields of a `FieldGroup`
(`include/bout/fieldgroup.hxx`) is taken to be the 3D variables of its list of fields. -/
def twistShift {α : Type} (c : Cfg) (s : Conn) (j : Job) (aligned : Var → Bool)
    (shiftZ : Bool → Int → (Nat → α) → Nat → α) (store : Cell → α) : Cell → α :=
  if j.doY then
    ((j.vars.filter (·.is3D)).filter aligned).foldl (twistVar c s shiftZ) store
  else store

end Verif.Comm
