/-
`GlobalField2D` and `GlobalField3D`: gathering a field onto one processor and scattering it again
(`src/field/globalfield.cxx`, `include/bout/globalfield.hxx`).  All ranks are modelled together; memory is a function from
addresses to values, starting with anything.  The order in which `MPI_Waitany` returns the messages is any list.
-/
import Verif.Mesh.Index

namespace Verif.GField
open Verif.Mesh

variable {V : Type*}

/-- A loop variable running from 0 to `n - 1`. -/
def rng (n : Int) : List Int := (List.range n.toNat).map fun k : Nat => (k : Int)

/-- Three nested loops, `x` outermost. -/
def loop3 (nx ny nz : Int) : List (Int × Int × Int) :=
  (rng nx).flatMap fun x => (rng ny).flatMap fun y => (rng nz).map fun z => (x, y, z)

/-- Memory with one cell changed. -/
def upd (d : Int → V) (a : Int) (v : V) : Int → V := fun b => if b = a then v else d b

/-- A loop that stores `val q` at `addr q`. -/
def store {Q : Type*} (qs : List Q) (addr : Q → Int) (val : Q → V) (d : Int → V) : Int → V :=
  qs.foldl (fun d q => upd d (addr q) (val q)) d

/-- The mesh and `LocalNz`. -/
structure G where
  c : Cfg
  nz : Int

/-- The constructors, `globalfield.cxx` L92-95 and L257-260: `ny = GlobalNy - numberOfYBoundaries()*2*ystart`
(`numberOfYBoundaries`, `boutmesh.cxx` L2329-2335). `GlobalNx = nx`. -/
def G.ny (g : G) : Int :=
  g.c.GlobalNy - (if g.c.jyseps2_1 ≠ g.c.jyseps1_2 then 2 else 1) * 2 * g.c.ystart

/-- `proc_local_origin`, `globalfield.cxx` L22-36. -/
def localOrigin (c : Cfg) (p : Int) : Int × Int := (if p.tmod c.NXPE = 0 then 0 else c.xstart, c.ystart)

/-- `proc_origin`, `globalfield.cxx` L38-62. -/
def origin (c : Cfg) (p : Int) : Int × Int :=
  let pex := p.tmod c.NXPE
  let pey := p.tdiv c.NXPE
  let nx := c.xend - c.xstart + 1
  let ny := c.yend - c.ystart + 1
  (if pex ≠ 0 then pex * nx + c.xstart else pex * nx, pey * ny)

/-- `proc_size`, `globalfield.cxx` L64-82. -/
def size (c : Cfg) (p : Int) : Int × Int :=
  let lx := c.xend - c.xstart + 1
  let pex := p.tmod c.NXPE
  let lx := if pex = 0 then lx + c.xstart else lx
  let lx := if pex = c.NXPE - 1 then lx + c.xstart else lx
  (lx, c.yend - c.ystart + 1)

/-- `GlobalField::operator()`, `globalfield.hxx` L33-40. -/
def G.at (g : G) (x y z : Int) : Int := z + g.nz * y + g.nz * g.ny * x

/-- The place of a point in a message, `globalfield.cxx` L370, L386, L421 (3D). -/
def slot3 (ysize zsize : Int) (q : Int × Int × Int) : Int := q.1 * ysize * zsize + q.2.1 * zsize + q.2.2

/-- The same for `GlobalField2D`, `globalfield.cxx` L173, L187, L213. -/
def slot2 (ysize x y : Int) : Int := x * ysize + y

/-- `msg_len`, `globalfield.cxx` L462-467. -/
def G.msgLen (g : G) (p : Int) : Int := (size g.c p).1 * (size g.c p).2 * g.nz

/-- A field on one processor, by local index. -/
abbrev Local (V : Type*) := Int → Int → Int → V

/-- The points of processor `p` the loops run over. -/
def G.pts (g : G) (p : Int) : List (Int × Int × Int) := loop3 (size g.c p).1 (size g.c p).2 g.nz

/-- The message a processor sends in `gather`, `globalfield.cxx` L376-395; `junk` is the buffer before. -/
def G.pack (g : G) (p : Int) (f : Local V) (junk : Int → V) : Int → V :=
  store (g.pts p) (slot3 (size g.c p).2 g.nz)
    (fun q => f ((localOrigin g.c p).1 + q.1) ((localOrigin g.c p).2 + q.2.1) q.2.2) junk

/-- Unpacking the message from `pe`, `globalfield.cxx` L357-374. -/
def G.unpack (g : G) (pe : Int) (buf : Int → V) (d : Int → V) : Int → V :=
  store (g.pts pe) (fun q => g.at (q.1 + (origin g.c pe).1) (q.2.1 + (origin g.c pe).2) q.2.2)
    (fun q => buf (slot3 (size g.c pe).2 g.nz q)) d

/-- The copy of the root's own data, `globalfield.cxx` L333-347. -/
def G.copyIn (g : G) (root : Int) (f : Local V) (d : Int → V) : Int → V :=
  store (g.pts root) (fun q => g.at (q.1 + (origin g.c root).1) (q.2.1 + (origin g.c root).2) q.2.2)
    (fun q => f ((localOrigin g.c root).1 + q.1) ((localOrigin g.c root).2 + q.2.1) q.2.2) d

/-- `gather` as seen by the root, `globalfield.cxx` L312-397: its own data, then the messages in the order `arrived`.
`f p` is the field of processor `p`, `junk p` the send buffer of `p` before. -/
def G.gather (g : G) (root : Int) (f : Int → Local V) (junk : Int → Int → V) (arrived : List Int) (d : Int → V) :
    Int → V :=
  arrived.foldl (fun d pe => g.unpack pe (g.pack pe (f pe) (junk pe)) d) (g.copyIn root (f root) d)

/-- What the root sends to `p` in `scatter`, `globalfield.cxx` L408-432. -/
def G.packOut (g : G) (p : Int) (d : Int → V) (junk : Int → V) : Int → V :=
  store (g.pts p) (slot3 (size g.c p).2 g.nz)
    (fun q => d (g.at (q.1 + (origin g.c p).1) (q.2.1 + (origin g.c p).2) q.2.2)) junk

/-- A local field with one point changed. -/
def updL (f : Local V) (x y z : Int) (v : V) : Local V :=
  fun a b c => if a = x ∧ b = y ∧ c = z then v else f a b c

/-- A loop that stores into a local field. -/
def storeL {Q : Type*} (qs : List Q) (addr : Q → Int × Int × Int) (val : Q → V) (f : Local V) : Local V :=
  qs.foldl (fun f q => updL f (addr q).1 (addr q).2.1 (addr q).2.2 (val q)) f

/-- The result of `scatter` on processor `p`, `globalfield.cxx` L399-460. `new` is the freshly allocated result. -/
def G.scatter (g : G) (root : Int) (d : Int → V) (junk : Int → Int → V) (p : Int) (new : Local V) : Local V :=
  storeL (g.pts p) (fun q => ((localOrigin g.c p).1 + q.1, (localOrigin g.c p).2 + q.2.1, q.2.2))
    (if p = root then fun q => d (g.at (q.1 + (origin g.c p).1) (q.2.1 + (origin g.c p).2) q.2.2)
     else fun q => g.packOut p d (junk p) (slot3 (size g.c p).2 g.nz q)) new

end Verif.GField
