import Verif.Common
import Mathlib.Tactic.Ring
import Mathlib.Tactic.Linarith
import Mathlib.Data.List.Induction
import Mathlib.Data.List.Nodup

/-!
# C91: the cache of coordinates data

Model of `CoordinatesAccessor` (src/mesh/coordinates_accessor.cxx:7-74, include/bout/coordinates_accessor.hxx:33-139): the
process-wide map from the address of a `Coordinates` object to an array that holds a copy of its fields, interleaved; the
constructor, `clear`, and the lookup through the pointer that an accessor keeps.

Memory is modelled by numbered blocks of numbered cells; which block the allocator hands out for a new array is part of the
history, as are `Coordinates` objects made, changed and destroyed at any address, and writes to other arrays.  Both builds are
covered (2D and 3D metric).  Left out: GPU copies, the check that parallel slices exist.
-/
namespace Verif.CAcc

variable {V : Type}

/-- coordinates_accessor.hxx:53-80 `Offset`. -/
inductive Sym
  | dx | dy | dz | d1_dx | d1_dy | d1_dz | J | B | Byup | Bydown | G1 | G3 | g11 | g12 | g13 | g22 | g23 | g33
  | g_11 | g_12 | g_13 | g_22 | g_23 | g_33
  deriving DecidableEq, Repr

/-- The position of a symbol in a stripe: its number in the enumeration. -/
def offset : Sym → Nat
  | .dx => 0 | .dy => 1 | .dz => 2 | .d1_dx => 3 | .d1_dy => 4 | .d1_dz => 5 | .J => 6 | .B => 7 | .Byup => 8 | .Bydown => 9
  | .G1 => 10 | .G3 => 11 | .g11 => 12 | .g12 => 13 | .g13 => 14 | .g22 => 15 | .g23 => 16 | .g33 => 17
  | .g_11 => 18 | .g_12 => 19 | .g_13 => 20 | .g_22 => 21 | .g_23 => 22 | .g_33 => 23

/-- coordinates_accessor.hxx:85 `stripe_size`, the value of `Offset::end`. -/
def stripe : Nat := 24

/-- A `Coordinates` object: the size of its mesh and its fields by index (2D or 3D, as the build has it; `B`, `Byup` and
`Bydown` are `Bxy` and its parallel slices). -/
structure Coords (V : Type) where
  nx : Nat
  ny : Nat
  nz : Nat
  val : Sym → Nat → V

/-- Number of points of a metric field: `RGN_ALL` of `dx`. -/
def points (metric3d : Bool) (c : Coords V) : Nat := if metric3d then c.nx * c.ny * c.nz else c.nx * c.ny

/-- coordinates_accessor.cxx:32-35: the size of the array. -/
def arraySize (metric3d : Bool) (c : Coords V) : Nat :=
  let n := stripe * c.nx * c.ny
  if metric3d then n * c.nz else n

/-- coordinates_accessor.cxx:51-63: the copies made for one point, in order. -/
def copies : List Sym :=
  [.dx, .dy, .dz] ++ [.d1_dx, .d1_dy, .d1_dz] ++ [.J] ++ [.B, .Byup, .Bydown] ++ [.G1, .G3]
    ++ [.g11, .g12, .g13, .g22, .g23, .g33] ++ [.g_11, .g_12, .g_13, .g_22, .g_23, .g_33]

/-- A write to a block. -/
def write (m : Nat → V) (i : Nat) (v : V) : Nat → V := fun j => if j = i then v else m j

/-- coordinates_accessor.cxx:49-63: one point. -/
def copyPoint (c : Coords V) (m : Nat → V) (ind : Nat) : Nat → V :=
  copies.foldl (fun m s => write m (stripe * ind + offset s) (c.val s ind)) m

/-- coordinates_accessor.cxx:49-63: all points. -/
def copyAll (metric3d : Bool) (c : Coords V) (m : Nat → V) : Nat → V :=
  (List.range (points metric3d c)).foldl (copyPoint c) m

/-- The process: the living `Coordinates` objects and the cached arrays, both by address, and the memory. -/
structure St (V : Type) where
  coords : List (Nat × Coords V)
  store : List (Nat × Nat)
  mem : Nat → Nat → V

/-- What an accessor keeps: `data` (a block) and `mesh_nz`. -/
structure Acc where
  block : Nat
  nz : Nat
  deriving DecidableEq

/-- coordinates_accessor.cxx:16-64: the constructor; `blk` is the block the allocator returns if it is asked. -/
def construct (metric3d : Bool) (s : St V) (a : Nat) (c : Coords V) (blk : Nat) : St V × Acc :=
  match s.store.lookup a with
  | some b => (s, ⟨b, c.nz⟩)
  | none =>
    ({ s with store := s.store ++ [(a, blk)]
              mem := fun b => if b = blk then copyAll metric3d c (s.mem blk) else s.mem b }, ⟨blk, c.nz⟩)

/-- coordinates_accessor.cxx:66-74 `clear`: the new state and the number returned. -/
def clear (s : St V) : Option Nat → St V × Nat
  | none => ({ s with store := [] }, s.store.length)
  | some a => ({ s with store := s.store.filter (fun e => e.1 ≠ a) }, (s.store.filter (fun e => e.1 = a)).length)

/-- coordinates_accessor.hxx:96-103 `lookup`: the cell read, and its value. -/
def cell (metric3d : Bool) (x : Acc) (index : Nat) (s : Sym) : Nat :=
  let ind := if metric3d then index else index / x.nz
  stripe * ind + offset s

def lookup (metric3d : Bool) (st : St V) (x : Acc) (index : Nat) (s : Sym) : V :=
  st.mem x.block (cell metric3d x index s)

/-- What can happen in a process. -/
inductive Op (V : Type)
  /-- a `Coordinates` object is made at a free address -/
  | create (a : Nat) (c : Coords V)
  /-- the object at an address is destroyed -/
  | destroy (a : Nat)
  /-- a value of the object at an address is changed -/
  | modify (a : Nat) (s : Sym) (i : Nat) (v : V)
  /-- an accessor is made; `blk` is what the allocator would return -/
  | construct (a : Nat) (blk : Nat)
  | clear (a : Option Nat)
  /-- another array is written -/
  | other (blk : Nat) (i : Nat) (v : V)

/-- Change one value. -/
def Coords.set (c : Coords V) (s : Sym) (i : Nat) (v : V) : Coords V :=
  { c with val := fun t j => if t = s ∧ j = i then v else c.val t j }

/-- One event; `none` if it cannot happen: addresses and blocks in use are not handed out again, and only the cache writes to
its arrays. -/
def step (metric3d : Bool) (s : St V) : Op V → Option (St V)
  | .create a c => if (s.coords.lookup a).isSome then none else some { s with coords := (a, c) :: s.coords }
  | .destroy a => some { s with coords := s.coords.filter (fun e => e.1 ≠ a) }
  | .modify a t i v => some { s with coords := s.coords.map fun e => if e.1 = a then (a, e.2.set t i v) else e }
  | .construct a blk =>
    match s.coords.lookup a with
    | none => none
    | some c => if blk ∈ s.store.map Prod.snd then none else some (construct metric3d s a c blk).1
  | .clear a => some (clear s a).1
  | .other blk i v =>
    if blk ∈ s.store.map Prod.snd then none
    else some { s with mem := fun b => if b = blk then write (s.mem blk) i v else s.mem b }

/-- A history of events. -/
def run (metric3d : Bool) (s : St V) : List (Op V) → Option (St V)
  | [] => some s
  | o :: os => (step metric3d s o).bind fun s' => run metric3d s' os

/-- The process at its start; memory holds anything. -/
def start (mem : Nat → Nat → V) : St V := ⟨[], [], mem⟩

end Verif.CAcc
