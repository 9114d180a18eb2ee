/-
Model of the storage behaviour of fields: `src/field/field3d.cxx`, `include/bout/field3d.hxx`
and the generated operators in `src/field/generated_fieldops.cxx` (Field2D and FieldPerp have
the same operators without parallel slices).

A field holds a reference to a block of values (class `Array`, whose own bookkeeping is the
subject of C07 and C08) and two lists of parallel slices.  `fld i` is the object with number
`i`; the reference count of a block is the number of objects and slices that refer to it.
Values have type `V`; the points of a field are `0 … n-1`, and a `BOUT_FOR` over `RGN_ALL` is a
loop over them in order.  `Err.exc` is a `BoutException`, `Err.ub` undefined behaviour.

Simplifications: a slice has no slices of its own; all fields live on one mesh at one
location (`ASSERT1_FIELDS_COMPATIBLE` holds); the time derivative, boundary conditions and
names are not modelled; the memory of a fresh block is arbitrary (`junk`).
-/
import Verif.Common

namespace Verif.Field

open Verif

/-- One field object: reference to its data and to the data of its slices. -/
structure Obj where
  data : Option Nat
  up : List (Option Nat)
  down : List (Option Nat)

/-- References held by one object. -/
def Obj.refs (o : Obj) : List Nat := o.data.toList ++ o.up.filterMap id ++ o.down.filterMap id

/-- All objects and all blocks. -/
structure St (V : Type) where
  n : Nat
  nf : Nat
  fld : Nat → Obj
  heap : Nat → Nat → V
  next : Nat

variable {V : Type}

/-- Reference count of a block. -/
def St.useCount (s : St V) (b : Nat) : Nat :=
  ((List.range s.nf).map fun i => (s.fld i).refs.count b).sum

/-- Replace one object. -/
def St.setObj (s : St V) (d : Nat) (o : Obj) : St V :=
  { s with fld := fun i => if i = d then o else s.fld i }

/-- Write one element of a block. -/
def wr (h : Nat → Nat → V) (b p : Nat) (v : V) : Nat → Nat → V :=
  fun b' p' => if b' = b ∧ p' = p then v else h b' p'

/-- `BOUT_FOR(i, RGN_ALL) { block[i] = f(i) }`: the right-hand side may read the memory as it
is when point `i` is reached. -/
def loop (n b : Nat) (f : (Nat → Nat → V) → Nat → V) (h : Nat → Nat → V) : Nat → Nat → V :=
  (List.range n).foldl (fun h p => wr h b p (f h p)) h

/-- A fresh block with arbitrary contents (`Array::reallocate`). -/
def St.fresh (s : St V) (junk : Nat → V) : St V × Nat :=
  ({ s with heap := fun b => if b = s.next then junk else s.heap b, next := s.next + 1 }, s.next)

/-- `Field3D::allocate`, `field3d.cxx` L109-128, with `Array::ensureUnique`
(`array.hxx` L297-319): a new block if there is none, a copy if it is shared.  Returns the block. -/
def St.allocate (s : St V) (d : Nat) (junk : Nat → V) : St V × Nat :=
  match (s.fld d).data with
  | none =>
      let (s1, b) := s.fresh junk
      (s1.setObj d { s.fld d with data := some b }, b)
  | some b =>
      if s.useCount b = 1 then (s, b)
      else
        let (s1, b1) := s.fresh (s.heap b)
        (s1.setObj d { s.fld d with data := some b1 }, b1)

/-- `Field3D::clearParallelSlices`, `field3d.cxx` L152-161. -/
def St.clear (s : St V) (d : Nat) : St V := s.setObj d { s.fld d with up := [], down := [] }

/-- What an operator is applied to: a field, a slice of a field (`f.yup(k)`, `f.ydown(k)`), or
a number. -/
inductive Operand (V : Type) where
  | fld (i : Nat)
  | up (i k : Nat)
  | down (i k : Nat)
  | val (v : V)

/-- The block behind an operand, or the number. -/
inductive Src (V : Type) where
  | blk (b : Nat)
  | val (v : V)

/-- Value of an operand at a point. -/
def Src.get (h : Nat → Nat → V) : Src V → Nat → V
  | .blk b, p => h b p
  | .val v, _ => v

/-- `checkData` of a field (`field3d.cxx` L754-761): the operand must be allocated. -/
def need : Option Nat → Out (Src V)
  | none => .error (.exc "Operation on empty data")
  | some b => .ok (.blk b)

/-- Evaluate a reference to an operand.  A slice that does not exist is undefined behaviour
(`field3d.hxx` L265-285; an exception with `CHECK > 1`). -/
def St.resolve (s : St V) : Operand V → Out (Src V)
  | .fld i => need (s.fld i).data
  | .up i k => match (s.fld i).up[k]? with
      | none => .error (.ub "no such slice")
      | some b => need b
  | .down i k => match (s.fld i).down[k]? with
      | none => .error (.ub "no such slice")
      | some b => need b
  | .val v => .ok (.val v)

/-- The operand is a slice of object `d`. -/
def Operand.sliceOf (d : Nat) : Operand V → Bool
  | .up i _ => i == d
  | .down i _ => i == d
  | _ => false

/-- `d = a ⊕ b` with one of the generated operators (`generated_fieldops.cxx` L12-28 and the
others of the same shape), followed by the move assignment `field3d.cxx` L270-288. -/
def St.bin (s : St V) (d : Nat) (op : V → V → V) (a b : Operand V) (junk : Nat → V) : Out (St V) := do
  let x ← s.resolve a
  let y ← s.resolve b
  let (s1, r) := s.fresh junk
  let s2 := { s1 with heap := loop s.n r (fun h p => op (x.get h p) (y.get h p)) s1.heap }
  return s2.setObj d ⟨some r, [], []⟩

/-- `d ⊕= a`, `generated_fieldops.cxx` L31-50 and the others of the same shape: in place if
the data is not shared, else `d = d ⊕ a`.  Clearing the slices destroys an operand that is a
slice of `d`. -/
def St.inplace (s : St V) (d : Nat) (op : V → V → V) (a : Operand V) (junk : Nat → V) : Out (St V) :=
  match (s.fld d).data with
  | none => s.bin d op (.fld d) a junk
  | some b =>
      if s.useCount b = 1 then
        if a.sliceOf d = true then .error (.ub "operand destroyed by clearParallelSlices")
        else do
          let s1 := s.clear d
          let y ← s1.resolve a
          return { s1 with heap := loop s.n b (fun h p => op (h b p) (y.get h p)) s1.heap }
      else s.bin d op (.fld d) a junk

/-- Assignment `d = a`: from a field or slice (`field3d.cxx` L244-268, shares the data and
copies the slices), from a number (L327-340). -/
def St.assign (s : St V) (d : Nat) (a : Operand V) (junk : Nat → V) : Out (St V) :=
  match a with
  | .fld i => if i = d then .ok s else .ok (s.setObj d (s.fld i))
  | .up i k => match (s.fld i).up[k]? with
      | none => .error (.ub "no such slice")
      | some b => if i = d then .error (.ub "right-hand side destroyed") else .ok (s.setObj d ⟨b, [], []⟩)
  | .down i k => match (s.fld i).down[k]? with
      | none => .error (.ub "no such slice")
      | some b => if i = d then .error (.ub "right-hand side destroyed") else .ok (s.setObj d ⟨b, [], []⟩)
  | .val v =>
      let (s1, b) := (s.clear d).allocate d junk
      .ok { s1 with heap := loop s.n b (fun _ _ => v) s1.heap }

/-- `d.allocate(); d[p] = v`, the documented way to write an element. -/
def St.write (s : St V) (d p : Nat) (v : V) (junk : Nat → V) : Out (St V) :=
  let (s1, b) := s.allocate d junk
  if p < s.n then .ok { s1 with heap := wr s1.heap b p v } else .error (.ub "index out of range")

/-- `d[p] = v` alone (`field3d.hxx` L316-322, L365-398): no copy is made. -/
def St.rawWrite (s : St V) (d p : Nat) (v : V) : Out (St V) :=
  match (s.fld d).data with
  | none => .error (.ub "field not allocated")
  | some b => if p < s.n then .ok { s with heap := wr s.heap b p v } else .error (.ub "index out of range")

/-- `ParallelTransformIdentity::calcParallelSlices`, `parallel/identity.cxx` L12-30: every
slice shares the data of the field; `m` is `ystart`. -/
def St.slicesShared (s : St V) (d m : Nat) : St V :=
  let o := s.fld d
  s.setObj d { o with up := List.replicate m o.data, down := List.replicate m o.data }

/-- The program steps considered. -/
inductive Op (V : Type) where
  /-- `Field3D f;` -/
  | declare
  | assign (d : Nat) (a : Operand V)
  | bin (d : Nat) (op : V → V → V) (a b : Operand V)
  | inplace (d : Nat) (op : V → V → V) (a : Operand V)
  | write (d p : Nat) (v : V)
  | slices (d m : Nat)
  | clear (d : Nat)

/-- The object a step changes must have been declared. -/
def Op.declared (nf : Nat) : Op V → Bool
  | .declare => true
  | .assign d _ => d < nf
  | .bin d _ _ _ => d < nf
  | .inplace d _ _ => d < nf
  | .write d _ _ => d < nf
  | .slices d _ => d < nf
  | .clear d => d < nf

/-- What one step does. -/
def St.exec (s : St V) (junk : Nat → V) : Op V → Out (St V)
  | .declare => .ok { s.setObj s.nf ⟨none, [], []⟩ with nf := s.nf + 1 }
  | .assign d a => s.assign d a junk
  | .bin d op a b => s.bin d op a b junk
  | .inplace d op a => s.inplace d op a junk
  | .write d p v => s.write d p v junk
  | .slices d m => .ok (s.slicesShared d m)
  | .clear d => .ok (s.clear d)

/-- One step; a program that names an object it has not declared does not compile. -/
def St.step (s : St V) (junk : Nat → V) (o : Op V) : Out (St V) :=
  if o.declared s.nf = true then s.exec junk o else .error (.ub "not declared")

/-- A program. -/
def St.run (s : St V) : List ((Nat → V) × Op V) → Out (St V)
  | [] => .ok s
  | (j, o) :: os => do
      let s' ← s.step j o
      s'.run os

/-- Nothing declared. -/
def St.init (n : Nat) (h : Nat → Nat → V) : St V := ⟨n, 0, fun _ => ⟨none, [], []⟩, h, 0⟩

/-! ### Comparison -/

/-- `operator==` of two allocated fields, `field3d.cxx` L796-801 (Field2D L388-393, FieldPerp
L208-213): `min(abs(a - b)) < 1e-10` over the points of the region; `diff` is the list of
`abs(a - b)`, and `min` starts from the first element. -/
def eqField {K : Type} [LT K] [DecidableLT K] (tol : K) : List K → Out Bool
  | [] => .error (.ub "min over an empty region")
  | x :: xs => .ok (decide (xs.foldl (fun m y => if y < m then y else m) x < tol))

end Verif.Field
