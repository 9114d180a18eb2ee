import Verif.Common

/-!
# Memory blocks used by the Fourier transforms

A heap with explicit allocation and release, so that use after free, out-of-bounds
accesses and leaks are visible.  `fftw_malloc`/`fftw_free`, `new[]`/`delete[]`
(`src/invert/fft_fftw.cxx`) are external; this is their documented behaviour.
-/

namespace Verif.Fft

/-- A block of `len` cells.  Cells at or above `len` do not exist. -/
structure Block (α : Type) where
  len : Nat
  dat : Nat → α

/-- Blocks by address; `none` means never allocated or released. -/
structure Heap (α : Type) where
  next : Nat
  get : Nat → Option (Block α)

/-- No block has been allocated yet. -/
def Heap.empty {α : Type} : Heap α := ⟨0, fun _ => none⟩

/-- `fftw_malloc(sizeof(T) * len)` / `new T[len]`: a fresh address, cells hold
whatever was there (`junk`). -/
def Heap.alloc {α : Type} (h : Heap α) (len : Nat) (junk : Nat → α) : Heap α × Nat :=
  (⟨h.next + 1, fun i => if i = h.next then some ⟨len, junk⟩ else h.get i⟩, h.next)

/-- `fftw_free(ptr)` / `delete[] ptr`: releasing something which is not allocated is
undefined behaviour. -/
def Heap.free {α : Type} (h : Heap α) (ptr : Nat) : Out (Heap α) :=
  match h.get ptr with
  | none => .error (.ub "free of a block which is not allocated")
  | some _ => .ok ⟨h.next, fun i => if i = ptr then none else h.get i⟩

/-- `ptr[i]` as a value. -/
def Heap.read {α : Type} (h : Heap α) (ptr i : Nat) : Out α :=
  match h.get ptr with
  | none => .error (.ub "read of a block which is not allocated")
  | some b => if i < b.len then .ok (b.dat i) else .error (.ub "read out of bounds")

/-- `ptr[i] = v`. -/
def Heap.write {α : Type} (h : Heap α) (ptr i : Nat) (v : α) : Out (Heap α) :=
  match h.get ptr with
  | none => .error (.ub "write to a block which is not allocated")
  | some b =>
    if i < b.len then
      .ok ⟨h.next, fun j => if j = ptr then
        some ⟨b.len, fun k => if k = i then v else b.dat k⟩ else h.get j⟩
    else .error (.ub "write out of bounds")

/-- Cells `off … off+w-1` of a block, as read by an external routine. -/
def Heap.readMany {α : Type} (h : Heap α) (ptr off w : Nat) : Out (Nat → α) :=
  match h.get ptr with
  | none => .error (.ub "read of a block which is not allocated")
  | some b =>
    if off + w ≤ b.len then .ok (fun j => b.dat (off + j)) else .error (.ub "read out of bounds")

/-- Cells `off … off+w-1` of a block overwritten with `v 0 … v (w-1)` by an external
routine. -/
def Heap.writeMany {α : Type} (h : Heap α) (ptr off w : Nat) (v : Nat → α) : Out (Heap α) :=
  match h.get ptr with
  | none => .error (.ub "write to a block which is not allocated")
  | some b =>
    if off + w ≤ b.len then
      .ok ⟨h.next, fun j => if j = ptr then
        some ⟨b.len, fun k => if off ≤ k ∧ k < off + w then v (k - off) else b.dat k⟩
        else h.get j⟩
    else .error (.ub "write out of bounds")

/-- An FFTW plan: its number of points and the places it reads from and writes to
(`fftw_plan_dft_r2c_1d(n, in, out, flags)` and `..._c2r_1d`). -/
structure Plan where
  n : Nat
  inPtr : Nat
  inOff : Nat
  outPtr : Nat
  outOff : Nat
  deriving DecidableEq

/-- The planner: FFTW rejects an empty transform by returning a null plan
(manual, "Using Plans"), otherwise the plan remembers its
arguments. -/
def mkPlan (n inPtr inOff outPtr outOff : Nat) : Option Plan :=
  if n = 0 then none else some ⟨n, inPtr, inOff, outPtr, outOff⟩

/-- A one-dimensional transform FFTW can plan: how many cells it reads and writes for
`n` points, and the values it computes. -/
structure Tr (α β : Type) where
  inW : Nat → Nat
  outW : Nat → Nat
  run : Nat → (Nat → α) → Nat → β
  run_congr : ∀ n f g, (∀ j < inW n, f j = g j) → run n f = run n g

end Verif.Fft
