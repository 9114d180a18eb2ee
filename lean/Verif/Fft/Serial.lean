import Verif.Fft.Heap
import Verif.Num.Fourier

/-!
# The transforms with their static plan caches (builds without OpenMP)

Model of `src/invert/fft_fftw.cxx` L106-234 (`rfft`, `irfft`), L387-509 (`DST`, `DST_rev`)
and L511-530 (the `Array` overloads).  The static work arrays and the plan survive from
call to call; `Verif.Fourier.rfft` and friends describe a single call in isolation.

Real and complex arithmetic is exact; the FFTW planner and executor are external and
represented by `mkPlan` and `exec`.
-/

namespace Verif.Fft

open Verif.Fourier

theorem r2c_congr (n : Nat) (f g : Nat → ℝ) (h : ∀ j < n, f j = g j) : r2c n f = r2c n g := by
  funext k
  exact Finset.sum_congr rfl fun z hz => by rw [h z (Finset.mem_range.mp hz)]

theorem c2r_congr (n : Nat) (f g : Nat → ℂ) (h : ∀ j < n / 2 + 1, f j = g j) :
    c2r n f = c2r n g := by
  funext z
  refine congrArg Complex.re (Finset.sum_congr rfl fun k hk => ?_)
  have hk' := Finset.mem_range.mp hk
  have : hermitian n f k = hermitian n g k := by
    unfold hermitian
    by_cases h1 : k = 0 ∨ 2 * k = n
    · rw [if_pos h1, if_pos h1, h k (by omega)]
    · rw [if_neg h1, if_neg h1]
      by_cases h2 : 2 * k < n
      · rw [if_pos h2, if_pos h2, h k (by omega)]
      · rw [if_neg h2, if_neg h2, h (n - k) (by omega)]
  rw [this]

/-- `fftw_plan_dft_r2c_1d`: `n` reals in, `n/2+1` complex numbers out. -/
noncomputable def trR2C : Tr ℝ ℂ := ⟨fun n => n, fun n => n / 2 + 1, r2c, r2c_congr⟩

/-- `fftw_plan_dft_c2r_1d`: `n/2+1` complex numbers in, `n` reals out. -/
noncomputable def trC2R : Tr ℂ ℝ := ⟨fun n => n / 2 + 1, fun n => n, c2r, c2r_congr⟩

/-- The static variables of one of the functions (L113-116, L176-179, L395-398,
L454-457) and the memory they point to. -/
structure SCache (α β : Type) where
  n : Nat
  fin : Nat
  fout : Nat
  p : Option Plan
  hin : Heap α
  hout : Heap β

/-- Before the first call: everything zero-initialised. -/
def SCache.init {α β : Type} : SCache α β := ⟨0, 0, 0, none, Heap.empty, Heap.empty⟩

/-- Values found in fresh memory and left behind in the input array by an execution. -/
structure Junk (α β : Type) where
  fresh : Nat → α
  freshOut : Nat → β
  after : Nat → α

/-- `if (length != n) { ... n = length; }` (L119-147, L182-216, L402-421, L461-479):
release the old arrays, allocate arrays of `inLen` and `outLen` cells, plan `pts`
points. -/
def setup {α β : Type} (inLen outLen pts length : Nat) (o : Junk α β) (c : SCache α β) :
    Out (SCache α β) :=
  if length ≠ c.n then
    match (if 0 < c.n then
        match c.hin.free c.fin with
        | .error e => .error e
        | .ok hi =>
          match c.hout.free c.fout with
          | .error e => .error e
          | .ok ho => .ok (hi, ho)
      else .ok (c.hin, c.hout) : Out (Heap α × Heap β)) with
    | .error e => .error e
    | .ok (hi, ho) =>
      let a := hi.alloc inLen o.fresh
      let b := ho.alloc outLen o.freshOut
      .ok ⟨length, a.2, b.2, mkPlan pts a.2 0 b.2 0, a.1, b.1⟩
  else .ok c

/-- A sequence of assignments `ptr[i] = v`. -/
def writeAll {α : Type} (ptr : Nat) : List (Nat × α) → Heap α → Out (Heap α)
  | [], h => .ok h
  | (i, v) :: rest, h =>
    match h.write ptr i v with
    | .error e => .error e
    | .ok h' => writeAll ptr rest h'

/-- `fftw_execute(p)` (L155, L226, L436, L500). -/
def exec {α β : Type} (tr : Tr α β) (o : Junk α β) (c : SCache α β) : Out (SCache α β) :=
  match c.p with
  | none => .error (.ub "execution of an invalid plan")
  | some pl =>
    match c.hin.readMany pl.inPtr pl.inOff (tr.inW pl.n) with
    | .error e => .error e
    | .ok f =>
      match c.hin.writeMany pl.inPtr pl.inOff (tr.inW pl.n) o.after with
      | .error e => .error e
      | .ok hi =>
        match c.hout.writeMany pl.outPtr pl.outOff (tr.outW pl.n) (tr.run pl.n f) with
        | .error e => .error e
        | .ok ho => .ok { c with hin := hi, hout := ho }

/-- A sequence of assignments `out[i] = f(fout[i])`; `none` marks cells of `out` which are
not assigned. -/
def readAll {β γ : Type} (h : Heap β) (ptr : Nat) (f : β → γ) :
    List Nat → (Nat → Option γ) → Out (Nat → Option γ)
  | [], out => .ok out
  | i :: rest, out =>
    match h.read ptr i with
    | .error e => .error e
    | .ok v => readAll h ptr f rest fun j => if j = i then some (f v) else out j

/-- Arrays, fill, execute: what the four functions have in common. -/
def prepare {α β : Type} (tr : Tr α β) (inLen outLen pts length : Nat) (ws : List (Nat × α))
    (o : Junk α β) (c : SCache α β) : Out (SCache α β) :=
  match setup inLen outLen pts length o c with
  | .error e => .error e
  | .ok c1 =>
    match writeAll c1.fin ws c1.hin with
    | .error e => .error e
    | .ok h => exec tr o { c1 with hin := h }

/-- `rfft(in, length, out)` (L107-168). -/
noncomputable def sRfft (length : Nat) (inp : Nat → ℝ) (o : Junk ℝ ℂ) (c : SCache ℝ ℂ) :
    Out (SCache ℝ ℂ × (Nat → Option ℂ)) :=
  match prepare trR2C length (length / 2 + 1) length length
      ((List.range length).map fun (i : Nat) => (i, inp i)) o c with
  | .error e => .error e
  | .ok c2 =>
    match readAll c2.hout c2.fout (fun v => v * ((1 / c2.n : ℝ) : ℂ))
        (List.range (c2.n / 2 + 1)) (fun _ => none) with
    | .error e => .error e
    | .ok out => .ok (c2, out)

/-- `irfft(in, length, out)` (L170-233). -/
noncomputable def sIrfft (length : Nat) (inp : Nat → ℂ) (o : Junk ℂ ℝ) (c : SCache ℂ ℝ) :
    Out (SCache ℂ ℝ × (Nat → Option ℝ)) :=
  match prepare trC2R (length / 2 + 1) length length length
      ((List.range (length / 2 + 1)).map fun (i : Nat) => (i, inp i)) o c with
  | .error e => .error e
  | .ok c2 =>
    match readAll c2.hout c2.fout (fun v => v) (List.range c2.n) (fun _ => none) with
    | .error e => .error e
    | .ok out => .ok (c2, out)

/-- Indices `1 … length-2`, the loops of `DST` and `DST_rev`. -/
def inner (length : Nat) : List Nat := (List.range (length - 1)).tail

/-- The assignments of `DST` to its input array (L422-433). -/
noncomputable def dstWrites (length : Nat) (inp : Nat → ℝ) : List (Nat × ℝ) :=
  ((List.range length).map fun (i : Nat) => (i, inp i)) ++
    ([(0, 0), (length - 1, 0)] ++
      (inner length).flatMap fun (j : Nat) => [(j, inp j), (2 * (length - 1) - j, -inp j)])

/-- `DST(in, length, out)` (L389-447); the values assigned to `out` are real. -/
noncomputable def sDst (length : Nat) (inp : Nat → ℝ) (o : Junk ℝ ℂ) (c : SCache ℝ ℂ) :
    Out (SCache ℝ ℂ × (Nat → Option ℝ)) :=
  if length = 0 then .error (.exc "ASSERT1(length > 0)")
  else
    match prepare trR2C (2 * length) (2 * length) (2 * (length - 1)) length
        (dstWrites length inp) o c with
    | .error e => .error e
    | .ok c2 =>
      match readAll c2.hout c2.fout (fun v => -v.im / ((length : ℝ) - 1)) (inner length)
          (fun j => if j = 0 ∨ j = length - 1 then some 0 else none) with
      | .error e => .error e
      | .ok out => .ok (c2, out)

/-- The assignments of `DST_rev` to its input array (L481-497). -/
noncomputable def dstRevWrites (length : Nat) (inp : Nat → ℂ) : List (Nat × ℂ) :=
  ((List.range length).map fun (i : Nat) => (i, inp i)) ++
    ([(0, 0), (length - 1, 0)] ++
      (inner length).flatMap fun (j : Nat) =>
        [(j, ⟨0, -(inp j).re / 2⟩), (2 * (length - 1) - j, ⟨0, (inp j).re / 2⟩)])

/-- `DST_rev(in, length, out)` (L449-509). -/
noncomputable def sDstRev (length : Nat) (inp : Nat → ℂ) (o : Junk ℂ ℝ) (c : SCache ℂ ℝ) :
    Out (SCache ℂ ℝ × (Nat → Option ℝ)) :=
  if length = 0 then .error (.exc "ASSERT1(length > 0)")
  else
    match prepare trC2R (2 * (length - 1)) (2 * (length - 1)) (2 * (length - 1)) length
        (dstRevWrites length inp) o c with
    | .error e => .error e
    | .ok c2 =>
      match readAll c2.hout c2.fout (fun v => v) (inner length)
          (fun j => if j = 0 ∨ j = length - 1 then some 0 else none) with
      | .error e => .error e
      | .ok out => .ok (c2, out)

/-- `Array<BoutReal> irfft(const Array<dcomplex>& in, int length)` (L521-530), an array
being its size and its cells. -/
noncomputable def arrayIrfft (size : Nat) (inp : Nat → ℂ) (length : Nat) (o : Junk ℂ ℝ)
    (c : SCache ℂ ℝ) : Out (SCache ℂ ℝ × (Nat → Option ℝ)) :=
  if size = 0 then .error (.exc "ASSERT1(!in.empty())")
  else if size ≠ length / 2 + 1 then .error (.exc "ASSERT1(in.size() == (length / 2) + 1)")
  else sIrfft length inp o c

/-- `Array<dcomplex> rfft(const Array<BoutReal>& in)` (L511-519). -/
noncomputable def arrayRfft (size : Nat) (inp : Nat → ℝ) (o : Junk ℝ ℂ) (c : SCache ℝ ℂ) :
    Out (SCache ℝ ℂ × (Nat → Option ℂ)) :=
  if size = 0 then .error (.exc "ASSERT1(!in.empty())") else sRfft size inp o c

end Verif.Fft
