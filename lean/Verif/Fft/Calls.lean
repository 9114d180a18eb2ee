import Verif.Fft.Serial
import Verif.Fft.Par

/-!
# Histories of calls, and `DST` called by several threads

Model side of `C77`: a process calling the four transforms in any order (static
variables persist between calls), and the OpenMP loops of `LaplaceCyclic` and
`LaplacePCR` which call `DST` from every thread.
-/

namespace Verif.Fft

open Verif.Fourier

/-- The static variables of the four functions (`src/invert/fft_fftw.cxx`); each function
has its own. -/
structure Caches where
  r : SCache ℝ ℂ
  i : SCache ℂ ℝ
  d : SCache ℝ ℂ
  v : SCache ℂ ℝ

/-- Before the first call. -/
def Caches.init : Caches := ⟨.init, .init, .init, .init⟩

/-- One call: length, row passed, contents of junk memory. -/
inductive Call where
  | rfft (length : Nat) (row : Nat → ℝ) (o : Junk ℝ ℂ)
  | irfft (length : Nat) (row : Nat → ℂ) (o : Junk ℂ ℝ)
  | dst (length : Nat) (row : Nat → ℝ) (o : Junk ℝ ℂ)
  | dstRev (length : Nat) (row : Nat → ℂ) (o : Junk ℂ ℝ)

/-- The caller's `out` array; `none` marks cells the call did not write. -/
inductive Res where
  | cplx (out : Nat → Option ℂ)
  | real (out : Nat → Option ℝ)

/-- Make one call. -/
noncomputable def doCall : Call → Caches → Out (Caches × Res)
  | .rfft n row o, c =>
    match sRfft n row o c.r with
    | .error e => .error e
    | .ok (k, out) => .ok ({ c with r := k }, .cplx out)
  | .irfft n row o, c =>
    match sIrfft n row o c.i with
    | .error e => .error e
    | .ok (k, out) => .ok ({ c with i := k }, .real out)
  | .dst n row o, c =>
    match sDst n row o c.d with
    | .error e => .error e
    | .ok (k, out) => .ok ({ c with d := k }, .real out)
  | .dstRev n row o, c =>
    match sDstRev n row o c.v with
    | .error e => .error e
    | .ok (k, out) => .ok ({ c with v := k }, .real out)

/-- A whole history of calls. -/
noncomputable def doCalls : List Call → Caches → Out (Caches × List Res)
  | [], c => .ok (c, [])
  | x :: rest, c =>
    match doCall x c with
    | .error e => .error e
    | .ok (c1, r) =>
      match doCalls rest c1 with
      | .error e => .error e
      | .ok (c2, rs) => .ok (c2, r :: rs)

/-! ## `DST` inside an OpenMP loop -/

/-- Where a thread is inside `DST`. -/
inductive DPc where
  | fill
  | exec
  | store
  | done
  deriving DecidableEq

/-- `DST` has one set of static variables for all threads; every thread has its own `out`. -/
structure DSt where
  c : SCache ℝ ℂ
  pc : Nat → DPc
  out : Nat → Nat → Option ℝ

/-- One step of thread `t` inside `DST(row t, length, out t)`
(`src/invert/fft_fftw.cxx` L389-447), called from the loop over `ix` in a parallel region
(`src/invert/laplace/impls/cyclic/cyclic_laplace.cxx` L132-157; `pcr.cxx` L160-190).
Coarser than the code: filling, executing and copying out are one step each. -/
noncomputable def dstStep (length : Nat) (row : Nat → Nat → ℝ) (t : Nat) (o : Junk ℝ ℂ)
    (s : DSt) : Out DSt :=
  let go := fun (c : SCache ℝ ℂ) (pc : DPc) =>
    ({ s with c := c, pc := fun u => if u = t then pc else s.pc u } : DSt)
  match s.pc t with
  | .fill =>
    match setup (2 * length) (2 * length) (2 * (length - 1)) length o s.c with
    | .error e => .error e
    | .ok c1 =>
      match writeAll c1.fin (dstWrites length (row t)) c1.hin with
      | .error e => .error e
      | .ok h => .ok (go { c1 with hin := h } .exec)
  | .exec =>
    match exec trR2C o s.c with
    | .error e => .error e
    | .ok c1 => .ok (go c1 .store)
  | .store =>
    match readAll s.c.hout s.c.fout (fun v => -v.im / ((length : ℝ) - 1)) (inner length)
        (fun j => if j = 0 ∨ j = length - 1 then some 0 else none) with
    | .error e => .error e
    | .ok out => .ok { go s.c .done with out := fun u => if u = t then out else s.out u }
  | .done => .ok s

/-- A schedule of steps. -/
noncomputable def dstRun (length : Nat) (row : Nat → Nat → ℝ) :
    List (Nat × Junk ℝ ℂ) → DSt → Out DSt
  | [], s => .ok s
  | (t, o) :: rest, s =>
    match dstStep length row t o s with
    | .error e => .error e
    | .ok s' => dstRun length row rest s'

end Verif.Fft
