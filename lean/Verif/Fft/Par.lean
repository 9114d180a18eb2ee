import Verif.Fft.Heap

/-!
# The thread-safe `rfft`/`irfft` (OpenMP builds)

Model of `src/invert/fft_fftw.cxx` L236-385.  `rfft` (L238-313) and `irfft`
(L315-384) are the same program up to the transform planned, the widths of the work
arrays and the normalisation, so one model is parametrised by them.

Threads of one team interleave at the granularity of single accesses to the shared
static variables and to the shared work arrays (sequentially consistent memory; the
C++ standard calls the unsynchronised first check a data race, see
`C77_unsynchronised_check_violated`).  Values in freshly allocated memory, in memory
scribbled over by the planner (`FFTW_MEASURE`) and in the input array after an
execution are arbitrary: each step takes an oracle supplying them.
-/

namespace Verif.Fft

/-- Where a thread is inside `rfft`/`irfft`. -/
inductive Pc where
  /-- between calls, or about to evaluate `size != length` (L257) -/
  | start
  /-- about to evaluate `nthreads < n_th` (L257) -/
  | chkNth
  /-- about to enter `critical(rfft)` (L266) -/
  | wait
  /-- about to evaluate `size != length` again (L267) -/
  | reSize
  /-- about to evaluate `nthreads < n_th` again (L267) -/
  | reNth
  /-- about to evaluate `size > 0` (L268) -/
  | chkFree
  /-- loop `fftw_destroy_plan(p[i])` (L270-272) -/
  | destroy (i : Nat)
  /-- `delete[] p` (L273) -/
  | delP
  /-- `fftw_free(finall)` (L274) -/
  | freeIn
  /-- `fftw_free(foutall)` (L275) -/
  | freeOut
  /-- `finall = fftw_malloc(...)` (L280) -/
  | allocIn
  /-- `foutall = fftw_malloc(...)` (L281-282) -/
  | allocOut
  /-- `p = new fftw_plan[n_th]` (L283) -/
  | allocP
  /-- loop `p[i] = fftw_plan_...` (L287-293) -/
  | plan (i : Nat)
  /-- `size = length` (L294) -/
  | setSize
  /-- `nthreads = n_th` (L295) -/
  | setNth
  /-- leaving the critical section (L296) -/
  | unlock
  /-- reading `finall` (L300) -/
  | ptrIn
  /-- reading `size` for the offset (L300) -/
  | offIn
  /-- reading `foutall` (L301) -/
  | ptrOut
  /-- reading `size` for the offset (L301) -/
  | offOut
  /-- loop `fin[i] = in[i]` (L303-305) -/
  | fill (i : Nat)
  /-- reading `p[th_id]` (L308) -/
  | getPlan
  /-- `fftw_execute`, input side (L308) -/
  | execRead
  /-- `fftw_execute`, output side (L308) -/
  | execWrite
  /-- loop `out[i] = ...` (L310-316) -/
  | store (i : Nat)
  deriving DecidableEq

/-- The function's static variables (L244-247), the memory they point to, and the
lock of `critical(rfft)`. -/
structure Shared (α β : Type) where
  size : Nat
  nth : Nat
  /-- `finall` -/
  fin : Nat
  /-- `foutall` -/
  fout : Nat
  /-- `p` -/
  p : Nat
  hin : Heap α
  hout : Heap β
  hpl : Heap (Option Plan)
  lock : Option Nat

/-- Before the first call: `static int size = 0, nthreads = 0` (L247); the pointers
are zero-initialised and nothing is allocated. -/
def Shared.init {α β : Type} : Shared α β :=
  ⟨0, 0, 0, 0, 0, Heap.empty, Heap.empty, Heap.empty, none⟩

/-- One thread: the calls it still has to make (the rows it passes as `in`, the head
being the current call), its local variables, and the finished calls with the `out`
array each produced (`none` = never written). -/
structure Th (α β : Type) where
  pc : Pc
  todo : List (Nat → α)
  fin : Nat
  finOff : Nat
  fout : Nat
  foutOff : Nat
  pl : Option Plan
  tmp : Nat → β
  out : Nat → Option β
  done : List ((Nat → α) × (Nat → Option β))

/-- Shared variables and all threads of the team. -/
structure St (α β : Type) where
  g : Shared α β
  th : Nat → Th α β

/-- Unpredictable values: fresh or clobbered memory. -/
structure Orc (α β : Type) where
  ji : Nat → α
  jo : Nat → β

/-- Thread `t` becomes `x`. -/
def St.upd {α β : Type} (s : St α β) (t : Nat) (x : Th α β) : St α β :=
  { s with th := fun u => if u = t then x else s.th u }

/-- Thread `t` moves to `pc`, shared state unchanged. -/
def St.goto {α β : Type} (s : St α β) (t : Nat) (pc : Pc) : St α β :=
  s.upd t { s.th t with pc := pc }

/-- Shared state becomes `g` and thread `t` moves to `pc`. -/
def St.goWith {α β : Type} (s : St α β) (t : Nat) (g : Shared α β) (pc : Pc) : St α β :=
  ({ s with g := g } : St α β).goto t pc

/-- One step of thread `t` of a team of `N` threads, whose calls all have
`length = L` (`src/invert/fft_fftw.cxx` L238-384).  A thread waiting for the lock, or
with nothing left to do, stays where it is. -/
def step {α β : Type} (tr : Tr α β) (norm : Nat → β → β) (N : Nat) (lenOf : Nat → Nat)
    (t : Nat) (o : Orc α β) (s : St α β) : Out (St α β) :=
  let g := s.g
  let x := s.th t
  let L := lenOf t
  match x.pc with
  | .start =>
    match x.todo with
    | [] => .ok s
    | _ :: _ => if g.size ≠ L then .ok (s.goto t .wait) else .ok (s.goto t .chkNth)
  | .chkNth => if g.nth < N then .ok (s.goto t .wait) else .ok (s.goto t .ptrIn)
  | .wait =>
    match g.lock with
    | some _ => .ok s
    | none => .ok (s.goWith t { g with lock := some t } .reSize)
  | .reSize => if g.size ≠ L then .ok (s.goto t .chkFree) else .ok (s.goto t .reNth)
  | .reNth => if g.nth < N then .ok (s.goto t .chkFree) else .ok (s.goto t .unlock)
  | .chkFree => if 0 < g.size then .ok (s.goto t (.destroy 0)) else .ok (s.goto t .allocIn)
  | .destroy i =>
    if i < g.nth then
      match g.hpl.read g.p i with
      | .error e => .error e
      | .ok none => .error (.ub "destroy of an invalid plan")
      | .ok (some _) =>
        match g.hpl.write g.p i none with
        | .error e => .error e
        | .ok h => .ok (s.goWith t { g with hpl := h } (.destroy (i + 1)))
    else .ok (s.goto t .delP)
  | .delP =>
    match g.hpl.free g.p with
    | .error e => .error e
    | .ok h => .ok (s.goWith t { g with hpl := h } .freeIn)
  | .freeIn =>
    match g.hin.free g.fin with
    | .error e => .error e
    | .ok h => .ok (s.goWith t { g with hin := h } .freeOut)
  | .freeOut =>
    match g.hout.free g.fout with
    | .error e => .error e
    | .ok h => .ok (s.goWith t { g with hout := h } .allocIn)
  | .allocIn =>
    let a := g.hin.alloc (tr.inW L * N) o.ji
    .ok (s.goWith t { g with hin := a.1, fin := a.2 } .allocOut)
  | .allocOut =>
    let a := g.hout.alloc (tr.outW L * N) o.jo
    .ok (s.goWith t { g with hout := a.1, fout := a.2 } .allocP)
  | .allocP =>
    let a := g.hpl.alloc N fun _ => none
    .ok (s.goWith t { g with hpl := a.1, p := a.2 } (.plan 0))
  | .plan i =>
    if i < N then
      match g.hin.writeMany g.fin (i * tr.inW L) (tr.inW L) o.ji with
      | .error e => .error e
      | .ok hi =>
        match g.hout.writeMany g.fout (i * tr.outW L) (tr.outW L) o.jo with
        | .error e => .error e
        | .ok ho =>
          match g.hpl.write g.p i
              (mkPlan L g.fin (i * tr.inW L) g.fout (i * tr.outW L)) with
          | .error e => .error e
          | .ok h => .ok (s.goWith t { g with hin := hi, hout := ho, hpl := h } (.plan (i + 1)))
    else .ok (s.goto t .setSize)
  | .setSize => .ok (s.goWith t { g with size := L } .setNth)
  | .setNth => .ok (s.goWith t { g with nth := N } .unlock)
  | .unlock => .ok (s.goWith t { g with lock := none } .ptrIn)
  | .ptrIn => .ok (s.upd t { x with fin := g.fin, pc := .offIn })
  | .offIn => .ok (s.upd t { x with finOff := t * tr.inW g.size, pc := .ptrOut })
  | .ptrOut => .ok (s.upd t { x with fout := g.fout, pc := .offOut })
  | .offOut => .ok (s.upd t { x with foutOff := t * tr.outW g.size, pc := .fill 0 })
  | .fill i =>
    match x.todo with
    | [] => .error (.ub "no call in progress")
    | inp :: _ =>
      if i < tr.inW g.size then
        match g.hin.write x.fin (x.finOff + i) (inp i) with
        | .error e => .error e
        | .ok h => .ok (s.goWith t { g with hin := h } (.fill (i + 1)))
      else .ok (s.goto t .getPlan)
  | .getPlan =>
    match g.hpl.read g.p t with
    | .error e => .error e
    | .ok pl => .ok (s.upd t { x with pl := pl, pc := .execRead })
  | .execRead =>
    match x.pl with
    | none => .error (.ub "execution of an invalid plan")
    | some pl =>
      match g.hin.readMany pl.inPtr pl.inOff (tr.inW pl.n) with
      | .error e => .error e
      | .ok f =>
        match g.hin.writeMany pl.inPtr pl.inOff (tr.inW pl.n) o.ji with
        | .error e => .error e
        | .ok h =>
          .ok (({ s with g := { g with hin := h } } : St α β).upd t
            { x with tmp := tr.run pl.n f, pc := .execWrite })
  | .execWrite =>
    match x.pl with
    | none => .error (.ub "execution of an invalid plan")
    | some pl =>
      match g.hout.writeMany pl.outPtr pl.outOff (tr.outW pl.n) x.tmp with
      | .error e => .error e
      | .ok h =>
        .ok (({ s with g := { g with hout := h } } : St α β).upd t
          { x with out := fun _ => none, pc := .store 0 })
  | .store i =>
    match x.todo with
    | [] => .error (.ub "no call in progress")
    | inp :: rest =>
      if i < tr.outW g.size then
        match g.hout.read x.fout (x.foutOff + i) with
        | .error e => .error e
        | .ok v =>
          .ok (s.upd t { x with
            out := fun j => if j = i then some (norm g.size v) else x.out j, pc := .store (i + 1) })
      else
        .ok (s.upd t { x with pc := .start, todo := rest, done := x.done ++ [(inp, x.out)] })

/-- A schedule: which thread moves, and the values it finds in junk memory. -/
abbrev Sched (α β : Type) := List (Nat × Orc α β)

/-- Run a schedule; thread numbers outside the team are ignored. -/
def run {α β : Type} (tr : Tr α β) (norm : Nat → β → β) (N : Nat) (lenOf : Nat → Nat) :
    Sched α β → St α β → Out (St α β)
  | [], s => .ok s
  | (t, o) :: rest, s =>
    if t < N then
      match step tr norm N lenOf t o s with
      | .error e => .error e
      | .ok s' => run tr norm N lenOf rest s'
    else run tr norm N lenOf rest s

/-- A thread at the beginning of a parallel region. -/
def Th.fresh {α β : Type} (calls : List (Nat → α)) (tmp : Nat → β) : Th α β :=
  ⟨.start, calls, 0, 0, 0, 0, none, tmp, fun _ => none, []⟩

/-- Every thread of the team has made all its calls. -/
def St.finished {α β : Type} (N : Nat) (s : St α β) : Prop :=
  ∀ t < N, (s.th t).pc = .start ∧ (s.th t).todo = []

end Verif.Fft
