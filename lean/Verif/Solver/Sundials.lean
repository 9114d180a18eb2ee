import Mathlib.Algebra.Order.Field.Basic
import Verif.Solver.Vars
import Verif.Options.Model

/-!
# The solvers built on SUNDIALS (and the bundled PVODE)

Model of the drivers in src/solver/impls/{cvode,arkode,pvode,ida}: `run()`, `run(tout)`, the vectors of
tolerances and constraints, IDA's residual, and how per-field options are read.

The integrator itself is external and arbitrary: its `n`-th internal step either fails or advances its time by
some amount, with any dense output over that step and any last evaluation of the user's function during it.
What is assumed of it is what its manual promises: `NORMAL` mode steps until the requested time is passed, at
most `mxstep` times per call, and interpolates; `ONE_STEP` mode takes one step; `GetDky` interpolates within the
last step and reports an error elsewhere.  Times are exact.  Diagnostics, timers and MPI barriers are left out.
-/

namespace Verif.Sundials

/-- The four drivers. -/
inductive Kind
  | cvode
  | arkode
  | pvode
  | ida
  deriving DecidableEq

/-- One successful internal step of the integrator: its length, the dense output over it, and the state at
which it evaluated the user's function last (which is what the model's variables hold afterwards: `rhs`,
cvode.cxx L585-600, loads the variables and leaves them). -/
structure Inner (K V : Type) where
  h : K
  dense : K → V
  seen : V

/-- The memory of the integrator: steps taken, its time, the last step. -/
structure Mem (K V : Type) where
  n : Nat
  tn : K
  hu : K
  dense : K → V

/-- What an observer sees. -/
inductive Event (K V : Type)
  /-- timestep monitors called at `t` after a step of `dt`, with the variables holding `x` -/
  | stepMonitor (t dt : K) (x : V)
  /-- the user's function run at `t` on `x` -/
  | rhs (t : K) (x : V)
  /-- output monitors, output `k`, at `t` with the variables holding `x` -/
  | monitor (t : K) (k : Nat) (x : V)

/-- The state of the driver. -/
structure St (K V : Type) where
  mem : Mem K V
  vars : V
  simtime : K
  log : List (Event K V)

variable {K V : Type} [Field K] [LinearOrder K]

/-- One internal step. -/
def step (o : Nat → Option (Inner K V)) (m : Mem K V) : Option (Mem K V × V) :=
  match o m.n with
  | none => none
  | some i => some ({ n := m.n + 1, tn := m.tn + i.h, hu := i.h, dense := i.dense }, i.seen)

/-- `CVode(…, NORMAL)` (and `ARKStepEvolve`, `IDASolve`): step until `tout` is passed, at most `rem` times.
The flag is true for success; the last component is what the variables hold after the last evaluation of the
user's function. -/
def normal (o : Nat → Option (Inner K V)) (tout : K) : Nat → Mem K V → V → Bool × Mem K V × V
  | rem, m, x =>
    if 0 < m.n ∧ tout ≤ m.tn then (true, m, x)
    else match rem with
      | 0 => (false, m, x)
      | rem + 1 =>
        match step o m with
        | none => (false, m, x)
        | some (m', x') => normal o tout rem m' x'

/-- `CVodeGetDky(…, tout, 0, …)`: the dense output of the last step, an error outside it. -/
def getDky (m : Mem K V) (t : K) : Option V :=
  if 0 < m.n ∧ m.tn - m.hu ≤ t ∧ t ≤ m.tn then some (m.dense t) else none

/-- Outcome of `run(tout)`. -/
inductive Res (K V : Type)
  /-- returns `t` -/
  | ret (t : K) (s : St K V)
  /-- throws -/
  | threw (s : St K V)

/-- What `run(tout)` does when the integrator failed: CVODE throws (cvode.cxx L555-558, L575-578), the others
return -1 (arkode.cxx L562-566, L581-585; pvode.cxx L273-277, L294-297; ida.cxx L287-291). -/
def failWith (k : Kind) (s : St K V) : Res K V :=
  match k with
  | .cvode => .threw s
  | _ => .ret (-1) s

/-- The common end of `run(tout)` (cvode.cxx L568-580, arkode.cxx L576-587, pvode.cxx L286-299,
ida.cxx L279-293): the variables are loaded from the vector `u`, the user's function runs at `simtime`, then
the flag is looked at. -/
def finish (k : Kind) (ok : Bool) (u : V) (s : St K V) : Res K V :=
  let s := { s with vars := u, log := s.log ++ [.rhs s.simtime u] }
  if ok then .ret s.simtime s else failWith k s

/-- The loop in single-step mode (cvode.cxx L549-562, arkode.cxx L555-570, pvode.cxx L263-281), at most `fuel`
passes (`none`: not finished by then).  `inl`: a step failed. -/
def stepping (o : Nat → Option (Inner K V)) (tout : K) : Nat → St K V → Option (St K V ⊕ St K V)
  | fuel, s =>
    if s.mem.tn < tout then
      match fuel with
      | 0 => none
      | fuel + 1 =>
        match step o s.mem with
        | none => some (.inl s)
        | some (m', x') =>
          -- timestep monitors: the variables are not loaded from `uvec` first
          stepping o tout fuel { s with mem := m', vars := x', log := s.log ++ [.stepMonitor m'.tn (m'.tn - s.mem.tn) x'] }
    else some (.inr s)

/-- `run(tout)`: cvode.cxx L532-580, arkode.cxx L541-588, pvode.cxx L249-300, ida.cxx L266-294 (which has no
single-step mode).  `ms` is `monitor_timestep`, `mx` is `mxstep`. -/
def runTo (k : Kind) (ms : Bool) (mx : Nat) (o : Nat → Option (Inner K V)) (fuel : Nat) (tout : K)
    (s : St K V) : Option (Res K V) :=
  if ms = false ∨ k = .ida then
    let (ok, m, x) := normal o tout mx s.mem s.vars
    -- on success the vector is the dense output at `tout`; on failure the state at the internal time
    let t := if ok then tout else m.tn
    some (finish k ok (m.dense t) { s with mem := m, vars := x, simtime := t })
  else
    match stepping o tout fuel s with
    | none => none
    | some (.inl s') => some (failWith k s')
    | some (.inr s') =>
      match getDky s'.mem tout with
      | some u => some (finish k true u { s' with simtime := tout })
      | none => some (finish k false (s'.mem.dense s'.mem.tn) { s' with simtime := tout })

/-- How `run()` ends. -/
inductive End (K V : Type)
  | returned (s : St K V)
  | threw (s : St K V)

def End.st : End K V → St K V
  | .returned s => s
  | .threw s => s

/-- `run()`: cvode.cxx L451-530, arkode.cxx L485-539, pvode.cxx L220-247, ida.cxx L239-264: output step `i` of
`nout`; the recursion is on the number of output steps left. -/
def run (k : Kind) (ms : Bool) (mx : Nat) (o : Nat → Option (Inner K V)) (fuel : Nat) (dtout : K)
    (quit : Nat → Bool) : Nat → Nat → St K V → Option (End K V)
  | 0, _, s => some (.returned s)
  | left + 1, i, s =>
    match runTo k ms mx o fuel (s.simtime + dtout) s with
    | none => none
    | some (.threw s') => some (.threw s')
    | some (.ret t s') =>
      let s' := { s' with simtime := t }
      if t < 0 then some (.threw s')
      else
        let s' := { s' with log := s'.log ++ [.monitor t i s'.vars] }
        if quit i then some (.returned s') else run k ms mx o fuel dtout quit left (i + 1) s'

/-- The state after `init()`: the integrator starts at `simtime` (cvode.cxx L219). -/
def start (t0 : K) (v : V) : St K V :=
  { mem := { n := 0, tn := t0, hu := 0, dense := fun _ => v }, vars := v, simtime := t0, log := [] }

/-! ## Vectors with one value per variable -/

/-- cvode.cxx L747-752, arkode.cxx L806-811: one 2D variable. -/
def option2 {A : Type} (tol : Nat → A) (bndry : Bool) (m : Verif.Vars.M A) (fi : Verif.Vars.Var × Nat) : Option (Verif.Vars.M A) :=
  if bndry && !fi.1.evolveBndry then some m else m.put (tol fi.2)

/-- cvode.cxx L742-764, arkode.cxx L801-823 `loop_vector_option_values_op` / `loop_abstol_values_op`.  `tol2`,
`tol3` are the vectors `f2dtols`, `f3dtols`, one entry per variable. -/
def optionOp {A : Type} (tol2 tol3 : Nat → A) (S : Verif.Vars.Solver) (bndry : Bool) (m : Verif.Vars.M A) (_pt : Nat) :
    Option (Verif.Vars.M A) := do
  let m ← S.f2d.zipIdx.foldlM (option2 tol2 bndry) m
  (List.range S.nz).foldlM (fun m _jz => S.f3d.zipIdx.foldlM (option2 tol3 bndry) m) m

/-- cvode.cxx L726-739, arkode.cxx L786-799 `set_vector_option_values` / `set_abstol_values`: first the boundary
region, then the bulk. -/
def vectorOptions {A : Type} (tol2 tol3 : Nat → A) (S : Verif.Vars.Solver) (st : Verif.Vars.St A) (u : List A) :
    Option (List A) := do
  let m ← S.bndry2.foldlM (optionOp tol2 tol3 S true) { st := st, u := u, p := 0 }
  let m ← S.nobndry2.foldlM (optionOp tol2 tol3 S false) m
  some m.u

/-- The values of `positivity_constraint` (cvode.cxx L57-60). -/
inductive Sign
  | none
  | positive
  | nonNegative
  | negative
  | nonPositive
  deriving DecidableEq

/-- cvode.cxx L427-441 `create_constraints`: the code CVODE wants. -/
def constraintCode : Sign → K
  | .none => 0
  | .positive => 2
  | .nonNegative => 1
  | .negative => -2
  | .nonPositive => -1

/-- IDA's residual, ida.cxx L300-321: `F - du` where `id > 0.5`, `F` elsewhere, element by element. -/
def idaResidual (F du id : List K) : List K :=
  (F.zip (du.zip id)).map (fun q => if 1 / 2 < q.2.2 then q.1 - q.2.1 else q.1)

/-! ## Reading the options of one field -/

open Verif.Opt (Tree Env Ty Val)
open Verif.Str (Chars)

/-- `auto f_options = Options::root()[name]; f_options[key].withDefault(v)` (cvode.cxx L246-254 and L419-428,
arkode.cxx L327-335): the section is created if missing, but it is then *copied*, and the value is read from
the copy. -/
def readCopy (env : Env) (ty : Ty) (v : Val) (name key : Chars) (t : Tree) : Tree × Out Val :=
  Verif.Opt.access t [name] (fun u => (u, (Verif.Opt.access u [key] (Verif.Opt.withDefault env ty v)).2))

/-- `Options::root()[name][key].withDefault(v)` (cvode.cxx L259-262, arkode.cxx L340-343). -/
def readRef (env : Env) (ty : Ty) (v : Val) (name key : Chars) (t : Tree) : Tree × Out Val :=
  Verif.Opt.access t [name, key] (Verif.Opt.withDefault env ty v)

end Verif.Sundials
