/-
Model of the output monitors of a `Solver`
(`src/solver/solver.cxx` L484-602 and L749-926, `include/bout/monitor.hxx`).

Times are rational numbers: floating point rounding is not modelled (the tolerance 1e-12 of
`isMultiple` is).  C++ `int` is `Int` without overflow.  Left out: writing output files,
names of time dimensions, MMS errors, log messages.
-/
import Verif.Common
import Mathlib.Data.Rat.Floor
import Mathlib.Algebra.Order.Field.Rat
import Mathlib.Tactic.Ring
import Mathlib.Tactic.Linarith
import Mathlib.Tactic.FieldSimp
import Mathlib.Tactic.Positivity

namespace Verif.Solver

/-- `std::round`: to the nearest integer, halves away from zero. -/
def sround (x : ℚ) : Int := if 0 ≤ x then ⌊x + 1 / 2⌋ else ⌈x - 1 / 2⌉

/-- The tolerance in `isMultiple`, `monitor.hxx` L24. -/
def eps : ℚ := 1 / 1000000000000

/-- `isMultiple`, `include/bout/monitor.hxx` L16-25.  `chk` says whether `ASSERT2` is active.
A zero argument makes the C++ compare a NaN, which is `false`. -/
def isMultiple (chk : Bool) (a b : ℚ) : Out Bool :=
  if chk = true ∧ ¬ (a > 0 ∧ b > 0) then .error (.exc "ASSERT2")
  else
    let mn := if a > b then b else a
    let mx := if a > b then a else b
    .ok (decide (mn ≠ 0 ∧ mx ≠ 0 ∧ |((sround (mx / mn) : ℚ) * mn - mx) / mx| < eps))

/-- The data members of a `Monitor`, `monitor.hxx` L69-75. -/
structure Mon where
  timestep : ℚ
  period : Int

/-- The members of a `Solver` used here, `include/bout/solver.hxx` L552-597.  Monitors are
pointers: `mem` is what they point to, `mons` the list of pointers. -/
structure State where
  mem : Nat → Mon
  mons : List Nat
  internal_timestep : ℚ
  default_monitor_period : Int
  initialised : Bool
  number_output_steps : Int
  output_timestep : ℚ

/-- A new solver; `T i` is the timestep given to the constructor of monitor `i`, or set by
`setTimestep` before it was added. -/
def State.new (T : Nat → ℚ) (nout : Int) (dt : ℚ) : State :=
  { mem := fun i => ⟨T i, 1⟩, mons := [], internal_timestep := -1, default_monitor_period := 1,
    initialised := false, number_output_steps := nout, output_timestep := dt }

/-- Change the period of monitor `i`. -/
def State.setPeriod (s : State) (i : Nat) (p : Int) : State :=
  { s with mem := fun j => if j = i then { s.mem i with period := p } else s.mem j }

/-- `for (monitor : monitors) monitor->period *= m`, once per list entry. -/
def scale (m : Int) (l : List Nat) (mem : Nat → Mon) : Nat → Mon :=
  l.foldl (fun mem i => fun j => if j = i then { mem i with period := (mem i).period * m } else mem j) mem

/-- `Solver::adjustMonitorPeriods`, `solver.cxx` L751-799: the new state and the returned
timestep. -/
def adjustMonitorPeriods (chk : Bool) (i : Nat) (s : State) : Out (State × ℚ) :=
  let ts := (s.mem i).timestep
  if ts < 0 then .ok (s.setPeriod i s.default_monitor_period, s.internal_timestep)
  else if s.initialised = false ∧ s.internal_timestep < 0 then .ok (s, ts)
  else match isMultiple chk s.internal_timestep ts with
    | .error e => .error e
    | .ok false => .error (.exc "not a multiple")
    | .ok true =>
      if ts > s.internal_timestep * (3 / 2) then
        .ok (s.setPeriod i (sround (ts / s.internal_timestep)), s.internal_timestep)
      else if s.initialised = true then .error (.exc "Cannot reduce timestep")
      else
        let m := sround (s.internal_timestep / ts)
        .ok ({ s with mem := scale m s.mons s.mem
                      default_monitor_period := s.default_monitor_period * m }, ts)

/-- `Solver::addMonitor`, `solver.cxx` L837-848. -/
def addMonitor (chk : Bool) (i : Nat) (front : Bool) (s : State) : Out State :=
  match adjustMonitorPeriods chk i s with
  | .error e => .error e
  | .ok (s', t) =>
    .ok { s' with internal_timestep := t,
                  mons := if front then i :: s'.mons else s'.mons ++ [i] }

/-- `Solver::removeMonitor`, `solver.cxx` L850-852. -/
def removeMonitor (i : Nat) (s : State) : State :=
  { s with mons := s.mons.filter (· ≠ i) }

/-- The last loop of `finaliseMonitorPeriods`, `solver.cxx` L826-834. -/
def setDefaults (ts : ℚ) (p : Int) (l : List Nat) (mem : Nat → Mon) : Nat → Mon :=
  l.foldl (fun mem i =>
    if (mem i).timestep < 0 then fun j => if j = i then ⟨ts, p⟩ else mem j else mem) mem

/-- The first part of `finaliseMonitorPeriods`, `solver.cxx` L803-822. -/
def syncTimestep (chk : Bool) (NOUT : Int) (dt : ℚ) (s : State) : Out (State × Int × ℚ) :=
  if s.internal_timestep > 0 then
    match isMultiple chk s.internal_timestep dt with
    | .error e => .error e
    | .ok false => .error (.exc "not compatible with the output_step")
    | .ok true =>
      if s.internal_timestep < dt * (3 / 2) then
        let p := sround (dt / s.internal_timestep)
        .ok ({ s with default_monitor_period := p }, NOUT * p, s.internal_timestep)
      else
        let m := sround (s.internal_timestep / dt)
        .ok ({ s with default_monitor_period := 1, mem := scale m s.mons s.mem }, NOUT, dt)
  else .ok (s, NOUT, dt)

/-- `Solver::finaliseMonitorPeriods`, `solver.cxx` L801-835: the new state, and the values
left in the reference arguments `NOUT` and `output_timestep`. -/
def finaliseMonitorPeriods (chk : Bool) (NOUT : Int) (dt : ℚ) (s : State) :
    Out (State × Int × ℚ) :=
  match syncTimestep chk NOUT dt s with
  | .error e => .error e
  | .ok (s', N', dt') =>
    .ok ({ s' with mem := setDefaults (s'.internal_timestep * s'.default_monitor_period)
                    s'.default_monitor_period s'.mons s'.mem }, N', dt')

/-- One call of a monitor, `solver.cxx` L880-881. -/
structure Call where
  id : Nat
  time : ℚ
  iter : Int
  nout : Int
deriving DecidableEq, Repr

/-- What can be observed of the monitors. -/
inductive Ev
  | call (c : Call)
  | cleanup (id : Nat)
deriving DecidableEq, Repr

/-- The loop over monitors in `call_monitors`, `solver.cxx` L876-892, for the already
incremented `iter`; `ret` gives the return code of each call.  The flag says whether the loop
came to its end. -/
def callLoop (mem : Nat → Mon) (ret : Call → Int) (t : ℚ) (iter NOUT : Int) :
    List Nat → List Ev × Bool
  | [] => ([], true)
  | i :: l =>
    if iter.tmod (mem i).period = 0 then
      let c : Call := ⟨i, t, iter.tdiv (mem i).period - 1, NOUT.tdiv (mem i).period⟩
      if ret c ≠ 0 then ([.call c], false)
      else (.call c :: (callLoop mem ret t iter NOUT l).1, (callLoop mem ret t iter NOUT l).2)
    else callLoop mem ret t iter NOUT l

/-- `Solver::call_monitors`, `solver.cxx` L855-926.  `quit1`, `quit2` are the values of
`user_requested_exit` (over all ranks) before and after the loop. -/
def call_monitors (s : State) (ret : Call → Int) (quit1 quit2 : Bool) (t : ℚ) (iter NOUT : Int) :
    List Ev × Out Int :=
  let NOUT := if quit1 then iter + 1 else NOUT
  let r := callLoop s.mem ret t (iter + 1) NOUT s.mons
  if r.2 = false then (r.1 ++ s.mons.map .cleanup, .error (.exc "Monitor signalled to quit"))
  else
    (r.1 ++ (if iter + 1 = NOUT ∨ quit2 = true then s.mons.map .cleanup else []),
     .ok (if quit2 then 1 else 0))

/-- The loop over outputs of the solvers (`for (s = 0; s < N; s++)`, e.g. `rk4.cxx` L82-163,
`euler.cxx`, `rk3-ssp.cxx`): `n` iterations remain, the next one is `k`; the simulation time
after iteration `k` is `t0 + (k + 1) * dt`. -/
def outputLoop (s : State) (ret : Call → Int) (quit : Int → Bool × Bool) (t0 dt : ℚ) (N : Int) :
    Nat → Int → List Ev × Out Unit
  | 0, _ => ([], .ok ())
  | n + 1, k =>
    match call_monitors s ret (quit k).1 (quit k).2 (t0 + ((k + 1 : Int) : ℚ) * dt) k N with
    | (l, .error e) => (l, .error e)
    | (l, .ok r) =>
      if r ≠ 0 then (l, .ok ())
      else
        let rest := outputLoop s ret quit t0 dt N n (k + 1)
        (l ++ rest.1, rest.2)

/-- `Solver::solve(nout, timestep)`, `solver.cxx` L486-602, and `run()`, as far as monitors
are concerned.  `nout < 0` means: use the options.  `finaliseMonitorPeriods` changes the
local variables `nout` and `timestep`; `run()` reads the members `number_output_steps` and
`output_timestep` through `getNumberOutputSteps()`, `getOutputTimestep()`. -/
def solve (chk : Bool) (nout : Int) (timestep : ℚ) (dumpOnRestart : Bool) (ret : Call → Int)
    (quit : Int → Bool × Bool) (t0 : ℚ) (s : State) : List Ev × Out Unit :=
  let s := if nout < 0 then s else
    { s with number_output_steps := nout, output_timestep := timestep }
  match finaliseMonitorPeriods chk s.number_output_steps s.output_timestep s with
  | .error e => ([], .error e)
  | .ok (s, nout', _) =>
    let s := { s with initialised := true }
    let first : List Ev × Out Int :=
      if dumpOnRestart then call_monitors s ret (quit (-1)).1 (quit (-1)).2 t0 (-1) nout'
      else ([], .ok 0)
    match first with
    | (l, .error e) => (l, .error e)
    | (l, .ok r) =>
      if r ≠ 0 then (l, .error (.exc "Initial monitor call failed!"))
      else
        let rest := outputLoop s ret quit t0 s.output_timestep s.number_output_steps
          s.number_output_steps.toNat 0
        (l ++ rest.1, rest.2)

/-- What users do with monitors before `solve`. -/
inductive Op
  | add (i : Nat) (front : Bool)
  | remove (i : Nat)
deriving DecidableEq, Repr

/-- One operation; an exception is caught by the caller (or ends the program, which is a
shorter history). -/
def Op.run (chk : Bool) (s : State) : Op → State
  | .add i front => match addMonitor chk i front s with
    | .ok s' => s'
    | .error _ => s
  | .remove i => removeMonitor i s

/-- The monitors added by a list of operations. -/
def added : List Op → List Nat
  | [] => []
  | .add i _ :: l => i :: added l
  | .remove _ :: l => added l

/-- All operations in order. -/
def runOps (chk : Bool) (s : State) (ops : List Op) : State := ops.foldl (Op.run chk) s

end Verif.Solver
