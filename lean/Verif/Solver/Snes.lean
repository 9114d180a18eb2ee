import Mathlib.Algebra.Order.Field.Basic
import Mathlib.Algebra.Module.Basic

/-!
# The backward Euler / SNES time solver

Model of `SNESSolver::run` and `SNESSolver::snes_function`
(src/solver/impls/snes/snes.cxx).

Simplifications, for the whole file.  Times and vectors live in an exact ordered field `K` and in an
arbitrary `K`-module `V` (no rounding); the vectors distributed over processors are one value.  PETSc's
`SNESSolve` is an arbitrary function of the number of the call: it may fail, or leave any vector and any
iteration count.  The evaluation of the residual inside `SNESSolve` (snes.cxx L912-975) is the separate
function `residual`; the model variables and the time derivatives it leaves behind are not part of the
state, because every later reader loads the variables again (L836-842, L894-901).  Options are already
read.  The printed diagnostics (L772-786, L800-810, L860-875) are left out.
-/

namespace Verif.Snes

/-- The forms of the equation handed to SNES (`BoutSnesEquationForm`, snes.hxx L48-50). -/
inductive Form
  | pseudoTransient
  | rearranged
  | backwardEuler
  | directNewton
  deriving DecidableEq

/-- Read-only parameters: the options of the constructor (snes.cxx L60-126) and the settings of the base
class used by `run`. -/
structure Params (K : Type) where
  /-- `dt_min_reset`, L64-66 -/
  dtMin : K
  /-- `max_timestep`, L67 -/
  maxDt : K
  /-- `lower_its`, L79-81 -/
  lowerIts : Nat
  /-- `upper_its`, L82-84 -/
  upperIts : Nat
  /-- `getOutputTimestep()` -/
  dtout : K
  /-- `getNumberOutputSteps()` -/
  nout : Nat

/-- What one call of `SNESSolve` does: it fails (a non-zero error code or a negative reason, L765-768), or
leaves a vector in `snes_x` and reports a number of iterations (L828-829). -/
inductive Answer (V : Type)
  | failed
  | ok (x : V) (its : Nat)

/-- What an observer sees of a run, in order. -/
inductive Event (K V : Type)
  /-- `SNESSolve` was called at time `t`, for a step `dt` from state `x0`, with first guess `guess`; the
  Jacobian is re-used for `lag` iterations. -/
  | solve (t dt : K) (x0 guess : V) (lag : Int)
  /-- That solve failed. -/
  | failed
  /-- The step from `(t, x0)` over `dt` was accepted: SNES left `xs` after `its` iterations, and the new
  state is `x`. -/
  | accept (t dt : K) (x0 guess xs : V) (its : Nat) (x : V)
  /-- The solver reset itself: large timestep, no predictor from now on. -/
  | reset
  /-- The user's function ran at time `t` on the state `x`, to fill the auxiliary variables. -/
  | rhs (t : K) (x : V)
  /-- The monitors were called for output `k` at time `t` with the model variables holding `x`. -/
  | monitor (t : K) (k : Nat) (x : V)

/-- The state of the solver during `run`.  `saved` is the local variable `saved_jacobian_lag` (L722), `lag`
the value held by SNES; `calls` counts the calls of `SNESSolve`; `log` is the ghost list of events. -/
structure St (K V : Type) where
  x : V
  x0 : V
  x1 : V
  time1 : K
  timestep : K
  dt : K
  t : K
  predictor : Bool
  saved : Int
  lag : Int
  calls : Nat
  log : List (Event K V)

variable {K V : Type} [Field K] [LinearOrder K] [AddCommGroup V] [Module K V]

/-- `SNESSolver::snes_function`, snes.cxx L912-975: the residual at `x` of the step of size `dt` from `x0`
at time `t`.  The case that the user's function throws (L922-934, reported to SNES as a domain error) is
left to the arbitrary behaviour of `SNESSolve`. -/
def residual (form : Form) (f : K → V → V) (t dt : K) (x0 x : V) : V :=
  -- L921: run_rhs(simtime + dt); L937-942: save_derivs
  let f1 := f (t + dt) x
  match form with
  | .pseudoTransient => f1 + (-1 / dt) • x                 -- L947: VecAXPY(f, -1/dt, x)
  | .rearranged =>
    let delta := (-1 : K) • x0 + x                         -- L954: VecWAXPY(delta_x, -1.0, x0, x)
    f1 + (-1 / dt) • delta                                 -- L955: VecAXPY(f, -1/dt, delta_x)
  | .backwardEuler =>
    let f2 := x + (-dt) • f1                               -- L961: VecAYPX(f, -dt, x)
    f2 + (-1 : K) • x0                                     -- L962: VecAXPY(f, -1.0, x0)
  | .directNewton => f1                                    -- L965-968

/-- Outcome of one pass through the do-while loop. -/
inductive Res (K V : Type)
  /-- go round again -/
  | again (s : St K V)
  /-- the output time is reached -/
  | stop (s : St K V)
  /-- BoutException -/
  | threw (s : St K V)

/-- The reset at the top of the loop, snes.cxx L728-741 (the exception of L734 is in `attempt`). -/
def resetSt (P : Params K) (s : St K V) : St K V :=
  { s with saved := s.lag, lag := 1, timestep := P.dtout, predictor := false, log := s.log ++ [.reset] }

/-- Whether this attempt is the last of the output step, L744-750. -/
def isLast (target : K) (s : St K V) : Bool := decide (target ≤ s.t + s.timestep)

/-- The size of this attempt, L743-750. -/
def stepSize (target : K) (s : St K V) : K := if target ≤ s.t + s.timestep then target - s.t else s.timestep

/-- The first guess given to SNES, L752-758.  `s.x` holds `snes_x`. -/
def guess (target : K) (s : St K V) : V :=
  if s.predictor = true ∧ 0 < s.time1 then
    let beta := stepSize target s / (s.t - s.time1)
    (-beta) • s.x1 + (1 + beta) • s.x                      -- VecAXPBY(snes_x, -beta, 1+beta, x1)
  else s.x

/-- After a failed solve, L787-815. -/
def onFail (s : St K V) : St K V :=
  let s := { s with timestep := s.timestep / 2, x := s.x0, log := s.log ++ [.failed] }
  if s.saved = 0 then { s with saved := s.lag, lag := 1 } else s

/-- The new timestep after an accepted step which is not the last of the output step, L877-888. -/
def adapt (P : Params K) (its : Nat) (h : K) : K :=
  if its ≤ P.lowerIts then
    let h' := h * (11 / 10)
    if P.maxDt < h' then P.maxDt else h'
  else if P.upperIts ≤ its then h * (9 / 10)
  else h

/-- After a solve that converged to `xs` in `its` iterations, L817-888; `g` is the first guess. -/
def onSuccess (P : Params K) (f : K → V → V) (last : Bool) (g xs : V) (its : Nat) (s : St K V) : St K V :=
  -- L817-822
  let s := if s.saved ≠ 0 then { s with lag := s.saved, saved := 0 } else s
  -- L824-828
  let s := if s.predictor then { s with x1 := s.x0, time1 := s.t } else s
  -- L833-857: forward Euler if SNES made no iterations
  let x' := if its = 0 then s.dt • f s.t xs + xs else xs
  let log' := s.log ++ [.accept s.t s.dt s.x0 g xs its x']
  -- L859
  let s := { s with x := x', t := s.t + s.dt, log := log' }
  -- L877-888
  if last then s else { s with timestep := adapt P its s.timestep }

/-- One pass through the do-while loop of `SNESSolver::run`, snes.cxx L723-889. -/
def attempt (P : Params K) (f : K → V → V) (snes : Nat → Answer V) (target : K) (s : St K V) : Res K V :=
  let s := { s with x0 := s.x }                                          -- L726
  if s.timestep < P.dtMin ∧ s.saved ≠ 0 then .threw s                    -- L728-735
  else
    let s := if s.timestep < P.dtMin then resetSt P s else s             -- L736-741
    let last := isLast target s
    let g := guess target s
    let s := { s with dt := stepSize target s, calls := s.calls + 1,
                      log := s.log ++ [.solve s.t (stepSize target s) s.x0 g s.lag] }
    match snes (s.calls - 1) with                                         -- L761
    | .failed => .again (onFail s)
    | .ok xs its =>
      let s' := onSuccess P f last g xs its s
      if last then .stop s' else .again s'

/-- The do-while loop, L723-889, for at most `n` passes. -/
def attempts (P : Params K) (f : K → V → V) (snes : Nat → Answer V) (target : K) : Nat → St K V → Res K V
  | 0, s => .again s
  | n + 1, s =>
    match attempt P f snes target s with
    | .again s' => attempts P f snes target n s'
    | r => r

/-- How a run ends. -/
inductive End (K V : Type)
  /-- `run` returned -/
  | returned (s : St K V)
  /-- `run` threw -/
  | threw (s : St K V)

/-- The final state, however the run ended. -/
def End.st : End K V → St K V
  | .returned s => s
  | .threw s => s

/-- After an output step, L892-903: load the variables, run the user's function, call the monitors. -/
def output (k : Nat) (s : St K V) : St K V :=
  { s with log := s.log ++ [.rhs s.t s.x, .monitor s.t k s.x] }

/-- The loop over output steps, snes.cxx L717-906, as a relation: `RunFrom … k s e` says that the loop
entered for step `k` in state `s` ends as `e`.  `quit k` says that a monitor asked to stop at output `k`
(L905-907). -/
inductive RunFrom (P : Params K) (f : K → V → V) (snes : Nat → Answer V) (quit : Nat → Bool) :
    Nat → St K V → End K V → Prop
  | finished (k : Nat) (s : St K V) (h : P.nout ≤ k) : RunFrom P f snes quit k s (.returned s)
  | threw (k : Nat) (s s' : St K V) (n : Nat) (h : k < P.nout)
      (ha : attempts P f snes (s.t + P.dtout) n { s with saved := 0 } = .threw s') :
      RunFrom P f snes quit k s (.threw s')
  | quit (k : Nat) (s s' : St K V) (n : Nat) (h : k < P.nout)
      (ha : attempts P f snes (s.t + P.dtout) n { s with saved := 0 } = .stop s') (hq : quit k = true) :
      RunFrom P f snes quit k s (.returned (output k s'))
  | next (k : Nat) (s s' : St K V) (e : End K V) (n : Nat) (h : k < P.nout)
      (ha : attempts P f snes (s.t + P.dtout) n { s with saved := 0 } = .stop s') (hq : quit k = false)
      (hr : RunFrom P f snes quit (k + 1) (output k s') e) :
      RunFrom P f snes quit k s e

/-- The state when `run` enters its loop (L708-715): the variables are in `snes_x`; `time1` is -1
(snes.hxx L116), the Jacobian lag is that of the options (snes.cxx L615). -/
def start (t0 : K) (v junk : V) (timestep : K) (predictor : Bool) (lag : Int) : St K V :=
  { x := v, x0 := junk, x1 := junk, time1 := -1, timestep := timestep, dt := 0, t := t0,
    predictor := predictor, saved := 0, lag := lag, calls := 0, log := [] }

end Verif.Snes
