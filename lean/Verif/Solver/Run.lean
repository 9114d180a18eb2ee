import Verif.Solver.RK
import Mathlib.Algebra.Order.Archimedean.Basic
import Mathlib.Tactic.Ring
import Mathlib.Tactic.Linarith
import Mathlib.Tactic.Positivity

/-!
# C26: the run loops of the Runge-Kutta and Euler solvers

`RK4Solver::run`, `RKGenericSolver::run`, `RK3SSP::run` and `EulerSolver::run`.

Simplifications: `BoutReal` is an ordered field, so `simtime + (target - simtime)` is exactly `target`; the change of
time step `timestep /= pow(err / (0.5*rtol), 0.2)` is an arbitrary function `rescale` of the time step, the step tried
and the error; the loops carry a bound on the number of passes (`fuel`), which the theorems show never to run out.
The state of all processors is one value of type `σ`.  Timestep monitors and the monitor calls are recorded.
-/
namespace Verif.RK

variable {K σ : Type} [Field K] [LinearOrder K] [IsStrictOrderedRing K]

/-- What distinguishes the three solvers' loops. -/
structure Method (K σ : Type) where
  /-- `take_step` and the error check: the new state and the error estimate. -/
  tryStep : K → K → σ → σ × K
  adaptive : Bool
  rtol : K
  max_timestep : K
  mxstep : Nat
  /-- timestep, dt, err ↦ new timestep -/
  rescale : K → K → K → K
  /-- whether a small error on the last step before the output also changes the timestep -/
  growOnLast : Bool

/-- The solver's state inside the loop over internal steps.  `taken` is the record of the calls to
`call_timestep_monitors(simtime, dt)`, with the error estimate of the step. -/
structure St (K σ : Type) where
  simtime : K
  timestep : K
  f0 : σ
  internal_steps : Nat
  taken : List (K × K × K)

/-- What one pass of the inner `do … while (true)` does. -/
inductive Att (K σ : Type) where
  | throw
  | retry (s : St K σ)
  | accept (s : St K σ) (running : Bool)

/-- rk4.cxx:91-97, rkgeneric.cxx:99-105, rk3-ssp.cxx:76-81. -/
def chooseDt (target simtime timestep : K) : K × Bool :=
  if simtime + timestep ≥ target then (target - simtime, false) else (timestep, true)

/-- rk4.cxx:131-135, rkgeneric.cxx:128-132. -/
def clampTimestep (max_timestep timestep : K) : K :=
  if max_timestep > 0 ∧ timestep > max_timestep then max_timestep else timestep

/-- rk4.cxx:127-136, rkgeneric.cxx:122-134: the new time step. -/
def newTimestep (m : Method K σ) (timestep dt err : K) (running : Bool) : K :=
  if err > m.rtol ∨ (err < 1/10 * m.rtol ∧ (m.growOnLast = true ∨ running = true)) then
    clampTimestep m.max_timestep (m.rescale timestep dt err)
  else timestep

/-- rk4.cxx:151-155, rkgeneric.cxx:147-152, rk3-ssp.cxx:86-88: a step has been taken. -/
def acceptStep (s : St K σ) (f2 : σ) (dt err : K) : St K σ :=
  { s with f0 := f2, simtime := s.simtime + dt, taken := s.taken ++ [(s.simtime + dt, dt, err)] }

/-- rk4.cxx:90-155, rkgeneric.cxx:98-152, rk3-ssp.cxx:73-88: one pass. -/
def attempt (m : Method K σ) (target : K) (s : St K σ) : Att K σ :=
  let c := chooseDt target s.simtime s.timestep
  let r := m.tryStep s.simtime c.1 s.f0
  if m.adaptive then
    if s.internal_steps + 1 > m.mxstep then .throw
    else
      let s := { s with internal_steps := s.internal_steps + 1,
                        timestep := newTimestep m s.timestep c.1 r.2 c.2 }
      if r.2 < m.rtol then .accept (acceptStep s r.1 c.1 r.2) c.2 else .retry s
  else .accept (acceptStep s r.1 c.1 r.2) c.2

inductive Res (α : Type) where
  | outOfFuel
  | thrown
  | done (a : α)

/-- rk4.cxx:86-156 and the like: internal steps up to the next output. -/
def outputLoop (m : Method K σ) (target : K) : Nat → St K σ → Res (St K σ)
  | 0, _ => .outOfFuel
  | k + 1, s => match attempt m target s with
    | .throw => .thrown
    | .retry s' => outputLoop m target k s'
    | .accept s' true => outputLoop m target k s'
    | .accept s' false => .done s'

/-- rk4.cxx:79-168, rkgeneric.cxx:88-168, rk3-ssp.cxx:65-101 `run`, from output `i` with `todo` outputs to go.
`mon i t y` is true if `call_monitors` asks for the simulation to stop; the calls are recorded. -/
def runLoop (m : Method K σ) (T : K) (fuel : Nat) (mon : Nat → K → σ → Bool) :
    (todo i : Nat) → St K σ → List (K × σ) → Res (St K σ × List (K × σ))
  | 0, _, s, calls => .done (s, calls)
  | todo + 1, i, s, calls =>
    match outputLoop m (s.simtime + T) fuel { s with internal_steps := 0 } with
    | .outOfFuel => .outOfFuel
    | .thrown => .thrown
    | .done s' =>
      if mon i s'.simtime s'.f0 then .done (s', calls ++ [(s'.simtime, s'.f0)])
      else runLoop m T fuel mon todo (i + 1) s' (calls ++ [(s'.simtime, s'.f0)])

section Methods
variable {n : Nat}

/-- rk4.cxx:98-148: the adaptive RK4 takes two half steps (followed) and one full step (compared). -/
def rk4Try (adaptive : Bool) (atol : K) (rhs : Rhs K n) (t dt : K) (f0 : Fin n → K) : (Fin n → K) × K :=
  if adaptive then
    let f1 := rk4Step rhs t (1/2 * dt) f0
    let f2 := rk4Step rhs (t + 1/2 * dt) (1/2 * dt) f1
    let f1 := rk4Step rhs t dt f0
    (f2, errOf atol n f2 f1)
  else (rk4Step rhs t dt f0, 0)

/-- rk4.cxx: the RK4 solver. -/
def rk4Method (adaptive : Bool) (atol rtol max_timestep : K) (mxstep : Nat) (rescale : K → K → K → K) (rhs : Rhs K n) :
    Method K (Fin n → K) :=
  { tryStep := rk4Try adaptive atol rhs, adaptive := adaptive, rtol := rtol, max_timestep := max_timestep,
    mxstep := mxstep, rescale := rescale, growOnLast := true }

/-- rkgeneric.cxx: the generic solver; the scheme's stored stages do not affect a later step, so each step starts from
the same `steps0` here (see `C27_generic_step`, which holds for all of them). -/
def genericMethod (T : Scheme) (followHighOrder adaptive : Bool) (atol rtol max_timestep : K) (mxstep : Nat)
    (rescale : K → K → K → K) (rhs : Rhs K n) (steps0 : Nat → Fin n → K) : Method K (Fin n → K) :=
  { tryStep := fun t dt y => genericStep T followHighOrder adaptive atol n rhs t dt y steps0, adaptive := adaptive,
    rtol := rtol, max_timestep := max_timestep, mxstep := mxstep, rescale := rescale, growOnLast := false }

/-- rk3-ssp.cxx: not adaptive; no `mxstep`. -/
def rk3Method (rhs : Rhs K n) : Method K (Fin n → K) :=
  { tryStep := fun t dt y => (rk3Step rhs t dt y, 0), adaptive := false, rtol := 0, max_timestep := 0, mxstep := 0,
    rescale := fun t _ _ => t, growOnLast := false }

end Methods

/-! ## Euler with the CFL limiter -/

/-- euler.cxx:25-33 `EulerSolver::setMaxTimestep`; the pair is `timestep`, `timestep_reduced`. -/
def eulerSetMax (cfl : K) (s : K × Bool) (dt : K) : K × Bool :=
  if dt ≥ cfl * s.1 then s else (dt * (99/100) / cfl, true)

/-- The Euler solver.  `limits t y r` lists the calls of `setMaxTimestep` that the model makes on rank `r` while its
right-hand side is evaluated at time `t` and state `y`. -/
structure Euler (K σ : Type) (p : Nat) where
  step : K → K → σ → σ
  limits : K → σ → Fin p → List K
  cfl_factor : K
  mxstep : Nat

/-- euler.cxx:86-99: what rank `r` contributes to the reduction. -/
def newdtLocal (cfl old : K) (calls : List K) : K :=
  let s := calls.foldl (eulerSetMax cfl) (old, false)
  if s.2 then s.1 else 10 * old

/-- euler.cxx:93-99 `MPI_Allreduce(MPI_MIN)`. -/
def newdtGlobal {p : Nat} (cfl old : K) (calls : Fin (p + 1) → List K) : K :=
  (List.finRange p).foldl (fun a r => min a (newdtLocal cfl old (calls r.succ))) (newdtLocal cfl old (calls 0))

/-- euler.cxx:73-127: one internal step, as seen by rank `r` (its clock and its `timestep`). -/
def eulerAttempt {p : Nat} (m : Euler K σ (p + 1)) (r : Fin (p + 1)) (target : K) (s : St K σ) : Att K σ :=
  let c := chooseDt target s.simtime s.timestep
  let f1 := m.step s.simtime c.1 s.f0
  let newdt := newdtGlobal m.cfl_factor c.1 (m.limits s.simtime s.f0)
  if newdt < c.1 then
    -- the step is run again with the smaller time step, and may lower it further
    let f1 := m.step s.simtime newdt s.f0
    let ts := ((m.limits s.simtime s.f0 r).foldl (eulerSetMax m.cfl_factor) (newdt, true)).1
    let s' := { s with f0 := f1, simtime := s.simtime + ts, internal_steps := s.internal_steps + 1, timestep := ts }
    if s'.internal_steps > m.mxstep then .throw
    else .accept { s' with taken := s.taken ++ [(s'.simtime, ts, 0)] } true
  else
    let ts := ((m.limits s.simtime s.f0 r).foldl (eulerSetMax m.cfl_factor) (c.1, false)).1
    let s' := { s with f0 := f1, simtime := s.simtime + ts, internal_steps := s.internal_steps + 1 }
    if s'.internal_steps > m.mxstep then .throw
    else .accept { s' with taken := s.taken ++ [(s'.simtime, ts, 0)] } c.2

/-- euler.cxx:69-131: internal steps up to the next output. -/
def eulerOutput {p : Nat} (m : Euler K σ (p + 1)) (r : Fin (p + 1)) (target : K) : Nat → St K σ → Res (St K σ)
  | 0, _ => .outOfFuel
  | k + 1, s => match eulerAttempt m r target s with
    | .throw => .thrown
    | .retry s' => eulerOutput m r target k s'
    | .accept s' true => eulerOutput m r target k s'
    | .accept s' false => .done s'

end Verif.RK
