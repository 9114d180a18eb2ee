import Verif.Solver.Run

/-!
# C60: the split Runge-Kutta-Legendre / SSP-RK3 solver

`src/solver/impls/split-rk/split-rk.cxx`.

Simplifications as in C26: `BoutReal` is an ordered field, the vectors of all processors are one vector, "load_vars; run_diffusive(t);
save_derivs" is a function of time and state.  Rounding of the times is kept as a parameter `rd`, applied to every sum and difference of
times, because one of the findings is about it (`rd = id` is exact arithmetic).
-/
namespace Verif.SplitRK
open Verif.RK (Rhs)

variable {K : Type} [Field K] [LinearOrder K] {n : Nat}

/-- split-rk.cxx:244 `b_j`. -/
def bj (j : Nat) : K := ((j : K) * j + j - 2) / (2 * j * (j + 1))

/-- The arrays and coefficients in the loop over stages. -/
structure Stage (K : Type) (n : Nat) where
  u1 : Fin n → K
  u2 : Fin n → K
  u3 : Fin n → K
  b_jm1 : K
  b_jm2 : K

/-- split-rk.cxx:242-270: one pass of the loop over stages; the two swaps move `u3` to `u1`, `u1` to `u2`, `u2` to `u3`. -/
def stage (D : Rhs K n) (curtime weight : K) (start dydt : Fin n → K) (s : Stage K n) (j : Nat) : Stage K n :=
  let b : K := bj j
  let mu := (2 * j - 1) / j * b / s.b_jm1
  let nu := -(j - 1) / j * b / s.b_jm2
  let a := 1 - s.b_jm1
  let f := D curtime s.u1
  let u3 := fun i => mu * (s.u1 i + weight * (f i - a * dydt i)) + nu * s.u2 i + (1 - mu - nu) * start i
  -- swap(u1, u2); swap(u1, u3)
  { u1 := u3, u2 := s.u1, u3 := s.u2, b_jm1 := b, b_jm2 := s.b_jm1 }

/-- split-rk.cxx:211-273 `take_diffusion_step`. -/
def diffusionStep (nstages : Nat) (D : Rhs K n) (curtime dt : K) (start : Fin n → K) : Fin n → K :=
  let weight := dt * 4 / ((nstages : K) * nstages + nstages - 2)
  let dydt := D curtime start
  let u2 := fun i => start i + weight / 3 * dydt i
  let u3 := D (curtime + weight / 3 * dt) u2
  let u1 := fun i => 3/2 * (u2 i + weight * u3 i) - 1/2 * start i - weight * dydt i
  let s := ((List.range (nstages - 2)).map (· + 3)).foldl (stage D curtime weight start dydt)
    { u1 := u1, u2 := u2, u3 := u3, b_jm1 := 1/3, b_jm2 := 1/3 }
  s.u1

/-- split-rk.cxx:275-305 `take_advection_step`. -/
def advectionStep (C : Rhs K n) (curtime dt : K) (start : Fin n → K) : Fin n → K :=
  let dydt := C curtime start
  let u1 := fun i => start i + dt * dydt i
  let dydt := C (curtime + dt) u1
  let u2 := fun i => 3/4 * start i + 1/4 * u1 i + 1/4 * dt * dydt i
  let dydt := C (curtime + 1/2 * dt) u2
  fun i => 1/3 * start i + 2/3 * (u2 i + dt * dydt i)

/-- split-rk.cxx:199-209 `take_step`. -/
def takeStep (nstages : Nat) (D C : Rhs K n) (curtime dt : K) (start : Fin n → K) : Fin n → K :=
  let r := diffusionStep nstages D curtime (1/2 * dt) start
  let r := advectionStep C curtime dt r
  diffusionStep nstages D (curtime + 1/2 * dt) (1/2 * dt) r

/-- Options, and what the run loop needs of the scheme. -/
structure Params (K σ : Type) where
  adaptive : Bool
  adapt_period : Nat
  mxstep : Nat
  rtol : K
  /-- split-rk.cxx:138-158: the new time step from the old one and the error (factor limited, cut to `max_timestep`) -/
  adapt : K → K → K
  /-- `take_step` -/
  step : K → K → σ → σ
  /-- split-rk.cxx:117-130: the error from the result of the full step and of the half steps -/
  errorOf : σ → σ → K
  /-- rounding of times -/
  rd : K → K

/-- A step recorded: time and state before it, the advance of the time, the step size given to the scheme. -/
structure Taken (K σ : Type) where
  t : K
  y : σ
  dt : K
  h : K

/-- State of the run. -/
structure St (K σ : Type) where
  simtime : K
  timestep : K
  state : σ
  internal_steps : Nat
  /-- newest first -/
  taken : List (Taken K σ)

variable {σ : Type}

/-- split-rk.cxx:101-106, 173-178. -/
def chooseDt (p : Params K σ) (target simtime timestep : K) : K × Bool :=
  if p.rd (simtime + timestep) ≥ target then (p.rd (target - simtime), false) else (timestep, true)

inductive Att (K σ : Type) where
  | throw
  | retry (s : St K σ)
  | accept (s : St K σ) (running : Bool)

/-- split-rk.cxx:97-168: one pass of the inner loop. -/
def adaptiveTry (p : Params K σ) (target : K) (s : St K σ) : Att K σ :=
  let c := chooseDt p target s.simtime s.timestep
  let state1 := p.step s.simtime (1/2 * c.1) s.state
  let state2 := p.step (p.rd (s.simtime + 1/2 * c.1)) (1/2 * c.1) state1
  let state1 := p.step s.simtime c.1 s.state
  let err := p.errorOf state1 state2
  if s.internal_steps + 1 > p.mxstep then .throw
  else
    let ts := if err > p.rtol ∨ err < 1/10 * p.rtol then p.adapt s.timestep err else s.timestep
    if err < p.rtol then
      .accept { simtime := p.rd (s.simtime + c.1), timestep := ts, state := state2, internal_steps := s.internal_steps + 1,
                taken := ⟨s.simtime, s.state, c.1, c.1⟩ :: s.taken } c.2
    else .retry { s with timestep := ts, internal_steps := s.internal_steps + 1 }

/-- split-rk.cxx:170-182: no adaptation; `take_step` is given `timestep`, not `dt`. -/
def fixedStep (p : Params K σ) (target : K) (s : St K σ) : St K σ × Bool :=
  let c := chooseDt p target s.simtime s.timestep
  ({ simtime := p.rd (s.simtime + c.1), timestep := s.timestep, state := p.step s.simtime s.timestep s.state,
     internal_steps := s.internal_steps + 1, taken := ⟨s.simtime, s.state, c.1, s.timestep⟩ :: s.taken }, c.2)

inductive Res (α : Type) where
  | outOfFuel
  | thrown
  | done (a : α)

/-- split-rk.cxx:93-187: steps up to the next output; `inner`: inside the loop L97-168 (a retry). -/
def outputLoop (p : Params K σ) (target : K) : Nat → Bool → St K σ → Res (St K σ)
  | 0, _, _ => .outOfFuel
  | k + 1, inner, s =>
    if inner = true ∨ (p.adaptive = true ∧ s.internal_steps % p.adapt_period = 0) then
      match adaptiveTry p target s with
      | .throw => .thrown
      | .retry s' => outputLoop p target k true s'
      | .accept s' true => outputLoop p target k false s'
      | .accept s' false => .done s'
    else
      match fixedStep p target s with
      | (s', true) => outputLoop p target k false s'
      | (s', false) => .done s'

/-- split-rk.cxx:70-76: in `init` the time step is rounded down to divide the output interval. -/
def initTimestep (ceilDiv : K → K → Nat) (T timestep : K) : K := T / (ceilDiv T timestep : K)

/-- split-rk.cxx:81-197 `run`. -/
def runLoop (p : Params K σ) (T : K) (fuel : Nat) (mon : Nat → K → σ → Bool) :
    (todo i : Nat) → St K σ → List (K × σ) → Res (St K σ × List (K × σ))
  | 0, _, s, calls => .done (s, calls)
  | todo + 1, i, s, calls =>
    match outputLoop p (p.rd (s.simtime + T)) fuel false { s with internal_steps := 0 } with
    | .outOfFuel => .outOfFuel
    | .thrown => .thrown
    | .done s' =>
      if mon i s'.simtime s'.state then .done (s', calls ++ [(s'.simtime, s'.state)])
      else runLoop p T fuel mon todo (i + 1) s' (calls ++ [(s'.simtime, s'.state)])

end Verif.SplitRK
