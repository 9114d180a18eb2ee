import Verif.Solver.RK

/-!
# C61: the IMEX-BDF multistep solver

`src/solver/impls/imex-bdf2/imex-bdf2.cxx`: coefficients, history, step control and run loop.

Simplifications: `BoutReal` is an ordered field; the vectors of all processors are one vector; "load_vars; run_convective(t); save_derivs" is a
function `F` of time and state; PETSc's nonlinear solve is a parameter that returns a vector or fails.  `std::vector`s of length `maxOrder` are
functions of the index together with explicit range checks where the code does none (`none` = undefined behaviour).
-/
namespace Verif.Imex
open Verif.RK (Rhs)

variable {K : Type} [Field K] [LinearOrder K] {n : Nat}

abbrev Vec (K : Type) (n : Nat) := Fin n → K

/-- `uFac`, `fFac`, `dtImp`. -/
structure Coeffs (K : Type) where
  u : Nat → K
  f : Nat → K
  dtImp : K

/-- imex-bdf2.cxx:1029-1092 `calculateCoeffs` before the scaling: `(uCurrFac, uFac, fFac)`; `none` = exception.  (Entries from `order` on are left
alone by the code and never read; 0 here.) -/
def rawCoeffs (order : Nat) (ts : Nat → K) : Option (K × (Nat → K) × (Nat → K)) :=
  match order with
  | 1 => some (1, (fun | 0 => 1 | _ => 0), (fun | 0 => ts 0 | _ => 0))
  | 2 =>
    let omega1 := ts 0 / ts 1
    some ((1 + 2 * omega1) / (1 + omega1),
      (fun | 0 => 1 + omega1 | 1 => -omega1 ^ 2 / (1 + omega1) | _ => 0),
      (fun | 0 => ts 0 * (1 + omega1) | 1 => -ts 0 * omega1 | _ => 0))
  | 3 =>
    let omega1 := ts 1 / ts 2
    let omega2 := ts 0 / ts 1
    some (1 + omega2 / (1 + omega2) + omega1 * omega2 / (1 + omega1 * (1 + omega2)),
      (fun | 0 => 1 + omega2 + omega1 * omega2 * (1 + omega2) / (1 + omega1)
           | 1 => -omega2 ^ 2 * (omega1 + 1 / (1 + omega2))
           | 2 => omega1 ^ 3 * omega2 ^ 2 * (1 + omega2) / ((1 + omega1) * (1 + omega1 + omega1 * omega2))
           | _ => 0),
      (fun | 0 => ts 0 * (1 + omega2) * (1 + omega1 * (1 + omega2)) / (1 + omega1)
           | 1 => -ts 0 * omega2 * (1 + omega1 * (1 + omega2))
           | 2 => ts 0 * omega1 ^ 2 * omega2 * (1 + omega2) / (1 + omega1)
           | _ => 0))
  | 4 =>
    let omega1 := ts 2 / ts 3
    let omega2 := ts 1 / ts 2
    let omega3 := ts 0 / ts 1
    let A1 := 1 + omega1 * (1 + omega2)
    let A2 := 1 + omega2 * (1 + omega3)
    let A3 := 1 + omega1 * A2
    some (1 + omega3 / (1 + omega3) + omega2 * omega3 / A2 + omega1 * omega2 * omega3 / A3,
      (fun | 0 => 1 + omega3 * (1 + omega2 * (1 + omega3) * (1 + omega1 * A2 / A1) / (1 + omega2))
           | 1 => -omega3 * (omega3 / (1 + omega3) + omega2 * omega3 * (A3 + omega1) / (1 + omega1))
           | 2 => omega2 ^ 3 * omega3 ^ 2 * (1 + omega3) * A3 / ((1 + omega2) * A2)
           | 3 => -((1 + omega3) / (1 + omega1)) * (A2 / A1) * omega1 ^ 4 * omega2 ^ 3 * omega3 ^ 2 / A3
           | _ => 0),
      (fun | 0 => ts 0 * (omega2 * (1 + omega3) / (1 + omega2)) * ((1 + omega3) * (A3 + omega1) + (1 + omega1) / omega2) / A1
           | 1 => -ts 0 * A2 * A3 * omega3 / (1 + omega1)
           | 2 => ts 0 * omega2 ^ 2 * omega3 * A3 * (1 + omega3) / (1 + omega2)
           | 3 => -ts 0 * omega1 ^ 3 * omega2 ^ 2 * omega3 * (A2 / A1) * (1 + omega3) / (1 + omega1)
           | _ => 0))
  | _ => none

/-- imex-bdf2.cxx:1094-1100: scaling by `uCurrFac`. -/
def calculateCoeffs (order : Nat) (ts : Nat → K) : Option (Coeffs K) :=
  (rawCoeffs order ts).map fun c => { u := fun j => c.2.1 j / c.1, f := fun j => c.2.2 j / c.1, dtImp := ts 0 / c.1 }

/-- Options and the parts outside the model. -/
structure Params (K : Type) (n : Nat) where
  maxOrder : Nat
  adaptive : Bool
  nadapt : Nat
  mxstep : Nat
  mxstepAdapt : Nat
  scaleCushUp : K
  scaleCushDown : K
  dtMax : K
  dtMin : K
  dtMinFatal : K
  predictor : Int
  /-- convective part -/
  F : Rhs K n
  /-- the nonlinear solve (initial guess, time, gamma, right-hand side); `none` = did not converge -/
  solve : Vec K n → K → K → Vec K n → Option (Vec K n)
  /-- imex-bdf2.cxx:893-935: `pow(adaptRtol / aRtol, 1/(order - 1))` from the low- and the high-order solution -/
  scale : Nat → Vec K n → Vec K n → K

/-- Members of the solver and local variables of `run`. -/
structure St (K : Type) (n : Nat) where
  simtime : K
  u : Vec K n
  uV : Nat → Vec K n
  fV : Nat → Vec K n
  timesteps : Nat → K
  coeffs : Coeffs K
  order : Nat
  lastOrder : Int
  lastTimesteps : Nat → K
  dtNext : K
  internalCounter : Nat

/-- imex-bdf2.cxx:1134-1162 `shuffleState`; `timesteps[1]` is read without a check. -/
def shuffle (p : Params K n) (s : St K n) : Option (St K n) :=
  if p.maxOrder < 2 then none
  else some { s with
    u := s.uV (p.maxOrder - 1)
    uV := fun j => if j = 0 then s.u else s.uV (j - 1)
    fV := fun j => if j = 0 then s.fV (p.maxOrder - 1) else s.fV (j - 1)
    timesteps := fun j => if j = 0 then s.timesteps 0 else s.timesteps (j - 1) }

/-- imex-bdf2.cxx:1183-1213: the initial guess; `uV[1]`, `uV[2]` are read without a check. -/
def guess (p : Params K n) (uV : Nat → Vec K n) (rhs : Vec K n) : Option (Vec K n) :=
  if p.predictor = 0 then some (uV 0)
  else if p.predictor = 1 then if 1 < p.maxOrder then some (fun i => 2 * uV 0 i - uV 1 i) else none
  else if p.predictor = 2 then if 2 < p.maxOrder then some (fun i => 3 * uV 0 i - 3 * uV 1 i + uV 2 i) else none
  else some rhs

/-- Result of a step: undefined behaviour, exception of the solver, or the new state. -/
inductive Stepped (K : Type) (n : Nat) where
  | ub
  | failed
  | ok (u : Vec K n)

/-- imex-bdf2.cxx:1115-1130: the right-hand side summed over the history. -/
def sumRhs (order : Nat) (uV fV : Nat → Vec K n) (c : Coeffs K) : Vec K n :=
  (List.range order).foldl (fun r j => fun i => r i + (uV j i * c.u j + fV j i * c.f j)) (fun _ => 0)

/-- imex-bdf2.cxx:1115-1130 `take_step` with `solve_implicit` (L1173-1265). -/
def takeStep (p : Params K n) (curtime : K) (order : Nat) (ts : Nat → K) (uV fV : Nat → Vec K n) (c : Coeffs K) : Stepped K n :=
  let rhs := sumRhs order uV fV c
  match guess p uV rhs with
  | none => .ub
  | some g =>
    match p.solve g (curtime + ts 0) c.dtImp rhs with
    | none => .failed
    | some u => .ok u

/-- What the loop over attempts carries. -/
structure Try (K : Type) where
  dtNext : K
  coeffs : Coeffs K
  adaptCounter : Nat
  failCounter : Nat

inductive Att (K : Type) (n : Nat) where
  | ub
  | throw
  | retry (a : Try K)
  /-- accepted: new state, time steps used, coefficients, next time step -/
  | accept (u : Vec K n) (ts : Nat → K) (c : Coeffs K) (dtNext : K)

/-- imex-bdf2.cxx:841-854, 876-889: after an exception of the solver. -/
def afterFailure (p : Params K n) (dt : K) (c : Coeffs K) (a : Try K) : Att K n :=
  if p.adaptive = false then .throw
  else if a.failCounter + 1 > 10 then .throw
  else .retry { dtNext := dt * (1/2), coeffs := c, adaptCounter := a.adaptCounter, failCounter := a.failCounter + 1 }

/-- imex-bdf2.cxx:797-806: limits of the time step. -/
def clampDt (p : Params K n) (dt : K) : K := if dt < p.dtMin then p.dtMin else if dt > p.dtMax then p.dtMax else dt

/-- imex-bdf2.cxx:866-968: the step of full order and the decision; `low` is the solution of lower order when the error is checked. -/
def highOrder (p : Params K n) (s : St K n) (a : Try K) (low : Option (Vec K n)) (c0 : Coeffs K) (ts : Nat → K) (dtNoLimit dt : K) (limited : Bool) : Att K n :=
  let c := if (s.order : Int) ≠ s.lastOrder ∨ (List.range p.maxOrder).any (fun j => s.lastTimesteps j ≠ ts j) = true ∨ low.isSome = true
    then calculateCoeffs s.order ts else some c0
  match c with
  | none => .throw
  | some c =>
    match takeStep p s.simtime s.order ts s.uV s.fV c with
    | .ub => .ub
    | .failed => afterFailure p dt c a
    | .ok u =>
      match low with
      | none => .accept u ts c (if limited then dtNoLimit else dt)
      | some e =>
        let sc := p.scale s.order e u
        let r : Bool × K :=
          if sc < p.scaleCushDown then (true, dt * sc)
          else if sc ≥ p.scaleCushUp ∧ a.adaptCounter = 0 ∧ a.failCounter = 0 then (false, dt * min sc (5/4))
          else (false, dt)
        if a.adaptCounter + 1 > p.mxstepAdapt then .throw
        else if r.1 then .retry { dtNext := r.2, coeffs := c, adaptCounter := a.adaptCounter + 1, failCounter := a.failCounter }
        else .accept u ts c r.2

/-- imex-bdf2.cxx:793-969: one pass of the loop `while (running)`. -/
def attempt (p : Params K n) (T cumulative : K) (checkingErr : Bool) (s : St K n) (a : Try K) : Att K n :=
  if a.dtNext < p.dtMinFatal then .throw
  else
    let dtNoLimit := clampDt p a.dtNext
    let limited : Bool := cumulative + dtNoLimit > T
    let dt := if limited then T - cumulative else dtNoLimit
    let ts := fun j => if j = 0 then dt else s.timesteps j
    if checkingErr then
      match calculateCoeffs (s.order - 1) ts with
      | none => .throw
      | some c0 =>
        match takeStep p s.simtime (s.order - 1) ts s.uV s.fV c0 with
        | .ub => .ub
        | .failed => afterFailure p dt c0 a
        | .ok e => highOrder p s a (some e) c0 ts dtNoLimit dt limited
    else highOrder p s a none a.coeffs ts dtNoLimit dt limited

inductive Res (α : Type) where
  | outOfFuel
  | ub
  | thrown
  | done (a : α)

/-- imex-bdf2.cxx:793-969: the loop over attempts. -/
def attempts (p : Params K n) (T cumulative : K) (checkingErr : Bool) (s : St K n) : Nat → Try K → Res (Vec K n × (Nat → K) × Coeffs K × K)
  | 0, _ => .outOfFuel
  | k + 1, a =>
    match attempt p T cumulative checkingErr s a with
    | .ub => .ub
    | .throw => .thrown
    | .retry a' => attempts p T cumulative checkingErr s k a'
    | .accept u ts c dtNext => .done (u, ts, c, dtNext)

/-- imex-bdf2.cxx:776-788: shuffle the history and evaluate the explicit part at the newest state. -/
def prepare (p : Params K n) (s0 : St K n) : Option (St K n) :=
  (shuffle p s0).map fun s1 => { s1 with fV := fun j => if j = 0 then p.F s1.simtime (s1.uV 0) else s1.fV j }

/-- imex-bdf2.cxx:971-987: after an accepted attempt. -/
def finish (p : Params K n) (s : St K n) (u : Vec K n) (ts : Nat → K) (c : Coeffs K) (dtNext : K) : St K n :=
  { s with
    u := u, timesteps := ts, coeffs := c, dtNext := dtNext, lastOrder := s.order, lastTimesteps := ts,
    order := if s.order < p.maxOrder then s.order + 1 else s.order,
    simtime := s.simtime + ts 0, internalCounter := s.internalCounter + 1 }

/-- imex-bdf2.cxx:773-996: one internal step. -/
def internalStep (p : Params K n) (T cumulative : K) (fuel : Nat) (s0 : St K n) : Res (St K n) :=
  match prepare p s0 with
  | none => .ub
  | some s =>
    let checkingErr : Bool := p.adaptive && decide (s.internalCounter % p.nadapt = 0) && decide (s.order > 1)
    match attempts p T cumulative checkingErr s fuel { dtNext := s.dtNext, coeffs := s.coeffs, adaptCounter := 0, failCounter := 0 } with
    | .outOfFuel => .outOfFuel
    | .ub => .ub
    | .thrown => .thrown
    | .done (u, ts, c, dtNext) => .done (finish p s u ts c dtNext)

/-- imex-bdf2.cxx:765-996: the internal steps up to an output. -/
def outputLoop (p : Params K n) (T : K) (innerFuel : Nat) : Nat → K → Nat → St K n → Res (St K n)
  | 0, _, _, _ => .outOfFuel
  | k + 1, cumulative, counter, s =>
    if cumulative < T then
      match internalStep p T cumulative innerFuel s with
      | .outOfFuel => .outOfFuel
      | .ub => .ub
      | .thrown => .thrown
      | .done s' =>
        if counter + 1 > p.mxstep then .thrown
        else outputLoop p T innerFuel k (cumulative + s'.timesteps 0) (counter + 1) s'
    else .done s

/-- imex-bdf2.cxx:751-1014 `run`. -/
def runLoop (p : Params K n) (T : K) (innerFuel fuel : Nat) (mon : Nat → K → Vec K n → Bool) :
    (todo i : Nat) → St K n → List (K × Vec K n) → Res (St K n × List (K × Vec K n))
  | 0, _, s, calls => .done (s, calls)
  | todo + 1, i, s, calls =>
    match outputLoop p T innerFuel fuel 0 0 s with
    | .outOfFuel => .outOfFuel
    | .ub => .ub
    | .thrown => .thrown
    | .done s' =>
      if mon i s'.simtime s'.u then .done (s', calls ++ [(s'.simtime, s'.u)])
      else runLoop p T innerFuel fuel mon todo (i + 1) s' (calls ++ [(s'.simtime, s'.u)])

/-- imex-bdf2.cxx:139-221, 751-763: the state at the start of `run`. -/
def start (timestep t0 : K) (u0 : Vec K n) : St K n where
  simtime := t0
  u := u0
  uV := fun _ => u0
  fV := fun _ _ => 0
  timesteps := fun _ => timestep
  coeffs := { u := fun _ => 0, f := fun _ => 0, dtImp := 0 }
  order := 1
  lastOrder := -1
  lastTimesteps := fun _ => timestep
  dtNext := timestep
  internalCounter := 0

end Verif.Imex
