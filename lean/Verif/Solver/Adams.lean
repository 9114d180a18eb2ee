import Verif.Solver.Run

/-!
# C59: the Adams-Bashforth solver

`src/solver/impls/adams_bashforth/adams_bashforth.cxx`.

Simplifications: `BoutReal` is an ordered field; the state vectors of all processors are one vector `Fin n → K`, so that the local maximum
and `MPI_Allreduce(MPI_MAX)` are one maximum; "load_vars; run_rhs(t); save_derivs" is one function of time and state; the value
`exp(-log(err/tol)/order)` of `get_timestep_limit` is a parameter `lim err order`, `none` standing for infinity (err = 0); passes of the
loops are counted by `fuel`.
-/
namespace Verif.AB
open Verif.RK (Rhs Res)

variable {K : Type} [Field K] [LinearOrder K] [IsStrictOrderedRing K] {n : Nat}

/-- adams_bashforth.cxx:15-26 `lagrange_at_position_denominator`. -/
def denominator (grid : Nat → K) (position order : Nat) : K :=
  (List.range order).foldl (fun r i => r / (if i ≠ position then grid position - grid i else 1)) 1

/-- adams_bashforth.cxx:28-38 `lagrange_at_position_numerator`. -/
def numerator (x : K) (grid : Nat → K) (position order : Nat) : K :=
  (List.range order).foldl (fun r i => r * (if i ≠ position then x - grid i else 1)) 1

/-- adams_bashforth.cxx:40-52 `lagrange_interpolate`, with `N` the length of `facs`. -/
def interpolate (start stop : K) (points : Nat → K) (position : Nat) (facs : List ℚ) : K :=
  let stepSize := (stop - start) / ((facs.length : K) - 1)
  let result := (List.range facs.length).foldl
    (fun r i => r + (facs.getD i 0 : K) * numerator (start + i * stepSize) points position (facs.length - 1)) 0
  stepSize * result * denominator points position (facs.length - 1)

/-- adams_bashforth.cxx:55-148: the tables of `integrate_lagrange_curve_nc2` to `nc9`; adams_bashforth.cxx:151-176: the choice. -/
def ncFacs : Nat → List ℚ
  | 1 => [1, 1].map (· * (1/2))
  | 2 => [1, 4, 1].map (· * (1/3))
  | 3 => [1, 3, 3, 1].map (· * (3/8))
  | 4 => [7, 32, 12, 32, 7].map (· * (2/45))
  | 5 => [19, 75, 50, 50, 75, 19].map (· * (5/288))
  | 6 => [41, 216, 27, 272, 27, 216, 41].map (· * (1/140))
  | 7 => [751, 3577, 1323, 2989, 2989, 1323, 3577, 751].map (· * (7/17280))
  | _ => [989, 5888, -928, 10496, -4540, 10496, -928, 5888, 989].map (· * (4/14175))

/-- adams_bashforth.cxx:179-194 `get_adams_bashforth_coefficients`: the `i`-th of them. -/
def coefficient (nextPoint : K) (points : Nat → K) (order i : Nat) : K :=
  interpolate (points 0) nextPoint points i (ncFacs order)

/-- The elements of the deque. -/
def pts (times : List K) (i : Nat) : K := times.getD i 0

/-- The arrays of the deque. -/
def hist (history : List (Fin n → K)) (i : Nat) : Fin n → K := history.getD i 0

/-- adams_bashforth.cxx:196-210 `AB_integrate_update`; `none` is the failed assertion L183. -/
def integrateUpdate (update : Fin n → K) (timestep : K) (times : List K) (history : List (Fin n → K)) (order : Nat) :
    Option (Fin n → K) :=
  if order ≤ times.length then
    some ((List.range order).foldl (fun u j => fun i => u i + hist history j i * coefficient timestep (pts times) order j) update)
  else none

/-- adams_bashforth.cxx:212-223 `AB_integrate`. -/
def integrate (timestep : K) (times : List K) (history : List (Fin n → K)) (order : Nat) : Option (Fin n → K) :=
  integrateUpdate 0 timestep times history order

/-- adams_bashforth.cxx:236-257 `get_error`. -/
def getError (a b : Fin n → K) : K := (List.finRange n).foldl (fun m i => max |b i - a i| m) 0

/-- Options of the solver, adams_bashforth.cxx:260-292. -/
structure Params (K : Type) where
  adaptive : Bool
  adaptive_order : Bool
  followHighOrder : Bool
  maximum_order : Nat
  max_timestep : K
  rtol : K
  mxstep : Nat
  /-- `get_timestep_limit(err, rtol, order)`, L229-234 -/
  lim : K → Nat → Option K

/-- A step taken: the time and state it started from, its size, the order used and the error estimate (recorded for the theorems). -/
structure Taken (K : Type) (n : Nat) where
  t : K
  y : Fin n → K
  dt : K
  order : Nat
  err : K

/-- The solver's state.  `taken` is the newest step first. -/
structure St (K : Type) (n : Nat) where
  simtime : K
  timestep : K
  times : List K
  history : List (Fin n → K)
  state : Fin n → K
  nextState : Fin n → K
  /-- the time derivatives of the fields, as left by the last `run_rhs` -/
  derivs : Fin n → K
  current_order : Nat
  internal_steps : Nat
  taken : List (Taken K n)

/-- adams_bashforth.cxx:563-653 `take_step`: the new value of `result`, the error and the time derivatives left behind. -/
def takeStep (p : Params K) (rhs : Rhs K n) (s : St K n) (timeIn dt : K) (order : Nat) : Option ((Fin n → K) × K × (Fin n → K)) := do
  let full ← integrate (timeIn + dt) s.times s.history order
  if p.adaptive then
    let half ← integrate (timeIn + dt * (1/2)) s.times s.history order
    let derivs := if order = s.current_order then rhs (timeIn + 1/2 * dt) (fun i => s.state i + half i) else s.derivs
    let half2 ← integrateUpdate half (timeIn + dt) ((timeIn + dt * (1/2)) :: s.times) (derivs :: s.history) order
    let result := if p.followHighOrder then fun i => s.state i + half2 i else fun i => s.state i + full i
    return (result, getError full half2, derivs)
  else
    return (fun i => s.state i + full i, 0, s.derivs)

/-- `lower_dt_lim > dt_lim` with infinity. -/
def limGt : Option K → Option K → Bool
  | _, none => false
  | none, some _ => true
  | some a, some b => decide (b < a)

/-- What a pass of `while (true)` does. -/
inductive Att (K : Type) (n : Nat) where
  | assertion
  | mxstep
  | retry (s : St K n)
  | accept (s : St K n) (dt err : K) (order : Nat) (running useLower : Bool)

/-- adams_bashforth.cxx:395-507: one pass of the inner loop; the time step after a failure with an infinite limit is cut to `max_timestep`
in the next pass, so it is given that value here. -/
def attempt (p : Params K) (rhs : Rhs K n) (target : K) (s0 : St K n) : Att K n :=
  let s := { s0 with timestep := min s0.timestep p.max_timestep }
  let c := Verif.RK.chooseDt target s.simtime s.timestep
  match takeStep p rhs s s.simtime c.1 s.current_order with
  | none => .assertion
  | some (next, err, derivs) =>
    let s := { s with nextState := next, derivs := derivs }
    if p.adaptive = false then .accept s c.1 err s.current_order c.2 false
    else
      let s := { s with internal_steps := s.internal_steps + 1 }
      if s.internal_steps > p.mxstep then .mxstep
      else
        let dt_lim := (p.lim err s.current_order).map (c.1 * ·)
        if err < p.rtol then
          if p.adaptive_order = true ∧ s.current_order > 1 then
            match takeStep p rhs s s.simtime c.1 (s.current_order - 1) with
            | none => .assertion
            | some (lowerNext, lowerErr, derivs) =>
              let lower_dt_lim := (p.lim lowerErr (s.current_order - 1)).map (c.1 * ·)
              if limGt lower_dt_lim dt_lim then
                .accept { s with derivs := derivs, nextState := lowerNext, current_order := s.current_order - 1,
                                 timestep := match lower_dt_lim with | none => s.timestep * (11/10) | some l => min (s.timestep * (11/10)) l }
                  c.1 lowerErr (s.current_order - 1) c.2 true
              else
                .accept { s with derivs := derivs,
                                 timestep := match dt_lim with | none => s.timestep * (11/10) | some l => min (s.timestep * (11/10)) l }
                  c.1 err s.current_order c.2 false
          else
            .accept { s with timestep := match dt_lim with | none => s.timestep * (11/10) | some l => min (s.timestep * (11/10)) l }
              c.1 err s.current_order c.2 false
        else
          .retry { s with timestep := match dt_lim with | none => p.max_timestep | some l => 9/10 * l }

/-- adams_bashforth.cxx:380-386: the start of a pass of `while (running)`. -/
def push (rhs : Rhs K n) (s : St K n) : St K n :=
  let d := rhs s.simtime s.state
  { s with derivs := d, history := d :: s.history, times := s.simtime :: s.times }

/-- adams_bashforth.cxx:510-535: a step has been accepted. -/
def finishStep (p : Params K) (s : St K n) (dt err : K) (order : Nat) (useLower : Bool) : St K n :=
  { s with
    times := if s.times.length = p.maximum_order then s.times.dropLast else s.times
    history := if s.history.length = p.maximum_order then s.history.dropLast else s.history
    current_order := if s.current_order < p.maximum_order ∧ useLower = false then s.current_order + 1 else s.current_order
    simtime := s.simtime + dt
    state := s.nextState
    nextState := s.state
    taken := ⟨s.simtime, s.state, dt, order, err⟩ :: s.taken }

/-- Outcome of a loop. -/
inductive Out (α : Type) where
  | outOfFuel
  | assertion
  | mxstep
  | done (a : α)

/-- adams_bashforth.cxx:376-537: internal steps up to the next output.  `fresh` tells that a pass of `while (running)` begins. -/
def outputLoop (p : Params K) (rhs : Rhs K n) (target : K) : Nat → Bool → St K n → Out (St K n)
  | 0, _, _ => .outOfFuel
  | k + 1, fresh, s =>
    match attempt p rhs target (if fresh then push rhs s else s) with
    | .assertion => .assertion
    | .mxstep => .mxstep
    | .retry s' => outputLoop p rhs target k false s'
    | .accept s' dt err order true low => outputLoop p rhs target k true (finishStep p s' dt err order low)
    | .accept s' dt err order false low => .done (finishStep p s' dt err order low)

/-- adams_bashforth.cxx:362-560 `run`, with `todo` outputs to go, `T` the output interval; `mon` tells that a monitor stops the run; the
calls of the monitors are recorded. -/
def runLoop (p : Params K) (rhs : Rhs K n) (T : K) (fuel : Nat) (mon : Nat → K → (Fin n → K) → Bool) :
    (todo i : Nat) → St K n → List (K × (Fin n → K)) → Out (St K n × List (K × (Fin n → K)))
  | 0, _, s, calls => .done (s, calls)
  | todo + 1, i, s, calls =>
    match outputLoop p rhs (s.simtime + T) fuel true { s with internal_steps := 0 } with
    | .outOfFuel => .outOfFuel
    | .assertion => .assertion
    | .mxstep => .mxstep
    | .done s' =>
      let s' := { s' with derivs := rhs s'.simtime s'.state }
      if mon i s'.simtime s'.state then .done (s', calls ++ [(s'.simtime, s'.state)])
      else runLoop p rhs T fuel mon todo (i + 1) s' (calls ++ [(s'.simtime, s'.state)])

/-- adams_bashforth.cxx:305-343 `init` and L347-360 `resetInternalFields`: no history, order 1. -/
def init (t : K) (y : Fin n → K) (timestep : K) : St K n :=
  { simtime := t, timestep := timestep, times := [], history := [], state := y, nextState := 0, derivs := 0, current_order := 1,
    internal_steps := 0, taken := [] }

end Verif.AB
