import Mathlib.Algebra.Order.Field.Basic
import Mathlib.Algebra.BigOperators.Group.Finset.Basic
import Mathlib.Algebra.BigOperators.Fin
import Mathlib.Data.Rat.Cast.CharZero
import Mathlib.Algebra.Order.Ring.Abs

/-!
# C26, C27: one time step of the Runge-Kutta solvers

`src/solver/impls/rk4/rk4.cxx`, `rk3-ssp/rk3-ssp.cxx`, `euler/euler.cxx`, `rkgeneric/` and its schemes.

Simplifications: `BoutReal` is an ordered field `K`; the state vectors of all processors are one vector `Fin n → K`
(the elementwise loops and the `MPI_Allreduce` sum over it); "load_vars; run_rhs(t); save_derivs" is one function
`rhs : K → (Fin n → K) → (Fin n → K)` of time and state (C25 is about those three calls).
-/
namespace Verif.RK

variable {K : Type} [Field K] [LinearOrder K] [IsStrictOrderedRing K] {n : Nat}

/-- The right-hand side of the model as the solver sees it. -/
abbrev Rhs (K : Type) (n : Nat) := K → (Fin n → K) → (Fin n → K)

/-- rk4.cxx:178-216 `RK4Solver::take_step`; the work array `k5` is reused for every stage. -/
def rk4Step (rhs : Rhs K n) (curtime dt : K) (start : Fin n → K) : Fin n → K :=
  let k1 := rhs curtime start
  let k5 := fun i => start i + 1/2 * dt * k1 i
  let k2 := rhs (curtime + 1/2 * dt) k5
  let k5 := fun i => start i + 1/2 * dt * k2 i
  let k3 := rhs (curtime + 1/2 * dt) k5
  let k5 := fun i => start i + dt * k3 i
  let k4 := rhs (curtime + dt) k5
  fun i => start i + 1/6 * dt * (k1 i + 2 * k2 i + 2 * k3 i + k4 i)

/-- rk3-ssp.cxx:104-134 `RK3SSP::take_step`. -/
def rk3Step (rhs : Rhs K n) (curtime dt : K) (start : Fin n → K) : Fin n → K :=
  let l := rhs curtime start
  let u1 := fun i => start i + dt * l i
  let l := rhs (curtime + dt) u1
  let u2 := fun i => 3/4 * start i + 1/4 * u1 i + 1/4 * dt * l i
  let l := rhs (curtime + 1/2 * dt) u2
  fun i => 1/3 * start i + 2/3 * (u2 i + dt * l i)

/-- euler.cxx:140-151 `EulerSolver::take_step`. -/
def eulerStep (rhs : Rhs K n) (curtime dt : K) (start : Fin n → K) : Fin n → K :=
  let result := rhs curtime start
  fun i => start i + dt * result i

/-! ## The generic scheme -/

/-- include/bout/rkscheme.hxx: the coefficients of a scheme. -/
structure Scheme where
  numStages : Nat
  order : Nat
  stageCoeffs : Nat → Nat → ℚ
  resultCoeffs : Nat → Nat → ℚ
  timeCoeffs : Nat → ℚ

/-- A table given row by row, zero elsewhere (the constructors zero the arrays first). -/
def table (rows : List (List ℚ)) (i j : Nat) : ℚ := ((rows.getD i []).getD j 0)
/-- A row of coefficients. -/
def row (r : List ℚ) (i : Nat) : ℚ := r.getD i 0

/-- rkscheme.cxx:52-55 `setCurTime`. -/
def setCurTime (T : Scheme) (timeIn dt : K) (curStage : Nat) : K := timeIn + dt * (T.timeCoeffs curStage : K)

/-- rkscheme.cxx:58-85 `setCurState`. -/
def setCurState (T : Scheme) (atol : K) (steps : Nat → Fin n → K) (start : Fin n → K) (curStage : Nat) (dt : K) : Fin n → K :=
  if curStage = 0 then start
  else (List.range curStage).foldl (fun out j =>
    if |(T.stageCoeffs curStage j : K)| < atol then out
    else
      let fac := (T.stageCoeffs curStage j : K) * dt
      fun i => out i + fac * steps j i) start

/-- rkscheme.cxx:166-185 `constructOutput`. -/
def constructOutput (T : Scheme) (steps : Nat → Fin n → K) (start : Fin n → K) (dt : K) (index : Nat) : Fin n → K :=
  (List.range T.numStages).foldl (fun sol curStage =>
    if (T.resultCoeffs curStage index : K) = 0 then sol
    else
      let fac := dt * (T.resultCoeffs curStage index : K)
      fun i => sol i + fac * steps curStage i) start

/-- rkscheme.cxx:135-164 `getErr` (adaptive) and rk4.cxx:106-122: the relative difference averaged over all unknowns. -/
def errOf (atol : K) (neq : Nat) (a b : Fin n → K) : K :=
  (∑ i, |a i - b i| / (|a i| + |b i| + atol)) / (neq : K)

/-- rkscheme.cxx:87-124 `setOutputStates`: the state followed and the error. -/
def setOutputStates (T : Scheme) (followHighOrder adaptive : Bool) (atol : K) (neq : Nat) (steps : Nat → Fin n → K)
    (start : Fin n → K) (dt : K) : (Fin n → K) × K :=
  let followInd := if followHighOrder then 0 else 1
  let altInd := if followHighOrder then 1 else 0
  let resultFollow := constructOutput T steps start dt followInd
  if adaptive then
    let resultAlt := constructOutput T steps start dt altInd
    (resultFollow, errOf atol neq resultFollow resultAlt)
  else (resultFollow, 0)

/-- rkgeneric.cxx:176-186: the stage loop; `steps` is the scheme's storage. -/
def stages (T : Scheme) (rhs : Rhs K n) (atol timeIn dt : K) (start : Fin n → K) (steps0 : Nat → Fin n → K) : Nat → Fin n → K :=
  (List.range T.numStages).foldl (fun steps curStage =>
    let curTime := setCurTime T timeIn dt curStage
    let tmpState := setCurState T atol steps start curStage dt
    Function.update steps curStage (rhs curTime tmpState)) steps0

/-- rkgeneric.cxx:171-189 `RKGenericSolver::take_step`, for a scheme that does not override `setOutputStates`. -/
def genericStep (T : Scheme) (followHighOrder adaptive : Bool) (atol : K) (neq : Nat) (rhs : Rhs K n) (timeIn dt : K)
    (start : Fin n → K) (steps0 : Nat → Fin n → K) : (Fin n → K) × K :=
  setOutputStates T followHighOrder adaptive atol neq (stages T rhs atol timeIn dt start steps0) start dt

/-- rkf45.cxx:3-89. -/
def rkf45 : Scheme where
  numStages := 6
  order := 4
  stageCoeffs := table [
    [0],
    [1/4],
    [3/32, 9/32],
    [1932/2197, -7200/2197, 7296/2197],
    [439/216, -8, 3680/513, -845/4104],
    [-8/27, 2, -3544/2565, 1859/4104, -11/40]]
  resultCoeffs := table [
    [16/135, 25/216],
    [0, 0],
    [6656/12825, 1408/2565],
    [28561/56430, 2197/4104],
    [-9/50, -1/5],
    [2/55, 0]]
  timeCoeffs := row [0, 1/4, 3/8, 12/13, 1, 1/2]

/-- cashkarp.cxx:3-89. -/
def cashkarp : Scheme where
  numStages := 6
  order := 4
  stageCoeffs := table [
    [0],
    [1/5],
    [3/40, 9/40],
    [3/10, -9/10, 6/5],
    [-11/54, 5/2, -70/27, 35/27],
    [1631/55296, 175/512, 575/13824, 44275/110592, 253/4096]]
  resultCoeffs := table [
    [37/378, 2825/27648],
    [0, 0],
    [250/621, 18575/48384],
    [125/594, 13525/55296],
    [0, 277/14336],
    [512/1771, 1/4]]
  timeCoeffs := row [0, 1/5, 3/10, 3/5, 1, 7/8]

/-- rkf34.cxx:3-84. -/
def rkf34 : Scheme where
  numStages := 5
  order := 3
  stageCoeffs := table [
    [0],
    [1/4],
    [4/81, 32/81],
    [57/98, -432/343, 1053/686],
    [1/6, 0, 27/52, 49/156]]
  resultCoeffs := table [
    [43/288, 1/6],
    [0, 0],
    [243/416, 27/52],
    [343/1872, 49/156],
    [1/12, 0]]
  timeCoeffs := row [0, 1/4, 4/9, 6/7, 1]

/-- rk4simple.cxx:3-109. -/
def rk4simple : Scheme where
  numStages := 11
  order := 4
  stageCoeffs := table [
    [0],
    [1/2],
    [0, 1/2],
    [0, 0, 1],
    [1/4],
    [0, 0, 0, 0, 1/4],
    [0, 0, 0, 0, 0, 1/2],
    [1/12, 0, 0, 0, 1/6, 1/6, 1/12],
    [1/12, 0, 0, 0, 1/6, 1/6, 1/12, 1/4],
    [1/12, 0, 0, 0, 1/6, 1/6, 1/12, 0, 1/4],
    [1/12, 0, 0, 0, 1/6, 1/6, 1/12, 0, 0, 1/2]]
  resultCoeffs := table [
    [1/12, 1/6],
    [0, 1/3],
    [0, 1/3],
    [0, 1/6],
    [1/6, 0],
    [1/6, 0],
    [1/12, 0],
    [1/12, 0],
    [1/6, 0],
    [1/6, 0],
    [1/12, 0]]
  timeCoeffs := row [0, 1/2, 1/2, 1, 1/4, 1/4, 1/2, 1/2 + 0, 1/2 + 1/4, 1/2 + 1/4, 1/2 + 1/2]

/-- rk4simple.cxx:111-169 `RK4SIMPLEScheme::setOutputStates`. -/
def rk4simpleOutput (followHighOrder adaptive : Bool) (atol : K) (neq : Nat) (steps : Nat → Fin n → K) (start : Fin n → K)
    (dt : K) : (Fin n → K) × K :=
  let r : Nat → Nat → K := fun i j => (rk4simple.resultCoeffs i j : K)
  if followHighOrder then
    let resultAlt := fun i => start i + dt * (r 0 1 * steps 0 i + r 1 1 * steps 1 i + r 2 1 * steps 2 i + r 3 1 * steps 3 i)
    let resultFollow := fun i => start i + dt * (r 0 0 * steps 0 i + r 4 0 * steps 4 i + r 5 0 * steps 5 i + r 6 0 * steps 6 i)
    let resultFollow := fun i =>
      resultFollow i + dt * (r 7 0 * steps 7 i + r 8 0 * steps 8 i + r 9 0 * steps 9 i + r 10 0 * steps 10 i)
    (resultFollow, if adaptive then errOf atol neq resultFollow resultAlt else 0)
  else
    let resultFollow := fun i => start i + dt * (r 0 1 * steps 0 i + r 1 1 * steps 1 i + r 2 1 * steps 2 i + r 3 1 * steps 3 i)
    let resultAlt := fun i => start i + dt * (r 0 0 * steps 0 i + r 4 0 * steps 4 i + r 5 0 * steps 5 i + r 6 0 * steps 6 i)
    let resultAlt := fun i =>
      resultAlt i + dt * (r 7 0 * steps 7 i + r 8 0 * steps 8 i + r 9 0 * steps 9 i + r 10 0 * steps 10 i)
    (resultFollow, if adaptive then errOf atol neq resultFollow resultAlt else 0)

/-- rkgeneric.cxx:171-189 with the rk4simple scheme. -/
def rk4simpleStep (followHighOrder adaptive : Bool) (atol : K) (neq : Nat) (rhs : Rhs K n) (timeIn dt : K)
    (start : Fin n → K) (steps0 : Nat → Fin n → K) : (Fin n → K) × K :=
  rk4simpleOutput followHighOrder adaptive atol neq (stages rk4simple rhs atol timeIn dt start steps0) start dt

end Verif.RK
