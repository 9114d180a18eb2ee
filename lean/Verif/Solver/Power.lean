import Mathlib.Analysis.SpecialFunctions.Pow.NNReal
import Mathlib.Analysis.SpecificLimits.Basic
import Mathlib.LinearAlgebra.Pi

/-!
# C88: the power-method eigenvalue solver

Model of `PowerSolver::run`, `norm` and `divide` (src/solver/impls/power/power.cxx:47-112), exact real arithmetic.

A state is a value for each evolving number of each processor.  "load_vars; run_rhs(curtime); save_derivs" is one function `F`
of the state (the moves are C25, the time is fixed).  A division by zero makes every later number not-a-number; that state is
`none`, and the right-hand side of a state that is not a number is taken to be not a number.  Left out: output, timers, the
exception of a failing `MPI_Allreduce`.
-/
namespace Verif.Power

/-- The evolving numbers: processor and position in its flat vector. -/
abbrev Ix {P : Nat} (n : Fin P → Nat) := Σ p : Fin P, Fin (n p)

/-- The state of all processors. -/
abbrev State {P : Nat} (n : Fin P → Nat) := Ix n → ℝ

variable {P : Nat} {n : Fin P → Nat}

/-- power.cxx:25-31: `MPI_Allreduce(&nlocal, &nglobal, MPI_SUM)`. -/
def nglobal (n : Fin P → Nat) : Nat := (List.finRange P).foldl (fun t p => t + n p) 0

/-- power.cxx:91-97: the loop of one processor and the division. -/
noncomputable def localTotal (f : State n) (p : Fin P) : ℝ :=
  ((List.finRange (n p)).foldl (fun total i => total + f ⟨p, i⟩ * f ⟨p, i⟩) 0) / (nglobal n : ℝ)

/-- power.cxx:90-103 `norm`: the sum over the processors and the root. -/
noncomputable def norm (f : State n) : ℝ :=
  Real.sqrt ((List.finRange P).foldl (fun t p => t + localTotal f p) 0)

/-- power.cxx:105-109 `divide`. -/
noncomputable def divide (f : State n) (value : ℝ) : Option (State n) :=
  if value = 0 then none else some (fun k => f k / value)

/-- power.cxx:57-64: one turn up to the monitors: the new eigenvalue estimate and state. -/
noncomputable def turn (F : State n → State n) : Option (State n) → Option ℝ × Option (State n)
  | none => (none, none)
  | some f => (some (norm (F f)), divide (F f) (norm (F f)))

/-- power.cxx:53-77: the loop; `quit` is the answer of the monitors to an estimate.  The result is the final state and the
estimates given to the monitors. -/
noncomputable def loop (F : State n → State n) (quit : Nat → Option ℝ → Bool) :
    Nat → Nat → Option (State n) → Option (State n) × List (Option ℝ)
  | 0, _, f => (f, [])
  | k + 1, s, f =>
    let r := turn F f
    if quit s r.1 then (r.2, [r.1])
    else
      let l := loop F quit k (s + 1) r.2
      (l.1, r.1 :: l.2)

/-- power.cxx:47-80 `run`: `nout` is `getNumberOutputSteps()`. -/
noncomputable def run (F : State n → State n) (quit : Nat → Option ℝ → Bool) (nout : Nat) (f0 : State n) :
    Option (State n) × List (Option ℝ) :=
  loop F quit nout 0 (divide f0 (norm f0))

end Verif.Power
