import Mathlib.Analysis.SpecialFunctions.Complex.LogDeriv
import Mathlib.Analysis.SpecialFunctions.Complex.Log
import Mathlib.LinearAlgebra.Eigenspace.Triangularizable
import Mathlib.Analysis.Complex.Polynomial.Basic
import Mathlib.Tactic.FieldSimp
import Mathlib.Tactic.LinearCombination
import Mathlib.Data.List.Chain

/-!
# C89: the SLEPc eigenvalue solver: what is solved and what is reported

Model of `SlepcSolver::init` (the number of output steps), `advanceStep`, `compareEigs`, `monitor`, `slepcToBout`,
`boutToSlepc`, `analyseResults` and the default target of the constructor (src/solver/impls/slepc/slepc.cxx:148-762).

SLEPc itself is not modelled: it is any procedure that returns eigenvalues and eigenvectors of the operator it is given.  The
model equations are linear and the fields complex (real part and imaginary part are the two vectors that SLEPc returns for an
eigenvalue); arithmetic is exact.  Left out: reports, the shell spectral transformation's set-up, the moves between vectors and
fields (C25).
-/
namespace Verif.Slepc

open Complex

/-- The options that matter: `ddtMode`, `selfSolve` and the two numbers of the output times. -/
structure Cfg where
  ddtMode : Bool
  selfSolve : Bool
  /-- `getOutputTimestep()` -/
  dt : ℝ
  /-- `getNumberOutputSteps()` as read from the options -/
  nout : Nat
  /-- `stIsShell` -/
  shell : Bool

/-- slepc.cxx:213-220 (the constructor): without an advance solver `selfSolve` is set. -/
def Cfg.self (C : Cfg) : Bool := C.ddtMode || C.selfSolve

/-- slepc.cxx:247-252 (`init`): the number of output steps from then on. -/
def Cfg.steps (C : Cfg) : Nat := if C.self then 1 else C.nout

/-- `getOutputTimestep() * getNumberOutputSteps()` with a given number of steps. -/
def Cfg.time (C : Cfg) (steps : Nat) : ℝ := C.dt * steps

/-- slepc.cxx:482-523 `advanceStep`: the operator whose eigenvalues SLEPc finds; `F` is the right-hand side and `ext` what a
run of the advance solver makes of the fields. -/
noncomputable def advance {V : Type} [AddCommGroup V] [Module ℂ V] (C : Cfg) (F ext : Module.End ℂ V) : Module.End ℂ V :=
  if C.ddtMode then F
  else if C.self then 1 + (C.dt : ℂ) • F
  else ext

/-- slepc.cxx:625-665 `slepcToBout`; `steps` is the number of output steps when it is called. -/
noncomputable def slepcToBout (C : Cfg) (steps : Nat) (force : Bool) (mu : ℂ) : ℂ :=
  if C.shell && !force then mu
  else if C.ddtMode ∧ ‖mu‖ < 1.0e-10 then 0
  else if C.ddtMode then mu * I
  else I * log mu / (C.time steps : ℂ)

/-- slepc.cxx:667-688 `boutToSlepc`. -/
noncomputable def boutToSlepc (C : Cfg) (steps : Nat) (force : Bool) (w : ℂ) : ℂ :=
  if C.shell && !force then w
  else if C.ddtMode then -I * w
  else exp (-I * w * (C.time steps : ℂ))

/-- slepc.cxx:183-190 (the constructor): the default of `target`, computed before `init` and before the spectral transformation
is known. -/
noncomputable def defaultTarget (C : Cfg) (targ : ℂ) : ℝ :=
  if targ = 0 then 999 else ‖boutToSlepc { C with shell := false } C.nout false targ‖

/-- slepc.cxx:538-540: the distance of a converted eigenvalue from the target. -/
noncomputable def distance (a targ : ℂ) : ℝ := Real.sqrt ((a.re - targ.re) ^ 2 + (a.im - targ.im) ^ 2)

/-- slepc.cxx:530-559 `compareEigs`. -/
noncomputable def compareEigs (C : Cfg) (targ mua mub : ℂ) : Int :=
  let da := distance (slepcToBout C C.steps false mua) targ
  let db := distance (slepcToBout C C.steps false mub) targ
  if da > db then 1 else if db > da then -1 else 0

/-- One record of the output: the number written as time, the fields, the auxiliary fields. -/
structure Record (V W : Type) where
  time : ℝ
  fields : V
  aux : W

/-- slepc.cxx:735-756: the records of one eigenvalue; `g` is what `run_rhs` computes into the auxiliary fields. -/
noncomputable def recordsOf {V W : Type} (C : Cfg) (g : V → W) (e : ℂ × V × V) : List (Record V W) :=
  let w := slepcToBout C C.steps false e.1
  let fields := e.2.1
  let aux := g fields
  let first : Record V W := ⟨w.re, fields, aux⟩
  let fields := e.2.2
  [first, ⟨w.im, fields, aux⟩]

/-- slepc.cxx:691-762 `analyseResults`: the loop over the converged eigenvalues. -/
noncomputable def analyse {V W : Type} (C : Cfg) (g : V → W) (eigs : List (ℂ × V × V)) : List (Record V W) :=
  eigs.flatMap (recordsOf C g)

/-- slepc.cxx:570-622 `monitor`: one call with iteration `its` and `nconv` converged eigenvalues; the result is the new value
of the static `nConvPrev` and the eigenvalues reported. -/
def monitor (prev : Nat) (call : Nat × Nat) : Nat × List Nat :=
  if call.1 < 1 then (prev, [])
  else (call.2, (List.range (call.2 - prev)).map (prev + ·))

/-- The calls of one solve, from a value of the static variable: its last value and everything reported. -/
def monitorRun (prev : Nat) : List (Nat × Nat) → Nat × List Nat
  | [] => (prev, [])
  | c :: cs =>
    let r := monitor prev c
    let l := monitorRun r.1 cs
    (l.1, r.2 ++ l.2)

end Verif.Slepc
