import Mathlib.Data.Real.Basic
import Mathlib.Algebra.Order.BigOperators.Ring.Finset
import Mathlib.LinearAlgebra.FiniteDimensional.Basic
import Mathlib.Tactic.Linarith
import Mathlib.Tactic.FieldSimp
import Mathlib.Tactic.LinearCombination

/-!
# C90: gyro-averages and the shared Laplacian inversion

Model of src/physics/gyro_average.cxx:36-196 (`gyroTaylor0`, `gyroPade0`, `gyroPade1`, `gyroPade2`) and of the process-wide
solver they use: `Laplacian::defaultInstance` and `cleanup` (src/invert/laplace/invert_laplace.cxx:142-151), its settings
(include/bout/invert_laplace.hxx:177-239, cyclic_laplace.hxx:66-102) and the location check of `Laplacian::solve`
(invert_laplace.cxx:157-161).

Fields are functions on the points of one mesh, with a cell location (0 = centre).  What the solver does with its settings
(C01-C82 cover the implementations), the perpendicular Laplacian, the z average, the exchange of guard cells and the Dirichlet
condition are parameters.  Left out: timers, several meshes, implementations that keep C1 and C2 apart in `setCoefC`.
-/
namespace Verif.Gyro

variable {P : Type}

/-- A field: its location and values. -/
structure Fld (P : Type) where
  loc : Nat
  val : P → ℝ

/-- The settings of a Laplacian inversion: coefficients (constant along z) and flags. -/
structure Settings (P : Type) where
  a : P → ℝ
  c1 : P → ℝ
  c2 : P → ℝ
  d : P → ℝ
  ex : P → ℝ
  ez : P → ℝ
  inner : Nat
  outer : Nat
  global : Nat

/-- What the gyro-averages are built on. -/
structure World (P : Type) where
  /-- the settings of a solver just created -/
  fresh : Settings P
  /-- the numerical solution, `Laplacian::solve`, with the metric at cell centres -/
  solve : Settings P → (P → ℝ) → P → ℝ
  /-- `Delp2` at a location -/
  delp2 : Nat → (P → ℝ) → P → ℝ
  /-- the average over z -/
  dc : (P → ℝ) → P → ℝ
  /-- `Mesh::communicate` -/
  comm : (P → ℝ) → P → ℝ
  /-- `applyBoundary("dirichlet")` -/
  dirichlet : (P → ℝ) → P → ℝ
  /-- whether `ASSERT1` is compiled in -/
  check : Bool

/-- The gyro-radius in its three forms. -/
inductive Rho (P : Type)
  | real (r : ℝ)
  | two (v : P → ℝ)
  | three (v : P → ℝ)

/-- The overloads of `gyro_average.cxx`: a number and a Field2D are used as they are, a Field3D is averaged. -/
def Rho.two2 (W : World P) : Rho P → P → ℝ
  | .real r => fun _ => r
  | .two v => v
  | .three v => W.dc v

/-- invert_laplace.cxx:144-149 `defaultInstance`. -/
def instanceOf (W : World P) (s : Option (Settings P)) : Settings P := s.getD W.fresh

/-- invert_laplace.cxx:157-161: `solve` with its check of the location, 0 for this instance; `none` is the exception. -/
def solveAt (W : World P) (s : Settings P) (f : Fld P) : Option (Fld P) :=
  if W.check ∧ f.loc ≠ 0 then none else some ⟨0, W.solve s f.val⟩

/-- gyro_average.cxx:36-38 `gyroTaylor0`. -/
def taylor0 (W : World P) (f : Fld P) (rho : P → ℝ) : Fld P :=
  ⟨f.loc, fun p => f.val p + rho p ^ 2 * W.delp2 f.loc f.val p⟩

/-- gyro_average.cxx:52-56, 71-75, 96-100, 115-119: the settings made on the shared solver. -/
def prepared (s : Settings P) (d : P → ℝ) (i o : Nat) : Settings P :=
  { s with a := fun _ => 1, c1 := fun _ => 1, c2 := fun _ => 1, d := d, inner := i, outer := o }

/-- gyro_average.cxx:40-85 `gyroPade0` (all overloads): the settings it leaves and its result. -/
def pade0 (W : World P) (s : Option (Settings P)) (f : Fld P) (rho : Rho P) (i o : Nat) : Settings P × Option (Fld P) :=
  let r := rho.two2 W
  let s' := prepared (instanceOf W s) (fun p => -r p * r p) i o
  (s', (solveAt W s' f).map fun x => { x with loc := f.loc })

/-- gyro_average.cxx:87-127 `gyroPade1` (all overloads for 3D fields). -/
def pade1 (W : World P) (s : Option (Settings P)) (f : Fld P) (rho : Rho P) (i o : Nat) : Settings P × Option (Fld P) :=
  let r := rho.two2 W
  let s' := prepared (instanceOf W s) (fun p => -0.5 * r p * r p) i o
  (s', (solveAt W s' f).map fun x => { x with loc := f.loc })

/-- gyro_average.cxx:129-135 `gyroPade1` of a 2D field. -/
def pade1two (W : World P) (s : Option (Settings P)) (f : Fld P) (rho : P → ℝ) (i o : Nat) : Settings P × Option (Fld P) :=
  let r := pade1 W s f (.two rho) i o
  (r.1, r.2.map fun x => { x with val := W.dc x.val })

/-- gyro_average.cxx:137-166 `gyroPade2` (all overloads). -/
def pade2 (W : World P) (s : Option (Settings P)) (f : Fld P) (rho : Rho P) (i o : Nat) : Settings P × Option (Fld P) :=
  let r := rho.two2 W
  let first := pade1 W s f (.two r) i o
  match first.2 with
  | none => (first.1, none)
  | some x =>
    let second := pade1 W (some first.1) x (.two r) i o
    (second.1, second.2.map fun y =>
      let v := W.comm y.val
      ⟨y.loc, W.dirichlet fun p => 0.5 * r p * r p * W.delp2 y.loc v p⟩)

/-- A call that involves the shared solver. -/
inductive Call (P : Type)
  | setA (v : P → ℝ)
  | setC (v : P → ℝ)
  | setC1 (v : P → ℝ)
  | setC2 (v : P → ℝ)
  | setD (v : P → ℝ)
  | setEx (v : P → ℝ)
  | setEz (v : P → ℝ)
  | setInner (n : Nat)
  | setOuter (n : Nat)
  | setGlobal (n : Nat)
  | solve (f : Fld P)
  | pade0 (f : Fld P) (rho : Rho P) (i o : Nat)
  | pade1 (f : Fld P) (rho : Rho P) (i o : Nat)
  | pade1two (f : Fld P) (rho : P → ℝ) (i o : Nat)
  | pade2 (f : Fld P) (rho : Rho P) (i o : Nat)
  | cleanup

/-- The shared solver after a call, and what the call returns (`none`: nothing or an exception). -/
def step (W : World P) (s : Option (Settings P)) : Call P → Option (Settings P) × Option (Fld P)
  | .setA v => (some { instanceOf W s with a := v }, none)
  | .setC v => (some { instanceOf W s with c1 := v, c2 := v }, none)
  | .setC1 v => (some { instanceOf W s with c1 := v }, none)
  | .setC2 v => (some { instanceOf W s with c2 := v }, none)
  | .setD v => (some { instanceOf W s with d := v }, none)
  | .setEx v => (some { instanceOf W s with ex := v }, none)
  | .setEz v => (some { instanceOf W s with ez := v }, none)
  | .setInner n => (some { instanceOf W s with inner := n }, none)
  | .setOuter n => (some { instanceOf W s with outer := n }, none)
  | .setGlobal n => (some { instanceOf W s with global := n }, none)
  | .solve f => (some (instanceOf W s), solveAt W (instanceOf W s) f)
  | .pade0 f r i o => let x := pade0 W s f r i o; (some x.1, x.2)
  | .pade1 f r i o => let x := pade1 W s f r i o; (some x.1, x.2)
  | .pade1two f r i o => let x := pade1two W s f r i o; (some x.1, x.2)
  | .pade2 f r i o => let x := pade2 W s f r i o; (some x.1, x.2)
  | .cleanup => (none, none)

/-- The shared solver after a history that starts with the program. -/
def run (W : World P) (h : List (Call P)) : Option (Settings P) := h.foldl (fun s c => (step W s c).1) none

end Verif.Gyro
