import Mathlib.Algebra.Order.Field.Basic
import Verif.Invert.MG

/-!
# What `LaplaceMultigrid::solve` promises

The equation in the manual: `D ∇⊥² f + (1/C1) ∇⊥C2 · ∇⊥f + A f = b` on the whole grid of
`N = np * nx` points in x (guards `0` and `N+1`) and `nz` periodic points in z, with second order
central differences; the boundary conditions; and the error of a field.  Nothing here mentions
processors, ghost cells or levels.
-/

namespace Verif.MG.Spec

open Finset

variable {K : Type} [Field K] [LinearOrder K]

/-- Next and previous point in the periodic direction. -/
def up (nz z : Nat) : Nat := (z + 1) % nz
def dn (nz z : Nat) : Nat := (z + nz - 1) % nz

/-- Central first derivatives. -/
def ddx (c : Coef K) (f : Nat → Nat → K) (i z : Nat) : K :=
  (f (i + 1) z - f (i - 1) z) / (2 * c.dx i)
def ddz (c : Coef K) (nz : Nat) (f : Nat → Nat → K) (i z : Nat) : K :=
  (f i (up nz z) - f i (dn nz z)) / (2 * c.dz i)

/-- Second derivatives; `non` adds the correction for a grid whose spacing varies:
`d²f/dx² = f_ii / dx² + d1_dx * (f_i / dx)`. -/
def d2dx2 (c : Coef K) (non : Bool) (f : Nat → Nat → K) (i z : Nat) : K :=
  (f (i + 1) z - 2 * f i z + f (i - 1) z) / (c.dx i * c.dx i)
    + if non then c.d1dx i * ddx c f i z else 0
def d2dz2 (c : Coef K) (nz : Nat) (f : Nat → Nat → K) (i z : Nat) : K :=
  (f i (up nz z) - 2 * f i z + f i (dn nz z)) / (c.dz i * c.dz i)
def d2dxdz (c : Coef K) (nz : Nat) (f : Nat → Nat → K) (i z : Nat) : K :=
  (f (i + 1) (up nz z) - f (i + 1) (dn nz z) - f (i - 1) (up nz z) + f (i - 1) (dn nz z))
    / (4 * c.dx i * c.dz i)

/-- The operator of the equation. -/
def op (c : Coef K) (nz : Nat) (non : Bool) (f : Nat → Nat → K) (i z : Nat) : K :=
  c.D i z * (c.g11 i * d2dx2 c non f i z + c.g33 i * d2dz2 c nz f i z
      + 2 * c.g13 i * d2dxdz c nz f i z + c.G1 i * ddx c f i z + c.G3 i * ddz c nz f i z)
    + 1 / c.C1 i z * (c.g11 i * ddx c c.C2 i z * ddx c f i z
      + c.g33 i * ddz c nz c.C2 i z * ddz c nz f i z
      + c.g13 i * (ddx c c.C2 i z * ddz c nz f i z + ddz c nz c.C2 i z * ddx c f i z))
    + c.A i z * f i z

/-- The condition at the inner boundary: the gradient (`INVERT_AC_GRAD`) or the value half way
between guard and first point is the one given in the guard of `x0` (`INVERT_SET`), or zero. -/
def InnerBC (fl : Flags) (sqrt : K → K) (c : Coef K) (x0 f : Nat → Nat → K) (z : Nat) : Prop :=
  let target := if fl.set then x0 0 z else 0
  if fl.grad then f 1 z - f 0 z = target * (sqrt (c.gxx 1) * c.dx 1)
  else (f 0 z + f 1 z) / 2 = target

/-- The same at the outer boundary. -/
def OuterBC (fl : Flags) (sqrt : K → K) (c : Coef K) (n : Nat) (x0 f : Nat → Nat → K) (z : Nat) :
    Prop :=
  let target := if fl.set then x0 (n + 1) z else 0
  if fl.grad then f (n + 1) z - f n z = target * (sqrt (c.gxx n) * c.dx n)
  else (f n z + f (n + 1) z) / 2 = target

/-- The error of a field: the root of the sum of the squared defects of all interior points. -/
def err (c : Cfg K) (bin f : Nat → Nat → K) : K :=
  c.par.sqrt (∑ i ∈ range (c.np * c.nx), ∑ z ∈ range c.nz,
    (bin (i + 1) z - op c.coef c.nz c.nonuniform f (i + 1) z)
      * (bin (i + 1) z - op c.coef c.nz c.nonuniform f (i + 1) z))

/-- `f` meets both boundary conditions of the solver. -/
def BCs (c : Cfg K) (x0 f : Nat → Nat → K) : Prop :=
  ∀ z, z < c.nz → InnerBC c.inn c.par.sqrt c.coef x0 f z
    ∧ OuterBC c.out c.par.sqrt c.coef (c.np * c.nx) x0 f z

/-- The sizes and tolerances of a usable solver. -/
structure Usable (c : Cfg K) : Prop where
  np : 0 < c.np
  nx : 0 < c.nx
  nz : 0 < c.nz
  sqrt : ∀ y, 0 ≤ c.par.sqrt y
  rtol : 0 ≤ c.par.rtol
  rtol1 : c.par.rtol ≤ 1
  atol : 0 ≤ c.par.atol

end Verif.MG.Spec
