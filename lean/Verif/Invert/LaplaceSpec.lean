import Verif.Invert.Laplace
import Verif.Num.FourierSpec
import Mathlib.Analysis.Calculus.Deriv.Basic

/-!
# Specification of the perpendicular Laplacian

The operator in real space: second-order central differences in X, true derivatives
in Z of the waves through the points of each row.
-/

namespace Verif.Laplace

/-- Central first difference in X of the functions left and right of a row. -/
noncomputable def diffX (dx : ℝ) (Wm Wp : ℝ → ℝ) (t : ℝ) : ℝ := (Wp t - Wm t) / (2 * dx)

/-- Second difference in X; with the correction for a varying grid spacing
`d²/dx² = (1/dx²) d²/di² - (dx_i/dx²) d/dx` when `nonuniform`, where
`dx_i = (dx₊ - dx₋)/2`. -/
noncomputable def diffXX (nonuniform : Bool) (dx dxm dxp : ℝ) (Wm W Wp : ℝ → ℝ) (t : ℝ) : ℝ :=
  (Wp t - 2 * W t + Wm t) / dx ^ 2
    - (if nonuniform then (dxp - dxm) / 2 / dx ^ 2 * diffX dx Wm Wp t else 0)

/-- Derivative in Z of a function of the cell number, with `s` cells per unit of Z. -/
noncomputable def diffZ (s : ℝ) (W : ℝ → ℝ) (t : ℝ) : ℝ := s * deriv W t

/-- `Delp2 = g11 d²/dx² + g33 d²/dz² + 2 g13 d²/dxdz + G1 d/dx + G3 d/dz` at X index
`jx`, the last two terms only with `all_terms`. -/
noncomputable def perpLaplacian (o : LapOpts) (g : Geom) (s : ℝ) (jx : Int)
    (Wm W Wp : ℝ → ℝ) (t : ℝ) : ℝ :=
  g.g11 jx * diffXX o.nonuniform (g.dx jx) (g.dx (jx - 1)) (g.dx (jx + 1)) Wm W Wp t
    + g.g33 jx * diffZ s (diffZ s W) t
    + 2 * g.g13 jx * diffZ s (diffX (g.dx jx) Wm Wp) t
    + (if o.allTerms then g.G1 jx * diffX (g.dx jx) Wm Wp t + g.G3 jx * diffZ s W t else 0)

/-- `D Delp2(x) + (1/C1) Grad_perp(C2)·Grad_perp(x) + A x`. -/
noncomputable def fullOperator (o : LapOpts) (g : Geom) (co : LapCoef) (s : ℝ) (jx : Int)
    (Wm W Wp : ℝ → ℝ) (t : ℝ) : ℝ :=
  co.D jx * perpLaplacian o g s jx Wm W Wp t
    + 1 / co.C1 jx * ((co.C2 (jx + 1) - co.C2 (jx - 1)) / (2 * g.dx jx))
        * (g.g11 jx * diffX (g.dx jx) Wm Wp t + g.g13 jx * diffZ s W t)
    + co.A jx * W t

/-- The neighbour of row `j` of processor `q` on the low-X side; the first row of
the first processor is next to the last row of the last one. -/
def leftOf (P : Nat) (N : Nat → Nat) (q j : Nat) : Nat × Nat :=
  if j ≠ 0 then (q, j - 1) else if q ≠ 0 then (q - 1, N (q - 1) - 1) else (P - 1, N (P - 1) - 1)

/-- The neighbour on the high-X side. -/
def rightOf (P : Nat) (N : Nat → Nat) (q j : Nat) : Nat × Nat :=
  if j + 1 ≠ N q then (q, j + 1) else if q + 1 ≠ P then (q + 1, 0) else (0, 0)

end Verif.Laplace
