import Mathlib.Algebra.BigOperators.Group.Finset.Basic
import Verif.Invert.SBand

/-!
# Specification: the equation of the band solver, and LAPACK's band storage
-/

namespace Verif.SBandSpec

open Verif.SBand Finset

noncomputable section

/-- Fourth order first and second derivatives in x. -/
def d1 (h : ℝ) (u : Nat → ℂ) (i : Nat) : ℂ := (u (i - 2) - 8 * u (i - 1) + 8 * u (i + 1) - u (i + 2)) / (12 * h)
def d2 (h : ℝ) (u : Nat → ℂ) (i : Nat) : ℂ :=
  (-u (i - 2) + 16 * u (i - 1) - 30 * u i + 16 * u (i + 1) - u (i + 2)) / (12 * h ^ 2)

/-- `(1 / C) dC/dx` at fourth order. -/
def dlogC (g : Geom) (i : Nat) : ℝ :=
  (g.C (i - 2) - 8 * g.C (i - 1) + 8 * g.C (i + 1) - g.C (i + 2)) / (12 * g.dx i * g.C i)

/-- Derivative of `1 / dx`, for the correction on a nonuniform mesh. -/
def nu (g : Geom) (i : Nat) : ℝ := (1 / g.dx (i + 1) - 1 / g.dx (i - 1)) / (2 * g.dx i)

/-- The documented operator `D Delp2(x) + (1 / C) Grad_perp(C) . Grad_perp(x) + A x` for one mode with wave number `k`:
`Delp2 = g11 d2/dx2 + 2 g13 d2/dxdz + g33 d2/dz2 + G1 d/dx + G3 d/dz`. -/
def operator (o : Opts) (g : Geom) (k : ℝ) (u : Nat → ℂ) (i : Nat) : ℂ :=
  g.D i * (g.g11 i * (d2 (g.dx i) u i + (if o.nonuniform then (nu g i : ℂ) else 0) * d1 (g.dx i) u i)
      + 2 * g.g13 i * (Complex.I * k) * d1 (g.dx i) u i + g.g33 i * (Complex.I * k) ^ 2 * u i
      + (if o.allTerms then g.G1 i * d1 (g.dx i) u i + g.G3 i * (Complex.I * k) * u i else 0))
    + dlogC g i * (g.g11 i * d1 (g.dx i) u i + g.g13 i * (Complex.I * k) * u i)
    + g.A i * u i

/-- The matrix a LAPACK band array stands for (two bands each side, leading dimension 7): element `(row, col)` is at
`kl + ku + row - col` in column `col`. -/
def stored (AB : Nat → ℂ) (row col : Nat) : ℂ :=
  if row ≤ col + 2 ∧ col ≤ row + 2 then AB (col * 7 + (4 + row - col)) else 0

/-- The matrix with the given five diagonals. -/
def five (a : Nat → Row) (row col : Nat) : ℂ := if row ≤ col + 2 ∧ col ≤ row + 2 then a row (col + 2 - row) else 0

def apply (n : Nat) (m : Nat → Nat → ℂ) (u : Nat → ℂ) (row : Nat) : ℂ := ∑ col ∈ range n, m row col * u col

def Nonsing (n : Nat) (m : Nat → Nat → ℂ) : Prop :=
  ∀ u : Nat → ℂ, (∀ row, row < n → apply n m u row = 0) → ∀ i, i < n → u i = 0

/-- What `zgbsv` does. -/
def Solves (z : Zgbsv) : Prop :=
  ∀ n AB b, Nonsing n (stored AB) → ∀ row, row < n → apply n (stored AB) (z n AB b) row = b row

end

end Verif.SBandSpec
