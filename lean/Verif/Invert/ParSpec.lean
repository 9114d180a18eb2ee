import Verif.Invert.Par
import Verif.Invert.LaplaceSpec

/-!
# Specification of the parallel operators

Central differences along the field line, true derivatives in Z of the waves through
the points of each row.
-/

namespace Verif.Par

open Verif.Laplace (diffZ leftOf rightOf)

/-- Central difference in Y. -/
noncomputable def diffY (dy : ℝ) (Wm Wp : ℝ → ℝ) (t : ℝ) : ℝ := (Wp t - Wm t) / (2 * dy)

/-- Second difference in Y, `(1/dy²) d²/di² + d(1/dy)/di d/dy` if the spacing varies. -/
noncomputable def diffYY (nonuniform : Bool) (dy d1dy : ℝ) (Wm W Wp : ℝ → ℝ) (t : ℝ) : ℝ :=
  (Wp t - 2 * W t + Wm t) / dy ^ 2 + (if nonuniform then d1dy * diffY dy Wm Wp t else 0)

/-- `(b·∇)²`, with `b·∇ = (1/√g_22) d/dy`, by the product rule. -/
noncomputable def grad2par2 (nonuniform : Bool) (g : Geom) (y : Int) (Wm W Wp : ℝ → ℝ) (t : ℝ) : ℝ :=
  let inv : Int → ℝ := fun i => 1 / Real.sqrt (g.g22 i)
  inv y * ((inv (y + 1) - inv (y - 1)) / (2 * g.dy y) * diffY (g.dy y) Wm Wp t
    + inv y * diffYY nonuniform (g.dy y) (g.d1dy y) Wm W Wp t)

/-- `A + B Grad2_par2 + C D2DYDZ + D D2DZ2 + E DDY` (`include/bout/invert_parderiv.hxx`). -/
noncomputable def parOperator (nonuniform : Bool) (g : Geom) (co : Coefs) (s : ℝ) (y : Int)
    (Wm W Wp : ℝ → ℝ) (t : ℝ) : ℝ :=
  co.A y * W t + co.B y * grad2par2 nonuniform g y Wm W Wp t
    + co.C y * diffZ s (diffY (g.dy y) Wm Wp) t + co.D y * diffZ s (diffZ s W) t
    + co.E y * diffY (g.dy y) Wm Wp t

/-- The function below row `j` of processor `q`: that of the row before it along the
field line; across the branch cut of a closed surface it is moved by `ts` in Z. -/
noncomputable def Surface.below (s : Surface) (W : Nat → Nat → ℝ → ℝ) (q j : Nat) (t : ℝ) : ℝ :=
  let l := leftOf s.P s.N q j
  if s.closed = true ∧ q = 0 ∧ j = 0 then W l.1 l.2 (t - s.ts * (s.n / s.zlength)) else W l.1 l.2 t

/-- The function above. -/
noncomputable def Surface.above (s : Surface) (W : Nat → Nat → ℝ → ℝ) (q j : Nat) (t : ℝ) : ℝ :=
  let r := rightOf s.P s.N q j
  if s.closed = true ∧ q + 1 = s.P ∧ j + 1 = s.N q then W r.1 r.2 (t + s.ts * (s.n / s.zlength))
  else W r.1 r.2 t

/-- The processors fit together: at least one, a guard cell, interior points. -/
def Surface.WellFormed (s : Surface) : Prop :=
  1 ≤ s.P ∧ 0 < s.n ∧
  ∀ q, q < s.P → 1 ≤ (s.geom q).ystart ∧ 2 * (s.geom q).ystart < (s.geom q).localNy

end Verif.Par
