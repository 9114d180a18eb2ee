import Verif.Invert.LaplaceProps
import Verif.Num.Flux

/-!
# Inversion of parallel derivatives

Model of `InvertParCR::solve` (`src/invert/parderiv/impls/cyclic/cyclic.cxx`) and of
`InvertParDivCR::solve` (`src/invert/pardiv/impls/cyclic/pardiv_cyclic.cxx`) on one flux
surface: one X index, all processors of the surface's Y communicator, in the order of
the communicator (the order along the field line, C52).  The input and the result are
field aligned: the transforms `toFieldAligned`/`fromFieldAligned` around the solve are
those of C53.  Arithmetic is exact.
-/

namespace Verif.Par

open Verif.Fourier Verif.Cyclic

/-- `localmesh` and `Coordinates` on one processor at the X index of the surface. -/
structure Geom where
  localNy : Int
  ystart : Int
  dy : Int → ℝ
  /-- `d1_dy`, used if `non_uniform` -/
  d1dy : Int → ℝ
  g22 : Int → ℝ
  J : Int → ℝ

/-- `localmesh->yend`. -/
def Geom.yend (g : Geom) : Int := g.localNy - g.ystart - 1

/-- The coefficients of `InvertPar` (`setCoefA` … `setCoefE`); `InvertParDiv` has `A` and
`B` only. -/
structure Coefs where
  A : Int → ℝ
  B : Int → ℝ
  C : Int → ℝ
  D : Int → ℝ
  E : Int → ℝ

/-- One flux surface. -/
structure Surface where
  /-- size of the Y communicator -/
  P : Nat
  /-- `LocalNz` -/
  n : Nat
  zlength : ℝ
  /-- `surf.closed(ts)` -/
  closed : Bool
  ts : ℝ
  /-- `location == CELL_YLOW` -/
  ylow : Bool
  nonuniform : Bool
  geom : Nat → Geom
  coef : Nat → Coefs

/-- `surf.firstY()` (`surfaceiter.cxx` L35-48). -/
def Surface.firstY (s : Surface) (q : Nat) : Bool := !s.closed && decide (q = 0)

/-- `surf.lastY()` (`surfaceiter.cxx` L50-63). -/
def Surface.lastY (s : Surface) (q : Nat) : Bool := !s.closed && decide (q + 1 = s.P)

/-- `local_ystart` (`cyclic.cxx` L122-137). -/
def Surface.localYstart (s : Surface) (q : Nat) : Int :=
  if s.firstY q ∧ s.ylow then (s.geom q).ystart + 1 else (s.geom q).ystart

/-- `y0` (`cyclic.cxx` L121-137). -/
def Surface.y0 (s : Surface) (q : Nat) : Int := if s.firstY q then (s.geom q).ystart else 0

/-- `size` (`cyclic.cxx` L123-141). -/
def Surface.size (s : Surface) (q : Nat) : Int :=
  (s.geom q).localNy - 2 * (s.geom q).ystart
    + (if s.firstY q then (if s.ylow then (s.geom q).ystart - 1 else (s.geom q).ystart) else 0)
    + (if s.lastY q then (s.geom q).ystart else 0)

/-- Number of rows on processor `q`. -/
def Surface.N (s : Surface) (q : Nat) : Nat := (s.size q).toNat

/-- Local Y index of row `j`: `result(x, y + local_ystart - y0)` (`cyclic.cxx` L239-241). -/
def Surface.iy (s : Surface) (q j : Nat) : Int := (j : Int) + s.localYstart q - s.y0 q

/-- `kwave = k * 2.0 * PI / zlength` (`cyclic.cxx` L154). -/
noncomputable def Surface.kw (s : Surface) (k : Nat) : ℝ := k * 2 * Real.pi / s.zlength

/-- `sg = DDY(1. / sqrt(g_22)) / sqrt(g_22)` with the second-order central difference
(`cyclic.cxx` L60-61). -/
noncomputable def sg (g : Geom) (y : Int) : ℝ :=
  (1 / Real.sqrt (g.g22 (y + 1)) - 1 / Real.sqrt (g.g22 (y - 1))) / (2 * g.dy y) / Real.sqrt (g.g22 y)

/-- The matrix entries of `InvertParCR` (`cyclic.cxx` L157-180). -/
noncomputable def coefPar (nonuniform : Bool) (g : Geom) (co : Coefs) (y : Int) (kwave : ℝ) :
    ℂ × ℂ × ℂ :=
  let acoef := co.A y
  let bcoef := co.B y / g.g22 y
  let ccoef := co.C y
  let dcoef := co.D y
  let ecoef := co.E y + sg g y * co.B y
  let ecoef := if nonuniform then ecoef + bcoef * g.d1dy y else ecoef
  let bcoef := bcoef / (g.dy y) ^ 2
  let ccoef := ccoef / g.dy y
  let ecoef := ecoef / g.dy y
  (⟨bcoef - 0.5 * ecoef, -(0.5 * kwave * ccoef)⟩,
   ⟨acoef - 2 * bcoef - kwave ^ 2 * dcoef, 0⟩,
   ⟨bcoef + 0.5 * ecoef, 0.5 * kwave * ccoef⟩)

/-- The matrix entries of `InvertParDivCR` (`pardiv_cyclic.cxx` L153-178). -/
noncomputable def coefDiv (g : Geom) (co : Coefs) (y : Int) : ℂ × ℂ × ℂ :=
  let left : (Int → ℝ) → ℝ := fun f => 0.5 * (f y + f (y - 1))
  let right : (Int → ℝ) → ℝ := fun f => 0.5 * (f y + f (y + 1))
  let acoef := co.A y
  let bL := left co.B * left g.J / (left g.dy * left g.g22 * g.J y * g.dy y)
  let bR := right co.B * right g.J / (right g.dy * right g.g22 * g.J y * g.dy y)
  ((bL : ℂ), ((acoef - (bL + bR) : ℝ) : ℂ), (bR : ℂ))

/-- Which of the two solvers. -/
inductive Kind where
  | par
  | div

/-- The entries of mode `k` at local Y index `y` of processor `q`. -/
noncomputable def Surface.entries (s : Surface) (kind : Kind) (q k : Nat) (y : Int) : ℂ × ℂ × ℂ :=
  match kind with
  | .par => coefPar s.nonuniform (s.geom q) (s.coef q) y (s.kw k)
  | .div => coefDiv (s.geom q) (s.coef q) y

/-- The row of mode `k` before boundary conditions (`cyclic.cxx` L147-185;
`pardiv_cyclic.cxx` L146-182): rows `y0 + y` for `0 ≤ y < LocalNy - ystart - local_ystart`;
the others keep what the previous surface left (`stale`). -/
noncomputable def Surface.baseRow (s : Surface) (kind : Kind) (stale : Nat → Nat → Nat → Row ℂ)
    (rhs : Nat → Int → Nat → ℝ) (q k j : Nat) : Row ℂ :=
  let y := (j : Int) - s.y0 q
  if 0 ≤ y ∧ y < (s.geom q).localNy - (s.geom q).ystart - s.localYstart q then
    let e := s.entries kind q k (y + s.localYstart q)
    { a := e.1, b := e.2.1, c := e.2.2, r := rfft s.n (rhs q (y + s.localYstart q)) k }
  else stale q k j

/-- Twist-shift phases on a closed surface, zero-gradient rows at the targets of an open
one (`cyclic.cxx` L187-229; `pardiv_cyclic.cxx` L184-227). -/
noncomputable def Surface.row (s : Surface) (kind : Kind) (stale : Nat → Nat → Nat → Row ℂ)
    (rhs : Nat → Int → Nat → ℝ) (q k j : Nat) : Row ℂ :=
  let r := s.baseRow kind stale rhs q k j
  if s.closed then
    let r := if q = 0 ∧ j = 0 then { r with a := r.a * phaseMinus (s.kw k * s.ts) } else r
    if q + 1 = s.P ∧ (j : Int) = (s.geom q).localNy - 2 * (s.geom q).ystart - 1 then
      { r with c := r.c * phasePlus (s.kw k * s.ts) }
    else r
  else
    let r := if s.firstY q ∧ (j : Int) < (s.geom q).ystart then { a := 0, b := 1, c := -1, r := 0 } else r
    if s.lastY q ∧ s.size q - (s.geom q).ystart ≤ (j : Int) ∧ (j : Int) < s.size q then
      { a := -1, b := 1, c := 0, r := 0 }
    else r

/-- `InvertParCR::solve` / `InvertParDivCR::solve` on the surface, on all processors
(`cyclic.cxx` L115-243); `order` is the order of message arrival in the tridiagonal
solver.  The result is indexed by processor and row (local Y index `iy q j`). -/
noncomputable def Surface.solve (s : Surface) (kind : Kind) (tiny : ℂ → Prop) [DecidablePred tiny]
    (order : Nat → List Nat) (stale : Nat → Nat → Nat → Row ℂ) (rhs : Nat → Int → Nat → ℝ) :
    Out (Nat → Nat → Nat → ℝ) :=
  match distSolve tiny s.P (1 + s.n / 2) s.N s.closed (s.row kind stale rhs) order with
  | .ok x => .ok fun q j => irfft s.n fun k => x q k j
  | .error e => .error e

end Verif.Par
