import Verif.Invert.Laplace
import Verif.Num.Fourier

/-!
# Model of `LaplaceXZcyclic` (`src/invert/laplacexz/impls/cyclic/laplacexz-cyclic.cxx`)

All processors in X are modelled together; the tridiagonal solver is the model of C22, the transforms those of C53.
-/

namespace Verif.LapXZ

open Verif.Fourier Verif.Cyclic
open Verif.Laplace (has)

/-- One processor: the mesh, the metric and the coefficients given to `setCoefs`. -/
structure Geo where
  xstart : Int
  xend : Int
  firstX : Bool
  lastX : Bool
  J : Int → Int → ℝ
  g11 : Int → Int → ℝ
  g33 : Int → Int → ℝ
  dx : Int → Int → ℝ
  A : Int → Int → ℝ
  B : Int → Int → ℝ

/-- All processors of one X line, and the options. -/
structure Setup where
  P : Nat
  n : Nat
  zlength : ℝ
  ystart : Int
  ny : Nat
  geo : Nat → Geo
  inner : Nat
  outer : Nat

/-- `laplacexz.hxx` L109-112. -/
def INVERT_DC_GRAD : Nat := 1
/-- See `INVERT_DC_GRAD`. -/
def INVERT_AC_GRAD : Nat := 2
/-- See `INVERT_DC_GRAD`. -/
def INVERT_SET : Nat := 16
/-- See `INVERT_DC_GRAD`. -/
def INVERT_RHS : Nat := 32

/-- `nmode`, L18. -/
def Setup.nmode (s : Setup) : Nat := s.n / 2 + 1

/-- `nsys`, L22. -/
def Setup.nsys (s : Setup) : Nat := s.nmode * s.ny

/-- The Y index of system `i`: the loops over `y` and `kz` with `ind++` (L78-80, L153). -/
def Setup.y (s : Setup) (i : Nat) : Int := s.ystart + (i / s.nmode : Nat)

/-- The mode of system `i`. -/
def Setup.kz (s : Setup) (i : Nat) : Nat := i % s.nmode

/-- The member `xstart`, L25-28. -/
def Setup.x0 (s : Setup) (q : Nat) : Int := if (s.geo q).firstX then (s.geo q).xstart - 1 else (s.geo q).xstart

/-- The member `xend`, L29-32. -/
def Setup.x1 (s : Setup) (q : Nat) : Int := if (s.geo q).lastX then (s.geo q).xend + 1 else (s.geo q).xend

/-- `nloc`, L36. -/
def Setup.N (s : Setup) (q : Nat) : Nat := (s.x1 q - s.x0 q + 1).toNat

/-- The X index of row `j`. -/
def Setup.ix (s : Setup) (q j : Nat) : Int := s.x0 q + j

/-- The coefficient of the neighbour at `x'` in the equation at `x`, L113-133. -/
noncomputable def face (g : Geo) (x x' y : Int) : ℝ :=
  let J := 0.5 * (g.J x y + g.J x' y)
  let g11 := 0.5 * (g.g11 x y + g.g11 x' y)
  let dx := 0.5 * (g.dx x y + g.dx x' y)
  let A := 0.5 * (g.A x y + g.A x' y)
  A * J * g11 / (g.J x y * dx * g.dx x y)

/-- Whether the boundary is a gradient one for mode `kz`, L85-86 and L141-142. -/
def grad (flags kz : Nat) : Bool := (kz == 0 && has flags INVERT_DC_GRAD) || (kz != 0 && has flags INVERT_AC_GRAD)

/-- Matrix entries, `setCoefs` L78-158. -/
noncomputable def Setup.coef (s : Setup) (q i j : Nat) : ℝ × ℝ × ℝ :=
  let g := s.geo q
  let x := s.ix q j
  let y := s.y i
  if g.firstX = true ∧ x = g.xstart - 1 then
    if grad s.inner (s.kz i) then (0, 1, -1) else (0, 0.5, 0.5)
  else if g.lastX = true ∧ x = g.xend + 1 then
    if grad s.outer (s.kz i) then (-1, 1, 0) else (0.5, 0.5, 0)
  else
    let kwave := s.kz i * 2 * Real.pi / s.zlength
    (face g x (x - 1) y,
     g.B x y - face g x (x + 1) y - face g x (x - 1) y - g.A x y * kwave ^ 2 * g.g33 x y,
     face g x (x + 1) y)

/-- A field: processor, X, Y, Z. -/
abbrev F3 := Nat → Int → Int → Nat → ℝ

/-- The right-hand side, `solve` L170-251. -/
noncomputable def Setup.rhsOf (s : Setup) (rhs x0 : F3) (q i j : Nat) : ℂ :=
  let g := s.geo q
  let x := s.ix q j
  let y := s.y i
  let c := s.coef q i j
  if g.firstX = true ∧ x = g.xstart - 1 then
    if has s.inner INVERT_SET then
      c.2.1 * rfft s.n (x0 q (g.xstart - 1) y) (s.kz i) + c.2.2 * rfft s.n (x0 q g.xstart y) (s.kz i)
    else if has s.inner INVERT_RHS then
      c.2.1 * rfft s.n (rhs q (g.xstart - 1) y) (s.kz i) + c.2.2 * rfft s.n (rhs q g.xstart y) (s.kz i)
    else 0
  else if g.lastX = true ∧ x = g.xend + 1 then
    -- L222-245 calculate a value as at the inner boundary; L247-249 replace it by zero
    0
  else rfft s.n (rhs q x y) (s.kz i)

/-- All rows. -/
noncomputable def Setup.rows (s : Setup) (rhs x0 : F3) (q i j : Nat) : Row ℂ :=
  { a := (s.coef q i j).1, b := (s.coef q i j).2.1, c := (s.coef q i j).2.2, r := s.rhsOf rhs x0 q i j }

/-- The result at row `j` of processor `q` and Y number `m`, L258-273. -/
noncomputable def Setup.back (s : Setup) (X : Nat → Nat → Nat → ℂ) (m q j : Nat) : Nat → ℝ :=
  irfft s.n fun kz => X q (m * s.nmode + kz) j

/-- `setCoefs` followed by `solve`; the result by Y number, processor, row and Z. -/
noncomputable def Setup.solve (s : Setup) (tiny : ℂ → Prop) [DecidablePred tiny] (order : Nat → List Nat) (rhs x0 : F3) :
    Out (Nat → Nat → Nat → Nat → ℝ) :=
  match distSolve tiny s.P s.nsys s.N false (s.rows rhs x0) order with
  | .error e => .error e
  | .ok X => .ok fun m q j => s.back X m q j

end Verif.LapXZ
