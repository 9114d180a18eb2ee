/-
Model of the interpolation methods: `XZBilinear`, `XZLagrange4pt`, `XZHermiteSpline`,
`XZMonotonicHermiteSpline`, `ZHermiteSpline` (`src/mesh/interpolation/*.cxx`), `interpolate` of
a Field2D (`src/mesh/interpolation_xz.cxx`) and `interp` / `interp_to` along a line
(`include/bout/interpolation.hxx`).

`BoutReal` is an ordered field with a floor function, so rounding error is not modelled.  A
field at the row `y_next` is a function of the local X index and the Z index.  An X index
outside the local grid is undefined behaviour.  Z indices are reduced into `[0, ncz)` by the
code and need no check.  `skip_mask` only skips points and is left out.
-/
import Verif.Common
import Verif.Num.Stencil
import Mathlib.Algebra.Order.Floor.Ring
import Mathlib.Data.Rat.Floor

namespace Verif.Num.Interp

open Verif

variable {K : Type} [Field K] [LinearOrder K] [IsStrictOrderedRing K] [FloorRing K]

/-- What the interpolation needs from the mesh. -/
structure Grid where
  LocalNx : Int
  xstart : Int
  xend : Int
  ncz : Int

/-- Cell corner and position inside the cell, the result of `calcWeights` at one point. -/
structure Corner (K : Type) where
  i : Int
  k : Int
  tx : K
  tz : K

/-- The range checks at the end of each `calcWeights` (e.g. `bilinear_xz.cxx` L70-81). -/
def checkRange (c : Corner K) : Out (Corner K) :=
  if c.tx < 0 ∨ c.tx > 1 then .error (.exc "t_x out of range")
  else if c.tz < 0 ∨ c.tz > 1 then .error (.exc "t_z out of range")
  else .ok c

/-- `((k % ncz) + ncz) % ncz`, `bilinear_xz.cxx` L110 and elsewhere. -/
def wrap (ncz k : Int) : Int := (k.tmod ncz + ncz).tmod ncz

/-- Access `f(x, y_next, z)`. -/
def at? (g : Grid) (f : Int → Int → K) (x z : Int) : Out K :=
  if 0 ≤ x ∧ x < g.LocalNx then .ok (f x z) else .error (.ub "X index out of range")

/-! ### Bilinear -/

/-- `XZBilinear::calcWeights`, `bilinear_xz.cxx` L45-88 (the weights are in `bilinear`). -/
def cornerBilinear (dx dz : K) : Out (Corner K) :=
  checkRange ⟨⌊dx⌋, ⌊dz⌋, dx - (⌊dx⌋ : Int), dz - (⌊dz⌋ : Int)⟩

/-- `XZBilinear::interpolate`, `bilinear_xz.cxx` L96-122, with the weights of L83-86. -/
def bilinear (g : Grid) (f : Int → Int → K) (c : Corner K) : Out K := do
  let z := wrap g.ncz c.k
  let zp := (z + 1).tmod g.ncz
  let tx1 := 1 - c.tx
  let tz1 := 1 - c.tz
  let a ← at? g f c.i z
  let b ← at? g f (c.i + 1) z
  let d ← at? g f c.i zp
  let e ← at? g f (c.i + 1) zp
  return a * (tx1 * tz1) + b * (c.tx * tz1) + d * (tx1 * c.tz) + e * (c.tx * c.tz)

/-- `XZBilinear::interpolate(f, delta_x, delta_z)`, `bilinear_xz.cxx` L124-128. -/
def interpBilinear (g : Grid) (f : Int → Int → K) (dx dz : K) : Out K := do
  let c ← cornerBilinear dx dz
  bilinear g f c

/-! ### Lagrange -/

/-- `XZLagrange4pt::calcWeights`, `lagrange_4pt_xz.cxx` L40-79. -/
def cornerLagrange (g : Grid) (dx dz : K) : Out (Corner K) :=
  if ⌊dx⌋ = g.xend then checkRange ⟨⌊dx⌋ - 1, ⌊dz⌋, 1, dz - (⌊dz⌋ : Int)⟩
  else checkRange ⟨⌊dx⌋, ⌊dz⌋, dx - (⌊dx⌋ : Int), dz - (⌊dz⌋ : Int)⟩

/-- `XZLagrange4pt::lagrange_4pt`, `lagrange_4pt_xz.cxx` L156-163. -/
def lagrange4 (v2m vm vp v2p t : K) : K :=
  -t * (t - 1) * (t - 2) * v2m / 6 + 1 / 2 * (t * t - 1) * (t - 2) * vm
    - 1 / 2 * t * (t + 1) * (t - 2) * vp + t * (t * t - 1) * v2p / 6

/-- One line of Z interpolation at column `x`, `lagrange_4pt_xz.cxx` L117-138. -/
def lagrangeZ (g : Grid) (f : Int → Int → K) (x k : Int) (tz : K) : Out K := do
  let jz := wrap g.ncz k
  let jzp := (jz + 1).tmod g.ncz
  let jz2p := (jz + 2).tmod g.ncz
  let jz2m := (jz - 1 + g.ncz).tmod g.ncz
  let a ← at? g f x jz2m
  let b ← at? g f x jz
  let c ← at? g f x jzp
  let d ← at? g f x jz2p
  return lagrange4 a b c d tz

/-- `XZLagrange4pt::interpolate`, `lagrange_4pt_xz.cxx` L87-143. -/
def lagrange (g : Grid) (f : Int → Int → K) (c : Corner K) : Out K := do
  let jx2m := if c.i = 0 then 0 else c.i - 1
  let jxp := c.i + 1
  let jx2p := if c.i = g.LocalNx - 2 then jxp else jxp + 1
  let x0 ← lagrangeZ g f jx2m c.k c.tz
  let x1 ← lagrangeZ g f c.i c.k c.tz
  let x2 ← lagrangeZ g f jxp c.k c.tz
  let x3 ← lagrangeZ g f jx2p c.k c.tz
  return lagrange4 x0 x1 x2 x3 c.tx

/-- `XZLagrange4pt::interpolate(f, delta_x, delta_z)`, `lagrange_4pt_xz.cxx` L145-149. -/
def interpLagrange (g : Grid) (f : Int → Int → K) (dx dz : K) : Out K := do
  let c ← cornerLagrange g dx dz
  lagrange g f c

/-! ### Hermite splines -/

/-- `XZHermiteSpline::calcWeights`, `hermite_spline_xz.cxx` L56-110 (up to the basis
functions): the corner is moved into `[xstart, xend-1]`. -/
def cornerHermite (g : Grid) (dx dz : K) : Out (Corner K) :=
  let i0 := ⌊dx⌋
  let t0 := dx - (⌊dx⌋ : Int)
  let p1 : Int × K := if i0 ≥ g.xend then (g.xend - 1, 1) else (i0, t0)
  let p2 : Int × K := if p1.1 < g.xstart then (g.xstart, 0) else p1
  checkRange ⟨p2.1, wrap g.ncz ⌊dz⌋, p2.2, dz - (⌊dz⌋ : Int)⟩

/-- Basis functions, `hermite_spline_xz.cxx` L98-108. -/
def h00 (t : K) : K := 2 * t * t * t - 3 * t * t + 1
/-- `hermite_spline_xz.cxx` L101. -/
def h01 (t : K) : K := -2 * t * t * t + 3 * t * t
/-- `hermite_spline_xz.cxx` L104. -/
def h10 (t : K) : K := t * (1 - t) * (1 - t)
/-- `hermite_spline_xz.cxx` L107. -/
def h11 (t : K) : K := t * t * t - t * t

/-- The four-term combination used for each line. -/
def hermite4 (f0 f1 d0 d1 t : K) : K := f0 * h00 t + f1 * h01 t + d0 * h10 t + d1 * h11 t

/-- `XZHermiteSpline::interpolate` after the derivatives were computed,
`hermite_spline_xz.cxx` L182-227. -/
def hermite (g : Grid) (f fx fz fxz : Int → Int → K) (c : Corner K) : Out K := do
  let z := c.k
  let zp := (z + 1).tmod g.ncz
  let line (u ux : Int → Int → K) (z : Int) : Out K := do
    let a ← at? g u c.i z
    let b ← at? g u (c.i + 1) z
    let d ← at? g ux c.i z
    let e ← at? g ux (c.i + 1) z
    return hermite4 a b d e c.tx
  let f_z ← line f fx z
  let f_zp1 ← line f fx zp
  let fz_z ← line fz fxz z
  let fz_zp1 ← line fz fxz zp
  return hermite4 f_z f_zp1 fz_z fz_zp1 c.tz

/-- Index-space derivative in X with the default method C2 (`src/mesh/index_derivs.cxx`
L87-90, `DDX_C2`); used at interior columns only. -/
def ddx (f : Int → Int → K) : Int → Int → K := fun x z => (f (x + 1) z - f (x - 1) z) / 2
/-- Index-space derivative in Z with the default method C2, periodic. -/
def ddz (ncz : Int) (f : Int → Int → K) : Int → Int → K :=
  fun x z => (f x ((z + 1).tmod ncz) - f x ((z - 1 + ncz).tmod ncz)) / 2

/-- `XZHermiteSpline::interpolate(f, delta_x, delta_z)`, `hermite_spline_xz.cxx` L160-234,
with the derivatives of L167-188. -/
def interpHermite (g : Grid) (f : Int → Int → K) (dx dz : K) : Out K := do
  let c ← cornerHermite g dx dz
  hermite g f (ddx f) (ddz g.ncz f) (ddx (ddz g.ncz f)) c

/-- `BOUTMAX` of four values. -/
def max4 (a b c d : K) : K := max (max a b) (max c d)
/-- `BOUTMIN` of four values. -/
def min4 (a b c d : K) : K := min (min a b) (min c d)

/-- `XZMonotonicHermiteSpline::interpolate`, `monotonic_hermite_spline_xz.cxx` L31-138. -/
def monotonic (g : Grid) (f fx fz fxz : Int → Int → K) (c : Corner K) : Out K := do
  let z := wrap g.ncz c.k
  let zp := (z + 1).tmod g.ncz
  let r ← hermite g f fx fz fxz ⟨c.i, z, c.tx, c.tz⟩
  let a ← at? g f c.i z
  let b ← at? g f (c.i + 1) z
  let d ← at? g f c.i zp
  let e ← at? g f (c.i + 1) zp
  let localmax := max4 a b d e
  let localmin := min4 a b d e
  let r := if r > localmax then localmax else r
  let r := if r < localmin then localmin else r
  return r

/-- `XZMonotonicHermiteSpline::interpolate(f, delta_x, delta_z)`: weights of
`XZHermiteSpline::calcWeights`. -/
def interpMonotonic (g : Grid) (f : Int → Int → K) (dx dz : K) : Out K := do
  let c ← cornerHermite g dx dz
  monotonic g f (ddx f) (ddz g.ncz f) (ddx (ddz g.ncz f)) c

/-- `XZHermiteSpline::getWeightsForYApproximation`, `hermite_spline_xz.cxx` L136-150: the Z
positions and weights at column `i`. -/
def yWeights (g : Grid) (c : Corner K) : List (Int × K) :=
  let km := c.k
  let kmm1 := if km > 0 then km - 1 else g.ncz - 1
  [(kmm1, -(1 / 2) * h10 c.tz), (km, h00 c.tz - 1 / 2 * h11 c.tz),
   ((km + 1).tmod g.ncz, h01 c.tz + 1 / 2 * h10 c.tz), ((km + 2).tmod g.ncz, 1 / 2 * h11 c.tz)]

/-- Applying positions and weights to the values of a column. -/
def applyWeights (f : Int → K) (l : List (Int × K)) : K := (l.map fun p => f p.1 * p.2).sum

/-- `ZHermiteSpline::calcWeights` and `interpolate` at one point of a column,
`hermite_spline_z.cxx` L60-107 and L157-190. -/
def interpZ (ncz : Int) (f : Int → K) (dz : K) : Out K :=
  let k := wrap ncz ⌊dz⌋
  let t : K := dz - (⌊dz⌋ : Int)
  let fz : Int → K := fun z => (f ((z + 1).tmod ncz) - f ((z - 1 + ncz).tmod ncz)) / 2
  if t < 0 ∨ t > 1 then .error (.exc "t_z out of range")
  else .ok (hermite4 (f k) (f ((k + 1).tmod ncz)) (fz k) (fz ((k + 1).tmod ncz)) t)

/-! ### Field2D -/

/-- `static_cast<int>` of a real: truncation towards zero. -/
def truncI (x : K) : Int := if 0 ≤ x then ⌊x⌋ else ⌈x⌉

/-- `interpolate(const Field2D&, const Field3D&)` at one point, `interpolation_xz.cxx`
L54-90: here `dx` is the displacement from `jx`. -/
def interp2D (nx : Int) (f : Int → K) (jx : Int) (dx : K) : K :=
  let j0 := truncI dx
  let xs := dx - (j0 : Int)
  let j := j0 + jx
  let p : Int × K := if j < 0 then (0, 0) else if j ≥ nx - 1 then (nx - 2, 1) else (j, xs)
  f p.1 * (1 - p.2) + f (p.1 + 1) * p.2

/-! ### Between cell centres and faces -/

/-- `interp`, `interpolation.hxx` L37-39. -/
def interp (s : Stencil K) : K := (9 * (s.m + s.p) - s.mm - s.pp) / 16

/-- `interp_to` from centres to lower faces at one interior point of a line,
`interpolation.hxx` L98-103 (X), L148-153 (Y, field aligned), L172-177 (Z). -/
def toLow (nan : K) (f : Int → K) (i : Int) : K := interp (populate .c2l true nan f i)
/-- `interp_to` from lower faces to centres, `interpolation.hxx` L104-109 and so on. -/
def toCentre (nan : K) (f : Int → K) (i : Int) : K := interp (populate .l2c true nan f i)

end Verif.Num.Interp
