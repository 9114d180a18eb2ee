import Mathlib.Data.Complex.Basic
import Mathlib.Analysis.SpecialFunctions.Sqrt

/-!
# The band Laplacian solver

Model of src/invert/laplace/impls/serial_band/serial_band.cxx (`LaplaceSerialBand`, fourth order differences in x) and of
`cband_solve` (src/invert/lapack_routines.cxx L228-265), at one y index and in Fourier space.

Left out: the transforms in z (C77), the second-order variant (compiled out), LAPACK's `zgbsv` (external).  Exact
arithmetic.  Metric and coefficients at the y index as functions of x.
-/

namespace Verif.SBand

noncomputable section

/-- What is used of the mesh, `Coordinates` and the solver's coefficients. -/
structure Geom where
  nx : Nat
  xstart : Nat
  dx : Nat → ℝ
  g11 : Nat → ℝ
  g33 : Nat → ℝ
  g13 : Nat → ℝ
  G1 : Nat → ℝ
  G3 : Nat → ℝ
  gu11 : Nat → ℝ
  gu22 : Nat → ℝ
  A : Nat → ℝ
  C : Nat → ℝ
  D : Nat → ℝ
  kwave : Nat → Nat → ℝ

/-- Bits of the flags of one boundary (invert_laplace.hxx L71-89). -/
structure Flags where
  dcGrad : Bool
  acGrad : Bool
  acLap : Bool
  set : Bool
  rhs : Bool
  dcLap : Bool
  dcGradpar : Bool
  dcGradparinv : Bool

structure Opts where
  allTerms : Bool
  nonuniform : Bool
  /-- INVERT_BOTH_BNDRY_ONE, INVERT_KX_ZERO, INVERT_ZERO_DC -/
  bothOne : Bool
  kxZero : Bool
  zeroDC : Bool
  inner : Flags
  outer : Flags
  maxmode : Nat

def cx (re im : ℝ) : ℂ := ⟨re, im⟩

/-- L100-104. -/
def xbndry (o : Opts) (g : Geom) : Nat := if o.bothOne || g.xstart < 2 then 1 else g.xstart

/-- A row of the matrix: five entries (others are not used). -/
abbrev Row := Nat → ℂ

def mk5 (a b c d e : ℂ) : Row := fun i =>
  if i = 0 then a else if i = 1 then b else if i = 2 then c else if i = 3 then d else e

/-- `coef4` before the division, L164-194. -/
def coef4 (o : Opts) (g : Geom) (ix : Nat) : ℝ :=
  (if o.allTerms then g.G1 ix else 0)
  + (if o.nonuniform && (ix ≠ 0 && ix ≠ g.nx - 1) then
      g.g11 ix * (1 / g.dx (ix + 1) - 1 / g.dx (ix - 1)) / (2 * g.dx ix) else 0)
  + (if 1 < ix ∧ ix < g.nx - 2 then
      g.g11 ix * (g.C (ix - 2) - 8 * g.C (ix - 1) + 8 * g.C (ix + 1) - g.C (ix + 2)) / (12 * g.dx ix * g.C ix) else 0)

/-- An interior row, L146-207. -/
def interior (o : Opts) (g : Geom) (kz ix : Nat) : Row :=
  let k := g.kwave kz ix
  let c1 := g.g11 ix * g.D ix / (12 * g.dx ix ^ 2)
  let c2 := g.g33 ix * g.D ix * k ^ 2
  let c3 := g.g13 ix * g.D ix * (k / (12 * g.dx ix))
  let c4 := coef4 o g ix / (12 * g.dx ix)
  let c5 := (if o.allTerms then g.G3 ix else 0) * k
  let c6 := g.A ix
  mk5 (cx (-c1 + c4) c3) (cx (16 * c1 - 8 * c4) (-8 * c3)) (cx (-30 * c1 - c2 + c6) c5)
    (cx (16 * c1 + 8 * c4) (8 * c3)) (cx (-c1 - c4) (-c3))

/-- The range of interior rows, L119-127. -/
def lo (o : Opts) (g : Geom) : Nat := if 1 < xbndry o g then xbndry o g else 2
def hi (o : Opts) (g : Geom) : Nat := if 1 < xbndry o g then g.nx - 1 - xbndry o g else g.nx - 2

/-- What `coef4` holds after the interior loop. -/
def coef4left (o : Opts) (g : Geom) : ℝ :=
  if lo o g ≤ hi o g then coef4 o g (hi o g) / (12 * g.dx (hi o g)) else 0

/-- Rows 1 and `ncx - 1` when there is one boundary row, L211-243: `d` is the factor applied (at the second one none). -/
def edge (o : Opts) (g : Geom) (kz : Nat) (d : ℝ) (ix : Nat) : Row :=
  let k := g.kwave kz 1
  let c1 := g.g11 ix / g.dx ix ^ 2 * d
  let c2 := g.g33 ix * d
  let c3 := k * g.g13 ix / (2 * g.dx ix) * d
  mk5 0 (cx c1 (-c3)) (cx (-2 * c1 - k ^ 2 * c2 + coef4left o g) 0) (cx c1 c3) 0

def unit : Row := mk5 0 0 1 0 0

def upd (A : Nat → Row) (ix : Nat) (r : Row) : Nat → Row := fun i => if i = ix then r else A i

/-- L144-262: interior, edges, and boundary rows. -/
def base (o : Opts) (g : Geom) (kz : Nat) (old : Nat → Row) : Nat → Row :=
  let A := fun ix => if lo o g ≤ ix ∧ ix ≤ hi o g then interior o g kz ix else old ix
  let A := if xbndry o g < 2 then
      upd (upd A 1 (edge o g kz (g.D 1) 1)) (g.nx - 2) (edge o g kz 1 (g.nx - 2)) else A
  fun ix => if ix < xbndry o g ∨ (g.nx - 1 < ix + xbndry o g ∧ ix < g.nx) then unit else A ix

/-- Inner boundary, DC: L267-315. -/
def innerDC (o : Opts) (g : Geom) (ix : Nat) (r : Row) : Row :=
  if (o.inner.dcGrad || o.inner.set) || (o.inner.dcGrad || o.inner.rhs) then
    mk5 0 0 (cx (-(1 / 2) / Real.sqrt (g.gu11 ix) / g.dx ix) 0) (cx (1 / 2 / Real.sqrt (g.gu11 ix) / g.dx ix) 0) 0
  else if o.inner.dcGrad then mk5 0 0 (cx (-(1 / 2)) 0) (cx (1 / 2) 0) 0
  else if o.inner.dcGradpar then
    mk5 0 0 (cx (-3 / Real.sqrt (g.gu22 ix)) 0) (cx (4 / Real.sqrt (g.gu22 (ix + 1))) 0)
      (cx (-1 / Real.sqrt (g.gu22 (ix + 2))) 0)
  else if o.inner.dcGradparinv then
    mk5 0 0 (cx (-3 * Real.sqrt (g.gu22 ix)) 0) (cx (4 * Real.sqrt (g.gu22 (ix + 1))) 0)
      (cx (-Real.sqrt (g.gu22 (ix + 2))) 0)
  else if o.inner.dcLap then mk5 0 0 1 (-2) 1
  else r

/-- Entry `j` of a row replaced. -/
def setEntry (r : Row) (j : Nat) (v : ℂ) : Row := fun i => if i = j then v else r i

/-- Zero Laplacian at the inner (outer) boundary, AC: L334-369, L377-414. -/
def lap1 (g : Geom) (kz : Nat) : Row :=
  let k := g.kwave kz 1
  let c1 := g.g11 1 / (12 * g.dx 1 ^ 2)
  let c3 := k * g.g13 1 / (2 * g.dx 1)
  mk5 0 (cx ((14 - (g.dx 0 * k) ^ 2 * g.g33 0 / g.g11 0) * c1) (-c3)) (cx (-29 * c1 - k ^ 2 * g.g33 1 + g.A 1) 0)
    (cx (16 * c1) c3) (cx (-c1) 0)
def lap0 (g : Geom) (kz : Nat) : Row :=
  let k := g.kwave kz 1
  let c1 := g.g11 1 / g.dx 1 ^ 2
  let c3 := k * g.g13 1 / (2 * g.dx 1)
  mk5 0 0 (cx c1 (-c3)) (cx (-2 * c1 - k ^ 2 * g.g33 1 + g.A 1) 0) (cx c1 c3)
def lapM (g : Geom) (kz : Nat) : Row :=
  let ix := g.nx - 2
  let k := g.kwave kz ix
  let c1 := g.g11 ix / (12 * g.dx ix ^ 2)
  let c3 := k * g.g13 ix / (2 * g.dx ix)
  mk5 (cx (-c1) 0) (cx (16 * c1) (-c3)) (cx (-29 * c1 - k ^ 2 * g.g33 ix + g.A ix) 0)
    (cx ((14 - (g.dx (g.nx - 1) * k) ^ 2 * g.g33 (g.nx - 1) / g.g11 (g.nx - 1)) * c1) c3) 0
def lapN (g : Geom) (kz : Nat) : Row :=
  let ix := g.nx - 2
  let k := g.kwave kz ix
  let c1 := g.g11 ix / g.dx ix ^ 2
  let c3 := k * g.g13 ix / (2 * g.dx ix)
  mk5 (cx c1 (-c3)) (cx (-2 * c1 - k ^ 2 * g.g33 ix + g.A ix) 0) (cx c1 c3) 0 0

/-- The matrix of one mode, L144-415; `old` is what the array held. -/
def matrix (o : Opts) (g : Geom) (kz : Nat) (old : Nat → Row) : Nat → Row :=
  let A := base o g kz old
  let inn := fun ix => decide (ix < xbndry o g)
  let out := fun ix => decide (g.nx - 1 < ix + xbndry o g ∧ ix < g.nx)
  if kz = 0 then
    let A := fun ix => if inn ix then innerDC o g ix (A ix) else A ix
    if o.outer.dcGrad then fun ix => if out ix then setEntry (A ix) 1 (-1) else A ix else A
  else
    let A := if o.inner.acGrad then fun ix => if inn ix then setEntry (A ix) 3 (-1) else A ix
      else if o.inner.acLap then upd (upd A 1 (lap1 g kz)) 0 (lap0 g kz) else A
    if o.outer.acGrad then fun ix => if out ix then setEntry (A ix) 1 (-1) else A ix
    else if o.outer.acLap then upd (upd A (g.nx - 2) (lapM g kz)) (g.nx - 1) (lapN g kz) else A

/-- The right-hand side of one mode, L106-117, L139-142, L247-255: `b`, `x0` in Fourier space. -/
def rhs (o : Opts) (g : Geom) (b x0 : Nat → Nat → ℂ) (kz ix : Nat) : ℂ :=
  let v := if (ix < xbndry o g && o.inner.set) || (g.nx - 1 < ix + xbndry o g && o.outer.set) then x0 kz ix else b kz ix
  let v := if ix < xbndry o g && !(o.inner.rhs || o.inner.set) then 0 else v
  if g.nx - 1 < ix + xbndry o g && !(o.outer.rhs || o.outer.set) then 0 else v

/-- The band array handed to LAPACK: `AB[j ldab + r]`, `ldab = 7`; entries never assigned hold `junk` (lapack_routines.cxx
L245-256, `kl = ku = 2`, `r = kl + i`). -/
def bandArray (n : Nat) (a : Nat → Row) (junk : Nat → ℂ) (idx : Nat) : ℂ :=
  let j := idx / 7
  let r := idx % 7
  if 2 ≤ r ∧ 2 ≤ j + (r - 2) ∧ j + (r - 2) < n + 2 then a (j + (r - 2) - 2) (4 - (r - 2)) else junk idx

/-- LAPACK's band solver: size, band array, right-hand side. -/
abbrev Zgbsv := Nat → (Nat → ℂ) → (Nat → ℂ) → Nat → ℂ

/-- `cband_solve` (the error code is not looked at). -/
def cbandSolve (z : Zgbsv) (junk : Nat → ℂ) (a : Nat → Row) (n : Nat) (b : Nat → ℂ) : Nat → ℂ :=
  z n (bandArray n a junk) b

/-- `INVERT_KX_ZERO`, L420-432. -/
def subMean (n : Nat) (x : Nat → ℂ) (ix : Nat) : ℂ :=
  x ix - ((List.range n).map fun (i : Nat) => x i).sum / (n : ℂ)

/-- `solve` for the mode `kz`: L130-448. -/
def solve (o : Opts) (g : Geom) (z : Zgbsv) (junk : Nat → ℂ) (old : Nat → Nat → Row) (b x0 : Nat → Nat → ℂ) (kz ix : Nat) :
    ℂ :=
  if o.maxmode < kz then 0
  else if o.zeroDC && kz = 0 then 0
  else
    let x := cbandSolve z junk (matrix o g kz (old kz)) g.nx (rhs o g b x0 kz)
    if o.kxZero && kz = 0 then subMean g.nx x ix else x ix

end

end Verif.SBand
