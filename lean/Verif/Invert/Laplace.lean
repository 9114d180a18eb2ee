import Verif.Num.Fourier
import Verif.Cyclic.Model
import Mathlib.Analysis.SpecialFunctions.Sqrt
import Mathlib.Algebra.Order.Floor.Ring

/-!
# Perpendicular Laplacian and its inversion

Model of `Laplacian::tridagCoefs` and `Laplacian::tridagMatrix`
(`src/invert/laplace/invert_laplace.cxx`), of `LaplaceCyclic::solve(FieldPerp)`
(`src/invert/laplace/impls/cyclic/cyclic_laplace.cxx`) on all processors of one row
of processors in X, with the tridiagonal solver modelled in `Verif/Cyclic`, and of
`Coordinates::Delp2(FieldPerp)` (`src/mesh/coordinates.cxx`).

One Y index is fixed: every `Field2D` is a function of the local X index of its
processor.  Metric components are 2D (`BOUT_USE_METRIC_3D` off).  Arithmetic is
exact.
-/

namespace Verif.Laplace

open Verif.Fourier Verif.Cyclic
open scoped Classical

/-- What one processor knows: `localmesh` sizes and `Coordinates` at the Y index. -/
structure Geom where
  localNx : Int
  xstart : Int
  xend : Int
  firstX : Bool
  lastX : Bool
  dx : Int → ℝ
  g11 : Int → ℝ
  g33 : Int → ℝ
  g13 : Int → ℝ
  G1 : Int → ℝ
  G3 : Int → ℝ
  /-- covariant `g_11` -/
  gd11 : Int → ℝ
  /-- covariant `g_22` -/
  gd22 : Int → ℝ
  /-- `IntShiftTorsion` -/
  torsion : Int → ℝ

/-- Options of the `Laplacian` (`invert_laplace.cxx` L95-121) and of the mesh which
enter the coefficients. -/
structure LapOpts where
  allTerms : Bool
  nonuniform : Bool
  incIntShear : Bool

/-- The three matrix entries of one row. -/
structure Coef3 where
  a : ℂ
  b : ℂ
  c : ℂ

/-- `Laplacian::tridagCoefs` (`invert_laplace.cxx` L284-383).  `cc` is
`(c1coef, c2coef)` or null, `d` is `Dcoef` or null. -/
noncomputable def tridagCoefs (o : LapOpts) (g : Geom) (jx : Int) (kwave : ℝ)
    (cc : Option ((Int → ℝ) × (Int → ℝ))) (d : Option (Int → ℝ)) : Coef3 :=
  let coef1 := g.g11 jx
  let coef2 := g.g33 jx
  let coef3 := 2 * g.g13 jx
  let coef4 := if o.allTerms then g.G1 jx else 0
  let coef5 := if o.allTerms then g.G3 jx else 0
  let dd : ℝ := match d with
    | some d => d jx
    | none => 1
  let coef1 := coef1 * dd
  let coef2 := coef2 * dd
  let coef3 := coef3 * dd
  let coef4 := coef4 * dd
  let coef5 := coef5 * dd
  let coef4 := if o.nonuniform ∧ jx ≠ 0 ∧ jx ≠ g.localNx - 1 then
      coef4 - 0.5 * ((g.dx (jx + 1) - g.dx (jx - 1)) / (g.dx jx) ^ 2) * coef1
    else coef4
  let dc : ℝ := match cc with
    | some (c1, c2) =>
      if 0 < jx ∧ jx < g.localNx - 1 then
        (c2 (jx + 1) - c2 (jx - 1)) / (2 * g.dx jx * c1 jx)
      else 0
    | none => 0
  let coef4 := coef4 + g.g11 jx * dc
  let coef5 := coef5 + g.g13 jx * dc
  let coef2 := if o.incIntShear then coef2 + g.g11 jx * g.torsion jx * g.torsion jx else coef2
  let coef3 := if o.incIntShear then 0 else coef3
  let coef1 := coef1 / (g.dx jx) ^ 2
  let coef3 := coef3 / (2 * g.dx jx)
  let coef4 := coef4 / (2 * g.dx jx)
  { a := ⟨coef1 - coef4, -kwave * coef3⟩
    b := ⟨-2 * coef1 - kwave ^ 2 * coef2, kwave * coef5⟩
    c := ⟨coef1 + coef4, kwave * coef3⟩ }

/-- `Coordinates::Delp2(const FieldPerp&)` and `Delp2(const Field3D&)` at one Y, FFT
branch (`coordinates.cxx` L1671-1709 and L1735-1766), at an interior `jx`; the
coefficients come from `laplace_tridag_coefs` (`invert_laplace.cxx` L804-807 and
L256-275) without C and D. -/
noncomputable def delp2 (n : Nat) (zlength : ℝ) (o : LapOpts) (g : Geom)
    (f : Int → Nat → ℝ) (jx : Int) : Nat → ℝ :=
  irfft n fun jz =>
    let t := tridagCoefs o g jx (jz * 2 * Real.pi / zlength) none none
    t.a * rfft n (f (jx - 1)) jz + t.b * rfft n (f jx) jz + t.c * rfft n (f (jx + 1)) jz

/-! ## Flags (`include/bout/invert_laplace.hxx` L71-101) -/

def INVERT_DC_GRAD : Nat := 1
def INVERT_AC_GRAD : Nat := 2
def INVERT_AC_LAP : Nat := 4
def INVERT_SET : Nat := 16
def INVERT_RHS : Nat := 32
def INVERT_DC_LAP : Nat := 64
def INVERT_BNDRY_ONE : Nat := 128
def INVERT_DC_GRADPAR : Nat := 256
def INVERT_DC_GRADPARINV : Nat := 512
def INVERT_IN_CYLINDER : Nat := 1024
def INVERT_ZERO_DC : Nat := 1
def INVERT_BOTH_BNDRY_ONE : Nat := 4

/-- `flags & bit`. -/
def has (flags bit : Nat) : Bool := flags &&& bit != 0

/-- The coefficients a user has set, on one processor. -/
structure LapCoef where
  A : Int → ℝ
  C1 : Int → ℝ
  C2 : Int → ℝ
  D : Int → ℝ

/-- Flags of the inversion, and the argument `includeguards` the solver passes to `tridagMatrix`: `false` from `LaplaceCyclic`,
`true` (the default) from `LaplaceSPT` and `LaplaceSerialTri`. -/
structure LapFlags where
  global : Nat
  inner : Nat
  outer : Nat
  guards : Bool := false

/-- Width of the inner boundary (`invert_laplace.cxx` L468-479;
`cyclic_laplace.cxx` L119-129). -/
def inbndry (xstart : Int) (fl : LapFlags) : Int :=
  if has fl.inner INVERT_BNDRY_ONE then 1
  else if has fl.global INVERT_BOTH_BNDRY_ONE ∨ xstart < 2 then 1
  else xstart

/-- Width of the outer boundary (same lines). -/
def outbndry (xstart : Int) (fl : LapFlags) : Int :=
  if has fl.outer INVERT_BNDRY_ONE then 1
  else if has fl.global INVERT_BOTH_BNDRY_ONE ∨ xstart < 2 then 1
  else xstart

/-- First X index solved for (`invert_laplace.cxx` L451-462 with
`includeguards == false`; `cyclic_laplace.cxx` L76-81). -/
def xs (g : Geom) (periodicX : Bool) : Int :=
  if g.firstX = false ∨ periodicX = true then g.xstart else 0

/-- Last X index solved for (same, and `cyclic_laplace.cxx` L82-87). -/
def xe (g : Geom) (periodicX : Bool) : Int :=
  if g.lastX = false ∨ periodicX = true then g.xend else g.localNx - 1

/-- Set `a`, `b`, `c` of the rows satisfying `P`. -/
noncomputable def setRows (P : Nat → Prop) (v : Nat → Coef3) (rows : Nat → Row ℂ) (ix : Nat) :
    Row ℂ :=
  if P ix then { a := (v ix).a, b := (v ix).b, c := (v ix).c, r := (rows ix).r } else rows ix

/-- Set the right-hand side of the rows satisfying `P` to zero. -/
noncomputable def zeroRhs (P : Nat → Prop) (rows : Nat → Row ℂ) (ix : Nat) : Row ℂ :=
  if P ix then { rows ix with r := 0 } else rows ix

/-- The rows before boundary conditions (`invert_laplace.cxx` L483-490). -/
noncomputable def baseRows (o : LapOpts) (g : Geom) (co : LapCoef) (periodicX : Bool)
    (kwave : ℝ) (bk : Nat → ℂ) (ix : Nat) : Row ℂ :=
  let jx := xs g periodicX + ix
  let t := tridagCoefs o g jx kwave (some (co.C1, co.C2)) (some co.D)
  { a := t.a, b := t.b + (co.A jx : ℂ), c := t.c, r := bk ix }

/-- Decay rate of the `DC_LAP` conditions: `sqrt(-A(inbndry))`, an error if the
square is negative (`invert_laplace.cxx` L536-543 and L696-703: both read
`(*a)(inbndry, jy)`). -/
noncomputable def dcLapK (co : LapCoef) (inb : Int) : Except String ℝ :=
  if -(co.A inb) < 0 then .error "ksq must be positive" else .ok (Real.sqrt (-(co.A inb)))

/-- Inner boundary rows (`invert_laplace.cxx` L494-652). -/
noncomputable def innerRows (g : Geom) (co : LapCoef) (fl : LapFlags) (kz : Nat) (kwave : ℝ)
    (rows0 : Nat → Row ℂ) : Except String (Nat → Row ℂ) :=
  let inb := inbndry g.xstart fl
  let P : Nat → Prop := fun ix => (ix : Int) < inb
  let f := fl.inner
  let rows := if has f (INVERT_RHS ||| INVERT_SET) then rows0 else zeroRhs P rows0
  if kz = 0 then
    if has f INVERT_DC_GRAD ∧ (has f INVERT_SET ∨ has f INVERT_RHS) then
      .ok (setRows P (fun ix => { a := 0
                                  b := ((-1 / Real.sqrt (g.gd11 ix) / g.dx ix : ℝ) : ℂ)
                                  c := ((1 / Real.sqrt (g.gd11 ix) / g.dx ix : ℝ) : ℂ) }) rows)
    else if has f INVERT_DC_GRAD then
      .ok (setRows P (fun _ => { a := 0, b := -1, c := 1 }) rows)
    else if has f INVERT_DC_GRADPAR then
      .ok (setRows P (fun ix => { a := 0
                                  b := ((1 / Real.sqrt (g.gd22 ix) : ℝ) : ℂ)
                                  c := ((-1 / Real.sqrt (g.gd22 (ix + 1)) : ℝ) : ℂ) }) rows)
    else if has f INVERT_DC_GRADPARINV then
      .ok (setRows P (fun ix => { a := 0
                                  b := ((Real.sqrt (g.gd22 ix) : ℝ) : ℂ)
                                  c := ((-Real.sqrt (g.gd22 (ix + 1)) : ℝ) : ℂ) }) rows)
    else if has f INVERT_DC_LAP then
      match dcLapK co inb with
      | .error e => .error e
      | .ok k =>
        .ok (setRows P (fun ix => { a := 0, b := 1
                                    c := ((-Real.exp (-k * g.dx ix / Real.sqrt (g.g11 ix)) : ℝ) : ℂ) })
              rows)
    else if has f INVERT_IN_CYLINDER then
      .ok (setRows P (fun _ => { a := 0, b := 1, c := -1 }) rows)
    else
      .ok (setRows P (fun _ => { a := 0, b := ((1 / 2 : ℝ) : ℂ), c := ((1 / 2 : ℝ) : ℂ) }) rows)
  else
    if has f INVERT_AC_GRAD ∧ (has f INVERT_SET ∨ has f INVERT_RHS) then
      .ok (setRows P (fun ix => { a := 0
                                  b := ((-1 / Real.sqrt (g.gd11 ix) / g.dx ix : ℝ) : ℂ)
                                  c := ((1 / Real.sqrt (g.gd11 ix) / g.dx ix : ℝ) : ℂ) }) rows)
    else if has f INVERT_AC_GRAD then
      .ok (setRows P (fun _ => { a := 0, b := -1, c := 1 }) rows)
    else if has f INVERT_AC_LAP then
      .ok (setRows P (fun ix => { a := 0, b := 1
                                  c := ((-Real.exp (-1 * Real.sqrt (g.g33 ix / g.g11 ix) * kwave
                                    * g.dx ix) : ℝ) : ℂ) }) rows)
    else if has f INVERT_IN_CYLINDER then
      .ok (setRows P (fun _ => { a := 0, b := 1, c := if kz % 2 = 0 then -1 else 1 }) rows)
    else
      .ok (setRows P (fun _ => { a := 0, b := ((1 / 2 : ℝ) : ℂ), c := ((1 / 2 : ℝ) : ℂ) }) rows)

/-- Outer boundary rows (`invert_laplace.cxx` L653-759).  A row `p = ncx - ix` is
written when `ncx - p < outbndry`; the code reads the metric at `ncx - ix`, i.e. at
`p`, except for `AC_LAP` which reads it at `xe - ix`.  The conditions `DC_GRADPAR`,
`DC_GRADPARINV` and `DC_LAP` test the *inner* flags and use the *inner* width.
With `includeguards` the rows of the code are numbered from the first local index; the model numbers them from the first one
solved for in either case, so that `ncx - ix` is `off + p`.
An error "out of range" stands for the read of `g_22(ncx - ix + 1)` beyond the last
local index. -/
noncomputable def outerRows (g : Geom) (co : LapCoef) (fl : LapFlags) (periodicX : Bool) (kz : Nat)
    (kwave : ℝ) (rows0 : Nat → Row ℂ) : Except String (Nat → Row ℂ) :=
  let inb := inbndry g.xstart fl
  let outb := outbndry g.xstart fl
  let ncx := xe g periodicX - xs g periodicX
  let P : Nat → Prop := fun p => ncx - (p : Int) < outb ∧ (p : Int) ≤ ncx
  let Q : Nat → Prop := fun p => ncx - (p : Int) < inb ∧ (p : Int) ≤ ncx
  let off : Int := if fl.guards then xs g periodicX else 0
  let f := fl.outer
  let rows := if has f (INVERT_RHS ||| INVERT_SET) then rows0 else zeroRhs P rows0
  if kz = 0 then
    if has f INVERT_DC_GRAD ∧ (has f INVERT_SET ∨ has f INVERT_RHS) then
      .ok (setRows P (fun p => { a := ((-1 / Real.sqrt (g.gd11 (off + p)) / g.dx (off + p) : ℝ) : ℂ)
                                 b := ((1 / Real.sqrt (g.gd11 (off + p)) / g.dx (off + p) : ℝ) : ℂ)
                                 c := 0 }) rows)
    else if has f INVERT_DC_GRAD then
      .ok (setRows P (fun _ => { a := 1, b := -1, c := 0 }) rows)
    else if has fl.inner INVERT_DC_GRADPAR then
      if g.localNx ≤ off + ncx + 1 then .error "out of range"
      else .ok (setRows Q (fun p => { a := ((1 / Real.sqrt (g.gd22 (off + p + 1)) : ℝ) : ℂ)
                                      b := ((-1 / Real.sqrt (g.gd22 (off + p)) : ℝ) : ℂ)
                                      c := 0 }) rows)
    else if has fl.inner INVERT_DC_GRADPARINV then
      .ok (setRows Q (fun p => { a := ((Real.sqrt (g.gd22 (off + p - 1)) : ℝ) : ℂ)
                                 b := ((-Real.sqrt (g.gd22 (off + p)) : ℝ) : ℂ)
                                 c := 0 }) rows)
    else if has fl.inner INVERT_DC_LAP then
      match dcLapK co inb with
      | .error e => .error e
      | .ok k =>
        .ok (setRows Q (fun p => { a := ((-Real.exp (-k * g.dx (off + p) / Real.sqrt (g.g11 (off + p))) : ℝ) : ℂ)
                                   b := 1, c := 0 }) rows)
    else
      .ok (setRows P (fun _ => { a := ((1 / 2 : ℝ) : ℂ), b := ((1 / 2 : ℝ) : ℂ), c := 0 }) rows)
  else
    if has f INVERT_AC_GRAD ∧ (has f INVERT_SET ∨ has f INVERT_RHS) then
      .ok (setRows P (fun p => { a := ((-1 / Real.sqrt (g.gd11 (off + p)) / g.dx (off + p) : ℝ) : ℂ)
                                 b := ((1 / Real.sqrt (g.gd11 (off + p)) / g.dx (off + p) : ℝ) : ℂ)
                                 c := 0 }) rows)
    else if has f INVERT_AC_GRAD then
      .ok (setRows P (fun _ => { a := 1, b := -1, c := 0 }) rows)
    else if has f INVERT_AC_LAP then
      .ok (setRows P (fun p =>
        let jx := xs g periodicX + p
        { a := ((-Real.exp (-1 * Real.sqrt (g.g33 jx / g.g11 jx) * kwave * g.dx jx) : ℝ) : ℂ)
          b := 1, c := 0 }) rows)
    else
      .ok (setRows P (fun _ => { a := ((1 / 2 : ℝ) : ℂ), b := ((1 / 2 : ℝ) : ℂ), c := 0 }) rows)

/-- `Laplacian::tridagMatrix` with `zperiodic == true` (`invert_laplace.cxx` L434-771): the rows of the points solved for, from
`xs`.  With `includeguards` the code also fills rows for guard cells; of those only `c` just before `xs` is ever used
(`LapSetup.guardC`). -/
noncomputable def tridagMatrix (o : LapOpts) (g : Geom) (co : LapCoef) (fl : LapFlags)
    (periodicX : Bool) (kz : Nat) (kwave : ℝ) (bk : Nat → ℂ) :
    Except String (Nat → Row ℂ) :=
  let rows := baseRows o g co periodicX kwave bk
  if periodicX = false then
    match (if g.firstX then innerRows g co fl kz kwave rows else .ok rows) with
    | .error e => .error e
    | .ok rows => if g.lastX then outerRows g co fl periodicX kz kwave rows else .ok rows
  else if kz = 0 ∧ g.firstX then
    .ok fun ix => if ix = 0 then { a := 0, b := 1, c := 0, r := 0 } else rows ix
  else .ok rows

/-- An inversion on `P` processors in X: what every processor holds. -/
structure LapSetup where
  P : Nat
  /-- `LocalNz` -/
  n : Nat
  zlength : ℝ
  maxmode : Nat
  periodicX : Bool
  opts : LapOpts
  flags : LapFlags
  geom : Nat → Geom
  coef : Nat → LapCoef

/-- Number of X points solved for on processor `q`. -/
def LapSetup.N (s : LapSetup) (q : Nat) : Nat :=
  (xe (s.geom q) s.periodicX - xs (s.geom q) s.periodicX + 1).toNat

/-- Local X index of row `j` on processor `q`. -/
def LapSetup.ix (s : LapSetup) (q j : Nat) : Int := xs (s.geom q) s.periodicX + j

/-- The right-hand side in Fourier space (`cyclic_laplace.cxx` L215-231): in the
boundary rows the `x0` argument is used instead of `rhs` if `INVERT_SET` is given. -/
noncomputable def LapSetup.bk (s : LapSetup) (rhs x0 : Nat → Int → Nat → ℝ) (q kz j : Nat) : ℂ :=
  let ix := s.ix q j
  let g := s.geom q
  if (ix < inbndry g.xstart s.flags ∧ has s.flags.inner INVERT_SET ∧ g.firstX)
      ∨ (g.localNx - ix - 1 < outbndry g.xstart s.flags ∧ has s.flags.outer INVERT_SET ∧ g.lastX)
  then rfft s.n (x0 q ix) kz
  else rfft s.n (rhs q ix) kz

/-- The matrix row of mode `kz` (`cyclic_laplace.cxx` L233-244). -/
noncomputable def LapSetup.matrix (s : LapSetup) (rhs x0 : Nat → Int → Nat → ℝ) (q kz : Nat) :
    Except String (Nat → Row ℂ) :=
  tridagMatrix s.opts (s.geom q) (s.coef q) s.flags s.periodicX kz
    (kz * 2 * Real.pi / s.zlength) (s.bk rhs x0 q kz)

/-- The X average of the real part of the `kz = 0` solution, computed with
`MPI_Allreduce` over the row of processors (`cyclic_laplace.cxx` L252-263). -/
noncomputable def LapSetup.average (s : LapSetup) (x : Nat → Nat → Nat → ℂ) : ℝ :=
  (∑ q ∈ Finset.range s.P, ∑ j ∈ Finset.range (s.N q), (x q 0 j).re)
    / (∑ q ∈ Finset.range s.P, ((s.N q : Nat) : ℝ))

/-- The coefficient handed to `irfft` (`cyclic_laplace.cxx` L264-288). -/
noncomputable def LapSetup.back (s : LapSetup) (x : Nat → Nat → Nat → ℂ) (q j kz : Nat) : ℂ :=
  if has s.flags.global INVERT_ZERO_DC ∧ kz = 0 then 0
  else if s.maxmode + 1 ≤ kz then 0
  else if s.periodicX ∧ kz = 0 then x q 0 j - (s.average x : ℂ)
  else x q kz j

/-- The matrices of all modes, as handed to the tridiagonal solver
(`cyclic_laplace.cxx` L246-248). -/
noncomputable def LapSetup.rows (s : LapSetup) (rhs x0 : Nat → Int → Nat → ℝ) (q kz : Nat) :
    Nat → Row ℂ :=
  match s.matrix rhs x0 q kz with
  | .ok r => r
  | .error _ => fun _ => { a := 0, b := 0, c := 0, r := 0 }

/-- `LaplaceCyclic::solve(const FieldPerp& rhs, const FieldPerp& x0)`, non-DST branch,
on all processors (`cyclic_laplace.cxx` L109-303).  `order` is the order in which the
messages of the tridiagonal solver arrive. The result is indexed by processor and
row `j` (local X index `xs + j`). -/
noncomputable def LapSetup.solve (s : LapSetup) (tiny : ℂ → Prop) (order : Nat → List Nat)
    (rhs x0 : Nat → Int → Nat → ℝ) : Except String (Nat → Nat → Nat → ℝ) :=
  if ∀ q, q < s.P → ∀ kz, kz < s.maxmode + 1 → ∃ r, s.matrix rhs x0 q kz = .ok r then
    match distSolve tiny s.P (s.maxmode + 1) s.N s.periodicX (s.rows rhs x0) order with
    | .ok x => .ok fun q j => irfft s.n (s.back x q j)
    | .error _ => .error "tridiagonal solver failed"
  else .error "tridagMatrix failed"

end Verif.Laplace
