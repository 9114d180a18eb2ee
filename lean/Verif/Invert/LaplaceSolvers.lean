import Verif.Invert.LaplaceProps
import Verif.Invert.SptMain
import Verif.Invert.Pcr

/-!
# The other tridiagonal solvers: `LaplaceSPT`, `LaplaceSerialTri`, `LaplacePCR` and `LaplacePCR_THOMAS`

The first two build the matrix with `Laplacian::tridagMatrix`, like `LaplaceCyclic`, but with `includeguards == true`.  LAPACK's `zgtsv` is
taken by its specification.
-/

namespace Verif.Laplace

open Verif.Fourier Verif.Cyclic Finset Complex
open scoped Classical

/-- `xbndry` of `LaplaceSPT::solve` (`spt.cxx` L94-98, L176-180): unlike the width used for the matrix it does not depend on
`INVERT_BNDRY_ONE` of either side. -/
def sptWidth (xstart : Int) (fl : LapFlags) : Int :=
  if has fl.global INVERT_BOTH_BNDRY_ONE ∨ xstart < 2 then 1 else xstart

/-- `bs` of `LaplaceSPT::solve` (`spt.cxx` L92-115, L173-205). -/
noncomputable def LapSetup.sptRhs (s : LapSetup) (b x0 : Nat → Int → Nat → ℝ) (q : Nat) (ix : Int) : Nat → ℝ :=
  let g := s.geom q
  if has s.flags.outer INVERT_SET ∧ g.lastX ∧ g.localNx - sptWidth g.xstart s.flags ≤ ix then x0 q ix
  else if has s.flags.inner INVERT_SET ∧ g.firstX ∧ ix < sptWidth g.xstart s.flags then x0 q ix
  else b q ix

/-- The matrix of one mode (`LaplaceSPT::start`, `spt.cxx` L314-330). -/
noncomputable def LapSetup.sptMatrix (s : LapSetup) (b x0 : Nat → Int → Nat → ℝ) (q kz : Nat) : Except String (Nat → Row ℂ) :=
  tridagMatrix s.opts (s.geom q) (s.coef q) s.flags s.periodicX kz (kz * 2 * Real.pi / s.zlength)
    (fun j => rfft s.n (s.sptRhs b x0 q (s.ix q j)) kz)

/-- The upper coefficient `tridagMatrix` computes for the guard cell before the first point of processor `q`
(`invert_laplace.cxx` L483-490 with `includeguards`), which is `c[-1]` in `tridagForward`. -/
noncomputable def LapSetup.guardC (s : LapSetup) (q kz : Nat) : ℂ :=
  (tridagCoefs s.opts (s.geom q) ((s.geom q).xstart - 1) (kz * 2 * Real.pi / s.zlength)
    (some ((s.coef q).C1, (s.coef q).C2)) (some (s.coef q).D)).c

/-- What `tridagForward` is given: on the first processor `xend + 1` rows from index 0, on the last also `xend + 1` rows, from
`xstart`, on the others `xend - xstart + 1` rows from `xstart` (`spt.cxx` L340-342, L391-395, L412-417): `N q` rows each. -/
noncomputable def LapSetup.sptSys (s : LapSetup) (b x0 : Nat → Int → Nat → ℝ) (kz q : Nat) : Spt.RankSys ℂ where
  n := s.N q
  row := match s.sptMatrix b x0 q kz with
    | .ok r => r
    | .error _ => fun _ => { a := 0, b := 0, c := 0, r := 0 }
  cm := s.guardC q kz

/-- One mode from `start` to the end of the loop in `finish`: `k` calls of `next`, after which one more has returned non-zero
(`spt.cxx` L296-507). -/
noncomputable def LapSetup.sptMode (s : LapSetup) (jg ju : Nat → Nat → ℂ) (k : Nat) (b x0 : Nat → Int → Nat → ℝ) (kz : Nat) :
    Except String (Nat → Nat → ℂ) :=
  match Spt.solveMode s.P (s.sptSys b x0 kz) jg ju k with
  | .error e => .error e
  | .ok st => match Spt.next s.P (s.sptSys b x0 kz) st with
    | .error e => .error e
    | .ok (false, _) => .error "still running"
    | .ok (true, st) => .ok st.u

/-- `LaplaceSPT::solve(b, x0)` (`spt.cxx` L84-131, L166-212, L495-544) on one slice.  `jg`, `ju` are the uninitialised `gam` and
`xk`, `k` the number of calls of `next` the slice has had.  The constructor refuses `periodicX` (L48-50). -/
noncomputable def LapSetup.sptSolve (s : LapSetup) (jg ju : Nat → Nat → Nat → ℂ) (k : Nat) (b x0 : Nat → Int → Nat → ℝ) :
    Except String (Nat → Nat → Nat → ℝ) :=
  if s.periodicX then .error "LaplaceSPT does not work with periodicity in the x direction"
  else if ∀ q, q < s.P → ∀ kz, kz < s.maxmode + 1 → ∃ r, s.sptMatrix b x0 q kz = .ok r then
    if ∀ kz, kz < s.maxmode + 1 → ∃ X, s.sptMode (jg kz) (ju kz) k b x0 kz = .ok X then
      .ok fun q j => irfft s.n (s.back (fun q kz j => match s.sptMode (jg kz) (ju kz) k b x0 kz with
        | .ok X => X q j
        | .error _ => 0) q j)
    else .error "SPT failed"
  else .error "tridagMatrix failed"

/-! ## Serial -/

/-- LAPACK `zgtsv` through `tridag` (`lapack_routines.cxx` L60-112): size and rows to solution. -/
abbrev Lapack := Nat → (Nat → Row ℂ) → Except String (Nat → ℂ)

/-- Its specification: a returned vector solves the tridiagonal system (the lower coefficient of the first row and the upper one of
the last are not passed). -/
def Lapack.Correct (lap : Lapack) : Prop :=
  ∀ n rows u, lap n rows = .ok u → Solves 1 (fun _ => n) false (fun _ => rows) (fun _ => u)

/-- `cyclic_tridag` (`lapack_routines.cxx` L300-345).  A zero `gamma` or a zero denominator gives infinities; modelled as a
failure. -/
noncomputable def cyclicTridag (lap : Lapack) (n : Nat) (rows : Nat → Row ℂ) : Except String (Nat → ℂ) :=
  if n ≤ 2 then .error "n too small in cyclic_tridag(dcomplex)"
  else
    let gamma := -(rows 0).b
    if gamma = 0 then .error "not finite"
    else
      let mod : Nat → Row ℂ := fun i =>
        if i = 0 then { rows i with b := (rows i).b - gamma }
        else if i = n - 1 then { rows i with b := (rows i).b - (rows i).c * (rows 0).a / gamma }
        else rows i
      match lap n mod with
      | .error e => .error e
      | .ok x =>
        let u : Nat → ℂ := fun i => if i = 0 then gamma else if i = n - 1 then (rows (n - 1)).c else 0
        match lap n (fun i => { mod i with r := u i }) with
        | .error e => .error e
        | .ok z =>
          let den := 1 + z 0 + (rows 0).a * z (n - 1) / gamma
          if den = 0 then .error "not finite"
          else
            let fact := (x 0 + (rows 0).a * x (n - 1) / gamma) / den
            .ok fun i => x i - fact * z i

def INVERT_KX_ZERO : Nat := 16

/-- The solution of one mode (`serial_tri.cxx` L178-210), non-periodic X; `xk1d` by row. -/
noncomputable def LapSetup.triMode (s : LapSetup) (lap : Lapack) (rhs x0 : Nat → Int → Nat → ℝ) (kz : Nat) :
    Except String (Nat → ℂ) :=
  match s.matrix rhs x0 0 kz with
  | .error e => .error e
  | .ok rows => match lap (s.N 0) rows with
    | .error e => .error e
    | .ok x =>
      if has s.flags.global INVERT_KX_ZERO ∧ kz = 0 then
        let g := s.geom 0
        let offset := (∑ i ∈ range (g.xend - g.xstart + 1).toNat, x (g.xstart.toNat + i)) / ((g.xend - g.xstart + 1 : ℤ) : ℂ)
        .ok fun j => if g.xstart ≤ (j : Int) ∧ (j : Int) ≤ g.xend then x j - offset else x j
      else .ok x

/-- `LaplaceSerialTri::solve(b, x0)` (`serial_tri.cxx` L68-247), non-periodic X.  The right-hand side is as for `LaplaceCyclic`
(L133-152) on a single processor. -/
noncomputable def LapSetup.triSolve (s : LapSetup) (lap : Lapack) (rhs x0 : Nat → Int → Nat → ℝ) :
    Except String (Nat → Nat → Nat → ℝ) :=
  if s.P ≠ 1 then .error "LaplaceSerialTri only works for localmesh->NXPE = 1"
  else if ∀ kz, kz < s.maxmode + 1 → ∃ X, s.triMode lap rhs x0 kz = .ok X then
    .ok fun q j => irfft s.n (s.back (fun _ kz j => match s.triMode lap rhs x0 kz with
      | .ok X => X j
      | .error _ => 0) q j)
  else .error "tridag failed"

/-! ## Parallel cyclic reduction -/

/-- `is_pow2` (`include/bout/utils.hxx` L493). -/
def isPow2 (x : Nat) : Bool := x != 0 && (x &&& (x - 1)) == 0

/-- The processors of `LaplacePCR` (`pcr.cxx` L106-134): `n_mpi = GlobalNxNoBoundaries / NXPE` interior points each.  `BoutMesh`
gives every processor as many (see `LapSetup.Uniform`). -/
def LapSetup.line (s : LapSetup) : Pcr.Line where
  P := s.P
  n := ((s.geom 0).xend - (s.geom 0).xstart + 1).toNat
  xstart := (s.geom 0).xstart.toNat

/-- All processors have as many points and guard cells. -/
def LapSetup.Uniform (s : LapSetup) : Prop :=
  ∀ q, q < s.P → (s.geom q).xstart = (s.geom 0).xstart ∧ (s.geom q).xend = (s.geom 0).xend

/-- `LaplacePCR::solve(const Field3D&, const Field3D&)` on one slice, not DST (`pcr.cxx` L64-135, L314-330, L458-545): the right-hand
side and the matrix are as for `LaplaceCyclic`; `junk` is the uninitialised `xcmplx3D` of every mode.  A division by zero gives
infinities, which `checkData` refuses or hands on; modelled as a failure. -/
noncomputable def LapSetup.pcrSolve (s : LapSetup) (junk : Nat → Nat → Nat → ℂ) (rhs x0 : Nat → Int → Nat → ℝ) :
    Except String (Nat → Nat → Nat → ℝ) :=
  if isPow2 s.P = false then .error "LaplacePCR error: NXPE must be a power of 2"
  else if isPow2 (s.P * s.line.n) = false then .error "LaplacePCR error: GlobalNxNoBoundaries must be a power of 2"
  else if ∀ q, q < s.P → ∀ kz, kz < s.maxmode + 1 → ∃ r, s.matrix rhs x0 q kz = .ok r then
    if ∀ kz, kz < s.maxmode + 1 → s.line.Pivots (fun q j => s.rows rhs x0 q kz j) then
      .ok fun q j => irfft s.n (s.back (fun q kz j => s.line.pcr (fun q j => s.rows rhs x0 q kz j) (junk kz) q j) q j)
    else .error "not finite"
  else .error "tridagMatrix failed"

/-- `LaplacePCR_THOMAS::solve(const Field3D&, const Field3D&)` on one slice (`pcr_thomas.cxx` L61-131, L310-326, L454-541). -/
noncomputable def LapSetup.pcrThomasSolve (s : LapSetup) (junk : Nat → Nat → Nat → ℂ) (rhs x0 : Nat → Int → Nat → ℝ) :
    Except String (Nat → Nat → Nat → ℝ) :=
  if isPow2 s.P = false then .error "LaplacePCR_THOMAS error: NXPE must be a power of 2"
  else if isPow2 (s.P * s.line.n) = false then .error "LaplacePCR_THOMAS error: GlobalNx must be a power of 2"
  else if ∀ q, q < s.P → ∀ kz, kz < s.maxmode + 1 → ∃ r, s.matrix rhs x0 q kz = .ok r then
    if ∀ kz, kz < s.maxmode + 1 → s.line.ThPivots (fun q j => s.rows rhs x0 q kz j) then
      .ok fun q j => irfft s.n (s.back (fun q kz j => s.line.pcrThomas (fun q j => s.rows rhs x0 q kz j) (junk kz) q j) q j)
    else .error "not finite"
  else .error "tridagMatrix failed"

/-- `LaplacePCR::solve(const FieldPerp&, const FieldPerp&)` (`pcr.cxx` L137-312).  Unlike the method for `Field3D` (L361) it does not
set `nsys`, which is 0 at first (`pcr.hxx` L161) and `nmode * ny` after a `Field3D` has been solved for; `cr_pcr_solver` treats
that many modes.  `xcmplx` is otherwise unchanged. -/
noncomputable def LapSetup.pcrPerp (s : LapSetup) (nsys : Nat) (junk : Nat → Nat → Nat → ℂ) (rhs x0 : Nat → Int → Nat → ℝ) :
    Except String (Nat → Nat → Nat → ℝ) :=
  if isPow2 s.P = false then .error "LaplacePCR error: NXPE must be a power of 2"
  else if isPow2 (s.P * s.line.n) = false then .error "LaplacePCR error: GlobalNxNoBoundaries must be a power of 2"
  else if ∀ q, q < s.P → ∀ kz, kz < s.maxmode + 1 → ∃ r, s.matrix rhs x0 q kz = .ok r then
    if s.maxmode + 1 < nsys then .error "out of range"
    else if ∀ kz, kz < nsys → s.line.Pivots (fun q j => s.rows rhs x0 q kz j) then
      .ok fun q j => irfft s.n (s.back (fun q kz j =>
        if kz < nsys then s.line.pcr (fun q j => s.rows rhs x0 q kz j) (junk kz) q j else junk kz q j) q j)
    else .error "not finite"
  else .error "tridagMatrix failed"

/-- As many boundary rows as guard cells on either side. -/
def LapSetup.FullWidth (s : LapSetup) : Prop :=
  inbndry (s.geom 0).xstart s.flags = (s.geom 0).xstart ∧ outbndry (s.geom 0).xstart s.flags = (s.geom 0).xstart

/-! ## What a user gets -/

/-- The guard cell of each processor in X has the upper matrix coefficient of the neighbour's last point (see
`C58_guards_agree`, and `C58_one_guard_violated` for when it has not). -/
def LapSetup.GuardsAgree (s : LapSetup) : Prop :=
  ∀ q, q + 1 < s.P → ∀ kz, kz ≤ s.maxmode → s.guardC (q + 1) kz =
    (tridagCoefs s.opts (s.geom q) (s.geom q).xend (kz * 2 * Real.pi / s.zlength)
      (some ((s.coef q).C1, (s.coef q).C2)) (some (s.coef q).D)).c

/-- Where `x0` is used, `LaplaceSPT` copies it into as many rows as the matrix has boundary rows. -/
def LapSetup.WidthsAgree (s : LapSetup) : Prop :=
  ∀ q, q < s.P → (has s.flags.inner INVERT_SET = true → inbndry (s.geom q).xstart s.flags = sptWidth (s.geom q).xstart s.flags) ∧
    (has s.flags.outer INVERT_SET = true → outbndry (s.geom q).xstart s.flags = sptWidth (s.geom q).xstart s.flags)

/-- `x` is what one of the tridiagonal solvers returned for `rhs` and `x0`: the cyclic reduction solver, for any pivot threshold and
order of messages; the pipelined Thomas solver, for any content of uninitialised memory and number of calls, where the guard cells
and boundary widths agree; the serial solver, for any correct LAPACK; the parallel cyclic reduction solvers, for any content of
uninitialised memory, in X not periodic, the second one with at least two points per processor and as many boundary rows as guard
cells. -/
inductive LapSetup.Returned (s : LapSetup) (rhs x0 : Nat → Int → Nat → ℝ) (x : Nat → Nat → Nat → ℝ) : Prop
  | cyclic (hg : s.flags.guards = false) (tiny : ℂ → Prop) (h0 : ∀ v, v = 0 → tiny v) (order : Nat → List Nat)
      (hord : ∀ q, q < s.P → (order q).Perm (List.range s.P)) (h : s.solve tiny order rhs x0 = .ok x)
  | spt (hg : s.flags.guards = true) (hc : s.GuardsAgree) (hb : s.WidthsAgree) (jg ju : Nat → Nat → Nat → ℂ) (k : Nat)
      (h : s.sptSolve jg ju k rhs x0 = .ok x)
  | tri (hg : s.flags.guards = true) (hper : s.periodicX = false) (hkx : has s.flags.global INVERT_KX_ZERO = false) (lap : Lapack)
      (hl : lap.Correct) (h : s.triSolve lap rhs x0 = .ok x)
  | pcr (hg : s.flags.guards = false) (hper : s.periodicX = false) (hu : s.Uniform) (junk : Nat → Nat → Nat → ℂ)
      (h : s.pcrSolve junk rhs x0 = .ok x)
  | pcrThomas (hg : s.flags.guards = false) (hper : s.periodicX = false) (hu : s.Uniform) (hn : 2 ≤ s.line.n) (hf : s.FullWidth)
      (junk : Nat → Nat → Nat → ℂ) (h : s.pcrThomasSolve junk rhs x0 = .ok x)

end Verif.Laplace
