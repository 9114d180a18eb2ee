import Mathlib.Algebra.Field.Basic
import Verif.Common

/-!
# The iterative parallel tridiagonal Laplacian solver

Model of src/invert/laplace/impls/iterative_parallel_tri/iterative_parallel_tri.cxx (`LaplaceIPT`), for the
processors of one y row and any number of Fourier modes: the local inversions, the reduced system with one unknown
per processor (two on the last), red-black Gauss-Seidel on it, the loop with its convergence test, the cache of
coefficients, and the reconstruction of the full solution.

Left out: the transforms in z, how the matrix is made (C43), the coarse grids of the multigrid cycle (they only supply
a correction to the reduced unknowns, which is arbitrary here), the prediction of convergence (which checks are made is
arbitrary), and message order (each exchange is a simultaneous assignment).  LAPACK's tridiagonal solver `tri` is
external.  Exact arithmetic.
-/

namespace Verif.Ipt

variable {K M : Type} [Field K]

/-- `NXPE`, `xstart`, `xend`, `LocalNx`. -/
structure Geo where
  N : Nat
  xs : Nat
  xe : Nat
  ncx : Nat

/-- One mode's matrix at one y index: by processor and local x index. -/
structure Mat (K : Type) where
  a : Nat → Nat → K
  b : Nat → Nat → K
  c : Nat → Nat → K

def first (p : Nat) : Bool := p = 0
def last (g : Geo) (p : Nat) : Bool := p + 1 = g.N

/-- Internal guard cells: L351-367 "Patch up internal boundaries". -/
def inner (g : Geo) (p ix : Nat) : Bool := (!last g p && g.xe < ix) || (!first p && ix < g.xs)

def patch (g : Geo) (p : Nat) (v : K) (f : Nat → K) (ix : Nat) : K := if inner g p ix then v else f ix

/-- A tridiagonal solver: lower, diagonal, upper, right-hand side. -/
abbrev Tri (K : Type) := (Nat → K) → (Nat → K) → (Nat → K) → (Nat → K) → Nat → K

/-- `tridag` with the patched arrays of processor `p`. -/
def localSolve (g : Geo) (tri : Tri K) (m : Mat K) (p : Nat) (r : Nat → K) : Nat → K :=
  tri (patch g p 0 (m.a p)) (patch g p 1 (m.b p)) (patch g p 0 (m.c p)) r

/-- L1003-1036: response of the local rows to a unit value in the upper (lower) guard cell. -/
def upperGuard (g : Geo) (tri : Tri K) (m : Mat K) (p : Nat) : Nat → K :=
  if last g p then fun _ => 0 else localSolve g tri m p fun i => if i = g.xe + 1 then 1 else 0

def lowerGuard (g : Geo) (tri : Tri K) (m : Mat K) (p : Nat) : Nat → K :=
  if first p then fun _ => 0 else localSolve g tri m p fun i => if i + 1 = g.xs then 1 else 0

/-- What the solver object holds for one y index, mode and processor (L1043-1047, L1081-1082). -/
structure LCoef (K : Type) where
  up : Nat → K
  lo : Nat → K
  r1 : K
  r2 : K

def LCoef.al (g : Geo) (l : LCoef K) : K := l.lo g.xs
def LCoef.bl (g : Geo) (l : LCoef K) : K := l.up g.xs
def LCoef.au (g : Geo) (l : LCoef K) : K := l.lo g.xe
def LCoef.bu (g : Geo) (l : LCoef K) : K := l.up g.xe

/-- The coefficients of the reduced rows, held by `levels[0]`. -/
structure RCoef (K : Type) where
  ar1 : K
  br1 : K
  cr1 : K
  brinv1 : K
  ar2 : K
  br2 : K
  cr2 : K
  brinv2 : K

/-- L1061-1071: the coefficients sent up; `small` is `abs(al) <= 1e-14`. -/
def sendA (g : Geo) (small : K → Bool) (up lo : Nat → K) : K :=
  if small (lo g.xs) then 0 else lo g.xe / lo g.xs
def sendB (g : Geo) (small : K → Bool) (up lo : Nat → K) : K :=
  if small (lo g.xs) then up g.xe else up g.xe - lo g.xe / lo g.xs * up g.xs

/-- What processor `p` received from below (L1056-1060, L1073-1075). -/
def fromBelow (g : Geo) (small : K → Bool) (U L : Nat → Nat → K) (p : Nat) : K × K :=
  if first p then (1, 0) else (sendA g small (U (p - 1)) (L (p - 1)), sendB g small (U (p - 1)) (L (p - 1)))

/-- The constructor of the finest level (L961-1140), what it stores in the solver object. -/
def buildL (g : Geo) (tri : Tri K) (small : K → Bool) (m : Mat K) (p : Nat) : LCoef K :=
  let U := upperGuard g tri m
  let L := lowerGuard g tri m
  let al := L p g.xs
  let Delta := 1 / (1 - al * (fromBelow g small U L p).2)
  { up := U p, lo := L p, r1 := Delta * al, r2 := Delta }

/-- The constructor of the finest level, what it stores in the level.  On the last processor `ar(2)` and `cr(2)` are
assigned under `if (not lastX())` inside `if (lastX())` (L1085-1098), that is never: they keep what was in memory. -/
def buildR (g : Geo) (tri : Tri K) (small : K → Bool) (junk : RCoef K) (m : Mat K) (p : Nat) : RCoef K :=
  let U := upperGuard g tri m
  let L := lowerGuard g tri m
  let al := L p g.xs
  let bl := U p g.xs
  let Delta := 1 / (1 - al * (fromBelow g small U L p).2)
  { ar1 := -Delta * al * (fromBelow g small U L p).1,
    cr1 := if last g p then m.a p (g.xe + 1) * bl / m.b p (g.xe + 1) else -Delta * bl,
    br1 := 1, br2 := 1, brinv1 := 1, brinv2 := 1, ar2 := junk.ar2, cr2 := junk.cr2 }

/-- The right-hand side of the reduced rows, `init_rhs` L1142-1206. -/
structure Rhs (K : Type) where
  minvb : Nat → K
  rr1 : K
  rr2 : K

def sendR (g : Geo) (small : K → Bool) (l : LCoef K) (minvb : Nat → K) : K :=
  if small (l.al g) then minvb g.xe else minvb g.xe - minvb g.xs * l.au g / l.al g

def initRhs (g : Geo) (tri : Tri K) (small : K → Bool) (lc : Nat → LCoef K) (m : Mat K) (b : Nat → Nat → K) (p : Nat) :
    Rhs K :=
  let mb := fun q => localSolve g tri m q (patch g q 0 (b q))
  let rl := mb p g.xs
  let ru := mb p g.xe
  let Rd := if first p then 0 else sendR g small (lc (p - 1)) (mb (p - 1))
  { minvb := mb p, rr1 := (lc p).r1 * Rd + (lc p).r2 * rl,
    rr2 := if last g p && !first p then ru - (lc p).au g * rl / (lc p).al g else ru }

/-- The values `xloc(0..3)` of one processor. -/
structure X4 (K : Type) where
  x0 : K
  x1 : K
  x2 : K
  x3 : K

/-- `xloc(index_end)` on level 0. -/
def xend (g : Geo) (p : Nat) (x : X4 K) : K := if last g p then x.x2 else x.x3

def isBlack (p : Nat) : Bool := p % 2 = 1

/-- Black sweep: work, L711-729. -/
def blackWork (g : Geo) (rc : Nat → RCoef K) (rr : Nat → Rhs K) (X : Nat → X4 K) (p : Nat) : X4 K :=
  if isBlack p then
    { X p with x1 := ((rr p).rr1 - (rc p).ar1 * (X p).x0 - (rc p).cr1 * xend g p (X p)) * (rc p).brinv1 }
  else X p

/-- Neighbours' values received by the processors of one colour, L682-709 and L734-759. -/
def receive (g : Geo) (who : Nat → Bool) (X : Nat → X4 K) (p : Nat) : X4 K :=
  if who p then
    { X p with x0 := if first p then (X p).x0 else (X (p - 1)).x1,
               x3 := if last g p then (X p).x3 else (X (p + 1)).x1 }
  else X p

/-- Red sweep: work, L761-780. -/
def redWork (g : Geo) (rc : Nat → RCoef K) (rr : Nat → Rhs K) (X : Nat → X4 K) (p : Nat) : X4 K :=
  let x := if !isBlack p && !last g p then
    { X p with x1 := ((rr p).rr1 - (rc p).ar1 * (X p).x0 - (rc p).cr1 * (X p).x3) * (rc p).brinv1 } else X p
  if last g p then { x with x2 := ((rr p).rr2 - (rc p).ar2 * x.x1 - (rc p).cr2 * x.x3) * (rc p).brinv2 } else x

/-- Boundary values, L794-808. -/
def bndryWork (g : Geo) (m : Mat K) (X : Nat → X4 K) (p : Nat) : X4 K :=
  let x := X p
  let x := if first p then { x with x0 := -m.c p (g.xs - 1) * x.x1 / m.b p (g.xs - 1) } else x
  if last g p then { x with x3 := -m.a p (g.xe + 1) * x.x2 / m.b p (g.xe + 1) } else x

/-- `gauss_seidel_red_black` on level 0 (L660-810). -/
def gs (g : Geo) (m : Mat K) (rc : Nat → RCoef K) (rr : Nat → Rhs K) (X : Nat → X4 K) : Nat → X4 K :=
  bndryWork g m (receive g isBlack (redWork g rc rr (receive g (fun p => !isBlack p) (blackWork g rc rr X))))

/-- `calculate_residual` (L1259-1293) on level 0: at index 1, and at index 2 of the last processor. -/
def res1 (g : Geo) (rc : Nat → RCoef K) (rr : Nat → Rhs K) (X : Nat → X4 K) (p : Nat) : K :=
  (rr p).rr1 - (rc p).ar1 * (X p).x0 - (rc p).br1 * (X p).x1 - (rc p).cr1 * xend g p (X p)
def res2 (rc : Nat → RCoef K) (rr : Nat → Rhs K) (X : Nat → X4 K) (p : Nat) : K :=
  (rr p).rr2 - (rc p).ar2 * (X p).x1 - (rc p).br2 * (X p).x2 - (rc p).cr2 * (X p).x3

/-- `synchronize_reduced_field` on level 0 (L1432-1471). -/
def sync (g : Geo) (X : Nat → X4 K) : Nat → X4 K := receive g (fun _ => true) X

/-- One call's data: per mode the matrix, the coefficients and the right-hand side. -/
structure Task (K M : Type) where
  mat : M → Mat K
  rc : M → Nat → RCoef K
  rr : M → Nat → Rhs K

/-- The test of `calculate_total_residual` (L1208-1257) for one mode: a function of the residuals and values at index 1
of all processors and at index 2 of the last one; the first argument counts the tests (it may depend on anything
else). -/
abbrev Test (K : Type) := Nat → (Nat → K) → (Nat → K) → K → K → Bool

def check (g : Geo) (test : Test K) (k : Nat) (t : Task K M) (X : M → Nat → X4 K) (cv : M → Bool) (md : M) : Bool :=
  cv md || test k (fun p => if p < g.N then res1 g (t.rc md) (t.rr md) (X md) p else 0)
    (fun p => if p < g.N then (X md p).x1 else 0)
    (res2 (t.rc md) (t.rr md) (X md) (g.N - 1)) (X md (g.N - 1)).x2

/-- Options: `maxits`, `max_cycle` (at least one), `max_level`. -/
structure Opts where
  maxits : Nat
  maxCycle : Nat
  maxLevel : Nat

/-- Gauss-Seidel `n` times, for the modes that have not converged. -/
def visit (g : Geo) (t : Task K M) (cv : M → Bool) : Nat → (M → Nat → X4 K) → M → Nat → X4 K
  | 0, X => X
  | n + 1, X => visit g t cv n fun md => if cv md then X md else gs g (t.mat md) (t.rc md) (t.rr md) (X md)

/-- The correction from the coarse grids: `update_solution` (L1335-1360) and `synchronize_reduced_field`. -/
def correct (g : Geo) (cv : M → Bool) (e : M → Nat → K × K) (X : M → Nat → X4 K) (md : M) : Nat → X4 K :=
  sync g fun p => if cv md then X md p else { X md p with x1 := (X md p).x1 + (e md p).1, x2 := (X md p).x2 + (e md p).2 }

/-- How the loop ends. -/
inductive Res (K M : Type)
  | done (X : M → Nat → X4 K)
  | threw
  /-- not finished within the given number of passes -/
  | more

/-- The loop (L448-577), one pass per visit of level 0: `max_cycle` sweeps, then the test if this pass makes one
(`tests n`), and, if there are coarse grids, `2 max_level - 1` visits of those and their correction. -/
def loop (g : Geo) (o : Opts) (test : Test K) (tests : Nat → Bool) (e : Nat → M → Nat → K × K) (modes : List M)
    (t : Task K M) : Nat → Nat → Nat → (M → Nat → X4 K) → (M → Bool) → Res K M
  | 0, _, _, _, _ => .more
  | fuel + 1, n, count, X, cv =>
    if o.maxits < count + (o.maxCycle - 1) then .threw
    else
      let X := visit g t cv o.maxCycle X
      let cv := if tests n then check g test (n + 1) t X cv else cv
      let count := count + o.maxCycle
      if modes.all cv then .done X
      else if o.maxits < count then .threw
      else if o.maxLevel = 0 then loop g o test tests e modes t fuel (n + 1) count X cv
      else
        let count := count + (2 * o.maxLevel - 1) * o.maxCycle
        if o.maxits < count then .threw
        else loop g o test tests e modes t fuel (n + 1) count (correct g cv (e n) X) cv

/-- With the test before the loop (L443-446). -/
def iterate (g : Geo) (o : Opts) (test : Test K) (tests : Nat → Bool) (e : Nat → M → Nat → K × K) (modes : List M)
    (t : Task K M) (fuel : Nat) (X : M → Nat → X4 K) : Res K M :=
  let cv := check g test 0 t X fun _ => false
  if modes.all cv then .done X else loop g o test tests e modes t fuel 0 0 X cv

/-- `reconstruct_full_solution` (L164-189). -/
def reconstruct (g : Geo) (l : LCoef K) (r : Rhs K) (x : X4 K) (p ix : Nat) : K :=
  let xlow := if first p then x.x0 else (x.x1 - r.minvb g.xs - l.bl g * x.x3) / l.al g
  r.minvb ix + l.up ix * x.x3 + l.lo ix * xlow

/-- The solver object. -/
structure Obj (K M : Type) where
  /-- by y index, mode, processor -/
  lc : Nat → M → Nat → LCoef K
  /-- the coefficients in `levels[0]`, once it exists -/
  levels : Option (Nat → M → Nat → RCoef K)
  first : Nat → Bool
  saved : Nat → M → Nat → X4 K

/-- `resetSolver` after construction (L96-103). -/
def Obj.new : Obj K M :=
  { lc := fun _ _ _ => ⟨fun _ => 0, fun _ => 0, 0, 0⟩, levels := none, first := fun _ => true,
    saved := fun _ _ _ => ⟨0, 0, 0, 0⟩ }

/-- A call of `solve`: y index, matrices, right-hand sides. -/
structure Call (K M : Type) where
  jy : Nat
  mat : M → Mat K
  b : M → Nat → Nat → K

/-- Everything outside: options, test, coarse corrections, memory contents, number of passes. -/
structure Env (K M : Type) where
  g : Geo
  o : Opts
  tri : Tri K
  small : K → Bool
  test : Test K
  tests : Nat → Bool
  e : Nat → M → Nat → K × K
  modes : List M
  junk : RCoef K
  fuel : Nat

/-- Building the levels (L374-399): a new level is appended to the vector, so `levels[0]` is the first ever built, and
has coefficients at its own y index only.  `store` is `store_coefficients`. -/
def build (E : Env K M) (store : Bool) (s : Obj K M) (c : Call K M) : Obj K M :=
  if s.first c.jy || !store then
    { s with
      lc := fun j => if j = c.jy then fun md p => buildL E.g E.tri E.small (c.mat md) p else s.lc j,
      levels := match s.levels with
        | some f => some f
        | none => some fun j md p => if j = c.jy then buildR E.g E.tri E.small E.junk (c.mat md) p else E.junk }
  else s

/-- The reduced problem of a call. -/
def task (E : Env K M) (s : Obj K M) (c : Call K M) : Task K M :=
  { mat := c.mat,
    rc := fun md p => match s.levels with
      | some f => f c.jy md p
      | none => E.junk,
    rr := fun md p => initRhs E.g E.tri E.small (s.lc c.jy md) (c.mat md) (c.b md) p }

/-- `solve` (L226-652), in Fourier space: the new state and the solution by mode, processor and x index; `none` if an
exception was thrown or the loop has not finished. -/
def solve (E : Env K M) (store : Bool) (s : Obj K M) (c : Call K M) : Obj K M × Option (M → Nat → Nat → K) :=
  let s := build E store s c
  let t := task E s c
  match iterate E.g E.o E.test E.tests E.e E.modes t E.fuel (s.saved c.jy) with
  | .done X => ({ s with saved := fun j => if j = c.jy then X else s.saved j, first := fun j => if j = c.jy then false else s.first j },
      some fun md p ix => reconstruct E.g (s.lc c.jy md p) (t.rr md p) (X md p) p ix)
  | _ => (s, none)

def solves (E : Env K M) (store : Bool) : Obj K M → List (Call K M) → Obj K M
  | s, [] => s
  | s, c :: cs => solves E store (solve E store s c).1 cs

/-- `INVERT_KX_ZERO` (L612-622): subtracts the mean of the processor's own cells. -/
def kxZero (g : Geo) (x : Nat → Nat → K) (p ix : Nat) : K :=
  if g.xs ≤ ix ∧ ix ≤ g.xe then
    x p ix - ((List.range (g.xe + 1 - g.xs)).map fun i => x p (g.xs + i)).sum / ((g.xe + 1 - g.xs : Nat) : K)
  else x p ix

end Verif.Ipt
