import Verif.Num.Limiter
import Mathlib.Algebra.BigOperators.Group.Finset.Basic
import Mathlib.Algebra.BigOperators.Ring.Finset
import Mathlib.Data.Int.Interval
import Mathlib.Algebra.BigOperators.Intervals
import Mathlib.Tactic.FieldSimp

/-!
# C29: the finite volume operators along Y

Model of `FV::Div_par` (`include/bout/fv_ops.hxx` L192-371), `FV::Div_par_K_Grad_par`, `FV::D4DY4` and
`FV::D4DY4_Index` (`src/mesh/fv_ops.cxx` L182-431) on one field line: fixed `i`, `k` in field-aligned coordinates, so a
field is a function of the Y index.

Simplifications: `BoutReal` is an ordered field; the operators act on each `(i, k)` separately, so the loops over `i`
and `k` are dropped; `sqrt(g_22)` is an arbitrary function; the transforms to and from field-aligned coordinates are
not modelled.
-/
namespace Verif.Num

variable {K : Type} [Field K] [LinearOrder K] [IsStrictOrderedRing K]

/-- `result(j) += x`. -/
def addAt (r : Int → K) (j : Int) (x : K) : Int → K := fun i => if i = j then r i + x else r i

/-- `for (int j = a; j <= b; j++)`. -/
def irange (a b : Int) : List Int := (List.range (b + 1 - a).toNat).map (fun n : Nat => a + (n : Int))

/-- What a rank knows about one field line: its rows, and whether they touch a target. -/
structure YRank where
  ystart : Int
  yend : Int
  firstY : Bool
  lastY : Bool
  periodicY : Bool

/-- The fields on a field line, guard cells included. -/
structure Col (K : Type) where
  f : Int → K
  v : Int → K
  wave : Int → K
  J : Int → K
  sqrt_g22 : Int → K
  g22 : Int → K
  dy : Int → K

/-- fv_ops.hxx:246-251, 264-271: the area factor of the face between cells `j` and `j + 1`. -/
def areaUp (C : Col K) (j : Int) : K := (C.J j + C.J (j + 1)) / (C.sqrt_g22 j + C.sqrt_g22 (j + 1))

/-- fv_ops.hxx:254-259, 274-280: the area factor of the face between cells `j` and `j - 1`. -/
def areaDown (C : Col K) (j : Int) : K := (C.J j + C.J (j - 1)) / (C.sqrt_g22 j + C.sqrt_g22 (j - 1))

/-- fv_ops.hxx:299-331: the flux at the upper face as computed from cell `j`. -/
def fluxUp (R : YRank) (fixflux : Bool) (edges : K → K → K → Edges K) (C : Col K) (j : Int) : K :=
  let s := edges (C.f j) (C.f (j - 1)) (C.f (j + 1))
  let vpar := 1/2 * (C.v j + C.v (j + 1))
  if R.lastY = true ∧ j = R.yend ∧ R.periodicY = false then
    let bndryval := 1/2 * (C.f j + C.f (j + 1))
    if fixflux then bndryval * vpar else s.R * vpar + C.wave j * (s.R - bndryval)
  else
    let amax := BOUTMAX2 (C.wave j) (C.wave (j + 1))
    if vpar > amax then s.R * vpar
    else if vpar < -amax then 0
    else s.R * (1/2) * (vpar + amax)

/-- fv_ops.hxx:336-366: the flux at the lower face as computed from cell `j`. -/
def fluxDown (R : YRank) (fixflux : Bool) (edges : K → K → K → Edges K) (C : Col K) (j : Int) : K :=
  let s := edges (C.f j) (C.f (j - 1)) (C.f (j + 1))
  let vpar := 1/2 * (C.v j + C.v (j - 1))
  if R.firstY = true ∧ j = R.ystart ∧ R.periodicY = false then
    let bndryval := 1/2 * (C.f j + C.f (j - 1))
    if fixflux then bndryval * vpar else s.L * vpar - C.wave j * (s.L - bndryval)
  else
    let amax := BOUTMAX2 (C.wave j) (C.wave (j - 1))
    if vpar < -amax then s.L * vpar
    else if vpar > amax then 0
    else s.L * (1/2) * (vpar - amax)

/-- fv_ops.hxx:242-368: the body of the loop over `j`. -/
def divParBody (R : YRank) (fixflux : Bool) (edges : K → K → K → Edges K) (C : Col K) (r : Int → K) (j : Int) :
    Int → K :=
  let fu := fluxUp R fixflux edges C j
  let fd := fluxDown R fixflux edges C j
  let r := addAt r j (fu * (areaUp C j / (C.dy j * C.J j)))
  let r := addAt r (j + 1) (-(fu * (areaUp C j / (C.dy (j + 1) * C.J (j + 1)))))
  let r := addAt r j (-(fd * (areaDown C j / (C.dy j * C.J j))))
  addAt r (j - 1) (fd * (areaDown C j / (C.dy (j - 1) * C.J (j - 1))))

/-- fv_ops.hxx:218-370 `Div_par` on one field line. -/
def divPar (R : YRank) (fixflux : Bool) (edges : K → K → K → Edges K) (C : Col K) : Int → K :=
  let ys := if R.firstY = false ∨ R.periodicY = true then R.ystart - 1 else R.ystart
  let ye := if R.lastY = false ∨ R.periodicY = true then R.yend + 1 else R.yend
  (irange ys ye).foldl (divParBody R fixflux edges C) (fun _ => 0)

/-- fv_ops.cxx:205-239: the value of `Div_par_K_Grad_par` in one cell (without parallel slices). -/
def divParKGradPar (R : YRank) (bndry_flux : Bool) (C : Col K) (Kc : Int → K) (j : Int) : K :=
  let r0 : K := 0
  let r1 :=
    if bndry_flux = true ∨ R.periodicY = true ∨ R.lastY = false ∨ j ≠ R.yend then
      let c := 1/2 * (Kc j + Kc (j + 1))
      let J := 1/2 * (C.J j + C.J (j + 1))
      let g_22 := 1/2 * (C.g22 j + C.g22 (j + 1))
      let gradient := 2 * (C.f (j + 1) - C.f j) / (C.dy j + C.dy (j + 1))
      let flux := c * J * gradient / g_22
      r0 + flux / (C.dy j * C.J j)
    else r0
  if bndry_flux = true ∨ R.periodicY = true ∨ R.firstY = false ∨ j ≠ R.ystart then
    let c := 1/2 * (Kc j + Kc (j - 1))
    let J := 1/2 * (C.J j + C.J (j - 1))
    let g_22 := 1/2 * (C.g22 j + C.g22 (j - 1))
    let gradient := 2 * (C.f j - C.f (j - 1)) / (C.dy j + C.dy (j - 1))
    let flux := c * J * gradient / g_22
    r1 - flux / (C.dy j * C.J j)
  else r1

/-- fv_ops.cxx:286-294: the flux of `D4DY4` at the upper face of cell `j`. -/
def d4Flux (C : Col K) (d : Int → K) (j : Int) : K :=
  let dy3 := C.dy j * C.dy j * C.dy j
  let d3fdy3 := (C.f (j + 2) - 3 * C.f (j + 1) + 3 * C.f j - C.f (j - 1)) / dy3
  1/2 * (d j + d (j + 1)) * (C.J j + C.J (j + 1)) * d3fdy3

/-- fv_ops.cxx:266-300 `D4DY4`. -/
def d4dy4 (R : YRank) (C : Col K) (d : Int → K) : Int → K :=
  let hasUpper := !R.periodicY && R.lastY
  let hasLower := !R.periodicY && R.firstY
  let ys := if hasLower then R.ystart else R.ystart - 1
  let ye := if hasUpper then R.yend - 1 else R.yend
  (irange ys ye).foldl (fun r j =>
    let flux := d4Flux C d j
    let r := addAt r j (flux / (C.J j * C.dy j))
    addAt r (j + 1) (-(flux / (C.J (j + 1) * C.dy (j + 1))))) (fun _ => 0)

/-- fv_ops.cxx:325-378: the upper face in `D4DY4_Index`.  (The typing error `J(i, j, j)` in the common factor has no
effect for a metric without Z dependence.) -/
def d4IndexUp (R : YRank) (bndry_flux : Bool) (C : Col K) (r : Int → K) (j : Int) : Int → K :=
  let hasUpper := !R.periodicY && R.lastY
  if bndry_flux = true ∨ j ≠ R.yend ∨ hasUpper = false then
    let common := 1/4 * (C.dy j + C.dy (j + 1)) * (C.J j + C.J (j + 1))
    let d3 :=
      if j ≠ R.yend ∨ hasUpper = false then C.f (j + 2) - 3 * C.f (j + 1) + 3 * C.f j - C.f (j - 1)
      else -(16/5 * (1/2) * (C.f (j + 1) + C.f j) - 6 * C.f j + 4 * C.f (j - 1) - 6/5 * C.f (j - 2))
    let r := addAt r j (d3 * (common / (C.J j * C.dy j)))
    addAt r (j + 1) (-(d3 * (common / (C.J (j + 1) * C.dy (j + 1)))))
  else r

/-- fv_ops.cxx:380-425: the lower face in `D4DY4_Index`; the common factor uses `dy(j + 1)`. -/
def d4IndexDown (R : YRank) (bndry_flux : Bool) (C : Col K) (r : Int → K) (j : Int) : Int → K :=
  let hasLower := !R.periodicY && R.firstY
  if bndry_flux = true ∨ j ≠ R.ystart ∨ hasLower = false then
    let common := 1/4 * (C.dy j + C.dy (j + 1)) * (C.J j + C.J (j - 1))
    let d3 :=
      if j ≠ R.ystart ∨ hasLower = false then C.f (j + 1) - 3 * C.f j + 3 * C.f (j - 1) - C.f (j - 2)
      else -(-(16/5) * (1/2) * (C.f (j - 1) + C.f j) + 6 * C.f j - 4 * C.f (j + 1) + 6/5 * C.f (j + 2))
    let r := addAt r j (-(d3 * (common / (C.J j * C.dy j))))
    addAt r (j - 1) (d3 * (common / (C.J (j - 1) * C.dy (j - 1))))
  else r

/-- fv_ops.cxx:306-431 `D4DY4_Index`. -/
def d4Index (R : YRank) (bndry_flux : Bool) (C : Col K) : Int → K :=
  (irange R.ystart R.yend).foldl (fun r j => d4IndexDown R bndry_flux C (d4IndexUp R bndry_flux C r j) j)
    (fun _ => 0)

end Verif.Num
