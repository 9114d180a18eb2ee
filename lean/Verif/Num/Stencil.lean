import Verif.Num.Limiter
import Mathlib.Algebra.Order.Field.Basic
import Mathlib.Tactic.Ring

/-!
# C30: derivative stencils

Model of `include/bout/stencils.hxx` L35-127 (`stencil`, `populateStencil`), `src/mesh/index_derivs.cxx` L71-415 (every
registered stencil method) and `DerivativeType::standard` / `upwindOrFlux` (`include/bout/index_derivs.hxx` L80-118).

Simplifications: `BoutReal` is an ordered field; the stencils act along one grid line, so a field is a function of the
index along that line (for `YOrthogonal`, with its parallel slices laid out along the line); a point that
`populateStencil` does not fill holds `BoutNaN`, here an arbitrary value `nan`, and theorems quantify over it, so they
show that it is not used.  The FFT methods and `SPLIT` are not stencils and are not modelled.
-/
namespace Verif.Num

variable {K : Type} [Field K] [LinearOrder K] [IsStrictOrderedRing K]

/-- stencils.hxx:35-38 `struct stencil`. -/
structure Stencil (K : Type) where
  mm : K
  m : K
  c : K
  p : K
  pp : K

/-- `enum class STAGGER` (`include/bout/bout_types.hxx`). -/
inductive Stagger | none | c2l | l2c
  deriving DecidableEq, Repr

/-- stencils.hxx:40-119 `populateStencil`; `wide` is `nGuard == 2`. -/
def populate (stagger : Stagger) (wide : Bool) (nan : K) (f : Int → K) (i : Int) : Stencil K :=
  match stagger with
  | .none => { mm := if wide then f (i - 2) else nan, m := f (i - 1), c := f i, p := f (i + 1),
               pp := if wide then f (i + 2) else nan }
  | .c2l => { mm := if wide then f (i - 2) else nan, m := f (i - 1), c := f i, p := f i, pp := f (i + 1) }
  | .l2c => { mm := f (i - 1), m := f i, c := f i, p := f (i + 1), pp := if wide then f (i + 2) else nan }

/-! ## First derivatives -/

/-- index_derivs.cxx:74-76, registered with one guard cell. -/
def DDX_C2 (f : Stencil K) : K := 1/2 * (f.p - f.m)

/-- index_derivs.cxx:79-81, two guard cells. -/
def DDX_C4 (f : Stencil K) : K := (8 * f.p - 8 * f.m + f.mm - f.pp) / 12

/-- index_derivs.hxx:53 `WENO_SMALL`. -/
def WENO_SMALL : K := 1 / 100000000

/-- index_derivs.cxx:84-103, one guard cell. -/
def DDX_CWENO2 (f : Stencil K) : K :=
  let dc := 1/2 * (f.p - f.m)
  let dl := f.c - f.m
  let dr := f.p - f.c
  let isl := dl * dl
  let isr := dr * dr
  let isc := (13 / 3) * ((f.p - 2 * f.c + f.m) * (f.p - 2 * f.c + f.m)) + 1/4 * ((f.p - f.m) * (f.p - f.m))
  let al := 1/4 / ((WENO_SMALL + isl) * (WENO_SMALL + isl))
  let ar := 1/4 / ((WENO_SMALL + isr) * (WENO_SMALL + isr))
  let ac := 1/2 / ((WENO_SMALL + isc) * (WENO_SMALL + isc))
  let sa := al + ar + ac
  (al * dl + ar * dr + ac * dc) / sa

/-- index_derivs.cxx:106-114, two guard cells. -/
def DDX_S2 (f : Stencil K) : K :=
  (8 * f.p - 8 * f.m + f.mm - f.pp) / 12 + SIGN f.c * (f.pp - 4 * f.p + 6 * f.c - 4 * f.m + f.mm) / 12

/-! ## Second and fourth derivatives -/

/-- index_derivs.cxx:123-125, one guard cell. -/
def D2DX2_C2 (f : Stencil K) : K := f.p + f.m - 2 * f.c

/-- index_derivs.cxx:128-130, two guard cells. -/
def D2DX2_C4 (f : Stencil K) : K := (-f.pp + 16 * f.p - 30 * f.c + 16 * f.m - f.mm) / 12

/-- index_derivs.cxx:135-137, two guard cells. -/
def D4DX4_C2 (f : Stencil K) : K := f.pp - 4 * f.p + 6 * f.c - 4 * f.m + f.mm

/-! ## Upwind methods -/

/-- index_derivs.cxx:152-154, one guard cell. -/
def VDDX_C2 (vc : K) (f : Stencil K) : K := vc * (1/2) * (f.p - f.m)

/-- index_derivs.cxx:157-159, two guard cells. -/
def VDDX_C4 (vc : K) (f : Stencil K) : K := vc * (8 * f.p - 8 * f.m + f.mm - f.pp) / 12

/-- index_derivs.cxx:162-168, one guard cell (the statements after the `return` are dead code). -/
def VDDX_U1 (vc : K) (f : Stencil K) : K := if vc ≥ 0 then vc * (f.c - f.m) else vc * (f.p - f.c)

/-- index_derivs.cxx:171-179, two guard cells. -/
def VDDX_U2 (vc : K) (f : Stencil K) : K :=
  if vc ≥ 0 then vc * (3/2 * f.c - 2 * f.m + 1/2 * f.mm) else vc * (-(1/2) * f.pp + 2 * f.p - 3/2 * f.c)

/-- index_derivs.cxx:182-191, two guard cells. -/
def VDDX_U3 (vc : K) (f : Stencil K) : K :=
  if vc ≥ 0 then vc * (4 * f.p - 12 * f.m + 2 * f.mm + 6 * f.c) / 12
  else vc * (-4 * f.m + 12 * f.p - 2 * f.pp - 6 * f.c) / 12

/-- index_derivs.cxx:194-220, two guard cells. -/
def VDDX_WENO3 (vc : K) (f : Stencil K) : K :=
  let (r, deriv) :=
    if vc > 0 then
      ((WENO_SMALL + (f.c - 2 * f.m + f.mm) * (f.c - 2 * f.m + f.mm)) /
        (WENO_SMALL + (f.p - 2 * f.c + f.m) * (f.p - 2 * f.c + f.m)), -f.mm + 3 * f.m - 3 * f.c + f.p)
    else
      ((WENO_SMALL + (f.pp - 2 * f.p + f.c) * (f.pp - 2 * f.p + f.c)) /
        (WENO_SMALL + (f.p - 2 * f.c + f.m) * (f.p - 2 * f.c + f.m)), -f.m + 3 * f.c - 3 * f.p + f.pp)
  let w := 1 / (1 + 2 * r * r)
  let deriv := 1/2 * ((f.p - f.m) - w * deriv)
  vc * deriv

/-- index_derivs.cxx:224-260, two guard cells. -/
def DDX_CWENO3 (f : Stencil K) : K :=
  let ma := |f.c|
  let ma := if |f.m| > ma then |f.m| else ma
  let ma := if |f.p| > ma then |f.p| else ma
  let ma := if |f.mm| > ma then |f.mm| else ma
  let ma := if |f.pp| > ma then |f.pp| else ma
  let sp : Stencil K := ⟨f.mm + ma, f.m + ma, f.c + ma, f.p + ma, f.pp + ma⟩
  let sm : Stencil K := ⟨ma - f.mm, ma - f.m, ma - f.c, ma - f.p, ma - f.pp⟩
  VDDX_WENO3 (1/2) sp + VDDX_WENO3 (-(1/2)) sm

/-! ## Flux methods -/

/-- index_derivs.cxx:271-286, one guard cell. -/
def FDDX_U1 (v f : Stencil K) : K :=
  let vs := 1/2 * (v.m + v.c)
  let result := if vs ≥ 0 then vs * f.m else vs * f.c
  let vs := 1/2 * (v.c + v.p)
  let result := -(result - (if vs ≥ 0 then vs * f.c else vs * f.p))
  result

/-- index_derivs.cxx:288-299, two guard cells. -/
def FDDX_U2 (v f : Stencil K) : K :=
  let vs := 1/2 * (v.m + v.c)
  let result := if vs ≥ 0 then vs * (3/2 * f.m - 1/2 * f.mm) else vs * (3/2 * f.c - 1/2 * f.p)
  let vs := 1/2 * (v.c + v.p)
  let result := -(result - (if vs ≥ 0 then vs * (3/2 * f.c - 1/2 * f.m) else vs * (3/2 * f.p - 1/2 * f.pp)))
  result

/-- index_derivs.cxx:301-303 (registered with two guard cells). -/
def FDDX_C2 (v f : Stencil K) : K := 1/2 * (v.p * f.p - v.m * f.m)

/-- index_derivs.cxx:305-307, two guard cells. -/
def FDDX_C4 (v f : Stencil K) : K := (8 * v.p * f.p - 8 * v.m * f.m + v.mm * f.mm - v.pp * f.pp) / 12

/-! ## Staggered methods -/

/-- index_derivs.cxx:332-334, one guard cell. -/
def DDX_C2_stag (f : Stencil K) : K := f.p - f.m

/-- index_derivs.cxx:336-338, two guard cells. -/
def DDX_C4_stag (f : Stencil K) : K := (27 * (f.p - f.m) - (f.pp - f.mm)) / 24

/-- index_derivs.cxx:343-345, two guard cells. -/
def D2DX2_C2_stag (f : Stencil K) : K := (f.pp + f.mm - f.p - f.m) / 2

/-- index_derivs.cxx:350-361, one guard cell. -/
def VDDX_U1_stag (v f : Stencil K) : K :=
  let result := if v.m ≥ 0 then v.m * f.m else v.m * f.c
  let result := result - (if v.p ≥ 0 then v.p * f.c else v.p * f.p)
  let result := result * (-1)
  result - f.c * (v.p - v.m)

/-- index_derivs.cxx:363-377, two guard cells. -/
def VDDX_U2_stag (v f : Stencil K) : K :=
  let result := if v.p ≥ 0 then v.p * (3/2 * f.c - 1/2 * f.m) else v.p * (3/2 * f.p - 1/2 * f.pp)
  let result := result - (if v.m ≥ 0 then v.m * (3/2 * f.m - 1/2 * f.mm) else v.m * (3/2 * f.c - 1/2 * f.p))
  result - f.c * (v.p - v.m)

/-- index_derivs.cxx:379-383, one guard cell. -/
def VDDX_C2_stag (v f : Stencil K) : K := 1/2 * (v.p + v.m) * (1/2) * (f.p - f.m)

/-- index_derivs.cxx:385-390, two guard cells. -/
def VDDX_C4_stag (v f : Stencil K) : K :=
  (9 * (v.m + v.p) - v.mm - v.pp) / 16 * (8 * f.p - 8 * f.m + f.mm - f.pp) / 12

/-- index_derivs.cxx:395-403, one guard cell. -/
def FDDX_U1_stag (v f : Stencil K) : K :=
  let result := if v.m ≥ 0 then v.m * f.m else v.m * f.c
  let result := -(result - (if v.p ≥ 0 then v.p * f.c else v.p * f.p))
  result

/-- index_derivs.cxx:405-416, two guard cells. -/
def FDDX_U2_stag (v f : Stencil K) : K :=
  let result := if v.p ≥ 0 then v.p * (3/2 * f.c - 1/2 * f.m) else v.p * (3/2 * f.p - 1/2 * f.pp)
  result - (if v.m ≥ 0 then v.m * (3/2 * f.m - 1/2 * f.mm) else v.m * (3/2 * f.c - 1/2 * f.p))

/-! ## A method applied along a line -/

/-- index_derivs.hxx:80-90 `DerivativeType::standard`. -/
def standard (func : Stencil K → K) (stagger : Stagger) (wide : Bool) (nan : K) (var : Int → K) (i : Int) : K :=
  func (populate stagger wide nan var i)

/-- index_derivs.hxx:92-111 `DerivativeType::upwindOrFlux`, the branch for flux methods and staggered grids: the
velocity's stencil is staggered, the field's is not. -/
def flowStencil (func : Stencil K → Stencil K → K) (stagger : Stagger) (wide : Bool) (nan : K) (vel var : Int → K)
    (i : Int) : K :=
  func (populate stagger wide nan vel i) (populate .none wide nan var i)

/-- index_derivs.hxx:92-111, the branch for unstaggered upwind methods. -/
def flowValue (func : K → Stencil K → K) (wide : Bool) (nan : K) (vel var : Int → K) (i : Int) : K :=
  func (vel i) (populate .none wide nan var i)

/-- index_derivs.cxx:47-62 `Mesh::getStagger` (three arguments), with the cell locations numbered: `centre` and one
allowed staggered location.  `none` is the failed `ASSERT1`. -/
def getStagger (staggerGrids : Bool) (inloc outloc centre allowed : Nat) : Option Stagger :=
  if ¬ (outloc = inloc ∨ (outloc = centre ∧ inloc = allowed) ∨ (outloc = allowed ∧ inloc = centre)) then none
  else if staggerGrids = false ∨ outloc = inloc then some .none
  else if outloc = allowed then some .c2l
  else some .l2c

end Verif.Num
