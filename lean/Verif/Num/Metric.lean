import Mathlib.Algebra.Order.Field.Basic
import Mathlib.Algebra.Order.AbsoluteValue.Basic
import Mathlib.Algebra.BigOperators.Fin
import Mathlib.Tactic.Ring

/-!
# C32: metric tensors, vectors and differential geometry

Model of `invert3x3` (`include/bout/utils.hxx`), `Coordinates::calcCovariant`, `calcContravariant`, `jacobian` and the
connection terms of `Coordinates::geometry` (`src/mesh/coordinates.cxx`), of `Vector3D`/`Vector2D`
(`src/field/vector3d.cxx`, `vector2d.cxx`, which differ in the type of their components only) and of the vector operators
(`src/field/vecops.cxx`).

Simplifications: `BoutReal` is a field; a field over the grid is a function from the points; the square root in `jacobian` is
replaced by its defining property (see `IsJacobian`); the derivative operators are arbitrary functions on fields; vectors are
at one location (not `CELL_VSHIFT`, whose components are interpolated); guard cell communication and extrapolation are left
out.
-/
namespace Verif.Num

/-! ## Matrix inversion -/

/-- A 3x3 `Matrix<BoutReal>`. -/
abbrev Mat (K : Type) := Fin 3 → Fin 3 → K

/-- Outcomes of `invert3x3`. -/
inductive InvResult (K : Type)
  | ok (a : Mat K)      -- returned 0, the matrix overwritten
  | singular            -- returned 1
  | thrown              -- BoutException

variable {K : Type} [Field K]

/-- The determinant as computed in utils.hxx:404-409. -/
def det3 (a : Mat K) : K :=
  let A := a 1 1 * a 2 2 - a 1 2 * a 2 1
  let B := a 1 2 * a 2 0 - a 1 0 * a 2 2
  let C := a 1 0 * a 2 1 - a 1 1 * a 2 0
  a 0 0 * A + a 0 1 * B + a 0 2 * C

/-- The overwritten matrix, utils.hxx:419-439. -/
def inverse3 (a : Mat K) : Mat K :=
  let A := a 1 1 * a 2 2 - a 1 2 * a 2 1
  let B := a 1 2 * a 2 0 - a 1 0 * a 2 2
  let C := a 1 0 * a 2 1 - a 1 1 * a 2 0
  let D := a 0 2 * a 2 1 - a 0 1 * a 2 2
  let E := a 0 0 * a 2 2 - a 0 2 * a 2 0
  let F := a 0 1 * a 2 0 - a 0 0 * a 2 1
  let G := a 0 1 * a 1 2 - a 0 2 * a 1 1
  let H := a 0 2 * a 1 0 - a 0 0 * a 1 2
  let I := a 0 0 * a 1 1 - a 0 1 * a 1 0
  let detinv := 1 / det3 a
  ![![A * detinv, D * detinv, G * detinv], ![B * detinv, E * detinv, H * detinv], ![C * detinv, F * detinv, I * detinv]]

/-- utils.hxx:399-442 `invert3x3`. -/
def invert3x3 [LinearOrder K] (a : Mat K) (small : K) : InvResult K :=
  if |det3 a| < |small| then
    if small ≥ 0 then .thrown else .singular
  else .ok (inverse3 a)

/-! ## The metric -/

/-- Six independent components of a symmetric tensor at a point: `g11, g22, g33, g12, g13, g23`. -/
@[ext] structure Sym (K : Type) where
  c11 : K
  c22 : K
  c33 : K
  c12 : K
  c13 : K
  c23 : K

/-- The matrix filled in coordinates.cxx:1235-1242, 1291-1298. -/
def Sym.fill (g : Sym K) : Mat K :=
  ![![g.c11, g.c12, g.c13], ![g.c12, g.c22, g.c23], ![g.c13, g.c23, g.c33]]

/-- The components read back in coordinates.cxx:1250-1256, 1306-1312. -/
def Sym.ofMat (a : Mat K) : Sym K := ⟨a 0 0, a 1 1, a 2 2, a 0 1, a 0 2, a 1 2⟩

/-- coordinates.cxx:1212-1273 `calcCovariant` (and 1275-1328 `calcContravariant`, the same with the two tensors exchanged):
invert the tensor `src` at every point of the region, writing `dst`; `none` when an exception is thrown.  (`return 1` of the code
cannot happen: `invert3x3` is called with a positive threshold.) -/
def calcInverse [LinearOrder K] {ι : Type} [DecidableEq ι] (small : K) (region : List ι) (src dst : ι → Sym K) :
    Option (ι → Sym K) :=
  match region with
  | [] => some dst
  | i :: rest =>
    match invert3x3 (src i).fill small with
    | .ok a => calcInverse small rest src (fun j => if j = i then Sym.ofMat a else dst j)
    | _ => none

/-- Metric at a point: contravariant `g11..`, covariant `g_11..`, Jacobian. -/
structure Metric (K : Type) where
  up : Sym K
  lo : Sym K
  J : K

/-- coordinates.cxx:1337-1338: the determinant under the root in `jacobian`. -/
def gdet (g : Sym K) : K :=
  g.c11 * g.c22 * g.c33 + 2 * g.c12 * g.c13 * g.c23 - g.c11 * g.c23 * g.c23 - g.c22 * g.c13 * g.c13 - g.c33 * g.c12 * g.c12

/-- coordinates.cxx:1343 `J = 1. / sqrt(g)`, by its defining property. -/
def IsJacobian (m : Metric K) : Prop := m.J * m.J * gdet m.up = 1

/-! ## Vectors at a point -/

/-- Components of a vector and whether they are covariant. -/
@[ext] structure Vec (K : Type) where
  x : K
  y : K
  z : K
  covariant : Bool

/-- The product with a symmetric tensor (vector3d.cxx:100-106, 153-159). -/
def Sym.mulVec (g : Sym K) (v : Vec K) (cov : Bool) : Vec K :=
  ⟨g.c11 * v.x + g.c12 * v.y + g.c13 * v.z, g.c22 * v.y + g.c12 * v.x + g.c23 * v.z,
   g.c33 * v.z + g.c13 * v.x + g.c23 * v.y, cov⟩

/-- vector3d.cxx:65-115 `toCovariant`. -/
def toCovariant (m : Metric K) (v : Vec K) : Vec K := if !v.covariant then m.lo.mulVec v true else v
/-- vector3d.cxx:116-169 `toContravariant`. -/
def toContravariant (m : Metric K) (v : Vec K) : Vec K := if v.covariant then m.up.mulVec v false else v

/-- vector3d.cxx:239-269 `operator+=`. -/
def vadd (m : Metric K) (v rhs : Vec K) : Vec K :=
  let v := if rhs.covariant then toCovariant m v else toContravariant m v
  ⟨v.x + rhs.x, v.y + rhs.y, v.z + rhs.z, v.covariant⟩

/-- vector3d.cxx:284-310 `operator-=`. -/
def vsub (m : Metric K) (v rhs : Vec K) : Vec K :=
  let v := if rhs.covariant then toCovariant m v else toContravariant m v
  ⟨v.x - rhs.x, v.y - rhs.y, v.z - rhs.z, v.covariant⟩

/-- vector3d.cxx:314-336 `operator*=`. -/
def vscale (v : Vec K) (c : K) : Vec K := ⟨v.x * c, v.y * c, v.z * c, v.covariant⟩

/-- vector3d.cxx:469-501, 503-535 dot product. -/
def dot (m : Metric K) (v w : Vec K) : K :=
  if w.covariant ^^ v.covariant then v.x * w.x + v.y * w.y + v.z * w.z
  else
    let g := if v.covariant then m.up else m.lo
    v.x * w.x * g.c11 + v.y * w.y * g.c22 + v.z * w.z * g.c33 +
      ((v.x * w.y + v.y * w.x) * g.c12 + (v.x * w.z + v.z * w.x) * g.c13 + (v.y * w.z + v.z * w.y) * g.c23)

/-- vector3d.cxx:366-390 `cross`. -/
def cross (m : Metric K) (lhs rhs : Vec K) : Vec K :=
  let rco := toCovariant m rhs
  let lco := toCovariant m lhs
  ⟨(lco.y * rco.z - lco.z * rco.y) / m.J, (lco.z * rco.x - lco.x * rco.z) / m.J, (lco.x * rco.y - lco.y * rco.x) / m.J,
   false⟩

/-! ## Connection terms -/

/-- `G1_11 ...` -/
structure Conn (K : Type) where
  G1 : Sym K
  G2 : Sym K
  G3 : Sym K

/-- Derivatives of the tensor components at a point: `d k` is the derivative of the components in direction `k`. -/
structure DMetric (K : Type) where
  dlo : Fin 3 → Sym K
  dup : Fin 3 → Sym K

/-- coordinates.cxx:966-1026: the connection terms at a point, `DDX(g_11)` being `(d.dlo 0).c11` and so on.  L989 has
`DDY(g23)`, a derivative of the contravariant component. -/
def christoffel (up : Sym K) (d : DMetric K) : Conn K :=
  let X := d.dlo 0
  let Y := d.dlo 1
  let Z := d.dlo 2
  { G1 :=
      { c11 := 1/2 * up.c11 * X.c11 + up.c12 * (X.c12 - 1/2 * Y.c11) + up.c13 * (X.c13 - 1/2 * Z.c11)
        c22 := up.c11 * (Y.c12 - 1/2 * X.c22) + 1/2 * up.c12 * Y.c22 + up.c13 * (Y.c23 - 1/2 * Z.c22)
        c33 := up.c11 * (Z.c13 - 1/2 * X.c33) + up.c12 * (Z.c23 - 1/2 * Y.c33) + 1/2 * up.c13 * Z.c33
        c12 := 1/2 * up.c11 * Y.c11 + 1/2 * up.c12 * X.c22 + 1/2 * up.c13 * (Y.c13 + X.c23 - Z.c12)
        c13 := 1/2 * up.c11 * Z.c11 + 1/2 * up.c12 * (Z.c12 + X.c23 - Y.c13) + 1/2 * up.c13 * X.c33
        c23 := 1/2 * up.c11 * (Z.c12 + Y.c13 - X.c23) + 1/2 * up.c12 * (Z.c22 + Y.c23 - Y.c23) + 1/2 * up.c13 * Y.c33 }
    G2 :=
      { c11 := 1/2 * up.c12 * X.c11 + up.c22 * (X.c12 - 1/2 * Y.c11) + up.c23 * (X.c13 - 1/2 * Z.c11)
        c22 := up.c12 * (Y.c12 - 1/2 * X.c22) + 1/2 * up.c22 * Y.c22 + up.c23 * ((d.dup 1).c23 - 1/2 * Z.c22)
        c33 := up.c12 * (Z.c13 - 1/2 * X.c33) + up.c22 * (Z.c23 - 1/2 * Y.c33) + 1/2 * up.c23 * Z.c33
        c12 := 1/2 * up.c12 * Y.c11 + 1/2 * up.c22 * X.c22 + 1/2 * up.c23 * (Y.c13 + X.c23 - Z.c12)
        c13 := 1/2 * up.c12 * (Z.c11 + X.c13 - X.c13) + 1/2 * up.c22 * (Z.c12 + X.c23 - Y.c13) + 1/2 * up.c23 * X.c33
        c23 := 1/2 * up.c12 * (Z.c12 + Y.c13 - X.c23) + 1/2 * up.c22 * Z.c22 + 1/2 * up.c23 * Y.c33 }
    G3 :=
      { c11 := 1/2 * up.c13 * X.c11 + up.c23 * (X.c12 - 1/2 * Y.c11) + up.c33 * (X.c13 - 1/2 * Z.c11)
        c22 := up.c13 * (Y.c12 - 1/2 * X.c22) + 1/2 * up.c23 * Y.c22 + up.c33 * (Y.c23 - 1/2 * Z.c22)
        c33 := up.c13 * (Z.c13 - 1/2 * X.c33) + up.c23 * (Z.c23 - 1/2 * Y.c33) + 1/2 * up.c33 * Z.c33
        c12 := 1/2 * up.c13 * Y.c11 + 1/2 * up.c23 * X.c22 + 1/2 * up.c33 * (Y.c13 + X.c23 - Z.c12)
        c13 := 1/2 * up.c13 * Z.c11 + 1/2 * up.c23 * (Z.c12 + X.c23 - Y.c13) + 1/2 * up.c33 * X.c33
        c23 := 1/2 * up.c13 * (Z.c12 + Y.c13 - X.c23) + 1/2 * up.c23 * Z.c22 + 1/2 * up.c33 * Y.c33 } }

/-- vecops.cxx:353-465 `V_dot_Grad` of a vector by a vector at a point: `vd f` stands for
`VDDX(vcn.x, f) + VDDY(vcn.y, f) + VDDZ(vcn.z, f)` of the three components of `a`. -/
def vDotGrad (m : Metric K) (G : Conn K) (v a : Vec K) (vdx vdy vdz : K) : Vec K :=
  let vcn := toContravariant m v
  if a.covariant then
    ⟨vdx - vcn.x * (G.G1.c11 * a.x + G.G2.c11 * a.y + G.G3.c11 * a.z)
         - vcn.y * (G.G1.c12 * a.x + G.G2.c12 * a.y + G.G3.c12 * a.z)
         - vcn.z * (G.G1.c13 * a.x + G.G2.c13 * a.y + G.G3.c13 * a.z),
     vdy - vcn.x * (G.G1.c12 * a.x + G.G2.c12 * a.y + G.G3.c12 * a.z)
         - vcn.y * (G.G1.c22 * a.x + G.G2.c22 * a.y + G.G3.c22 * a.z)
         - vcn.z * (G.G1.c23 * a.x + G.G2.c23 * a.y + G.G3.c23 * a.z),
     vdz - vcn.x * (G.G1.c13 * a.x + G.G2.c13 * a.y + G.G3.c13 * a.z)
         - vcn.y * (G.G1.c23 * a.x + G.G2.c23 * a.y + G.G3.c23 * a.z)
         - vcn.z * (G.G1.c33 * a.x + G.G2.c33 * a.y + G.G3.c33 * a.z), true⟩
  else
    ⟨vdx + vcn.x * (G.G1.c11 * a.x + G.G1.c12 * a.y + G.G1.c13 * a.z)
         + vcn.y * (G.G1.c12 * a.x + G.G1.c22 * a.y + G.G1.c23 * a.z)
         + vcn.z * (G.G1.c13 * a.x + G.G1.c23 * a.y + G.G1.c33 * a.z),
     vdy + vcn.x * (G.G2.c11 * a.x + G.G2.c12 * a.y + G.G2.c13 * a.z)
         + vcn.y * (G.G2.c12 * a.x + G.G2.c22 * a.y + G.G2.c23 * a.z)
         + vcn.z * (G.G2.c13 * a.x + G.G2.c23 * a.y + G.G2.c33 * a.z),
     vdz + vcn.x * (G.G3.c11 * a.x + G.G3.c12 * a.y + G.G3.c13 * a.z)
         + vcn.y * (G.G3.c12 * a.x + G.G3.c22 * a.y + G.G3.c23 * a.z)
         + vcn.z * (G.G3.c13 * a.x + G.G3.c23 * a.y + G.G3.c33 * a.z), false⟩

/-! ## Operators on fields -/

/-- The derivative operators at the location of the fields. -/
structure Deriv (ι K : Type) where
  DDX : (ι → K) → ι → K
  DDY : (ι → K) → ι → K
  DDZ : (ι → K) → ι → K

/-- A vector field, one representation everywhere. -/
structure VField (ι K : Type) where
  x : ι → K
  y : ι → K
  z : ι → K
  covariant : Bool

def VField.at {ι : Type} (v : VField ι K) (i : ι) : Vec K := ⟨v.x i, v.y i, v.z i, v.covariant⟩

/-- `toCovariant` at every point. -/
def VField.toCov {ι : Type} (m : ι → Metric K) (v : VField ι K) : VField ι K :=
  ⟨fun i => (toCovariant (m i) (v.at i)).x, fun i => (toCovariant (m i) (v.at i)).y,
   fun i => (toCovariant (m i) (v.at i)).z, true⟩
/-- `toContravariant` at every point. -/
def VField.toCon {ι : Type} (m : ι → Metric K) (v : VField ι K) : VField ι K :=
  ⟨fun i => (toContravariant (m i) (v.at i)).x, fun i => (toContravariant (m i) (v.at i)).y,
   fun i => (toContravariant (m i) (v.at i)).z, false⟩

/-- vecops.cxx:41-66, 68-93 `Grad`. -/
def grad {ι : Type} (D : Deriv ι K) (f : ι → K) : VField ι K := ⟨D.DDX f, D.DDY f, D.DDZ f, true⟩

/-- vecops.cxx:95-114 `Grad_perp`; `Bxy` the magnitude of the field. -/
def gradPerp {ι : Type} (D : Deriv ι K) (m : ι → Metric K) (Bxy : ι → K) (f : ι → K) : VField ι K :=
  ⟨fun i => D.DDX f i - (m i).lo.c12 * D.DDY f i / (((m i).J * Bxy i) * ((m i).J * Bxy i)), fun _ => 0,
   fun i => D.DDZ f i - (m i).lo.c23 * D.DDY f i / (((m i).J * Bxy i) * ((m i).J * Bxy i)), true⟩

/-- vecops.cxx:142-168, 170-204 `Div`. -/
def div {ι : Type} (D : Deriv ι K) (m : ι → Metric K) (v : VField ι K) : ι → K :=
  let vcn := v.toCon m
  fun i => (D.DDY (fun j => (m j).J * vcn.y j) i + D.DDX (fun j => (m j).J * vcn.x j) i +
    D.DDZ (fun j => (m j).J * vcn.z j) i) / (m i).J

/-- vecops.cxx:263-321 `Curl`; `torsion` is `ShiftTorsion`. -/
def curl {ι : Type} (D : Deriv ι K) (m : ι → Metric K) (torsion : ι → K) (v : VField ι K) : VField ι K :=
  let vco := v.toCov m
  ⟨fun i => (D.DDY vco.z i - D.DDZ vco.y i) / (m i).J, fun i => (D.DDZ vco.x i - D.DDX vco.z i) / (m i).J,
   fun i => (D.DDX vco.y i - D.DDY vco.x i) / (m i).J - torsion i * vco.z i / (m i).J, false⟩

/-- coordinates.cxx:1028-1036: `G1`, `G2`, `G3`. -/
def gTerms {ι : Type} (D : Deriv ι K) (m : ι → Metric K) : (ι → K) × (ι → K) × (ι → K) :=
  (fun i => (D.DDX (fun j => (m j).J * (m j).up.c11) i + D.DDY (fun j => (m j).J * (m j).up.c12) i +
      D.DDZ (fun j => (m j).J * (m j).up.c13) i) / (m i).J,
   fun i => (D.DDX (fun j => (m j).J * (m j).up.c12) i + D.DDY (fun j => (m j).J * (m j).up.c22) i +
      D.DDZ (fun j => (m j).J * (m j).up.c23) i) / (m i).J,
   fun i => (D.DDX (fun j => (m j).J * (m j).up.c13) i + D.DDY (fun j => (m j).J * (m j).up.c23) i +
      D.DDZ (fun j => (m j).J * (m j).up.c33) i) / (m i).J)

/-- Second derivatives as composed first ones (`D2DX2`, `D2DXDY`, ...), used by `laplace`.  (The discrete second derivative
operators are different stencils.) -/
def second {ι : Type} (A B : (ι → K) → ι → K) (f : ι → K) : ι → K := A (B f)

/-- coordinates.cxx:1811-1831 `Laplace` of a `Field3D`, with the second derivatives composed of first ones. -/
def laplace {ι : Type} (D : Deriv ι K) (m : ι → Metric K) (f : ι → K) : ι → K := fun i =>
  (gTerms D m).1 i * D.DDX f i + (gTerms D m).2.1 i * D.DDY f i + (gTerms D m).2.2 i * D.DDZ f i +
  (m i).up.c11 * second D.DDX D.DDX f i + (m i).up.c22 * second D.DDY D.DDY f i + (m i).up.c33 * second D.DDZ D.DDZ f i +
  2 * ((m i).up.c12 * second D.DDX D.DDY f i + (m i).up.c13 * second D.DDX D.DDZ f i +
    (m i).up.c23 * second D.DDY D.DDZ f i)

/-- coordinates.cxx:1785-1793 `Laplace_par`, likewise. -/
def laplacePar {ι : Type} (D : Deriv ι K) (m : ι → Metric K) (f : ι → K) : ι → K := fun i =>
  second D.DDY D.DDY f i / (m i).lo.c22 + D.DDY (fun j => (m j).J / (m j).lo.c22) i * D.DDY f i / (m i).J

end Verif.Num
