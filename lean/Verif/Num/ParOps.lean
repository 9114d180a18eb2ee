import Verif.Num.DiffAlg

/-!
The parallel and drift operators: `Grad_par`, `Div_par`, `Grad2_par2`, `Div_par_K_Grad_par`, `Laplace_perp`,
`b0xGrad_dot_Grad`, `DDZ` of a vector, the face-flux form `Div_par(f, v)` and `Grad_parP`.  All over the reals (rounding is
not modelled) and for one cell location.  Upwinded derivatives `VDDY(v, f)` are represented by the product `v * DDY(f)`, which
is what the central schemes compute.
-/
namespace Verif.Num

variable {ι : Type}

/-- coordinates.cxx:1892-1899 `invSg`: `1.0 / sqrt(g_22)`. -/
noncomputable def invSg (m : ι → Metric ℝ) : ι → ℝ := fun i => 1 / Real.sqrt (m i).lo.c22

/-- coordinates.cxx:1528-1547 `Grad_par`: `DDY(var) * invSg()`. -/
noncomputable def gradPar (D : Deriv ι ℝ) (m : ι → Metric ℝ) (f : ι → ℝ) : ι → ℝ := fun i => D.DDY f i * invSg m i

/-- coordinates.cxx:1553-1567 `Vpar_Grad_par`: `VDDY(v, f) * invSg()`. -/
noncomputable def vparGradPar (D : Deriv ι ℝ) (m : ι → Metric ℝ) (v f : ι → ℝ) : ι → ℝ :=
  fun i => (v i * D.DDY f i) * invSg m i

/-- coordinates.cxx:1573-1605 `Div_par`: `Bxy * Grad_par(f / Bxy)`. -/
noncomputable def divParB (D : Deriv ι ℝ) (m : ι → Metric ℝ) (B f : ι → ℝ) : ι → ℝ :=
  fun i => B i * gradPar D m (fun j => f j / B j) i

/-- coordinates.cxx:1901-1918 `Grad2_par2_DDY_invSg`: `DDY(invSg) * invSg`. -/
noncomputable def ddyInvSg (D : Deriv ι ℝ) (m : ι → Metric ℝ) : ι → ℝ := fun i => D.DDY (invSg m) i * invSg m i

/-- coordinates.cxx:1611-1639 `Grad2_par2`. -/
noncomputable def grad2par2 (D : Deriv ι ℝ) (m : ι → Metric ℝ) (f : ι → ℝ) : ι → ℝ :=
  fun i => ddyInvSg D m i * D.DDY f i + second D.DDY D.DDY f i / (m i).lo.c22

/-- difops.cxx:328-335 `Div_par_K_Grad_par(BoutReal kY, f)`. -/
noncomputable def divParKGradConst (D : Deriv ι ℝ) (m : ι → Metric ℝ) (k : ℝ) (f : ι → ℝ) : ι → ℝ :=
  fun i => k * grad2par2 D m f i

/-- difops.cxx:337-369 `Div_par_K_Grad_par(kY, f)` for a field `kY` (the four overloads have the same body). -/
noncomputable def divParKGrad (D : Deriv ι ℝ) (m : ι → Metric ℝ) (B K f : ι → ℝ) : ι → ℝ :=
  fun i => K i * grad2par2 D m f i + divParB D m B K i * gradPar D m f i

/-- difops.cxx:394-407 `Laplace_perp`: `Laplace(f) - Laplace_par(f)`. -/
noncomputable def laplacePerp (D : Deriv ι ℝ) (m : ι → Metric ℝ) (f : ι → ℝ) : ι → ℝ :=
  fun i => laplace D m f i - laplacePar D m f i

/-- coordinates.cxx:1478-1490: `DDX` of a `Field3D` adds `IntShiftTorsion * DDZ` when `IncIntShear` is set. -/
def withShear (D : Deriv ι ℝ) (inc : Bool) (I : ι → ℝ) : Deriv ι ℝ :=
  { DDX := fun f i => if inc then D.DDX f i + I i * D.DDZ f i else D.DDX f i
    DDY := D.DDY
    DDZ := D.DDZ }

/-- difops.cxx:568-608 `b0xGrad_dot_Grad(Field3D phi, Field3D A)`.  `D` holds the plain derivatives (`VDDX` has no shear
term); the derivatives of `phi` are those of `withShear`. -/
noncomputable def b0xGrad33 (D : Deriv ι ℝ) (m : ι → Metric ℝ) (inc : Bool) (I phi A : ι → ℝ) : ι → ℝ := fun i =>
  let dpdx := (withShear D inc I).DDX phi i
  let dpdy := D.DDY phi i
  let dpdz := D.DDZ phi i
  let vx := (m i).lo.c22 * dpdz - (m i).lo.c23 * dpdy
  let vy := (m i).lo.c23 * dpdx - (m i).lo.c12 * dpdz
  let vz0 := (m i).lo.c12 * dpdy - (m i).lo.c22 * dpdx
  let vz := if inc then vz0 + I i * vx else vz0
  (vx * D.DDX A i + vy * D.DDY A i + vz * D.DDZ A i) / ((m i).J * Real.sqrt (m i).lo.c22)

/-- difops.cxx:491-531 `b0xGrad_dot_Grad(Field2D phi, Field3D A)`. -/
noncomputable def b0xGrad23 (D : Deriv ι ℝ) (m : ι → Metric ℝ) (inc : Bool) (I phi A : ι → ℝ) : ι → ℝ := fun i =>
  let dpdx := D.DDX phi i
  let dpdy := D.DDY phi i
  let vx := -(m i).lo.c23 * dpdy
  let vy := (m i).lo.c23 * dpdx
  let vz0 := (m i).lo.c12 * dpdy - (m i).lo.c22 * dpdx
  let vz := if inc then vz0 + I i * vx else vz0
  (vx * D.DDX A i + vy * D.DDY A i + vz * D.DDZ A i) / ((m i).J * Real.sqrt (m i).lo.c22)

/-- difops.cxx:533-566 `b0xGrad_dot_Grad(Field3D p, Field2D A)`. -/
noncomputable def b0xGrad32 (D : Deriv ι ℝ) (m : ι → Metric ℝ) (inc : Bool) (I phi A : ι → ℝ) : ι → ℝ := fun i =>
  let dpdx := (withShear D inc I).DDX phi i
  let dpdy := D.DDY phi i
  let dpdz := D.DDZ phi i
  let vx := (m i).lo.c22 * dpdz - (m i).lo.c23 * dpdy
  let vy := (m i).lo.c23 * dpdx - (m i).lo.c12 * dpdz
  (vx * D.DDX A i + vy * D.DDY A i) / ((m i).J * Real.sqrt (m i).lo.c22)

/-- difops.cxx:458-489 `b0xGrad_dot_Grad(Field2D phi, Field2D A)`. -/
noncomputable def b0xGrad22 (D : Deriv ι ℝ) (m : ι → Metric ℝ) (phi A : ι → ℝ) : ι → ℝ := fun i =>
  let dpdx := D.DDX phi i
  let dpdy := D.DDY phi i
  let vx := -(m i).lo.c23 * dpdy
  let vy := (m i).lo.c23 * dpdx
  (vx * D.DDX A i + vy * D.DDY A i) / ((m i).J * Real.sqrt (m i).lo.c22)

/-- derivs.cxx:91-125 `DDZ(Vector3D)` at a point; `dz` the z derivatives of the three components. -/
def ddzVec3 (G : Conn ℝ) (v : Vec ℝ) (dzx dzy dzz : ℝ) : Vec ℝ :=
  if v.covariant then
    ⟨dzx - v.x * G.G1.c13 - v.y * G.G2.c13 - v.z * G.G3.c13,
     dzy - v.x * G.G1.c23 - v.y * G.G2.c23 - v.z * G.G3.c23,
     dzz - v.x * G.G1.c33 - v.y * G.G2.c33 - v.z * G.G3.c33, true⟩
  else
    ⟨dzx + v.x * G.G1.c13 + v.y * G.G1.c23 + v.z * G.G1.c33,
     dzy + v.x * G.G2.c13 + v.y * G.G2.c23 + v.z * G.G2.c33,
     dzz + v.x * G.G3.c13 + v.y * G.G3.c23 + v.z * G.G3.c33, false⟩

/-- derivs.cxx:127-143 `DDZ(Vector2D)`. -/
def ddzVec2 (v : Vec ℝ) : Vec ℝ := ⟨0, 0, 0, v.covariant⟩

/-! ## Face-flux parallel divergence -/

/-- A field with its parallel slices, on one field line: `at j`, `yup()(j)`, `ydown()(j)`. -/
structure Sliced where
  v : ℤ → ℝ
  up : ℤ → ℝ
  dn : ℤ → ℝ

/-- The coordinates entering `Div_par(f, v)`, on one line. -/
structure Line where
  J : ℤ → ℝ
  g22 : ℤ → ℝ
  dy : ℤ → ℝ

/-- difops.cxx:264-266 `fluxRight` at point `j`. -/
noncomputable def fluxRight (c : Line) (f v : Sliced) (j : ℤ) : ℝ :=
  let fR := 1/2 * (f.v j + f.up (j + 1))
  let vR := 1/2 * (v.v j + v.up (j + 1))
  fR * vR * (c.J j + c.J (j + 1)) / (Real.sqrt (c.g22 j) + Real.sqrt (c.g22 (j + 1)))

/-- difops.cxx:269-271 `fluxLeft` at point `j`. -/
noncomputable def fluxLeft (c : Line) (f v : Sliced) (j : ℤ) : ℝ :=
  let fL := 1/2 * (f.v j + f.dn (j - 1))
  let vL := 1/2 * (v.v j + v.dn (j - 1))
  fL * vL * (c.J j + c.J (j - 1)) / (Real.sqrt (c.g22 j) + Real.sqrt (c.g22 (j - 1)))

/-- difops.cxx:237-279 `Div_par(f, v)` at point `j`. -/
noncomputable def divParFV (c : Line) (f v : Sliced) (j : ℤ) : ℝ :=
  (fluxRight c f v j - fluxLeft c f v j) / (c.dy j * c.J j)

/-! ## `Grad_parP` -/

/-- A scalar field on the local grid. -/
abbrev Grid := ℤ → ℤ → ℤ → ℝ

/-- What `Grad_parP` reads of the coordinates. -/
structure GridMetric where
  dx : Grid
  dy : Grid
  dz : Grid
  g22 : Grid

/-- difops.cxx:95-104: `gys`, filled for 1 <= x <= LocalNx-2, 1 <= y <= LocalNy-2 only; `none` for entries of the freshly
allocated array that no assignment reaches. -/
noncomputable def gys (c : GridMetric) (nx ny : ℤ) (fup fdn : Grid) (x y z : ℤ) : Option ℝ :=
  if 1 ≤ x ∧ x ≤ nx - 2 ∧ 1 ≤ y ∧ y ≤ ny - 2 then
    some ((fup x (y + 1) z - fdn x (y - 1) z) / (1/2 * c.dy x (y + 1) z + c.dy x y z + 1/2 * c.dy x (y - 1) z))
  else none

/-- difops.cxx:106-186: the value computed at one point, given the z neighbours `zm`, `zp`; `none` if it depends on an
unassigned `gys` entry. -/
noncomputable def gradParP (c : GridMetric) (nx ny : ℤ) (apar f fup fdn : Grid) (x y z zm zp : ℤ) : Option ℝ :=
  let by' := 1 / Real.sqrt (c.g22 x y z)
  let bx := (apar x y zm - apar x y zp) / (1/2 * c.dz x y zm + c.dz x y z + 1/2 * c.dz x y zp)
  let ddx := 1/2 * c.dx (x - 1) y z + c.dx x y z + 1/2 * c.dx (x + 1) y z
  let ddz := 1/2 * c.dz x y zm + c.dz x y z + 1/2 * c.dz x y zp
  let bz := (apar (x + 1) y z - apar (x - 1) y z) / ddx
  let dl := min (min (|c.dx x y z| / (|bx| + 1e-16)) (|c.dy x y z| / (|by'| + 1e-16))) (|c.dz x y z| / (|bz| + 1e-16))
  do
    let gxp ← gys c nx ny fup fdn (x + 1) y z
    let gxm ← gys c nx ny fup fdn (x - 1) y z
    let gzp ← gys c nx ny fup fdn x y zp
    let gzm ← gys c nx ny fup fdn x y zm
    let fp1 := f (x + 1) y z + (1/4 * dl / c.dz x y z) * bz * (f (x + 1) y zm - f (x + 1) y zp) - 1/2 * dl * by' * gxp
    let fm1 := f (x - 1) y z + (1/4 * dl / c.dz x y z) * bz * (f (x - 1) y zm - f (x - 1) y zp) - 1/2 * dl * by' * gxm
    let r1 := bx * (fp1 - fm1) / ddx
    let fp2 := f x y zp + (1/4 * dl / c.dx x y z) * bx * (f (x - 1) y zp - f (x + 1) y zp) - 1/2 * dl * by' * gzp
    let fm2 := f x y zm + (1/4 * dl / c.dx x y z) * bx * (f (x - 1) y zm - f (x + 1) y zm) - 1/2 * dl * by' * gzm
    let r2 := r1 + bz * (fp2 - fm2) / ddz
    let fp3 := fup x (y + 1) z - 1/2 * dl * bx * (fup (x + 1) (y + 1) z - fup (x - 1) (y + 1) z) / ddx +
      (1/4 * dl / c.dz x y z) * bz * (fup x (y + 1) zm - fup x (y + 1) zp)
    let fm3 := fdn x (y - 1) z - 1/2 * dl * bx * (fdn (x + 1) (y - 1) z - fdn (x - 1) (y - 1) z) / ddx +
      (1/4 * dl / c.dz x y z) * bz * (fdn x (y - 1) zm - fdn x (y - 1) zp)
    some (r2 + by' * (fp3 - fm3) / (1/2 * c.dy x (y - 1) z + c.dy x y z + 1/2 * c.dy x (y + 1) z))

end Verif.Num
