import Verif.Num.Stencil
import Verif.Num.Bracket
import Verif.Num.Flux
import Verif.Region.Model
import Mathlib.Analysis.SpecialFunctions.Sqrt

/-!
The operators on a single flattened index (include/bout/single_index_ops.hxx), the accessors they read through
(field_accessor.hxx, coordinates_accessor.hxx/.cxx), for 2D metrics.
-/
namespace Verif.Num.SI

/-! ## Index arithmetic -/

/-- single_index_ops.hxx:24-28 `i_zp`. -/
def i_zp (id nz : Int) : Int := let jz := id.tmod nz; let jzmax := nz - 1; if jz < jzmax then id + 1 else id - jzmax
/-- single_index_ops.hxx:30-34 `i_zm`. -/
def i_zm (id nz : Int) : Int := let jz := id.tmod nz; let jzmax := nz - 1; if jz > 0 then id - 1 else id + jzmax
/-- single_index_ops.hxx:37 `i_yp`. -/
def i_yp (id nz : Int) : Int := id + nz
/-- single_index_ops.hxx:40 `i_ym`. -/
def i_ym (id nz : Int) : Int := id - nz
/-- single_index_ops.hxx:43-45 `i_xp`. -/
def i_xp (id ny nz : Int) : Int := id + ny * nz
/-- single_index_ops.hxx:48-50 `i_xm`. -/
def i_xm (id ny nz : Int) : Int := id - ny * nz

/-! ## Coordinates, striped -/

/-- coordinates_accessor.hxx:50-77 `Offset`. -/
inductive Off
  | dx | dy | dz | d1_dx | d1_dy | d1_dz | J | B | Byup | Bydown | G1 | G3
  | g11 | g12 | g13 | g22 | g23 | g33 | gg11 | gg12 | gg13 | gg22 | gg23 | gg33
  deriving DecidableEq, Repr

/-- The order in which `COPY_STRIPE` lines write (coordinates_accessor.cxx:53-66). -/
def Off.all : List Off :=
  [.dx, .dy, .dz, .d1_dx, .d1_dy, .d1_dz, .J, .B, .Byup, .Bydown, .G1, .G3, .g11, .g12, .g13, .g22, .g23, .g33,
   .gg11, .gg12, .gg13, .gg22, .gg23, .gg33]

/-- `static_cast<int>(Offset::symbol)`. -/
def Off.toInt : Off → Int
  | .dx => 0 | .dy => 1 | .dz => 2 | .d1_dx => 3 | .d1_dy => 4 | .d1_dz => 5 | .J => 6 | .B => 7 | .Byup => 8 | .Bydown => 9
  | .G1 => 10 | .G3 => 11 | .g11 => 12 | .g12 => 13 | .g13 => 14 | .g22 => 15 | .g23 => 16 | .g33 => 17 | .gg11 => 18
  | .gg12 => 19 | .gg13 => 20 | .gg22 => 21 | .gg23 => 22 | .gg33 => 23

/-- coordinates_accessor.hxx:81 `stripe_size`. -/
def stripe_size : Int := 24

/-- The fields of a `Coordinates` object by 2D index (`Byup` is `Bxy.yup()`). -/
abbrev Coords := Off → Int → ℝ

/-- `data[k] = v`. -/
def put (a : Int → ℝ) (k : Int) (v : ℝ) : Int → ℝ := fun j => if j = k then v else a j

/-- coordinates_accessor.cxx:51-66: one grid point. -/
def copyPoint (c : Coords) (a : Int → ℝ) (ind : Int) : Int → ℝ :=
  Off.all.foldl (fun a o => put a (stripe_size * ind + o.toInt) (c o ind)) a

/-- coordinates_accessor.cxx:51-66: all points of RGN_ALL (`n` of them), into a new array of arbitrary content. -/
def fill (c : Coords) (junk : Int → ℝ) (n : Nat) : Int → ℝ :=
  ((List.range n).map (fun k : Nat => (k : Int))).foldl (copyPoint c) junk

/-- coordinates_accessor.hxx:94-102 `lookup`, 2D metrics. -/
def lookup (data : Int → ℝ) (mesh_nz index : Int) (o : Off) : ℝ := data (stripe_size * index.tdiv mesh_nz + o.toInt)

/-- `coords_store`: arrays by the address of the `Coordinates` object. -/
abbrev Store := List (Nat × (Int → ℝ))

/-- coordinates_accessor.cxx:16-67: the constructor: the data pointer and the new store. -/
def access (s : Store) (addr : Nat) (c : Coords) (junk : Int → ℝ) (n : Nat) : (Int → ℝ) × Store :=
  match s.lookup addr with
  | some d => (d, s)
  | none => let d := fill c junk n; (d, (addr, d) :: s)

/-- coordinates_accessor.cxx:69-78 `clear`. -/
def clear (s : Store) (addr : Option Nat) : Nat × Store :=
  match addr with
  | none => (s.length, [])
  | some a => ((s.filter (fun p => p.1 = a)).length, s.filter (fun p => p.1 ≠ a))

/-! ## Field accessors -/

/-- field_accessor.hxx:56-106 `FieldAccessor`; `co o i` is `coords.o(i)`. -/
structure Acc where
  data : Int → ℝ
  yup : Int → ℝ
  ydown : Int → ℝ
  ny : Int
  nz : Int
  mesh_nz : Int
  co : Off → Int → ℝ

/-- field_accessor.hxx:61-84: the accessor of a `Field3D` with slices, on a mesh of `nz` points in z. -/
def acc3 (ny nz : Int) (stripes v up dn : Int → ℝ) : Acc := ⟨v, up, dn, ny, nz, nz, fun o i => lookup stripes nz i o⟩

/-- field_accessor.hxx:61-84: the accessor of a `Field2D`. -/
def acc2 (ny nz : Int) (stripes v : Int → ℝ) : Acc := ⟨v, v, v, ny, 1, nz, fun o i => lookup stripes nz i o⟩

/-! ## Operators -/

/-- single_index_ops.hxx:55-89 `bracket(Field2DAccessor, FieldAccessor, i)`. -/
noncomputable def bracket2 (f g : Acc) (i : Int) : ℝ :=
  let ny := g.ny
  let nz := g.nz
  let i2d := i.tdiv f.mesh_nz
  let i2dxp := i_xp i2d ny 1
  let i2dxm := i_xm i2d ny 1
  let izp := i_zp i nz
  let izm := i_zm i nz
  let izpxp := i_xp izp ny nz
  let izpxm := i_xm izp ny nz
  let izmxp := i_xp izm ny nz
  let izmxm := i_xm izm ny nz
  let Jpp := -(f.data i2dxp - f.data i2dxm) * (g.data izp - g.data izm)
  let Jpx := -g.data izp * (f.data i2dxp - f.data i2dxm) + g.data izm * (f.data i2dxp - f.data i2dxm)
  let Jxp := g.data izpxp * (f.data i2d - f.data i2dxp) - g.data izmxm * (f.data i2dxm - f.data i2d) -
    g.data izpxm * (f.data i2d - f.data i2dxm) + g.data izmxp * (f.data i2dxp - f.data i2d)
  (Jpp + Jpx + Jxp) / (12 * f.co .dx i * f.co .dz i)

/-- single_index_ops.hxx:91-127 `bracket(FieldAccessor, FieldAccessor, i)`. -/
noncomputable def bracket3 (f g : Acc) (i : Int) : ℝ :=
  let ny := g.ny
  let nz := g.nz
  let ixp := i_xp i ny nz
  let ixm := i_xm i ny nz
  let izp := i_zp i nz
  let izm := i_zm i nz
  let izpxp := i_xp izp ny nz
  let izpxm := i_xm izp ny nz
  let izmxp := i_xp izm ny nz
  let izmxm := i_xm izm ny nz
  let Jpp := (f.data izp - f.data izm) * (g.data ixp - g.data ixm) - (f.data ixp - f.data ixm) * (g.data izp - g.data izm)
  let Jpx := g.data ixp * (f.data izpxp - f.data izmxp) - g.data ixm * (f.data izpxm - f.data izmxm) -
    g.data izp * (f.data izpxp - f.data izpxm) + g.data izm * (f.data izmxp - f.data izmxm)
  let Jxp := g.data izpxp * (f.data izp - f.data ixp) - g.data izmxm * (f.data ixm - f.data izm) -
    g.data izpxm * (f.data izp - f.data ixm) + g.data izmxp * (f.data ixp - f.data izm)
  (Jpp + Jpx + Jxp) / (12 * f.co .dx i * f.co .dz i)

/-- single_index_ops.hxx:139-149 `DDX(Field2DAccessor, i)`. -/
noncomputable def ddx2 (f : Acc) (i : Int) : ℝ :=
  let i2d := i.tdiv f.mesh_nz
  1/2 * (f.data (i_xp i2d f.ny 1) - f.data (i_xm i2d f.ny 1)) / f.co .dx i

/-- single_index_ops.hxx:151-161 `DDX(FieldAccessor, i)`. -/
noncomputable def ddx3 (f : Acc) (i : Int) : ℝ :=
  1/2 * (f.data (i_xp i f.ny f.nz) - f.data (i_xm i f.ny f.nz)) / f.co .dx i

/-- single_index_ops.hxx:172-180 `DDY(Field2DAccessor, i)`. -/
noncomputable def ddy2 (f : Acc) (i : Int) : ℝ :=
  let i2d := i.tdiv f.mesh_nz
  1/2 * (f.yup (i_yp i2d 1) - f.ydown (i_ym i2d 1)) / f.co .dy i

/-- single_index_ops.hxx:182-190 `DDY(FieldAccessor, i)`. -/
noncomputable def ddy3 (f : Acc) (i : Int) : ℝ := 1/2 * (f.yup (i_yp i f.nz) - f.ydown (i_ym i f.nz)) / f.co .dy i

/-- single_index_ops.hxx:201-207 `DDZ(FieldAccessor, i)`. -/
noncomputable def ddz3 (f : Acc) (i : Int) : ℝ := 1/2 * (f.data (i_zp i f.nz) - f.data (i_zm i f.nz)) / f.co .dz i

/-- single_index_ops.hxx:220-248 `Delp2(FieldAccessor, i)`. -/
noncomputable def delp2 (f : Acc) (i : Int) : ℝ :=
  let ixp := i_xp i f.ny f.nz
  let ixm := i_xm i f.ny f.nz
  let izp := i_zp i f.nz
  let izm := i_zm i f.nz
  let izpxp := i_xp izp f.ny f.nz
  let izpxm := i_xm izp f.ny f.nz
  let izmxp := i_xp izm f.ny f.nz
  let izmxm := i_xm izm f.ny f.nz
  let dx := f.co .dx i
  let dz := f.co .dz i
  (f.co .G1 i + f.co .d1_dx i * f.co .g11 i) * (f.data ixp - f.data ixm) / (2 * dx) +
    f.co .G3 i * (f.data izp - f.data izm) / (2 * dz) +
    f.co .g11 i * (f.data ixp - 2 * f.data i + f.data ixm) / (dx * dx) +
    f.co .g33 i * (f.data izp - 2 * f.data i + f.data izm) / (dz * dz) +
    2 * f.co .g13 i * ((f.data izpxp - f.data izpxm) - (f.data izmxp - f.data izmxm)) / (4 * dz * dx)

/-- single_index_ops.hxx:259-282 `Div_par_Grad_par(FieldAccessor, i)`. -/
noncomputable def divParGradPar (f : Acc) (i : Int) : ℝ :=
  let iyp := i_yp i f.nz
  let iym := i_ym i f.nz
  let gradient_upper := 2 * (f.yup iyp - f.data i) / (f.co .dy i + f.co .dy iyp)
  let flux_upper := gradient_upper * (f.co .J i + f.co .J iyp) / (f.co .gg22 i + f.co .gg22 iyp)
  let gradient_lower := 2 * (f.data i - f.ydown iym) / (f.co .dy i + f.co .dy iym)
  let flux_lower := gradient_lower * (f.co .J i + f.co .J iym) / (f.co .gg22 i + f.co .gg22 iym)
  (flux_upper - flux_lower) / (f.co .dy i * f.co .J i)

/-- single_index_ops.hxx:293-322 `b0xGrad_dot_Grad(FieldAccessor phi, Field2DAccessor f, i)`. -/
noncomputable def b0xGrad32 (phi f : Acc) (i : Int) : ℝ :=
  let dpdx := ddx3 phi i
  let dpdy := ddy3 phi i
  let dpdz := ddz3 phi i
  let vx := phi.co .gg22 i * dpdz - phi.co .gg23 i * dpdy
  let vy := phi.co .gg23 i * dpdx - phi.co .gg12 i * dpdz
  let i2d := i.tdiv f.mesh_nz
  let vddx := vx * (f.data (i_xp i2d f.ny 1) - f.data (i_xm i2d f.ny 1)) / (2 * f.co .dx i)
  let vddy := vy * (f.yup (i_yp i2d 1) - f.ydown (i_ym i2d 1)) / (2 * f.co .dy i)
  (vddx + vddy) / (f.co .J i * Real.sqrt (f.co .gg22 i))

/-- single_index_ops.hxx:324-353 `b0xGrad_dot_Grad(Field2DAccessor phi, FieldAccessor f, i)`. -/
noncomputable def b0xGrad23 (phi f : Acc) (i : Int) : ℝ :=
  let dpdx := ddx2 phi i
  let dpdy := ddy2 phi i
  let vx := -f.co .gg23 i * dpdy
  let vy := f.co .gg23 i * dpdx
  let vz := f.co .gg12 i * dpdy - f.co .gg22 i * dpdx
  let vddx := vx * (f.data (i_xp i f.ny f.nz) - f.data (i_xm i f.ny f.nz)) / (2 * f.co .dx i)
  let vddy := vy * (f.yup (i_yp i f.nz) - f.ydown (i_ym i f.nz)) / (2 * f.co .dy i)
  let vddz := vz * (f.data (i_zp i f.nz) - f.data (i_zm i f.nz)) / (2 * f.co .dz i)
  (vddx + vddy + vddz) / (f.co .J i * Real.sqrt (f.co .gg22 i))

/-- single_index_ops.hxx:367-383 `D2DY2(FieldAccessor, i)`. -/
noncomputable def d2dy2 (f : Acc) (i : Int) : ℝ :=
  let iyp := i_yp i f.mesh_nz
  let iym := i_ym i f.mesh_nz
  let dy := f.co .dy i
  (f.yup iyp - 2 * f.data i + f.ydown iym) / (dy * dy) + f.co .d1_dy i * (f.yup iyp - f.ydown iym) / (2 * dy)

/-- single_index_ops.hxx:394-397 `Grad_par(FieldAccessor, i)`. -/
noncomputable def gradPar (f : Acc) (i : Int) : ℝ := ddy3 f i / Real.sqrt (f.co .gg22 i)

/-- single_index_ops.hxx:408-418 `Div_par(FieldAccessor, i)`. -/
noncomputable def divPar (f : Acc) (i : Int) : ℝ :=
  let iyp := i_yp i f.nz
  let iym := i_ym i f.nz
  1/2 * f.co .B i * ((f.yup iyp / f.co .Byup iyp) - (f.ydown iym / f.co .Bydown iym)) /
    (f.co .dy i * Real.sqrt (f.co .gg22 i))

end Verif.Num.SI
