import Verif.Num.D4IndexProps

/-!
# C29: the perpendicular finite volume operators

Model of `FV::Div_a_Grad_perp` (`src/mesh/fv_ops.cxx` L26-180), `FV::Div_Perp_Lap` (L481-564),
`FV::communicateFluxes` (L433-479) and `FV::Div_f_v` (`include/bout/fv_ops.hxx` L386-521).

Simplifications: `BoutReal` is an ordered field.  The X parts act on each `(j, k)` separately and are modelled on one X
line; the Z and Y parts act on each `i` separately.  The transforms to and from field-aligned coordinates are not
modelled (the Y and Z parts are modelled on the aligned fields), nor are the FCI slices: `f_slice.up[i.yp()]` is
`f(j + 1, k)`.  The loops run in the serial order of `BOUT_FOR`.
-/
namespace Verif.Num

variable {K : Type} [Field K] [LinearOrder K] [IsStrictOrderedRing K]

/-- `result[i] += x` for any kind of index. -/
def addTo {ι : Type} [DecidableEq ι] (r : ι → K) (j : ι) (x : K) : ι → K := fun i => if i = j then r i + x else r i

/-- The fields on one X line, guard cells included. -/
structure XLine (K : Type) where
  f : Int → K
  a : Int → K
  v : Int → K
  J : Int → K
  g11 : Int → K
  dx : Int → K

/-! ## `Div_a_Grad_perp` -/

/-- fv_ops.cxx:54-58: the X flux from `i` to `i + 1`. -/
def perpXFlux (C : XLine K) (i : Int) : K :=
  1/2 * (C.a i + C.a (i + 1)) * (C.J i * C.g11 i + C.J (i + 1) * C.g11 (i + 1)) * (C.f (i + 1) - C.f i) /
    (C.dx i + C.dx (i + 1))

/-- fv_ops.cxx:37-63: the X part, for `i` from `xstart - 1` to `xend`. -/
def divAGradPerpX (xstart xend : Int) (C : XLine K) : Int → K :=
  (irange (xstart - 1) xend).foldl (fun r i =>
    let fout := perpXFlux C i
    let r := addAt r i (fout / (C.dx i * C.J i))
    addAt r (i + 1) (-(fout / (C.dx (i + 1) * C.J (i + 1))))) (fun _ => 0)

/-- The fields on one aligned Y-Z surface: functions of the Y index and of the Z index `0 <= k < nz`. -/
structure YZ (K : Type) where
  f : Int → Nat → K
  a : Int → Nat → K
  J : Int → Nat → K
  g23 : Int → Nat → K
  g_23 : Int → Nat → K
  g33 : Int → Nat → K
  Bxy : Int → Nat → K
  dy : Int → Nat → K
  dz : Int → Nat → K

/-- `i.zp()`. -/
def zp (nz k : Nat) : Nat := (k + 1) % nz

/-- `i.zm()`. -/
def zm (nz k : Nat) : Nat := (k + nz - 1) % nz

/-- fv_ops.cxx:108-125: the Y flux at the upper face of `(j, k)`. -/
def perpYUp (nz : Nat) (S : YZ K) (j : Int) (k : Nat) : K :=
  let coef := 1/2 * (S.g_23 j k / (S.J j k * S.Bxy j k) ^ 2 + S.g_23 (j + 1) k / (S.J (j + 1) k * S.Bxy (j + 1) k) ^ 2)
  let dfdz := 1/2 * (S.f j (zp nz k) - S.f j (zm nz k) + S.f (j + 1) (zp nz k) - S.f (j + 1) (zm nz k)) /
    (S.dz j k + S.dz (j + 1) k)
  let dfdy := 2 * (S.f (j + 1) k - S.f j k) / (S.dy (j + 1) k + S.dy j k)
  1/4 * (S.a j k + S.a (j + 1) k) * (S.J j k * S.g23 j k + S.J (j + 1) k * S.g23 (j + 1) k) * (dfdz - coef * dfdy)

/-- fv_ops.cxx:130-146: the Y flux at the lower face of `(j, k)`. -/
def perpYDown (nz : Nat) (S : YZ K) (j : Int) (k : Nat) : K :=
  let coef := 1/2 * (S.g_23 j k / (S.J j k * S.Bxy j k) ^ 2 + S.g_23 (j - 1) k / (S.J (j - 1) k * S.Bxy (j - 1) k) ^ 2)
  let dfdz := 1/2 * (S.f j (zp nz k) - S.f j (zm nz k) + S.f (j - 1) (zp nz k) - S.f (j - 1) (zm nz k)) /
    (S.dz j k + S.dz (j - 1) k)
  let dfdy := 2 * (S.f j k - S.f (j - 1) k) / (S.dy j k + S.dy (j - 1) k)
  1/4 * (S.a j k + S.a (j - 1) k) * (S.J j k * S.g23 j k + S.J (j - 1) k * S.g23 (j - 1) k) * (dfdz - coef * dfdy)

/-- fv_ops.cxx:150-165: the Z flux from `(j, k)` to `(j, zp k)`. -/
def perpZ (nz : Nat) (S : YZ K) (j : Int) (k : Nat) : K :=
  let coef := S.g_23 j k / (S.dy (j + 1) k + 2 * S.dy j k + S.dy (j - 1) k) / (S.J j k * S.Bxy j k) ^ 2
  1/4 * (S.a j k + S.a j (zp nz k)) * (S.J j k * S.g33 j k + S.J j (zp nz k) * S.g33 j (zp nz k)) *
    ((S.f j (zp nz k) - S.f j k) / S.dz j k -
      coef * (S.f (j + 1) k + S.f (j + 1) (zp nz k) - S.f (j - 1) k - S.f (j - 1) (zp nz k)))

/-- fv_ops.cxx:105-170: the body of the `BOUT_FOR` loop. -/
def perpYZBody (nz : Nat) (S : YZ K) (r : Int × Nat → K) (i : Int × Nat) : Int × Nat → K :=
  let (j, k) := i
  let r := addTo r (j, k) (perpYUp nz S j k / (S.dy j k * S.J j k))
  let r := addTo r (j, k) (-(perpYDown nz S j k / (S.dy j k * S.J j k)))
  let fout := perpZ nz S j k
  let r := addTo r (j, k) (fout / (S.J j k * S.dz j k))
  addTo r (j, zp nz k) (-(fout / (S.J j (zp nz k) * S.dz j (zp nz k))))

/-- The points of `RGN_NOBNDRY` on one Y-Z surface, in order. -/
def yzPoints (ystart yend : Int) (nz : Nat) : List (Int × Nat) :=
  (irange ystart yend).flatMap (fun j => (List.range nz).map (fun k => (j, k)))

/-- fv_ops.cxx:97-170: the Y and Z part of `Div_a_Grad_perp`. -/
def divAGradPerpYZ (ystart yend : Int) (nz : Nat) (S : YZ K) : Int × Nat → K :=
  (yzPoints ystart yend nz).foldl (perpYZBody nz S) (fun _ => 0)

/-! ## `Div_f_v` -/

/-- What a rank knows about its X range. -/
structure XRank where
  xstart : Int
  xend : Int
  firstX : Bool
  lastX : Bool

/-- fv_ops.hxx:411-412: velocity times Jacobian on the right and left faces. -/
def vRight (C : XLine K) (i : Int) : K := 1/4 * (C.v (i + 1) + C.v i) * (C.J (i + 1) + C.J i)
/-- fv_ops.hxx:411: the left face. -/
def vLeft (C : XLine K) (i : Int) : K := 1/4 * (C.v (i - 1) + C.v i) * (C.J (i - 1) + C.J i)

/-- fv_ops.hxx:424-447: the right face of cell `i`. -/
def fvRight (R : XRank) (bndry_flux : Bool) (edges : K → K → K → Edges K) (C : XLine K) (r : Int → K) (i : Int) :
    Int → K :=
  let s := edges (C.f i) (C.f (i - 1)) (C.f (i + 1))
  let vR := vRight C i
  if i = R.xend ∧ R.lastX = true then
    if bndry_flux then
      let flux := if vR > 0 then vR * s.R else vR * (1/2) * (C.f (i + 1) + C.f i)
      addAt (addAt r i (flux / (C.dx i * C.J i))) (i + 1) (-(flux / (C.dx (i + 1) * C.J (i + 1))))
    else r
  else if vR > 0 then
    let flux := vR * s.R
    addAt (addAt r i (flux / (C.dx i * C.J i))) (i + 1) (-(flux / (C.dx (i + 1) * C.J (i + 1))))
  else r

/-- fv_ops.hxx:449-472: the left face of cell `i`. -/
def fvLeft (R : XRank) (bndry_flux : Bool) (edges : K → K → K → Edges K) (C : XLine K) (r : Int → K) (i : Int) :
    Int → K :=
  let s := edges (C.f i) (C.f (i - 1)) (C.f (i + 1))
  let vL := vLeft C i
  if i = R.xstart ∧ R.firstX = true then
    if bndry_flux then
      let flux := if vL < 0 then vL * s.L else vL * (1/2) * (C.f (i - 1) + C.f i)
      addAt (addAt r i (-(flux / (C.dx i * C.J i)))) (i - 1) (flux / (C.dx (i - 1) * C.J (i - 1)))
    else r
  else if vL < 0 then
    let flux := vL * s.L
    addAt (addAt r i (-(flux / (C.dx i * C.J i)))) (i - 1) (flux / (C.dx (i - 1) * C.J (i - 1)))
  else r

/-- fv_ops.hxx:407-472: the X direction of the loop of `Div_f_v`, before `communicateFluxes`. -/
def divFvXLocal (R : XRank) (bndry_flux : Bool) (edges : K → K → K → Edges K) (C : XLine K) : Int → K :=
  (irange R.xstart R.xend).foldl (fun r i => fvLeft R bndry_flux edges C (fvRight R bndry_flux edges C r i) i)
    (fun _ => 0)

/-- fv_ops.cxx:433-479 `communicateFluxes` on rank `r` of `p`, as a function of every rank's field before the call:
column 1 of the next rank and column `LocalNx - 2` of the previous one arrive in columns `LocalNx - 1` and `0`, and are
added to the first and last cell.  `none` is the exception for `xstart != 2`. -/
def communicateFluxes (p M : Nat) (xstart : Int) (f : Nat → Int → K) (r : Nat) : Option (Int → K) :=
  if xstart ≠ 2 then none
  else
    let LocalNx : Int := M + 4
    let g := f r
    let g := if 0 < r then addAt (fun i => if i = 0 then f (r - 1) (LocalNx - 2) else g i) 2 (f (r - 1) (LocalNx - 2)) else g
    let g := if r + 1 < p then
      addAt (fun i => if i = LocalNx - 1 then f (r + 1) 1 else g i) (LocalNx - 3) (f (r + 1) 1) else g
    some g

/-- The fields on one Z line of `Div_f_v`. -/
structure ZLine (K : Type) where
  f : Nat → K
  v : Nat → K
  J : Nat → K
  dz : Nat → K

/-- fv_ops.hxx:409-410, 474-493: the Z direction of the loop body. -/
def fvZBody (nz : Nat) (edges : K → K → K → Edges K) (C : ZLine K) (r : Nat → K) (k : Nat) : Nat → K :=
  let vU := 1/4 * (C.v (zp nz k) + C.v k) * (C.J (zp nz k) + C.J k)
  let vD := 1/4 * (C.v (zm nz k) + C.v k) * (C.J (zm nz k) + C.J k)
  let s := edges (C.f k) (C.f (zm nz k)) (C.f (zp nz k))
  let r := if vU > 0 then
    addTo (addTo r k (vU * s.R / (C.J k * C.dz k))) (zp nz k) (-(vU * s.R / (C.J (zp nz k) * C.dz (zp nz k)))) else r
  if vD < 0 then
    addTo (addTo r k (-(vD * s.L / (C.J k * C.dz k)))) (zm nz k) (vD * s.L / (C.J (zm nz k) * C.dz (zm nz k))) else r

/-- The Z direction of `Div_f_v`. -/
def divFvZ (nz : Nat) (edges : K → K → K → Edges K) (C : ZLine K) : Nat → K :=
  (List.range nz).foldl (fvZBody nz edges C) (fun _ => 0)

/-- fv_ops.hxx:498-519: the Y direction of `Div_f_v` (centred), with `C.v` the aligned `v.y`. -/
def divFvY (C : Col K) (j : Int) : K :=
  let vU := 1/4 * (C.v j + C.v (j + 1)) * (C.J j + C.J (j + 1))
  let vD := 1/4 * (C.v j + C.v (j - 1)) * (C.J j + C.J (j - 1))
  let nU := 1/2 * (C.f j + C.f (j + 1))
  let nD := 1/2 * (C.f j + C.f (j - 1))
  (nU * vU - nD * vD) / (C.J j * C.dy j)

/-! ## `Div_Perp_Lap` -/

/-- The fields of `Div_Perp_Lap` on one X-Z plane. -/
structure XZ (K : Type) where
  f : Int → Nat → K
  a : Int → Nat → K
  J : Int → Nat → K
  g11 : Int → Nat → K
  g13 : Int → Nat → K
  g33 : Int → Nat → K
  dx : Int → Nat → K
  dz : Int → Nat → K

/-- fv_ops.cxx:512-518. -/
def lapGR (nz : Nat) (S : XZ K) (i : Int) (k : Nat) : K :=
  (S.g11 i k + S.g11 (i + 1) k) * (S.f (i + 1) k - S.f i k) / (S.dx (i + 1) k + S.dx i k) +
  1/2 * (S.g13 i k + S.g13 (i + 1) k) *
    (S.f (i + 1) (zp nz k) - S.f (i + 1) (zm nz k) + S.f i (zp nz k) - S.f i (zm nz k)) / (4 * S.dz i k)

/-- fv_ops.cxx:520-526. -/
def lapGL (nz : Nat) (S : XZ K) (i : Int) (k : Nat) : K :=
  (S.g11 (i - 1) k + S.g11 i k) * (S.f i k - S.f (i - 1) k) / (S.dx (i - 1) k + S.dx i k) +
  1/2 * (S.g13 (i - 1) k + S.g13 i k) *
    (S.f (i - 1) (zp nz k) - S.f (i - 1) (zm nz k) + S.f i (zp nz k) - S.f i (zm nz k)) / (4 * S.dz i k)

/-- fv_ops.cxx:528-532. -/
def lapGD (nz : Nat) (S : XZ K) (i : Int) (k : Nat) : K :=
  S.g13 i k * (S.f (i + 1) (zm nz k) - S.f (i - 1) (zm nz k) + S.f (i + 1) k - S.f (i - 1) k) / (4 * S.dx i k) +
  S.g33 i k * (S.f i k - S.f i (zm nz k)) / S.dz i k

/-- fv_ops.cxx:534-538. -/
def lapGU (nz : Nat) (S : XZ K) (i : Int) (k : Nat) : K :=
  S.g13 i k * (S.f (i + 1) (zp nz k) - S.f (i - 1) (zp nz k) + S.f (i + 1) k - S.f (i - 1) k) / (4 * S.dx i k) +
  S.g33 i k * (S.f i (zp nz k) - S.f i k) / S.dz i k

/-- fv_ops.cxx:540-558: the value of `Div_Perp_Lap` in one cell; the last line adds the flow down. -/
def divPerpLap (nz : Nat) (S : XZ K) (i : Int) (k : Nat) : K :=
  let r : K := 0
  let flux := lapGR nz S i k * (1/4) * (S.J (i + 1) k + S.J i k) * (S.a (i + 1) k + S.a i k)
  let r := r + flux / (S.dx i k * S.J i k)
  let flux := lapGL nz S i k * (1/4) * (S.J (i - 1) k + S.J i k) * (S.a (i - 1) k + S.a i k)
  let r := r - flux / (S.dx i k * S.J i k)
  let flux := lapGU nz S i k * (1/4) * (S.J i k + S.J i (zp nz k)) * (S.a i k + S.a i (zp nz k))
  let r := r + flux / (S.dz i k * S.J i k)
  let flux := lapGD nz S i k * (1/4) * (S.J i (zm nz k) + S.J i k) * (S.a i (zm nz k) + S.a i k)
  r + flux / (S.dz i k * S.J i k)

end Verif.Num
