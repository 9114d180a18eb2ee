import Verif.Num.SingleIndexProps

/-!
C57: each single-index operator equals the field operator at the point.
-/
namespace Verif.Num.SI

section
variable (nx ny nz : Int) (c : Coords) (d : Int → ℝ)

/-- The accessor reads component `o` at the point's (x, y). -/
theorem co_flat (hd : Holds d c (nx * ny)) {x y z : Int} (hx : 0 ≤ x) (hx' : x < nx) (hy : 0 ≤ y) (hy' : y < ny) (hz : 0 ≤ z)
    (hz' : z < nz) (o : Off) : lookup d nz (flat ny nz x y z) o = at2 ny (c o) x y := by
  have h0 : 0 ≤ x * ny + y := by
    have : 0 ≤ x * ny := Int.mul_nonneg hx (by omega)
    omega
  have h1 : x * ny + y < nx * ny := by
    have : (x + 1) * ny ≤ nx * ny := Int.mul_le_mul_of_nonneg_right (by omega) (by omega)
    rw [Int.add_mul, Int.one_mul] at this
    omega
  unfold lookup flat at2
  rw [tdiv_mul_add h0 hz hz']
  exact hd o _ h0 h1

theorem co_pt (hd : Holds d c (nx * ny)) {x y z : Int} (h : Pt nx ny nz x y z) (o : Off) :
    lookup d nz (flat ny nz x y z) o = at2 ny (c o) x y :=
  co_flat nx ny nz c d hd (by have := h.x0; omega) (by have := h.x1; omega) (by have := h.y0; omega) (by have := h.y1; omega) h.z0 h.z1 o

theorem tdiv_pt {x y z : Int} (h : Pt nx ny nz x y z) : (flat ny nz x y z).tdiv nz = x * ny + y :=
  tdiv_mul_add (flat_nonneg h) h.z0 h.z1

theorem xp2 (x y : Int) : i_xp (x * ny + y) ny 1 = (x + 1) * ny + y := by unfold i_xp; ring
theorem xm2 (x y : Int) : i_xm (x * ny + y) ny 1 = (x - 1) * ny + y := by unfold i_xm; ring
theorem yp2 (x y : Int) : i_yp (x * ny + y) 1 = x * ny + (y + 1) := by unfold i_yp; ring
theorem ym2 (x y : Int) : i_ym (x * ny + y) 1 = x * ny + (y - 1) := by unfold i_ym; ring

/-- **C57.** First derivatives and `D2DY2` of a `Field3D`, and first derivatives of a `Field2D`, at every interior point: the
second-order central field operators (with the non-uniform correction), reading the parallel slices in y. -/
theorem C57_derivatives (hd : Holds d c (nx * ny)) (v up dn v2 : Int → ℝ) (x y z : Int) (h : Pt nx ny nz x y z) :
    let i := flat ny nz x y z
    let f := acc3 ny nz d v up dn
    let dx := at2 ny (c .dx)
    let dy := at2 ny (c .dy)
    let dz := at2 ny (c .dz)
    ddx3 f i = fDDX dx (at3 ny nz v) x y z ∧
    ddy3 f i = fDDY dy (at3 ny nz up) (at3 ny nz dn) x y z ∧
    ddz3 f i = fDDZ dz nz (at3 ny nz v) x y z ∧
    d2dy2 f i = fD2DY2 dy (at2 ny (c .d1_dy)) (at3 ny nz v) (at3 ny nz up) (at3 ny nz dn) x y z ∧
    ddx2 (acc2 ny nz d v2) i = fDDX dx (lift (at2 ny v2)) x y z ∧
    ddy2 (acc2 ny nz d v2) i = fDDY dy (lift (at2 ny v2)) (lift (at2 ny v2)) x y z := by
  have hc := co_pt nx ny nz c d hd h
  dsimp only
  refine ⟨?_, ?_, ?_, ?_, ?_, ?_⟩
  · simp only [ddx3, acc3, xp_flat, xm_flat, hc, fDDX, DDX_C2, populate, at3]
  · simp only [ddy3, acc3, yp_flat, ym_flat, hc, fDDY, DDX_C2, at3]
  · simp only [ddz3, acc3, zp_flat h, zm_flat h, hc, fDDZ, DDX_C2, at3, zNext, zPrev]
  · simp only [d2dy2, acc3, yp_flat, ym_flat, hc, fD2DY2, fDDY, DDX_C2, D2DX2_C2, at3]
    simp only [div_eq_mul_inv, mul_inv]
    ring
  · simp only [ddx2, acc2, tdiv_pt nx ny nz h, xp2, xm2, hc, fDDX, DDX_C2, populate, lift, at2]
  · simp only [ddy2, acc2, tdiv_pt nx ny nz h, yp2, ym2, hc, fDDY, DDX_C2, lift, at2]

/-- **C57.** `Delp2` at a point is the field operator `G1 DDX + G3 DDZ + g11 D2DX2 + g33 D2DZ2 + 2 g13 D2DXDZ`
(coordinates.cxx:1713-1715) with second-order schemes. -/
theorem C57_delp2 (hd : Holds d c (nx * ny)) (v up dn : Int → ℝ) (x y z : Int) (h : Pt nx ny nz x y z) :
    let f := at3 ny nz v
    let dx := at2 ny (c .dx)
    let dz := at2 ny (c .dz)
    delp2 (acc3 ny nz d v up dn) (flat ny nz x y z) =
      at2 ny (c .G1) x y * fDDX dx f x y z + at2 ny (c .G3) x y * fDDZ dz nz f x y z +
      at2 ny (c .g11) x y * fD2DX2 dx (at2 ny (c .d1_dx)) f x y z + at2 ny (c .g33) x y * fD2DZ2 dz nz f x y z +
      2 * at2 ny (c .g13) x y * fDDZ dz nz (fDDX dx f) x y z := by
  have hc := co_pt nx ny nz c d hd h
  simp only [delp2, acc3, zp_flat h, zm_flat h, xp_flat, xm_flat, hc, fDDX, fDDZ, fD2DX2, fD2DZ2, DDX_C2, D2DX2_C2, populate, at3,
    zNext, zPrev]
  simp only [div_eq_mul_inv, mul_inv]
  ring

/-- **C57.** `Grad_par` and `Div_par` at a point: `DDY(f)/sqrt(g_22)`, and `B Grad_par(f/B)` with the quotient's own slices. -/
theorem C57_parallel (hd : Holds d c (nx * ny)) (v up dn : Int → ℝ) (x y z : Int) (h : Pt nx ny nz x y z) :
    let dy := at2 ny (c .dy)
    gradPar (acc3 ny nz d v up dn) (flat ny nz x y z) =
      fDDY dy (at3 ny nz up) (at3 ny nz dn) x y z / Real.sqrt (at2 ny (c .gg22) x y) ∧
    divPar (acc3 ny nz d v up dn) (flat ny nz x y z) =
      at2 ny (c .B) x y * (fDDY dy (fun x y z => at3 ny nz up x y z / at2 ny (c .Byup) x y)
        (fun x y z => at3 ny nz dn x y z / at2 ny (c .Bydown) x y) x y z / Real.sqrt (at2 ny (c .gg22) x y)) := by
  have hc := co_pt nx ny nz c d hd h
  have hu := co_flat nx ny nz c d hd (x := x) (y := y + 1) (z := z) (by have := h.x0; omega) (by have := h.x1; omega)
    (by have := h.y0; omega) h.y1 h.z0 h.z1
  have hl := co_flat nx ny nz c d hd (x := x) (y := y - 1) (z := z) (by have := h.x0; omega) (by have := h.x1; omega)
    (by have := h.y0; omega) (by have := h.y1; omega) h.z0 h.z1
  dsimp only
  constructor
  · simp only [gradPar, ddy3, acc3, yp_flat, ym_flat, hc, fDDY, DDX_C2, at3]
  · simp only [divPar, acc3, yp_flat, ym_flat, hc, hu, hl, fDDY, DDX_C2, at3]
    simp only [div_eq_mul_inv, mul_inv]
    ring

/-- The field line through a point: the field there, `yup` above and `ydown` below. -/
def lineThrough (v up dn : Grid) (x y z : Int) : Int → ℝ := fun j => if j = y then v x j z else if j < y then dn x j z else up x j z

/-- **C57.** `Div_par_Grad_par` at a point is `Div_par_K_Grad_par` of the finite-volume operators with `K = 1` on the field line
through the point. -/
theorem C57_div_par_grad_par (hd : Holds d c (nx * ny)) (v up dn : Int → ℝ) (x y z : Int) (h : Pt nx ny nz x y z) (R : YRank)
    (w wave sq : Int → ℝ) :
    divParGradPar (acc3 ny nz d v up dn) (flat ny nz x y z) =
      Verif.Num.divParKGradPar R true
        ⟨lineThrough (at3 ny nz v) (at3 ny nz up) (at3 ny nz dn) x y z, w, wave, fun j => at2 ny (c .J) x j, sq,
          fun j => at2 ny (c .gg22) x j, fun j => at2 ny (c .dy) x j⟩ (fun _ => 1) y := by
  have hc := co_pt nx ny nz c d hd h
  have hu := co_flat nx ny nz c d hd (x := x) (y := y + 1) (z := z) (by have := h.x0; omega) (by have := h.x1; omega)
    (by have := h.y0; omega) h.y1 h.z0 h.z1
  have hl := co_flat nx ny nz c d hd (x := x) (y := y - 1) (z := z) (by have := h.x0; omega) (by have := h.x1; omega)
    (by have := h.y0; omega) (by have := h.y1; omega) h.z0 h.z1
  have e1 : lineThrough (at3 ny nz v) (at3 ny nz up) (at3 ny nz dn) x y z y = v (flat ny nz x y z) := if_pos rfl
  have e2 : lineThrough (at3 ny nz v) (at3 ny nz up) (at3 ny nz dn) x y z (y + 1) = up (flat ny nz x (y + 1) z) := by
    unfold lineThrough at3
    rw [if_neg (by omega), if_neg (by omega)]
  have e3 : lineThrough (at3 ny nz v) (at3 ny nz up) (at3 ny nz dn) x y z (y - 1) = dn (flat ny nz x (y - 1) z) := by
    unfold lineThrough at3
    rw [if_neg (by omega), if_pos (by omega)]
  simp only [divParGradPar, acc3, yp_flat, ym_flat, hc, hu, hl, Verif.Num.divParKGradPar, true_or, if_true, e1, e2, e3]
  simp only [div_eq_mul_inv, mul_inv]
  ring

/-- **C57.** `bracket` of two `Field3D` at a point is what the field operator `bracket(f, g, BRACKET_ARAKAWA)` stores there. -/
theorem C57_bracket (hd : Holds d c (nx * ny)) (f fu fd g gu gd : Int → ℝ) (x y z : Int) (h : Pt nx ny nz x y z)
    (M : Perp ℝ) (ok : M.Ok) (hx : M.xstart ≤ x) (hx' : x ≤ M.xend) (hn : M.ncz = nz)
    (hdx : M.dx x = at2 ny (c .dx) x y) (hdz : M.dz x = at2 ny (c .dz) x y) (r : Int → Int → ℝ) :
    ∃ b, bracket33 M (fun x z => at3 ny nz f x y z) (fun x z => at3 ny nz g x y z) r = some b ∧
      bracket3 (acc3 ny nz d f fu fd) (acc3 ny nz d g gu gd) (flat ny nz x y z) = b x z := by
  have hc := co_pt nx ny nz c d hd h
  unfold bracket33
  rw [if_neg (by rintro (e | e); exacts [ok.gx e, ok.gz e])]
  obtain ⟨b, e, hv, -⟩ := bracketLoop_value (zSplit M.ncz) M.xstart M.xend M.ncz M.dx M.dz
    (arakawaTerms (fun x z => at3 ny nz f x y z) (fun x z => at3 ny nz g x y z)) r (zInside_split ok.nz) (zSplit_spec ok.nz)
  refine ⟨b, e, ?_⟩
  rw [hv x z hx hx' h.z0 (by rw [hn]; exact h.z1), hdx, hdz, hn]
  simp only [bracket3, acc3, zp_flat h, zm_flat h, xp_flat, xm_flat, hc, arakawaTerms, at3]
  simp only [div_eq_mul_inv, mul_inv]
  ring

/-- **C57.** The same for a `Field2D` first argument. -/
theorem C57_bracket_2d (hd : Holds d c (nx * ny)) (f g gu gd : Int → ℝ) (x y z : Int) (h : Pt nx ny nz x y z)
    (M : Perp ℝ) (ok : M.Ok) (hx : M.xstart ≤ x) (hx' : x ≤ M.xend) (hn : M.ncz = nz)
    (hdx : M.dx x = at2 ny (c .dx) x y) (hdz : M.dz x = at2 ny (c .dz) x y) (r : Int → Int → ℝ) :
    ∃ b, bracket23 M (fun x => at2 ny f x y) (fun x z => at3 ny nz g x y z) r = some b ∧
      bracket2 (acc2 ny nz d f) (acc3 ny nz d g gu gd) (flat ny nz x y z) = b x z := by
  have hc := co_pt nx ny nz c d hd h
  unfold bracket23 bracket32
  obtain ⟨b, e, hv, -⟩ := bracketLoop_value (zSplit M.ncz) M.xstart M.xend M.ncz M.dx M.dz
    (fun jx _ jzp jzm => arakawaTerms2 (fun x z => at3 ny nz g x y z) (fun x => at2 ny f x y) jx jzp jzm) r
    (zInside_split ok.nz) (zSplit_spec ok.nz)
  refine ⟨_, by rw [e]; rfl, ?_⟩
  dsimp only
  rw [hv x z hx hx' h.z0 (by rw [hn]; exact h.z1), hdx, hdz, hn]
  simp only [bracket2, acc3, acc2, zp_flat h, zm_flat h, xp_flat, xm_flat, tdiv_pt nx ny nz h, xp2, xm2, hc, arakawaTerms2, at3, at2]
  simp only [div_eq_mul_inv, mul_inv]
  ring

end

/-! ## Drift operators -/

/-- The discrete derivatives of C30 on the grid, for fields without a separate pair of slices. -/
noncomputable def gridD (dx dy dz : Int → Int → ℝ) (nz : Int) : Deriv (Int × Int × Int) ℝ where
  DDX f p := fDDX dx (fun x y z => f (x, y, z)) p.1 p.2.1 p.2.2
  DDY f p := fDDY dy (fun x y z => f (x, y, z)) (fun x y z => f (x, y, z)) p.1 p.2.1 p.2.2
  DDZ f p := fDDZ dz nz (fun x y z => f (x, y, z)) p.1 p.2.1 p.2.2

/-- The metric of the coordinates at each point. -/
def gridM (ny : Int) (c : Coords) : Int × Int × Int → Metric ℝ := fun p =>
  ⟨⟨at2 ny (c .g11) p.1 p.2.1, at2 ny (c .g22) p.1 p.2.1, at2 ny (c .g33) p.1 p.2.1, at2 ny (c .g12) p.1 p.2.1,
    at2 ny (c .g13) p.1 p.2.1, at2 ny (c .g23) p.1 p.2.1⟩,
   ⟨at2 ny (c .gg11) p.1 p.2.1, at2 ny (c .gg22) p.1 p.2.1, at2 ny (c .gg33) p.1 p.2.1, at2 ny (c .gg12) p.1 p.2.1,
    at2 ny (c .gg13) p.1 p.2.1, at2 ny (c .gg23) p.1 p.2.1⟩, at2 ny (c .J) p.1 p.2.1⟩

/-- **C57.** `b0xGrad_dot_Grad` at a point, without integrated shear: the field operators for (2D, 3D) and (3D, 2D) arguments with
central differences. -/
theorem C57_b0xgrad_partial (nx ny nz : Int) (c : Coords) (d : Int → ℝ) (hd : Holds d c (nx * ny)) (v v2 : Int → ℝ) (x y z : Int)
    (h : Pt nx ny nz x y z) (I : Int × Int × Int → ℝ) :
    let D := gridD (at2 ny (c .dx)) (at2 ny (c .dy)) (at2 ny (c .dz)) nz
    let m := gridM ny c
    let f3 : Int × Int × Int → ℝ := fun p => at3 ny nz v p.1 p.2.1 p.2.2
    let f2 : Int × Int × Int → ℝ := fun p => at2 ny v2 p.1 p.2.1
    b0xGrad23 (acc2 ny nz d v2) (acc3 ny nz d v v v) (flat ny nz x y z) = Verif.Num.b0xGrad23 D m false I f2 f3 (x, y, z) ∧
    b0xGrad32 (acc3 ny nz d v v v) (acc2 ny nz d v2) (flat ny nz x y z) = Verif.Num.b0xGrad32 D m false I f3 f2 (x, y, z) := by
  have hc := co_pt nx ny nz c d hd h
  dsimp only
  constructor
  · simp only [b0xGrad23, Verif.Num.b0xGrad23, ddx2, ddy2, acc2, acc3, tdiv_pt nx ny nz h, xp2, xm2, yp2, ym2, hc, xp_flat, xm_flat, yp_flat,
      ym_flat, zp_flat h, zm_flat h, gridD, gridM, fDDX, fDDY, fDDZ, DDX_C2, populate, at3, at2, zNext, zPrev, Bool.false_eq_true, if_false]
    simp only [div_eq_mul_inv, mul_inv]
    ring
  · simp only [b0xGrad32, Verif.Num.b0xGrad32, withShear, ddx3, ddy3, ddz3, acc2, acc3, tdiv_pt nx ny nz h, xp2, xm2, yp2, ym2, hc, xp_flat,
      xm_flat, yp_flat, ym_flat, zp_flat h, zm_flat h, gridD, gridM, fDDX, fDDY, fDDZ, DDX_C2, populate, at3, at2, zNext, zPrev,
      Bool.false_eq_true, if_false]
    simp only [div_eq_mul_inv, mul_inv]
    ring

/-- Full statement, refuted: the same with `IncIntShear`.  The field operator's `DDX(phi)` then has the shear term, the
single-index one has not. -/
theorem C57_b0xgrad_intshear_violated : ∃ (c : Coords) (d v v2 : Int → ℝ) (I : Int × Int × Int → ℝ), Holds d c (3 * 3) ∧ Pt 3 3 3 1 1 1 ∧
    b0xGrad32 (acc3 3 3 d v v v) (acc2 3 3 d v2) (flat 3 3 1 1 1) ≠
      Verif.Num.b0xGrad32 (gridD (at2 3 (c .dx)) (at2 3 (c .dy)) (at2 3 (c .dz)) 3) (gridM 3 c) true I
        (fun p => at3 3 3 v p.1 p.2.1 p.2.2) (fun p => at2 3 v2 p.1 p.2.1) (1, 1, 1) := by
  have hp : Pt 3 3 3 1 1 1 := ⟨by norm_num, by norm_num, by norm_num, by norm_num, by norm_num, by norm_num⟩
  have hh : Holds (fill (fun _ _ => 1) (fun _ => 0) 9) (fun _ _ => 1) (3 * 3) := fill_holds _ _ 9
  refine ⟨fun _ _ => 1, fill (fun _ _ => 1) (fun _ => 0) 9, fun i => i, fun i => i, fun _ => 1, hh, hp, ?_⟩
  rw [(C57_b0xgrad_partial 3 3 3 _ _ hh (fun i => i) (fun i => i) 1 1 1 hp (fun _ => 1)).2]
  simp [Verif.Num.b0xGrad32, withShear, gridD, gridM, fDDX, fDDY, fDDZ, DDX_C2, populate, at3, at2, flat]

/-- The hypotheses hold on a mesh of 4 x 5 x 3 points with coordinates varying from point to point. -/
example : Holds (access [] 7 (fun o k => (o.toInt : ℝ) + k) (fun _ => -1) 20).1 (fun o k => (o.toInt : ℝ) + k) (4 * 5) ∧ Pt 4 5 3 1 2 2 :=
  ⟨fill_holds _ _ 20, ⟨by norm_num, by norm_num, by norm_num, by norm_num, by norm_num, by norm_num⟩⟩

end Verif.Num.SI
