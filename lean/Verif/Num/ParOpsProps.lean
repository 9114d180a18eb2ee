import Verif.Num.ParOps
import Mathlib.Algebra.BigOperators.Intervals
import Mathlib.Analysis.SpecialFunctions.ExpDeriv

namespace Verif.Num

variable {ι : Type} {D : Deriv ι ℝ} {S : (ι → ℝ) → Prop}

/-! ## Specification -/

/-- The unit vector along the y coordinate line (the magnetic field direction), by contravariant components. -/
noncomputable def bhat (m : ι → Metric ℝ) (i : ι) : Vec ℝ := ⟨0, 1 / Real.sqrt (m i).lo.c22, 0, false⟩

/-- The vector field `s b`. -/
noncomputable def alongB (m : ι → Metric ℝ) (s : ι → ℝ) : VField ι ℝ :=
  ⟨fun _ => 0, fun i => s i / Real.sqrt (m i).lo.c22, fun _ => 0, false⟩

/-- The magnitude of the field is the one of a field-aligned (Clebsch) system: `J B = sqrt(g_22)`. -/
def Clebsch (m : ι → Metric ℝ) (B : ι → ℝ) : Prop := ∀ i, (m i).J * B i = Real.sqrt (m i).lo.c22

theorem bhat_unit (m : ι → Metric ℝ) (i : ι) (hg : 0 < (m i).lo.c22) : dot (m i) (bhat m i) (bhat m i) = 1 := by
  have hs := Real.sqrt_pos.2 hg
  have h2 := Real.mul_self_sqrt hg.le
  simp only [dot, bhat, Bool.bne_false, Bool.false_eq_true, if_false]
  field_simp
  nlinarith [h2]

theorem alongB_at (m : ι → Metric ℝ) (s : ι → ℝ) (i : ι) : (alongB m s).at i = vscale (bhat m i) (s i) := by
  simp only [alongB, VField.at, vscale, bhat, Vec.mk.injEq, zero_mul, and_true, true_and]
  ring

/-! ## Grad_par, Div_par -/

/-- **C56.** `Grad_par` is the component of the gradient along the unit vector of the field line, and `Vpar_Grad_par` is the
velocity times it. -/
theorem C56_grad_par (m : ι → Metric ℝ) (i : ι) (hg : 0 < (m i).lo.c22) (f v : ι → ℝ) :
    dot (m i) (bhat m i) (bhat m i) = 1 ∧ gradPar D m f i = dot (m i) (bhat m i) ((grad D f).at i) ∧
    vparGradPar D m v f i = v i * dot (m i) (bhat m i) ((grad D f).at i) := by
  refine ⟨bhat_unit m i hg, ?_, ?_⟩ <;>
    simp [gradPar, vparGradPar, invSg, dot, bhat, grad, VField.at] <;> ring

/-- **C56.** `Div_par` is the divergence of the field times the unit vector along the field line. -/
theorem C56_div_par (h : DiffAlg D S) (m : ι → Metric ℝ) (B f : ι → ℝ) (hg : ∀ i, 0 < (m i).lo.c22)
    (hB : Clebsch m B) : divParB D m B f = div D m (alongB m f) := by
  funext i
  have hB0 : ∀ j, B j ≠ 0 ∧ (m j).J ≠ 0 := by
    intro j
    have hs := Real.sqrt_pos.2 (hg j)
    rw [← hB j] at hs
    exact ⟨fun e => by rw [e] at hs; simp at hs, fun e => by rw [e] at hs; simp at hs⟩
  have e : (fun j => (m j).J * (f j / Real.sqrt (m j).lo.c22)) = fun j => f j / B j := by
    funext j
    rw [← hB j]
    obtain ⟨h1, h2⟩ := hB0 j
    field_simp
  unfold divParB gradPar invSg Verif.Num.div alongB
  simp only [VField.toCon, VField.at, toContravariant, Bool.false_eq_true, if_false, mul_zero, h.constX, h.constZ]
  rw [e, ← hB i]
  obtain ⟨h1, h2⟩ := hB0 i
  field_simp
  ring

theorem invSg_mem (h : DiffAlg D S) (m : ι → Metric ℝ) (hm : InClass S m) (hg : ∀ i, 0 < (m i).lo.c22) : S (invSg m) := by
  have := h.inv _ (h.sqrt _ hm.l22 hg) (fun i => (Real.sqrt_pos.2 (hg i)).ne')
  have e : invSg m = fun i => (Real.sqrt (m i).lo.c22)⁻¹ := by funext i; simp [invSg]
  rw [e]; exact this

/-- **C56.** `Grad2_par2` is `Grad_par` applied twice. -/
theorem C56_grad2_par2 (h : DiffAlg D S) (m : ι → Metric ℝ) (hm : InClass S m) (hg : ∀ i, 0 < (m i).lo.c22)
    (f : ι → ℝ) (hf : S f) : grad2par2 D m f = gradPar D m (gradPar D m f) := by
  funext i
  have hs := Real.sqrt_pos.2 (hg i)
  have h2 := Real.mul_self_sqrt (hg i).le
  unfold grad2par2 ddyInvSg second
  show _ = D.DDY (fun i => D.DDY f i * invSg m i) i * invSg m i
  rw [h.mulY _ _ (h.ddy f hf) (invSg_mem h m hm hg)]
  have e : invSg m i * invSg m i = 1 / (m i).lo.c22 := by
    unfold invSg
    rw [div_mul_div_comm, h2, one_mul]
  linear_combination (-(D.DDY (D.DDY f) i)) * e

/-- **C56.** `Div_par_K_Grad_par` with a field `K` is the divergence of the diffusive flux `K b (b . Grad f)`. -/
theorem C56_div_par_K_grad_par (h : DiffAlg D S) (m : ι → Metric ℝ) (hm : InClass S m) (hg : ∀ i, 0 < (m i).lo.c22)
    (B K f : ι → ℝ) (hBS : S B) (hB : Clebsch m B) (hK : S K) (hf : S f) :
    divParKGrad D m B K f = div D m (alongB m (fun i => K i * gradPar D m f i)) := by
  have hB0 : ∀ j, B j ≠ 0 := by
    intro j e
    have hs := Real.sqrt_pos.2 (hg j)
    rw [← hB j, e] at hs
    simp at hs
  rw [← C56_div_par h m B _ hg hB]
  funext i
  have hgp : S (gradPar D m f) := h.mul _ _ (h.ddy f hf) (invSg_mem h m hm hg)
  have e : (fun j => K j * gradPar D m f j / B j) = fun j => (fun j => K j / B j) j * gradPar D m f j := by
    funext j; have := hB0 j; field_simp
  unfold divParKGrad
  rw [C56_grad2_par2 h m hm hg f hf]
  unfold divParB
  rw [e]
  show K i * (D.DDY (gradPar D m f) i * invSg m i) + B i * (D.DDY (fun j => K j / B j) i * invSg m i) * gradPar D m f i =
    B i * (D.DDY (fun j => (fun j => K j / B j) j * gradPar D m f j) i * invSg m i)
  rw [h.mulY _ _ (h.div hK hBS hB0) hgp]
  have := hB0 i
  field_simp
  ring

/-- **C56, partial.** The overload of `Div_par_K_Grad_par` for a constant coefficient agrees with the divergence of the
diffusive flux where the magnetic field does not vary along the field lines (which is not assumed by its documentation). -/
theorem C56_div_par_K_const_partial (h : DiffAlg D S) (m : ι → Metric ℝ) (hm : InClass S m) (hg : ∀ i, 0 < (m i).lo.c22)
    (B : ι → ℝ) (k : ℝ) (f : ι → ℝ) (hBS : S B) (hB : Clebsch m B) (hf : S f) (hBy : D.DDY B = fun _ => 0) :
    divParKGradConst D m k f = div D m (alongB m (fun i => k * gradPar D m f i)) := by
  rw [← C56_div_par_K_grad_par h m hm hg B (fun _ => k) f hBS hB (h.const k) hf]
  have hB0 : ∀ j, B j ≠ 0 := by
    intro j e
    have hs := Real.sqrt_pos.2 (hg j)
    rw [← hB j, e] at hs
    simp at hs
  funext i
  have hinv : D.DDY (fun j => k / B j) i = 0 := by
    have h1 : (fun _ : ι => k) = fun j => (fun j => k / B j) j * B j := by
      funext j; have := hB0 j; field_simp
    have h2 := h.constY k
    rw [h1, h.mulY _ _ (h.div (h.const k) hBS hB0) hBS] at h2
    have h3 := congrFun h2 i
    rw [hBy] at h3
    simp only [mul_zero, add_zero] at h3
    exact (mul_eq_zero.1 h3).resolve_right (hB0 i)
  unfold divParKGradConst divParKGrad divParB gradPar
  rw [hinv]
  ring

/-! ## Laplacians -/

/-- **C56.** `Laplace_par` is the parallel divergence of the parallel gradient. -/
theorem C56_laplace_par (h : DiffAlg D S) (m : ι → Metric ℝ) (hm : InClass S m) (hJ : ∀ i, (m i).J ≠ 0)
    (hg : ∀ i, 0 < (m i).lo.c22) (f : ι → ℝ) (hf : S f) :
    laplacePar D m f = div D m (alongB m (gradPar D m f)) := by
  rw [C32_laplace_par h m hm hJ (fun i => (hg i).ne') f hf]
  have e : (fun i => D.DDY f i / (m i).lo.c22) = fun i => gradPar D m f i / Real.sqrt (m i).lo.c22 := by
    funext i
    have h2 := Real.mul_self_sqrt (hg i).le
    unfold gradPar invSg
    rw [mul_one_div, div_div, h2]
  unfold alongB
  rw [e]

/-- **C56.** `Laplace_perp` is the divergence of `Grad_perp`. -/
theorem C56_laplace_perp (h : DiffAlg D S) (hc : Commutes D S) (m : ι → Metric ℝ) (hm : InClass S m)
    (hi : ∀ i, MetricInverse (m i).up (m i).lo) (hJ : ∀ i, (m i).J ≠ 0) (hg : ∀ i, 0 < (m i).lo.c22) (B f : ι → ℝ)
    (hB : Clebsch m B) (hf : S f) : laplacePerp D m f = div D m (gradPerp D m B f) := by
  funext i
  have hg0 : ∀ i, (m i).lo.c22 ≠ 0 := fun i => (hg i).ne'
  have hsq : ∀ j, (m j).J * B j * ((m j).J * B j) = (m j).lo.c22 := fun j => by
    rw [hB j]; exact Real.mul_self_sqrt (hg j).le
  unfold laplacePerp
  rw [C32_laplace h hc m hm hJ f hf, C32_laplace_par h m hm hJ hg0 f hf]
  have fx := h.ddx f hf
  have fy := h.ddy f hf
  have fz := h.ddz f hf
  have ex : (fun j => (m j).J * ((gradPerp D m B f).toCon m).x j) = fun j => (m j).J * ((grad D f).toCon m).x j := by
    funext j
    simp only [gradPerp, grad, VField.toCon, VField.at, toContravariant, if_true, Sym.mulVec, hsq]
    have hl := hg0 j
    obtain ⟨⟨a11, a12, a13⟩, ⟨a21, a22, a23⟩, a31, a32, a33⟩ := minv_eqs (hi j)
    field_simp
    linear_combination (-((m j).J * D.DDY f j)) * a12
  have ez : (fun j => (m j).J * ((gradPerp D m B f).toCon m).z j) = fun j => (m j).J * ((grad D f).toCon m).z j := by
    funext j
    simp only [gradPerp, grad, VField.toCon, VField.at, toContravariant, if_true, Sym.mulVec, hsq]
    have hl := hg0 j
    obtain ⟨⟨a11, a12, a13⟩, ⟨a21, a22, a23⟩, a31, a32, a33⟩ := minv_eqs (hi j)
    field_simp
    linear_combination (-((m j).J * D.DDY f j)) * a32
  have ey : (fun j => (m j).J * ((gradPerp D m B f).toCon m).y j) =
      fun j => (fun j => (m j).J * ((grad D f).toCon m).y j) j - (fun j => (m j).J * (D.DDY f j / (m j).lo.c22)) j := by
    funext j
    simp only [gradPerp, grad, VField.toCon, VField.at, toContravariant, if_true, Sym.mulVec, hsq]
    have hl := hg0 j
    obtain ⟨⟨a11, a12, a13⟩, ⟨a21, a22, a23⟩, a31, a32, a33⟩ := minv_eqs (hi j)
    field_simp
    linear_combination (-((m j).J * D.DDY f j)) * a22
  have s1 : S (fun j => (m j).J * ((grad D f).toCon m).y j) :=
    h.mul _ _ hm.J (h.add _ _ (h.add _ _ (h.mul _ _ hm.u22 fy) (h.mul _ _ hm.u12 fx)) (h.mul _ _ hm.u23 fz))
  have s2 : S (fun j => (m j).J * (D.DDY f j / (m j).lo.c22)) := h.mul _ _ hm.J (h.div fy hm.l22 hg0)
  have ey' := ey
  unfold Verif.Num.div
  simp only [ex, ez]
  rw [ey', h.subY s1 s2]
  simp only [VField.toCon, VField.at, toContravariant, Bool.false_eq_true, if_false, mul_zero, h.constX, h.constZ]
  ring

/-! ## b0 x Grad phi . Grad A -/

/-- **C56.** `b0xGrad_dot_Grad` is the triple product (b x Grad phi) . Grad A with the shear-corrected gradients, for any
metric and with `IncIntShear` set or not. -/
theorem C56_b0xgrad (m : ι → Metric ℝ) (inc : Bool) (I phi A : ι → ℝ) (i : ι) (hg : 0 < (m i).lo.c22) :
    b0xGrad33 D m inc I phi A i = dot (m i) (cross (m i) (bhat m i) ((grad (withShear D inc I) phi).at i))
      ((grad (withShear D inc I) A).at i) := by
  have hs := Real.sqrt_pos.2 hg
  cases inc <;>
  simp only [b0xGrad33, withShear, dot, cross, bhat, grad, VField.at, toCovariant, Sym.mulVec, Bool.not_true, Bool.not_false,
    Bool.false_eq_true, if_true, if_false, Bool.bne_false, div_eq_mul_inv, mul_inv] <;>
  simp <;> ring

/-- **C56.** The overloads for fields that do not vary in z give the values of the general one. -/
theorem C56_b0xgrad_overloads (m : ι → Metric ℝ) (inc : Bool) (I phi A : ι → ℝ) (i : ι) :
    (D.DDZ phi i = 0 → b0xGrad23 D m inc I phi A i = b0xGrad33 D m inc I phi A i) ∧
    (D.DDZ A i = 0 → b0xGrad32 D m inc I phi A i = b0xGrad33 D m inc I phi A i) ∧
    (D.DDZ phi i = 0 → D.DDZ A i = 0 → b0xGrad22 D m phi A i = b0xGrad33 D m inc I phi A i) := by
  refine ⟨fun h => ?_, fun h => ?_, fun h h' => ?_⟩ <;> cases inc <;>
  simp only [b0xGrad33, b0xGrad23, b0xGrad32, b0xGrad22, withShear, Bool.false_eq_true, if_true, if_false, *] <;> ring

/-- **C56.** The bracket is antisymmetric and vanishes on equal arguments. -/
theorem C56_b0xgrad_antisymm (m : ι → Metric ℝ) (inc : Bool) (I phi A : ι → ℝ) (i : ι) :
    b0xGrad33 D m inc I phi A i = -b0xGrad33 D m inc I A phi i ∧ b0xGrad33 D m inc I phi phi i = 0 := by
  constructor <;> cases inc <;>
  simp only [b0xGrad33, withShear, Bool.false_eq_true, if_true, if_false] <;> ring

/-! ## DDZ of a vector -/

/-- **C56.** `DDZ` of a `Vector3D` is its covariant derivative along the z coordinate line (`V_dot_Grad` with the coordinate
vector), in either representation. -/
theorem C56_ddz_vector (m : Metric ℝ) (G : Conn ℝ) (v : Vec ℝ) (dzx dzy dzz : ℝ) :
    ddzVec3 G v dzx dzy dzz = vDotGrad m G ⟨0, 0, 1, false⟩ v dzx dzy dzz := by
  cases hc : v.covariant <;>
  simp only [ddzVec3, vDotGrad, toContravariant, hc, Bool.false_eq_true, if_true, if_false, Vec.mk.injEq, and_true] <;>
  refine ⟨?_, ?_, ?_⟩ <;> ring

/-- **C56, violated part.** `DDZ` of a `Vector2D` is always zero, although the derivative of a vector whose components do not
vary in z is not: in polar-like coordinates (`g_33 = x^2`, at x = 2) the vector along x turns with z.  The `Vector3D` overload
gives 1/2 for the z component of the same vector. -/
theorem C56_ddz_vector2d_violated : ∃ (m : Metric ℝ) (d : DMetric ℝ) (v : Vec ℝ), MetricInverse m.up m.lo ∧
    ddzVec2 v ≠ ddzVec3 (christoffel m.up d) v 0 0 0 := by
  refine ⟨⟨⟨1, 1, 1/4, 0, 0, 0⟩, ⟨1, 1, 4, 0, 0, 0⟩, 2⟩,
    ⟨fun k => if k = 0 then ⟨0, 0, 4, 0, 0, 0⟩ else ⟨0, 0, 0, 0, 0, 0⟩, fun _ => ⟨0, 0, 0, 0, 0, 0⟩⟩, ⟨1, 0, 0, false⟩, ?_, ?_⟩
  · intro i j
    fin_cases i <;> fin_cases j <;> simp [Sym.fill, Fin.sum_univ_three]
  · intro h
    have := congrArg Vec.z h
    simp [ddzVec2, ddzVec3, christoffel] at this

/-! ## Div_par(f, v) on cell faces -/

/-- The slices hold the neighbouring values of the field (identity parallel transform, after communication). -/
def Consistent (f : Sliced) : Prop := ∀ j, f.up j = f.v j ∧ f.dn j = f.v j

/-- **C56.** The face-flux form of `Div_par` conserves: the volume integral over any number of consecutive points is the flux
out of the last face minus the flux into the first, provided the parallel slices hold the neighbouring values. -/
theorem C56_div_par_conserves (c : Line) (f v : Sliced) (hf : Consistent f) (hv : Consistent v)
    (hn : ∀ j, c.dy j * c.J j ≠ 0) (ys : ℤ) (n : ℕ) :
    ∑ k ∈ Finset.range n, divParFV c f v (ys + k) * (c.dy (ys + k) * c.J (ys + k)) =
      (if n = 0 then 0 else fluxRight c f v (ys + n - 1) - fluxLeft c f v ys) := by
  have glue : ∀ j, fluxLeft c f v (j + 1) = fluxRight c f v j := by
    intro j
    unfold fluxLeft fluxRight
    simp only [add_sub_cancel_right, (hf _).1, (hf _).2, (hv _).1, (hv _).2]
    rw [add_comm (f.v (j + 1)), add_comm (v.v (j + 1)), add_comm (c.J (j + 1)), add_comm (Real.sqrt (c.g22 (j + 1)))]
  induction n with
  | zero => simp
  | succ n ih =>
    rw [Finset.sum_range_succ, ih]
    have e : divParFV c f v (ys + n) * (c.dy (ys + n) * c.J (ys + n)) =
        fluxRight c f v (ys + n) - fluxLeft c f v (ys + n) := by
      unfold divParFV
      exact div_mul_cancel₀ _ (hn _)
    rw [e]
    have e2 : ys + ((n + 1 : ℕ) : ℤ) - 1 = ys + n := by push_cast; ring
    rw [e2, if_neg (show ¬(n + 1 = 0) by omega)]
    by_cases h0 : n = 0
    · subst h0; simp
    · rw [if_neg h0]
      have := glue (ys + n - 1)
      rw [show ys + (n : ℤ) - 1 + 1 = ys + n by ring] at this
      rw [this]; ring

/-- **C56.** On constant coordinates and velocity it is the central difference of the flux along the line. -/
theorem C56_div_par_uniform (J g22 dy : ℝ) (hJ : J ≠ 0) (hg : 0 < g22) (f v : Sliced)
    (hv : ∀ j, v.v j = v.v 0 ∧ v.up j = v.v 0 ∧ v.dn j = v.v 0) (j : ℤ) :
    divParFV ⟨fun _ => J, fun _ => g22, fun _ => dy⟩ f v j =
      v.v 0 * (f.up (j + 1) - f.dn (j - 1)) / (2 * dy) / Real.sqrt g22 := by
  have hs := Real.sqrt_pos.2 hg
  unfold divParFV fluxRight fluxLeft
  simp only [(hv j).1, (hv (j + 1)).2.1, (hv (j - 1)).2.2]
  by_cases hd : dy = 0
  · subst hd; simp
  · field_simp; ring

end Verif.Num
