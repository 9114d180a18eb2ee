import Verif.Num.ParOpsProps

namespace Verif.Num

/-! ## Grad_parP -/

/-- An affine function of the offsets from a point. -/
def aff (F fx fy fz : ℝ) (a b c : ℝ) : ℝ := F + a * fx + b * fy + c * fz

/-- Around the point (x, y, z) with z neighbours `zm`, `zp`, the plane `y` of the field agrees with an affine function. -/
def AffPlane (f : Grid) (x y z zm zp : ℤ) (g : ℝ → ℝ → ℝ) : Prop :=
  (f x y z = g 0 0 ∧ f x y zp = g 0 1 ∧ f x y zm = g 0 (-1)) ∧
  (f (x + 1) y z = g 1 0 ∧ f (x + 1) y zp = g 1 1 ∧ f (x + 1) y zm = g 1 (-1)) ∧
  (f (x - 1) y z = g (-1) 0 ∧ f (x - 1) y zp = g (-1) 1 ∧ f (x - 1) y zm = g (-1) (-1))

/-- **C56.** `Grad_parP` depends only on assigned values exactly at the points at least two cells from the x edges of the local
array and one from its y edges. -/
theorem C56_grad_parP_defined (c : GridMetric) (nx ny : ℤ) (apar f fup fdn : Grid) (x y z zm zp : ℤ) :
    (gradParP c nx ny apar f fup fdn x y z zm zp).isSome = true ↔ 2 ≤ x ∧ x ≤ nx - 3 ∧ 1 ≤ y ∧ y ≤ ny - 2 := by
  unfold gradParP gys
  by_cases h1 : 1 ≤ x + 1 ∧ x + 1 ≤ nx - 2 ∧ 1 ≤ y ∧ y ≤ ny - 2
  · by_cases h2 : 1 ≤ x - 1 ∧ x - 1 ≤ nx - 2 ∧ 1 ≤ y ∧ y ≤ ny - 2
    · rw [if_pos h1, if_pos h2, if_pos (by omega), if_pos (by omega)]
      simp only [bind, Option.bind, Option.isSome_some, true_iff]
      omega
    · rw [if_pos h1, if_neg h2]
      simp only [bind, Option.bind, Option.isSome_none, Bool.false_eq_true, false_iff]
      omega
  · rw [if_neg h1]
    simp only [bind, Option.bind, Option.isSome_none, Bool.false_eq_true, false_iff]
    omega

/-- **C56, partial.** With two x guard cells or more (and one in y), every point of the domain is computed from assigned
values. -/
theorem C56_grad_parP_domain_partial (c : GridMetric) (nx ny xstart xend ystart yend : ℤ) (apar f fup fdn : Grid)
    (hx : 2 ≤ xstart ∧ xend ≤ nx - 3) (hy : 1 ≤ ystart ∧ yend ≤ ny - 2) (x y z zm zp : ℤ) (h1 : xstart ≤ x ∧ x ≤ xend)
    (h2 : ystart ≤ y ∧ y ≤ yend) : (gradParP c nx ny apar f fup fdn x y z zm zp).isSome = true := by
  rw [C56_grad_parP_defined]; omega

/-- **C56, violated part.** With one x guard cell (`MXG = 1`, allowed) the first and the last cell of the domain are computed
from memory never written. -/
theorem C56_grad_parP_violated (c : GridMetric) (nx ny : ℤ) (apar f fup fdn : Grid) (y z zm zp : ℤ) :
    gradParP c nx ny apar f fup fdn 1 y z zm zp = none ∧ gradParP c nx ny apar f fup fdn (nx - 2) y z zm zp = none := by
  constructor <;> rw [← Option.isSome_eq_false_iff.trans Option.isNone_iff_eq_none, ← Bool.not_eq_true,
    C56_grad_parP_defined] <;> omega

/-- **C56.** On a uniform grid, for fields affine around the point, `Grad_parP` is exactly the derivative along the perturbed
field line: `b0 . Grad f - (d apar/dz) (d f/dx) + (d apar/dx) (d f/dz)`; the predictor terms cancel. -/
theorem C56_grad_parP_affine (hx hy hz g : ℝ) (hx0 : hx ≠ 0) (hy0 : hy ≠ 0) (hz0 : hz ≠ 0) (nx ny : ℤ)
    (apar f fup fdn : Grid) (x y z zm zp : ℤ) (hr : 2 ≤ x ∧ x ≤ nx - 3 ∧ 1 ≤ y ∧ y ≤ ny - 2)
    (A ax az F fx fy fz : ℝ) (hA : AffPlane apar x y z zm zp (fun a c => aff A ax 0 az a 0 c))
    (hf : AffPlane f x y z zm zp (fun a c => aff F fx fy fz a 0 c))
    (hu : AffPlane fup x (y + 1) z zm zp (fun a c => aff F fx fy fz a 1 c))
    (hd : AffPlane fdn x (y - 1) z zm zp (fun a c => aff F fx fy fz a (-1) c)) :
    gradParP ⟨fun _ _ _ => hx, fun _ _ _ => hy, fun _ _ _ => hz, fun _ _ _ => g⟩ nx ny apar f fup fdn x y z zm zp =
      some ((fy / hy) / Real.sqrt g - (az / hz) * (fx / hx) + (ax / hx) * (fz / hz)) := by
  obtain ⟨⟨a1, a2, a3⟩, ⟨a4, a5, a6⟩, a7, a8, a9⟩ := hA
  obtain ⟨⟨f1, f2, f3⟩, ⟨f4, f5, f6⟩, f7, f8, f9⟩ := hf
  obtain ⟨⟨u1, u2, u3⟩, ⟨u4, u5, u6⟩, u7, u8, u9⟩ := hu
  obtain ⟨⟨d1, d2, d3⟩, ⟨d4, d5, d6⟩, d7, d8, d9⟩ := hd
  unfold gradParP gys
  rw [if_pos (by omega), if_pos (by omega), if_pos (by omega), if_pos (by omega)]
  simp only [bind, Option.bind, a2, a3, a4, a7, f2, f3, f4, f5, f6, f7, f8, f9, u1, u2, u3, u4, u7, d1, d2, d3, d4, d7]
  generalize min (min _ _) (_ : ℝ) = dl
  generalize Real.sqrt g = s
  unfold aff
  congr 1
  by_cases hs : s = 0
  · subst hs; simp only [div_zero, mul_zero, zero_mul]; field_simp; ring
  · field_simp; ring

/-! ## The constant-coefficient overload of Div_par_K_Grad_par -/

/-- A smooth field-aligned metric with a magnetic field varying along the field line: `g_11 = exp(-2y)`, the others 1,
`J = exp(-y)`, `B = exp(y)`. -/
noncomputable def mirrorM : P3 → Metric ℝ := fun p =>
  ⟨⟨Real.exp (2 * p.2.1), 1, 1, 0, 0, 0⟩, ⟨Real.exp (-2 * p.2.1), 1, 1, 0, 0, 0⟩, Real.exp (-p.2.1)⟩

noncomputable def mirrorB : P3 → ℝ := fun p => Real.exp p.2.1

theorem smooth_y : Smooth (fun p : P3 => p.2.1) := contDiff_fst.comp contDiff_snd

theorem smooth_exp (c : ℝ) : Smooth (fun p : P3 => Real.exp (c * p.2.1)) :=
  ContDiff.exp (ContDiff.mul contDiff_const smooth_y)

theorem mirrorM_class : InClass Smooth mirrorM := by
  have h0 : Smooth (fun _ : P3 => (0 : ℝ)) := contDiff_const
  have h1 : Smooth (fun _ : P3 => (1 : ℝ)) := contDiff_const
  have hJ : Smooth (fun p : P3 => Real.exp (-p.2.1)) := by
    have := smooth_exp (-1); simpa using this
  exact ⟨hJ, smooth_exp 2, h1, h1, h0, h0, h0, smooth_exp (-2), h1, h1, h0, h0, h0⟩

theorem mirrorM_inverse (p : P3) : MetricInverse (mirrorM p).up (mirrorM p).lo := by
  have h1 : Real.exp (2 * p.2.1) * Real.exp (-2 * p.2.1) = 1 := by rw [← Real.exp_add]; simp
  have h2 : Real.exp (-2 * p.2.1) * Real.exp (2 * p.2.1) = 1 := by rw [← Real.exp_add]; simp
  have h1' : Real.exp (2 * p.2.1) * Real.exp (-(2 * p.2.1)) = 1 := by rw [← Real.exp_add]; simp
  have h2' : Real.exp (-(2 * p.2.1)) * Real.exp (2 * p.2.1) = 1 := by rw [← Real.exp_add]; simp
  intro i j
  fin_cases i <;> fin_cases j <;> simp [Sym.fill, Fin.sum_univ_three, mirrorM, h1', h2']

theorem mirrorM_clebsch : Clebsch mirrorM mirrorB := by
  intro p
  show Real.exp (-p.2.1) * Real.exp p.2.1 = Real.sqrt 1
  rw [← Real.exp_add]; simp

theorem ddy_y (p : P3) : partialD.DDY (fun q : P3 => q.2.1) p = 1 := by
  have h : HasFDerivAt (fun q : P3 => q.2.1) ((ContinuousLinearMap.fst ℝ ℝ ℝ).comp (ContinuousLinearMap.snd ℝ ℝ (ℝ × ℝ))) p :=
    ((ContinuousLinearMap.fst ℝ ℝ ℝ).comp (ContinuousLinearMap.snd ℝ ℝ (ℝ × ℝ))).hasFDerivAt
  show fderiv ℝ (fun q : P3 => q.2.1) p (0, 1, 0) = 1
  rw [h.fderiv]
  simp

theorem ddy_exp_neg (p : P3) : partialD.DDY (fun q : P3 => 1 / Real.exp q.2.1) p = -Real.exp (-p.2.1) := by
  have h : HasFDerivAt (fun q : P3 => q.2.1) ((ContinuousLinearMap.fst ℝ ℝ ℝ).comp (ContinuousLinearMap.snd ℝ ℝ (ℝ × ℝ))) p :=
    ((ContinuousLinearMap.fst ℝ ℝ ℝ).comp (ContinuousLinearMap.snd ℝ ℝ (ℝ × ℝ))).hasFDerivAt
  have h2 := (h.neg).exp
  have e : (fun q : P3 => 1 / Real.exp q.2.1) = fun q : P3 => Real.exp (-q.2.1) := by
    funext q; rw [Real.exp_neg, one_div]
  show fderiv ℝ (fun q : P3 => 1 / Real.exp q.2.1) p (0, 1, 0) = _
  rw [e]
  have h3 : HasFDerivAt (fun q : P3 => Real.exp (-q.2.1)) _ p := h2
  rw [h3.fderiv]
  simp

/-- **C56, violated part.** `Div_par_K_Grad_par` with a constant coefficient is not the divergence of the diffusive flux when
the magnetic field varies along the field lines: smooth metric, `B = exp(y)`, coefficient 1 and `f = y` give 0 where the
divergence (which the overload with a field coefficient gives) is -1. -/
theorem C56_div_par_K_const_violated : ∃ (m : P3 → Metric ℝ) (B f : P3 → ℝ), InClass Smooth m ∧
    (∀ p, MetricInverse (m p).up (m p).lo) ∧ (∀ p, 0 < (m p).lo.c22) ∧ Smooth B ∧ Clebsch m B ∧ Smooth f ∧
    (∀ p, divParKGradConst partialD m 1 f p = 0) ∧ (∀ p, divParKGrad partialD m B (fun _ => 1) f p = -1) ∧
    ∀ p, div partialD m (alongB m (fun i => 1 * gradPar partialD m f i)) p = -1 := by
  have hB : Smooth mirrorB := by
    have := smooth_exp 1
    simp only [one_mul] at this
    exact this
  have hpos : ∀ p, 0 < (mirrorM p).lo.c22 := fun p => by simp [mirrorM]
  have hinv : invSg mirrorM = fun _ => 1 := by funext p; simp [invSg, mirrorM]
  have hd1 : partialD.DDY (fun _ : P3 => (1 : ℝ)) = fun _ => 0 := smooth_diffAlg.constY 1
  have hdy : partialD.DDY (fun q : P3 => q.2.1) = fun _ => 1 := funext ddy_y
  have hg2 : ∀ p, grad2par2 partialD mirrorM (fun q : P3 => q.2.1) p = 0 := by
    intro p
    simp only [grad2par2, ddyInvSg, second, hinv, hdy, hd1]
    simp
  have hgp : ∀ p, gradPar partialD mirrorM (fun q : P3 => q.2.1) p = 1 := by
    intro p; simp only [gradPar, hinv, hdy]; norm_num
  have hK : ∀ p, divParKGrad partialD mirrorM mirrorB (fun _ => 1) (fun q : P3 => q.2.1) p = -1 := by
    intro p
    unfold divParKGrad
    rw [hg2, hgp]
    unfold divParB gradPar
    rw [hinv]
    have : partialD.DDY (fun j => 1 / mirrorB j) p = -Real.exp (-p.2.1) := ddy_exp_neg p
    rw [this]
    have h1 : Real.exp p.2.1 * Real.exp (-p.2.1) = 1 := by rw [← Real.exp_add]; simp
    simp only [mirrorB]
    linear_combination (-1) * h1
  refine ⟨mirrorM, mirrorB, fun q => q.2.1, mirrorM_class, mirrorM_inverse, hpos, hB, mirrorM_clebsch, smooth_y, ?_, hK, ?_⟩
  · intro p
    unfold divParKGradConst
    rw [hg2]; ring
  · intro p
    rw [← hK p, C56_div_par_K_grad_par smooth_diffAlg mirrorM mirrorM_class hpos mirrorB (fun _ => 1) _ hB mirrorM_clebsch
      (smooth_diffAlg.const 1) smooth_y]

/-- The hypotheses of `C32_laplace`, `C56_laplace_perp` and the other theorems hold for this metric and every smooth field. -/
example (f : P3 → ℝ) (hf : Smooth f) : laplacePerp partialD mirrorM f = div partialD mirrorM (gradPerp partialD mirrorM mirrorB f) :=
  C56_laplace_perp smooth_diffAlg smooth_commutes mirrorM mirrorM_class mirrorM_inverse (fun _ => (Real.exp_pos _).ne')
    (fun p => by simp [mirrorM]) mirrorB f mirrorM_clebsch hf

end Verif.Num
