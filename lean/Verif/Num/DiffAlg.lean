import Verif.Num.VecProps
import Mathlib.Analysis.SpecialFunctions.Sqrt
import Mathlib.Analysis.Calculus.ContDiff.Basic
import Mathlib.Analysis.Calculus.ContDiff.Operations
import Mathlib.Analysis.Calculus.FDeriv.Symmetric
import Mathlib.Analysis.Calculus.FDeriv.Mul
import Mathlib.Analysis.Calculus.FDeriv.Add

/-!
What the operators of `Coordinates` mean when their derivatives are exact.  The statements quantify over a class `S` of fields
on which the derivative operators behave as derivatives do (`DiffAlg`); the smooth functions of three coordinates with their
partial derivatives are such a class (`smooth_diffAlg`).
-/
namespace Verif.Num

/-- `S` is a class of fields closed under arithmetic and differentiation, and on it the operators `D` are derivations. -/
structure DiffAlg {ι : Type} (D : Deriv ι ℝ) (S : (ι → ℝ) → Prop) : Prop where
  const : ∀ c : ℝ, S (fun _ => c)
  add : ∀ f g, S f → S g → S (fun i => f i + g i)
  mul : ∀ f g, S f → S g → S (fun i => f i * g i)
  inv : ∀ f, S f → (∀ i, f i ≠ 0) → S (fun i => (f i)⁻¹)
  sqrt : ∀ f, S f → (∀ i, 0 < f i) → S (fun i => Real.sqrt (f i))
  ddx : ∀ f, S f → S (D.DDX f)
  ddy : ∀ f, S f → S (D.DDY f)
  ddz : ∀ f, S f → S (D.DDZ f)
  constX : ∀ c : ℝ, D.DDX (fun _ => c) = fun _ => 0
  constY : ∀ c : ℝ, D.DDY (fun _ => c) = fun _ => 0
  constZ : ∀ c : ℝ, D.DDZ (fun _ => c) = fun _ => 0
  addX : ∀ f g, S f → S g → D.DDX (fun i => f i + g i) = fun i => D.DDX f i + D.DDX g i
  addY : ∀ f g, S f → S g → D.DDY (fun i => f i + g i) = fun i => D.DDY f i + D.DDY g i
  addZ : ∀ f g, S f → S g → D.DDZ (fun i => f i + g i) = fun i => D.DDZ f i + D.DDZ g i
  mulX : ∀ f g, S f → S g → D.DDX (fun i => f i * g i) = fun i => D.DDX f i * g i + f i * D.DDX g i
  mulY : ∀ f g, S f → S g → D.DDY (fun i => f i * g i) = fun i => D.DDY f i * g i + f i * D.DDY g i
  mulZ : ∀ f g, S f → S g → D.DDZ (fun i => f i * g i) = fun i => D.DDZ f i * g i + f i * D.DDZ g i

/-- The derivatives of the class commute. -/
structure Commutes {ι : Type} (D : Deriv ι ℝ) (S : (ι → ℝ) → Prop) : Prop where
  xy : ∀ f, S f → D.DDX (D.DDY f) = D.DDY (D.DDX f)
  xz : ∀ f, S f → D.DDX (D.DDZ f) = D.DDZ (D.DDX f)
  yz : ∀ f, S f → D.DDY (D.DDZ f) = D.DDZ (D.DDY f)

/-! ## Smooth functions are such a class -/

/-- Coordinates (x, y, z). -/
abbrev P3 := ℝ × ℝ × ℝ

/-- The partial derivatives. -/
noncomputable def partialD : Deriv P3 ℝ :=
  ⟨fun f p => fderiv ℝ f p (1, 0, 0), fun f p => fderiv ℝ f p (0, 1, 0), fun f p => fderiv ℝ f p (0, 0, 1)⟩

/-- Infinitely differentiable. -/
def Smooth (f : P3 → ℝ) : Prop := ContDiff ℝ (⊤ : ℕ∞) f

theorem smooth_fderiv {f : P3 → ℝ} (h : Smooth f) (e : P3) : Smooth (fun p => fderiv ℝ f p e) := by
  have h1 : ContDiff ℝ (⊤ : ℕ∞) (fderiv ℝ f) := h.fderiv_right (m := (⊤ : ℕ∞)) (by simp)
  exact h1.clm_apply contDiff_const

theorem Smooth.diff {f : P3 → ℝ} (h : Smooth f) : Differentiable ℝ f := h.differentiable (by simp)

theorem fderiv_mul_app {f g : P3 → ℝ} (hf : Smooth f) (hg : Smooth g) (e : P3) :
    (fun p => fderiv ℝ (fun i => f i * g i) p e) = fun p => fderiv ℝ f p e * g p + f p * fderiv ℝ g p e := by
  funext p
  rw [fderiv_fun_mul (hf.diff p) (hg.diff p)]
  simp
  ring

theorem fderiv_add_app {f g : P3 → ℝ} (hf : Smooth f) (hg : Smooth g) (e : P3) :
    (fun p => fderiv ℝ (fun i => f i + g i) p e) = fun p => fderiv ℝ f p e + fderiv ℝ g p e := by
  funext p
  rw [fderiv_fun_add (hf.diff p) (hg.diff p)]
  simp

theorem fderiv_comm {f : P3 → ℝ} (hf : Smooth f) (u v : P3) :
    (fun p => fderiv ℝ (fun q => fderiv ℝ f q v) p u) = fun p => fderiv ℝ (fun q => fderiv ℝ f q u) p v := by
  funext p
  have h1 : ContDiff ℝ (⊤ : ℕ∞) (fderiv ℝ f) := hf.fderiv_right (m := (⊤ : ℕ∞)) (by simp)
  have hd : DifferentiableAt ℝ (fderiv ℝ f) p := (h1.differentiable (by simp)) p
  have hs : IsSymmSndFDerivAt ℝ f p := (hf.contDiffAt).isSymmSndFDerivAt (by simp only [minSmoothness_of_isRCLikeNormedField]; exact WithTop.coe_le_coe.2 (le_top (a := (2 : ℕ∞))))
  have e : ∀ a b : P3, fderiv ℝ (fun q => fderiv ℝ f q a) p b = fderiv ℝ (fderiv ℝ f) p b a := by
    intro a b
    rw [fderiv_clm_apply hd (differentiableAt_const a)]
    simp
  rw [e, e]
  exact hs u v

/-- Smooth functions with their partial derivatives satisfy the hypotheses of the theorems below. -/
theorem smooth_diffAlg : DiffAlg partialD Smooth where
  const c := contDiff_const
  add f g hf hg := ContDiff.add hf hg
  mul f g hf hg := ContDiff.mul hf hg
  inv f hf h := ContDiff.inv hf h
  sqrt f hf h := ContDiff.sqrt hf (fun i => (h i).ne')
  ddx f hf := smooth_fderiv hf _
  ddy f hf := smooth_fderiv hf _
  ddz f hf := smooth_fderiv hf _
  constX c := by funext p; simp [partialD]
  constY c := by funext p; simp [partialD]
  constZ c := by funext p; simp [partialD]
  addX f g hf hg := fderiv_add_app hf hg _
  addY f g hf hg := fderiv_add_app hf hg _
  addZ f g hf hg := fderiv_add_app hf hg _
  mulX f g hf hg := fderiv_mul_app hf hg _
  mulY f g hf hg := fderiv_mul_app hf hg _
  mulZ f g hf hg := fderiv_mul_app hf hg _

theorem smooth_commutes : Commutes partialD Smooth where
  xy f hf := fderiv_comm hf _ _
  xz f hf := fderiv_comm hf _ _
  yz f hf := fderiv_comm hf _ _

section Meaning
variable {ι : Type} {D : Deriv ι ℝ} {S : (ι → ℝ) → Prop}

theorem DiffAlg.neg (h : DiffAlg D S) {f : ι → ℝ} (hf : S f) : S (fun i => -f i) := by
  have := h.mul (fun _ => -1) f (h.const _) hf
  simpa using this

theorem DiffAlg.sub (h : DiffAlg D S) {f g : ι → ℝ} (hf : S f) (hg : S g) : S (fun i => f i - g i) := by
  have := h.add f _ hf (h.neg hg)
  simpa [sub_eq_add_neg] using this

theorem DiffAlg.div (h : DiffAlg D S) {f g : ι → ℝ} (hf : S f) (hg : S g) (hn : ∀ i, g i ≠ 0) : S (fun i => f i / g i) := by
  have := h.mul f _ hf (h.inv g hg hn)
  simpa [div_eq_mul_inv] using this

theorem DiffAlg.subX (h : DiffAlg D S) {f g : ι → ℝ} (hf : S f) (hg : S g) :
    D.DDX (fun i => f i - g i) = fun i => D.DDX f i - D.DDX g i := by
  have e : f = fun i => (fun j => f j - g j) i + g i := by funext i; simp
  have := h.addX (fun j => f j - g j) g (h.sub hf hg) hg
  rw [← e] at this
  funext i
  have := congrFun this i
  linarith

theorem DiffAlg.subY (h : DiffAlg D S) {f g : ι → ℝ} (hf : S f) (hg : S g) :
    D.DDY (fun i => f i - g i) = fun i => D.DDY f i - D.DDY g i := by
  have e : f = fun i => (fun j => f j - g j) i + g i := by funext i; simp
  have := h.addY (fun j => f j - g j) g (h.sub hf hg) hg
  rw [← e] at this
  funext i
  have := congrFun this i
  linarith

theorem DiffAlg.subZ (h : DiffAlg D S) {f g : ι → ℝ} (hf : S f) (hg : S g) :
    D.DDZ (fun i => f i - g i) = fun i => D.DDZ f i - D.DDZ g i := by
  have e : f = fun i => (fun j => f j - g j) i + g i := by funext i; simp
  have := h.addZ (fun j => f j - g j) g (h.sub hf hg) hg
  rw [← e] at this
  funext i
  have := congrFun this i
  linarith

/-- The tensor components and the Jacobian are in the class. -/
structure InClass (S : (ι → ℝ) → Prop) (m : ι → Metric ℝ) : Prop where
  J : S (fun i => (m i).J)
  u11 : S (fun i => (m i).up.c11)
  u22 : S (fun i => (m i).up.c22)
  u33 : S (fun i => (m i).up.c33)
  u12 : S (fun i => (m i).up.c12)
  u13 : S (fun i => (m i).up.c13)
  u23 : S (fun i => (m i).up.c23)
  l11 : S (fun i => (m i).lo.c11)
  l22 : S (fun i => (m i).lo.c22)
  l33 : S (fun i => (m i).lo.c33)
  l12 : S (fun i => (m i).lo.c12)
  l13 : S (fun i => (m i).lo.c13)
  l23 : S (fun i => (m i).lo.c23)

/-- **C32.** With exact derivatives `Laplace` is the divergence of the gradient, for every metric and every field of the
class. -/
theorem C32_laplace (h : DiffAlg D S) (hc : Commutes D S) (m : ι → Metric ℝ) (hm : InClass S m) (hJ : ∀ i, (m i).J ≠ 0)
    (f : ι → ℝ) (hf : S f) : laplace D m f = div D m (grad D f) := by
  funext i
  have e : ∀ (a b c F G H : ι → ℝ), (fun j => (m j).J * (a j * F j + b j * G j + c j * H j)) =
      fun j => (fun j => (fun j => (m j).J * a j) j * F j + (fun j => (m j).J * b j) j * G j) j +
        (fun j => (m j).J * c j) j * H j := by
    intros; funext j; simp only; ring
  have gx : (fun j => (m j).J * ((grad D f).toCon m).x j) = fun j => (m j).J *
      ((m j).up.c11 * D.DDX f j + (m j).up.c12 * D.DDY f j + (m j).up.c13 * D.DDZ f j) := rfl
  have gy : (fun j => (m j).J * ((grad D f).toCon m).y j) = fun j => (m j).J *
      ((m j).up.c12 * D.DDX f j + (m j).up.c22 * D.DDY f j + (m j).up.c23 * D.DDZ f j) := by
    funext j
    show (m j).J * ((m j).up.c22 * D.DDY f j + (m j).up.c12 * D.DDX f j + (m j).up.c23 * D.DDZ f j) = _
    ring
  have gz : (fun j => (m j).J * ((grad D f).toCon m).z j) = fun j => (m j).J *
      ((m j).up.c13 * D.DDX f j + (m j).up.c23 * D.DDY f j + (m j).up.c33 * D.DDZ f j) := by
    funext j
    show (m j).J * ((m j).up.c33 * D.DDZ f j + (m j).up.c13 * D.DDX f j + (m j).up.c23 * D.DDY f j) = _
    ring
  have fx := h.ddx f hf
  have fy := h.ddy f hf
  have fz := h.ddz f hf
  have s11 := h.mul _ _ hm.J hm.u11
  have s12 := h.mul _ _ hm.J hm.u12
  have s13 := h.mul _ _ hm.J hm.u13
  have s22 := h.mul _ _ hm.J hm.u22
  have s23 := h.mul _ _ hm.J hm.u23
  have s33 := h.mul _ _ hm.J hm.u33
  unfold Verif.Num.div laplace gTerms second
  simp only
  rw [gx, gy, gz, e (fun j => (m j).up.c11), e (fun j => (m j).up.c12), e (fun j => (m j).up.c13)]
  rw [h.addX _ _ (h.add _ _ (h.mul _ _ s11 fx) (h.mul _ _ s12 fy)) (h.mul _ _ s13 fz),
    h.addX _ _ (h.mul _ _ s11 fx) (h.mul _ _ s12 fy),
    h.addY _ _ (h.add _ _ (h.mul _ _ s12 fx) (h.mul _ _ s22 fy)) (h.mul _ _ s23 fz),
    h.addY _ _ (h.mul _ _ s12 fx) (h.mul _ _ s22 fy),
    h.addZ _ _ (h.add _ _ (h.mul _ _ s13 fx) (h.mul _ _ s23 fy)) (h.mul _ _ s33 fz),
    h.addZ _ _ (h.mul _ _ s13 fx) (h.mul _ _ s23 fy)]
  simp only [h.mulX _ _ s11 fx, h.mulX _ _ s12 fy, h.mulX _ _ s13 fz, h.mulY _ _ s12 fx, h.mulY _ _ s22 fy,
    h.mulY _ _ s23 fz, h.mulZ _ _ s13 fx, h.mulZ _ _ s23 fy, h.mulZ _ _ s33 fz]
  rw [hc.xy f hf, hc.xz f hf, hc.yz f hf]
  have := hJ i
  field_simp
  ring

/-- **C32.** With exact derivatives `Laplace_par` is the divergence of the gradient's component along the y line. -/
theorem C32_laplace_par (h : DiffAlg D S) (m : ι → Metric ℝ) (hm : InClass S m) (hJ : ∀ i, (m i).J ≠ 0)
    (hg : ∀ i, (m i).lo.c22 ≠ 0) (f : ι → ℝ) (hf : S f) :
    laplacePar D m f = div D m ⟨fun _ => 0, fun i => D.DDY f i / (m i).lo.c22, fun _ => 0, false⟩ := by
  funext i
  have e : (fun j => (m j).J * (D.DDY f j / (m j).lo.c22)) = fun j => (fun j => (m j).J / (m j).lo.c22) j * D.DDY f j := by
    funext j; have := hg j; field_simp
  unfold laplacePar Verif.Num.div second
  simp only [VField.toCon, VField.at, toContravariant, Bool.false_eq_true, if_false, mul_zero, h.constX, h.constZ]
  rw [e, h.mulY _ _ (h.div hm.J hm.l22 hg) (h.ddy f hf)]
  have := hJ i
  have := hg i
  field_simp
  ring

/-- **C32.** With coordinate torsion `T` (the x and y derivatives of a shifted grid do not commute: their commutator is `T`
times the z derivative), the curl of a gradient still vanishes. -/
theorem C32_curl_grad_torsion (h : DiffAlg D S) (m : ι → Metric ℝ) (T f : ι → ℝ) (hf : S f)
    (hxy : D.DDX (D.DDY f) = fun i => D.DDY (D.DDX f) i + T i * D.DDZ f i)
    (hxz : D.DDX (D.DDZ f) = D.DDZ (D.DDX f)) (hyz : D.DDY (D.DDZ f) = D.DDZ (D.DDY f)) (i : ι) :
    (curl D m T (grad D f)).at i = ⟨0, 0, 0, false⟩ := by
  have _ := h.ddx f hf
  have e : (grad D f).toCov m = grad D f := rfl
  unfold curl
  rw [e]
  simp only [grad, VField.at, hxy, hxz, hyz, sub_self, zero_div, Vec.mk.injEq, true_and, and_true]
  ring

/-- **C32.** Likewise the divergence of a curl, when the torsion does not depend on z. -/
theorem C32_div_curl_torsion (h : DiffAlg D S) (m : ι → Metric ℝ) (hJ : ∀ i, (m i).J ≠ 0) (T : ι → ℝ) (hT : S T)
    (hTz : D.DDZ T = fun _ => 0) (v : VField ι ℝ)
    (hv : S (v.toCov m).x ∧ S (v.toCov m).y ∧ S (v.toCov m).z)
    (hxy : ∀ f, S f → D.DDX (D.DDY f) = fun i => D.DDY (D.DDX f) i + T i * D.DDZ f i)
    (hxz : ∀ f, S f → D.DDX (D.DDZ f) = D.DDZ (D.DDX f)) (hyz : ∀ f, S f → D.DDY (D.DDZ f) = D.DDZ (D.DDY f)) :
    div D m (curl D m T v) = fun _ => 0 := by
  obtain ⟨vx, vy, vz⟩ := hv
  funext i
  have ex : (fun j => (m j).J * ((curl D m T v).toCon m).x j) =
      fun j => D.DDY (v.toCov m).z j - D.DDZ (v.toCov m).y j := by
    funext j
    show (m j).J * ((D.DDY (v.toCov m).z j - D.DDZ (v.toCov m).y j) / (m j).J) = _
    have := hJ j
    field_simp
  have ey : (fun j => (m j).J * ((curl D m T v).toCon m).y j) =
      fun j => D.DDZ (v.toCov m).x j - D.DDX (v.toCov m).z j := by
    funext j
    show (m j).J * ((D.DDZ (v.toCov m).x j - D.DDX (v.toCov m).z j) / (m j).J) = _
    have := hJ j
    field_simp
  have ez : (fun j => (m j).J * ((curl D m T v).toCon m).z j) =
      fun j => (fun j => D.DDX (v.toCov m).y j - D.DDY (v.toCov m).x j) j - (fun j => T j * (v.toCov m).z j) j := by
    funext j
    show (m j).J * ((D.DDX (v.toCov m).y j - D.DDY (v.toCov m).x j) / (m j).J - T j * (v.toCov m).z j / (m j).J) = _
    have := hJ j
    field_simp
  unfold Verif.Num.div
  simp only [ex, ey]
  rw [ez, h.subX (h.ddy _ vz) (h.ddz _ vy), h.subY (h.ddz _ vx) (h.ddx _ vz),
    h.subZ (h.sub (h.ddx _ vy) (h.ddy _ vx)) (h.mul _ _ hT vz), h.subZ (h.ddx _ vy) (h.ddy _ vx), h.mulZ _ _ hT vz]
  simp only [hxy _ vz, hxz _ vy, hyz _ vx, hTz]
  ring

end Meaning

end Verif.Num
