import Verif.Num.ParOpsMore

/-! Coordinate torsion: the shifted grid, and what `Curl` makes of it. -/
namespace Verif.Num

variable {ι : Type} {D : Deriv ι ℝ} {S : (ι → ℝ) → Prop}

/-- Derivatives on a shifted grid: y derivatives follow the field line, `nu` being the local pitch; x and z derivatives are
taken on the unshifted grid. -/
def shiftY (D : Deriv ι ℝ) (nu : ι → ℝ) : Deriv ι ℝ := ⟨D.DDX, fun f i => D.DDY f i + nu i * D.DDZ f i, D.DDZ⟩

theorem shiftY_diffAlg (h : DiffAlg D S) {nu : ι → ℝ} (hn : S nu) : DiffAlg (shiftY D nu) S :=
  { h with
    ddy := fun f hf => h.add _ _ (h.ddy f hf) (h.mul _ _ hn (h.ddz f hf))
    constY := fun c => by funext i; simp [shiftY, h.constY, h.constZ]
    addY := fun f g hf hg => by
      funext i; simp only [shiftY, h.addY f g hf hg, h.addZ f g hf hg]; ring
    mulY := fun f g hf hg => by
      funext i; simp only [shiftY, h.mulY f g hf hg, h.mulZ f g hf hg]; ring }

/-- **C32.** On a shifted grid the curl of a gradient vanishes and so does the divergence of a curl, with the torsion
`ShiftTorsion = d nu/dx` of the pitch `nu`. -/
theorem C32_curl_shifted (h : DiffAlg D S) (hc : Commutes D S) (m : ι → Metric ℝ) (hJ : ∀ i, (m i).J ≠ 0) (nu : ι → ℝ)
    (hn : S nu) (hnz : D.DDZ nu = fun _ => 0) :
    (∀ f, S f → ∀ i, (curl (shiftY D nu) m (D.DDX nu) (grad (shiftY D nu) f)).at i = ⟨0, 0, 0, false⟩) ∧
    (∀ v : VField ι ℝ, S (v.toCov m).x → S (v.toCov m).y → S (v.toCov m).z →
      div (shiftY D nu) m (curl (shiftY D nu) m (D.DDX nu) v) = fun _ => 0) := by
  have hs := shiftY_diffAlg h hn
  have hxy : ∀ f, S f → (shiftY D nu).DDX ((shiftY D nu).DDY f) =
      fun i => (shiftY D nu).DDY ((shiftY D nu).DDX f) i + D.DDX nu i * (shiftY D nu).DDZ f i := by
    intro f hf
    show D.DDX (fun i => D.DDY f i + nu i * D.DDZ f i) = fun i => D.DDY (D.DDX f) i + nu i * D.DDZ (D.DDX f) i + D.DDX nu i * D.DDZ f i
    rw [h.addX _ _ (h.ddy f hf) (h.mul _ _ hn (h.ddz f hf)), h.mulX _ _ hn (h.ddz f hf), hc.xy f hf, hc.xz f hf]
    funext i; ring
  have hxz : ∀ f, S f → (shiftY D nu).DDX ((shiftY D nu).DDZ f) = (shiftY D nu).DDZ ((shiftY D nu).DDX f) :=
    fun f hf => hc.xz f hf
  have hyz : ∀ f, S f → (shiftY D nu).DDY ((shiftY D nu).DDZ f) = (shiftY D nu).DDZ ((shiftY D nu).DDY f) := by
    intro f hf
    show (fun i => D.DDY (D.DDZ f) i + nu i * D.DDZ (D.DDZ f) i) = D.DDZ (fun i => D.DDY f i + nu i * D.DDZ f i)
    rw [h.addZ _ _ (h.ddy f hf) (h.mul _ _ hn (h.ddz f hf)), h.mulZ _ _ hn (h.ddz f hf), hc.yz f hf, hnz]
    funext i; ring
  refine ⟨fun f hf i => C32_curl_grad_torsion hs m _ f hf (hxy f hf) (hxz f hf) (hyz f hf) i, fun v v1 v2 v3 => ?_⟩
  have hz : D.DDZ (D.DDX nu) = fun _ => 0 := by
    rw [← hc.xz nu hn, hnz, h.constX]
  exact C32_div_curl_torsion hs m hJ _ (h.ddx nu hn) hz v ⟨v1, v2, v3⟩ hxy hxz hyz

/-- **C32, violated part.** With `IncIntShear` the x derivative carries the integrated shear, so that x and y derivatives
commute again, but `Curl` still subtracts the torsion term: the curl of a gradient is `-ShiftTorsion * DDZ(f) / J`. -/
theorem C32_curl_grad_intshear_violated (h : DiffAlg D S) (hc : Commutes D S) (m : ι → Metric ℝ) (nu I : ι → ℝ) (hn : S nu)
    (hI : S I) (hnz : D.DDZ nu = fun _ => 0) (hIz : D.DDZ I = fun _ => 0) (hIy : D.DDY I = D.DDX nu) (f : ι → ℝ) (hf : S f)
    (i : ι) :
    (curl (withShear (shiftY D nu) true I) m (D.DDX nu) (grad (withShear (shiftY D nu) true I) f)).at i =
      ⟨0, 0, -(D.DDX nu i * D.DDZ f i) / (m i).J, false⟩ := by
  have hs := shiftY_diffAlg h hn
  have e : (grad (withShear (shiftY D nu) true I) f).toCov m = grad (withShear (shiftY D nu) true I) f := rfl
  have fx := h.ddx f hf
  have fy := h.ddy f hf
  have fz := h.ddz f hf
  have hxx : (withShear (shiftY D nu) true I).DDX = fun f i => D.DDX f i + I i * D.DDZ f i := by
    funext f i; simp [withShear, shiftY]
  have hyy : (withShear (shiftY D nu) true I).DDY = fun f i => D.DDY f i + nu i * D.DDZ f i := rfl
  have hzz : (withShear (shiftY D nu) true I).DDZ = D.DDZ := rfl
  unfold curl
  rw [e]
  simp only [grad, VField.at, hxx, hyy, hzz]
  simp only [h.addX _ _ fy (h.mul _ _ hn fz), h.mulX _ _ hn fz, h.addZ _ _ fy (h.mul _ _ hn fz), h.mulZ _ _ hn fz,
    h.addY _ _ fx (h.mul _ _ hI fz), h.mulY _ _ hI fz, h.addZ _ _ fx (h.mul _ _ hI fz), h.mulZ _ _ hI fz,
    hc.xy f hf, hc.xz f hf, hc.yz f hf, hnz, hIz, hIy, Vec.mk.injEq, and_true]
  refine ⟨?_, ?_, ?_⟩ <;> ring

/-- The hypotheses hold for smooth fields with pitch `nu = x` (torsion 1) and integrated shear `I = y`. -/
example (f : P3 → ℝ) (hf : Smooth f) (i : P3) (J : ℝ) (u : Sym ℝ) :
    (curl (withShear (shiftY partialD (fun p => p.1)) true (fun p => p.2.1)) (fun _ => ⟨u, u, J⟩) (partialD.DDX fun p => p.1)
      (grad (withShear (shiftY partialD (fun p => p.1)) true (fun p => p.2.1)) f)).at i =
      ⟨0, 0, -(partialD.DDX (fun p => p.1) i * partialD.DDZ f i) / J, false⟩ := by
  have hx : ∀ p : P3, HasFDerivAt (fun q : P3 => q.1) (ContinuousLinearMap.fst ℝ ℝ (ℝ × ℝ)) p :=
    fun p => (ContinuousLinearMap.fst ℝ ℝ (ℝ × ℝ)).hasFDerivAt
  have hy : ∀ p : P3, HasFDerivAt (fun q : P3 => q.2.1)
      ((ContinuousLinearMap.fst ℝ ℝ ℝ).comp (ContinuousLinearMap.snd ℝ ℝ (ℝ × ℝ))) p :=
    fun p => ((ContinuousLinearMap.fst ℝ ℝ ℝ).comp (ContinuousLinearMap.snd ℝ ℝ (ℝ × ℝ))).hasFDerivAt
  refine C32_curl_grad_intshear_violated smooth_diffAlg smooth_commutes _ _ _ contDiff_fst smooth_y ?_ ?_ ?_ f hf i
  · funext p
    show fderiv ℝ (fun q : P3 => q.1) p (0, 0, 1) = 0
    rw [(hx p).fderiv]; simp
  · funext p
    show fderiv ℝ (fun q : P3 => q.2.1) p (0, 0, 1) = 0
    rw [(hy p).fderiv]; simp
  · funext p
    rw [ddy_y]
    show 1 = fderiv ℝ (fun q : P3 => q.1) p (1, 0, 0)
    rw [(hx p).fderiv]; simp

end Verif.Num
