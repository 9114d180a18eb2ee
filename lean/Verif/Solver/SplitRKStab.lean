import Verif.Solver.SplitRKOrder
import Mathlib.Analysis.InnerProductSpace.Spectrum
import Mathlib.Analysis.InnerProductSpace.PiL2
import Mathlib.LinearAlgebra.Eigenspace.Minpoly

/-!
# C60: stability of the diffusion step

For a symmetric linear right-hand side (diffusion) whose spectrum, times the step, lies in `[-(s²+s-2)/2, 0]` the step with `s` stages does
not increase the Euclidean norm.
-/
namespace Verif.SplitRK
open Polynomial Verif.Legendre

theorem bj_bounds (s : Nat) (hs : 2 ≤ s) : 0 < (bj s : ℝ) ∧ (bj s : ℝ) ≤ 1 := by
  have h2 : (2 : ℝ) ≤ s := by exact_mod_cast hs
  unfold bj
  constructor
  · apply div_pos
    · nlinarith
    · positivity
  · rw [div_le_one (by positivity)]
    nlinarith

/-- The amplification factor is at most one on the whole interval. -/
theorem amplification_le_one (s : Nat) (hs : 2 ≤ s) (z : ℝ) (h1 : -((s : ℝ) * s + s - 2) / 2 ≤ z) (h2 : z ≤ 0) :
    |1 - bj s + bj s * (leg ℝ s).eval (1 + 4 / ((s : ℝ) * s + s - 2) * z)| ≤ 1 := by
  have hq := ss_pos (K := ℝ) s hs
  obtain ⟨hb0, hb1⟩ := bj_bounds s hs
  generalize hqe : (s : ℝ) * s + s - 2 = q at *
  have hx : |(leg ℝ s).eval (1 + 4 / q * z)| ≤ 1 := by
    apply leg_le_one
    · have : 4 / q * (-q / 2) ≤ 4 / q * z := mul_le_mul_of_nonneg_left h1 (by positivity)
      have e : 4 / q * (-q / 2) = -2 := by field_simp; norm_num
      linarith
    · have : 4 / q * z ≤ 0 := mul_nonpos_of_nonneg_of_nonpos (by positivity) h2
      linarith
  rw [abs_le] at hx ⊢
  constructor <;> nlinarith [hx.1, hx.2]

/-- **C60, stability on a mode.** On an eigenvector the step multiplies by a factor of modulus at most one. -/
theorem C60_rkl_mode (s : Nat) (hs : 2 ≤ s) {n : Nat} (A : (Fin n → ℝ) →ₗ[ℝ] (Fin n → ℝ)) (lam t dt : ℝ) (y : Fin n → ℝ) (hy : A y = lam • y)
    (h1 : -((s : ℝ) * s + s - 2) / 2 ≤ dt * lam) (h2 : dt * lam ≤ 0) :
    ∃ r : ℝ, |r| ≤ 1 ∧ diffusionStep s (fun _ y => A y) t dt y = r • y := by
  obtain ⟨R, -, -, -, hR, hstep⟩ := C60_rkl_linear (K := ℝ) (n := n) s hs
  refine ⟨R.eval (dt * lam), by rw [hR]; exact amplification_le_one s hs _ h1 h2, ?_⟩
  rw [hstep]
  by_cases hy0 : y = 0
  · subst hy0; simp
  · have hev : Module.End.HasEigenvector (dt • A) (dt * lam) y := by
      refine ⟨Module.End.mem_eigenspace_iff.2 ?_, hy0⟩
      rw [LinearMap.smul_apply, hy, smul_smul]
    exact Module.End.aeval_apply_of_hasEigenvector hev

/-- **C60, stability.** Symmetric negative semi-definite right-hand side, spectrum times the step in `[-(s²+s-2)/2, 0]`: the norm does not
grow, for any state. -/
theorem C60_rkl_stable (s : Nat) (hs : 2 ≤ s) {n : Nat} (A : (Fin n → ℝ) →ₗ[ℝ] (Fin n → ℝ)) (t dt : ℝ)
    (hsym : ∀ u v, ∑ i, u i * A v i = ∑ i, A u i * v i)
    (hneg : ∀ v, dt * ∑ i, v i * A v i ≤ 0)
    (hbound : ∀ v, -((s : ℝ) * s + s - 2) / 2 * ∑ i, v i * v i ≤ dt * ∑ i, v i * A v i) (y : Fin n → ℝ) :
    ∑ i, (diffusionStep s (fun _ y => A y) t dt y i) ^ 2 ≤ ∑ i, y i ^ 2 := by
  obtain ⟨R, -, -, -, hR, hstep⟩ := C60_rkl_linear (K := ℝ) (n := n) s hs
  rw [hstep]
  let e : EuclideanSpace ℝ (Fin n) ≃ₗ[ℝ] (Fin n → ℝ) := (WithLp.linearEquiv 2 ℝ (Fin n → ℝ))
  let T : EuclideanSpace ℝ (Fin n) →ₗ[ℝ] EuclideanSpace ℝ (Fin n) := e.symm.toLinearMap ∘ₗ (dt • A) ∘ₗ e.toLinearMap
  have hin : ∀ u v : EuclideanSpace ℝ (Fin n), inner ℝ u v = ∑ i, e u i * e v i := by
    intro u v
    rw [PiLp.inner_apply]
    apply Finset.sum_congr rfl
    intro i _
    simp [e, mul_comm]
  have heT : ∀ u, e (T u) = dt • A (e u) := by intro u; simp [T]
  have hT : T.IsSymmetric := by
    intro u v
    rw [hin, hin, heT, heT]
    have := hsym (e u) (e v)
    simp only [Pi.smul_apply, smul_eq_mul]
    rw [Finset.sum_congr rfl (fun i _ => mul_assoc dt (A (e u) i) (e v i)), ← Finset.mul_sum, ← this, Finset.mul_sum]
    exact Finset.sum_congr rfl (fun i _ => by ring)
  have hfin : Module.finrank ℝ (EuclideanSpace ℝ (Fin n)) = n := by simp
  let b := hT.eigenvectorBasis hfin
  let lam := hT.eigenvalues hfin
  have hTb : ∀ i, T (b i) = lam i • b i := by intro i; exact hT.apply_eigenvectorBasis hfin i
  have hlam : ∀ i, -((s : ℝ) * s + s - 2) / 2 ≤ lam i ∧ lam i ≤ 0 := by
    intro i
    have h1 : inner ℝ (b i) (b i) = (1 : ℝ) := by
      have := b.orthonormal.1 i
      rw [real_inner_self_eq_norm_sq, this]; norm_num
    have h2 : inner ℝ (b i) (T (b i)) = lam i := by rw [hTb, inner_smul_right, h1, mul_one]
    have h3 : inner ℝ (b i) (T (b i)) = dt * ∑ k, e (b i) k * A (e (b i)) k := by
      rw [hin, heT, Finset.mul_sum]
      exact Finset.sum_congr rfl (fun k _ => by simp only [Pi.smul_apply, smul_eq_mul]; ring)
    have h4 : ∑ k, e (b i) k * e (b i) k = 1 := by rw [← hin, h1]
    have hb1 := hbound (e (b i))
    have hb2 := hneg (e (b i))
    rw [h4, mul_one, ← h3, h2] at hb1
    rw [← h3, h2] at hb2
    exact ⟨hb1, hb2⟩
  have hRT : ∀ (P : ℝ[X]) u, e (aeval T P u) = aeval (dt • A) P (e u) := by
    intro P
    induction P using Polynomial.induction_on' with
    | add p q hp hq => intro u; simp only [map_add, LinearMap.add_apply, hp, hq]
    | monomial k c =>
      intro u
      simp only [aeval_monomial, Module.algebraMap_end_eq_smul_id, Module.End.mul_apply, LinearMap.smul_apply, LinearMap.id_apply, map_smul]
      congr 1
      induction k with
      | zero => simp
      | succ k ih =>
        rw [pow_succ', pow_succ', Module.End.mul_apply, Module.End.mul_apply, heT, ih]
        rfl
  let u := e.symm y
  have hu : e u = y := by simp [u]
  have hnorm : ∀ v : EuclideanSpace ℝ (Fin n), ∑ i, e v i ^ 2 = ‖v‖ ^ 2 := by
    intro v
    rw [← real_inner_self_eq_norm_sq, hin]
    exact Finset.sum_congr rfl (fun i _ => by ring)
  rw [← hu, ← hRT, hnorm, hnorm]
  have hc : ∀ v : EuclideanSpace ℝ (Fin n), ‖v‖ ^ 2 = ∑ i, (inner ℝ (b i) v) ^ 2 := by
    intro v
    rw [← b.sum_sq_norm_inner_right v]
    exact Finset.sum_congr rfl (fun i _ => by rw [Real.norm_eq_abs, sq_abs])
  rw [hc, hc]
  apply Finset.sum_le_sum
  intro i _
  have hval : inner ℝ (b i) (aeval T R u) = R.eval (lam i) * inner ℝ (b i) u := by
    have hs' : ∀ (P : ℝ[X]) v w, inner ℝ (aeval T P v) w = inner ℝ v (aeval T P w) := by
      intro P
      induction P using Polynomial.induction_on' with
      | add p q hp hq => intro v w; simp only [map_add, LinearMap.add_apply, inner_add_left, inner_add_right, hp, hq]
      | monomial k c =>
        intro v w
        simp only [aeval_monomial, Module.algebraMap_end_eq_smul_id, Module.End.mul_apply, LinearMap.smul_apply, LinearMap.id_apply, real_inner_smul_left,
          real_inner_smul_right]
        congr 1
        induction k generalizing v w with
        | zero => simp
        | succ k ih =>
          rw [pow_succ', Module.End.mul_apply, Module.End.mul_apply, hT, ih, ← Module.End.mul_apply, ← Module.End.mul_apply, ← pow_succ, ← pow_succ']
    have hne : b i ≠ 0 := by
      intro h0
      have := b.orthonormal.1 i
      rw [h0, norm_zero] at this
      exact zero_ne_one this
    have hev : Module.End.HasEigenvector T (lam i) (b i) := ⟨Module.End.mem_eigenspace_iff.2 (hTb i), hne⟩
    rw [← hs', Module.End.aeval_apply_of_hasEigenvector hev, real_inner_smul_left]
  rw [hval, mul_pow]
  have hamp : |R.eval (lam i)| ≤ 1 := by rw [hR]; exact amplification_le_one s hs _ (hlam i).1 (hlam i).2
  have : R.eval (lam i) ^ 2 ≤ 1 := by rw [sq_le_one_iff_abs_le_one]; exact hamp
  nlinarith [sq_nonneg (inner ℝ (b i) u : ℝ)]

/-- The hypotheses are met: the second difference on three points, step `1/2`, two stages. -/
def lap3 : (Fin 3 → ℝ) →ₗ[ℝ] (Fin 3 → ℝ) := Matrix.toLin' !![-2, 1, 0; 1, -2, 1; 0, 1, -2]

example : (∀ u v, ∑ i, u i * lap3 v i = ∑ i, lap3 u i * v i) ∧ (∀ v, (1/2 : ℝ) * ∑ i, v i * lap3 v i ≤ 0) ∧
    (∀ v, -(((2 : Nat) : ℝ) * (2 : Nat) + (2 : Nat) - 2) / 2 * ∑ i, v i * v i ≤ 1/2 * ∑ i, v i * lap3 v i) := by
  have e : ∀ v : Fin 3 → ℝ, lap3 v = ![-2 * v 0 + v 1, v 0 - 2 * v 1 + v 2, v 1 - 2 * v 2] := by
    intro v
    funext i
    fin_cases i <;> simp [lap3, Matrix.mulVec, dotProduct, Fin.sum_univ_three] <;> ring
  refine ⟨fun u v => ?_, fun v => ?_, fun v => ?_⟩ <;> simp only [Fin.sum_univ_three, e] <;> simp
  · ring
  · nlinarith [sq_nonneg (v 0 - v 1), sq_nonneg (v 1 - v 2), sq_nonneg (v 0), sq_nonneg (v 2), sq_nonneg (v 1)]
  · nlinarith [sq_nonneg (v 0 + v 1), sq_nonneg (v 1 + v 2), sq_nonneg (v 0), sq_nonneg (v 2), sq_nonneg (v 1)]

end Verif.SplitRK
