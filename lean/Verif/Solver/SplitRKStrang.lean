import Verif.Solver.SplitRKOrder
import Verif.Solver.RKProps
import Mathlib.Algebra.Polynomial.Eval.Defs
import Mathlib.Algebra.Polynomial.Eval.Coeff

/-!
# C60: the whole step

The advection half is the Shu-Osher scheme (order three); for two linear operators that need not commute the symmetric composition agrees
with the exponential of the sum up to second order.
-/
namespace Verif.SplitRK
open Polynomial Verif.Butcher

variable {K : Type} [Field K] [LinearOrder K] [IsStrictOrderedRing K] {n : Nat}

/-- **C60, advection step.** The step of the Shu-Osher tableau (of order three, `C26`), with the right stage times. -/
theorem C60_advection (C : K → (Fin n → K) → (Fin n → K)) (t h : K) (y : Fin n → K) : IsStep ssp3 C t h y (advectionStep C t h y) :=
  RK.C26_rk3ssp C t h y

/-- The stability polynomial of the advection step. -/
noncomputable def adv : K[X] := 1 + X + Polynomial.C (1/2) * X ^ 2 + Polynomial.C (1/6) * X ^ 3

theorem advection_linear (B : (Fin n → K) →ₗ[K] (Fin n → K)) (t h : K) (y : Fin n → K) :
    advectionStep (fun _ y => B y) t h y = aeval (h • B) (adv (K := K)) y := by
  have e : advectionStep (fun _ y => B y) t h y =
      (1/3 : K) • y + (2/3 : K) • (((3/4 : K) • y + (1/4 : K) • (y + h • B y) + (1/4 * h) • B (y + h • B y)) +
        h • B ((3/4 : K) • y + (1/4 : K) • (y + h • B y) + (1/4 * h) • B (y + h • B y))) := rfl
  rw [e]
  unfold adv
  simp only [map_add, map_mul, map_one, aeval_X, map_pow, aeval_C, LinearMap.add_apply, Module.End.mul_apply, Module.algebraMap_end_apply, pow_succ, pow_zero,
    one_mul, LinearMap.smul_apply, map_smul, Module.End.one_apply]
  funext i
  simp only [Pi.add_apply, Pi.smul_apply, smul_eq_mul]
  ring

/-- Polynomials in the step with operators as coefficients, at a value of the step. -/
noncomputable def atStep (h : K) : (Module.End K (Fin n → K))[X] →+* Module.End K (Fin n → K) :=
  eval₂RingHom' (RingHom.id _) (algebraMap K _ h) (fun a => (Algebra.commutes h a).symm)

/-- A scalar polynomial at `c h A`, as a polynomial in `h`. -/
noncomputable def inStep (R : K[X]) (A : Module.End K (Fin n → K)) : (Module.End K (Fin n → K))[X] :=
  aeval (Polynomial.C A * X) R

theorem atStep_inStep (R : K[X]) (A : Module.End K (Fin n → K)) (h : K) : atStep h (inStep R A) = aeval (h • A) R := by
  unfold inStep
  have e : atStep h (Polynomial.C A * X) = h • A := by
    rw [map_mul]
    simp only [atStep, eval₂RingHom', RingHom.coe_mk, MonoidHom.coe_mk, OneHom.coe_mk, eval₂_C, eval₂_X, RingHom.id_apply]
    rw [← Algebra.commutes, ← Algebra.smul_def]
  induction R using Polynomial.induction_on' with
  | add p q hp hq => simp only [map_add, hp, hq]
  | monomial k c =>
    rw [aeval_monomial, aeval_monomial, map_mul, map_pow, e]
    congr 1
    show atStep h (Polynomial.C (algebraMap K _ c)) = _
    simp only [atStep, eval₂RingHom', RingHom.coe_mk, MonoidHom.coe_mk, OneHom.coe_mk, eval₂_C, RingHom.id_apply]

theorem inStep_coeff (R : K[X]) (A : Module.End K (Fin n → K)) (k : Nat) : (inStep R A).coeff k = R.coeff k • A ^ k := by
  unfold inStep
  induction R using Polynomial.induction_on' with
  | add p q hp hq => simp only [map_add, coeff_add, hp, hq, add_smul]
  | monomial l c =>
    rw [aeval_monomial]
    have : (Polynomial.C A * X : (Module.End K (Fin n → K))[X]) ^ l = Polynomial.C (A ^ l) * X ^ l := by
      rw [((commute_X (Polynomial.C A)).symm).mul_pow, map_pow]
    rw [this]
    show (Polynomial.C (algebraMap K _ c) * (Polynomial.C (A ^ l) * X ^ l)).coeff k = _
    rw [← mul_assoc, ← Polynomial.C_mul, coeff_C_mul_X_pow, coeff_monomial]
    by_cases hk : k = l
    · subst hk; rw [if_pos rfl, if_pos rfl, Algebra.smul_def]
    · rw [if_neg hk, if_neg (fun h => hk h.symm), zero_smul]

theorem adv_coeff : (adv (K := K)).coeff 0 = 1 ∧ (adv (K := K)).coeff 1 = 1 ∧ (adv (K := K)).coeff 2 = 1/2 := by
  unfold adv
  refine ⟨?_, ?_, ?_⟩ <;> simp [coeff_X, coeff_one]

/-- **C60, splitting.** Linear operators `A` (diffusive) and `B` (convective), not necessarily commuting, any number of stages: the step is a
polynomial in `dt` that agrees with `exp(dt (A + B))` up to `dt²`. -/
theorem C60_strang (s : Nat) (hs : 2 ≤ s) (A B : (Fin n → K) →ₗ[K] (Fin n → K)) :
    ∃ (N : Nat) (c : Nat → (Fin n → K) →ₗ[K] (Fin n → K)),
      (∀ t dt y, takeStep s (fun _ y => A y) (fun _ y => B y) t dt y = ∑ k ∈ Finset.range (N + 3), dt ^ k • c k y) ∧
      (∀ y, c 0 y = y) ∧ (∀ y, c 1 y = A y + B y) ∧ (∀ y, c 2 y = (1/2 : K) • (A (A y + B y) + B (A y + B y))) := by
  obtain ⟨R, r0, r1, r2, -, hstep⟩ := C60_rkl_linear (K := K) (n := n) s hs
  obtain ⟨a0, a1, a2⟩ := adv_coeff (K := K)
  let D := inStep R ((1/2 : K) • A : Module.End K (Fin n → K))
  let V := inStep (adv (K := K)) (B : Module.End K (Fin n → K))
  let P := D * V * D
  have d0 : D.coeff 0 = 1 := by rw [inStep_coeff, r0, pow_zero, one_smul]
  have d1 : D.coeff 1 = (1/2 : K) • A := by rw [inStep_coeff, r1, pow_one, one_smul]
  have d2 : D.coeff 2 = (1/8 : K) • (A * A : Module.End K (Fin n → K)) := by
    rw [inStep_coeff, r2, pow_two, smul_mul_smul_comm, smul_smul]; norm_num
  have v0 : V.coeff 0 = 1 := by rw [inStep_coeff, a0, pow_zero, one_smul]
  have v1 : V.coeff 1 = B := by rw [inStep_coeff, a1, pow_one, one_smul]
  have v2 : V.coeff 2 = (1/2 : K) • (B * B : Module.End K (Fin n → K)) := by rw [inStep_coeff, a2, pow_two]
  have q0 : (D * V).coeff 0 = 1 := by rw [mul_coeff_zero, d0, v0, one_mul]
  have q1 : (D * V).coeff 1 = B + (1/2 : K) • A := by
    rw [coeff_mul, Finset.Nat.sum_antidiagonal_succ, Finset.Nat.antidiagonal_zero, Finset.sum_singleton, d0, v1, d1, v0, one_mul, mul_one]
  have q2 : (D * V).coeff 2 = (1/2 : K) • (B * B : Module.End K (Fin n → K)) + ((1/2 : K) • (A * B : Module.End K (Fin n → K)) + (1/8 : K) • (A * A : Module.End K (Fin n → K))) := by
    rw [coeff_mul, Finset.Nat.sum_antidiagonal_succ, Finset.Nat.sum_antidiagonal_succ, Finset.Nat.antidiagonal_zero, Finset.sum_singleton, d0, v2, d1, v1, d2, v0,
      one_mul, mul_one, smul_mul_assoc]
  refine ⟨P.natDegree, fun k => P.coeff k, fun t dt y => ?_, fun y => ?_, fun y => ?_, fun y => ?_⟩
  · have hh : ∀ y t, diffusionStep s (fun _ y => A y) t (1/2 * dt) y = atStep dt D y := by
      intro y t
      rw [hstep, atStep_inStep]
      congr 3
      rw [smul_smul, mul_comm]
    have : takeStep s (fun _ y => A y) (fun _ y => B y) t dt y = atStep dt P y := by
      unfold takeStep
      rw [hh, hh, advection_linear, map_mul, map_mul, atStep_inStep (adv (K := K))]
      rfl
    rw [this]
    have hP : atStep dt P = ∑ k ∈ Finset.range (P.natDegree + 3), dt ^ k • P.coeff k := by
      show eval₂ _ _ P = _
      rw [eval₂_eq_sum_range' _ (n := P.natDegree + 3) (by omega)]
      apply Finset.sum_congr rfl
      intro k _
      rw [RingHom.id_apply, ← map_pow, ← Algebra.commutes, ← Algebra.smul_def]
    rw [hP]
    simp only [LinearMap.sum_apply, LinearMap.smul_apply]
  · show (D * V * D).coeff 0 y = y
    rw [mul_coeff_zero, q0, d0]; rfl
  · show (D * V * D).coeff 1 y = _
    rw [coeff_mul, Finset.Nat.sum_antidiagonal_succ, Finset.Nat.antidiagonal_zero, Finset.sum_singleton, q0, d1, q1, d0]
    funext i
    simp
    ring
  · show (D * V * D).coeff 2 y = _
    rw [coeff_mul, Finset.Nat.sum_antidiagonal_succ, Finset.Nat.sum_antidiagonal_succ, Finset.Nat.antidiagonal_zero, Finset.sum_singleton, q0, d2, q1, d1, q2, d0]
    funext i
    simp
    ring

end Verif.SplitRK
