import Mathlib.RingTheory.PowerSeries.Derivative
import Mathlib.Data.Nat.Choose.Central
import Mathlib.Analysis.SpecialFunctions.Complex.Circle
import Mathlib.Analysis.SpecialFunctions.Trigonometric.Inverse
import Mathlib.Algebra.Polynomial.Derivative
import Mathlib.Tactic.LinearCombination
import Mathlib.Tactic.FieldSimp
import Mathlib.Tactic.Ring

/-!
# Legendre polynomials (specification for C60)

The recurrence `(n+2) P_{n+2} = (2n+3) x P_{n+1} - (n+1) P_n`, values and derivatives at 1, and `|P_n| ≤ 1` on `[-1,1]`.
-/
namespace Verif.Legendre
open Polynomial

/-- Legendre polynomials by Bonnet's recurrence. -/
noncomputable def leg (K : Type) [Field K] : Nat → K[X]
  | 0 => 1
  | 1 => X
  | n + 2 => C ((2 * n + 3) / (n + 2) : K) * X * leg K (n + 1) - C ((n + 1) / (n + 2) : K) * leg K n

section One
variable {K : Type} [Field K] [CharZero K]

theorem leg_rec (n : Nat) (x : K) :
    ((n : K) + 2) * (leg K (n + 2)).eval x = (2 * n + 3) * x * (leg K (n + 1)).eval x - (n + 1) * (leg K n).eval x := by
  have h : ((n : K) + 2) ≠ 0 := by exact_mod_cast (by omega : n + 2 ≠ 0)
  rw [leg]
  simp only [eval_sub, eval_mul, eval_C, eval_X]
  field_simp

theorem leg_at_one (n : Nat) : (leg K n).eval 1 = 1 ∧ (derivative (leg K n)).eval 1 = n * (n + 1) / 2 ∧
    (derivative (derivative (leg K n))).eval 1 = (n - 1) * n * (n + 1) * (n + 2) / 8 := by
  induction n using Nat.strong_induction_on with
  | _ n ih =>
    match n with
    | 0 => simp [leg]
    | 1 => simp [leg]
    | n + 2 =>
      obtain ⟨a0, a1, a2⟩ := ih n (by omega)
      obtain ⟨b0, b1, b2⟩ := ih (n + 1) (by omega)
      have h : ((n : K) + 2) ≠ 0 := by exact_mod_cast (by omega : n + 2 ≠ 0)
      rw [leg]
      refine ⟨?_, ?_, ?_⟩
      · simp only [eval_sub, eval_mul, eval_C, eval_X, a0, b0]
        field_simp; ring
      · simp only [derivative_sub, derivative_mul, derivative_C, derivative_X, eval_add, eval_sub, eval_mul, eval_C, eval_X, eval_zero,
          eval_one, a0, b0, a1, b1]
        push_cast
        field_simp; ring
      · simp only [derivative_sub, derivative_mul, derivative_C, derivative_X, derivative_zero, derivative_add, derivative_one, eval_add,
          eval_sub, eval_mul, eval_C, eval_X, eval_zero, eval_one, a0, b0, a1, b1, a2, b2]
        push_cast
        field_simp; ring

end One

/-- `(2k)! / (4^k k!²)`, the coefficients of `(1-X)^(-1/2)`. -/
noncomputable def ac (k : Nat) : ℂ := (Nat.centralBinom k : ℂ) / 4 ^ k

theorem ac_rec (k : Nat) : ((k : ℂ) + 1) * ac (k + 1) = (k + 1 / 2) * ac k := by
  have h := Nat.succ_mul_centralBinom_succ k
  have h' : ((k : ℂ) + 1) * (Nat.centralBinom (k + 1) : ℂ) = 2 * (2 * k + 1) * Nat.centralBinom k := by exact_mod_cast h
  unfold ac
  rw [pow_succ]
  field_simp
  linear_combination h' * 2

/-- The series of `(1 - u X)^(-1/2)`. -/
noncomputable def As (u : ℂ) : PowerSeries ℂ := PowerSeries.mk fun k => ac k * u ^ k

theorem As_ode (u : ℂ) : (1 - PowerSeries.C u * PowerSeries.X) * PowerSeries.derivative ℂ (As u) = PowerSeries.C (u / 2) * As u := by
  ext k
  rw [sub_mul, one_mul, map_sub, mul_assoc, PowerSeries.coeff_C_mul, PowerSeries.coeff_C_mul, PowerSeries.coeff_derivative]
  unfold As
  cases k with
  | zero =>
    rw [PowerSeries.coeff_zero_X_mul]
    simp only [PowerSeries.coeff_mk]
    have := ac_rec 0
    push_cast at this ⊢
    linear_combination u * this
  | succ k =>
    rw [PowerSeries.coeff_succ_X_mul, PowerSeries.coeff_derivative]
    simp only [PowerSeries.coeff_mk]
    have := ac_rec (k + 1)
    push_cast at this ⊢
    linear_combination u ^ (k + 2) * this

/-- `∑ a_k a_{n-k} u^k v^{n-k}`. -/
noncomputable def Ln (u v : ℂ) (n : Nat) : ℂ := PowerSeries.coeff n (As u * As v)

theorem Ln_rec (u v x : ℂ) (huv : u * v = 1) (hx : u + v = 2 * x) (n : Nat) :
    ((n : ℂ) + 2) * Ln u v (n + 2) = (2 * n + 3) * x * Ln u v (n + 1) - (n + 1) * Ln u v n := by
  have hode : (1 - PowerSeries.C u * PowerSeries.X) * (1 - PowerSeries.C v * PowerSeries.X) * PowerSeries.derivative ℂ (As u * As v) =
      (PowerSeries.C x - PowerSeries.X) * (As u * As v) := by
    rw [Derivation.leibniz, smul_eq_mul, smul_eq_mul]
    have h1 := As_ode u
    have h2 := As_ode v
    have hc : PowerSeries.C x = PowerSeries.C (u / 2) + PowerSeries.C (v / 2) := by
      rw [← map_add]; congr 1; linear_combination -(1/2 : ℂ) * hx
    have hc2 : PowerSeries.C (u / 2) * PowerSeries.C v + PowerSeries.C (v / 2) * PowerSeries.C u = (1 : PowerSeries ℂ) := by
      rw [← map_mul, ← map_mul, ← map_add, show u / 2 * v + v / 2 * u = 1 by linear_combination huv, map_one]
    rw [hc]
    linear_combination (As v) * (1 - PowerSeries.C v * PowerSeries.X) * h1 + (As u) * (1 - PowerSeries.C u * PowerSeries.X) * h2
      - PowerSeries.X * (As u * As v) * hc2
  have hpoly : (1 - PowerSeries.C u * PowerSeries.X) * (1 - PowerSeries.C v * PowerSeries.X) =
      (1 : PowerSeries ℂ) - PowerSeries.C (2 * x) * PowerSeries.X + PowerSeries.X * PowerSeries.X := by
    have e1 : PowerSeries.C u + PowerSeries.C v = (PowerSeries.C (2 * x) : PowerSeries ℂ) := by rw [← map_add, hx]
    have e2 : PowerSeries.C u * PowerSeries.C v = (1 : PowerSeries ℂ) := by rw [← map_mul, huv, map_one]
    linear_combination -PowerSeries.X * e1 + PowerSeries.X * PowerSeries.X * e2
  rw [hpoly] at hode
  have hc := congrArg (PowerSeries.coeff (n + 1)) hode
  rw [add_mul, sub_mul, one_mul, sub_mul, map_add, map_sub, map_sub, mul_assoc, mul_assoc, PowerSeries.coeff_C_mul,
    PowerSeries.coeff_C_mul, PowerSeries.coeff_succ_X_mul, PowerSeries.coeff_succ_X_mul, PowerSeries.coeff_succ_X_mul,
    PowerSeries.coeff_derivative, PowerSeries.coeff_derivative] at hc
  have hx' : PowerSeries.coeff n (PowerSeries.X * PowerSeries.derivative ℂ (As u * As v)) = n * Ln u v n := by
    cases n with
    | zero => rw [PowerSeries.coeff_zero_X_mul]; simp
    | succ n => rw [PowerSeries.coeff_succ_X_mul, PowerSeries.coeff_derivative]; unfold Ln; push_cast; ring
  rw [hx'] at hc
  unfold Ln at hc ⊢
  push_cast at hc
  linear_combination hc

theorem Ln_zero (u v : ℂ) : Ln u v 0 = 1 := by
  unfold Ln As
  rw [PowerSeries.coeff_mul]
  simp [ac]

theorem Ln_one (u v x : ℂ) (hx : u + v = 2 * x) : Ln u v 1 = x := by
  unfold Ln As
  rw [PowerSeries.coeff_mul, Finset.Nat.antidiagonal_succ]
  simp [ac, Nat.centralBinom]
  linear_combination (1/2 : ℂ) * hx

/-- The sum is the Legendre polynomial. -/
theorem leg_eq_Ln (u v x : ℂ) (huv : u * v = 1) (hx : u + v = 2 * x) (n : Nat) : (leg ℂ n).eval x = Ln u v n := by
  induction n using Nat.strong_induction_on with
  | _ n ih =>
    match n with
    | 0 => rw [Ln_zero]; simp [leg]
    | 1 => rw [Ln_one u v x hx]; simp [leg]
    | n + 2 =>
      have h : ((n : ℂ) + 2) ≠ 0 := by exact_mod_cast (by omega : n + 2 ≠ 0)
      have h1 := leg_rec (K := ℂ) n x
      have h2 := Ln_rec u v x huv hx n
      rw [ih n (by omega), ih (n + 1) (by omega), ← h2] at h1
      exact mul_left_cancel₀ h h1

theorem leg_map (n : Nat) (x : ℝ) : (((leg ℝ n).eval x : ℝ) : ℂ) = (leg ℂ n).eval (x : ℂ) := by
  induction n using Nat.strong_induction_on with
  | _ n ih =>
    match n with
    | 0 => simp [leg]
    | 1 => simp [leg]
    | n + 2 =>
      rw [leg, leg.eq_3]
      simp only [eval_sub, eval_mul, eval_C, eval_X]
      push_cast
      rw [ih n (by omega), ih (n + 1) (by omega)]

/-- **`|P_n(x)| ≤ 1` on `[-1, 1]`.** -/
theorem leg_le_one (n : Nat) (x : ℝ) (h1 : -1 ≤ x) (h2 : x ≤ 1) : |(leg ℝ n).eval x| ≤ 1 := by
  have hcos := Real.cos_arccos h1 h2
  generalize Real.arccos x = θ at hcos
  have huv : Complex.exp (θ * Complex.I) * Complex.exp (-(θ * Complex.I)) = 1 := by rw [← Complex.exp_add]; simp
  have hx : Complex.exp (θ * Complex.I) + Complex.exp (-(θ * Complex.I)) = 2 * (x : ℂ) := by
    rw [← hcos, Complex.ofReal_cos, Complex.cos, neg_mul]; ring
  have hnorm : ∀ w : ℂ, ‖w‖ = 1 → ∀ k, ‖ac k * w ^ k‖ = ‖ac k‖ := by
    intro w hw k
    rw [norm_mul, norm_pow, hw, one_pow, mul_one]
  have hu : ‖Complex.exp (θ * Complex.I)‖ = 1 := Complex.norm_exp_ofReal_mul_I θ
  have hv : ‖Complex.exp (-(θ * Complex.I))‖ = 1 := by
    rw [← neg_mul, ← Complex.ofReal_neg]; exact Complex.norm_exp_ofReal_mul_I (-θ)
  have hac : ∀ k, (‖ac k‖ : ℂ) = ac k := by
    intro k
    unfold ac
    rw [norm_div, norm_pow]
    simp
  have key : ‖Ln (Complex.exp (θ * Complex.I)) (Complex.exp (-(θ * Complex.I))) n‖ ≤ ∑ p ∈ Finset.antidiagonal n, ‖ac p.1‖ * ‖ac p.2‖ := by
    unfold Ln As
    rw [PowerSeries.coeff_mul]
    refine le_trans (norm_sum_le _ _) (Finset.sum_le_sum fun p _ => ?_)
    rw [PowerSeries.coeff_mk, PowerSeries.coeff_mk, norm_mul, hnorm _ hu, hnorm _ hv]
  have hone : ((∑ p ∈ Finset.antidiagonal n, ‖ac p.1‖ * ‖ac p.2‖ : ℝ) : ℂ) = 1 := by
    have h := leg_eq_Ln 1 1 1 (by norm_num) (by norm_num) n
    rw [(leg_at_one n).1] at h
    rw [h]
    unfold Ln As
    rw [PowerSeries.coeff_mul]
    push_cast
    apply Finset.sum_congr rfl
    intro p _
    rw [PowerSeries.coeff_mk, PowerSeries.coeff_mk, hac, hac]; simp
  have hone' : ∑ p ∈ Finset.antidiagonal n, ‖ac p.1‖ * ‖ac p.2‖ = 1 := by exact_mod_cast hone
  rw [hone', ← leg_eq_Ln _ _ _ huv hx n, ← leg_map, Complex.norm_real] at key
  exact key

end Verif.Legendre
