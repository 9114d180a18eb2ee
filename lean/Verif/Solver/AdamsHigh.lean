import Verif.Solver.AdamsQuad
import Mathlib.Algebra.Polynomial.BigOperators
import Mathlib.Algebra.Polynomial.Taylor

/-! # C59: orders above eight (finding F14) -/
namespace Verif.AB
open Polynomial

variable {K : Type} [Field K] [LinearOrder K] [IsStrictOrderedRing K] {n : Nat}

theorem coeff_prod_nonneg (a : Nat → K) (ha : ∀ i, 0 ≤ a i) (m : Nat) (d : Nat) : 0 ≤ (∏ i ∈ Finset.range m, (X + C (a i))).coeff d := by
  induction m generalizing d with
  | zero =>
    rw [Finset.prod_range_zero, coeff_one]
    split_ifs <;> norm_num
  | succ m ih =>
    rw [Finset.prod_range_succ, mul_add, coeff_add, coeff_mul_C]
    have h1 := mul_nonneg (ih d) (ha m)
    cases d with
    | zero => rw [coeff_mul_X_zero, zero_add]; exact h1
    | succ d => rw [coeff_mul_X]; exact add_nonneg (ih d) h1

theorem natDegree_prod8 (a : Nat → K) : (∏ i ∈ Finset.range 8, (X + C (a i) : K[X])).natDegree = 8 := by
  rw [natDegree_prod_of_monic _ _ (fun i _ => monic_X_add_C _), Finset.sum_congr rfl (fun i _ => natDegree_X_add_C _)]
  simp

/-- The quadrature of a product of factors that are positive beyond the newest time is positive. -/
theorem quad_prod_pos (t : Nat → K) (ht : ∀ i, t i ≤ t 0) (next : K) (hn : t 0 < next) :
    0 < (next - t 0) / (8 : Nat) * ∑ l ∈ Finset.range (8 + 1), ((ncFacs 8).getD l 0 : K) *
      ∏ i ∈ Finset.range 8, (t 0 + l * ((next - t 0) / (8 : Nat)) - t i) := by
  obtain ⟨P, hdeg, hder⟩ := antiderivative 9 (∏ i ∈ Finset.range 8, (X + C (t 0 - t i))) (by
    have : (∏ i ∈ Finset.range 8, (X + C (t 0 - t i) : K[X])).natDegree = 8 := by
      exact natDegree_prod8 _
    omega)
  have hq := nc_exact_between 8 (by norm_num) (by norm_num) (P.comp (X - C (t 0))) (by
      refine le_trans natDegree_comp_le ?_
      rw [natDegree_X_sub_C]; omega) (t 0) next
  simp only [derivative_comp, hder, eval_mul, eval_comp, eval_sub, eval_C, eval_X, derivative_sub, derivative_C, derivative_X, sub_zero,
    eval_one, mul_one, one_mul, eval_prod, eval_add, sub_self] at hq
  have e : ∀ l : Nat, (∏ i ∈ Finset.range 8, (t 0 + l * ((next - t 0) / (8 : Nat)) - t 0 + (t 0 - t i))) =
      ∏ i ∈ Finset.range 8, (t 0 + l * ((next - t 0) / (8 : Nat)) - t i) := by
    intro l
    apply Finset.prod_congr rfl
    intro i _; ring
  simp only [e] at hq
  rw [hq]
  -- the antiderivative grows
  have hu : 0 < next - t 0 := by linarith
  have hco : ∀ d, P.coeff (d + 1) * (d + 1) = (∏ i ∈ Finset.range 8, (X + C (t 0 - t i) : K[X])).coeff d := by
    intro d
    rw [← hder, coeff_derivative]
  have hnn : ∀ d : Nat, 0 ≤ P.coeff (d + 1) := by
    intro d
    have h1 := coeff_prod_nonneg (fun i => t 0 - t i) (fun i => by linarith [ht i]) 8 d
    rw [← hco d] at h1
    have h2 : (0 : K) < (d : K) + 1 := by positivity
    by_contra hc
    have := mul_neg_of_neg_of_pos (not_le.1 hc) h2
    linarith
  have h9 : 0 < P.coeff 9 := by
    have hm : (∏ i ∈ Finset.range 8, (X + C (t 0 - t i) : K[X])).coeff 8 = 1 := by
      have hmon : (∏ i ∈ Finset.range 8, (X + C (t 0 - t i) : K[X])).Monic := monic_prod_of_monic _ _ (fun i _ => monic_X_add_C _)
      have hnd : (∏ i ∈ Finset.range 8, (X + C (t 0 - t i) : K[X])).natDegree = 8 := by
        exact natDegree_prod8 _
      have h' := hmon.coeff_natDegree
      rw [hnd] at h'
      exact h'
    have h := hco 8
    rw [hm] at h
    by_contra hc
    have : P.coeff (8 + 1) * ((8 : Nat) + 1 : K) ≤ 0 := mul_nonpos_of_nonpos_of_nonneg (not_lt.1 hc) (by positivity)
    rw [h] at this
    linarith [zero_lt_one (α := K)]
  rw [eval_eq_sum_range' (n := 10) (by omega) (next - t 0), eval_eq_sum_range' (n := 10) (by omega) 0]
  rw [Finset.sum_range_succ' _ 9, Finset.sum_range_succ' (fun e => P.coeff e * (0 : K) ^ e) 9]
  have hz : ∑ e ∈ Finset.range 9, P.coeff (e + 1) * (0 : K) ^ (e + 1) = 0 := by
    apply Finset.sum_eq_zero
    intro e _
    rw [pow_succ, mul_zero, mul_zero]
  rw [hz, zero_add, pow_zero, pow_zero, add_sub_cancel_right, Finset.sum_range_succ]
  have hs : 0 ≤ ∑ e ∈ Finset.range 8, P.coeff (e + 1) * (next - t 0) ^ (e + 1) :=
    Finset.sum_nonneg fun e _ => mul_nonneg (hnn e) (pow_nonneg hu.le _)
  have hp : 0 < P.coeff (8 + 1) * (next - t 0) ^ (8 + 1) := mul_pos h9 (pow_pos hu _)
  linarith

/-- **C59 fails for every order above 8.** The coefficients then add up to more than the step, for every history of times: not even a
constant right-hand side is integrated correctly. -/
theorem C59_order_above_eight_violated (t : Nat → K) (ht : ∀ i j, i < j → t j < t i) (next : K) (hn : t 0 < next) (order : Nat)
    (ho : 9 ≤ order) : next - t 0 < ∑ j ∈ Finset.range order, coefficient next t order j := by
  have htab : ncFacs order = ncFacs 8 := by
    match order, ho with
    | k + 9, _ => rfl
  have hlen : (ncFacs order).length = 8 + 1 := by rw [htab]; rfl
  have hw := C59_weights t next 8 (by norm_num) (by norm_num) (fun i j _ _ h => by
    rcases Nat.lt_trichotomy i j with hlt | heq | hgt
    · have := ht i j hlt; rw [h] at this; exact absurd this (lt_irrefl _)
    · exact heq
    · have := ht j i hgt; rw [h] at this; exact absurd this (lt_irrefl _))
  have h8 := hw X (by rw [natDegree_X]; norm_num)
  simp only [derivative_X, eval_one, mul_one, eval_X] at h8
  have hc : ∀ j, coefficient next t order j = coefficient next t 8 j := fun j => by unfold coefficient; rw [htab]
  simp only [hc]
  rw [← h8]
  have hle : ∀ i, t i ≤ t 0 := by
    intro i
    cases i with
    | zero => exact le_refl _
    | succ i => exact (ht 0 (i + 1) (by omega)).le
  have hpos : ∀ j, 8 ≤ j → 0 < coefficient next t 8 j := by
    intro j hj
    rw [coefficient_eq next t 8 j 8 rfl]
    have hnum : ∀ x, numerator x t j 8 = ∏ i ∈ Finset.range 8, (x - t i) := by
      intro x
      rw [numerator_eq]
      apply Finset.prod_congr rfl
      intro i hi
      rw [if_pos (by have := Finset.mem_range.1 hi; omega)]
    have hden : 0 < denominator t j 8 := by
      rw [denominator_eq]
      have he : ∏ i ∈ Finset.range 8, (if i ≠ j then t j - t i else 1)⁻¹ = ∏ i ∈ Finset.range 8, (t i - t j)⁻¹ := by
        have hneg : ∀ i ∈ Finset.range 8, (if i ≠ j then t j - t i else 1)⁻¹ = -1 * (t i - t j)⁻¹ := by
          intro i hi
          rw [if_pos (by have := Finset.mem_range.1 hi; omega), ← neg_sub, inv_neg, neg_one_mul]
        rw [Finset.prod_congr rfl hneg, Finset.prod_mul_distrib]
        simp
        norm_num
      rw [he]
      apply Finset.prod_pos
      intro i hi
      have := ht i j (by have := Finset.mem_range.1 hi; omega)
      exact inv_pos.2 (by linarith)
    have hq := quad_prod_pos t hle next hn
    have := mul_pos hq hden
    simp only [hnum]
    rw [mul_assoc, Finset.sum_mul] at this
    simpa only [mul_assoc] using this
  obtain ⟨k, rfl⟩ : ∃ k, order = 9 + k := ⟨order - 9, by omega⟩
  have : Finset.range 8 ⊂ Finset.range (9 + k) := by
    rw [Finset.ssubset_iff_of_subset (Finset.range_subset_range.2 (by omega))]
    exact ⟨8, Finset.mem_range.2 (by omega), by simp⟩
  apply Finset.sum_lt_sum_of_subset this.1 (i := 8) (Finset.mem_range.2 (by omega)) (by simp) (hpos 8 (le_refl _))
  intro j _ hj
  exact (hpos j (by by_contra hc; exact hj (Finset.mem_range.2 (by omega)))).le

/-- Nine equally spaced times satisfy the hypotheses. -/
example : (∀ i j : Nat, i < j → (-(j : ℚ)) < -(i : ℚ)) ∧ (-((0 : Nat) : ℚ)) < 1 := by
  refine ⟨fun i j h => ?_, by norm_num⟩
  have : (i : ℚ) < j := by exact_mod_cast h
  linarith

end Verif.AB
