import Verif.Solver.Adams
import Mathlib.LinearAlgebra.Lagrange
import Mathlib.Algebra.Polynomial.Derivative
import Mathlib.Algebra.Polynomial.Eval.SMul
import Mathlib.Tactic.FieldSimp
import Mathlib.Tactic.LinearCombination

/-! # C59: the coefficients of the Adams-Bashforth solver -/
namespace Verif.AB
open Polynomial

variable {K : Type} [Field K] [LinearOrder K] [IsStrictOrderedRing K] {n : Nat}

/-- **Specification.** The weights `w` at the points `t 0, …, t (order-1)` integrate from `a` to `b` every polynomial of degree below
`order`; written with the antiderivative `P`. -/
def Exact (t : Nat → K) (a b : K) (order : Nat) (w : Nat → K) : Prop :=
  ∀ P : K[X], P.natDegree ≤ order → ∑ j ∈ Finset.range order, w j * (derivative P).eval (t j) = P.eval b - P.eval a

theorem numerator_eq (x : K) (grid : Nat → K) (pos order : Nat) :
    numerator x grid pos order = ∏ i ∈ Finset.range order, if i ≠ pos then x - grid i else 1 := by
  unfold numerator
  induction order with
  | zero => rfl
  | succ k ih => rw [List.range_succ, List.foldl_append, ih, Finset.prod_range_succ]; rfl

theorem denominator_eq (grid : Nat → K) (pos order : Nat) :
    denominator grid pos order = ∏ i ∈ Finset.range order, (if i ≠ pos then grid pos - grid i else 1)⁻¹ := by
  unfold denominator
  induction order with
  | zero => rfl
  | succ k ih =>
    rw [List.range_succ, List.foldl_append, ih, Finset.prod_range_succ]
    simp only [List.foldl_cons, List.foldl_nil, div_eq_mul_inv]

theorem foldl_sum (f : Nat → K) (m : Nat) (a : K) : (List.range m).foldl (fun r i => r + f i) a = a + ∑ i ∈ Finset.range m, f i := by
  induction m with
  | zero => simp
  | succ k ih => rw [List.range_succ, List.foldl_append, ih, Finset.sum_range_succ]; simp [add_assoc]

/-- Numerator times denominator is the Lagrange polynomial of the point. -/
theorem basis_eval (x : K) (grid : Nat → K) (pos order : Nat) :
    numerator x grid pos order * denominator grid pos order = ∏ i ∈ (Finset.range order).erase pos, ((grid pos - grid i)⁻¹ * (x - grid i)) := by
  rw [numerator_eq, denominator_eq, ← Finset.prod_mul_distrib]
  have h1 : ∀ i ∈ Finset.range order, i ∉ (Finset.range order).erase pos →
      ((if i ≠ pos then x - grid i else 1) * (if i ≠ pos then grid pos - grid i else 1)⁻¹) = 1 := by
    intro i hi hn
    have : i = pos := by
      by_contra hc
      exact hn (Finset.mem_erase.2 ⟨hc, hi⟩)
    simp [this]
  rw [← Finset.prod_subset (Finset.erase_subset pos _) h1]
  apply Finset.prod_congr rfl
  intro i hi
  have := (Finset.mem_erase.1 hi).1
  rw [if_pos this, if_pos this, mul_comm]

theorem lagrange_eval (x : K) (grid : Nat → K) (pos order : Nat) :
    (Lagrange.basis (Finset.range order) grid pos).eval x = numerator x grid pos order * denominator grid pos order := by
  rw [basis_eval]
  unfold Lagrange.basis
  rw [eval_prod]
  apply Finset.prod_congr rfl
  intro i _
  simp [Lagrange.basisDivisor]

theorem sum_list (f : Nat → ℚ) (m : Nat) : ((List.range m).map f).sum = ∑ i ∈ Finset.range m, f i := by
  induction m with
  | zero => rfl
  | succ k ih => rw [List.range_succ, List.map_append, List.sum_append, ih, Finset.sum_range_succ]; simp

/-- The tables integrate the powers: the moments of the Newton-Cotes formula with `m + 1` points. -/
theorem nc_moments (m : Nat) (h1 : 1 ≤ m) (h8 : m ≤ 8) :
    (ncFacs m).length = m + 1 ∧ ∀ d, d ≤ m → ∑ i ∈ Finset.range (m + 1), (ncFacs m).getD i 0 * (i : ℚ) ^ d = (m : ℚ) ^ (d + 1) / (d + 1) := by
  have key : ∀ m < 9, 1 ≤ m → (ncFacs m).length = m + 1 ∧ ∀ d < m + 1,
      ((List.range (m + 1)).map (fun i => (ncFacs m).getD i 0 * (i : ℚ) ^ d)).sum = (m : ℚ) ^ (d + 1) / (d + 1) := by decide +kernel
  obtain ⟨ha, hb⟩ := key m (by omega) h1
  refine ⟨ha, fun d hd => ?_⟩
  rw [← hb d (by omega)]
  exact (sum_list _ _).symm

/-- The table with `m + 1` points is exact for polynomials of degree `m`, on the integers. -/
theorem nc_exact (m : Nat) (h1 : 1 ≤ m) (h8 : m ≤ 8) (R : K[X]) (hR : R.natDegree ≤ m + 1) :
    ∑ i ∈ Finset.range (m + 1), ((ncFacs m).getD i 0 : K) * (derivative R).eval (i : K) = R.eval (m : K) - R.eval 0 := by
  obtain ⟨_, hm⟩ := nc_moments m h1 h8
  have hc : ∀ d, d ≤ m → ∑ i ∈ Finset.range (m + 1), ((ncFacs m).getD i 0 : K) * (i : K) ^ d = (m : K) ^ (d + 1) / (d + 1) := by
    intro d hd
    have := congrArg (fun q : ℚ => (q : K)) (hm d hd)
    simpa using this
  have hev : ∀ x : K, R.eval x = ∑ e ∈ Finset.range (m + 2), R.coeff e * x ^ e := fun x =>
    eval_eq_sum_range' (by omega) x
  have hder : ∀ x : K, (derivative R).eval x = ∑ d ∈ Finset.range (m + 1), (R.coeff (d + 1) * (d + 1)) * x ^ d := by
    intro x
    rw [eval_eq_sum_range' (n := m + 1) (by have := natDegree_derivative_le R; omega) x]
    apply Finset.sum_congr rfl
    intro d _
    rw [coeff_derivative]
  rw [hev, hev, Finset.sum_range_succ' (fun e => R.coeff e * (m : K) ^ e), Finset.sum_range_succ' (fun e => R.coeff e * (0 : K) ^ e)]
  simp only [hder, Finset.mul_sum, pow_zero]
  rw [Finset.sum_comm]
  have h0 : ∑ e ∈ Finset.range (m + 1), R.coeff (e + 1) * (0 : K) ^ (e + 1) = 0 := by
    apply Finset.sum_eq_zero
    intro e _
    rw [pow_succ, mul_zero, mul_zero]
  rw [h0, zero_add, add_sub_cancel_right]
  apply Finset.sum_congr rfl
  intro d hd
  have hd' := hc d (by have := Finset.mem_range.1 hd; omega)
  have hne : ((d : K) + 1) ≠ 0 := by positivity
  have : ∑ i ∈ Finset.range (m + 1), ((ncFacs m).getD i 0 : K) * (R.coeff (d + 1) * (d + 1) * (i : K) ^ d)
      = (R.coeff (d + 1) * (d + 1)) * ∑ i ∈ Finset.range (m + 1), ((ncFacs m).getD i 0 : K) * (i : K) ^ d := by
    rw [Finset.mul_sum]
    apply Finset.sum_congr rfl
    intro i _; ring
  rw [this, hd']
  field_simp

/-- The same between any two points. -/
theorem nc_exact_between (m : Nat) (h1 : 1 ≤ m) (h8 : m ≤ 8) (P : K[X]) (hP : P.natDegree ≤ m + 1) (a b : K) :
    (b - a) / m * ∑ i ∈ Finset.range (m + 1), ((ncFacs m).getD i 0 : K) * (derivative P).eval (a + i * ((b - a) / m)) =
      P.eval b - P.eval a := by
  have hm : (m : K) ≠ 0 := by
    have : 0 < m := h1
    positivity
  have h := nc_exact m h1 h8 (P.comp (C ((b - a) / m) * X + C a))
    (by
      refine le_trans natDegree_comp_le ?_
      have : (C ((b - a) / m) * X + C a).natDegree ≤ 1 := natDegree_linear_le
      calc P.natDegree * _ ≤ P.natDegree * 1 := Nat.mul_le_mul_left _ this
        _ ≤ m + 1 := by omega)
  simp only [derivative_comp, eval_mul, eval_comp, eval_add, eval_C, eval_X, derivative_add, derivative_mul, derivative_C, derivative_X,
    zero_mul, zero_add, mul_one, add_zero, mul_zero] at h
  rw [show (b - a) / (m : K) * m + a = b by field_simp; ring] at h
  rw [← h, Finset.mul_sum]
  apply Finset.sum_congr rfl
  intro i _
  rw [show a + (i : K) * ((b - a) / m) = (b - a) / m * i + a by ring]
  ring

/-- The coefficient as the quadrature of the Lagrange polynomial, for every order (with `min order 8` points). -/
theorem coefficient_eq (next : K) (t : Nat → K) (order i m : Nat) (hm : (ncFacs order).length = m + 1) :
    coefficient next t order i = (next - t 0) / m * ∑ l ∈ Finset.range (m + 1),
      ((ncFacs order).getD l 0 : K) * (numerator (t 0 + l * ((next - t 0) / m)) t i m * denominator t i m) := by
  unfold coefficient interpolate
  dsimp only
  rw [foldl_sum, hm, zero_add, show m + 1 - 1 = m from rfl, show (((m + 1 : Nat) : K) - 1) = m by push_cast; ring]
  rw [mul_assoc, Finset.sum_mul]
  congr 1
  apply Finset.sum_congr rfl
  intro l _
  ring

/-- **C59, weights.** Up to order 8 the coefficients integrate every polynomial of degree below the order exactly from the newest time to
the next one, whatever the spacing of the times. -/
theorem C59_weights (t : Nat → K) (next : K) (order : Nat) (h1 : 1 ≤ order) (h8 : order ≤ 8)
    (hd : ∀ i j, i < order → j < order → t i = t j → i = j) : Exact t (t 0) next order (coefficient next t order) := by
  intro P hP
  obtain ⟨hlen, _⟩ := nc_moments order h1 h8
  simp only [coefficient_eq next t order _ order hlen, ← lagrange_eval]
  have hinj : Set.InjOn t (Finset.range order) := by
    intro i hi j hj h
    exact hd i j (Finset.mem_range.1 hi) (Finset.mem_range.1 hj) h
  have hint := Lagrange.eq_interpolate (f := derivative P) hinj (by
    rw [Finset.card_range]
    by_cases h0 : P.natDegree = 0
    · rw [derivative_of_natDegree_zero h0, degree_zero]; exact WithBot.bot_lt_coe _
    · have := natDegree_derivative_lt h0
      exact lt_of_le_of_lt degree_le_natDegree (by exact_mod_cast (by omega : (derivative P).natDegree < order)))
  have hx : ∀ x : K, ∑ j ∈ Finset.range order, (Lagrange.basis (Finset.range order) t j).eval x * (derivative P).eval (t j) = (derivative P).eval x := by
    intro x
    conv_rhs => rw [hint]
    rw [Lagrange.interpolate_apply, eval_finset_sum]
    apply Finset.sum_congr rfl
    intro j _
    rw [eval_mul, eval_C, mul_comm]
  rw [← nc_exact_between order h1 h8 P (by omega) (t 0) next]
  have hl : ∀ l : Nat, ((ncFacs order).getD l 0 : K) * (derivative P).eval (t 0 + l * ((next - t 0) / order)) =
      ∑ j ∈ Finset.range order, ((ncFacs order).getD l 0 : K) *
        ((Lagrange.basis (Finset.range order) t j).eval (t 0 + l * ((next - t 0) / order)) * (derivative P).eval (t j)) := by
    intro l
    rw [← Finset.mul_sum, hx]
  rw [Finset.sum_congr rfl (fun l _ => hl l)]
  simp only [Finset.mul_sum, Finset.sum_mul]
  rw [Finset.sum_comm]
  apply Finset.sum_congr rfl
  intro l _
  apply Finset.sum_congr rfl
  intro j _
  ring

theorem antiderivative (k : Nat) (q : K[X]) (hq : q.natDegree < k) : ∃ P : K[X], P.natDegree ≤ k ∧ derivative P = q := by
  refine ⟨∑ d ∈ Finset.range k, C (q.coeff d / (d + 1)) * X ^ (d + 1), ?_, ?_⟩
  · apply natDegree_sum_le_of_forall_le
    intro d hd
    exact le_trans (natDegree_C_mul_X_pow_le _ _) (Finset.mem_range.1 hd)
  · rw [derivative_sum]
    conv_rhs => rw [as_sum_range' q k hq]
    apply Finset.sum_congr rfl
    intro d _
    have hne : ((d : K) + 1) ≠ 0 := by positivity
    rw [derivative_C_mul_X_pow, ← C_mul_X_pow_eq_monomial, Nat.add_sub_cancel]
    congr 2
    push_cast
    field_simp

/-- Exact weights are unique, so `Exact` says which numbers they are. -/
theorem Exact.unique {t : Nat → K} {a b : K} {order : Nat} (hd : ∀ i j, i < order → j < order → t i = t j → i = j)
    {w w' : Nat → K} (h : Exact t a b order w) (h' : Exact t a b order w') (j : Nat) (hj : j < order) : w j = w' j := by
  have hinj : Set.InjOn t (Finset.range order) := by
    intro i hi j hj h
    exact hd i j (Finset.mem_range.1 hi) (Finset.mem_range.1 hj) h
  have hjr : j ∈ Finset.range order := Finset.mem_range.2 hj
  obtain ⟨P, hdeg, hder⟩ := antiderivative order (Lagrange.basis (Finset.range order) t j) (by
    have hdb := Lagrange.degree_basis hinj hjr
    rw [Finset.card_range] at hdb
    have := natDegree_eq_of_degree_eq_some hdb
    omega)
  have e1 := h P hdeg
  have e2 := h' P hdeg
  rw [hder] at e1 e2
  have hpick : ∀ w : Nat → K, ∑ i ∈ Finset.range order, w i * (Lagrange.basis (Finset.range order) t j).eval (t i) = w j := by
    intro w
    rw [Finset.sum_eq_single j]
    · rw [Lagrange.eval_basis_self hinj hjr, mul_one]
    · intro i hi hne
      rw [Lagrange.eval_basis_of_ne hne.symm hi, mul_zero]
    · intro hn; exact absurd hjr hn
  rw [hpick] at e1 e2
  rw [e1, e2]

end Verif.AB
