import Verif.Solver.Imex
import Mathlib.Algebra.Polynomial.Taylor
import Mathlib.Algebra.Polynomial.Eval.Degree
import Mathlib.Algebra.BigOperators.Fin
import Mathlib.Tactic.FieldSimp
import Mathlib.Tactic.LinearCombination
import Mathlib.Tactic.Ring
import Mathlib.Tactic.Positivity

/-!
# C61: the coefficients of the multistep formulas

Specification: weights for a new time `t` from the known times `times 0, times 1, ...` (newest first).
-/
namespace Verif.Imex
open Polynomial

variable {K : Type} [Field K] [LinearOrder K] [IsStrictOrderedRing K]

/-- Variable-step BDF of order `k` with extrapolation of the explicit part: the implicit formula is exact for polynomials of degree at most
`k`, the extrapolated part for polynomials of degree below `k`. -/
def BdfWeights (k : Nat) (t : K) (times : Nat → K) (c : Coeffs K) : Prop :=
  (∀ P : K[X], P.natDegree ≤ k → P.eval t - c.dtImp * (derivative P).eval t = ∑ j ∈ Finset.range k, c.u j * P.eval (times j)) ∧
  ∀ Q : K[X], Q.natDegree < k → c.dtImp * Q.eval t = ∑ j ∈ Finset.range k, c.f j * Q.eval (times j)

/-- Powers of the distance from the new time are enough. -/
theorem bdf_of_powers (k : Nat) (t : K) (times : Nat → K) (c : Coeffs K)
    (h1 : ∀ i, i ≤ k → (if i = 0 then 1 else if i = 1 then -c.dtImp else 0) = ∑ j ∈ Finset.range k, c.u j * (times j - t) ^ i)
    (h2 : ∀ i, i < k → (if i = 0 then c.dtImp else 0) = ∑ j ∈ Finset.range k, c.f j * (times j - t) ^ i) : BdfWeights k t times c := by
  have ev : ∀ (P : K[X]) (m : Nat), P.natDegree < m → ∀ x, P.eval x = ∑ i ∈ Finset.range m, (taylor t P).coeff i * (x - t) ^ i := by
    intro P m hm x
    rw [← eval_eq_sum_range' (p := taylor t P) (by rw [natDegree_taylor]; exact hm), taylor_eval]
    congr 1
    ring
  constructor
  · intro P hP
    have e := ev P (k + 1) (by omega)
    simp only [e]
    have hd : (derivative P).eval t = (taylor t P).coeff 1 := by rw [taylor_coeff_one]
    rw [hd]
    have hswap : ∑ j ∈ Finset.range k, c.u j * ∑ i ∈ Finset.range (k + 1), (taylor t P).coeff i * (times j - t) ^ i =
        ∑ i ∈ Finset.range (k + 1), (taylor t P).coeff i * ∑ j ∈ Finset.range k, c.u j * (times j - t) ^ i := by
      simp only [Finset.mul_sum]
      rw [Finset.sum_comm]
      apply Finset.sum_congr rfl; intro i _
      apply Finset.sum_congr rfl; intro j _
      ring
    have hp : ∑ i ∈ Finset.range (k + 1), (taylor t P).coeff i * ∑ j ∈ Finset.range k, c.u j * (times j - t) ^ i =
        ∑ i ∈ Finset.range (k + 1), (taylor t P).coeff i * (if i = 0 then 1 else if i = 1 then -c.dtImp else 0) :=
      Finset.sum_congr rfl (fun i hi => by rw [← h1 i (by have := Finset.mem_range.1 hi; omega)])
    rw [hswap, hp]
    cases k with
    | zero =>
      have := h1 0 (le_refl _)
      simp at this
    | succ k =>
      rw [Finset.sum_range_succ', Finset.sum_range_succ', Finset.sum_range_succ', Finset.sum_range_succ']
      have z1 : ∑ i ∈ Finset.range k, (taylor t P).coeff (i + 1 + 1) * (t - t) ^ (i + 1 + 1) = 0 := Finset.sum_eq_zero (fun i _ => by simp)
      have z2 : ∑ i ∈ Finset.range k, (taylor t P).coeff (i + 1 + 1) * (if i + 1 + 1 = 0 then 1 else if i + 1 + 1 = 1 then -c.dtImp else 0) = 0 :=
        Finset.sum_eq_zero (fun i _ => by simp)
      rw [z1, z2]
      simp
      ring
  · intro Q hQ
    have e := ev Q k hQ
    simp only [e]
    have hswap : ∑ j ∈ Finset.range k, c.f j * ∑ i ∈ Finset.range k, (taylor t Q).coeff i * (times j - t) ^ i =
        ∑ i ∈ Finset.range k, (taylor t Q).coeff i * ∑ j ∈ Finset.range k, c.f j * (times j - t) ^ i := by
      simp only [Finset.mul_sum]
      rw [Finset.sum_comm]
      apply Finset.sum_congr rfl; intro i _
      apply Finset.sum_congr rfl; intro j _
      ring
    have hp : ∑ i ∈ Finset.range k, (taylor t Q).coeff i * ∑ j ∈ Finset.range k, c.f j * (times j - t) ^ i =
        ∑ i ∈ Finset.range k, (taylor t Q).coeff i * (if i = 0 then c.dtImp else 0) :=
      Finset.sum_congr rfl (fun i hi => by rw [← h2 i (Finset.mem_range.1 hi)])
    rw [hswap, hp, Finset.mul_sum]
    apply Finset.sum_congr rfl
    intro i _
    cases i with
    | zero => simp; ring
    | succ i => simp

/-- Times of the history from the new time and the steps: `times j = t - (ts 0 + ... + ts j)`. -/
def timesOf (t : K) (ts : Nat → K) (j : Nat) : K := t - ∑ i ∈ Finset.range (j + 1), ts i

/-- The same before the scaling. -/
theorem bdf_of_raw (k : Nat) (t : K) (ts : Nat → K) (uc : K) (U F : Nat → K) (hr : rawCoeffs k ts = some (uc, U, F)) (huc : uc ≠ 0)
    (h1 : ∀ i, i ≤ k → (if i = 0 then uc else if i = 1 then ts 0 else 0) = ∑ j ∈ Finset.range k, U j * (∑ l ∈ Finset.range (j + 1), ts l) ^ i)
    (h2 : ∀ i, i < k → (if i = 0 then ts 0 else 0) = ∑ j ∈ Finset.range k, F j * (∑ l ∈ Finset.range (j + 1), ts l) ^ i) :
    ∃ c, calculateCoeffs k ts = some c ∧ BdfWeights k t (timesOf t ts) c := by
  refine ⟨_, by unfold calculateCoeffs; rw [hr]; rfl, bdf_of_powers _ _ _ _ (fun i hi => ?_) (fun i hi => ?_)⟩
  · have e : ∀ j, timesOf t ts j - t = -∑ l ∈ Finset.range (j + 1), ts l := by intro j; unfold timesOf; ring
    dsimp only
    have := h1 i hi
    have e2 : ∑ j ∈ Finset.range k, U j / uc * (timesOf t ts j - t) ^ i =
        (-1) ^ i / uc * ∑ j ∈ Finset.range k, U j * (∑ l ∈ Finset.range (j + 1), ts l) ^ i := by
      rw [Finset.mul_sum]
      apply Finset.sum_congr rfl
      intro j _
      rw [e, neg_pow]
      ring
    rw [e2, ← this]
    match i with
    | 0 => simp [huc]
    | 1 => simp; ring
    | i + 2 => simp
  · have e : ∀ j, timesOf t ts j - t = -∑ l ∈ Finset.range (j + 1), ts l := by intro j; unfold timesOf; ring
    dsimp only
    have := h2 i hi
    have e2 : ∑ j ∈ Finset.range k, F j / uc * (timesOf t ts j - t) ^ i =
        (-1) ^ i / uc * ∑ j ∈ Finset.range k, F j * (∑ l ∈ Finset.range (j + 1), ts l) ^ i := by
      rw [Finset.mul_sum]
      apply Finset.sum_congr rfl
      intro j _
      rw [e, neg_pow]
      ring
    rw [e2, ← this]
    match i with
    | 0 => simp; ring
    | i + 1 => simp

theorem order1 (t : K) (ts : Nat → K) : ∃ c, calculateCoeffs 1 ts = some c ∧ BdfWeights 1 t (timesOf t ts) c := by
  refine bdf_of_raw _ _ _ _ _ _ rfl one_ne_zero (fun i hi => ?_) (fun i hi => ?_)
  · have : i = 0 ∨ i = 1 := by omega
    rcases this with rfl | rfl <;> simp
  · obtain rfl : i = 0 := by omega
    simp

theorem order2 (t : K) (ts : Nat → K) (h : ∀ j, 0 < ts j) : ∃ c, calculateCoeffs 2 ts = some c ∧ BdfWeights 2 t (timesOf t ts) c := by
  have h0 := h 0
  have h1 := h 1
  have hw : 0 < ts 0 / ts 1 := by positivity
  have he : ts 0 = ts 0 / ts 1 * ts 1 := by field_simp
  refine bdf_of_raw _ _ _ _ _ _ rfl ?_ ?_ ?_
  · positivity
  · intro i hi
    generalize ts 0 / ts 1 = w at *
    have : i = 0 ∨ i = 1 ∨ i = 2 := by omega
    rcases this with rfl | rfl | rfl <;> simp [Finset.sum_range_succ] <;> (try rw [he]) <;> field_simp <;> ring
  · intro i hi
    generalize ts 0 / ts 1 = w at *
    have : i = 0 ∨ i = 1 := by omega
    rcases this with rfl | rfl <;> simp [Finset.sum_range_succ] <;> (try rw [he]) <;> ring

theorem order3 (t : K) (ts : Nat → K) (h : ∀ j, 0 < ts j) : ∃ c, calculateCoeffs 3 ts = some c ∧ BdfWeights 3 t (timesOf t ts) c := by
  have h0 := h 0
  have h1 := h 1
  have h2 := h 2
  have hw1 : 0 < ts 1 / ts 2 := by positivity
  have hw2 : 0 < ts 0 / ts 1 := by positivity
  have he1 : ts 1 = ts 1 / ts 2 * ts 2 := by field_simp
  have he : ts 0 = ts 0 / ts 1 * (ts 1 / ts 2 * ts 2) := by field_simp
  refine bdf_of_raw _ _ _ _ _ _ rfl ?_ ?_ ?_
  · positivity
  · intro i hi
    generalize ts 0 / ts 1 = w2 at *
    generalize ts 1 / ts 2 = w1 at *
    have d1 : 1 + w1 * (1 + w2) ≠ 0 := by positivity
    have d2 : 1 + w1 + w1 * w2 ≠ 0 := by positivity
    have : i = 0 ∨ i = 1 ∨ i = 2 ∨ i = 3 := by omega
    rcases this with rfl | rfl | rfl | rfl <;> simp [Finset.sum_range_succ] <;> (try rw [he, he1]) <;> field_simp <;> ring
  · intro i hi
    generalize ts 0 / ts 1 = w2 at *
    generalize ts 1 / ts 2 = w1 at *
    have : i = 0 ∨ i = 1 ∨ i = 2 := by omega
    rcases this with rfl | rfl | rfl <;> simp [Finset.sum_range_succ] <;> (try rw [he, he1]) <;> field_simp <;> ring

theorem order4 (t : K) (ts : Nat → K) (h : ∀ j, 0 < ts j) : ∃ c, calculateCoeffs 4 ts = some c ∧ BdfWeights 4 t (timesOf t ts) c := by
  have h0 := h 0
  have h1 := h 1
  have h2 := h 2
  have h3 := h 3
  have hw1 : 0 < ts 2 / ts 3 := by positivity
  have hw2 : 0 < ts 1 / ts 2 := by positivity
  have hw3 : 0 < ts 0 / ts 1 := by positivity
  have he2 : ts 2 = ts 2 / ts 3 * ts 3 := by field_simp
  have he1 : ts 1 = ts 1 / ts 2 * (ts 2 / ts 3 * ts 3) := by field_simp
  have he : ts 0 = ts 0 / ts 1 * (ts 1 / ts 2 * (ts 2 / ts 3 * ts 3)) := by field_simp
  refine bdf_of_raw _ _ _ _ _ _ rfl ?_ ?_ ?_
  · positivity
  · intro i hi
    generalize ts 0 / ts 1 = w3 at *
    generalize ts 1 / ts 2 = w2 at *
    generalize ts 2 / ts 3 = w1 at *
    have d1 : 1 + w1 * (1 + w2) ≠ 0 := by positivity
    have d2 : 1 + w2 * (1 + w3) ≠ 0 := by positivity
    have d3 : 1 + w1 * (1 + w2 * (1 + w3)) ≠ 0 := by positivity
    have : i = 0 ∨ i = 1 ∨ i = 2 ∨ i = 3 ∨ i = 4 := by omega
    rcases this with rfl | rfl | rfl | rfl | rfl <;> simp [Finset.sum_range_succ] <;> (try rw [he, he1, he2]) <;> field_simp <;> ring
  · intro i hi
    generalize ts 0 / ts 1 = w3 at *
    generalize ts 1 / ts 2 = w2 at *
    generalize ts 2 / ts 3 = w1 at *
    have d1 : 1 + w1 * (1 + w2) ≠ 0 := by positivity
    have : i = 0 ∨ i = 1 ∨ i = 2 ∨ i = 3 := by omega
    rcases this with rfl | rfl | rfl | rfl <;> simp [Finset.sum_range_succ] <;> (try rw [he, he1, he2]) <;> field_simp <;> ring

/-- **C61, formulas.** For every order up to four and all positive steps the coefficients are those of the variable-step BDF formula with
extrapolated explicit part. -/
theorem C61_weights (k : Nat) (hk1 : 1 ≤ k) (hk4 : k ≤ 4) (t : K) (ts : Nat → K) (h : ∀ j, 0 < ts j) :
    ∃ c, calculateCoeffs k ts = some c ∧ BdfWeights k t (timesOf t ts) c := by
  have : k = 1 ∨ k = 2 ∨ k = 3 ∨ k = 4 := by omega
  rcases this with rfl | rfl | rfl | rfl
  · exact order1 t ts
  · exact order2 t ts h
  · exact order3 t ts h
  · exact order4 t ts h

theorem bdf_unique (k : Nat) (t : K) (times : Nat → K) (c c' : Coeffs K) (hne : ∀ i < k, times i ≠ t)
    (h : BdfWeights k t times c) (h' : BdfWeights k t times c') : c.dtImp = c'.dtImp := by
  let P : K[X] := ∏ j ∈ Finset.range k, (X - C (times j))
  have hdeg : P.natDegree = k := by
    rw [natDegree_prod_of_monic _ _ (fun j _ => monic_X_sub_C _)]
    simp
  have hz : ∀ d : Coeffs K, ∑ j ∈ Finset.range k, d.u j * P.eval (times j) = 0 := by
    intro d
    apply Finset.sum_eq_zero
    intro j hj
    have : P.eval (times j) = 0 := by
      rw [eval_prod]
      exact Finset.prod_eq_zero hj (by simp)
    rw [this, mul_zero]
  have e1 := h.1 P hdeg.le
  have e2 := h'.1 P hdeg.le
  rw [hz] at e1 e2
  have hPt : P.eval t ≠ 0 := by
    rw [eval_prod, Finset.prod_ne_zero_iff]
    intro j hj
    simp only [eval_sub, eval_X, eval_C]
    exact sub_ne_zero.2 (fun hc => hne j (Finset.mem_range.1 hj) hc.symm)
  have hd : (derivative P).eval t ≠ 0 := by
    intro h0
    rw [h0, mul_zero, sub_zero] at e1
    exact hPt e1
  exact mul_right_cancel₀ hd (by linear_combination e2 - e1)

/-- The weights are determined by the specification. -/
theorem C61_weights_unique (k : Nat) (t : K) (times : Nat → K) (c c' : Coeffs K) (hne : ∀ i < k, times i ≠ t)
    (hinj : ∀ i < k, ∀ j < k, times i = times j → i = j) (h : BdfWeights k t times c) (h' : BdfWeights k t times c') :
    c.dtImp = c'.dtImp ∧ ∀ i < k, c.u i = c'.u i ∧ c.f i = c'.f i := by
  have hg : c.dtImp = c'.dtImp := bdf_unique k t times c c' hne h h'
  refine ⟨hg, fun i hi => ?_⟩
  let P : K[X] := ∏ j ∈ (Finset.range k).erase i, (X - C (times j))
  have hdeg : P.natDegree = k - 1 := by
    rw [natDegree_prod_of_monic _ _ (fun j _ => monic_X_sub_C _)]
    simp [hi]
  have hPi : P.eval (times i) ≠ 0 := by
    rw [eval_prod, Finset.prod_ne_zero_iff]
    intro j hj
    obtain ⟨h1, h2⟩ := Finset.mem_erase.1 hj
    simp only [eval_sub, eval_X, eval_C]
    exact sub_ne_zero.2 (fun hc => h1 (hinj i hi j (Finset.mem_range.1 h2) hc).symm)
  have hz : ∀ w : Nat → K, ∑ j ∈ Finset.range k, w j * P.eval (times j) = w i * P.eval (times i) := by
    intro w
    apply Finset.sum_eq_single_of_mem i (Finset.mem_range.2 hi)
    intro j hj hji
    have : P.eval (times j) = 0 := by
      rw [eval_prod]
      exact Finset.prod_eq_zero (Finset.mem_erase.2 ⟨hji, hj⟩) (by simp)
    rw [this, mul_zero]
  have e1 := h.1 P (by omega)
  have e2 := h'.1 P (by omega)
  have f1 := h.2 P (by omega)
  have f2 := h'.2 P (by omega)
  rw [hz] at e1 e2 f1 f2
  rw [hg] at e1 f1
  exact ⟨mul_right_cancel₀ hPi (e1.symm.trans e2), mul_right_cancel₀ hPi (f1.symm.trans f2)⟩

end Verif.Imex
