import Verif.Solver.RKProps

namespace Verif.RK
open Verif.Butcher Finset

variable {K : Type} [Field K] [LinearOrder K] [IsStrictOrderedRing K] {n : Nat}

theorem rk4_simple_coeffs (i j : Nat) (hj : j < i) (hi : i < 11) (h : rk4simple.stageCoeffs i j ≠ 0) :
    1/12 ≤ |rk4simple.stageCoeffs i j| := by
  have key : ∀ i < 11, ∀ j < 11, rk4simple.stageCoeffs i j ≠ 0 → 1/12 ≤ |rk4simple.stageCoeffs i j| := by decide +kernel
  exact key i hi j (by omega) h

theorem rk4_simple_coeffs' (atol : K) (ha : atol ≤ 1/12) (i j : Nat) (hj : j < i) (hi : i < 11)
    (h : rk4simple.stageCoeffs i j ≠ 0) : atol ≤ |(rk4simple.stageCoeffs i j : K)| := by
  have h1 := rk4_simple_coeffs i j hj hi h
  have h2 : ((1/12 : ℚ) : K) ≤ ((|rk4simple.stageCoeffs i j| : ℚ) : K) := by exact_mod_cast h1
  rw [Rat.cast_abs] at h2
  push_cast at h2
  linarith

/-- rk4simple's own output routine computes the same two solutions as the generic one. -/
theorem rk4simpleOutput_eq (fh ad : Bool) (atol : K) (neq : Nat) (steps : Nat → Fin n → K) (y : Fin n → K) (h : K) :
    rk4simpleOutput fh ad atol neq steps y h = setOutputStates rk4simple fh ad atol neq steps y h := by
  have e0 : constructOutput rk4simple steps y h 0 = fun m =>
      (y m + h * ((rk4simple.resultCoeffs 0 0 : K) * steps 0 m + (rk4simple.resultCoeffs 4 0 : K) * steps 4 m +
        (rk4simple.resultCoeffs 5 0 : K) * steps 5 m + (rk4simple.resultCoeffs 6 0 : K) * steps 6 m)) +
      h * ((rk4simple.resultCoeffs 7 0 : K) * steps 7 m + (rk4simple.resultCoeffs 8 0 : K) * steps 8 m +
        (rk4simple.resultCoeffs 9 0 : K) * steps 9 m + (rk4simple.resultCoeffs 10 0 : K) * steps 10 m) := by
    rw [constructOutput_eq]; funext m
    simp only [rk4simple, Finset.sum_range_succ, Finset.sum_range_zero, table, List.getD_cons_zero, List.getD_cons_succ]
    push_cast; ring
  have e1 : constructOutput rk4simple steps y h 1 = fun m =>
      y m + h * ((rk4simple.resultCoeffs 0 1 : K) * steps 0 m + (rk4simple.resultCoeffs 1 1 : K) * steps 1 m +
        (rk4simple.resultCoeffs 2 1 : K) * steps 2 m + (rk4simple.resultCoeffs 3 1 : K) * steps 3 m) := by
    rw [constructOutput_eq]; funext m
    simp only [rk4simple, Finset.sum_range_succ, Finset.sum_range_zero, table, List.getD_cons_zero, List.getD_cons_succ]
    push_cast; ring
  unfold rk4simpleOutput setOutputStates
  cases fh <;> cases ad <;> simp only [e0, e1, if_true, Bool.false_eq_true, if_false]

/-- The stage equations of rk4simple. -/
theorem rk4simple_stage (atol : K) (ha : atol ≤ 1/12) (rhs : Rhs K n) (t h : K) (y : Fin n → K) (s0 : Nat → Fin n → K) (i : Nat)
    (hi : i < 11) :
    stages rk4simple rhs atol t h y s0 i = rhs (t + h * (rk4simple.timeCoeffs i : K))
      (fun m => y m + h * ∑ j ∈ range i, (rk4simple.stageCoeffs i j : K) * stages rk4simple rhs atol t h y s0 j m) := by
  rw [stages_eq rk4simple rhs atol t h y s0 i hi,
    setCurState_eq rk4simple atol (fun i j a b c => rk4_simple_coeffs' atol ha i j a b c) _ _ i hi]

/-- With rk4simple the solution followed by default is exactly two classical Runge-Kutta steps of half the size, and the
other one is one classical step of the full size. -/
theorem C27_rk4simple_two_half_steps (ad : Bool) (atol : K) (ha : atol ≤ 1/12) (neq : Nat) (rhs : Rhs K n) (t h : K) (y : Fin n → K)
    (s0 : Nat → Fin n → K) :
    (rk4simpleStep true ad atol neq rhs t h y s0).1 = rk4Step rhs (t + h / 2) (h / 2) (rk4Step rhs t (h / 2) y) ∧
    (rk4simpleStep false ad atol neq rhs t h y s0).1 = rk4Step rhs t h y := by
  have hs := rk4simple_stage atol ha rhs t h y s0
  simp only [rk4simpleStep]
  generalize stages rk4simple rhs atol t h y s0 = st at hs ⊢
  have h0 : st 0 = rhs t y := by
    rw [hs 0 (by norm_num)]; simp [rk4simple, row]
  have h1 : st 1 = rhs (t + 1/2 * h) (fun m => y m + 1/2 * h * st 0 m) := by
    rw [hs 1 (by norm_num)]
    simp only [rk4simple, Finset.sum_range_succ, Finset.sum_range_zero, table, row, List.getD_cons_zero, List.getD_cons_succ]
    congr 1
    · push_cast; ring
    · funext m; push_cast; ring
  have h2 : st 2 = rhs (t + 1/2 * h) (fun m => y m + 1/2 * h * st 1 m) := by
    rw [hs 2 (by norm_num)]
    simp only [rk4simple, Finset.sum_range_succ, Finset.sum_range_zero, table, row, List.getD_cons_zero, List.getD_cons_succ]
    congr 1
    · push_cast; ring
    · funext m; push_cast; ring
  have h3 : st 3 = rhs (t + h) (fun m => y m + h * st 2 m) := by
    rw [hs 3 (by norm_num)]
    simp only [rk4simple, Finset.sum_range_succ, Finset.sum_range_zero, table, row, List.getD_cons_zero, List.getD_cons_succ]
    congr 1
    · push_cast; ring
    · funext m; push_cast; ring
  have h4 : st 4 = rhs (t + 1/2 * (h / 2)) (fun m => y m + 1/2 * (h / 2) * st 0 m) := by
    rw [hs 4 (by norm_num)]
    simp only [rk4simple, Finset.sum_range_succ, Finset.sum_range_zero, table, row, List.getD_cons_zero, List.getD_cons_succ,
      List.getD_nil]
    congr 1
    · push_cast; ring
    · funext m; push_cast; ring
  have h5 : st 5 = rhs (t + 1/2 * (h / 2)) (fun m => y m + 1/2 * (h / 2) * st 4 m) := by
    rw [hs 5 (by norm_num)]
    simp only [rk4simple, Finset.sum_range_succ, Finset.sum_range_zero, table, row, List.getD_cons_zero, List.getD_cons_succ,
      List.getD_nil]
    congr 1
    · push_cast; ring
    · funext m; push_cast; ring
  have h6 : st 6 = rhs (t + h / 2) (fun m => y m + h / 2 * st 5 m) := by
    rw [hs 6 (by norm_num)]
    simp only [rk4simple, Finset.sum_range_succ, Finset.sum_range_zero, table, row, List.getD_cons_zero, List.getD_cons_succ,
      List.getD_nil]
    congr 1
    · push_cast; ring
    · funext m; push_cast; ring
  have hhalf : rk4Step rhs t (h / 2) y = fun m => y m + 1/6 * (h / 2) * (st 0 m + 2 * st 4 m + 2 * st 5 m + st 6 m) := by
    simp only [rk4Step, ← h0, ← h4, ← h5, ← h6]
  constructor
  · rw [hhalf]
    have h7 : st 7 = rhs (t + h / 2) (fun m => y m + 1/6 * (h / 2) * (st 0 m + 2 * st 4 m + 2 * st 5 m + st 6 m)) := by
      rw [hs 7 (by norm_num)]
      simp only [rk4simple, Finset.sum_range_succ, Finset.sum_range_zero, table, row, List.getD_cons_zero, List.getD_cons_succ,
        List.getD_nil]
      congr 1
      · push_cast; ring
      · funext m; push_cast; ring
    have h8 : st 8 = rhs (t + h / 2 + 1/2 * (h / 2)) (fun m => y m + 1/6 * (h / 2) * (st 0 m + 2 * st 4 m + 2 * st 5 m + st 6 m)
        + 1/2 * (h / 2) * st 7 m) := by
      rw [hs 8 (by norm_num)]
      simp only [rk4simple, Finset.sum_range_succ, Finset.sum_range_zero, table, row, List.getD_cons_zero, List.getD_cons_succ,
        List.getD_nil]
      congr 1
      · push_cast; ring
      · funext m; push_cast; ring
    have h9 : st 9 = rhs (t + h / 2 + 1/2 * (h / 2)) (fun m => y m + 1/6 * (h / 2) * (st 0 m + 2 * st 4 m + 2 * st 5 m + st 6 m)
        + 1/2 * (h / 2) * st 8 m) := by
      rw [hs 9 (by norm_num)]
      simp only [rk4simple, Finset.sum_range_succ, Finset.sum_range_zero, table, row, List.getD_cons_zero, List.getD_cons_succ,
        List.getD_nil]
      congr 1
      · push_cast; ring
      · funext m; push_cast; ring
    have h10 : st 10 = rhs (t + h / 2 + h / 2) (fun m => y m + 1/6 * (h / 2) * (st 0 m + 2 * st 4 m + 2 * st 5 m + st 6 m)
        + h / 2 * st 9 m) := by
      rw [hs 10 (by norm_num)]
      simp only [rk4simple, Finset.sum_range_succ, Finset.sum_range_zero, table, row, List.getD_cons_zero, List.getD_cons_succ,
        List.getD_nil]
      congr 1
      · push_cast; ring
      · funext m; push_cast; ring
    simp only [rk4Step, ← h7, ← h8, ← h9, ← h10]
    funext m
    simp only [rk4simpleOutput, if_true, rk4simple, table, List.getD_cons_zero, List.getD_cons_succ]
    push_cast; ring
  · simp only [rk4Step, ← h0, ← h1, ← h2, ← h3]
    funext m
    simp only [rk4simpleOutput, Bool.false_eq_true, if_false, rk4simple, table, List.getD_cons_zero, List.getD_cons_succ]
    push_cast; ring

/-- Concrete case: the hypotheses of the generic-step theorem hold for every scheme with the default tolerance 1e-5. -/
theorem C27_default_tolerance (T : Scheme) (hT : T ∈ [rkf45, cashkarp, rkf34, rk4simple]) :
    ∀ i j, j < i → i < T.numStages → T.stageCoeffs i j ≠ 0 → ((1/100000 : ℚ) : K) ≤ |(T.stageCoeffs i j : K)| := by
  have key : ∀ T ∈ [rkf45, cashkarp, rkf34, rk4simple], ∀ i < T.numStages, ∀ j < i, T.stageCoeffs i j ≠ 0 →
      1/100000 ≤ |T.stageCoeffs i j| := by
    intro T hT
    simp only [List.mem_cons, List.not_mem_nil, or_false] at hT
    rcases hT with rfl | rfl | rfl | rfl
    · intro i hi j hj; revert i; revert j
      have : ∀ i < 6, ∀ j < 6, rkf45.stageCoeffs i j ≠ 0 → 1/100000 ≤ |rkf45.stageCoeffs i j| := by decide +kernel
      intro j i hi hj; exact this i hi j (lt_trans hj hi)
    · have : ∀ i < 6, ∀ j < 6, cashkarp.stageCoeffs i j ≠ 0 → 1/100000 ≤ |cashkarp.stageCoeffs i j| := by decide +kernel
      intro i hi j hj; exact this i hi j (lt_trans hj hi)
    · have : ∀ i < 5, ∀ j < 5, rkf34.stageCoeffs i j ≠ 0 → 1/100000 ≤ |rkf34.stageCoeffs i j| := by decide +kernel
      intro i hi j hj; exact this i hi j (lt_trans hj hi)
    · have : ∀ i < 11, ∀ j < 11, rk4simple.stageCoeffs i j ≠ 0 → 1/100000 ≤ |rk4simple.stageCoeffs i j| := by decide +kernel
      intro i hi j hj; exact this i hi j (lt_trans hj hi)
  intro i j hj hi h
  have h1 := key T hT i hi j hj h
  have h2 : ((1/100000 : ℚ) : K) ≤ ((|T.stageCoeffs i j| : ℚ) : K) := by exact_mod_cast h1
  rw [Rat.cast_abs] at h2
  exact h2

/-! ## What the steps achieve -/

open Polynomial in
/-- RK4 integrates `y' = P'(t)` exactly for polynomials `P` of degree at most 4. -/
theorem C26_rk4_quadrature (P : Fin n → K[X]) (hP : ∀ m, (P m).natDegree ≤ 4) (t h : K) (y : Fin n → K) (m : Fin n) :
    rk4Step (fun t _ m => (derivative (P m)).eval t) t h y m = y m + ((P m).eval (t + h) - (P m).eval t) :=
  quadrature_exact (by norm_num) classical_order P hP t h y _ (C26_rk4_classical _ t h y) m

/-- RK4 multiplies by `1 + z + z²/2 + z³/6 + z⁴/24` on `y' = A y`, for every linear map `A` (`z = h A`). -/
theorem C26_rk4_linear (A : (Fin n → K) →ₗ[K] (Fin n → K)) (t h : K) (y : Fin n → K) (m : Fin n) :
    rk4Step (fun _ y => A y) t h y m =
      y m + h * A y m + h^2/2 * A (A y) m + h^3/6 * A (A (A y)) m + h^4/24 * A (A (A (A y))) m := by
  obtain ⟨w, hw, hy⟩ := linear_step classical_order A t h y _ (C26_rk4_classical (fun _ y => A y) t h y)
  rw [hy m]
  simp only [classical, Finset.sum_range_succ, Finset.sum_range_zero, hw 0 (by norm_num), hw 1 (by norm_num),
    hw 2 (by norm_num), hw 3 (by norm_num), powA]
  norm_num [Nat.factorial]
  ring

open Polynomial in
/-- The generic solver with RKF45 or Cash-Karp integrates polynomials up to degree 5 (following the high order) exactly. -/
theorem C27_quadrature (T : Scheme) (hT : T = rkf45 ∨ T = cashkarp) (ad : Bool) (neq : Nat) (atol : K)
    (hat : atol ≤ ((1/100000 : ℚ) : K)) (P : Fin n → K[X])
    (hP : ∀ m, (P m).natDegree ≤ 5) (t h : K) (y : Fin n → K) (s0 : Nat → Fin n → K) (m : Fin n) :
    (genericStep T true ad atol neq (fun t _ m => (derivative (P m)).eval t) t h y s0).1 m =
      y m + ((P m).eval (t + h) - (P m).eval t) := by
  have hs := C27_generic_step T true ad atol neq (fun t _ m => (derivative (P m)).eval t) t h y s0
    (fun i j a b c => le_trans hat (C27_default_tolerance T (by rcases hT with rfl | rfl <;> simp) i j a b c))
  rcases hT with rfl | rfl
  · exact quadrature_exact (by norm_num) C27_rkf45_order.1 P hP t h y _ hs m
  · exact quadrature_exact (by norm_num) C27_cashkarp_order.1 P hP t h y _ hs m

/-- On linear problems the generic solver with RKF45 or Cash-Karp agrees with the exponential series up to `h⁵`. -/
theorem C27_linear (T : Scheme) (hT : T = rkf45 ∨ T = cashkarp) (ad : Bool) (neq : Nat) (atol : K)
    (hat : atol ≤ ((1/100000 : ℚ) : K)) (A : (Fin n → K) →ₗ[K] (Fin n → K)) (t h : K) (y : Fin n → K) (s0 : Nat → Fin n → K) :
    ∃ w5 : K, ∀ m, (genericStep T true ad atol neq (fun _ y => A y) t h y s0).1 m =
      y m + h * A y m + h^2/2 * A (A y) m + h^3/6 * A (A (A y)) m + h^4/24 * A (A (A (A y))) m
        + h^5/120 * A (A (A (A (A y)))) m + w5 * h^6 * A (A (A (A (A (A y))))) m := by
  have hs := C27_generic_step T true ad atol neq (fun _ y => A y) t h y s0
    (fun i j a b c => le_trans hat (C27_default_tolerance T (by rcases hT with rfl | rfl <;> simp) i j a b c))
  have ho : HasOrder (tabOf T 0) 5 := by
    rcases hT with rfl | rfl
    · exact C27_rkf45_order.1
    · exact C27_cashkarp_order.1
  have hsix : (tabOf T 0).s = 6 := by rcases hT with rfl | rfl <;> rfl
  obtain ⟨w, hw, hy⟩ := linear_step ho A t h y _ hs
  refine ⟨w 5, fun m => ?_⟩
  rw [hy m, hsix]
  simp only [Finset.sum_range_succ, Finset.sum_range_zero, hw 0 (by norm_num), hw 1 (by norm_num),
    hw 2 (by norm_num), hw 3 (by norm_num), hw 4 (by norm_num), powA]
  norm_num [Nat.factorial]
  ring

/-- Setting the absolute tolerance above a stage coefficient silently changes the method: with `atol = 1` the generic
solver's RKF34 step for `y' = y` (from 1, step 1, high-order solution) is not the RKF34 step. -/
theorem C27_large_atol_violated :
    ¬ IsStep (tabOf rkf34 0) (fun _ y => y) (0 : ℚ) 1 (fun _ : Fin 1 => 1)
      (genericStep rkf34 true false (1 : ℚ) 1 (fun _ y => y) 0 1 (fun _ => 1) (fun _ _ => 0)).1 := by
  intro hbad
  have hgood := C27_generic_step rkf34 true false (0 : ℚ) 1 (fun _ y => y) 0 1 (fun _ : Fin 1 => 1) (fun _ _ => 0)
    (fun i j _ _ _ => abs_nonneg _)
  obtain ⟨k, hk, hy⟩ := hbad
  obtain ⟨k', hk', hy'⟩ := hgood
  have huniq : ∀ i, i < 5 → k i = k' i := by
    intro i
    induction i using Nat.strongRecOn with
    | ind i ih =>
      intro hi
      rw [hk i hi, hk' i hi]
      funext m
      beta_reduce
      congr 2
      apply Finset.sum_congr rfl
      intro j hj
      rw [Finset.mem_range] at hj
      rw [ih j hj (by omega)]
      rfl
  have heq : (genericStep rkf34 true false (1 : ℚ) 1 (fun _ y => y) 0 1 (fun _ : Fin 1 => 1) (fun _ _ => 0)).1 0 =
      (genericStep rkf34 true false (0 : ℚ) 1 (fun _ y => y) 0 1 (fun _ : Fin 1 => 1) (fun _ _ => 0)).1 0 := by
    rw [hy 0, hy' 0]
    congr 2
    apply Finset.sum_congr rfl
    intro i hi
    rw [Finset.mem_range] at hi
    rw [huniq i hi]
    rfl
  revert heq
  decide +kernel

end Verif.RK
