import Verif.Solver.SplitRKProps
import Mathlib.Algebra.Polynomial.Inductions

/-! # C60: order of the split scheme -/
namespace Verif.SplitRK
open Polynomial Verif.Legendre
open Verif.RK (Rhs)
open Verif.Butcher

variable {K : Type} [Field K] [LinearOrder K] [IsStrictOrderedRing K] {n : Nat}

theorem ss_pos (s : Nat) (hs : 2 ≤ s) : (0 : K) < (s : K) * s + s - 2 := by
  have h2 : (2 : K) ≤ s := by exact_mod_cast hs
  nlinarith

theorem bb_eq_bj (s : Nat) (hs : 2 ≤ s) : (bb s : K) = bj s := by
  unfold bb
  split_ifs with h
  · have : s = 2 := by omega
    subst this; rw [bj_two]
  · rfl

/-- Values at zero of the stability polynomial and its derivatives. -/
theorem stab_coeffs (w : K) (j : Nat) : (stab w j).coeff 0 = 1 ∧ (stab w j).coeff 1 = bb j * w * (j * (j + 1) / 2) ∧
    (stab w j).coeff 2 * 2 = bb j * w ^ 2 * ((j - 1) * j * (j + 1) * (j + 2) / 8) := by
  obtain ⟨h0, h1, h2⟩ := leg_at_one (K := K) j
  refine ⟨?_, ?_, ?_⟩
  · rw [coeff_zero_eq_eval_zero]
    unfold stab
    simp only [eval_add, eval_mul, eval_C, eval_comp, eval_one, eval_X, mul_zero, add_zero, h0]
    ring
  · have : (stab w j).coeff 1 = (derivative (stab w j)).eval 0 := by
      rw [← coeff_zero_eq_eval_zero, coeff_derivative]; simp
    rw [this]
    unfold stab
    simp only [derivative_add, derivative_mul, derivative_C, derivative_comp, derivative_one, derivative_X, eval_add, eval_mul, eval_C,
      eval_comp, eval_one, eval_X, eval_zero, mul_zero, zero_mul, add_zero, zero_add, mul_one, h1]
    ring
  · have : (stab w j).coeff 2 * 2 = (derivative (derivative (stab w j))).eval 0 := by
      rw [← coeff_zero_eq_eval_zero, coeff_derivative, coeff_derivative]; norm_num
    rw [this]
    unfold stab
    simp only [derivative_add, derivative_mul, derivative_C, derivative_comp, derivative_one, derivative_X, derivative_zero, eval_add,
      eval_mul, eval_C, eval_comp, eval_one, eval_X, eval_zero, mul_zero, zero_mul, add_zero, zero_add, mul_one, h1, h2]
    ring

/-- **C60, diffusion step, linear problems.** For every number of stages and every linear right-hand side `A` the diffusion step applies
one polynomial to `dt A`; it agrees with the exponential up to second order and is a shifted Legendre polynomial. -/
theorem C60_rkl_linear (s : Nat) (hs : 2 ≤ s) : ∃ R : K[X], R.coeff 0 = 1 ∧ R.coeff 1 = 1 ∧ R.coeff 2 = 1/2 ∧
    (∀ z, R.eval z = 1 - bj s + bj s * (leg K s).eval (1 + 4 / ((s : K) * s + s - 2) * z)) ∧
    ∀ (A : (Fin n → K) →ₗ[K] (Fin n → K)) (t dt : K) (y : Fin n → K), diffusionStep s (fun _ y => A y) t dt y = aeval (dt • A) R y := by
  have hpos := ss_pos (K := K) s hs
  have h2 : (2 : K) ≤ s := by exact_mod_cast hs
  obtain ⟨c0, c1, c2⟩ := stab_coeffs (ww (K := K) s) s
  have hs0 : (s : K) ≠ 0 := by positivity
  have hs1 : (s : K) + 1 ≠ 0 := by positivity
  refine ⟨stab (ww s) s, c0, ?_, ?_, ?_, ?_⟩
  · rw [c1, bb_eq_bj s hs]
    unfold bj ww
    have := hpos.ne'
    generalize (s : K) * s + s - 2 = q at *
    field_simp
    try ring
  · have h : (stab (ww (K := K) s) s).coeff 2 * 2 = 1 := by
      rw [c2, bb_eq_bj s hs]
      unfold bj ww
      have := hpos.ne'
      rw [show ((s : K) - 1) * s * (s + 1) * (s + 2) / 8 = s * (s + 1) * ((s : K) * s + s - 2) / 8 by ring]
      generalize (s : K) * s + s - 2 = q at *
      field_simp
      ring
    linarith
  · intro z
    unfold stab
    simp only [eval_add, eval_mul, eval_C, eval_comp, eval_one, eval_X]
    rw [bb_eq_bj s hs]; rfl
  · intro A t dt y
    rw [diffusionStep_eq s hs (fun y => A y) t dt y, stages_linear A (ww s) dt y s]

/-! ## General right-hand sides: the Butcher tableau -/

/-- Rows of the tableau: stage `j` is `y + dt Σ_i row j i k_i`, with `k_i` the right-hand side at stage `i`. -/
def rowOf (w : ℚ) : Nat → Nat → ℚ
  | 0, _ => 0
  | 1, i => if i = 0 then w / 3 else 0
  | j + 2, i =>
    let mu : ℚ := (2 * (j + 2 : Nat) - 1) / (j + 2 : Nat) * bb (j + 2) / bb (j + 1)
    let nu : ℚ := -((j + 2 : Nat) - 1) / (j + 2 : Nat) * bb (j + 2) / bb j
    mu * (rowOf w (j + 1) i + w * ((if i = j + 1 then 1 else 0) - (1 - bb (j + 1)) * (if i = 0 then 1 else 0))) + nu * rowOf w j i

/-- The tableau of the diffusion step with `s` stages. -/
def rklTableau (s : Nat) : Tableau where
  s := s
  a := rowOf (ww s)
  b := rowOf (ww s) s
  c := fun i => ∑ j ∈ Finset.range s, rowOf (ww s) i j

theorem rowOf_zero (w : ℚ) (j : Nat) : ∀ i, j ≤ i → rowOf w j i = 0 := by
  induction j using Nat.strong_induction_on with
  | _ j ih =>
    intro i hi
    match j with
    | 0 => rfl
    | 1 => rw [rowOf, if_neg (by omega)]
    | j + 2 =>
      rw [rowOf]
      rw [ih (j + 1) (by omega) i (by omega), ih j (by omega) i (by omega), if_neg (by omega), if_neg (by omega)]
      ring

/-- Sum of a row against any stage quantity `c` that vanishes at stage 0 or is constant. -/
theorem row_sums (w : ℚ) (s : Nat) (j : Nat) (hj : j ≤ s) (q : Nat → ℚ) :
    (∑ i ∈ Finset.range s, rowOf w 0 i * q i = 0) ∧
    (1 ≤ s → ∑ i ∈ Finset.range s, rowOf w 1 i * q i = w / 3 * q 0) ∧
    (∀ k, k + 2 ≤ s → ∑ i ∈ Finset.range s, rowOf w (k + 2) i * q i =
      ((2 * ((k + 2 : Nat) : ℚ) - 1) / (k + 2 : Nat) * bb (k + 2) / bb (k + 1)) *
        (∑ i ∈ Finset.range s, rowOf w (k + 1) i * q i + w * (q (k + 1) - (1 - bb (k + 1)) * q 0))
      + (-(((k + 2 : Nat) : ℚ) - 1) / (k + 2 : Nat) * bb (k + 2) / bb k) * ∑ i ∈ Finset.range s, rowOf w k i * q i) := by
  refine ⟨Finset.sum_eq_zero fun i _ => by rw [rowOf, zero_mul], fun h1 => ?_, fun k hk => ?_⟩
  · rw [Finset.sum_eq_single 0]
    · rw [rowOf, if_pos rfl]
    · intro i _ h0
      rw [rowOf, if_neg h0, zero_mul]
    · intro h; exact absurd (Finset.mem_range.2 (by omega)) h
  · have hd : ∀ m, m < s → ∑ i ∈ Finset.range s, (if i = m then (1 : ℚ) else 0) * q i = q m := by
      intro m hm
      rw [Finset.sum_eq_single m]
      · rw [if_pos rfl, one_mul]
      · intro i _ h0
        rw [if_neg h0, zero_mul]
      · intro h; exact absurd (Finset.mem_range.2 hm) h
    rw [← hd (k + 1) (by omega), ← hd 0 (by omega)]
    rw [Finset.mul_sum, Finset.mul_sum, ← Finset.sum_sub_distrib, Finset.mul_sum, ← Finset.sum_add_distrib, Finset.mul_sum,
      ← Finset.sum_add_distrib]
    apply Finset.sum_congr rfl
    intro i _
    rw [rowOf]
    ring

theorem row_total (w : ℚ) (s : Nat) (j : Nat) (hj : j ≤ s) (hs : 1 ≤ s) :
    ∑ i ∈ Finset.range s, rowOf w j i = bb j * w * (j * (j + 1) / 2) := by
  have hq : ∀ j, ∑ i ∈ Finset.range s, rowOf w j i = ∑ i ∈ Finset.range s, rowOf w j i * (fun _ => (1 : ℚ)) i := fun j => by simp
  obtain ⟨r0, r1, r2⟩ := row_sums w s j hj (fun _ => 1)
  induction j using Nat.strong_induction_on with
  | _ j ih =>
    match j with
    | 0 => rw [hq, r0]; simp
    | 1 => rw [hq, r1 hs, show (bb 1 : ℚ) = 1/3 from rfl]; norm_num; ring
    | j + 2 =>
      have e1 := ih (j + 1) (by omega) (by omega)
      have e0 := ih j (by omega) (by omega)
      rw [hq] at e1 e0
      obtain ⟨hmu, hnu⟩ := bb_coeffs (K := ℚ) j
      rw [hq, r2 j hj, e1, e0]
      generalize ((2 * ((j + 2 : Nat) : ℚ) - 1) / (j + 2 : Nat) * bb (j + 2) / bb (j + 1)) = mu at *
      generalize (-(((j + 2 : Nat) : ℚ) - 1) / (j + 2 : Nat) * bb (j + 2) / bb j) = nu at *
      have h2 : ((j : ℚ) + 2) ≠ 0 := by positivity
      have : mu * (bb (j + 1) * w * (((j + 1 : Nat) : ℚ) * ((j + 1 : Nat) + 1) / 2) + w * (1 - (1 - bb (j + 1)) * 1)) +
          nu * (bb j * w * (j * (j + 1) / 2)) = (mu * bb (j + 1)) * (w * (((j : ℚ) + 1) * (j + 2) / 2 + 1)) + (nu * bb j) * (w * (j * (j + 1) / 2)) := by
        push_cast; ring
      rw [this, hmu, hnu]
      push_cast
      field_simp
      ring

theorem row_moment (w : ℚ) (s : Nat) (j : Nat) (hj : j ≤ s) (hs : 1 ≤ s) :
    ∑ i ∈ Finset.range s, rowOf w j i * (bb i * w * (i * (i + 1) / 2)) = bb j * w ^ 2 * ((j - 1) * j * (j + 1) * (j + 2) / 16) := by
  obtain ⟨r0, r1, r2⟩ := row_sums w s j hj (fun i => bb i * w * (i * (i + 1) / 2))
  induction j using Nat.strong_induction_on with
  | _ j ih =>
    match j with
    | 0 => rw [r0]; simp
    | 1 => rw [r1 hs]; simp
    | j + 2 =>
      have e1 := ih (j + 1) (by omega) (by omega)
      have e0 := ih j (by omega) (by omega)
      obtain ⟨hmu, hnu⟩ := bb_coeffs (K := ℚ) j
      rw [r2 j hj, e1, e0]
      generalize ((2 * ((j + 2 : Nat) : ℚ) - 1) / (j + 2 : Nat) * bb (j + 2) / bb (j + 1)) = mu at *
      generalize (-(((j + 2 : Nat) : ℚ) - 1) / (j + 2 : Nat) * bb (j + 2) / bb j) = nu at *
      have h2 : ((j : ℚ) + 2) ≠ 0 := by positivity
      have : ∀ b0 : ℚ, mu * (bb (j + 1) * w ^ 2 * ((((j + 1 : Nat) : ℚ) - 1) * (j + 1 : Nat) * ((j + 1 : Nat) + 1) * ((j + 1 : Nat) + 2) / 16) +
            w * (bb (j + 1) * w * (((j + 1 : Nat) : ℚ) * ((j + 1 : Nat) + 1) / 2) - (1 - bb (j + 1)) * (b0 * w * (((0 : Nat) : ℚ) * ((0 : Nat) + 1) / 2)))) +
          nu * (bb j * w ^ 2 * (((j : ℚ) - 1) * j * (j + 1) * (j + 2) / 16)) =
          (mu * bb (j + 1)) * (w ^ 2 * ((j : ℚ) * (j + 1) * (j + 2) * (j + 3) / 16 + (j + 1) * (j + 2) / 2)) +
            (nu * bb j) * (w ^ 2 * (((j : ℚ) - 1) * j * (j + 1) * (j + 2) / 16)) := by
        intro b0; push_cast; ring
      rw [this, hmu, hnu]
      push_cast
      field_simp
      ring

/-- **C60, diffusion step, order.** For every number of stages (at least two) the tableau satisfies Butcher's conditions of order two. -/
theorem C60_rkl_order (s : Nat) (hs : 2 ≤ s) : HasOrder (rklTableau s) 2 := by
  have hpos := (ss_pos (K := ℚ) s hs).ne'
  have h2 : (2 : ℚ) ≤ s := by exact_mod_cast hs
  have hs0 : (s : ℚ) ≠ 0 := by positivity
  have hs1 : (s : ℚ) + 1 ≠ 0 := by positivity
  have hb : ∑ i ∈ Finset.range s, rowOf (ww s) s i = 1 := by
    rw [row_total _ s s (le_refl _) (by omega), bb_eq_bj s hs]
    unfold bj ww
    generalize (s : ℚ) * s + s - 2 = q at *
    field_simp
    try ring
  have hbc : ∑ i ∈ Finset.range s, rowOf (ww s) s i * ∑ j ∈ Finset.range s, rowOf (ww s) i j = 1/2 := by
    rw [Finset.sum_congr rfl (fun i hi => by rw [row_total _ s i (by have := Finset.mem_range.1 hi; omega) (by omega)])]
    rw [row_moment _ s s (le_refl _) (by omega), bb_eq_bj s hs]
    unfold bj ww
    rw [show ((s : ℚ) - 1) * s * (s + 1) * (s + 2) / 16 = s * (s + 1) * ((s : ℚ) * s + s - 2) / 16 by ring]
    generalize (s : ℚ) * s + s - 2 = q at *
    field_simp
    ring
  refine ⟨fun i j _ _ h => rowOf_zero _ i j h, fun i _ => rfl, fun t ht => ?_⟩
  match t with
  | .leaf =>
    show ∑ i ∈ Finset.range s, rowOf (ww s) s i * 1 = 1 / 1
    simp only [mul_one]
    rw [hb]; norm_num
  | .graft .leaf .leaf =>
    show ∑ i ∈ Finset.range s, rowOf (ww s) s i * (1 * ∑ j ∈ Finset.range s, rowOf (ww s) i j * 1) = 1 / (1 * 1 * ((1 : Nat) + (1 : Nat)) / (1 : Nat))
    simp only [mul_one, one_mul]
    rw [hbc]; norm_num
  | .graft (.graft a b) u =>
    exfalso
    have ha : 1 ≤ a.size := by cases a <;> simp [Tree.size]; rename_i x y; have : 1 ≤ x.size := by { induction x <;> simp_all [Tree.size]; omega }; omega
    have hb' : 1 ≤ b.size := by cases b <;> simp [Tree.size]; rename_i x y; have : 1 ≤ x.size := by { induction x <;> simp_all [Tree.size]; omega }; omega
    have hu : 1 ≤ u.size := by cases u <;> simp [Tree.size]; rename_i x y; have : 1 ≤ x.size := by { induction x <;> simp_all [Tree.size]; omega }; omega
    simp only [Tree.size] at ht
    omega
  | .graft .leaf (.graft a b) =>
    exfalso
    have ha : 1 ≤ a.size := by cases a <;> simp [Tree.size]; rename_i x y; have : 1 ≤ x.size := by { induction x <;> simp_all [Tree.size]; omega }; omega
    have hb' : 1 ≤ b.size := by cases b <;> simp [Tree.size]; rename_i x y; have : 1 ≤ x.size := by { induction x <;> simp_all [Tree.size]; omega }; omega
    simp only [Tree.size] at ht
    omega

/-- The stages of the code are those of the tableau. -/
theorem stages_row (D : (Fin n → K) → (Fin n → K)) (w : ℚ) (dt : K) (y : Fin n → K) (j : Nat) :
    stages D (dt * (w : K)) y j = fun m => y m + dt * ∑ i ∈ Finset.range j, (rowOf w j i : K) * D (stages D (dt * (w : K)) y i) m := by
  induction j using Nat.strong_induction_on with
  | _ j ih =>
    match j with
    | 0 => funext m; simp [stages]
    | 1 =>
      funext m
      rw [Finset.sum_range_one, rowOf, if_pos rfl]
      simp only [stages]
      push_cast; ring
    | j + 2 =>
      have e1 := ih (j + 1) (by omega)
      have e0 := ih j (by omega)
      have hbq : ∀ k, ((bb k : ℚ) : K) = bb k := by
        intro k
        unfold bb
        split_ifs
        · norm_num
        · unfold bj; push_cast; ring
      generalize hS : stages D (dt * (w : K)) y = S at *
      have hst : S (j + 2) = fun m =>
          ((2 * ((j + 2 : Nat) : K) - 1) / (j + 2 : Nat) * bb (j + 2) / bb (j + 1)) *
            (S (j + 1) m + dt * w * (D (S (j + 1)) m - (1 - bb (j + 1)) * D (S 0) m))
          + (-(((j + 2 : Nat) : K) - 1) / (j + 2 : Nat) * bb (j + 2) / bb j) * S j m
          + (1 - ((2 * ((j + 2 : Nat) : K) - 1) / (j + 2 : Nat) * bb (j + 2) / bb (j + 1)) - (-(((j + 2 : Nat) : K) - 1) / (j + 2 : Nat) * bb (j + 2) / bb j)) * y m := by
        rw [← hS]; rfl
      funext m
      rw [hst]
      dsimp only
      have hd : ∀ (q : Nat → K) (l : Nat), l < j + 2 → ∑ i ∈ Finset.range (j + 2), (if i = l then (1 : K) else 0) * q i = q l := by
        intro q l hl
        rw [Finset.sum_eq_single l]
        · rw [if_pos rfl, one_mul]
        · intro i _ h0
          rw [if_neg h0, zero_mul]
        · intro h; exact absurd (Finset.mem_range.2 hl) h
      have hext : ∀ l, l ≤ j + 1 → ∑ i ∈ Finset.range l, (rowOf w l i : K) * D (S i) m = ∑ i ∈ Finset.range (j + 2), (rowOf w l i : K) * D (S i) m := by
        intro l hl
        apply Finset.sum_subset (Finset.range_subset_range.2 (by omega))
        intro i _ hi
        rw [rowOf_zero w l i (by by_contra hc; exact hi (Finset.mem_range.2 (by omega)))]
        simp
      have x1 := congrFun e1 m
      have x0 := congrFun e0 m
      rw [hext (j + 1) (by omega)] at x1
      rw [hext j (by omega)] at x0
      rw [x1, x0, ← hd (fun i => D (S i) m) (j + 1) (by omega), ← hd (fun i => D (S i) m) 0 (by omega)]
      have hrow : ∀ i, (rowOf w (j + 2) i : K) = ((2 * ((j + 2 : Nat) : K) - 1) / (j + 2 : Nat) * bb (j + 2) / bb (j + 1)) *
          ((rowOf w (j + 1) i : K) + w * ((if i = j + 1 then 1 else 0) - (1 - bb (j + 1)) * (if i = 0 then 1 else 0)))
          + (-(((j + 2 : Nat) : K) - 1) / (j + 2 : Nat) * bb (j + 2) / bb j) * (rowOf w j i : K) := by
        intro i
        rw [rowOf]
        push_cast
        rw [hbq, hbq, hbq]
        split_ifs <;> push_cast <;> ring
      simp only [hrow]
      generalize ((2 * ((j + 2 : Nat) : K) - 1) / (j + 2 : Nat) * bb (j + 2) / bb (j + 1)) = mu at *
      generalize (-(((j + 2 : Nat) : K) - 1) / (j + 2 : Nat) * bb (j + 2) / bb j) = nu at *
      have hsplit : ∑ i ∈ Finset.range (j + 2), (mu * ((rowOf w (j + 1) i : K) + w * ((if i = j + 1 then 1 else 0) - (1 - bb (j + 1)) * (if i = 0 then 1 else 0)))
          + nu * (rowOf w j i : K)) * D (S i) m =
          mu * (∑ i ∈ Finset.range (j + 2), (rowOf w (j + 1) i : K) * D (S i) m + w * (∑ i ∈ Finset.range (j + 2), (if i = j + 1 then (1 : K) else 0) * D (S i) m
            - (1 - bb (j + 1)) * ∑ i ∈ Finset.range (j + 2), (if i = 0 then (1 : K) else 0) * D (S i) m)) +
          nu * ∑ i ∈ Finset.range (j + 2), (rowOf w j i : K) * D (S i) m := by
        rw [Finset.mul_sum (f := fun i => (if i = 0 then (1 : K) else 0) * D (S i) m), ← Finset.sum_sub_distrib, Finset.mul_sum (a := (w : K)),
          ← Finset.sum_add_distrib, Finset.mul_sum (a := mu), Finset.mul_sum (a := nu), ← Finset.sum_add_distrib]
        apply Finset.sum_congr rfl
        intro i _
        ring
      rw [hsplit]
      ring

/-- **C60, diffusion step.** For every right-hand side that does not depend on time the diffusion step is a step of the tableau, hence of
second order. -/
theorem C60_rkl_step (s : Nat) (hs : 2 ≤ s) (D : (Fin n → K) → (Fin n → K)) (t dt : K) (y : Fin n → K) :
    IsStep (rklTableau s) (fun _ => D) t dt y (diffusionStep s (fun _ => D) t dt y) := by
  rw [diffusionStep_eq s hs D t dt y]
  have hw : ((ww s : ℚ) : K) = ww s := by unfold ww; push_cast; rfl
  have h := stages_row D (ww s) dt y
  rw [hw] at h
  refine ⟨fun i => D (stages D (dt * ww s) y i), fun i _ => ?_, fun m => ?_⟩
  · show _ = D (fun m => y m + dt * ∑ j ∈ Finset.range i, (rowOf (ww s) i j : K) * _)
    rw [← h i]
  · exact congrFun (h s) m

end Verif.SplitRK
