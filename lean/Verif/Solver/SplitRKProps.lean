import Verif.Solver.SplitRK
import Verif.Solver.RKProps
import Verif.Solver.Legendre
import Mathlib.Algebra.Polynomial.AlgebraMap
import Mathlib.Tactic.Module

/-! # C60: the stages of the split Runge-Kutta-Legendre solver -/
namespace Verif.SplitRK
open Polynomial Verif.Legendre
open Verif.RK (Rhs)
open Verif.Butcher

variable {K : Type} [Field K] [LinearOrder K] [IsStrictOrderedRing K] {n : Nat}

/-- Coefficients `b_j` of the scheme, with `b_0 = b_1 = b_2 = 1/3`. -/
def bb (j : Nat) : K := if j ≤ 2 then 1/3 else bj j

theorem bj_two : (bj 2 : K) = 1/3 := by unfold bj; norm_num

theorem bb_pos (j : Nat) : (0 : K) < bb j := by
  unfold bb
  split_ifs with h
  · norm_num
  · unfold bj
    have h3 : (3 : K) ≤ j := by exact_mod_cast (by omega : 3 ≤ j)
    apply div_pos
    · nlinarith
    · positivity

/-- `4/(s²+s-2)`. -/
def ww (s : Nat) : K := 4 / ((s : K) * s + s - 2)

/-- The stages as the textbook recurrence: `Y_0`, `Y_1`, and then the three-term recurrence. -/
def stages (D : (Fin n → K) → (Fin n → K)) (w : K) (y : Fin n → K) : Nat → Fin n → K
  | 0 => y
  | 1 => fun i => y i + w / 3 * D y i
  | j + 2 =>
    let mu : K := (2 * (j + 2 : Nat) - 1) / (j + 2 : Nat) * bb (j + 2) / bb (j + 1)
    let nu : K := -((j + 2 : Nat) - 1) / (j + 2 : Nat) * bb (j + 2) / bb j
    fun i => mu * (stages D w y (j + 1) i + w * (D (stages D w y (j + 1)) i - (1 - bb (j + 1)) * D y i)) + nu * stages D w y j i
      + (1 - mu - nu) * y i

/-- The code computes these stages, for right-hand sides that do not depend on time. -/
theorem diffusionStep_eq (s : Nat) (hs : 2 ≤ s) (D : (Fin n → K) → (Fin n → K)) (t dt : K) (y : Fin n → K) :
    diffusionStep s (fun _ => D) t dt y = stages D (dt * ww s) y s := by
  obtain ⟨m, rfl⟩ : ∃ m, s = m + 2 := ⟨s - 2, by omega⟩
  unfold diffusionStep
  dsimp only
  rw [show dt * 4 / (((m + 2 : Nat) : K) * (m + 2 : Nat) + (m + 2 : Nat) - 2) = dt * ww (m + 2) by unfold ww; rw [mul_div_assoc]]
  generalize dt * ww (m + 2) = w
  have key : ∀ k, ∃ u3, ((List.range k).map (· + 3)).foldl (stage (fun _ => D) t w y (D y))
      { u1 := stages D w y 2, u2 := stages D w y 1, u3 := D (stages D w y 1), b_jm1 := 1/3, b_jm2 := 1/3 } =
      { u1 := stages D w y (k + 2), u2 := stages D w y (k + 1), u3 := u3, b_jm1 := bb (k + 2), b_jm2 := bb (k + 1) } := by
    intro k
    induction k with
    | zero => exact ⟨_, rfl⟩
    | succ k ih =>
      obtain ⟨u3, h⟩ := ih
      rw [List.range_succ, List.map_append, List.foldl_append, h]
      refine ⟨stages D w y (k + 1), ?_⟩
      show stage (fun _ => D) t w y (D y) _ (k + 3) = _
      unfold stage
      have hb : (bj (k + 3) : K) = bb (k + 3) := by unfold bb; rw [if_neg (by omega)]
      rw [hb]
      rfl
  have h2 : (fun i => 3/2 * ((y i + w / 3 * D y i) + w * D (fun i => y i + w / 3 * D y i) i) - 1/2 * y i - w * D y i) = stages D w y 2 := by
    funext i
    have h1 : (fun i => y i + w / 3 * D y i) = stages D w y 1 := rfl
    rw [h1]
    show _ = ((2 * ((0 + 2 : Nat) : K) - 1) / (0 + 2 : Nat) * bb (0 + 2) / bb (0 + 1)) * (stages D w y 1 i + w * (D (stages D w y 1) i - (1 - bb (0 + 1)) * D y i))
      + (-(((0 + 2 : Nat) : K) - 1) / (0 + 2 : Nat) * bb (0 + 2) / bb 0) * stages D w y 0 i
      + (1 - _ - _) * y i
    rw [show (bb (0 + 2) : K) = 1/3 from rfl, show (bb (0 + 1) : K) = 1/3 from rfl, show (bb 0 : K) = 1/3 from rfl]
    rw [show stages D w y 0 i = y i from rfl, show stages D w y 1 i = y i + w / 3 * D y i from rfl]
    push_cast
    ring
  rw [h2]
  have h1 : (fun i => y i + w / 3 * D y i) = stages D w y 1 := rfl
  rw [h1]
  obtain ⟨u3, h⟩ := key m
  rw [show m + 2 - 2 = m from rfl, h]

/-! ## Linear problems -/

/-- The stability polynomial of stage `j` of the scheme with `s` stages. -/
noncomputable def stab (w : K) (j : Nat) : K[X] := C (1 - bb j) + C (bb j) * (leg K j).comp (1 + C w * X)

theorem bb_coeffs (j : Nat) :
    ((2 * ((j + 2 : Nat) : K) - 1) / (j + 2 : Nat) * bb (j + 2) / bb (j + 1)) * bb (j + 1) = (2 * j + 3) / (j + 2) * bb (j + 2) ∧
    (-(((j + 2 : Nat) : K) - 1) / (j + 2 : Nat) * bb (j + 2) / bb j) * bb j = -((j + 1) / (j + 2)) * bb (j + 2) := by
  have h0 := (bb_pos (K := K) j).ne'
  have h1 := (bb_pos (K := K) (j + 1)).ne'
  have h2 : ((j : K) + 2) ≠ 0 := by positivity
  push_cast
  constructor
  · rw [div_mul_cancel₀ _ h1]; ring
  · rw [div_mul_cancel₀ _ h0]; ring

theorem stab_rec (w : K) (j : Nat) (mu nu : K) (hmu : mu * bb (j + 1) = (2 * j + 3) / (j + 2) * bb (j + 2))
    (hnu : nu * bb j = -((j + 1) / (j + 2)) * bb (j + 2)) :
    stab w (j + 2) = C mu * (stab w (j + 1) + C w * X * (stab w (j + 1) - C (1 - bb (j + 1)))) + C nu * stab w j + C (1 - mu - nu) := by
  have hmu' : C mu * C (bb (j + 1)) = (C ((2 * j + 3) / (j + 2) : K) * C (bb (j + 2)) : K[X]) := by rw [← C_mul, hmu, C_mul]
  have hnu' : C nu * C (bb j) = (-C ((j + 1) / (j + 2) : K) * C (bb (j + 2)) : K[X]) := by rw [← C_mul, hnu, C_mul, C_neg]
  have hsum : C ((2 * j + 3) / (j + 2) : K) - C ((j + 1) / (j + 2) : K) = 1 := by
    have h2 : ((j : K) + 2) ≠ 0 := by positivity
    rw [← C_sub, ← C_1]
    congr 1
    field_simp
    ring
  unfold stab
  rw [leg]
  simp only [sub_comp, mul_comp, C_comp, X_comp, C_sub, C_1]
  generalize (leg K (j + 1)).comp (1 + C w * X) = P1
  generalize (leg K j).comp (1 + C w * X) = P0
  linear_combination (1 - P1 * (1 + C w * X)) * hmu' + (1 - P0) * hnu' + C (bb (j + 2)) * hsum

/-- **C60, linear problems.** On `y' = A y` the stages are polynomials in `A`: stage `j` is `1 - b_j + b_j P_j(1 + w dt A)` with the
Legendre polynomial `P_j`. -/
theorem stages_linear (A : (Fin n → K) →ₗ[K] (Fin n → K)) (w dt : K) (y : Fin n → K) (j : Nat) :
    stages (fun y => A y) (dt * w) y j = aeval (dt • A) (stab w j) y := by
  induction j using Nat.strong_induction_on with
  | _ j ih =>
    match j with
    | 0 =>
      have : stab w 0 = (1 : K[X]) := by
        unfold stab
        rw [leg, one_comp, mul_one, ← C_add]; simp
      rw [this, map_one]; rfl
    | 1 =>
      have : stab w 1 = (1 + C (w / 3) * X : K[X]) := by
        unfold stab
        rw [leg, X_comp, show (bb 1 : K) = 1/3 from rfl]
        rw [show (w / 3 : K) = 1/3 * w by ring, C_mul, C_sub, C_1]
        ring
      rw [this]
      funext i
      simp only [stages, map_add, map_one, map_mul, aeval_C, aeval_X, LinearMap.add_apply, Module.End.mul_apply, Module.End.one_apply,
        Module.algebraMap_end_apply, LinearMap.smul_apply, Pi.add_apply, Pi.smul_apply, smul_eq_mul]
      ring
    | j + 2 =>
      obtain ⟨hmu, hnu⟩ := bb_coeffs (K := K) j
      rw [stab_rec w j _ _ hmu hnu]
      have e1 := ih (j + 1) (by omega)
      have e0 := ih j (by omega)
      have hst : stages (fun y => A y) (dt * w) y (j + 2) = fun i =>
          ((2 * ((j + 2 : Nat) : K) - 1) / (j + 2 : Nat) * bb (j + 2) / bb (j + 1)) *
            (stages (fun y => A y) (dt * w) y (j + 1) i + dt * w * (A (stages (fun y => A y) (dt * w) y (j + 1)) i - (1 - bb (j + 1)) * A y i))
          + (-(((j + 2 : Nat) : K) - 1) / (j + 2 : Nat) * bb (j + 2) / bb j) * stages (fun y => A y) (dt * w) y j i
          + (1 - ((2 * ((j + 2 : Nat) : K) - 1) / (j + 2 : Nat) * bb (j + 2) / bb (j + 1)) - (-(((j + 2 : Nat) : K) - 1) / (j + 2 : Nat) * bb (j + 2) / bb j)) * y i := rfl
      rw [hst, e1, e0]
      generalize ((2 * ((j + 2 : Nat) : K) - 1) / (j + 2 : Nat) * bb (j + 2) / bb (j + 1)) = mu
      generalize (-(((j + 2 : Nat) : K) - 1) / (j + 2 : Nat) * bb (j + 2) / bb j) = nu
      funext i
      simp only [map_add, map_sub, map_one, map_mul, aeval_C, aeval_X, LinearMap.add_apply, LinearMap.sub_apply, Module.End.mul_apply,
        Module.End.one_apply, Module.algebraMap_end_apply, LinearMap.smul_apply, map_smul, Pi.add_apply, Pi.sub_apply, Pi.smul_apply, smul_eq_mul]
      ring

end Verif.SplitRK
