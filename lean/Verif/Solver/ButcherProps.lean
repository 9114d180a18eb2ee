import Verif.Solver.Butcher
import Verif.Solver.RK
import Mathlib.Algebra.Polynomial.Taylor
import Mathlib.Algebra.Polynomial.Derivative
import Mathlib.Tactic.Ring
import Mathlib.Tactic.FieldSimp
import Mathlib.Tactic.Linarith
import Mathlib.Tactic.NormNum
import Mathlib.Tactic.Positivity
import Mathlib.Data.Nat.Factorial.Basic
import Mathlib.Algebra.Module.Pi

namespace Verif.Butcher
open Finset

/-! ## Enumerating the trees -/

theorem Tree.size_pos (t : Tree) : 0 < t.size := by
  induction t with
  | leaf => simp [Tree.size]
  | graft t u h1 h2 => simp only [Tree.size]; omega

/-- All trees with at most `p` nodes occur in `upTo p p`. -/
def upTo (p : Nat) : Nat → List Tree
  | 0 => []
  | n + 1 => .leaf :: ((upTo p n).flatMap (fun t => (upTo p n).map (fun u => .graft t u))).filter (fun t => decide (t.size ≤ p))

theorem mem_upTo (p : Nat) : ∀ (n : Nat) (t : Tree), t.size ≤ n → t.size ≤ p → t ∈ upTo p n := by
  intro n
  induction n with
  | zero => intro t h _; have := t.size_pos; omega
  | succ n ih =>
    intro t h hp
    cases t with
    | leaf => simp [upTo]
    | graft t u =>
      have h1 := t.size_pos
      have h2 := u.size_pos
      simp only [Tree.size] at h hp
      simp only [upTo, List.mem_cons, reduceCtorEq, false_or, List.mem_filter, List.mem_flatMap, List.mem_map]
      refine ⟨⟨t, ih t (by omega) (by omega), u, ih u (by omega) (by omega), rfl⟩, ?_⟩
      simp only [Tree.size]; exact decide_eq_true hp

/-- Executable check of the order conditions. -/
def check (T : Tableau) (p : Nat) : Bool :=
  ((List.range T.s).all fun i => (List.range T.s).all fun j => decide (i ≤ j → T.a i j = 0)) &&
  ((List.range T.s).all fun i => decide (T.c i = ((List.range T.s).map (T.a i)).sum)) &&
  ((upTo p p).all fun t => decide (((List.range T.s).map (fun i => T.b i * t.stageWeight T i)).sum = 1 / t.density))

theorem sum_range_list (s : Nat) (f : Nat → ℚ) : ((List.range s).map f).sum = ∑ i ∈ range s, f i := by
  rw [Finset.sum_range]
  rw [← List.sum_ofFn]
  congr 1
  apply List.ext_getElem <;> simp

theorem hasOrder_of_check (T : Tableau) (p : Nat) (h : check T p = true) : HasOrder T p := by
  simp only [check, Bool.and_eq_true, List.all_eq_true, List.mem_range, decide_eq_true_eq, sum_range_list] at h
  obtain ⟨⟨h1, h2⟩, h3⟩ := h
  exact ⟨fun i j hi hj hij => h1 i hi j hj hij, h2, fun t ht => h3 t (mem_upTo p p t ht ht)⟩


/-! ## What order buys: quadratures and linear problems -/

/-- `graft leaf` repeated: the tree with one branch and `k+1` nodes. -/
def tall : Nat → Tree
  | 0 => .leaf
  | k + 1 => .graft .leaf (tall k)

/-- The tree with `k` leaves on one root. -/
def bushy : Nat → Tree
  | 0 => .leaf
  | k + 1 => .graft (bushy k) .leaf

theorem tall_size (k : Nat) : (tall k).size = k + 1 := by
  induction k with
  | zero => rfl
  | succ k ih => simp only [tall, Tree.size, ih]; omega

theorem bushy_size (k : Nat) : (bushy k).size = k + 1 := by
  induction k with
  | zero => rfl
  | succ k ih => simp only [bushy, Tree.size, ih]

theorem tall_density (k : Nat) : (tall k).density = ((k + 1).factorial : ℚ) := by
  induction k with
  | zero => simp [tall, Tree.density]
  | succ k ih =>
    simp only [tall, Tree.density, ih, Tree.size, tall_size]
    rw [Nat.factorial_succ (k + 1)]
    push_cast; ring

theorem bushy_density (k : Nat) : (bushy k).density = (k : ℚ) + 1 := by
  induction k with
  | zero => simp [bushy, Tree.density]
  | succ k ih =>
    simp only [bushy, Tree.density, ih, Tree.size, bushy_size]
    have : ((k : ℚ) + 1) ≠ 0 := by positivity
    push_cast
    field_simp

theorem bushy_weight {T : Tableau} {p : Nat} (h : HasOrder T p) (k i : Nat) (hi : i < T.s) :
    (bushy k).stageWeight T i = T.c i ^ k := by
  induction k with
  | zero => simp [bushy, Tree.stageWeight]
  | succ k ih =>
    simp only [bushy, Tree.stageWeight, ih, mul_one]
    rw [← h.rowSum i hi, pow_succ]

/-- The quadrature conditions. -/
theorem quad_conditions {T : Tableau} {p : Nat} (h : HasOrder T p) (k : Nat) (hk : k < p) :
    ∑ i ∈ range T.s, T.b i * T.c i ^ k = 1 / ((k : ℚ) + 1) := by
  have := h.trees (bushy k) (by rw [bushy_size]; omega)
  rw [bushy_density] at this
  rw [← this]
  apply Finset.sum_congr rfl
  intro i hi
  rw [bushy_weight h k i (Finset.mem_range.mp hi)]

variable {K : Type} [Field K] [CharZero K] {n : Nat}

open Polynomial in
theorem quad_zero {T : Tableau} {p : Nat} (hp : 0 < p) (h : HasOrder T p) (Q : K[X]) (hQ : Q.natDegree ≤ p) (hh : K) :
    hh * ∑ i ∈ range T.s, (T.b i : K) * (derivative Q).eval ((T.c i : K) * hh) = Q.eval hh - Q.eval 0 := by
  have hd : ∀ x : K, (derivative Q).eval x = ∑ k ∈ range p, Q.coeff (k + 1) * (k + 1) * x ^ k := by
    intro x
    rw [eval_eq_sum_range' (n := p)]
    · simp only [coeff_derivative]
    · have := natDegree_derivative_le Q; omega
  have hq : Q.eval hh - Q.eval 0 = ∑ k ∈ range p, Q.coeff (k + 1) * hh ^ (k + 1) := by
    rw [eval_eq_sum_range' (n := p + 1) (by omega), Finset.sum_range_succ', ← coeff_zero_eq_eval_zero]
    simp
  rw [hq]
  simp only [hd]
  have hsum : ∀ k ∈ range p, ∑ i ∈ range T.s, (T.b i : K) * (T.c i : K) ^ k = 1 / ((k : K) + 1) := by
    intro k hk
    have := quad_conditions h k (Finset.mem_range.mp hk)
    have h2 := congrArg (fun q : ℚ => (q : K)) this
    push_cast at h2
    exact h2
  simp only [Finset.mul_sum]
  rw [Finset.sum_comm]
  apply Finset.sum_congr rfl
  intro k hk
  have h1 := hsum k hk
  have hk0 : ((k : K) + 1) ≠ 0 := by exact_mod_cast Nat.succ_ne_zero k
  have : ∀ i ∈ range T.s, hh * ((T.b i : K) * (Q.coeff (k + 1) * (k + 1) * ((T.c i : K) * hh) ^ k)) =
      (Q.coeff (k + 1) * (k + 1) * hh ^ (k + 1)) * ((T.b i : K) * (T.c i : K) ^ k) := by
    intro i _; rw [mul_pow]; ring
  rw [Finset.sum_congr rfl this, ← Finset.mul_sum, h1]
  field_simp

open Polynomial in
/-- A method of order `p` integrates `y' = P'(t)` exactly when the polynomials `P` have degree at most `p`. -/
theorem quadrature_exact {T : Tableau} {p : Nat} (hp : 0 < p) (h : HasOrder T p) (P : Fin n → K[X])
    (hP : ∀ m, (P m).natDegree ≤ p) (t hh : K) (y y' : Fin n → K)
    (hs : IsStep T (fun t _ m => (derivative (P m)).eval t) t hh y y') (m : Fin n) :
    y' m = y m + ((P m).eval (t + hh) - (P m).eval t) := by
  obtain ⟨k, hk, hy⟩ := hs
  rw [hy m]
  congr 1
  have hq := quad_zero hp h (taylor t (P m)) (by rw [natDegree_taylor]; exact hP m) hh
  rw [taylor_eval, taylor_eval, zero_add, add_comm hh t] at hq
  rw [← hq]
  congr 1
  apply Finset.sum_congr rfl
  intro i hi
  rw [hk i (Finset.mem_range.mp hi)]
  congr 1
  rw [taylor_apply, derivative_comp]
  simp [eval_comp, add_comm]

/-- Stage weights of the tall tree vanish beyond the stage number. -/
theorem tall_weight_zero {T : Tableau} {p : Nat} (h : HasOrder T p) : ∀ (k i : Nat), i < T.s → i < k →
    (tall k).stageWeight T i = 0 := by
  intro k
  induction k with
  | zero => intro i _ h; omega
  | succ k ih =>
    intro i hi hik
    simp only [tall, Tree.stageWeight, one_mul]
    apply Finset.sum_eq_zero
    intro j hj
    rw [Finset.mem_range] at hj
    by_cases hij : i ≤ j
    · rw [h.explicit i j hi hj hij, zero_mul]
    · rw [ih j hj (by omega), mul_zero]

/-- `A` applied `k` times. -/
def powA (A : (Fin n → K) →ₗ[K] (Fin n → K)) : Nat → (Fin n → K) → (Fin n → K)
  | 0, y => y
  | k + 1, y => A (powA A k y)

/-- On a linear problem `y' = A y` a method of order `p` with `s` stages gives the first `p` terms of the exponential
series plus terms of order above `p`. -/
theorem linear_step {T : Tableau} {p : Nat} (h : HasOrder T p) (A : (Fin n → K) →ₗ[K] (Fin n → K)) (t hh : K)
    (y y' : Fin n → K) (hs : IsStep T (fun _ y => A y) t hh y y') :
    ∃ w : Nat → K, (∀ k, k < p → w k = 1 / ((k + 1).factorial : K)) ∧
      ∀ m, y' m = y m + ∑ k ∈ range T.s, w k * hh ^ (k + 1) * powA A (k + 1) y m := by
  obtain ⟨k, hk, hy⟩ := hs
  have hstage : ∀ i, i < T.s → k i = ∑ q ∈ range T.s, ((((tall q).stageWeight T i : ℚ) : K) * hh ^ q) • powA A (q + 1) y := by
    intro i
    induction i using Nat.strongRecOn with
    | ind i ih =>
      intro hi
      rw [hk i hi]
      have hin : (fun m => y m + hh * ∑ j ∈ range i, (T.a i j : K) * k j m) =
          y + ∑ j ∈ range i, (hh * (T.a i j : K)) • k j := by
        funext m
        simp only [Pi.add_apply, Finset.sum_apply, Pi.smul_apply, smul_eq_mul, Finset.mul_sum, mul_assoc]
      simp only [hin, map_add, map_sum, map_smul]
      have hAk : ∀ j ∈ range i, (hh * (T.a i j : K)) • A (k j) =
          ∑ q ∈ range T.s, ((T.a i j : K) * (((tall q).stageWeight T j : ℚ) : K) * hh ^ (q + 1)) • powA A (q + 2) y := by
        intro j hj
        rw [Finset.mem_range] at hj
        rw [ih j hj (by omega), map_sum, Finset.smul_sum]
        apply Finset.sum_congr rfl
        intro q _
        rw [map_smul, smul_smul]
        congr 1
        rw [pow_succ]; ring
      rw [Finset.sum_congr rfl hAk, Finset.sum_comm]
      -- right-hand side: split off q = 0
      obtain ⟨s', hs'⟩ : ∃ s', T.s = s' + 1 := ⟨T.s - 1, by omega⟩
      have hR : ∑ q ∈ range T.s, ((((tall q).stageWeight T i : ℚ) : K) * hh ^ q) • powA A (q + 1) y =
          A y + ∑ q ∈ range s', ((((tall (q + 1)).stageWeight T i : ℚ) : K) * hh ^ (q + 1)) • powA A (q + 2) y := by
        rw [hs', Finset.sum_range_succ', add_comm]
        simp [tall, Tree.stageWeight, powA]
      have hL : ∀ q, ∑ j ∈ range i, ((T.a i j : K) * (((tall q).stageWeight T j : ℚ) : K) * hh ^ (q + 1)) • powA A (q + 2) y =
          ((((tall (q + 1)).stageWeight T i : ℚ) : K) * hh ^ (q + 1)) • powA A (q + 2) y := by
        intro q
        rw [← Finset.sum_smul, ← Finset.sum_mul]
        congr 2
        simp only [tall, Tree.stageWeight, one_mul]
        push_cast
        apply Finset.sum_subset
        · intro j hj; rw [Finset.mem_range] at hj ⊢; omega
        · intro j hj hj'
          rw [Finset.mem_range] at hj hj'
          rw [h.explicit i j hi hj (by omega)]; simp
      rw [hR, Finset.sum_congr rfl (fun q _ => hL q), hs', Finset.sum_range_succ]
      have hz : (tall (s' + 1)).stageWeight T i = 0 := tall_weight_zero h (s' + 1) i hi (by omega)
      rw [hz]
      simp
  refine ⟨fun q => ((∑ i ∈ range T.s, T.b i * (tall q).stageWeight T i : ℚ) : K), ?_, ?_⟩
  · intro q hq
    have := h.trees (tall q) (by rw [tall_size]; omega)
    simp only [this, tall_density]
    push_cast; rfl
  · intro m
    rw [hy m]
    congr 1
    have : ∀ i ∈ range T.s, (T.b i : K) * k i m =
        ∑ q ∈ range T.s, (T.b i : K) * ((((tall q).stageWeight T i : ℚ) : K) * hh ^ q * powA A (q + 1) y m) := by
      intro i hi
      rw [hstage i (Finset.mem_range.mp hi)]
      simp only [Finset.sum_apply, Pi.smul_apply, smul_eq_mul, Finset.mul_sum]
    rw [Finset.sum_congr rfl this, Finset.sum_comm, Finset.mul_sum]
    apply Finset.sum_congr rfl
    intro q _
    rw [Finset.mul_sum]
    push_cast
    rw [Finset.sum_mul, Finset.sum_mul]
    apply Finset.sum_congr rfl
    intro i _
    rw [pow_succ]; ring

end Verif.Butcher
