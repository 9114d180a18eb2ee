import Verif.Solver.ButcherProps
import Mathlib.Tactic.IntervalCases

namespace Verif.RK
open Verif.Butcher Finset

variable {K : Type} [Field K] [LinearOrder K] [IsStrictOrderedRing K] {n : Nat}

/-- The tableau of a scheme whose solution number `index` is used. -/
def tabOf (T : Scheme) (index : Nat) : Tableau where
  s := T.numStages
  a := T.stageCoeffs
  b := fun i => T.resultCoeffs i index
  c := T.timeCoeffs

/-! ## Order of the tableaux -/

theorem classical_order : HasOrder classical 4 := hasOrder_of_check _ _ (by decide +kernel)
theorem ssp3_order : HasOrder ssp3 3 := hasOrder_of_check _ _ (by decide +kernel)
theorem euler_order : HasOrder Butcher.euler 1 := hasOrder_of_check _ _ (by decide +kernel)

/-- RKF45: the solution normally followed has order 5, the embedded one order 4. -/
theorem C27_rkf45_order : HasOrder (tabOf rkf45 0) 5 ∧ HasOrder (tabOf rkf45 1) 4 :=
  ⟨hasOrder_of_check _ _ (by decide +kernel), hasOrder_of_check _ _ (by decide +kernel)⟩

/-- Cash-Karp: orders 5 and 4. -/
theorem C27_cashkarp_order : HasOrder (tabOf cashkarp 0) 5 ∧ HasOrder (tabOf cashkarp 1) 4 :=
  ⟨hasOrder_of_check _ _ (by decide +kernel), hasOrder_of_check _ _ (by decide +kernel)⟩

/-- RKF34: orders 4 and 3 (the second is the one followed by default). -/
theorem C27_rkf34_order : HasOrder (tabOf rkf34 0) 4 ∧ HasOrder (tabOf rkf34 1) 3 :=
  ⟨hasOrder_of_check _ _ (by decide +kernel), hasOrder_of_check _ _ (by decide +kernel)⟩

/-- rk4simple: both solutions have order 4. -/
theorem C27_rk4simple_order : HasOrder (tabOf rk4simple 0) 4 ∧ HasOrder (tabOf rk4simple 1) 4 :=
  ⟨hasOrder_of_check _ _ (by decide +kernel), hasOrder_of_check _ _ (by decide +kernel)⟩

/-- The declared order of a scheme, which sets the exponent of the step-size control, is that of the lower-order solution of
its pair (for rk4simple, of both). -/
theorem C27_declared_order :
    HasOrder (tabOf rkf45 1) rkf45.order ∧ HasOrder (tabOf cashkarp 1) cashkarp.order ∧
    HasOrder (tabOf rkf34 1) rkf34.order ∧ HasOrder (tabOf rk4simple 1) rk4simple.order :=
  ⟨C27_rkf45_order.2, C27_cashkarp_order.2, C27_rkf34_order.2, C27_rk4simple_order.2⟩

/-! ## The steps the code takes -/

/-- `RK4Solver::take_step` is one step of the classical method. -/
theorem C26_rk4_classical (rhs : Rhs K n) (t h : K) (y : Fin n → K) :
    IsStep classical rhs t h y (rk4Step rhs t h y) := by
  let k1 := rhs t y
  let k2 := rhs (t + 1/2 * h) (fun i => y i + 1/2 * h * k1 i)
  let k3 := rhs (t + 1/2 * h) (fun i => y i + 1/2 * h * k2 i)
  let k4 := rhs (t + h) (fun i => y i + h * k3 i)
  refine ⟨fun i => if i = 0 then k1 else if i = 1 then k2 else if i = 2 then k3 else k4, ?_, ?_⟩
  · intro i hi
    have hi' : i < 4 := hi
    interval_cases i
    · simp [classical, k1]
    · simp only [classical, Finset.sum_range_succ, Finset.sum_range_zero]
      norm_num [k2]
      congr 1; funext m; ring
    · simp only [classical, Finset.sum_range_succ, Finset.sum_range_zero]
      norm_num [k3]
      congr 1; funext m; ring
    · simp only [classical, Finset.sum_range_succ, Finset.sum_range_zero]
      norm_num [k4]
  · intro m
    show y m + 1/6 * h * (k1 m + 2 * k2 m + 2 * k3 m + k4 m) = _
    simp only [classical, Finset.sum_range_succ, Finset.sum_range_zero]
    norm_num
    ring

/-- `RK3SSP::take_step` is one step of the third-order SSP method. -/
theorem C26_rk3ssp (rhs : Rhs K n) (t h : K) (y : Fin n → K) : IsStep ssp3 rhs t h y (rk3Step rhs t h y) := by
  let l1 := rhs t y
  let u1 := fun i => y i + h * l1 i
  let l2 := rhs (t + h) u1
  let u2 := fun i => 3/4 * y i + 1/4 * u1 i + 1/4 * h * l2 i
  let l3 := rhs (t + 1/2 * h) u2
  refine ⟨fun i => if i = 0 then l1 else if i = 1 then l2 else l3, ?_, ?_⟩
  · intro i hi
    have hi' : i < 3 := hi
    interval_cases i
    · simp [ssp3, l1]
    · simp only [ssp3, Finset.sum_range_succ, Finset.sum_range_zero]
      norm_num [l2, u1]
    · simp only [ssp3, Finset.sum_range_succ, Finset.sum_range_zero]
      norm_num [l3, u2, u1]
      congr 1; funext m; ring
  · intro m
    show 1/3 * y m + 2/3 * (u2 m + h * l3 m) = _
    simp only [ssp3, Finset.sum_range_succ, Finset.sum_range_zero, u2, u1]
    norm_num
    ring

/-- `EulerSolver::take_step` is forward Euler. -/
theorem C26_euler (rhs : Rhs K n) (t h : K) (y : Fin n → K) : IsStep Butcher.euler rhs t h y (eulerStep rhs t h y) := by
  refine ⟨fun _ => rhs t y, ?_, ?_⟩
  · intro i hi
    have hi' : i < 1 := hi
    interval_cases i
    simp [Butcher.euler]
  · intro m; simp [Butcher.euler, eulerStep]

theorem setCurState_eq (T : Scheme) (atol : K) (hat : ∀ i j, j < i → i < T.numStages → T.stageCoeffs i j ≠ 0 →
      atol ≤ |(T.stageCoeffs i j : K)|) (steps : Nat → Fin n → K) (start : Fin n → K) (i : Nat) (hi : i < T.numStages) (dt : K) :
    setCurState T atol steps start i dt = fun m => start m + dt * ∑ j ∈ range i, (T.stageCoeffs i j : K) * steps j m := by
  have gen : ∀ m : Nat, m ≤ i → (List.range m).foldl (fun out j =>
      if |(T.stageCoeffs i j : K)| < atol then out
      else
        let fac := (T.stageCoeffs i j : K) * dt
        fun q => out q + fac * steps j q) start =
      fun q => start q + dt * ∑ j ∈ range m, (T.stageCoeffs i j : K) * steps j q := by
    intro m
    induction m with
    | zero => intro _; funext q; simp
    | succ m ih =>
      intro hm
      rw [List.range_succ, List.foldl_append, ih (by omega)]
      simp only [List.foldl_cons, List.foldl_nil]
      by_cases h : |(T.stageCoeffs i m : K)| < atol
      · have h0 : T.stageCoeffs i m = 0 := by
          by_contra hne
          exact absurd (hat i m (by omega) hi hne) (not_le.mpr h)
        simp only [if_pos h]
        funext q
        rw [Finset.sum_range_succ, h0]; simp
      · simp only [if_neg h]
        funext q
        rw [Finset.sum_range_succ]; ring
  unfold setCurState
  by_cases h0 : i = 0
  · subst h0; simp
  · rw [if_neg h0]; exact gen i le_rfl

theorem setCurState_congr (T : Scheme) (atol : K) (s1 s2 : Nat → Fin n → K) (start : Fin n → K) (i : Nat) (dt : K)
    (h : ∀ j, j < i → s1 j = s2 j) : setCurState T atol s1 start i dt = setCurState T atol s2 start i dt := by
  unfold setCurState
  split
  · rfl
  · have gen : ∀ (l : List Nat) (o : Fin n → K), (∀ j ∈ l, j < i) →
        l.foldl (fun out j => if |(T.stageCoeffs i j : K)| < atol then out
          else let fac := (T.stageCoeffs i j : K) * dt; fun q => out q + fac * s1 j q) o =
        l.foldl (fun out j => if |(T.stageCoeffs i j : K)| < atol then out
          else let fac := (T.stageCoeffs i j : K) * dt; fun q => out q + fac * s2 j q) o := by
      intro l
      induction l with
      | nil => intro o _; rfl
      | cons a l ih =>
        intro o hl
        rw [List.foldl_cons, List.foldl_cons, h a (hl a (by simp)), ih _ (fun j hj => hl j (by simp [hj]))]
    exact gen _ _ (fun j hj => List.mem_range.mp hj)

theorem stages_eq (T : Scheme) (rhs : Rhs K n) (atol t h : K) (y : Fin n → K) (steps0 : Nat → Fin n → K) (i : Nat)
    (hi : i < T.numStages) :
    stages T rhs atol t h y steps0 i = rhs (t + h * (T.timeCoeffs i : K)) (setCurState T atol (stages T rhs atol t h y steps0) y i h) := by
  have gen : ∀ m : Nat, ∀ i < m,
      ((List.range m).foldl (fun steps c => Function.update steps c (rhs (setCurTime T t h c) (setCurState T atol steps y c h))) steps0) i =
      rhs (t + h * (T.timeCoeffs i : K)) (setCurState T atol
        ((List.range m).foldl (fun steps c => Function.update steps c (rhs (setCurTime T t h c) (setCurState T atol steps y c h))) steps0) y i h) := by
    intro m
    induction m with
    | zero => intro i hi; omega
    | succ m ih =>
      intro i hi
      rw [List.range_succ, List.foldl_append]
      simp only [List.foldl_cons, List.foldl_nil]
      generalize hst : (List.range m).foldl (fun steps c => Function.update steps c (rhs (setCurTime T t h c) (setCurState T atol steps y c h))) steps0 = st at ih
      have hcongr : ∀ i, i ≤ m → setCurState T atol (Function.update st m (rhs (setCurTime T t h m) (setCurState T atol st y m h))) y i h =
          setCurState T atol st y i h := by
        intro i hi
        apply setCurState_congr
        intro j hj
        rw [Function.update_of_ne (by omega)]
      rw [hcongr i (by omega)]
      by_cases him : i = m
      · subst him; rw [Function.update_self]; rfl
      · rw [Function.update_of_ne him]; exact ih i (by omega)
  exact gen T.numStages i hi

theorem constructOutput_eq (T : Scheme) (steps : Nat → Fin n → K) (start : Fin n → K) (dt : K) (index : Nat) :
    constructOutput T steps start dt index =
      fun m => start m + dt * ∑ i ∈ range T.numStages, (T.resultCoeffs i index : K) * steps i m := by
  have gen : ∀ m : Nat, (List.range m).foldl (fun sol c =>
      if (T.resultCoeffs c index : K) = 0 then sol
      else
        let fac := dt * (T.resultCoeffs c index : K)
        fun q => sol q + fac * steps c q) start =
      fun q => start q + dt * ∑ j ∈ range m, (T.resultCoeffs j index : K) * steps j q := by
    intro m
    induction m with
    | zero => funext q; simp
    | succ m ih =>
      rw [List.range_succ, List.foldl_append, ih]
      simp only [List.foldl_cons, List.foldl_nil]
      by_cases h : (T.resultCoeffs m index : K) = 0
      · simp only [if_pos h]
        funext q
        rw [Finset.sum_range_succ, h]; simp
      · simp only [if_neg h]
        funext q
        rw [Finset.sum_range_succ]; ring
  exact gen T.numStages

/-- `RKGenericSolver::take_step` with any scheme is one step of the scheme's tableau (the high-order solution if
`followHighOrder`, else the low-order one), whatever was left in the stage storage — provided no non-zero stage coefficient
is smaller in size than the absolute tolerance `atol` of the solver. -/
theorem C27_generic_step (T : Scheme) (fh ad : Bool) (atol : K) (neq : Nat) (rhs : Rhs K n) (t h : K) (y : Fin n → K)
    (steps0 : Nat → Fin n → K)
    (hat : ∀ i j, j < i → i < T.numStages → T.stageCoeffs i j ≠ 0 → atol ≤ |(T.stageCoeffs i j : K)|) :
    IsStep (tabOf T (if fh then 0 else 1)) rhs t h y (genericStep T fh ad atol neq rhs t h y steps0).1 := by
  refine ⟨stages T rhs atol t h y steps0, ?_, ?_⟩
  · intro i hi
    rw [stages_eq T rhs atol t h y steps0 i hi, setCurState_eq T atol hat _ _ i hi, mul_comm h]
    rfl
  · intro m
    have : (genericStep T fh ad atol neq rhs t h y steps0).1 =
        constructOutput T (stages T rhs atol t h y steps0) y h (if fh then 0 else 1) := by
      simp only [genericStep, setOutputStates]; cases ad <;> rfl
    rw [this, constructOutput_eq]
    rfl

/-- The error estimate of an adaptive step compares the two solutions of the pair. -/
theorem C27_error_estimate (T : Scheme) (fh : Bool) (atol : K) (neq : Nat) (rhs : Rhs K n) (t h : K) (y : Fin n → K)
    (steps0 : Nat → Fin n → K)
    (hat : ∀ i j, j < i → i < T.numStages → T.stageCoeffs i j ≠ 0 → atol ≤ |(T.stageCoeffs i j : K)|) :
    ∃ lo hi : Fin n → K, IsStep (tabOf T 0) rhs t h y hi ∧ IsStep (tabOf T 1) rhs t h y lo ∧
      (genericStep T fh true atol neq rhs t h y steps0).2 =
        (∑ m, |hi m - lo m| / (|hi m| + |lo m| + atol)) / (neq : K) := by
  have h0 := C27_generic_step T true true atol neq rhs t h y steps0 hat
  have h1 := C27_generic_step T false true atol neq rhs t h y steps0 hat
  refine ⟨_, _, h0, h1, ?_⟩
  cases fh
  · simp only [genericStep, setOutputStates, errOf, if_true, Bool.false_eq_true, if_false]
    congr 1
    apply Finset.sum_congr rfl
    intro m _
    rw [abs_sub_comm, add_comm (|constructOutput T _ y h 1 m|)]
  · simp only [genericStep, setOutputStates, errOf, if_true, Bool.false_eq_true, if_false]

end Verif.RK
