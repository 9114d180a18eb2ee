import Mathlib.Analysis.SpecialFunctions.Pow.Real
import Mathlib.Algebra.Order.Ring.Pow
import Verif.Invert.MGFix

/-! # C84: the plain multigrid iteration may return an unconverged field -/

namespace Verif.MG

open Finset Spec

/-- `A = 1`, `D = 0`, no boundary flags, `solvertype = 0`, two levels, tolerances as in the code
and `jacobi` smoothing with a small weight. -/
noncomputable def limCfg : Cfg ℝ where
  np := 1
  nx := 2
  nz := 2
  levels := 2
  plag := 0
  par := ⟨0, 1 / 1000, 1 / 10 ^ 8, 1 / 10 ^ 20, 10 ^ 5, Real.sqrt⟩
  inn := ⟨true, false⟩
  out := ⟨true, false⟩
  startNew := false
  nonuniform := false
  coef := ⟨fun _ _ => 1, fun _ _ => 1, fun _ _ => 1, fun _ _ => 0, fun _ => 1, fun _ => 1,
    fun _ => 1, fun _ => 1, fun _ => 0, fun _ => 0, fun _ => 0, fun _ => 0, fun _ => 1⟩
  arn := ⟨fun _ => some 1, fun _ _ => none, fun _ _ => some [1]⟩
  arnLow := ⟨fun _ => some 1, fun _ _ => none, fun _ _ => some [1]⟩

/-- A checkerboard. -/
def cb (i k : Nat) : ℝ := if (i + k) % 2 = 0 then 1 else -1

/-- `r` is `w` times the checkerboard inside. -/
def In (r : Vec ℝ) (w : ℝ) : Prop :=
  ∀ i k, 1 ≤ i → i ≤ 2 → 1 ≤ k → k ≤ 2 → r 0 i k = w * cb i k

theorem lim_mat (p i k s : Nat) : fineMat limCfg p i k s = if s = 4 then 1 else 0 := by
  have hb : ∀ s, baseMat limCfg p i k s = if s = 4 then 1 else 0 := by
    intro s
    unfold baseMat limCfg
    rcases s with _ | _ | _ | _ | _ | _ | _ | _ | _ | s <;> norm_num
    rw [if_neg (by omega)]
    rfl
  have hi : ∀ (m : Nat → ℝ), (∀ s, m s = if s = 4 then 1 else 0) →
      ∀ s, innerRow true m s = if s = 4 then 1 else 0 := by
    intro m hm s
    unfold innerRow
    simp only [hm]
    rcases s with _ | _ | _ | _ | _ | _ | _ | _ | _ | s <;> norm_num
    all_goals (split_ifs <;> first | rfl | omega)
  have ho : ∀ (m : Nat → ℝ), (∀ s, m s = if s = 4 then 1 else 0) →
      ∀ s, outerRow true m s = if s = 4 then 1 else 0 := by
    intro m hm s
    unfold outerRow
    simp only [hm]
    rcases s with _ | _ | _ | _ | _ | _ | _ | _ | _ | s <;> norm_num
    all_goals (split_ifs <;> first | rfl | omega)
  unfold fineMat
  have h1 : ∀ s, (if p = 0 ∧ i = 1 then innerRow limCfg.inn.grad (baseMat limCfg p i k)
      else baseMat limCfg p i k) s = if s = 4 then 1 else 0 := by
    intro s
    by_cases hc : p = 0 ∧ i = 1
    · rw [if_pos hc]; exact hi _ hb s
    · rw [if_neg hc]; exact hb s
  by_cases hl : p + 1 = limCfg.np ∧ i = limCfg.nx
  · rw [if_pos hl]; exact ho _ h1 s
  · rw [if_neg hl]; exact h1 s

theorem lim_top : limCfg.hier.top = 1 := by
  show avail (avail 2 (1 * 2) 2) 2 2 - 1 = 1
  decide

theorem lim_dim1 : limCfg.hier.dim 1 = ⟨1, 2, 2⟩ := by
  have := hier_dim (c := limCfg)
  rw [lim_top] at this
  exact this

theorem lim_mat1 : limCfg.hier.mat 1 = fineMat limCfg := by
  have := hier_mat (c := limCfg)
  rw [lim_top] at this
  exact this

theorem lim_dim0 : limCfg.hier.dim 0 = ⟨1, 1, 1⟩ := by
  show levelDim 1 2 2 limCfg.hier.top 0 = _
  rw [lim_top]
  rfl

theorem lim_off (x : Nat → Nat → ℝ) (i k : Nat) : off (fineMat limCfg 0) x i k = 0 := by
  unfold off
  simp [lim_mat]

theorem lim_inside {i k : Nat} (h1 : 1 ≤ i) (h2 : i ≤ 2) (h3 : 1 ≤ k) (h4 : k ≤ 2) :
    (Dim.inside ⟨1, 2, 2⟩ i k) = true := (inside_iff _ i k).2 ⟨h1, h2, h3, h4⟩

theorem jac_in {x b : Vec ℝ} {u v : ℝ} (hx : In x u) (hb : In b v) :
    In (jacobi ⟨1, 2, 2⟩ (1 / 1000) (fineMat limCfg) x b) ((1 - 1 / 1000) * u + 1 / 1000 * v) := by
  intro i k h1 h2 h3 h4
  unfold jacobi
  rw [comm_inside _ _ _ _ _ h1 h2 h3 h4]
  rw [if_pos (lim_inside h1 h2 h3 h4), lim_off, lim_mat, if_pos rfl, hx i k h1 h2 h3 h4,
    hb i k h1 h2 h3 h4]
  ring

theorem res_in {x b : Vec ℝ} {u v : ℝ} (hx : In x u) (hb : In b v) :
    In (residualVec ⟨1, 2, 2⟩ (fineMat limCfg) x b) (v - u) := by
  intro i k h1 h2 h3 h4
  unfold residualVec
  rw [comm_inside _ _ _ _ _ h1 h2 h3 h4]
  rw [if_pos (lim_inside h1 h2 h3 h4)]
  unfold row
  rw [lim_off, lim_mat, if_pos rfl, hx i k h1 h2 h3 h4, hb i k h1 h2 h3 h4]
  ring

theorem smooth_in {x b : Vec ℝ} {u v : ℝ} (hx : In x u) (hb : In b v) :
    ∃ y, limCfg.hier.smooth 1 x b = .ok y
      ∧ In y ((1 - 1 / 1000) * ((1 - 1 / 1000) * u + 1 / 1000 * v) + 1 / 1000 * v) := by
  unfold Hier.smooth smoothings
  rw [lim_dim1, lim_mat1]
  have : badDiag ⟨1, 2, 2⟩ limCfg.hier.par.atol (fineMat limCfg) = false := by
    unfold badDiag
    rw [List.any_eq_false]
    intro p _
    rw [Bool.not_eq_true, List.any_eq_false]
    intro c _
    rw [lim_mat, if_pos rfl, decide_eq_true_eq]
    show ¬ |(1 : ℝ)| < 1 / 10 ^ 20
    norm_num
  rw [if_neg (by rw [this]; exact Bool.false_ne_true)]
  have hm : limCfg.hier.par.mgsm = 0 := rfl
  rw [if_pos hm]
  exact ⟨_, rfl, jac_in (jac_in hx hb) hb⟩

theorem cycle_in {r : Vec ℝ} {w : ℝ} (hr : In r w) :
    ∃ y, cycleMG limCfg.hier limCfg.low limCfg.hier.top (fun _ _ _ => 0) r = .ok y
      ∧ In y ((1 - (999 / 1000) ^ 4) * w) := by
  rw [lim_top]
  have h0 : In (fun _ _ _ => 0) 0 := fun i k _ _ _ _ => by simp
  obtain ⟨s1, e1, a1⟩ := smooth_in h0 hr
  have hp : ∀ p i k, p < (limCfg.hier.dim 0).np → 1 ≤ i → i ≤ (limCfg.hier.dim 0).nx → 1 ≤ k →
      k ≤ (limCfg.hier.dim 0).nz → projection (limCfg.hier.dim 0)
        (residualVec (limCfg.hier.dim 1) (limCfg.hier.mat 1) s1 r) p i k = 0 := by
    rw [lim_dim0, lim_dim1, lim_mat1]
    intro p i k hp i1 i2 k1 k2
    simp only at hp i2 k2
    obtain rfl : p = 0 := by omega
    obtain rfl : i = 1 := by omega
    obtain rfl : k = 1 := by omega
    have a := res_in a1 hr
    unfold projection
    rw [comm_inside _ _ _ _ _ (by omega) (Nat.le_refl _) (by omega) (Nat.le_refl _)]
    dsimp only
    rw [if_pos (by decide), a _ _ (by omega) (by omega) (by omega) (by omega),
      a _ _ (by omega) (by omega) (by omega) (by omega),
      a _ _ (by omega) (by omega) (by omega) (by omega),
      a _ _ (by omega) (by omega) (by omega) (by omega)]
    norm_num [cb]
  have hlow : limCfg.low = lowGmres limCfg.hier limCfg.arnLow := by
    unfold Cfg.low
    rw [if_neg]
    show ¬ avail 2 (1 * 2) 2 - avail (avail 2 (1 * 2) 2) 2 2 > 0
    decide
  obtain ⟨y, e2, a2⟩ := lowGmres_zero (h := limCfg.hier) limCfg.arnLow Real.sqrt_zero
    (by show (0 : ℝ) < 1 / 10 ^ 20 * (1 / 10 ^ 8); norm_num) _ hp (fun _ _ _ => 0)
    (fun _ _ _ _ _ _ => rfl)
  have hs : In (fun p i k => s1 p i k + prolongation (limCfg.hier.dim 0) (limCfg.hier.dim 1) y p i k)
      ((1 - 1 / 1000) * ((1 - 1 / 1000) * 0 + 1 / 1000 * w) + 1 / 1000 * w) := by
    intro i k h1 h2 h3 h4
    have : prolongation (limCfg.hier.dim 0) (limCfg.hier.dim 1) y 0 i k = 0 := by
      unfold prolongation
      rw [lim_dim1, comm_inside _ _ _ _ _ h1 h2 h3 h4]
      split_ifs with hin
      · obtain ⟨c1, c2, c3, c4⟩ := (inside_iff _ _ _).1 hin
        exact a2 0 _ _ (by rw [lim_dim0]; exact Nat.one_pos) (by omega) (by omega)
      · rfl
    show s1 0 i k + _ = _
    rw [this, add_zero]
    exact a1 i k h1 h2 h3 h4
  obtain ⟨s2, e3, a3⟩ := smooth_in hs hr
  refine ⟨s2, ?_, ?_⟩
  · simp only [cycleMG, bind, Except.bind]
    rw [e1]
    simp only
    rw [hlow, e2]
    exact e3
  · intro i k h1 h2 h3 h4
    rw [a3 i k h1 h2 h3 h4]
    ring

theorem prod_in {r : Vec ℝ} {w : ℝ} (hr : In r w) (hw : 0 ≤ w) :
    Real.sqrt (vectorProd ⟨1, 2, 2⟩ r r) = 2 * w := by
  have : vectorProd ⟨1, 2, 2⟩ r r = (2 * w) ^ 2 := by
    unfold vectorProd
    simp only [Finset.sum_range_succ, Finset.sum_range_zero, zero_add]
    rw [hr 1 1 (by omega) (by omega) (by omega) (by omega),
      hr 1 2 (by omega) (by omega) (by omega) (by omega),
      hr 2 1 (by omega) (by omega) (by omega) (by omega),
      hr 2 2 (by omega) (by omega) (by omega) (by omega)]
    norm_num [cb]
    ring
  rw [this, Real.sqrt_sq (by linarith)]

theorem loop_in {rhs : Vec ℝ} (hb : In rhs 1) : ∀ n (sol r : Vec ℝ) (w : ℝ), In r w →
    In sol (1 - w) → w ≤ 1 → 1 / 100 ≤ w * ((999 / 1000) ^ 4) ^ n →
    ∃ x, mgLoop limCfg.hier limCfg.low rhs 2 n sol r (2 * w) = .ok x
      ∧ In x (1 - w * ((999 / 1000) ^ 4) ^ n) := by
  intro n
  induction n with
  | zero =>
    intro sol r w _ hs _ _
    refine ⟨sol, rfl, ?_⟩
    rw [pow_zero, mul_one]; exact hs
  | succ n ih =>
    intro sol r w hr hs h1 hw
    obtain ⟨y, e, hy⟩ := cycle_in hr
    have q1 : ((999 / 1000 : ℝ) ^ 4) ^ n ≤ 1 := pow_le_one₀ (by norm_num) (by norm_num)
    have q0 : (0 : ℝ) < ((999 / 1000 : ℝ) ^ 4) ^ n := by positivity
    rw [pow_succ] at hw
    have w0 : 0 < w := by
      by_contra hc
      push Not at hc
      have : w * (((999 / 1000 : ℝ) ^ 4) ^ n * (999 / 1000) ^ 4) ≤ 0 :=
        mul_nonpos_of_nonpos_of_nonneg hc (by positivity)
      linarith
    have wl : 1 / 100 ≤ w * (999 / 1000) ^ 4 := by
      have : w * (999 / 1000) ^ 4 * ((999 / 1000 : ℝ) ^ 4) ^ n ≤ w * (999 / 1000) ^ 4 * 1 :=
        mul_le_mul_of_nonneg_left q1 (by positivity)
      linarith
    have hs' : In (fun p i k => sol p i k + y p i k) (1 - w * (999 / 1000) ^ 4) := by
      intro i k a b c d
      show sol 0 i k + y 0 i k = _
      rw [hs i k a b c d, hy i k a b c d]; ring
    have hr' := res_in hs' hb
    have he := prod_in hr' (w := 1 - (1 - w * (999 / 1000) ^ 4)) (by linarith)
    have e2 : 2 * (1 - (1 - w * (999 / 1000 : ℝ) ^ 4)) = 2 * (w * (999 / 1000) ^ 4) := by ring
    rw [e2] at he
    rw [mgLoop]
    simp only [bind, Except.bind]
    rw [e]
    simp only
    rw [lim_top, lim_dim1, lim_mat1]
    have hsq : limCfg.hier.par.sqrt = Real.sqrt := rfl
    rw [hsq, he]
    have hrt : limCfg.hier.par.rtol = 1 / 10 ^ 8 := rfl
    have hat : limCfg.hier.par.atol = 1 / 10 ^ 20 := rfl
    have hdt : limCfg.hier.par.dtol = 10 ^ 5 := rfl
    rw [hrt, hat, hdt]
    rw [if_neg (by push Not; linarith)]
    rw [if_neg]
    · obtain ⟨x, ex, hx⟩ := ih _ _ (w * (999 / 1000) ^ 4) (by
          have := hr'
          rwa [show 1 - (1 - w * (999 / 1000 : ℝ) ^ 4) = w * (999 / 1000) ^ 4 by ring] at this)
        hs' (by linarith) (by linarith)
      refine ⟨x, ex, ?_⟩
      rw [pow_succ, show w * (((999 / 1000 : ℝ) ^ 4) ^ n * (999 / 1000) ^ 4)
        = w * (999 / 1000) ^ 4 * ((999 / 1000) ^ 4) ^ n by ring]
      exact hx
    · push Not
      constructor
      · rw [abs_of_nonneg (by linarith), le_div_iff₀ (by linarith)]
        linarith
      · linarith

/-- **Finding.**  The loop of the plain multigrid solver ends after 150 iterations without a word
(multigrid_alg.cxx L830-858): a diagonal system on a 2 × 2 grid, two levels, tolerance `1e-8`, for
which the field returned still has more than a third of the initial error. -/
theorem C84_limit_violated :
    ∃ (bin f : Nat → Nat → ℝ), Usable limCfg ∧ limCfg.nonuniform = false
      ∧ solve limCfg bin (fun _ _ => 0) = .ok f
      ∧ Spec.err limCfg bin f > 1 / 3 * Spec.err limCfg bin (fun _ _ => 0)
      ∧ Spec.err limCfg bin (fun _ _ => 0) = 2 := by
  have hrhs : In (fineRhs limCfg (fun i z => cb i (z + 1)) fun _ _ => 0) 1 := by
    intro i k h1 h2 h3 h4
    unfold fineRhs
    have g1 : ∀ z, ghostIn limCfg (fun _ _ => 0) z = 0 := fun z => by
      unfold ghostIn; simp [limCfg]
    have g2 : ∀ z, ghostOut limCfg (fun _ _ => 0) z = 0 := fun z => by
      unfold ghostOut; simp [limCfg]
    simp only [g1, g2, mul_zero, sub_zero, ite_self]
    show cb (0 * 2 + i) (k - 1 + 1) = _
    rw [Nat.zero_mul, Nat.zero_add, Nat.sub_add_cancel h3, one_mul]
  have hq : (4 / 10 : ℝ) ≤ ((999 / 1000) ^ 4) ^ 150 := by
    rw [← pow_mul]
    have := one_add_mul_le_pow (a := (-(1 / 1000) : ℝ)) (by norm_num) 600
    have e : (1 + -(1 / 1000) : ℝ) = 999 / 1000 := by norm_num
    rw [e] at this
    norm_num at this ⊢
    linarith
  obtain ⟨x, ex, hx⟩ := loop_in hrhs 150 (fun _ _ _ => 0) _ 1 hrhs
    (fun i k _ _ _ _ => by simp) (le_refl _) (by linarith)
  have eop : ∀ (f : Nat → Nat → ℝ) i z, op limCfg.coef limCfg.nz limCfg.nonuniform f i z = f i z := by
    intro f i z
    unfold op d2dx2 d2dz2 d2dxdz Spec.ddx Spec.ddz limCfg
    simp
  have e0 : Spec.err limCfg (fun i z => cb i (z + 1)) (fun _ _ => 0) = 2 := by
    unfold Spec.err
    simp only [eop]
    show Real.sqrt (∑ i ∈ range (1 * 2), ∑ z ∈ range 2, _) = _
    simp only [Nat.one_mul, Finset.sum_range_succ, Finset.sum_range_zero, zero_add]
    have e : ((cb 1 (0 + 1) - 0) * (cb 1 (0 + 1) - 0) + (cb 1 (1 + 1) - 0) * (cb 1 (1 + 1) - 0)
        + ((cb 2 (0 + 1) - 0) * (cb 2 (0 + 1) - 0) + (cb 2 (1 + 1) - 0) * (cb 2 (1 + 1) - 0)))
        = (2 : ℝ) ^ 2 := by norm_num [cb]
    calc _ = Real.sqrt ((2 : ℝ) ^ 2) := by rw [← e]
      _ = 2 := Real.sqrt_sq (by norm_num)
  refine ⟨fun i z => cb i (z + 1), result limCfg (fun _ _ => 0) x, ?_, rfl, ?_, ?_, ?_⟩
  · exact ⟨Nat.one_pos, Nat.two_pos, Nat.two_pos, Real.sqrt_nonneg, by norm_num [limCfg],
      by norm_num [limCfg], by norm_num [limCfg]⟩
  · unfold solve getSolution
    rw [if_neg (by rw [lim_top]; decide)]
    unfold solveMG
    rw [lim_top, lim_dim1]
    have hini := prod_in hrhs (by norm_num)
    simp only [bind, Except.bind]
    rw [show limCfg.hier.par.sqrt = Real.sqrt from rfl, hini]
    rw [show (2 : ℝ) * 1 = 2 by norm_num] at ex ⊢
    rw [ex]
  · have e1 : Spec.err limCfg (fun i z => cb i (z + 1)) (result limCfg (fun _ _ => 0) x)
        = 2 * ((999 / 1000) ^ 4) ^ 150 := by
      unfold Spec.err
      simp only [eop]
      have hc : ∀ i z, 1 ≤ i → i ≤ 2 → z < 2 → result limCfg (fun _ _ => 0) x i z
          = (1 - 1 * ((999 / 1000) ^ 4) ^ 150) * cb i (z + 1) := by
        intro i z h1 h2 hz
        have := result_cell (c := limCfg) (x := x) (fun _ _ => 0) Nat.two_pos 0 i z Nat.one_pos h1 h2
        rw [Nat.zero_mul, Nat.zero_add] at this
        rw [this, hx i (z + 1) h1 h2 (by omega) (by omega)]
      show Real.sqrt (∑ i ∈ range (1 * 2), ∑ z ∈ range 2, _) = _
      simp only [Nat.one_mul, Finset.sum_range_succ, Finset.sum_range_zero, zero_add]
      rw [hc 1 0 (by omega) (by omega) (by omega), hc 1 1 (by omega) (by omega) (by omega),
        hc 2 0 (by omega) (by omega) (by omega), hc 2 1 (by omega) (by omega) (by omega)]
      have : ∀ q : ℝ, 0 ≤ q → Real.sqrt ((cb 1 (0 + 1) - (1 - 1 * q) * cb 1 (0 + 1))
            * (cb 1 (0 + 1) - (1 - 1 * q) * cb 1 (0 + 1))
          + (cb 1 (1 + 1) - (1 - 1 * q) * cb 1 (1 + 1)) * (cb 1 (1 + 1) - (1 - 1 * q) * cb 1 (1 + 1))
          + ((cb 2 (0 + 1) - (1 - 1 * q) * cb 2 (0 + 1)) * (cb 2 (0 + 1) - (1 - 1 * q) * cb 2 (0 + 1))
          + (cb 2 (1 + 1) - (1 - 1 * q) * cb 2 (1 + 1)) * (cb 2 (1 + 1) - (1 - 1 * q) * cb 2 (1 + 1))))
          = 2 * q := by
        intro q hq
        have e : ((cb 1 (0 + 1) - (1 - 1 * q) * cb 1 (0 + 1))
            * (cb 1 (0 + 1) - (1 - 1 * q) * cb 1 (0 + 1))
          + (cb 1 (1 + 1) - (1 - 1 * q) * cb 1 (1 + 1)) * (cb 1 (1 + 1) - (1 - 1 * q) * cb 1 (1 + 1))
          + ((cb 2 (0 + 1) - (1 - 1 * q) * cb 2 (0 + 1)) * (cb 2 (0 + 1) - (1 - 1 * q) * cb 2 (0 + 1))
          + (cb 2 (1 + 1) - (1 - 1 * q) * cb 2 (1 + 1)) * (cb 2 (1 + 1) - (1 - 1 * q) * cb 2 (1 + 1))))
          = (2 * q) ^ 2 := by
          norm_num [cb]
          ring
        rw [e, Real.sqrt_sq (by linarith)]
      exact this _ (by positivity)
    rw [e1, e0]
    linarith
  · exact e0

/-- `C84_plain_partial` applies to it. -/
example : ∃ (bin f : Nat → Nat → ℝ), solve limCfg bin (fun _ _ => 0) = .ok f
    ∧ ∃ x r, f = result limCfg (fun _ _ => 0) x
      ∧ Corrected limCfg.hier limCfg.low (fineRhs limCfg bin fun _ _ => 0) 150 x r := by
  obtain ⟨bin, f, hu, hn, hs, h1, h2⟩ := C84_limit_violated
  have key := (C84_plain_partial hu (by decide +kernel) (show 1 < limCfg.aclevel by decide +kernel) hn
    (fun _ => rfl) bin (fun _ _ => 0) f hs (fun _ _ => 0) (fun _ _ _ _ _ => rfl) (fun z _ => by
        constructor
        · unfold InnerBC
          simp [limCfg]
        · unfold OuterBC
          simp [limCfg])).2
  rcases key with hk | hk
  · exfalso
    have e1 : limCfg.par.rtol = 1 / 10 ^ 8 := rfl
    have e2 : limCfg.par.atol = 1 / 10 ^ 20 := rfl
    rw [e1, e2] at hk
    rw [h2] at h1 hk
    norm_num at hk h1
    linarith
  · exact ⟨bin, f, hs, hk⟩

end Verif.MG
