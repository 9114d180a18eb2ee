import Verif.Physics.SnbThms

/-! # C92: what the code gets wrong, and concrete cases -/
namespace Verif.Snb

/-- **C92 is violated: the electron-ion mean free path of the groups.** The code's factor is `(Z + 0.25) / (Z + 4.2)`, the
manual's `(Z + 0.24) / (Z + 4.2)`: they differ for every charge. -/
theorem C92_ratio_violated (C : Cfg) (hZ : 0 < C.Z) (te ne : ℝ) (h : lambdaEi C te ne ≠ 0) :
    lambdaEiPrime C te ne ≠ lambdaEi C te ne * ((C.Z + 0.24) / (C.Z + 4.2)) := by
  intro he
  rw [lambdaEiPrime] at he
  have h1 := mul_left_cancel₀ h he
  have h2 : C.Z + 4.2 ≠ 0 := by positivity
  rw [div_left_inj' h2] at h1
  norm_num at h1

/-- **C92 is violated: cold dense plasma.** The Coulomb logarithm has no lower limit: below about 0.012 eV (at `10^20`
particles) it is negative, and then so is the conductivity: heat flows from cold to hot. -/
theorem C92_coulomb_violated (C : Cfg) (hq : 0 < C.qe) (hm : 0 < C.me) (he : 0 < C.e0) (hZ : 0 < C.Z) :
    coulombLog (Real.exp (-5)) 1e20 < 0 ∧ conductivity C (Real.exp (-5)) 1e20 < 0 := by
  have hlog : coulombLog (Real.exp (-5)) 1e20 = -0.9 := by
    unfold coulombLog
    rw [Real.log_exp, show (1e20 : ℝ) * 1e-20 = 1 by norm_num, Real.log_one]; norm_num
  have hneg : coulombLog (Real.exp (-5)) 1e20 < 0 := by rw [hlog]; norm_num
  refine ⟨hneg, ?_⟩
  obtain ⟨-, ⟨c, hc, h, -⟩, -⟩ := C92_conductivity C hq hm he hZ (Real.exp (-5)) 1e20 (Real.exp_pos _) (by norm_num)
  rw [h]
  refine div_neg_of_pos_of_neg (mul_pos hc (mul_pos (Real.exp_pos _) (pow_pos (Real.sqrt_pos.2 ?_) 3))) hneg
  have := Real.exp_pos (-5)
  positivity

/-- **C92 is violated: energies above `beta_max` are treated as local.** However many groups are used, a part
`exp(-β)(1 + β + β²/2 + β³/6 + β⁴/24)`, `β = beta_max`, of the Spitzer-Harm flux is not corrected: the factor of `C92_mode` stays
above it for every wave number. -/
theorem C92_tail_violated (C : Cfg) (hb : 0 < C.betaMax) (hn : 0 < C.ngroups) (lee lei k2 : ℝ) (hlee : 0 < lee) (hlei : 0 < lei)
    (hk : 0 ≤ k2) :
    Real.exp (-C.betaMax) * (1 + C.betaMax + C.betaMax ^ 2 / 2 + C.betaMax ^ 3 / 6 + C.betaMax ^ 4 / 24)
      ≤ 1 - ∑ i ∈ Finset.range C.ngroups, share C i * (kappa C lee lei k2 i / (1 + kappa C lee lei k2 i)) := by
  obtain ⟨w1, w2, -⟩ := C92_weights C hb.le hn
  have hsh : ∀ i : Nat, groupWeight (i * (C.betaMax / C.ngroups)) ((i + 1) * (C.betaMax / C.ngroups)) = share C i :=
    fun i => C92_weight _ _
  simp only [hsh] at w1 w2
  have : ∑ i ∈ Finset.range C.ngroups, share C i * (kappa C lee lei k2 i / (1 + kappa C lee lei k2 i))
      ≤ ∑ i ∈ Finset.range C.ngroups, share C i := by
    refine Finset.sum_le_sum fun i _ => mul_le_of_le_one_right (w1 i) ?_
    have hE : 0 ≤ energy C i := by unfold energy; positivity
    have : 0 ≤ kappa C lee lei k2 i := by unfold kappa; positivity
    rw [div_le_one (by linarith)]; linarith
  linarith

/-! ## A concrete world -/

/-- Two points of a periodic line: the flux between them, with the mean conductivity. -/
noncomputable def twoOp (K u : Bool → ℝ) : Bool → ℝ := fun p => (K true + K false) / 2 * (u (!p) - u p)

/-- The solution on the two points. -/
noncomputable def twoSolve (A B b : Bool → ℝ) : Bool → ℝ := fun p =>
  let m := -(B true + B false) / 2
  ((A (!p) + m) * b p + m * b (!p)) / (A true * A false + m * (A true + A false))

noncomputable def two : World Bool := ⟨twoOp, twoSolve⟩

theorem two_correct : Correct two twoOp := by
  intro A B b hA hB p
  have h1 := hA true
  have h2 := hA false
  have h3 := hB true
  have h4 := hB false
  have hm : 0 < -(B true + B false) / 2 := by linarith
  have hdet : A true * A false + -(B true + B false) / 2 * (A true + A false) ≠ 0 := by positivity
  have hB2 : (B true + B false) / 2 = -(-(B true + B false) / 2) := by ring
  cases p
  · simp only [two, twoSolve, twoOp, Bool.not_true, Bool.not_false, hB2]
    generalize -(B true + B false) / 2 = m at *
    field_simp
    ring
  · simp only [two, twoSolve, twoOp, Bool.not_true, Bool.not_false, hB2]
    generalize -(B true + B false) / 2 = m at *
    field_simp
    ring

theorem two_conserves (K u : Bool → ℝ) : ∑ p, 1 * twoOp K u p = 0 := by
  rw [Fintype.sum_bool]; simp only [twoOp, Bool.not_true, Bool.not_false]; ring

theorem two_neg (K u : Bool → ℝ) (p : Bool) : twoOp (fun q => -K q) u p = -twoOp K u p := by
  simp only [twoOp]; ring

theorem two_sub (K u v : Bool → ℝ) (p : Bool) : twoOp K (fun q => u q - v q) p = twoOp K u p - twoOp K v p := by
  simp only [twoOp]; ring

theorem two_dissipative : Dissipative twoOp := by
  intro K u hK
  rw [Fintype.sum_bool]
  simp only [twoOp, Bool.not_true, Bool.not_false]
  have h1 := hK true
  have h2 := hK false
  nlinarith [mul_nonneg (add_pos h1 h2).le (sq_nonneg (u true - u false))]

/-- Ten groups up to 10, with every constant 1. -/
noncomputable def plain : Cfg := ⟨1, 1, 1, 1, 2, 10, 10⟩

/-- `C92_conservation`, `C92_groups_partial`: their hypotheses hold on the two points at 1 and 2 eV and density `10^20`. -/
theorem C92_conservation_example :
    let te : Bool → ℝ := fun p => if p then 1 else 2
    let ne : Bool → ℝ := fun _ => 1e20
    Correct two twoOp ∧ (∀ K u, ∑ p, 1 * two.divKGrad K u p = 0) ∧ 0 < plain.ngroups ∧ 0 < plain.betaMax
    ∧ ∀ p, 0 < lambdaEePrime plain (te p) (ne p) ∧ 0 < lambdaEiPrime plain (te p) (ne p) := by
  intro te ne
  refine ⟨two_correct, two_conserves, by norm_num [plain], by norm_num [plain], ?_⟩
  have hlog : ∀ p, 0 < coulombLog (te p) (ne p) := by
    intro p
    unfold coulombLog
    have h1 : ne p * 1e-20 = 1 := by simp only [ne]; norm_num
    have h2 : 0 ≤ Real.log (te p) := Real.log_nonneg (by cases p <;> simp [te])
    rw [h1, Real.log_one]; linarith
  have hte : ∀ p, 0 < te p := by intro p; cases p <;> simp [te]
  have hee : ∀ p, 0 < lambdaEe plain (te p) (ne p) := by
    intro p
    have hv : 0 < thermalSpeed plain (te p) := Real.sqrt_pos.2 (by have := hte p; simp only [plain]; positivity)
    have hy : 0 < yConst plain := by
      have := Real.pi_pos
      simp only [yConst, plain]; positivity
    have hn : 0 < ne p := by simp only [ne]; norm_num
    have := hlog p
    unfold lambdaEe; positivity
  intro p
  have h := hee p
  constructor
  · unfold lambdaEePrime; exact div_pos h (by norm_num [plain])
  · unfold lambdaEiPrime lambdaEi
    exact mul_pos (div_pos h (by norm_num [plain])) (by norm_num [plain])

/-- `C92_mode`: the alternating field on the two points, `k² = 2`. -/
theorem C92_mode_example :
    let d : Bool → ℝ := fun p => if p then 1 else -1
    (∀ (K c : ℝ) p, twoOp (fun _ => K) (fun q => c * d q) p = -K * 2 * (c * d p)) ∧ Dissipative twoOp
    ∧ (∀ K u p, twoOp (fun q => -K q) u p = -twoOp K u p) ∧ (0 : ℝ) ≤ 2 := by
  intro d
  refine ⟨?_, two_dissipative, two_neg, by norm_num⟩
  intro K c p
  cases p <;> simp [twoOp, d] <;> ring

/-- `C92_isothermal`: a constant temperature. -/
theorem C92_isothermal_example : ∀ K p, two.divKGrad K (fun _ => 3) p = 0 := by
  intro K p; simp [two, twoOp]

end Verif.Snb
