import Verif.Physics.Snb

/-! # C92: theorems about the nonlocal electron heat flux -/
namespace Verif.Snb

open scoped BigOperators

variable {P : Type}

/-! ## Weights -/

theorem hasDeriv_int (b : ℝ) : HasDerivAt intBeta4Exp (b ^ 4 * Real.exp (-b)) b := by
  have h1 : HasDerivAt (fun b : ℝ => -Real.exp (-b)) (Real.exp (-b)) b := by
    refine (((hasDerivAt_id b).neg.exp).neg).congr_deriv ?_
    simp
  have h2 : HasDerivAt (fun b : ℝ => 24 + b * (24 + b * (12 + b * (4 + b)))) (24 + 24 * b + 12 * b ^ 2 + 4 * b ^ 3) b := by
    have hid := hasDerivAt_id b
    have := (hid.mul ((hid.mul ((hid.mul ((hid.const_add 4))).const_add 12)).const_add 24)).const_add 24
    refine this.congr_deriv ?_
    simp; ring
  refine (h1.mul h2).congr_deriv ?_
  ring

/-- **C92, weights.** The weight of a group is `1/24` of the integral of `β⁴ exp(-β)` over its energies. -/
theorem C92_weight (lo hi : ℝ) : groupWeight lo hi = 1 / 24 * ∫ b in lo..hi, b ^ 4 * Real.exp (-b) := by
  rw [groupWeight, intervalIntegral.integral_eq_sub_of_hasDerivAt (fun b _ => hasDeriv_int b)]
  exact (Continuous.intervalIntegrable (by fun_prop) _ _)

theorem weight_nonneg {lo hi : ℝ} (h : lo ≤ hi) : 0 ≤ groupWeight lo hi := by
  rw [C92_weight]
  have : 0 ≤ ∫ b in lo..hi, b ^ 4 * Real.exp (-b) :=
    intervalIntegral.integral_nonneg h (fun b _ => mul_nonneg (by positivity) (Real.exp_nonneg _))
  positivity

theorem weight_sum (dbeta : ℝ) (n : Nat) :
    ∑ i ∈ Finset.range n, groupWeight (i * dbeta) ((i + 1) * dbeta) = groupWeight 0 (n * dbeta) := by
  induction n with
  | zero => simp [groupWeight]
  | succ n ih =>
    rw [Finset.sum_range_succ, ih]
    push_cast
    unfold groupWeight; ring

theorem weight_zero (b : ℝ) : groupWeight 0 b = 1 - Real.exp (-b) * (1 + b + b ^ 2 / 2 + b ^ 3 / 6 + b ^ 4 / 24) := by
  unfold groupWeight intBeta4Exp
  rw [neg_zero, Real.exp_zero]; ring

/-- **C92, sum of the weights.** The weights of the groups are not negative and add up to less than one, to
`1 - exp(-β)(1 + β + β²/2 + β³/6 + β⁴/24)` at `β = beta_max`. -/
theorem C92_weights (C : Cfg) (hb : 0 ≤ C.betaMax) (hn : 0 < C.ngroups) :
    (∀ i : Nat, 0 ≤ groupWeight (i * (C.betaMax / C.ngroups)) ((i + 1) * (C.betaMax / C.ngroups)))
    ∧ ∑ i ∈ Finset.range C.ngroups, groupWeight (i * (C.betaMax / C.ngroups)) ((i + 1) * (C.betaMax / C.ngroups))
      = 1 - Real.exp (-C.betaMax) * (1 + C.betaMax + C.betaMax ^ 2 / 2 + C.betaMax ^ 3 / 6 + C.betaMax ^ 4 / 24)
    ∧ ∑ i ∈ Finset.range C.ngroups, groupWeight (i * (C.betaMax / C.ngroups)) ((i + 1) * (C.betaMax / C.ngroups)) < 1 := by
  have hn' : (C.ngroups : ℝ) ≠ 0 := by exact_mod_cast hn.ne'
  have hs := weight_sum (C.betaMax / C.ngroups) C.ngroups
  rw [mul_div_cancel₀ _ hn', weight_zero] at hs
  refine ⟨fun i => weight_nonneg ?_, hs, ?_⟩
  · have : 0 ≤ C.betaMax / C.ngroups := by positivity
    nlinarith
  · rw [hs]
    have : 0 < Real.exp (-C.betaMax) * (1 + C.betaMax + C.betaMax ^ 2 / 2 + C.betaMax ^ 3 / 6 + C.betaMax ^ 4 / 24) := by
      have := Real.exp_pos (-C.betaMax); positivity
    linarith

/-! ## The equations solved -/

/-- The upper energy of group `i`. -/
noncomputable def energy (C : Cfg) (i : Nat) : ℝ := ((i : ℝ) + 1) * (C.betaMax / C.ngroups)

/-- The share of group `i`, the integral in the manual. -/
noncomputable def share (C : Cfg) (i : Nat) : ℝ :=
  1 / 24 * ∫ b in ((i : ℝ) * (C.betaMax / C.ngroups))..(energy C i), b ^ 4 * Real.exp (-b)

theorem foldl_group (W : World P) (lee lei d : P → ℝ) (dbeta : ℝ) (n : Nat) :
    ((List.range n).foldl (group W lee lei d dbeta) (0, d)).1 = n * dbeta
    ∧ ∀ p, ((List.range n).foldl (group W lee lei d dbeta) (0, d)).2 p
      = d p - ∑ i ∈ Finset.range n, (groupWeight (i * dbeta) ((i + 1) * dbeta) * d p
        + W.solve (fun q => 1 / ((((i : ℝ) + 1) * dbeta) ^ 2 * lee q)) (fun q => -1 / 3 * ((((i : ℝ) + 1) * dbeta) ^ 2 * lei q))
            (fun q => -groupWeight (i * dbeta) ((i + 1) * dbeta) * d q) p / ((((i : ℝ) + 1) * dbeta) ^ 2 * lee p)) := by
  induction n with
  | zero => simp
  | succ n ih =>
    rw [List.range_succ, List.foldl_append]
    obtain ⟨i1, i2⟩ := ih
    simp only [List.foldl_cons, List.foldl_nil]
    generalize (List.range n).foldl (group W lee lei d dbeta) (0, d) = s at i1 i2
    have hb : s.1 + dbeta = ((n : ℝ) + 1) * dbeta := by rw [i1]; ring
    refine ⟨?_, ?_⟩
    · simp only [group, hb]; push_cast; ring
    · intro p
      rw [Finset.sum_range_succ, ← sub_sub, ← i2 p]
      simp only [group, hb]
      simp only [i1]

/-- The result written as a sum over the groups. -/
theorem corrected_eq (W : World P) (C : Cfg) (lee lei d : P → ℝ) (p : P) :
    corrected W C lee lei d p = d p - ∑ i ∈ Finset.range C.ngroups, (share C i * d p
        + W.solve (fun q => 1 / (energy C i ^ 2 * lee q)) (fun q => -(1 / 3) * (energy C i ^ 2 * lei q))
            (fun q => -share C i * d q) p / (energy C i ^ 2 * lee p)) := by
  have h := (foldl_group W lee lei d (C.betaMax / C.ngroups) C.ngroups).2 p
  have hw : ∀ i : Nat, groupWeight (i * (C.betaMax / C.ngroups)) ((i + 1) * (C.betaMax / C.ngroups)) = share C i :=
    fun i => C92_weight _ _
  simp only [hw] at h
  rw [corrected, h]
  simp only [energy, neg_div]

/-- The inversion is correct for well-posed problems: `A u + Div(B Grad u) = b` with `A > 0` and `B < 0`. -/
def Correct (W : World P) (op : (P → ℝ) → (P → ℝ) → P → ℝ) : Prop :=
  ∀ A B b, (∀ p, 0 < A p) → (∀ p, B p < 0) → ∀ p, A p * W.solve A B b p + op B (W.solve A B b) p = b p

/-- **C92, the groups' equations.** With positive mean free paths and a correct inversion the result is the Spitzer-Harm
divergence `D` minus the sum over the groups of `W_g D + H_g / λ_g,ee`, where `H_g` solves the equation of the manual,
`H_g / λ_g,ee - Div(λ_g,ei / 3 Grad H_g) = - W_g D`, with `λ_g,ee = β_g² λ_ee / r` and `λ_g,ei = β_g² λ_ei (Z + 0.25) / (Z + 4.2)`
(the manual has 0.24). -/
theorem C92_groups_partial (W : World P) (op : (P → ℝ) → (P → ℝ) → P → ℝ) (hW : Correct W op)
    (hop : ∀ K u p, op (fun q => -K q) u p = -op K u p) (C : Cfg) (hn : 0 < C.ngroups) (hb : 0 < C.betaMax)
    (te ne lee lei : P → ℝ) (hlee : ∀ p, lee p = lambdaEe C (te p) (ne p)) (hlei : ∀ p, lei p = lambdaEi C (te p) (ne p))
    (hpos : ∀ p, 0 < lee p / C.r ∧ 0 < lei p * ((C.Z + 0.25) / (C.Z + 4.2))) :
    ∃ H : Nat → P → ℝ,
      (∀ i, i < C.ngroups → ∀ p, H i p / (energy C i ^ 2 * lee p / C.r)
          - op (fun q => energy C i ^ 2 * lei q * ((C.Z + 0.25) / (C.Z + 4.2)) / 3) (H i) p
          = -(share C i * (divHeatFlux W C te ne).2 p))
      ∧ ∀ p, (divHeatFlux W C te ne).1 p = (divHeatFlux W C te ne).2 p - ∑ i ∈ Finset.range C.ngroups,
          (share C i * (divHeatFlux W C te ne).2 p + H i p / (energy C i ^ 2 * lee p / C.r)) := by
  have hE : ∀ i, 0 < energy C i := fun i => by
    unfold energy
    have : (0 : ℝ) < C.ngroups := by exact_mod_cast hn
    positivity
  have e1 : ∀ q, lambdaEePrime C (te q) (ne q) = lee q / C.r := fun q => by rw [lambdaEePrime, hlee]
  have e2 : ∀ q, lambdaEiPrime C (te q) (ne q) = lei q * ((C.Z + 0.25) / (C.Z + 4.2)) := fun q => by rw [lambdaEiPrime, hlei]
  refine ⟨fun i => W.solve (fun q => 1 / (energy C i ^ 2 * (lee q / C.r)))
      (fun q => -(1 / 3) * (energy C i ^ 2 * (lei q * ((C.Z + 0.25) / (C.Z + 4.2)))))
      (fun q => -share C i * (divHeatFlux W C te ne).2 q), ?_, ?_⟩
  · intro i _ p
    have hA : ∀ p, 0 < 1 / (energy C i ^ 2 * (lee p / C.r)) := fun p => by
      have := (hpos p).1; have := hE i; positivity
    have hB : ∀ p, -(1 / 3) * (energy C i ^ 2 * (lei p * ((C.Z + 0.25) / (C.Z + 4.2)))) < 0 := fun p => by
      have h1 := (hpos p).2
      have h2 : 0 < energy C i ^ 2 * (lei p * ((C.Z + 0.25) / (C.Z + 4.2))) := mul_pos (by have := hE i; positivity) h1
      linarith
    have h := hW _ _ (fun q => -share C i * (divHeatFlux W C te ne).2 q) hA hB p
    dsimp only
    rw [show (fun q => -(1 / 3) * (energy C i ^ 2 * (lei q * ((C.Z + 0.25) / (C.Z + 4.2)))))
      = fun q => -(energy C i ^ 2 * lei q * ((C.Z + 0.25) / (C.Z + 4.2)) / 3) from funext fun q => by ring] at h ⊢
    rw [hop] at h
    rw [mul_div_assoc, div_eq_mul_one_div]
    linear_combination h
  · intro p
    have h := corrected_eq W C (fun p => lambdaEePrime C (te p) (ne p)) (fun p => lambdaEiPrime C (te p) (ne p))
      (divSH W C te ne) p
    simp only [e1, e2] at h
    show corrected W C (fun p => lambdaEePrime C (te p) (ne p)) (fun p => lambdaEiPrime C (te p) (ne p))
      (divSH W C te ne) p = _
    simp only [e1, e2]
    rw [h]
    simp only [mul_div_assoc]
    rfl

/-- **C92, conservation.** With operators that conserve (the volume integrals of their results vanish) and a correct inversion,
the volume integral of the result vanishes: the model moves heat and makes none. -/
theorem C92_conservation [Fintype P] (W : World P) (op : (P → ℝ) → (P → ℝ) → P → ℝ) (hW : Correct W op) (J : P → ℝ)
    (h1 : ∀ K u, ∑ p, J p * W.divKGrad K u p = 0) (h2 : ∀ K u, ∑ p, J p * op K u p = 0) (C : Cfg) (hn : 0 < C.ngroups)
    (hb : 0 < C.betaMax) (te ne : P → ℝ)
    (hpos : ∀ p, 0 < lambdaEePrime C (te p) (ne p) ∧ 0 < lambdaEiPrime C (te p) (ne p)) :
    ∑ p, J p * (divHeatFlux W C te ne).2 p = 0 ∧ ∑ p, J p * (divHeatFlux W C te ne).1 p = 0 := by
  have hE : ∀ i, 0 < energy C i := fun i => by
    unfold energy
    have : (0 : ℝ) < C.ngroups := by exact_mod_cast hn
    positivity
  have hd : ∑ p, J p * (divHeatFlux W C te ne).2 p = 0 := by
    have : ∀ p, J p * (divHeatFlux W C te ne).2 p
        = -(J p * W.divKGrad (fun q => conductivity C (te q) (ne q)) te p) := fun p => by
      show J p * -_ = _
      ring
    rw [Finset.sum_congr rfl fun p _ => this p, Finset.sum_neg_distrib, h1, neg_zero]
  refine ⟨hd, ?_⟩
  have hr : ∀ p, J p * (divHeatFlux W C te ne).1 p = J p * (divHeatFlux W C te ne).2 p
      + ∑ i ∈ Finset.range C.ngroups, J p * op (fun q => -(1 / 3) * (energy C i ^ 2 * lambdaEiPrime C (te q) (ne q)))
          (W.solve (fun q => 1 / (energy C i ^ 2 * lambdaEePrime C (te q) (ne q)))
            (fun q => -(1 / 3) * (energy C i ^ 2 * lambdaEiPrime C (te q) (ne q)))
            (fun q => -share C i * divSH W C te ne q)) p := by
    intro p
    show J p * corrected W C _ _ (divSH W C te ne) p = J p * divSH W C te ne p + _
    rw [corrected_eq, mul_sub, sub_eq_add_neg, ← Finset.mul_sum, ← mul_neg, ← Finset.sum_neg_distrib]
    congr 2
    refine Finset.sum_congr rfl fun i _ => ?_
    have hA : ∀ p, 0 < 1 / (energy C i ^ 2 * lambdaEePrime C (te p) (ne p)) := fun p => by
      have := (hpos p).1; have := hE i; positivity
    have hB : ∀ p, -(1 / 3) * (energy C i ^ 2 * lambdaEiPrime C (te p) (ne p)) < 0 := fun p => by
      have h1 := (hpos p).2
      have h2 : 0 < energy C i ^ 2 * lambdaEiPrime C (te p) (ne p) := mul_pos (by have := hE i; positivity) h1
      linarith
    have h := hW _ _ (fun q => -share C i * divSH W C te ne q) hA hB p
    rw [div_eq_mul_one_div]
    linear_combination -h
  rw [Finset.sum_congr rfl fun p _ => hr p, Finset.sum_add_distrib, hd, zero_add, Finset.sum_comm]
  exact Finset.sum_eq_zero fun i _ => h2 _ _

/-! ## Flux reduction -/

/-- A parallel operator whose diffusion loses energy: for positive conductivity, `∑ u Div(K Grad u) ≤ 0`. -/
def Dissipative [Fintype P] (op : (P → ℝ) → (P → ℝ) → P → ℝ) : Prop :=
  ∀ K u, (∀ p, 0 < K p) → ∑ p, u p * op K u p ≤ 0

/-- The factor by which a group reduces a mode: `κ / (1 + κ)` of its share, `κ = λ_g,ee λ_g,ei k² / 3`. -/
noncomputable def kappa (C : Cfg) (lee lei k2 : ℝ) (i : Nat) : ℝ := energy C i ^ 2 * lee * (energy C i ^ 2 * lei) * k2 / 3

theorem solve_unique [Fintype P] (op : (P → ℝ) → (P → ℝ) → P → ℝ) (hop : ∀ K u p, op (fun q => -K q) u p = -op K u p)
    (hsub : ∀ K u v p, op K (fun q => u q - v q) p = op K u p - op K v p) (hdis : Dissipative op) (A B b u v : P → ℝ)
    (hA : ∀ p, 0 < A p) (hB : ∀ p, B p < 0) (hu : ∀ p, A p * u p + op B u p = b p) (hv : ∀ p, A p * v p + op B v p = b p) :
    u = v := by
  have hw : ∀ p, A p * (u p - v p) = op (fun q => -B q) (fun q => u q - v q) p := by
    intro p
    rw [hop, hsub]
    have := hu p; have := hv p; linarith
  have h1 : ∑ p, A p * (u p - v p) ^ 2 ≤ 0 := by
    calc ∑ p, A p * (u p - v p) ^ 2 = ∑ p, (u p - v p) * op (fun q => -B q) (fun q => u q - v q) p :=
          Finset.sum_congr rfl fun p _ => by rw [← hw p]; ring
      _ ≤ 0 := hdis _ _ fun p => by have := hB p; linarith
  have h2 := (Finset.sum_eq_zero_iff_of_nonneg (fun p _ => mul_nonneg (hA p).le (sq_nonneg (u p - v p)))).1
    (le_antisymm h1 (Finset.sum_nonneg fun p _ => mul_nonneg (hA p).le (sq_nonneg (u p - v p))))
  funext p
  have h3 := h2 p (Finset.mem_univ p)
  have h4 := (mul_eq_zero.1 h3).resolve_left (hA p).ne'
  have h5 := pow_eq_zero_iff (two_ne_zero) |>.1 h4
  linarith

/-- **C92, flux reduction.** For constant positive mean free paths and a Spitzer-Harm divergence in one Fourier mode (`Div(K
Grad φ) = - K k² φ`), the result is the Spitzer-Harm one times a factor `1 - ∑ W_g κ_g / (1 + κ_g)`, which lies between 0 and 1
and differs from 1 by at most `λ_ee λ_ei k² β_max⁴ / 3`: the flux is reduced, never reversed, and local for short mean free
paths. -/
theorem C92_mode [Fintype P] (W : World P) (op : (P → ℝ) → (P → ℝ) → P → ℝ) (hW : Correct W op)
    (hop : ∀ K u p, op (fun q => -K q) u p = -op K u p)
    (hsub : ∀ K u v p, op K (fun q => u q - v q) p = op K u p - op K v p) (hdis : Dissipative op) (C : Cfg)
    (hn : 0 < C.ngroups) (hb : 0 < C.betaMax) (lee lei k2 : ℝ) (hlee : 0 < lee) (hlei : 0 < lei) (hk : 0 ≤ k2) (d : P → ℝ)
    (hmode : ∀ (K c : ℝ) p, op (fun _ => K) (fun q => c * d q) p = -K * k2 * (c * d p)) :
    let factor := 1 - ∑ i ∈ Finset.range C.ngroups, share C i * (kappa C lee lei k2 i / (1 + kappa C lee lei k2 i))
    (∀ p, corrected W C (fun _ => lee) (fun _ => lei) d p = factor * d p) ∧ 0 < factor ∧ factor ≤ 1
    ∧ 1 - factor ≤ lee * lei * k2 / 3 * C.betaMax ^ 4 := by
  intro factor
  have hn' : (0 : ℝ) < C.ngroups := by exact_mod_cast hn
  have hE : ∀ i, 0 < energy C i := fun i => by unfold energy; positivity
  have hE2 : ∀ i, i < C.ngroups → energy C i ≤ C.betaMax := by
    intro i hi
    unfold energy
    have : (i : ℝ) + 1 ≤ C.ngroups := by exact_mod_cast hi
    calc ((i : ℝ) + 1) * (C.betaMax / C.ngroups) ≤ C.ngroups * (C.betaMax / C.ngroups) :=
          mul_le_mul_of_nonneg_right this (by positivity)
      _ = C.betaMax := by field_simp
  have hkap : ∀ i, 0 ≤ kappa C lee lei k2 i := fun i => by unfold kappa; have := hE i; positivity
  obtain ⟨w1, -, w3⟩ := C92_weights C hb.le hn
  have hsh : ∀ i : Nat, groupWeight (i * (C.betaMax / C.ngroups)) ((i + 1) * (C.betaMax / C.ngroups)) = share C i :=
    fun i => C92_weight _ _
  simp only [hsh] at w1 w3
  have hfrac : ∀ i, 0 ≤ kappa C lee lei k2 i / (1 + kappa C lee lei k2 i)
      ∧ kappa C lee lei k2 i / (1 + kappa C lee lei k2 i) ≤ 1
      ∧ kappa C lee lei k2 i / (1 + kappa C lee lei k2 i) ≤ kappa C lee lei k2 i := by
    intro i
    have h := hkap i
    refine ⟨by positivity, ?_, ?_⟩
    · rw [div_le_one (by linarith)]; linarith
    · rw [div_le_iff₀ (by linarith)]; nlinarith
  refine ⟨?_, ?_, ?_, ?_⟩
  · intro p
    rw [corrected_eq]
    have hsol : ∀ i, W.solve (fun _ => 1 / (energy C i ^ 2 * lee)) (fun _ => -(1 / 3) * (energy C i ^ 2 * lei))
        (fun q => -share C i * d q)
        = fun q => -share C i * (energy C i ^ 2 * lee) / (1 + kappa C lee lei k2 i) * d q := by
      intro i
      have hA : ∀ _ : P, 0 < 1 / (energy C i ^ 2 * lee) := fun _ => by have := hE i; positivity
      have hB : ∀ _ : P, -(1 / 3) * (energy C i ^ 2 * lei) < 0 := fun _ => by
        have : 0 < energy C i ^ 2 * lei := by have := hE i; positivity
        linarith
      refine solve_unique op hop hsub hdis _ _ _ _ _ hA hB (hW _ _ _ hA hB) ?_
      intro p
      rw [hmode]
      have h := hkap i
      have h1 : 1 + kappa C lee lei k2 i ≠ 0 := by linarith
      have h2 : energy C i ≠ 0 := (hE i).ne'
      have h3 : kappa C lee lei k2 i = energy C i ^ 2 * lee * (energy C i ^ 2 * lei) * k2 / 3 := rfl
      have h4 : energy C i ^ 2 * lee ≠ 0 := by positivity
      generalize hx : kappa C lee lei k2 i = x at *
      rw [one_div]
      have : -(-(1 / 3) * (energy C i ^ 2 * lei)) * k2 = x / (energy C i ^ 2 * lee) := by
        rw [h3]; field_simp
      rw [this]
      field_simp
      try ring
    have hterm : ∀ i, share C i * d p + W.solve (fun _ => 1 / (energy C i ^ 2 * lee))
        (fun _ => -(1 / 3) * (energy C i ^ 2 * lei)) (fun q => -share C i * d q) p / (energy C i ^ 2 * lee)
        = share C i * (kappa C lee lei k2 i / (1 + kappa C lee lei k2 i)) * d p := by
      intro i
      rw [hsol]
      have h := hkap i
      have h1 : 1 + kappa C lee lei k2 i ≠ 0 := by linarith
      have h2 : energy C i ≠ 0 := (hE i).ne'
      field_simp
      ring
    rw [Finset.sum_congr rfl fun i _ => hterm i, ← Finset.sum_mul]
    simp only [factor]; ring
  · have : ∑ i ∈ Finset.range C.ngroups, share C i * (kappa C lee lei k2 i / (1 + kappa C lee lei k2 i))
        ≤ ∑ i ∈ Finset.range C.ngroups, share C i :=
      Finset.sum_le_sum fun i _ => mul_le_of_le_one_right (w1 i) (hfrac i).2.1
    simp only [factor]; linarith
  · have : 0 ≤ ∑ i ∈ Finset.range C.ngroups, share C i * (kappa C lee lei k2 i / (1 + kappa C lee lei k2 i)) :=
      Finset.sum_nonneg fun i _ => mul_nonneg (w1 i) (hfrac i).1
    simp only [factor]; linarith
  · have hle : ∀ i ∈ Finset.range C.ngroups, share C i * (kappa C lee lei k2 i / (1 + kappa C lee lei k2 i))
        ≤ share C i * (lee * lei * k2 / 3 * C.betaMax ^ 4) := by
      intro i hi
      refine mul_le_mul_of_nonneg_left ((hfrac i).2.2.trans ?_) (w1 i)
      have h4 : energy C i ^ 4 ≤ C.betaMax ^ 4 := pow_le_pow_left₀ (hE i).le (hE2 i (Finset.mem_range.1 hi)) 4
      have hc : 0 ≤ lee * lei * k2 / 3 := by positivity
      calc kappa C lee lei k2 i = lee * lei * k2 / 3 * energy C i ^ 4 := by unfold kappa; ring
        _ ≤ _ := mul_le_mul_of_nonneg_left h4 hc
    have hs := Finset.sum_le_sum hle
    rw [← Finset.sum_mul] at hs
    have hc : 0 ≤ lee * lei * k2 / 3 * C.betaMax ^ 4 := by positivity
    have h2 := mul_le_of_le_one_left hc w3.le
    simp only [factor]; linarith

/-- **C92, no gradient.** Without a Spitzer-Harm flux there is no nonlocal flux. -/
theorem C92_isothermal [Fintype P] (W : World P) (op : (P → ℝ) → (P → ℝ) → P → ℝ) (hW : Correct W op)
    (hop : ∀ K u p, op (fun q => -K q) u p = -op K u p)
    (hsub : ∀ K u v p, op K (fun q => u q - v q) p = op K u p - op K v p) (hdis : Dissipative op) (C : Cfg)
    (hn : 0 < C.ngroups) (hb : 0 < C.betaMax) (te ne : P → ℝ)
    (hpos : ∀ p, 0 < lambdaEePrime C (te p) (ne p) ∧ 0 < lambdaEiPrime C (te p) (ne p))
    (h0 : ∀ K p, W.divKGrad K te p = 0) (p : P) : (divHeatFlux W C te ne).1 p = 0 := by
  have hE : ∀ i, 0 < energy C i := fun i => by
    unfold energy
    have : (0 : ℝ) < C.ngroups := by exact_mod_cast hn
    positivity
  have hd : divSH W C te ne = fun _ => 0 := by funext q; simp [divSH, h0]
  show corrected W C _ _ (divSH W C te ne) p = 0
  rw [corrected_eq, hd]
  simp only [mul_zero, zero_add, zero_sub, neg_eq_zero]
  refine Finset.sum_eq_zero fun i _ => ?_
  have hA : ∀ p, 0 < 1 / (energy C i ^ 2 * lambdaEePrime C (te p) (ne p)) := fun p => by
    have := (hpos p).1; have := hE i; positivity
  have hB : ∀ p, -(1 / 3) * (energy C i ^ 2 * lambdaEiPrime C (te p) (ne p)) < 0 := fun p => by
    have h1 := (hpos p).2
    have h2 : 0 < energy C i ^ 2 * lambdaEiPrime C (te p) (ne p) := mul_pos (by have := hE i; positivity) h1
    linarith
  have hz : ∀ K p, op K (fun _ => 0) p = 0 := by
    intro K p
    have := hsub K (fun _ => 0) (fun _ => 0) p
    simpa using this
  have := solve_unique op hop hsub hdis _ _ (fun _ => 0) _ (fun _ => 0) hA hB (hW _ _ _ hA hB)
    (fun q => by rw [hz]; ring)
  rw [this]; simp

/-! ## Conductivity -/

/-- **C92, conductivity.** It is that of the manual, `n e T / m (3√π / 4) τ 13.58 (Z + 0.24) / (Z + 4.2)` with
`τ = λ_ei / v`, `λ_ei = v⁴ / (Y Z n lnΛ)`, `v = √(2 e T / m)` and `Y = 4π (e² / (4π ε₀ m))²`; it depends on the density only
through the Coulomb logarithm and is proportional to `v³ T` otherwise; it is positive exactly if the Coulomb logarithm is. -/
theorem C92_conductivity (C : Cfg) (hq : 0 < C.qe) (hm : 0 < C.me) (he : 0 < C.e0) (hZ : 0 < C.Z) (te ne : ℝ) (ht : 0 < te)
    (hn : 0 < ne) :
    let v := Real.sqrt (2 * C.qe * te / C.me)
    let Y := 4 * Real.pi * (C.qe ^ 2 / (4 * Real.pi * C.e0 * C.me)) ^ 2
    conductivity C te ne = ne * C.qe * te / C.me * (3 * Real.sqrt Real.pi / 4) * (v ^ 4 / (Y * C.Z * ne * coulombLog te ne) / v)
        * 13.58 * ((C.Z + 0.24) / (C.Z + 4.2))
    ∧ (∃ c : ℝ, 0 < c ∧ conductivity C te ne = c * (te * v ^ 3) / coulombLog te ne
        ∧ c = C.qe / C.me * (3 * Real.sqrt Real.pi / 4) / (Y * C.Z) * 13.58 * ((C.Z + 0.24) / (C.Z + 4.2)))
    ∧ (0 < conductivity C te ne ↔ 0 < coulombLog te ne) := by
  intro v Y
  have hpi := Real.pi_pos
  have hv : 0 < v := Real.sqrt_pos.2 (by positivity)
  have hY : yConst C = Y := by
    simp only [yConst, Y]; field_simp; try ring
  have hYp : 0 < Y := by positivity
  have hsp : 0 < Real.sqrt Real.pi := Real.sqrt_pos.2 hpi
  have h1 : conductivity C te ne = ne * C.qe * te / C.me * (3 * Real.sqrt Real.pi / 4)
      * (v ^ 4 / (Y * C.Z * ne * coulombLog te ne) / v) * 13.58 * ((C.Z + 0.24) / (C.Z + 4.2)) := by
    have : tauEi C te ne = v ^ 4 / (Y * C.Z * ne * coulombLog te ne) / v := by
      show v ^ 4 / (yConst C * ne * coulombLog te ne) / C.Z / v = _
      rw [hY, div_div (v ^ 4)]
      congr 2; ring
    rw [conductivity, this]; ring
  have h2 : conductivity C te ne = C.qe / C.me * (3 * Real.sqrt Real.pi / 4) / (Y * C.Z) * 13.58 * ((C.Z + 0.24) / (C.Z + 4.2))
      * (te * v ^ 3) / coulombLog te ne := by
    rw [h1]
    rcases eq_or_ne (coulombLog te ne) 0 with h | h
    · simp [h]
    · field_simp
  have hc : 0 < C.qe / C.me * (3 * Real.sqrt Real.pi / 4) / (Y * C.Z) * 13.58 * ((C.Z + 0.24) / (C.Z + 4.2)) := by positivity
  refine ⟨h1, ⟨_, hc, h2, rfl⟩, ?_⟩
  rw [h2]
  have hnum := mul_pos hc (mul_pos ht (pow_pos hv 3))
  constructor
  · intro h
    by_contra hh
    exact absurd h (not_lt.2 (div_nonpos_of_nonneg_of_nonpos hnum.le (not_lt.1 hh)))
  · intro h; exact div_pos hnum h

/-- **C92, Coulomb logarithm.** That of the manual: 6.6 at 1 eV and `10^20` particles, lower by `ln a` for `a²` times the density,
higher by `3/2 ln a` for `a` times the temperature. -/
theorem C92_coulomb (te ne a : ℝ) (ht : 0 < te) (hn : 0 < ne) (ha : 0 < a) :
    coulombLog 1 1e20 = 6.6 ∧ coulombLog te (a ^ 2 * ne) = coulombLog te ne - Real.log a
    ∧ coulombLog (a * te) ne = coulombLog te ne + 3 / 2 * Real.log a := by
  refine ⟨?_, ?_, ?_⟩
  · unfold coulombLog
    rw [show (1e20 : ℝ) * 1e-20 = 1 by norm_num, Real.log_one]; norm_num
  · unfold coulombLog
    have h : 0 < ne * 1e-20 := by positivity
    rw [show a ^ 2 * ne * 1e-20 = a ^ 2 * (ne * 1e-20) by ring, Real.log_mul (by positivity) h.ne', Real.log_pow]
    push_cast; ring
  · unfold coulombLog
    rw [Real.log_mul ha.ne' ht.ne']; ring

end Verif.Snb
