import Verif.Solver.SlepcThms

/-! # C89: what the code gets wrong, and concrete cases -/
namespace Verif.Slepc

open Complex

/-- The model `df/dt = l f` for one complex number. -/
noncomputable def scalarModel (l : ℂ) : Module.End ℂ ℂ := l • (1 : Module.End ℂ ℂ)

theorem scalarModel_apply (l x : ℂ) : scalarModel l x = l * x := by simp [scalarModel]

/-- Its exact advance solver. -/
theorem scalar_exact (l : ℂ) (T : ℝ) : Exact (scalarModel l) (scalarModel (exp (l * T))) T := by
  refine ⟨fun x => ?_, ?_⟩
  · simp only [scalarModel_apply]; ring
  · intro m x hx
    simp only [scalarModel_apply, smul_eq_mul] at hx ⊢
    rcases eq_or_ne x 0 with h | h
    · simp [h]
    · rw [mul_right_cancel₀ h hx]

theorem scalar_mode (w : ℂ) : Mode (scalarModel (-I * w)) w :=
  ⟨1, one_ne_zero, by simp [scalarModel_apply]⟩

theorem scalar_mode_only (l w : ℂ) (h : Mode (scalarModel l) w) : l = -I * w := by
  obtain ⟨x, hx, he⟩ := h
  simp only [scalarModel_apply, smul_eq_mul] at he
  exact mul_right_cancel₀ hx he

/-- A run with an advance solver over `n` steps of length `dt`. -/
def external (dt : ℝ) (n : Nat) : Cfg := ⟨false, false, dt, n, false⟩
/-- A run of the model's own Euler step. -/
def euler (dt : ℝ) (n : Nat) : Cfg := ⟨false, true, dt, n, false⟩
/-- A run in `ddtMode`. -/
def deriv (n : Nat) : Cfg := ⟨true, false, 1, n, false⟩

/-- **C89 is violated: a fast frequency is reported as another.** With an exact advance solver and time 1 the only frequency
of this model is 2π, and zero is reported. -/
theorem C89_aliasing_violated :
    ∃ (F ext : Module.End ℂ ℂ) (mu : ℂ), Exact F ext ((external 1 1).time 1) ∧ Eigen (advance (external 1 1) F ext) mu
      ∧ mu ≠ 0 ∧ slepcToBout (external 1 1) (external 1 1).steps false mu = 0 ∧ ¬ Mode F 0 ∧ Mode F (2 * Real.pi) := by
  have hT : (external 1 1).time 1 = 1 := by simp [external, Cfg.time]
  have he : exp (-I * (2 * Real.pi) * ((1 : ℝ) : ℂ)) = 1 := by
    rw [show -I * (2 * Real.pi) * ((1 : ℝ) : ℂ) = -(2 * Real.pi * I) by push_cast; ring, exp_neg, exp_two_pi_mul_I, inv_one]
  have hx := scalar_exact (-I * (2 * Real.pi)) 1
  rw [he] at hx
  refine ⟨scalarModel (-I * (2 * Real.pi)), scalarModel 1, 1, by rw [hT]; exact hx, ?_, one_ne_zero, ?_, ?_, scalar_mode _⟩
  · refine ⟨1, one_ne_zero, ?_⟩
    simp [advance, external, Cfg.self, scalarModel]
  · simp [slepcToBout, external]
  · intro h
    have := scalar_mode_only _ _ h
    simp [Real.pi_ne_zero] at this

/-- **C89 is violated: the Euler step's error is in the report.** The fields of this model grow at rate 1; reported is log 2,
less than 1 and no frequency of the model. -/
theorem C89_euler_violated (n : Nat) (ext : Module.End ℂ ℂ) :
    Mode (scalarModel 1) I ∧ Eigen (advance (euler 1 n) (scalarModel 1) ext) 2
    ∧ slepcToBout (euler 1 n) (euler 1 n).steps false 2 = I * (Real.log 2 : ℝ) ∧ Real.log 2 < 1
    ∧ ¬ Mode (scalarModel 1) (I * (Real.log 2 : ℝ)) := by
  have hlog : Real.log 2 < 1 := by
    have := Real.log_lt_sub_one_of_pos (x := 2) (by norm_num) (by norm_num)
    linarith
  refine ⟨?_, ?_, ?_, hlog, ?_⟩
  · have := scalar_mode I
    rwa [show -I * I = 1 by linear_combination (-1 : ℂ) * I_sq] at this
  · refine ⟨1, one_ne_zero, ?_⟩
    simp [advance, euler, Cfg.self, scalarModel]
    norm_num
  · simp [slepcToBout, euler, Cfg.steps, Cfg.self, Cfg.time]
  · intro h
    have h1 := scalar_mode_only _ _ h
    rw [show -I * (I * ((Real.log 2 : ℝ) : ℂ)) = ((Real.log 2 : ℝ) : ℂ) by linear_combination (-(Real.log 2 : ℝ) : ℂ) * I_sq] at h1
    have h2 : (1 : ℝ) = Real.log 2 := by exact_mod_cast h1
    linarith

/-- **C89 is violated: the default target loses the phase.** In `ddtMode` a wanted frequency of 2 is the eigenvalue `-2i`, but
SLEPc is told to look near 2: the eigenvalue 2 (growth rate 2, frequency 0) is at distance 0 from it. -/
theorem C89_target_violated (n : Nat) :
    boutToSlepc (deriv n) n false 2 = -2 * I ∧ defaultTarget (deriv n) 2 = 2
    ∧ slepcToBout (deriv n) (deriv n).steps false (-2 * I) = 2 ∧ slepcToBout (deriv n) (deriv n).steps false 2 = 2 * I
    ∧ ‖(2 : ℂ) - (defaultTarget (deriv n) 2 : ℝ)‖ < ‖(-2 * I : ℂ) - (defaultTarget (deriv n) 2 : ℝ)‖ := by
  have hb : boutToSlepc (deriv n) n false 2 = -2 * I := by
    simp [boutToSlepc, deriv]; ring
  have ht : defaultTarget (deriv n) 2 = 2 := by
    unfold defaultTarget
    rw [if_neg two_ne_zero]
    have : boutToSlepc { deriv n with shell := false } (deriv n).nout false 2 = -2 * I := hb
    rw [this]; simp
  refine ⟨hb, ht, ?_, ?_, ?_⟩
  · have : ¬ ‖(-2 * I : ℂ)‖ < 1.0e-10 := by simp; norm_num
    simp only [slepcToBout, deriv, Bool.false_and, Bool.false_eq_true, if_false, true_and, if_true]
    rw [if_neg this]
    linear_combination (-2 : ℂ) * I_sq
  · have : ¬ ‖(2 : ℂ)‖ < 1.0e-10 := by simp; norm_num
    simp only [slepcToBout, deriv, Bool.false_and, Bool.false_eq_true, if_false, true_and, if_true]
    rw [if_neg this]
  · rw [ht]
    have h0 : (2 : ℂ) - ((2 : ℝ) : ℂ) = 0 := by push_cast; ring
    rw [h0, norm_zero, norm_pos_iff]
    intro h
    have := congrArg im h
    simp at this

/-- **C89 is violated: with an Euler step the target is computed for another time.** The default target uses the number of
output steps asked for, the conversion of results one step: a wanted growth rate of 1 gives the target `exp 2` with 2 steps,
and an eigenvalue there is reported as growth rate 2. -/
theorem C89_target_steps_violated :
    defaultTarget (euler 1 2) I = Real.exp 2
    ∧ slepcToBout (euler 1 2) (euler 1 2).steps false (Real.exp 2 : ℝ) = 2 * I := by
  constructor
  · unfold defaultTarget
    rw [if_neg I_ne_zero]
    have : boutToSlepc { euler 1 2 with shell := false } (euler 1 2).nout false I = ((Real.exp 2 : ℝ) : ℂ) := by
      simp [boutToSlepc, euler, Cfg.time]
    rw [this, norm_real, Real.norm_eq_abs, abs_of_pos (Real.exp_pos 2)]
  · have : log (((Real.exp 2 : ℝ)) : ℂ) = 2 := by
      rw [← ofReal_log (Real.exp_pos 2).le, Real.log_exp]; norm_num
    simp only [slepcToBout, euler, Cfg.steps, Cfg.self, Cfg.time, Bool.false_and, Bool.false_or, Bool.false_eq_true, if_false,
      if_true, false_and]
    rw [this]; simp; ring

/-- **C89 is violated: auxiliary fields of the imaginary part are stale.** They are written with the values of the real part
unless the model computes the same for both. -/
theorem C89_aux_violated {V W : Type} (C : Cfg) (g : V → W) (mu : ℂ) (re im : V) (h : g re ≠ g im) :
    ∃ r, (analyse C g [(mu, re, im)])[1]? = some r ∧ r.fields = im ∧ r.aux ≠ g im :=
  ⟨_, rfl, rfl, h⟩

/-- **C89 is violated: progress.** The number of eigenvalues reported survives the solve: the second of two equal solves whose
eigenvalues converge at once reports nothing; and if the number of converged eigenvalues falls and rises again in one solve, an
eigenvalue is reported twice. -/
theorem C89_monitor_violated :
    (monitorRun 0 [(1, 2)]).2 = [0, 1] ∧ (monitorRun (monitorRun 0 [(1, 2)]).1 [(1, 2)]).2 = []
    ∧ (monitorRun 0 [(1, 2), (2, 1), (3, 2)]).2 = [0, 1, 1] := by
  decide

/-! ## Concrete cases -/

/-- `C89_round_trip`, `C89_ddt`: a run in `ddtMode` of a model with frequency 2. -/
theorem C89_ddt_example :
    (deriv 3).ddtMode = true ∧ (deriv 3).shell = false ∧ Mode (scalarModel (-I * 2)) 2 ∧ (1.0e-10 : ℝ) ≤ ‖(2 : ℂ)‖ := by
  refine ⟨rfl, rfl, scalar_mode 2, ?_⟩
  norm_num

/-- `C89_advance_partial`, `C89_advance_complete`: three steps of 1/2, frequency 1 and growth rate 1/4. -/
theorem C89_advance_example :
    let C := external (1 / 2) 3
    let w : ℂ := 1 + I / 4
    let F := scalarModel (-I * w)
    C.ddtMode = false ∧ C.selfSolve = false ∧ C.shell = false ∧ C.time C.nout ≠ 0
    ∧ (∃ ext, Exact F ext (C.time C.nout)) ∧ F 1 = (-I * w) • (1 : ℂ) ∧ |w.re * C.time C.nout| < Real.pi
    ∧ ∀ w', Mode F w' → |w'.re * C.time C.nout| < Real.pi := by
  intro C w F
  have hre : w.re = 1 := by simp [w]
  have ht : C.time C.nout = 3 / 2 := by
    simp only [C, external, Cfg.time]; norm_num
  have hb : |w.re * C.time C.nout| < Real.pi := by
    rw [hre, ht, abs_of_pos (by norm_num)]
    linarith [Real.two_le_pi]
  refine ⟨rfl, rfl, rfl, by rw [ht]; norm_num, ⟨_, scalar_exact _ _⟩, by simp [F, scalarModel_apply], hb, ?_⟩
  intro w' hw'
  have h1 := scalar_mode_only _ _ hw'
  have h2 : w' = w := (mul_left_cancel₀ (neg_ne_zero.2 I_ne_zero) h1).symm
  rw [h2]; exact hb

/-- `C89_monitor_partial`: a solve of three calls. -/
theorem C89_monitor_example :
    (∀ c ∈ [(1, 0), (2, 2), (3, 3)], 1 ≤ c.1) ∧ (0 :: [(1, 0), (2, 2), (3, 3)].map Prod.snd).IsChain (· ≤ ·)
    ∧ (monitorRun 0 [(1, 0), (2, 2), (3, 3)]).2 = [0, 1, 2] := by
  decide

end Verif.Slepc
