import Verif.Solver.Slepc

/-! # C89: theorems about the SLEPc eigenvalue solver -/
namespace Verif.Slepc

open Complex

variable {V : Type} [AddCommGroup V] [Module ℂ V]

/-! ## Specification -/

/-- `l` is an eigenvalue of the operator. -/
def Eigen (A : Module.End ℂ V) (l : ℂ) : Prop := ∃ x, x ≠ 0 ∧ A x = l • x

/-- `w` is a frequency of the model: fields proportional to `exp(-i w t)` solve `df/dt = F f`. -/
def Mode (F : Module.End ℂ V) (w : ℂ) : Prop := Eigen F (-I * w)

/-- The advance solver is exact: it commutes with the right-hand side, and every solution `x exp(l t)` is advanced by the
time `T`. -/
structure Exact (F ext : Module.End ℂ V) (T : ℝ) : Prop where
  commutes : ∀ x, ext (F x) = F (ext x)
  advances : ∀ l x, F x = l • x → ext x = exp (l * T) • x

/-! ## Conversions -/

/-- **C89, conversions.** Without a spectral transformation, converting a frequency and back gives it again if its real part
times the time of the run is between -π and π (in `ddtMode`: if it is not tiny), and converting a non-zero eigenvalue and back
always does. -/
theorem C89_round_trip (C : Cfg) (s : Nat) (hsh : C.shell = false) :
    (∀ w : ℂ, C.ddtMode = true → 1.0e-10 ≤ ‖w‖ → slepcToBout C s false (boutToSlepc C s false w) = w)
    ∧ (∀ w : ℂ, C.ddtMode = false → C.time s ≠ 0 → -Real.pi < -(w.re * C.time s) → -(w.re * C.time s) ≤ Real.pi →
        slepcToBout C s false (boutToSlepc C s false w) = w)
    ∧ (∀ mu : ℂ, C.ddtMode = true → 1.0e-10 ≤ ‖mu‖ → boutToSlepc C s false (slepcToBout C s false mu) = mu)
    ∧ (∀ mu : ℂ, C.ddtMode = false → C.time s ≠ 0 → mu ≠ 0 → boutToSlepc C s false (slepcToBout C s false mu) = mu) := by
  refine ⟨?_, ?_, ?_, ?_⟩
  · intro w hd hw
    simp only [slepcToBout, boutToSlepc, hsh, hd, Bool.false_and, Bool.false_eq_true, if_false, if_true, true_and]
    rw [if_neg (by rw [norm_mul, norm_neg, norm_I, one_mul]; exact not_lt.2 hw)]
    linear_combination (-w) * I_sq
  · intro w hd hT h1 h2
    have hTc : (C.time s : ℂ) ≠ 0 := by exact_mod_cast hT
    simp only [slepcToBout, boutToSlepc, hsh, hd, Bool.false_and, Bool.false_eq_true, if_false, false_and]
    have him : (-I * w * (C.time s : ℂ)).im = -(w.re * C.time s) := by
      simp [mul_im, mul_re]
    rw [log_exp (by rw [him]; exact h1) (by rw [him]; exact h2), div_eq_iff hTc]
    linear_combination (-w * (C.time s : ℂ)) * I_sq
  · intro mu hd hmu
    simp only [slepcToBout, boutToSlepc, hsh, hd, Bool.false_and, Bool.false_eq_true, if_false, if_true, true_and]
    rw [if_neg (not_lt.2 hmu)]
    linear_combination (-mu) * I_sq
  · intro mu hd hT hmu
    have hTc : (C.time s : ℂ) ≠ 0 := by exact_mod_cast hT
    simp only [slepcToBout, boutToSlepc, hsh, hd, Bool.false_and, Bool.false_eq_true, if_false, false_and]
    have : -I * (I * log mu / (C.time s : ℂ)) * (C.time s : ℂ) = log mu := by
      field_simp
      linear_combination (-log mu) * I_sq
    rw [this, exp_log hmu]

/-! ## Time derivatives -/

/-- **C89, `ddtMode`.** Every eigenvalue SLEPc finds that is not tiny is reported as a frequency of the model, with the same
eigenvectors, and every frequency that is not tiny is the report of an eigenvalue; a tiny one is reported as zero. -/
theorem C89_ddt (C : Cfg) (hd : C.ddtMode = true) (hsh : C.shell = false) (F ext : Module.End ℂ V) :
    (∀ mu x, advance C F ext x = mu • x → 1.0e-10 ≤ ‖mu‖ → F x = (-I * slepcToBout C C.steps false mu) • x)
    ∧ (∀ w, Mode F w → 1.0e-10 ≤ ‖w‖ → ∃ mu, Eigen (advance C F ext) mu ∧ slepcToBout C C.steps false mu = w)
    ∧ (∀ mu, ‖mu‖ < 1.0e-10 → slepcToBout C C.steps false mu = 0) := by
  have hadv : advance C F ext = F := by simp [advance, hd]
  refine ⟨?_, ?_, ?_⟩
  · intro mu x hx hmu
    rw [hadv] at hx
    have := (C89_round_trip C C.steps hsh).2.2.1 mu hd hmu
    simp only [boutToSlepc, hsh, hd, Bool.false_and, Bool.false_eq_true, if_false, if_true] at this
    rw [this, hx]
  · intro w hw hn
    refine ⟨boutToSlepc C C.steps false w, ?_, (C89_round_trip C C.steps hsh).1 w hd hn⟩
    rw [hadv]
    simp only [boutToSlepc, hsh, hd, Bool.false_and, Bool.false_eq_true, if_false, if_true]
    exact hw
  · intro mu hmu
    simp [slepcToBout, hsh, hd, hmu]

/-! ## An advance solver -/

/-- **C89, advance solver.** With an exact advance solver, every non-zero eigenvalue SLEPc finds belongs to an eigenvalue of
the right-hand side whose growth rate is the imaginary part of the report and whose frequency is the real part up to a multiple
of 2π over the time of the run; the frequency is right if all the model's frequencies are below π over that time. -/
theorem C89_advance_partial [FiniteDimensional ℂ V] (C : Cfg) (hd : C.ddtMode = false) (hse : C.selfSolve = false)
    (hsh : C.shell = false) (F ext : Module.End ℂ V) (hT : C.time C.nout ≠ 0) (hE : Exact F ext (C.time C.nout)) (mu : ℂ)
    (hmu : mu ≠ 0) (h : Eigen (advance C F ext) mu) :
    ∃ w, Mode F w ∧ w.im = (slepcToBout C C.steps false mu).im
      ∧ (∃ k : ℤ, w.re = (slepcToBout C C.steps false mu).re + 2 * Real.pi * k / C.time C.nout)
      ∧ ((∀ w', Mode F w' → |w'.re * C.time C.nout| < Real.pi) → slepcToBout C C.steps false mu = w) := by
  have hadv : advance C F ext = ext := by simp [advance, Cfg.self, hd, hse]
  have hst : C.steps = C.nout := by simp [Cfg.steps, Cfg.self, hd, hse]
  rw [hadv] at h
  rw [hst]
  set T := C.time C.nout with hTdef
  have hTc : (T : ℂ) ≠ 0 := by exact_mod_cast hT
  obtain ⟨x0, hx0, hx⟩ := h
  -- the eigenspace of the advance operator is mapped to itself by F, so it contains an eigenvector of F
  let E : Submodule ℂ V := Module.End.eigenspace ext mu
  have hmaps : ∀ x ∈ E, F x ∈ E := by
    intro x hx
    rw [Module.End.mem_eigenspace_iff] at hx ⊢
    rw [hE.commutes, hx, map_smul]
  let G : Module.End ℂ E := F.restrict hmaps
  have : Nontrivial E := by
    refine ⟨⟨⟨x0, Module.End.mem_eigenspace_iff.2 hx⟩, 0, ?_⟩⟩
    intro hh; exact hx0 (congrArg Subtype.val hh)
  obtain ⟨l, hl⟩ := Module.End.exists_eigenvalue G
  obtain ⟨y, hy⟩ := hl.exists_hasEigenvector
  have hyF : F y.1 = l • y.1 := congrArg Subtype.val hy.apply_eq_smul
  have hy0 : y.1 ≠ 0 := fun hh => hy.2 (Subtype.ext hh)
  have hmul : mu = exp (l * T) := by
    have h1 := hE.advances l y.1 hyF
    have h2 := Module.End.mem_eigenspace_iff.1 y.2
    rw [h2] at h1
    have h3 : (mu - exp (l * T)) • y.1 = 0 := by rw [sub_smul, h1, sub_self]
    exact sub_eq_zero.1 ((smul_eq_zero.1 h3).resolve_right hy0)
  have hrep : slepcToBout C C.nout false mu = I * log mu / (T : ℂ) := by
    simp [slepcToBout, hsh, hd, hTdef]
  have hmode : Mode F (I * l) := by
    refine ⟨y.1, hy0, ?_⟩
    rw [hyF]
    congr 1
    linear_combination l * I_sq
  obtain ⟨k, hk⟩ := exp_eq_exp_iff_exists_int.1 ((exp_log hmu).trans hmul)
  -- log mu = l T + k 2π i
  have hdiv : I * log mu / (T : ℂ) = I * l - ((2 * Real.pi * k / T : ℝ) : ℂ) := by
    rw [hk]
    push_cast
    field_simp
    linear_combination (k * (2 * Real.pi) : ℂ) * I_sq
  refine ⟨I * l, hmode, ?_, ⟨k, ?_⟩, ?_⟩
  · rw [hrep, hdiv, sub_im, ofReal_im, sub_zero]
  · rw [hrep, hdiv, sub_re, ofReal_re]; ring
  · intro hall
    have hb := hall _ hmode
    rw [abs_lt] at hb
    have him : (l * (T : ℂ)).im = -((I * l).re * T) := by simp [mul_im, mul_re]
    rw [hrep, hmul, log_exp (by rw [him]; linarith [hb.2]) (by rw [him]; linarith [hb.1])]
    field_simp

/-- **C89, advance solver, nothing missed.** With an exact advance solver, every frequency of the model below π over the time
of the run is the report of an eigenvalue of SLEPc's operator, with the same eigenvectors. -/
theorem C89_advance_complete (C : Cfg) (hd : C.ddtMode = false) (hse : C.selfSolve = false)
    (hsh : C.shell = false) (F ext : Module.End ℂ V) (hT : C.time C.nout ≠ 0) (hE : Exact F ext (C.time C.nout)) (w : ℂ)
    (x : V) (hx : F x = (-I * w) • x) (hw : |w.re * C.time C.nout| < Real.pi) :
    ∃ mu, advance C F ext x = mu • x ∧ slepcToBout C C.steps false mu = w := by
  have hadv : advance C F ext = ext := by simp [advance, Cfg.self, hd, hse]
  have hst : C.steps = C.nout := by simp [Cfg.steps, Cfg.self, hd, hse]
  rw [abs_lt] at hw
  refine ⟨boutToSlepc C C.nout false w, ?_, ?_⟩
  · rw [hadv, hE.advances _ x hx]
    simp [boutToSlepc, hsh, hd]
  · rw [hst]
    exact (C89_round_trip C C.nout hsh).2.1 w hd hT (by linarith [hw.2]) (by linarith [hw.1])

/-! ## One Euler step -/

/-- **C89, `selfSolve`.** Without an advance solver and without `ddtMode` the operator is one Euler step; what is reported for
a frequency `w` of the model is `i log(1 - i w dt) / dt`, whatever the number of output steps asked for. -/
theorem C89_euler_partial (C : Cfg) (hd : C.ddtMode = false) (hse : C.selfSolve = true) (hsh : C.shell = false)
    (F ext : Module.End ℂ V) (w : ℂ) (x : V) (hx : F x = (-I * w) • x) :
    ∃ mu, advance C F ext x = mu • x ∧ slepcToBout C C.steps false mu = I * log (1 - I * w * C.dt) / C.dt := by
  refine ⟨1 - I * w * C.dt, ?_, ?_⟩
  · have : advance C F ext x = x + (C.dt : ℂ) • F x := by simp [advance, Cfg.self, hd, hse]
    rw [this, hx, smul_smul, sub_smul, one_smul]
    rw [show (C.dt : ℂ) * (-I * w) = -(I * w * C.dt) by ring, neg_smul, ← sub_eq_add_neg]
  · simp [slepcToBout, Cfg.steps, Cfg.self, Cfg.time, hd, hse, hsh]

/-- **C89, `selfSolve`, small steps.** The report of a frequency tends to it as the output step goes to zero. -/
theorem C89_euler_limit (w : ℂ) (mu : ℝ → ℂ) (C : ℝ → Cfg) (hC : ∀ dt, C dt = ⟨false, true, dt, (C dt).nout, false⟩)
    (F ext : Module.End ℂ V) (x : V) (hx0 : x ≠ 0) (hx : F x = (-I * w) • x)
    (hmu : ∀ dt, advance (C dt) F ext x = mu dt • x) :
    Filter.Tendsto (fun dt => slepcToBout (C dt) (C dt).steps false (mu dt)) (nhdsWithin 0 {0}ᶜ) (nhds w) := by
  have hm : ∀ dt : ℝ, mu dt = 1 - I * w * dt := by
    intro dt
    have h1 := hmu dt
    have : advance (C dt) F ext x = x + (dt : ℂ) • F x := by rw [hC]; simp [advance, Cfg.self]
    rw [this, hx, smul_smul] at h1
    have h2 : (mu dt - (1 - I * w * dt)) • x = 0 := by
      rw [sub_smul, ← h1, sub_smul, one_smul, show (dt : ℂ) * (-I * w) = -(I * w * dt) by ring, neg_smul]
      abel
    exact sub_eq_zero.1 ((smul_eq_zero.1 h2).resolve_right hx0)
  have hr : ∀ dt, slepcToBout (C dt) (C dt).steps false (mu dt) = I * log (1 - I * w * dt) / dt := by
    intro dt; rw [hm, hC]; simp [slepcToBout, Cfg.steps, Cfg.self, Cfg.time]
  have hd : HasDerivAt (fun dt : ℝ => I * log (1 - I * w * dt)) w 0 := by
    have h1 : HasDerivAt (fun dt : ℝ => (1 - I * w * dt : ℂ)) (-(I * w)) 0 := by
      have := ((hasDerivAt_id (0 : ℝ)).ofReal_comp.const_mul (I * w)).const_sub 1
      simpa using this
    have h2 := (h1.clog_real (by simp)).const_mul I
    have e : I * (-(I * w) / (1 - I * w * ((0 : ℝ) : ℂ))) = w := by
      rw [ofReal_zero, mul_zero, sub_zero, div_one]
      linear_combination (-w) * I_sq
    rwa [e] at h2
  rw [hasDerivAt_iff_tendsto_slope] at hd
  refine hd.congr (fun dt => ?_)
  rw [hr]
  simp [slope, div_eq_inv_mul]

/-! ## Preference -/

/-- **C89, preference.** The comparison prefers the eigenvalue whose report is nearer to the target: its sign is that of the
difference of the distances, so it is antisymmetric and transitive, and zero exactly for equal distances. -/
theorem C89_compare (C : Cfg) (targ : ℂ) :
    let dist : ℂ → ℝ := fun mu => ‖slepcToBout C C.steps false mu - targ‖
    (∀ a b, compareEigs C targ a b = 1 ↔ dist b < dist a) ∧ (∀ a b, compareEigs C targ a b = -1 ↔ dist a < dist b)
    ∧ (∀ a b, compareEigs C targ a b = 0 ↔ dist a = dist b)
    ∧ (∀ a b, compareEigs C targ a b = -compareEigs C targ b a) := by
  intro dist
  have hdist : ∀ mu, distance (slepcToBout C C.steps false mu) targ = dist mu := by
    intro mu
    show Real.sqrt _ = ‖_‖
    rw [Complex.norm_def, normSq_apply, sub_re, sub_im]
    congr 1; ring
  have hc : ∀ a b, compareEigs C targ a b = if dist b < dist a then 1 else if dist a < dist b then -1 else 0 := by
    intro a b
    simp only [compareEigs, hdist, gt_iff_lt]
  refine ⟨?_, ?_, ?_, ?_⟩
  · intro a b; rw [hc]; split_ifs <;> simp_all
  · intro a b; rw [hc]; split_ifs with h1 h2
    · simp only [false_iff, not_lt]; exact h1.le
    · simp [h2]
    · simp [h2]
  · intro a b; rw [hc]; split_ifs with h1 h2
    · simp [h1.ne']
    · simp [h2.ne]
    · simp [le_antisymm (not_lt.1 h1) (not_lt.1 h2)]
  · intro a b; rw [hc, hc]
    rcases lt_trichotomy (dist a) (dist b) with h | h | h
    · simp [h, h.not_gt]
    · simp [h]
    · simp [h, h.not_gt]

/-- **C89, steps.** Reports belong to one output step if there is no advance solver, to the whole run otherwise. -/
theorem C89_steps (C : Cfg) :
    ((C.ddtMode = true ∨ C.selfSolve = true) → C.steps = 1) ∧ (C.ddtMode = false → C.selfSolve = false → C.steps = C.nout) := by
  constructor
  · rintro (h | h) <;> simp [Cfg.steps, Cfg.self, h]
  · intro h1 h2; simp [Cfg.steps, Cfg.self, h1, h2]

/-- **C89, default target.** Nothing wanted gives 999, which stands for no target; with an advance solver and a wanted growth
rate (frequency zero) the target is the eigenvalue that is reported as wanted; in general it has the modulus of that. -/
theorem C89_target_partial (C : Cfg) (targ : ℂ) :
    defaultTarget C 0 = 999
    ∧ (targ ≠ 0 → defaultTarget C targ = ‖boutToSlepc { C with shell := false } C.nout false targ‖)
    ∧ (targ ≠ 0 → targ.re = 0 → C.ddtMode = false → C.selfSolve = false → C.shell = false → C.time C.nout ≠ 0 →
        slepcToBout C C.steps false (defaultTarget C targ : ℝ) = targ) := by
  refine ⟨by simp [defaultTarget], fun h => by simp [defaultTarget, h], ?_⟩
  intro h hre hd hse hsh hT
  have hw : targ = targ.im * I := by apply Complex.ext <;> simp [hre]
  have hb : boutToSlepc { C with shell := false } C.nout false targ = ((Real.exp (targ.im * C.time C.nout) : ℝ) : ℂ) := by
    simp only [boutToSlepc, hd, Bool.false_and, Bool.false_eq_true, if_false]
    rw [ofReal_exp]
    congr 1
    conv_lhs => rw [hw]
    show -I * (targ.im * I) * (C.time C.nout : ℂ) = _
    push_cast
    linear_combination (-(targ.im : ℂ) * (C.time C.nout : ℂ)) * I_sq
  have hdt : defaultTarget C targ = Real.exp (targ.im * C.time C.nout) := by
    rw [defaultTarget, if_neg h, hb, norm_real, Real.norm_eq_abs, abs_of_pos (Real.exp_pos _)]
  have hTc : (C.time C.nout : ℂ) ≠ 0 := by exact_mod_cast hT
  have hst : C.steps = C.nout := by simp [Cfg.steps, Cfg.self, hd, hse]
  rw [hdt, hst]
  simp only [slepcToBout, hsh, hd, Bool.false_and, Bool.false_eq_true, if_false, false_and]
  rw [← ofReal_log (Real.exp_pos _).le, Real.log_exp, div_eq_iff hTc]
  conv_rhs => rw [hw]
  push_cast
  ring

/-! ## Output -/

/-- **C89, output.** Two records are written for each converged eigenvalue, in order: the real parts of the reported frequency
and of the fields, with the auxiliary fields belonging to them, then the imaginary parts. -/
theorem C89_records_partial {V W : Type} (C : Cfg) (g : V → W) (eigs : List (ℂ × V × V)) :
    (analyse C g eigs).length = 2 * eigs.length
    ∧ ∀ i e, eigs[i]? = some e →
      (analyse C g eigs)[2 * i]? = some ⟨(slepcToBout C C.steps false e.1).re, e.2.1, g e.2.1⟩
      ∧ ((analyse C g eigs)[2 * i + 1]?).map (fun r => (r.time, r.fields))
        = some ((slepcToBout C C.steps false e.1).im, e.2.2) := by
  induction eigs with
  | nil => simp [analyse]
  | cons a l ih =>
    obtain ⟨h1, h2⟩ := ih
    have hc : analyse C g (a :: l) = recordsOf C g a ++ analyse C g l := by simp [analyse]
    constructor
    · rw [hc, List.length_append, h1, List.length_cons]; simp [recordsOf]; omega
    · intro i e he
      cases i with
      | zero =>
        simp only [List.getElem?_cons_zero, Option.some.injEq] at he
        subst he
        rw [hc]
        exact ⟨rfl, rfl⟩
      | succ i =>
        rw [List.getElem?_cons_succ] at he
        have h3 := h2 i e he
        have e1 : ∀ j, (analyse C g (a :: l))[j + 2]? = (analyse C g l)[j]? := by
          intro j; rw [hc]; simp [recordsOf]
        rw [show 2 * (i + 1) = 2 * i + 2 by ring, show 2 * i + 2 + 1 = 2 * i + 1 + 2 by ring, e1, e1]
        exact h3

/-- **C89, progress.** In a first solve whose number of converged eigenvalues never falls, every converged eigenvalue is
reported exactly once, in order, when it has converged (calls before the first iteration report nothing). -/
theorem C89_monitor_partial : ∀ (calls : List (Nat × Nat)) (prev : Nat),
    (∀ c ∈ calls, 1 ≤ c.1) → (prev :: calls.map Prod.snd).IsChain (· ≤ ·) →
    (monitorRun prev calls).2 = (List.range ((prev :: calls.map Prod.snd).getLast (by simp) - prev)).map (prev + ·)
    ∧ (monitorRun prev calls).1 = (prev :: calls.map Prod.snd).getLast (by simp) := by
  intro calls
  induction calls with
  | nil => intro prev _ _; simp [monitorRun]
  | cons c cs ih =>
    intro prev h1 hch
    rw [List.map_cons, List.isChain_cons_cons] at hch
    have hc : 1 ≤ c.1 := h1 c (by simp)
    obtain ⟨i1, i2⟩ := ih c.2 (fun d hd => h1 d (List.mem_cons_of_mem _ hd)) hch.2
    have hm : monitor prev c = (c.2, (List.range (c.2 - prev)).map (prev + ·)) := by
      unfold monitor; rw [if_neg (by omega)]
    have hlast : (prev :: (c :: cs).map Prod.snd).getLast (by simp) = (c.2 :: cs.map Prod.snd).getLast (by simp) := by
      simp [List.getLast_cons]
    have hge : c.2 ≤ (c.2 :: cs.map Prod.snd).getLast (by simp) := by
      have hp : (c.2 :: cs.map Prod.snd).Pairwise (· ≤ ·) := List.isChain_iff_pairwise.1 hch.2
      rcases List.mem_cons.1 (List.getLast_mem (l := c.2 :: cs.map Prod.snd) (by simp)) with h | h
      · exact h.ge
      · exact (List.pairwise_cons.1 hp).1 _ h
    simp only [monitorRun, hm, hlast]
    refine ⟨?_, i2⟩
    rw [i1]
    set n := (c.2 :: cs.map Prod.snd).getLast (by simp)
    have hpc := hch.1
    apply List.ext_getElem
    · simp; omega
    · intro k h1 h2
      rw [List.getElem_append]
      simp only [List.length_map, List.length_range, List.getElem_map, List.getElem_range]
      split <;> omega

end Verif.Slepc
