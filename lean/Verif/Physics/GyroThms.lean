import Verif.Physics.Gyro
import Mathlib.Data.List.Induction
import Mathlib.Tactic.Module

/-! # C90: theorems about gyro-averages -/
namespace Verif.Gyro

variable {P : Type}

/-! ## Specification -/

/-- The problem a Laplacian inversion stands for, without `Ex`, `Ez` and global flags: the equation at the points of `inside`
and the boundary relation that the flags ask for; `gg c u` is the product of the gradients of `c` and `u`. -/
structure Solution (W : World P) (inside : P → Prop) (gg : (P → ℝ) → (P → ℝ) → P → ℝ)
    (bndry : Nat → Nat → (P → ℝ) → (P → ℝ) → Prop) (s : Settings P) (b u : P → ℝ) : Prop where
  eqn : ∀ p, inside p → s.d p * W.delp2 0 u p + (1 / s.c1 p) * gg s.c2 u p + s.a p * u p = b p
  edge : bndry s.inner s.outer b u

/-- The inversion is correct: it solves every problem without `Ex`, `Ez` and global flags that has a solution. -/
def Correct (W : World P) (inside : P → Prop) (gg : (P → ℝ) → (P → ℝ) → P → ℝ)
    (bndry : Nat → Nat → (P → ℝ) → (P → ℝ) → Prop) : Prop :=
  ∀ s b, s.ex = 0 → s.ez = 0 → s.global = 0 → (∃ u, Solution W inside gg bndry s b u) →
    Solution W inside gg bndry s b (W.solve s b)

/-- The gyro-radius that is meant: a number, a 2D field, or the z average of a 3D field. -/
def radius (W : World P) : Rho P → P → ℝ
  | .real r => fun _ => r
  | .two v => v
  | .three v => W.dc v

/-- The user never sets `Ex`, `Ez` or global flags on the shared solver. -/
def Plain : Call P → Prop
  | .setEx v => v = 0
  | .setEz v => v = 0
  | .setGlobal n => n = 0
  | _ => True

/-- The call is a gyro-average. -/
def IsGyro : Call P → Prop
  | .pade0 .. => True
  | .pade1 .. => True
  | .pade1two .. => True
  | .pade2 .. => True
  | _ => False

/-- `g` is `(1 - k ρ² ∇²)⁻¹ f` at cell centres, with the boundary relation of the flags. -/
def Averaged (W : World P) (inside : P → Prop) (bndry : Nat → Nat → (P → ℝ) → (P → ℝ) → Prop) (k : ℝ) (rho : P → ℝ)
    (i o : Nat) (f g : P → ℝ) : Prop :=
  (∀ p, inside p → g p - k * rho p ^ 2 * W.delp2 0 g p = f p) ∧ bndry i o f g

/-! ## Histories -/

/-- The part of the settings that the gyro-averages do not make themselves. -/
def rest (s : Settings P) : (P → ℝ) × (P → ℝ) × Nat := (s.ex, s.ez, s.global)

theorem run_append (W : World P) (h : List (Call P)) (c : Call P) : run W (h ++ [c]) = (step W (run W h) c).1 := by
  simp [run]

theorem prepared_rest (s : Settings P) (d : P → ℝ) (i o : Nat) : rest (prepared s d i o) = rest s := rfl

theorem prepared_eq {s t : Settings P} (h : rest s = rest t) (d : P → ℝ) (i o : Nat) : prepared s d i o = prepared t d i o := by
  cases s; cases t
  simp only [rest, Prod.mk.injEq] at h
  simp [prepared, h.1, h.2.1, h.2.2]

theorem pade1_rest (W : World P) (s : Option (Settings P)) (f : Fld P) (rho : Rho P) (i o : Nat) :
    rest (pade1 W s f rho i o).1 = rest (instanceOf W s) := rfl

theorem pade2_rest (W : World P) (s : Option (Settings P)) (f : Fld P) (rho : Rho P) (i o : Nat) :
    rest (pade2 W s f rho i o).1 = rest (instanceOf W s) := by
  unfold pade2
  simp only
  split
  · rfl
  · rfl

theorem gyro_rest (W : World P) (s : Option (Settings P)) (c : Call P) (hc : IsGyro c) :
    ∃ t, (step W s c).1 = some t ∧ rest t = rest (instanceOf W s) := by
  cases c with
  | pade0 f r i o => exact ⟨_, rfl, rfl⟩
  | pade1 f r i o => exact ⟨_, rfl, rfl⟩
  | pade1two f r i o => exact ⟨_, rfl, rfl⟩
  | pade2 f r i o => exact ⟨_, rfl, pade2_rest ..⟩
  | _ => exact hc.elim

theorem gyro_congr (W : World P) {s t : Option (Settings P)} (h : rest (instanceOf W s) = rest (instanceOf W t)) (c : Call P)
    (hc : IsGyro c) : step W s c = step W t c := by
  have h1 : ∀ f r i o, pade1 W s f r i o = pade1 W t f r i o := by
    intro f r i o; simp only [pade1, prepared_eq h]
  cases c with
  | pade0 f r i o => simp only [step, pade0, prepared_eq h]
  | pade1 f r i o => simp only [step, h1]
  | pade1two f r i o => simp only [step, pade1two, h1]
  | pade2 f r i o => simp only [step, pade2, h1]
  | _ => exact hc.elim

/-- **C90, history.** Whatever was done before with the shared solver, a gyro-average returns the same (and leaves the same
settings) after any two histories that agree in `Ex`, `Ez` and global flags: coefficients, boundary flags, earlier solves and
gyro-averages do not matter. -/
theorem C90_history (W : World P) (h1 h2 : List (Call P)) (c : Call P) (hc : IsGyro c)
    (hex : (instanceOf W (run W h1)).ex = (instanceOf W (run W h2)).ex)
    (hez : (instanceOf W (run W h1)).ez = (instanceOf W (run W h2)).ez)
    (hgl : (instanceOf W (run W h1)).global = (instanceOf W (run W h2)).global) :
    step W (run W h1) c = step W (run W h2) c :=
  gyro_congr W (by simp only [rest, hex, hez, hgl]) c hc

theorem plain_run (W : World P) (hf : rest W.fresh = (0, 0, 0)) (h : List (Call P)) (hp : ∀ c ∈ h, Plain c) :
    rest (instanceOf W (run W h)) = (0, 0, 0) := by
  induction h using List.reverseRecOn with
  | nil => exact hf
  | append_singleton h c ih =>
    have ih := ih (fun d hd => hp d (List.mem_append_left _ hd))
    have hc : Plain c := hp c (by simp)
    rw [run_append]
    generalize run W h = s at ih
    cases c with
    | pade0 f r i o => exact ih
    | pade1 f r i o => exact ih
    | pade1two f r i o => exact ih
    | pade2 f r i o =>
      obtain ⟨t, h1, h2⟩ := gyro_rest W s (.pade2 f r i o) trivial
      rw [h1]; exact h2.trans ih
    | cleanup => exact hf
    | setEx v =>
      have hv : v = 0 := hc
      subst hv
      simp only [rest, Prod.mk.injEq] at ih
      simp [step, instanceOf, rest] at ih ⊢
      exact ih.2
    | setEz v =>
      have hv : v = 0 := hc
      subst hv
      simp [step, instanceOf, rest] at ih ⊢
      exact ⟨ih.1, ih.2.2⟩
    | setGlobal v =>
      have hv : v = 0 := hc
      subst hv
      simp [step, instanceOf, rest] at ih ⊢
      exact ⟨ih.1, ih.2.1⟩
    | _ => exact ih

/-- The settings that a user has to make again after a gyro-average. -/
def resets (a c d : P → ℝ) (i o : Nat) : List (Call P) := [.setA a, .setC c, .setD d, .setInner i, .setOuter o]

instance (c : Call P) : Decidable (IsGyro c) := by cases c <;> unfold IsGyro <;> infer_instance

/-- **C90, solves in between.** A solve on the shared solver that comes after its coefficients A, C, D and boundary flags have
been set is not affected by the gyro-averages before that. -/
theorem C90_reset (W : World P) (h : List (Call P)) (a c d : P → ℝ) (i o : Nat) (f : Fld P) :
    (step W (run W (h ++ resets a c d i o)) (.solve f)).2
      = (step W (run W (h.filter (fun x => ¬ IsGyro x) ++ resets a c d i o)) (.solve f)).2 := by
  have key : rest (instanceOf W (run W h)) = rest (instanceOf W (run W (h.filter (fun x => ¬ IsGyro x)))) := by
    induction h using List.reverseRecOn with
    | nil => rfl
    | append_singleton h x ih =>
      rw [List.filter_append, run_append]
      by_cases hx : IsGyro x
      · obtain ⟨t, h1, h2⟩ := gyro_rest W (run W h) x hx
        rw [h1]
        simp only [List.filter_cons, hx, not_true_eq_false, decide_false, Bool.false_eq_true, if_false, List.filter_nil,
          List.append_nil]
        exact h2.trans ih
      · simp only [List.filter_cons, hx, not_false_eq_true, decide_true, if_true, List.filter_nil]
        rw [run_append]
        generalize run W h = s at ih
        generalize run W (h.filter _) = t at ih
        simp only [rest, Prod.mk.injEq] at ih
        obtain ⟨i1, i2, i3⟩ := ih
        cases x with
        | pade0 => exact (hx trivial).elim
        | pade1 => exact (hx trivial).elim
        | pade1two => exact (hx trivial).elim
        | pade2 => exact (hx trivial).elim
        | _ => simp_all [step, instanceOf, rest]
  have hfin : ∀ s : Option (Settings P), ((resets a c d i o).foldl (fun s c => (step W s c).1) s)
      = some ⟨a, c, c, d, (instanceOf W s).ex, (instanceOf W s).ez, i, o, (instanceOf W s).global⟩ := by
    intro s; rfl
  simp only [rest, Prod.mk.injEq] at key
  have e : ∀ h : List (Call P), run W (h ++ resets a c d i o)
      = some ⟨a, c, c, d, (instanceOf W (run W h)).ex, (instanceOf W (run W h)).ez, i, o,
          (instanceOf W (run W h)).global⟩ := by
    intro h; unfold run; rw [List.foldl_append]; exact hfin _
  rw [e, e, key.1, key.2.1, key.2.2]

/-! ## What is solved -/

section
variable (W : World P) (inside : P → Prop) (gg : (P → ℝ) → (P → ℝ) → P → ℝ)
  (bndry : Nat → Nat → (P → ℝ) → (P → ℝ) → Prop)

theorem prepared_solution (hgg : ∀ (r : ℝ) u, gg (fun _ => r) u = 0) (s : Settings P) (k : ℝ) (rho : P → ℝ) (d : P → ℝ)
    (hd : ∀ p, d p = -k * rho p ^ 2) (i o : Nat) (b u : P → ℝ) :
    Solution W inside gg bndry (prepared s d i o) b u ↔ Averaged W inside bndry k rho i o b u := by
  have e : ∀ p, (d p * W.delp2 0 u p + (1 / (1 : ℝ)) * gg (fun _ => 1) u p + 1 * u p = b p)
      ↔ (u p - k * rho p ^ 2 * W.delp2 0 u p = b p) := by
    intro p; rw [hgg, hd, Pi.zero_apply]
    constructor <;> intro h <;> linear_combination h
  constructor
  · intro h; exact ⟨fun p hp => (e p).1 (h.eqn p hp), h.edge⟩
  · intro h; exact ⟨fun p hp => (e p).2 (h.1 p hp), h.2⟩

theorem solved (hW : Correct W inside gg bndry) (hgg : ∀ (r : ℝ) u, gg (fun _ => r) u = 0) (s : Option (Settings P))
    (hs : rest (instanceOf W s) = (0, 0, 0)) (k : ℝ) (rho d : P → ℝ) (hd : ∀ p, d p = -k * rho p ^ 2) (i o : Nat)
    (f : Fld P) (hf : f.loc = 0) (hex : ∃ u, Averaged W inside bndry k rho i o f.val u) :
    ∃ g, (solveAt W (prepared (instanceOf W s) d i o) f).map (fun x => { x with loc := f.loc }) = some ⟨0, g⟩
      ∧ Averaged W inside bndry k rho i o f.val g := by
  simp only [rest, Prod.mk.injEq] at hs
  obtain ⟨u, hu⟩ := hex
  refine ⟨_, ?_, (prepared_solution W inside gg bndry hgg (instanceOf W s) k rho d hd i o f.val _).1
    (hW _ _ hs.1 hs.2.1 hs.2.2 ⟨u, (prepared_solution W inside gg bndry hgg (instanceOf W s) k rho d hd i o f.val u).2 hu⟩)⟩
  simp [solveAt, hf]

/-- **C90, `gyroPade0`.** After any history that leaves `Ex`, `Ez` and global flags alone, the result for a field at cell
centres solves `(1 - ρ² ∇²) g = f` with the z average of `ρ` and the boundary flags given, if that has a solution. -/
theorem C90_pade0_partial (hW : Correct W inside gg bndry) (hgg : ∀ (r : ℝ) u, gg (fun _ => r) u = 0)
    (hfr : W.fresh.ex = 0 ∧ W.fresh.ez = 0 ∧ W.fresh.global = 0) (h : List (Call P)) (hh : ∀ c ∈ h, Plain c) (f : Fld P)
    (hf : f.loc = 0) (rho : Rho P) (i o : Nat)
    (hex : ∃ u, Averaged W inside bndry 1 (radius W rho) i o f.val u) :
    ∃ g, (step W (run W h) (.pade0 f rho i o)).2 = some ⟨0, g⟩
      ∧ Averaged W inside bndry 1 (radius W rho) i o f.val g := by
  have hs := plain_run W (by simp [rest, hfr]) h hh
  exact solved W inside gg bndry hW hgg (run W h) hs 1 _ _ (fun p => by
    have hr : radius W rho = rho.two2 W := by cases rho <;> rfl
    rw [hr]; ring) i o f hf hex

/-- **C90, `gyroPade1`.** The same for `(1 - ρ²/2 ∇²) g = f`. -/
theorem C90_pade1_partial (hW : Correct W inside gg bndry) (hgg : ∀ (r : ℝ) u, gg (fun _ => r) u = 0)
    (hfr : W.fresh.ex = 0 ∧ W.fresh.ez = 0 ∧ W.fresh.global = 0) (h : List (Call P)) (hh : ∀ c ∈ h, Plain c) (f : Fld P)
    (hf : f.loc = 0) (rho : Rho P) (i o : Nat)
    (hex : ∃ u, Averaged W inside bndry (1 / 2) (radius W rho)
      i o f.val u) :
    ∃ g, (step W (run W h) (.pade1 f rho i o)).2 = some ⟨0, g⟩
      ∧ Averaged W inside bndry (1 / 2) (radius W rho)
        i o f.val g := by
  have hs := plain_run W (by simp [rest, hfr]) h hh
  exact solved W inside gg bndry hW hgg (run W h) hs (1 / 2) _ _ (fun p => by
    have hr : radius W rho = rho.two2 W := by cases rho <;> rfl
    rw [hr]; ring) i o f hf hex

/-- **C90, `gyroPade1` of a 2D field.** If the Laplacian commutes with the z average, and there are no boundaries, the result
solves the equation too. -/
theorem C90_pade1_two (hW : Correct W (fun _ => True) gg (fun _ _ _ _ => True)) (hgg : ∀ (r : ℝ) u, gg (fun _ => r) u = 0)
    (hfr : W.fresh.ex = 0 ∧ W.fresh.ez = 0 ∧ W.fresh.global = 0) (h : List (Call P)) (hh : ∀ c ∈ h, Plain c) (f : Fld P)
    (hf : f.loc = 0) (rho : P → ℝ) (i o : Nat)
    (hex : ∃ u, ∀ p, u p - 1 / 2 * rho p ^ 2 * W.delp2 0 u p = f.val p)
    (hdc : ∀ u, W.dc (W.delp2 0 u) = W.delp2 0 (W.dc u)) (hf2 : W.dc f.val = f.val)
    (hlin : ∀ u v, W.dc (fun p => u p - 1 / 2 * rho p ^ 2 * v p) = fun p => W.dc u p - 1 / 2 * rho p ^ 2 * W.dc v p) :
    ∃ g, (step W (run W h) (.pade1two f rho i o)).2 = some ⟨0, g⟩ ∧ (∀ p, g p - 1 / 2 * rho p ^ 2 * W.delp2 0 g p = f.val p)
      ∧ ∃ g3, (step W (run W h) (.pade1 f (.two rho) i o)).2 = some ⟨0, g3⟩ ∧ g = W.dc g3 := by
  obtain ⟨u, hu⟩ := hex
  obtain ⟨g, h1, h2, -⟩ := C90_pade1_partial W (fun _ => True) gg (fun _ _ _ _ => True) hW hgg hfr h hh f hf (.two rho) i o
    ⟨u, fun p _ => hu p, trivial⟩
  refine ⟨W.dc g, ?_, ?_, g, h1, rfl⟩
  · have : (pade1 W (run W h) f (.two rho) i o).2 = some ⟨0, g⟩ := h1
    simp [step, pade1two, this]
  · intro p
    rw [← hdc]
    have h3 : (fun p => g p - 1 / 2 * rho p ^ 2 * W.delp2 0 g p) = f.val := funext fun p => h2 p trivial
    have h4 := congrFun (hlin g (W.delp2 0 g)) p
    rw [h3, hf2] at h4
    exact h4.symm

/-- **C90, `gyroPade2`.** After any such history the result is `ρ²/2 ∇²` of the twice averaged field at the points that the
exchange of guard cells and the boundary condition leave alone. -/
theorem C90_pade2_partial (hW : Correct W inside gg bndry) (hgg : ∀ (r : ℝ) u, gg (fun _ => r) u = 0)
    (hfr : W.fresh.ex = 0 ∧ W.fresh.ez = 0 ∧ W.fresh.global = 0) (h : List (Call P)) (hh : ∀ c ∈ h, Plain c) (f : Fld P)
    (hf : f.loc = 0) (rho : Rho P) (i o : Nat)
    (hex : ∀ b, ∃ u, Averaged W inside bndry (1 / 2) (radius W rho)
      i o b u)
    (hdir : ∀ v p, inside p → W.dirichlet v p = v p) :
    ∃ g1 g2 g, (step W (run W h) (.pade2 f rho i o)).2 = some ⟨0, g⟩
      ∧ Averaged W inside bndry (1 / 2) (radius W rho) i o f.val g1
      ∧ Averaged W inside bndry (1 / 2) (radius W rho) i o g1 g2
      ∧ (∀ p, inside p → g p =
        1 / 2 * (radius W rho) p ^ 2 * W.delp2 0 (W.comm g2) p)
      ∧ ∃ v, g = W.dirichlet v := by
  have hs := plain_run W (by simp [rest, hfr]) h hh
  have hr : radius W rho = rho.two2 W := by cases rho <;> rfl
  rw [hr] at hex ⊢
  obtain ⟨g1, e1, a1⟩ := solved W inside gg bndry hW hgg (run W h) hs (1 / 2) (rho.two2 W)
    (fun p => -0.5 * rho.two2 W p * rho.two2 W p) (fun p => by ring) i o f hf (hex _)
  obtain ⟨g2, e2, a2⟩ := solved W inside gg bndry hW hgg (some (pade1 W (run W h) f (.two (rho.two2 W)) i o).1) hs (1 / 2)
    (rho.two2 W) (fun p => -0.5 * rho.two2 W p * rho.two2 W p) (fun p => by ring) i o ⟨0, g1⟩ rfl (hex _)
  have f1 : (pade1 W (run W h) f (.two (rho.two2 W)) i o).2 = some ⟨0, g1⟩ := e1
  have f2 : (pade1 W (some (pade1 W (run W h) f (.two (rho.two2 W)) i o).1) ⟨0, g1⟩ (.two (rho.two2 W)) i o).2
      = some ⟨0, g2⟩ := e2
  refine ⟨g1, g2, W.dirichlet fun p => 0.5 * rho.two2 W p * rho.two2 W p * W.delp2 0 (W.comm g2) p, ?_, a1, a2, ?_, _, rfl⟩
  · simp only [step, pade2, f1, f2, Option.map_some]
  · intro p hp
    rw [hdir _ _ hp]
    ring
end

/-! ## What the averages do -/

/-- The Laplacian is linear and negative semidefinite. -/
structure Negative [Fintype P] (L : (P → ℝ) → P → ℝ) : Prop where
  add : ∀ u v, L (u + v) = L u + L v
  smul : ∀ (c : ℝ) u, L (c • u) = c • L u
  neg : ∀ u, ∑ p, u p * L u p ≤ 0

/-- **C90, existence.** For a constant gyro-radius and a linear, negative semidefinite Laplacian without boundaries the
averaged field exists and is unique. -/
theorem C90_exists [Fintype P] (L : (P → ℝ) → P → ℝ) (hL : Negative L) (k : ℝ) (hk : 0 ≤ k) (f : P → ℝ) :
    ∃! u, ∀ p, u p - k * L u p = f p := by
  let A : (P → ℝ) →ₗ[ℝ] (P → ℝ) :=
    { toFun := fun u => u - k • L u
      map_add' := fun u v => by rw [hL.add]; module
      map_smul' := fun c u => by rw [hL.smul]; simp only [RingHom.id_apply]; module }
  have hinj : Function.Injective A := by
    rw [← LinearMap.ker_eq_bot, LinearMap.ker_eq_bot']
    intro u hu
    have h1 : ∀ p, u p = k * L u p := by
      intro p
      have := congrFun hu p
      simp only [A, LinearMap.coe_mk, AddHom.coe_mk, Pi.sub_apply, Pi.smul_apply, smul_eq_mul, Pi.zero_apply] at this
      linarith
    have h2 : ∑ p, u p * u p ≤ 0 := by
      calc ∑ p, u p * u p = ∑ p, k * (u p * L u p) := Finset.sum_congr rfl fun p _ => by
            conv_lhs => rw [h1 p]
            conv_rhs => rw [h1 p]
            ring
        _ = k * ∑ p, u p * L u p := by rw [Finset.mul_sum]
        _ ≤ 0 := mul_nonpos_of_nonneg_of_nonpos hk (hL.neg u)
    have h3 := (Finset.sum_eq_zero_iff_of_nonneg (fun p _ => mul_self_nonneg (u p))).1
      (le_antisymm h2 (Finset.sum_nonneg fun p _ => mul_self_nonneg (u p)))
    funext p
    exact mul_self_eq_zero.1 (h3 p (Finset.mem_univ p))
  have hsurj := LinearMap.injective_iff_surjective.1 hinj
  obtain ⟨u, hu⟩ := hsurj f
  refine ⟨u, fun p => congrFun hu p, fun v hv => hinj ?_⟩
  rw [hu]; funext p; exact hv p

/-- **C90, averaging.** For a constant gyro-radius and a linear, negative semidefinite Laplacian without boundaries the
averages never make a field larger (in the root mean square). -/
theorem C90_contraction [Fintype P] (L : (P → ℝ) → P → ℝ) (hL : Negative L) (k : ℝ) (hk : 0 ≤ k) (f g : P → ℝ)
    (h : ∀ p, g p - k * L g p = f p) : ∑ p, g p ^ 2 ≤ ∑ p, f p ^ 2 := by
  have h1 : ∑ p, g p ^ 2 ≤ ∑ p, f p * g p := by
    have : ∑ p, f p * g p = ∑ p, g p ^ 2 - k * ∑ p, g p * L g p := by
      rw [Finset.mul_sum, ← Finset.sum_sub_distrib]
      exact Finset.sum_congr rfl fun p _ => by rw [← h p]; ring
    rw [this]
    have := mul_nonpos_of_nonneg_of_nonpos hk (hL.neg g)
    linarith
  have h2 : 2 * ∑ p, f p * g p ≤ ∑ p, f p ^ 2 + ∑ p, g p ^ 2 := by
    rw [Finset.mul_sum, ← Finset.sum_add_distrib]
    exact Finset.sum_le_sum fun p _ => by nlinarith [sq_nonneg (f p - g p)]
  linarith

/-- **C90, Fourier modes.** On a mode with `∇² φ = -b φ` and a constant gyro-radius, without boundaries: `gyroPade0` divides by
`1 + ρ² b`, `gyroPade1` by `1 + ρ² b / 2`, `gyroPade2` multiplies by `-ρ² b / 2` and divides by `(1 + ρ² b / 2)²`, and
`gyroTaylor0` multiplies by `1 - ρ² b`. -/
theorem C90_modes [Fintype P] (W : World P) (gg : (P → ℝ) → (P → ℝ) → P → ℝ)
    (hW : Correct W (fun _ => True) gg (fun _ _ _ _ => True)) (hgg : ∀ (r : ℝ) u, gg (fun _ => r) u = 0)
    (hfr : W.fresh.ex = 0 ∧ W.fresh.ez = 0 ∧ W.fresh.global = 0) (h : List (Call P)) (hh : ∀ c ∈ h, Plain c)
    (hL : Negative (W.delp2 0)) (hcomm : ∀ v, W.comm v = v) (hdir : ∀ v, W.dirichlet v = v) (phi : P → ℝ) (b rho : ℝ)
    (hb : 0 ≤ b) (hphi : W.delp2 0 phi = fun p => -b * phi p) (i o : Nat) :
    (step W (run W h) (.pade0 ⟨0, phi⟩ (.real rho) i o)).2 = some ⟨0, fun p => phi p / (1 + rho ^ 2 * b)⟩
    ∧ (step W (run W h) (.pade1 ⟨0, phi⟩ (.real rho) i o)).2 = some ⟨0, fun p => phi p / (1 + rho ^ 2 * b / 2)⟩
    ∧ (step W (run W h) (.pade2 ⟨0, phi⟩ (.real rho) i o)).2
        = some ⟨0, fun p => -(rho ^ 2 * b / 2) * phi p / (1 + rho ^ 2 * b / 2) ^ 2⟩
    ∧ taylor0 W ⟨0, phi⟩ (fun _ => rho) = ⟨0, fun p => (1 - rho ^ 2 * b) * phi p⟩ := by
  have hmul : ∀ (c : ℝ) p, W.delp2 0 (fun q => c * phi q) p = -b * (c * phi p) := by
    intro c p
    have h1 := congrFun (hL.smul c phi) p
    rw [hphi] at h1
    have h2 : (c • phi) = fun q => c * phi q := rfl
    rw [h2] at h1
    rw [h1]; simp only [Pi.smul_apply, smul_eq_mul]; ring
  have hpos : ∀ k : ℝ, 0 ≤ k → (1 + k * rho ^ 2 * b) ≠ 0 := by
    intro k hk; have := mul_nonneg (mul_nonneg hk (sq_nonneg rho)) hb; linarith
  have huniq : ∀ (k c : ℝ) (g : P → ℝ), 0 ≤ k → (∀ p, g p - k * rho ^ 2 * W.delp2 0 g p = c * phi p) →
      g = fun p => c / (1 + k * rho ^ 2 * b) * phi p := by
    intro k c g hk hg
    refine (C90_exists (W.delp2 0) hL (k * rho ^ 2) (mul_nonneg hk (sq_nonneg rho)) (fun p => c * phi p)).unique hg ?_
    intro p
    rw [hmul]
    have := hpos k hk
    field_simp
    ring
  have hexists : ∀ (k : ℝ) (f : P → ℝ), 0 ≤ k →
      ∃ u, Averaged W (fun _ => True) (fun _ _ _ _ => True) k (fun _ => rho) i o f u := by
    intro k f hk
    obtain ⟨u, hu, -⟩ := C90_exists (W.delp2 0) hL (k * rho ^ 2) (mul_nonneg hk (sq_nonneg rho)) f
    exact ⟨u, fun p _ => hu p, trivial⟩
  refine ⟨?_, ?_, ?_, ?_⟩
  · obtain ⟨g, e, a, -⟩ := C90_pade0_partial W (fun _ => True) gg (fun _ _ _ _ => True) hW hgg hfr h hh ⟨0, phi⟩ rfl
      (.real rho) i o (hexists 1 _ zero_le_one)
    rw [e, huniq 1 1 g zero_le_one (fun p => by rw [one_mul (phi p)]; exact a p trivial)]
    congr 2; funext p; rw [one_mul]; ring
  · obtain ⟨g, e, a, -⟩ := C90_pade1_partial W (fun _ => True) gg (fun _ _ _ _ => True) hW hgg hfr h hh ⟨0, phi⟩ rfl
      (.real rho) i o (hexists (1 / 2) _ (by norm_num))
    rw [e, huniq (1 / 2) 1 g (by norm_num) (fun p => by rw [one_mul (phi p)]; exact a p trivial)]
    congr 2; funext p; ring
  · obtain ⟨g1, g2, g, e, a1, a2, a3, -⟩ := C90_pade2_partial W (fun _ => True) gg (fun _ _ _ _ => True) hW hgg hfr h hh
      ⟨0, phi⟩ rfl (.real rho) i o (fun f => hexists (1 / 2) f (by norm_num)) (fun v p _ => by rw [hdir])
    have e1 := huniq (1 / 2) 1 g1 (by norm_num) (fun p => by rw [one_mul (phi p)]; exact a1.1 p trivial)
    subst e1
    have e2 := huniq (1 / 2) _ g2 (by norm_num) (fun p => a2.1 p trivial)
    subst e2
    rw [e]
    congr 2
    funext p
    have hr : radius W (.real rho) p = rho := rfl
    rw [a3 p trivial, hcomm, hmul, hr]
    have := hpos (1 / 2) (by norm_num)
    have h2 : (1 + rho ^ 2 * b / 2) ≠ 0 := by rw [show rho ^ 2 * b / 2 = 1 / 2 * rho ^ 2 * b by ring]; exact this
    rw [show (1 : ℝ) + 1 / 2 * rho ^ 2 * b = 1 + rho ^ 2 * b / 2 by ring]
    field_simp
  · simp only [taylor0, hphi]
    congr 1; funext p; ring

/-- **C90, Taylor and Padé.** On such a mode the two approximations of `Γ₀` differ by `(ρ² b)² / (1 + ρ² b)`; the Taylor one
amplifies a mode exactly if `ρ² b > 2`. -/
theorem C90_taylor (x : ℝ) (hx : 0 ≤ x) :
    1 / (1 + x) - (1 - x) = x ^ 2 / (1 + x) ∧ (1 < |1 - x| ↔ 2 < x) := by
  constructor
  · have : 1 + x ≠ 0 := by linarith
    field_simp; ring
  · rw [lt_abs]
    constructor
    · rintro (h | h) <;> linarith
    · intro h; right; linarith

end Verif.Gyro
