import Verif.Physics.GyroThms

/-! # C90: what the code gets wrong, and concrete cases -/
namespace Verif.Gyro

variable {P : Type}

/-- **C90 is violated: global flags of the shared solver change the averages.** If the user has asked the shared solver to
leave out the z average (`INVERT_ZERO_DC`, flag 1), `gyroPade0` of a constant field has no z average. -/
theorem C90_flags_violated [Nonempty P] (W : World P) (hz : ∀ s b, s.global = 1 → W.dc (W.solve s b) = 0)
    (h1 : W.dc (fun _ => 1) = fun _ => 1) (rho : ℝ) (i o : Nat) :
    ∃ g, (step W (run W [.setGlobal 1]) (.pade0 ⟨0, fun _ => 1⟩ (.real rho) i o)).2 = some ⟨0, g⟩
      ∧ W.dc g ≠ W.dc (fun _ => 1) := by
  refine ⟨W.solve (prepared { W.fresh with global := 1 } (fun _ => -rho * rho) i o) (fun _ => 1), ?_, ?_⟩
  · simp [step, run, pade0, solveAt, instanceOf, Rho.two2]
  · rw [h1, hz _ _ rfl]
    intro h
    have := congrFun h (Classical.arbitrary P)
    simp at this

/-- **C90 is violated: a gyro-average changes later solves.** The user sets the shared solver to `2 x = b` and solves; after a
gyro-average in between, the same call solves `x = b`. -/
theorem C90_shared_violated (W : World P) (inside : P → Prop) (gg : (P → ℝ) → (P → ℝ) → P → ℝ)
    (hW : Correct W inside gg fun _ _ _ _ => True) (hgg : ∀ (r : ℝ) u, gg (fun _ => r) u = 0)
    (hfr : W.fresh.ex = 0 ∧ W.fresh.ez = 0 ∧ W.fresh.global = 0) (b : P → ℝ) (i o : Nat) :
    let user : List (Call P) := [.setA fun _ => 2, .setC fun _ => 1, .setD fun _ => 0]
    ∃ x y, (step W (run W user) (.solve ⟨0, b⟩)).2 = some ⟨0, x⟩
      ∧ (step W (run W (user ++ [.pade0 ⟨0, b⟩ (.real 0) i o])) (.solve ⟨0, b⟩)).2 = some ⟨0, y⟩
      ∧ (∀ p, inside p → x p = b p / 2) ∧ (∀ p, inside p → y p = b p) := by
  intro user
  have e1 : (step W (run W user) (.solve ⟨0, b⟩)).2
      = some ⟨0, W.solve { W.fresh with a := fun _ => 2, c1 := fun _ => 1, c2 := fun _ => 1, d := fun _ => 0 } b⟩ := by
    simp [step, run, user, solveAt, instanceOf]
  have e2 : (step W (run W (user ++ [.pade0 ⟨0, b⟩ (.real 0) i o])) (.solve ⟨0, b⟩)).2
      = some ⟨0, W.solve { W.fresh with
          a := fun _ => 1, c1 := fun _ => 1, c2 := fun _ => 1, d := fun _ => 0, inner := i, outer := o } b⟩ := by
    simp [step, run, user, solveAt, instanceOf, pade0, prepared, Rho.two2]
  refine ⟨_, _, e1, e2, ?_, ?_⟩
  · intro p hp
    have := (hW { W.fresh with a := fun _ => 2, c1 := fun _ => 1, c2 := fun _ => 1, d := fun _ => 0 } b hfr.1 hfr.2.1 hfr.2.2
      ⟨fun p => b p / 2, ⟨fun p _ => by simp only [hgg]; simp; ring, trivial⟩⟩).eqn p hp
    simp only [hgg] at this
    simp at this
    linarith
  · intro p hp
    have := (hW { W.fresh with
        a := fun _ => 1, c1 := fun _ => 1, c2 := fun _ => 1, d := fun _ => 0, inner := i, outer := o } b hfr.1 hfr.2.1 hfr.2.2
      ⟨b, ⟨fun p _ => by simp only [hgg]; simp, trivial⟩⟩).eqn p hp
    simp only [hgg] at this
    simp at this
    linarith

/-- **C90 is violated: staggered fields.** With checks compiled in, the Padé averages of a field that is not at cell centres
are errors, for every radius; the Taylor one is not. -/
theorem C90_location_violated (W : World P) (hc : W.check = true) (s : Option (Settings P)) (f : Fld P) (hf : f.loc ≠ 0)
    (rho : Rho P) (i o : Nat) :
    (step W s (.pade0 f rho i o)).2 = none ∧ (step W s (.pade1 f rho i o)).2 = none ∧ (step W s (.pade2 f rho i o)).2 = none
    ∧ ∀ r p, (taylor0 W f r).val p = f.val p + r p ^ 2 * W.delp2 f.loc f.val p := by
  refine ⟨?_, ?_, ?_, fun _ _ => rfl⟩
  · simp [step, pade0, solveAt, hc, hf]
  · simp [step, pade1, solveAt, hc, hf]
  · simp [step, pade2, pade1, solveAt, hc, hf]

/-! ## A concrete world -/

/-- Two points along a periodic line, cell size 1: `∇² u` at one point is the difference to the other one. -/
def twoL (u : Bool → ℝ) : Bool → ℝ := fun p => u (!p) - u p

theorem twoL_negative : Negative twoL := by
  refine ⟨fun u v => ?_, fun c u => ?_, fun u => ?_⟩
  · funext p; simp only [twoL, Pi.add_apply]; ring
  · funext p; simp only [twoL, Pi.smul_apply, smul_eq_mul]; ring
  · rw [Fintype.sum_bool]
    simp only [twoL, Bool.not_true, Bool.not_false]
    nlinarith [sq_nonneg (u true - u false)]

/-- A problem on the two points, without gradient terms. -/
def twoSol (s : Settings Bool) (b u : Bool → ℝ) : Prop := ∀ p, s.d p * twoL u p + s.a p * u p = b p

open Classical in
/-- The world of the two points: staggered fields have no Laplacian; flag 1 leaves out the z average. -/
noncomputable def two (check : Bool) : World Bool where
  fresh := ⟨0, fun _ => 1, fun _ => 1, fun _ => 1, 0, 0, 0, 0, 0⟩
  solve s b := if s.global = 1 then 0 else if h : ∃ u, twoSol s b u then h.choose else 0
  delp2 l u := if l = 0 then twoL u else 0
  dc u := fun _ => (u true + u false) / 2
  comm u := u
  dirichlet u := u
  check := check

theorem two_correct (c : Bool) : Correct (two c) (fun _ => True) (fun _ _ => 0) (fun _ _ _ _ => True) := by
  intro s b _ _ hg hex
  obtain ⟨u, hu, -⟩ := hex
  have h : ∃ u, twoSol s b u := ⟨u, fun p => by simpa [two] using hu p trivial⟩
  refine ⟨fun p _ => ?_, trivial⟩
  have e : (two c).solve s b = h.choose := by simp [two, hg, h]
  rw [e]
  simpa [two] using h.choose_spec p

/-- `C90_modes` (and with it `C90_pade0_partial`, `C90_pade1_partial`, `C90_pade2_partial`, `C90_exists`): the alternating
field on the two points, `b = 2`, after a history with settings, a solve and another average. -/
theorem C90_modes_example :
    let phi : Bool → ℝ := fun p => if p then 1 else -1
    let h : List (Call Bool) := [.setA fun _ => 5, .setInner 3, .solve ⟨0, phi⟩, .pade1 ⟨0, phi⟩ (.real 2) 0 0]
    (step (two true) (run (two true) h) (.pade0 ⟨0, phi⟩ (.real 1) 0 0)).2 = some ⟨0, fun p => phi p / 3⟩ := by
  intro phi h
  have hphi : (two true).delp2 0 phi = fun p => -2 * phi p := by
    funext p; cases p <;> simp [two, twoL, phi] <;> norm_num
  have := (C90_modes (two true) (fun _ _ => 0) (two_correct true) (fun _ _ => rfl) ⟨rfl, rfl, rfl⟩ h
    (by intro c hc; simp only [h, List.mem_cons, List.not_mem_nil, or_false] at hc; rcases hc with rfl | rfl | rfl | rfl <;> trivial)
    (by simpa [two] using twoL_negative) (fun _ => rfl) (fun _ => rfl) phi 2 1 (by norm_num) hphi 0 0).1
  rw [this]
  norm_num

/-- `C90_flags_violated`, `C90_shared_violated`: their hypotheses hold on the two points. -/
theorem C90_violated_example :
    (∀ s b, s.global = 1 → (two false).dc ((two false).solve s b) = 0)
    ∧ (two false).dc (fun _ => 1) = (fun _ => 1)
    ∧ (two false).fresh.ex = 0 ∧ (two false).fresh.ez = 0 ∧ (two false).fresh.global = 0 := by
  refine ⟨?_, ?_, rfl, rfl, rfl⟩
  · intro s b h; funext p; simp [two, h]
  · funext p; simp [two]

/-- **C90 is violated: staggered fields without checks.** The Padé average of a staggered field is computed with the metric at
cell centres: here the Laplacian at the field's location is zero, so the average should be the field itself, but it is a third
of it. -/
theorem C90_metric_violated :
    let phi : Bool → ℝ := fun p => if p then 1 else -1
    (∀ u, (two false).delp2 1 u = 0)
    ∧ (step (two false) none (.pade0 ⟨1, phi⟩ (.real 1) 0 0)).2 = some ⟨1, fun p => phi p / 3⟩ := by
  intro phi
  refine ⟨fun u => by simp [two], ?_⟩
  have hphi : (two false).delp2 0 phi = fun p => -2 * phi p := by
    funext p; cases p <;> simp [two, twoL, phi] <;> norm_num
  have h0 := (C90_modes (two false) (fun _ _ => 0) (two_correct false) (fun _ _ => rfl) ⟨rfl, rfl, rfl⟩ []
    (by simp) (by simpa [two] using twoL_negative) (fun _ => rfl) (fun _ => rfl) phi 2 1 (by norm_num) hphi 0 0).1
  have h1 : ∀ l, (step (two false) none (.pade0 ⟨l, phi⟩ (.real 1) 0 0)).2
      = some ⟨l, (two false).solve (prepared (two false).fresh (fun _ => -1 * 1) 0 0) phi⟩ := by
    intro l; simp [step, pade0, solveAt, two, Rho.two2, instanceOf]
  have h2 := (h1 0).symm.trans h0
  rw [h1 1]
  simp only [Option.some.injEq, Fld.mk.injEq, true_and] at h2 ⊢
  rw [h2]
  norm_num

/-- `C90_pade1_two`: the z average on the two points commutes with the Laplacian. -/
theorem C90_pade1_two_example (r : ℝ) :
    (∀ u, (two true).dc ((two true).delp2 0 u) = (two true).delp2 0 ((two true).dc u))
    ∧ (two true).dc (fun _ => 4) = (fun _ => 4)
    ∧ (∀ u v, (two true).dc (fun p => u p - 1 / 2 * r ^ 2 * v p) = fun p => (two true).dc u p - 1 / 2 * r ^ 2 * (two true).dc v p)
    ∧ ∃ u, ∀ p, u p - 1 / 2 * r ^ 2 * (two true).delp2 0 u p = 4 := by
  refine ⟨fun u => ?_, ?_, fun u v => ?_, ⟨fun _ => 4, fun p => ?_⟩⟩
  · funext p; cases p <;> simp [two, twoL]
  · funext p; simp [two]
  · funext p; simp [two]; ring
  · simp [two, twoL]

end Verif.Gyro
