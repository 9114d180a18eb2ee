import Verif.Invert.LapXZThms

/-!
# C71: when `LaplaceXZcyclic` succeeds, and what it does with the outer boundary value
-/

namespace Verif.LapXZ

open Verif.Fourier Verif.Cyclic Complex
open Verif.Laplace (has)

/-- Bounds at an interior point: positive metric and `A`, negative `B`. -/
structure Elliptic (g : Geo) (β M : ℝ) (x y : Int) : Prop where
  hm : 0 ≤ face g x (x - 1) y ∧ face g x (x - 1) y ≤ M
  hp : 0 ≤ face g x (x + 1) y ∧ face g x (x + 1) y ≤ M
  hz : 0 ≤ g.A x y * g.g33 x y
  hB : g.B x y ≤ -β

/-- Non-negative faces from positive metric and coefficient. -/
theorem face_nonneg (g : Geo) (x x' y : Int) (hJ : 0 < g.J x y) (hJ' : 0 < g.J x' y) (h11 : 0 < g.g11 x y)
    (h11' : 0 < g.g11 x' y) (hdx : 0 < g.dx x y) (hdx' : 0 < g.dx x' y) (hA : 0 < g.A x y) (hA' : 0 < g.A x' y) :
    0 ≤ face g x x' y := by
  unfold face
  positivity

theorem row_dominant {θ β M lo hi z b : ℝ} (hβ : 0 < β) (hM : 0 ≤ M) (hθ : θ * (β + 2 * M) = β) (h1 : 0 ≤ lo) (h1' : lo ≤ M)
    (h2 : 0 ≤ hi) (h2' : hi ≤ M) (hz : 0 ≤ z) (hb : b ≤ -β) :
    ‖(lo : ℂ)‖ + ‖(hi : ℂ)‖ ≤ (1 - θ) * ‖((b - hi - lo - z : ℝ) : ℂ)‖ ∧ β ≤ ‖((b - hi - lo - z : ℝ) : ℂ)‖ := by
  rw [Complex.norm_real, Complex.norm_real, Complex.norm_real, Real.norm_eq_abs, Real.norm_eq_abs, Real.norm_eq_abs,
    abs_of_nonneg h1, abs_of_nonneg h2, abs_of_nonpos (by linarith)]
  have hθ0 : 0 < θ := by
    by_contra hc
    push Not at hc
    nlinarith
  have hθ1 : θ ≤ 1 := by
    by_contra hc
    push Not at hc
    nlinarith
  refine ⟨?_, by linarith⟩
  have e : (1 - θ) * (β + hi + lo) ≤ (1 - θ) * -(b - hi - lo - z) :=
    mul_le_mul_of_nonneg_left (by linarith) (by linarith)
  refine le_trans ?_ e
  have : θ * (β + hi + lo) ≤ θ * (β + 2 * M) := mul_le_mul_of_nonneg_left (by linarith) hθ0.le
  linarith

/-- **C71 (existence).**  If the faces are non-negative (positive metric and `A`, see `face_nonneg`) and bounded, and
`B` is negative and bounded away from zero, the systems are solved, whatever the flags, the right-hand side and the
number of processors. -/
theorem C71_succeeds (s : Setup) (hw : s.WellFormed) (hN : ∀ q, q < s.P → 2 ≤ s.N q) {θ β M : ℝ} (hβ : 0 < β)
    (hβ1 : β ≤ 1 / 2) (hM : 0 ≤ M) (hθ : θ * (β + 2 * M) = β)
    (he : ∀ q, q < s.P → ∀ x, (s.geo q).xstart ≤ x → x ≤ (s.geo q).xend → ∀ m : Nat, m < s.ny →
      Elliptic (s.geo q) β M x (s.ystart + m))
    (tiny : ℂ → Prop) [DecidablePred tiny] (h0 : ∀ v, v = 0 → tiny v)
    (htiny : ∀ v, tiny v → ‖v‖ < θ * (θ * β)) (order : Nat → List Nat) (rhs x0 : F3) :
    ∃ x, s.solve tiny order rhs x0 = .ok x := by
  obtain ⟨hP, hn, hg⟩ := id hw
  have hθ0 : 0 < θ := by
    by_contra hc
    push Not at hc
    nlinarith
  have hθ1 : θ ≤ 1 := by
    by_contra hc
    push Not at hc
    nlinarith
  obtain ⟨X, hX⟩ := C22_block_succeeds hθ0 hθ1 hβ (P := s.P) (Nsys := s.nsys) (N := s.N)
    (periodic := false) (co := s.rows rhs x0) (order := order) h0 htiny hP hN (k0 := 1) (k1 := 1) (by
      intro i hi
      have hmode : 0 < s.nmode := by unfold Setup.nmode; omega
      have hm : i / s.nmode < s.ny := by
        unfold Setup.nsys at hi
        exact Nat.div_lt_of_lt_mul hi
      have hk : i % s.nmode < s.nmode := Nat.mod_lt _ hmode
      have hi' : i / s.nmode * s.nmode + i % s.nmode = i := Nat.div_add_mod' i s.nmode
      have hlast : ∀ q, q + 1 = s.P → _ := fun q hq => last_ix hw hq
      refine ⟨by have := hN 0 (by omega); omega, by have := hN (s.P - 1) (by omega); omega, ?_, ?_⟩
      · intro h1
        have := (hlast 0 (by omega)).2.2.2 rfl
        omega
      · intro q hq j hj
        dsimp only
        by_cases c0 : q = 0 ∧ j < 1
        · have e : blockCls s.P s.N 1 1 q j = 0 := if_pos c0
          rw [e]
          obtain ⟨rfl, cj⟩ := c0
          obtain rfl : j = 0 := by omega
          have ec := coef_first hw (m := i / s.nmode) hk
          rw [hi'] at ec
          have : Lower β (s.rows rhs x0 0 i 0) := by
            unfold Setup.rows Lower
            dsimp only
            rw [ec]
            split_ifs
            · norm_num; linarith
            · norm_num; linarith
          exact this
        · by_cases c1 : q + 1 = s.P ∧ s.N q ≤ j + 1
          · have e : blockCls s.P s.N 1 1 q j = 2 := by
              unfold blockCls; rw [if_neg c0, if_pos c1]
            rw [e]
            obtain ⟨cq, cj⟩ := c1
            obtain rfl : j = s.N q - 1 := by omega
            have ec := coef_last hw (m := i / s.nmode) hk cq
            rw [hi'] at ec
            have : Upper β (s.rows rhs x0 q i (s.N q - 1)) := by
              unfold Setup.rows Upper
              dsimp only
              rw [ec]
              split_ifs
              · norm_num; linarith
              · norm_num; linarith
            exact this
          · have e : blockCls s.P s.N 1 1 q j = 1 := by
              unfold blockCls; rw [if_neg c0, if_neg c1]
            rw [e]
            obtain ⟨gf, gl, gx⟩ := hg q hq
            have hb : (s.geo q).xstart ≤ s.ix q j ∧ s.ix q j ≤ (s.geo q).xend := by
              unfold Setup.N Setup.x0 Setup.x1 at hj c1
              unfold Setup.ix Setup.x0
              generalize (s.geo q).firstX = a at *
              generalize (s.geo q).lastX = b at *
              cases a <;> cases b <;> simp at gf gl hj c0 c1 ⊢ <;> omega
            have ell := he q hq _ hb.1 hb.2 _ hm
            have hy : s.y i = s.ystart + (i / s.nmode : Nat) := rfl
            have n1 : ¬ ((s.geo q).firstX = true ∧ s.ix q j = (s.geo q).xstart - 1) := by omega
            have n2 : ¬ ((s.geo q).lastX = true ∧ s.ix q j = (s.geo q).xend + 1) := by omega
            have : Strict θ β (s.rows rhs x0 q i j) := by
              unfold Setup.rows Strict Setup.coef
              dsimp only
              rw [if_neg n1, if_neg n2, hy]
              refine row_dominant hβ hM hθ ell.hm.1 ell.hm.2 ell.hp.1 ell.hp.2 ?_ ell.hB
              have := mul_nonneg ell.hz (sq_nonneg (s.kz i * 2 * Real.pi / s.zlength))
              linarith
            exact this)
  unfold Setup.solve
  rw [hX]
  exact ⟨_, rfl⟩

/-- Two processors with two interior points each, four points in Z, `A = 1`, `B = -1/2`, uniform metric. -/
noncomputable def exSetup (inner outer : Nat) : Setup where
  P := 2
  n := 4
  zlength := 1
  ystart := 2
  ny := 3
  geo := fun q => ⟨1, 2, q == 0, q == 1, fun _ _ => 1, fun _ _ => 1, fun _ _ => 1, fun _ _ => 1, fun _ _ => 1, fun _ _ => -1 / 2⟩
  inner := inner
  outer := outer

theorem exSetup_wellFormed (i o : Nat) : (exSetup i o).WellFormed := by
  refine ⟨by simp [exSetup], by simp [exSetup], fun q hq => ?_⟩
  have : q = 0 ∨ q = 1 := by
    have : q < 2 := hq
    omega
  rcases this with rfl | rfl <;> simp [exSetup]

/-- The hypotheses of the theorems above are met: the example is solved for all flags, right-hand sides and `x0`. -/
theorem exSetup_solves (i o : Nat) (rhs x0 : F3) :
    ∃ x, (exSetup i o).solve (fun v => v = 0) (fun _ => [1, 0]) rhs x0 = .ok x := by
  refine C71_succeeds (exSetup i o) (exSetup_wellFormed i o) ?_ (θ := 1 / 5) (β := 1 / 2) (M := 1) (by norm_num) (by norm_num)
    (by norm_num) (by norm_num) ?_ _ (fun v h => h) (fun v h => by subst h; norm_num) _ rhs x0
  · intro q hq
    have : q = 0 ∨ q = 1 := by
      have : q < 2 := hq
      omega
    rcases this with rfl | rfl <;> simp [exSetup, Setup.N, Setup.x0, Setup.x1]
  · intro q hq x h1 h2 m hm
    have hf : ∀ x x' y, face ((exSetup i o).geo q) x x' y = 1 := by
      intro x x' y; simp [face, exSetup]; norm_num
    constructor
    · rw [hf]; norm_num
    · rw [hf]; norm_num
    · simp [exSetup]
    · simp [exSetup]; norm_num

/-- **C71 (outer boundary), violated.**  `INVERT_SET` at the outer boundary asks for the value of `x0` there, as it
does at the inner boundary; whenever that value is not zero the result does not have it, and neither does it have the
value of the right-hand side with `INVERT_RHS`: there are inputs where the solve succeeds and this happens. -/
theorem C71_outer_set_violated (flag : Nat) (hf : flag = 16 ∨ flag = 32) :
    ∃ (s : Setup) (rhs x0 : F3) (x : Nat → Nat → Nat → Nat → ℝ),
      s.WellFormed ∧ s.outer = flag ∧ s.solve (fun v => v = 0) (fun _ => [1, 0]) rhs x0 = .ok x ∧ 0 < s.ny ∧
      ∀ f, f = x0 ∨ f = rhs →
        cond s.outer 0 (rfft s.n (x 0 1 2) 0) (rfft s.n (x 0 1 1) 0)
          ≠ cond s.outer 0 (rfft s.n (f 1 3 s.ystart) 0) (rfft s.n (f 1 2 s.ystart) 0) := by
  obtain ⟨x, hx⟩ := exSetup_solves 0 flag (fun _ _ _ _ => 1) (fun _ _ _ _ => 1)
  refine ⟨exSetup 0 flag, fun _ _ _ _ => 1, fun _ _ _ _ => 1, x, exSetup_wellFormed _ _, rfl, hx, by simp [exSetup], ?_⟩
  have hord : ∀ q, q < (exSetup 0 flag).P → ((fun _ : Nat => [1, 0]) q : List Nat).Perm (List.range (exSetup 0 flag).P) := by
    intro q _
    exact (List.Perm.swap 0 1 [])
  have := C71_outer_partial (exSetup 0 flag) (exSetup_wellFormed _ _) (fun v => v = 0) (fun v h => h) _ hord _ _ x hx 0
    (by simp [exSetup]) 0 (by omega)
  have hN : (exSetup 0 flag).N 1 = 3 := by simp [exSetup, Setup.N, Setup.x0, Setup.x1]
  rw [show (exSetup 0 flag).P - 1 = 1 from rfl, hN] at this
  intro f hfe
  obtain rfl : f = fun _ _ _ _ => 1 := by rcases hfe with rfl | rfl <;> rfl
  rw [this]
  have hr : rfft (exSetup 0 flag).n (fun _ => (1 : ℝ)) 0 = 1 := by
    unfold rfft r2c exSetup
    simp
  have hg : grad flag 0 = false := by rcases hf with rfl | rfl <;> decide
  simp only [cond_grad]
  rw [show (exSetup 0 flag).outer = flag from rfl, hg, hr]
  norm_num

end Verif.LapXZ
