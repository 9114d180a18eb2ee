import Verif.Invert.Naulin
import Mathlib.Tactic.Ring
import Mathlib.Tactic.Linarith
import Mathlib.Tactic.FieldSimp
import Mathlib.Tactic.NormNum
import Mathlib.Tactic.LinearCombination

/-!
# C72: the Naulin solver solves the full perpendicular equation to its tolerance

Specification: central difference in X, derivative of the row in Z, and the operator
`D Delp2(x) + 1/C1 Grad_perp(C2).Grad_perp(x) + A x` (`naulin_laplace.cxx` L26-31 and L187-188).
-/

namespace Verif.Naulin

/-- Central difference in X. -/
noncomputable def dX (s : Setup) (f : Fld) (p : Pt) : ℝ := (f { p with x := p.x + 1 } - f { p with x := p.x - 1 }) / (2 * s.dx p)

/-- Derivative along Z. -/
def dZ (s : Setup) (f : Fld) (p : Pt) : ℝ := s.dz (fun z => f { p with z := z }) p.z

/-- `Grad_perp(f).Grad_perp(h)`, derivatives along Y neglected. -/
noncomputable def gradDot (s : Setup) (f h : Fld) (p : Pt) : ℝ :=
  s.g11 p * dX s f p * dX s h p + s.g33 p * dZ s f p * dZ s h p + s.g13 p * (dX s f p * dZ s h p + dZ s f p * dX s h p)

/-- The full operator. -/
noncomputable def full (s : Setup) (delp2 : Fld → Fld) (x : Fld) (p : Pt) : ℝ :=
  s.D p * delp2 x p + 1 / s.C1 p * gradDot s s.C2 x p + s.A p * x p

/-- What C54 proves of the FFT solver for coefficients `A`, `C1`, `C2` constant in Z and `D = 1`: it inverts
`Delp2 x + 1/C1 dC2/dx (g11 dx/dx + g13 dx/dz) + A x`. -/
def Exact (s : Setup) (delp2 : Fld → Fld) (sol : Solver) : Prop :=
  ∀ co b g x, sol co b g = .ok x → ∀ p, s.Inside p →
    delp2 x p + 1 / co.C1 p * dX s co.C2 p * (s.g11 p * dX s x p + s.g13 p * dZ s x p) + co.A p * x p = b p

/-- An error that passes the tolerances. -/
def Small (s : Setup) (rhs : Fld) (e : ℝ) : Prop :=
  e < s.rtol * s.rms (fun p => rhs p / s.D p) ∨ e < s.atol

theorem mem_points (s : Setup) (p : Pt) : p ∈ s.points ↔ s.Inside p := by
  unfold Setup.points Setup.Inside
  simp only [Finset.mem_biUnion, Finset.mem_range, Finset.mem_image, Finset.mem_product]
  constructor
  · rintro ⟨q, hq, ⟨i, j, k⟩, ⟨h1, h2, h3⟩, rfl⟩
    dsimp only at h1 h2 h3 ⊢
    omega
  · rintro ⟨h1, h2, h3, h4, h5, h6⟩
    refine ⟨p.q, h1, ((p.x - s.xstart p.q).toNat, (p.y - s.ystart p.q).toNat, p.z), ⟨?_, ?_, h6⟩, ?_⟩
    · dsimp only; omega
    · dsimp only; omega
    · obtain ⟨q, x, y, z⟩ := p
      dsimp only at *
      congr 1 <;> omega

theorem le_maxAbs (s : Setup) (f : Fld) (p : Pt) (hp : s.Inside p) : |f p| ≤ s.maxAbs f := by
  have hm := (mem_points s p).mpr hp
  unfold Setup.maxAbs
  rw [dif_pos ⟨p, hm⟩]
  exact Finset.le_sup' (fun p => |f p|) hm

theorem maxAbs_nonneg (s : Setup) (f : Fld) : 0 ≤ s.maxAbs f := by
  unfold Setup.maxAbs
  split_ifs with h
  · obtain ⟨p, hp⟩ := h
    exact le_trans (abs_nonneg _) (Finset.le_sup' (fun p => |f p|) hp)
  · exact le_rfl

theorem maxAbs_le (s : Setup) (f : Fld) {e : ℝ} (he : 0 ≤ e) (h : ∀ p, s.Inside p → |f p| ≤ e) : s.maxAbs f ≤ e := by
  unfold Setup.maxAbs
  split_ifs with hn
  · exact Finset.sup'_le hn _ fun p hp => h p ((mem_points s p).mp hp)
  · exact he

theorem ddx_inside {s : Setup} {p : Pt} (hp : s.Inside p) (n : Nat) (f : Fld) : s.ddx n f p = dX s f p := by
  unfold Setup.ddx dX
  rw [if_pos hp]
  rw [show (0.5 : ℝ) = 1 / 2 by norm_num]
  simp only [div_eq_mul_inv, mul_inv]
  ring

theorem ddz_inside {s : Setup} {p : Pt} (hp : s.Inside p) (n : Nat) (f : Fld) : s.ddz n f p = dZ s f p := by
  unfold Setup.ddz dZ
  rw [if_pos hp]

/-- What the pair function returns. -/
theorem pair_ok {s : Setup} {sol : Solver} {x0 b g : Fld} {c : Fld × Fld} (h : s.pair sol x0 b g = .ok c) :
    c.1 = b ∧ sol s.inner b (if s.innerSet || s.outerSet then s.copyX g x0 else g) = .ok c.2 := by
  unfold Setup.pair at h
  simp only [bind, Except.bind] at h
  split at h
  · exact absurd h (by simp)
  · rename_i x hx
    simp only [pure, Except.pure, Except.ok.injEq] at h
    subst h
    exact ⟨rfl, hx⟩

/-- The pair held is one the solver made. -/
def Made (s : Setup) (sol : Solver) (x0 : Fld) (c : Fld × Fld) : Prop :=
  ∃ g, s.pair sol x0 c.1 g = .ok c

theorem made_of {s : Setup} {sol : Solver} {x0 b g : Fld} {c : Fld × Fld} (h : s.pair sol x0 b g = .ok c) :
    Made s sol x0 c := by
  refine ⟨g, ?_⟩
  rw [(pair_ok h).1]
  exact h

/-- What holds of the state all along. -/
structure Good (s : Setup) (sol : Solver) (x0 : Fld) (st : St) : Prop where
  cur : Made s sol x0 st.cur
  old : Made s sol x0 st.old
  cnt : st.count ≤ s.maxits
  und : st.under = s.initialUnderrelax * 0.9 ^ st.underCount

theorem relax_good {s : Setup} {sol : Solver} {rhs x0 : Fld} : ∀ (fuel : Nat) (st st' : St),
    Good s sol x0 st → s.relax sol rhs x0 fuel st = .ok st' →
    Good s sol x0 st' ∧ s.errOf rhs st'.cur ≤ st.last ∧ st'.last = st.last := by
  intro fuel
  induction fuel with
  | zero => intro st st' _ h; exact absurd h (by simp [Setup.relax])
  | succ f ih =>
    intro st st' hg h
    rw [Setup.relax] at h
    by_cases hc : s.errOf rhs st.cur > st.last
    · rw [if_pos hc] at h
      simp only [bind, Except.bind] at h
      split at h
      · exact absurd h (by simp)
      · rename_i c hp
        by_cases hm : st.count + 1 > s.maxits
        · rw [if_pos hm] at h; exact absurd h (by simp)
        · rw [if_neg hm] at h
          exact ih { st with under := st.under * 0.9, underCount := st.underCount + 1, cur := c, count := st.count + 1 } st'
            ⟨made_of hp, hg.old, Nat.not_lt.mp hm, by dsimp only; rw [hg.und, pow_succ]; ring⟩ h
    · rw [if_neg hc] at h
      simp only [pure, Except.pure, Except.ok.injEq] at h
      subst h
      exact ⟨hg, not_lt.mp hc, rfl⟩

theorem loop_good {s : Setup} {sol : Solver} {rhs x0 : Fld} : ∀ (fuel : Nat) (st st' : St),
    Good s sol x0 st → s.loop sol rhs x0 fuel st = .ok st' →
    Good s sol x0 st' ∧ s.Conv (s.rms (s.rhsOverD rhs)) (s.errOf rhs st'.cur) := by
  intro fuel
  induction fuel with
  | zero => intro st st' _ h; exact absurd h (by simp [Setup.loop])
  | succ f ih =>
    intro st st' hg h
    rw [Setup.loop] at h
    by_cases hc : s.Conv (s.rms (s.rhsOverD rhs)) (s.errOf rhs st.cur)
    · rw [if_pos hc] at h
      simp only [pure, Except.pure, Except.ok.injEq] at h
      subst h
      exact ⟨hg, hc⟩
    · rw [if_neg hc] at h
      by_cases hm : st.count + 1 > s.maxits
      · rw [if_pos hm] at h; exact absurd h (by simp)
      · rw [if_neg hm] at h
        simp only [bind, Except.bind] at h
        split at h
        · exact absurd h (by simp)
        · rename_i st2 hr
          have g2 := (relax_good _ { st with count := st.count + 1 } _ ⟨hg.cur, hg.old, Nat.not_lt.mp hm, hg.und⟩ hr).1
          by_cases hc2 : s.Conv (s.rms (s.rhsOverD rhs)) (s.errOf rhs st2.cur)
          · rw [if_pos hc2] at h
            simp only [pure, Except.pure, Except.ok.injEq] at h
            subst h
            exact ⟨g2, hc2⟩
          · rw [if_neg hc2] at h
            split at h
            · exact absurd h (by simp)
            · rename_i c hp
              exact ih { st2 with last := s.errOf rhs st2.cur, old := st2.cur, cur := c } st'
                ⟨made_of hp, g2.cur, g2.cnt, g2.und⟩ h

theorem solve_view {s : Setup} {sol : Solver} {rhs x0 x : Fld} {st : St} (h : s.solve sol rhs x0 = .ok (x, st)) :
    x = st.cur.2 ∧ Good s sol x0 st ∧ s.Conv (s.rms (s.rhsOverD rhs)) (s.errOf rhs st.cur) := by
  unfold Setup.solve at h
  simp only [bind, Except.bind] at h
  split at h
  · exact absurd h (by simp)
  · rename_i c hp
    split at h
    · exact absurd h (by simp)
    · rename_i st' hl
      simp only [pure, Except.pure, Except.ok.injEq, Prod.mk.injEq] at h
      obtain ⟨rfl, rfl⟩ := h
      exact ⟨rfl, loop_good _ _ _ ⟨made_of hp, made_of hp, Nat.zero_le _, by simp⟩ hl⟩

/-- **C72 (equation).**  Whenever the solver returns, its result satisfies
`D Delp2(x) + 1/C1 Grad_perp(C2).Grad_perp(x) + A x = rhs` at every point off the boundaries of every processor, to
within `|D| e` where `e` passes one of the tolerances; `A`, `C1`, `C2`, `D` may depend on X, Y and Z. -/
theorem C72_equation (s : Setup) (delp2 : Fld → Fld) (sol : Solver) (hsol : Exact s delp2 sol) (rhs x0 x : Fld) (st : St)
    (h : s.solve sol rhs x0 = .ok (x, st)) :
    ∃ e, Small s rhs e ∧ ∀ p, s.Inside p → s.D p ≠ 0 → |full s delp2 x p - rhs p| ≤ |s.D p| * e := by
  obtain ⟨rfl, hg, hc⟩ := solve_view h
  obtain ⟨g, hm⟩ := hg.cur
  obtain ⟨_, hs⟩ := pair_ok hm
  refine ⟨s.errOf rhs st.cur, ?_, fun p hp hD => ?_⟩
  · rcases hc with ⟨h1, h2⟩ | h1
    · have h0 : 0 < s.rms (s.rhsOverD rhs) := lt_of_le_of_ne (Real.sqrt_nonneg _) (Ne.symm h1)
      exact Or.inl ((div_lt_iff₀ h0).mp h2)
    · exact Or.inr h1
  · have he := le_maxAbs s (fun p => st.cur.1 p - s.bGuess rhs st.cur.2 p) p hp
    have hx := hsol _ _ _ _ hs p hp
    have key : full s delp2 st.cur.2 p - rhs p = s.D p * (st.cur.1 p - s.bGuess rhs st.cur.2 p) := by
      rw [← hx]
      have a1 : s.AOverD p = s.A p * (s.D p)⁻¹ := div_eq_mul_inv _ _
      have a2 : s.rhsOverD rhs p = rhs p * (s.D p)⁻¹ := div_eq_mul_inv _ _
      have a3 : s.coefX p = dX s s.C2 p * (s.C1 p)⁻¹ * (s.D p)⁻¹ := by
        unfold Setup.coefX Setup.C1TimesD
        rw [ddx_inside hp, div_eq_mul_inv, mul_inv]; ring
      have a4 : s.coefZ p = dZ s s.C2 p * (s.C1 p)⁻¹ * (s.D p)⁻¹ := by
        unfold Setup.coefZ Setup.C1TimesD
        rw [ddz_inside hp, div_eq_mul_inv, mul_inv]; ring
      unfold full gradDot Setup.bGuess Setup.coefXAC Setup.AOverDAC Setup.inner
      dsimp only
      rw [a1, a2, a3, a4, ddx_inside hp, ddx_inside hp, ddz_inside hp, one_div, one_div, div_eq_mul_inv]
      have hu : s.D p * (s.D p)⁻¹ = 1 := mul_inv_cancel₀ hD
      generalize (s.D p)⁻¹ = u at *
      generalize (s.C1 p)⁻¹ = v at *
      linear_combination (-(v * (s.g11 p * dX s s.C2 p * dX s st.cur.2 p + s.g33 p * dZ s s.C2 p * dZ s st.cur.2 p
        + s.g13 p * (dX s s.C2 p * dZ s st.cur.2 p + dZ s s.C2 p * dX s st.cur.2 p))) - s.A p * st.cur.2 p + rhs p) * hu
    rw [key, abs_mul]
    exact mul_le_mul_of_nonneg_left he (abs_nonneg _)

/-- **C72 (boundary values).**  With `INVERT_SET` at either boundary, the result was returned by the FFT solver for
boundary values taken from `x0`, never from an earlier iterate: in every X boundary cell (off the Y guard cells) the
guess it was handed equals `x0`. -/
theorem C72_set_boundary (s : Setup) (sol : Solver) (rhs x0 x : Fld) (st : St)
    (h : s.solve sol rhs x0 = .ok (x, st)) (hset : s.innerSet = true ∨ s.outerSet = true) :
    ∃ b g, sol s.inner b g = .ok x ∧ ∀ p, p.q < s.P → s.ystart p.q ≤ p.y → p.y ≤ s.yend p.q → p.z < s.nz →
      ((s.firstX p.q = true ∧ 0 ≤ p.x ∧ p.x < s.xstart p.q)
        ∨ (s.lastX p.q = true ∧ s.xend p.q < p.x ∧ p.x < s.localNx p.q)) → g p = x0 p := by
  obtain ⟨rfl, hg, _⟩ := solve_view h
  obtain ⟨g, hm⟩ := hg.cur
  obtain ⟨_, hs⟩ := pair_ok hm
  rw [if_pos (by rcases hset with h | h <;> simp [h])] at hs
  refine ⟨_, _, hs, fun p h1 h2 h3 h4 h5 => ?_⟩
  unfold Setup.copyX
  rw [if_pos]
  refine ⟨h1, h2, h3, h4, ?_⟩
  rcases h5 with h5 | h5
  · exact Or.inl ⟨h5.1, by omega⟩
  · exact Or.inr ⟨h5.1, by omega⟩

/-- **C72 (effort).**  A solve that returns has made at most `maxits` iterations, and its under-relaxation factor is
the initial one times a power of 0.9; so it stays positive and at most the initial one. -/
theorem C72_effort (s : Setup) (sol : Solver) (rhs x0 x : Fld) (st : St) (h : s.solve sol rhs x0 = .ok (x, st))
    (hu : 0 < s.initialUnderrelax) :
    st.count ≤ s.maxits ∧ 0 < st.under ∧ st.under ≤ s.initialUnderrelax := by
  obtain ⟨rfl, hg, _⟩ := solve_view h
  refine ⟨hg.cnt, ?_, ?_⟩
  · rw [hg.und]; positivity
  · rw [hg.und]
    have : (0.9 : ℝ) ^ st.underCount ≤ 1 := pow_le_one₀ (by norm_num) (by norm_num)
    nlinarith

/-- The solver never runs on: the only errors are those of the FFT solver and the exception for `maxits`. -/
theorem relax_ends {s : Setup} {sol : Solver} {rhs x0 : Fld} (hs : ∀ co b g, sol co b g ≠ .error (.ub "fuel")) :
    ∀ (fuel : Nat) (st : St), s.maxits < st.count + fuel → s.relax sol rhs x0 fuel st = .error (.ub "fuel") →
      s.maxits < st.count := by
  intro fuel
  induction fuel with
  | zero => intro st h _; omega
  | succ f ih =>
    intro st hf h
    rw [Setup.relax] at h
    by_cases hc : s.errOf rhs st.cur > st.last
    · rw [if_pos hc] at h
      simp only [bind, Except.bind] at h
      split at h
      · rename_i e he
        unfold Setup.pair at he
        simp only [bind, Except.bind] at he
        split at he
        · rename_i e' he'
          simp only [Except.error.injEq] at h he
          subst h; subst he
          exact absurd he' (hs _ _ _)
        · exact absurd he (by simp [pure, Except.pure])
      · by_cases hm : st.count + 1 > s.maxits
        · rw [if_pos hm] at h
          exact absurd h (by simp)
        · rw [if_neg hm] at h
          have := ih _ (by dsimp only; omega) h
          dsimp only at this
          omega
    · rw [if_neg hc] at h
      exact absurd h (by simp [pure, Except.pure])

theorem relax_count {s : Setup} {sol : Solver} {rhs x0 : Fld} : ∀ (fuel : Nat) (st st' : St),
    s.relax sol rhs x0 fuel st = .ok st' → st.count ≤ st'.count := by
  intro fuel
  induction fuel with
  | zero => intro st st' h; exact absurd h (by simp [Setup.relax])
  | succ f ih =>
    intro st st' h
    rw [Setup.relax] at h
    by_cases hc : s.errOf rhs st.cur > st.last
    · rw [if_pos hc] at h
      simp only [bind, Except.bind] at h
      split at h
      · exact absurd h (by simp)
      · by_cases hm : st.count + 1 > s.maxits
        · rw [if_pos hm] at h
          exact absurd h (by simp)
        · rw [if_neg hm] at h
          have := ih _ _ h
          dsimp only at this
          omega
    · rw [if_neg hc] at h
      simp only [pure, Except.pure, Except.ok.injEq] at h
      subst h; rfl

theorem pair_ends {s : Setup} {sol : Solver} {x0 b g : Fld} (hs : ∀ co b g, sol co b g ≠ .error (.ub "fuel")) :
    s.pair sol x0 b g ≠ .error (.ub "fuel") := by
  intro he
  unfold Setup.pair at he
  simp only [bind, Except.bind] at he
  split at he
  · rename_i e' he'
    simp only [Except.error.injEq] at he
    subst he
    exact absurd he' (hs _ _ _)
  · exact absurd he (by simp [pure, Except.pure])

theorem loop_ends {s : Setup} {sol : Solver} {rhs x0 : Fld} (hs : ∀ co b g, sol co b g ≠ .error (.ub "fuel")) :
    ∀ (fuel : Nat) (st : St), s.maxits < st.count + fuel → s.loop sol rhs x0 fuel st ≠ .error (.ub "fuel") ∨ s.maxits < st.count := by
  intro fuel
  induction fuel with
  | zero => intro st h; right; omega
  | succ f ih =>
    intro st hf
    left
    intro h
    rw [Setup.loop] at h
    by_cases hc : s.Conv (s.rms (s.rhsOverD rhs)) (s.errOf rhs st.cur)
    · rw [if_pos hc] at h
      exact absurd h (by simp [pure, Except.pure])
    · rw [if_neg hc] at h
      by_cases hm : st.count + 1 > s.maxits
      · rw [if_pos hm] at h; exact absurd h (by simp)
      · rw [if_neg hm] at h
        simp only [bind, Except.bind] at h
        split at h
        · rename_i e he
          simp only [Except.error.injEq] at h
          subst h
          have := relax_ends hs _ _ (by dsimp only; omega) he
          dsimp only at this
          omega
        · rename_i st2 hr
          have hcnt := relax_count _ _ _ hr
          dsimp only at hcnt
          by_cases hc2 : s.Conv (s.rms (s.rhsOverD rhs)) (s.errOf rhs st2.cur)
          · rw [if_pos hc2] at h
            exact absurd h (by simp [pure, Except.pure])
          · rw [if_neg hc2] at h
            split at h
            · rename_i e he
              simp only [Except.error.injEq] at h
              subst h
              exact pair_ends hs he
            · rename_i c hp
              rcases ih { st2 with last := s.errOf rhs st2.cur, old := st2.cur, cur := c } (by dsimp only; omega) with h1 | h1
              · exact h1 h
              · dsimp only at h1
                by_cases hf0 : f = 0
                · subst hf0; omega
                · rcases f with _ | f
                  · exact hf0 rfl
                  · rw [Setup.loop] at h
                    dsimp only at h
                    by_cases hc3 : s.Conv (s.rms (s.rhsOverD rhs)) (s.errOf rhs c)
                    · rw [if_pos hc3] at h
                      exact absurd h (by simp [pure, Except.pure])
                    · rw [if_neg hc3, if_pos (by omega)] at h
                      exact absurd h (by simp)

/-- **C72 (always ends).**  The two loops end for every input: with an FFT solver that ends, `solve` returns, or throws
the FFT solver's error or the one for `maxits`. -/
theorem C72_ends (s : Setup) (sol : Solver) (hs : ∀ co b g, sol co b g ≠ .error (.ub "fuel")) (rhs x0 : Fld) :
    s.solve sol rhs x0 ≠ .error (.ub "fuel") := by
  intro h
  unfold Setup.solve at h
  simp only [bind, Except.bind] at h
  split at h
  · rename_i e he
    simp only [Except.error.injEq] at h
    subst h
    exact pair_ends hs he
  · rename_i c _
    split at h
    · rename_i e he
      simp only [Except.error.injEq] at h
      subst h
      rcases loop_ends (s := s) (rhs := rhs) (x0 := x0) hs (s.maxits + 2) ⟨c, c, 1e20, 0, s.initialUnderrelax, 0⟩
        (show s.maxits < 0 + (s.maxits + 2) by omega) with h1 | h1
      · exact h1 he
      · exact absurd h1 (by simp)
    · exact absurd h (by simp [pure, Except.pure])

/-- The iteration contracts: two results of the FFT solver give right-hand sides closer, by a factor `κ`, than those
they came from. -/
def Contracts (s : Setup) (sol : Solver) (rhs : Fld) (κ : ℝ) : Prop :=
  ∀ b g x b' g' x', sol s.inner b g = .ok x → sol s.inner b' g' = .ok x' →
    s.maxAbs (fun p => s.bGuess rhs x p - s.bGuess rhs x' p) ≤ κ * s.maxAbs (fun p => b p - b' p)

theorem loop_converges {s : Setup} {sol : Solver} {rhs x0 : Fld} {κ : ℝ} (h0 : 0 ≤ κ) (h1 : κ ≤ 1)
    (hc : Contracts s sol rhs κ) (hok : ∀ b g, ∃ x, sol s.inner b g = .ok x) :
    ∀ (fuel : Nat) (st : St), Made s sol x0 st.cur → st.under = 1 → s.errOf rhs st.cur ≤ st.last → st.count ≤ s.maxits →
      s.maxits < st.count + fuel → κ ^ (s.maxits - st.count) * s.errOf rhs st.cur < s.atol →
      ∃ st', s.loop sol rhs x0 fuel st = .ok st' := by
  intro fuel
  induction fuel with
  | zero => intro st _ _ _ h1 h2; omega
  | succ f ih =>
    intro st hm hu hl hcnt hf hk
    rw [Setup.loop]
    by_cases hcv : s.Conv (s.rms (s.rhsOverD rhs)) (s.errOf rhs st.cur)
    · rw [if_pos hcv]; exact ⟨_, rfl⟩
    · rw [if_neg hcv]
      have hlt : st.count < s.maxits := by
        by_contra hge
        rw [show s.maxits - st.count = 0 by omega, pow_zero, one_mul] at hk
        exact hcv (Or.inr hk)
      rw [if_neg (show ¬ (st.count + 1 > s.maxits) by omega)]
      have hr : s.relax sol rhs x0 (s.maxits + 1) { st with count := st.count + 1 } = .ok { st with count := st.count + 1 } := by
        rw [Setup.relax, if_neg (not_lt.mpr hl)]; rfl
      simp only [bind, Except.bind, hr]
      rw [if_neg hcv]
      obtain ⟨x, hx⟩ := hok (mix st.under (s.bGuess rhs st.cur.2) st.cur.1)
        (if s.innerSet || s.outerSet then s.copyX st.cur.2 x0 else st.cur.2)
      have hp : s.pair sol x0 (mix st.under (s.bGuess rhs st.cur.2) st.cur.1) st.cur.2
          = .ok (mix st.under (s.bGuess rhs st.cur.2) st.cur.1, x) := by
        unfold Setup.pair
        simp only [bind, Except.bind, hx]
        rfl
      simp only [hp]
      obtain ⟨g, hg⟩ := hm
      have hmix : mix st.under (s.bGuess rhs st.cur.2) st.cur.1 = s.bGuess rhs st.cur.2 := by
        funext p; unfold mix; rw [hu]; ring
      have herr : s.errOf rhs (mix st.under (s.bGuess rhs st.cur.2) st.cur.1, x) ≤ κ * s.errOf rhs st.cur := by
        have := hc _ _ _ _ _ _ (pair_ok hg).2 hx
        rw [hmix] at this
        unfold Setup.errOf
        rw [hmix]
        exact this
      have hn : 0 ≤ s.errOf rhs st.cur := maxAbs_nonneg _ _
      refine ih _ (made_of hp) hu (le_trans herr (by nlinarith)) (show st.count + 1 ≤ s.maxits by omega)
        (show s.maxits < st.count + 1 + f by omega) ?_
      dsimp only
      refine lt_of_le_of_lt ?_ hk
      rw [show s.maxits - st.count = (s.maxits - (st.count + 1)) + 1 by omega, pow_succ, mul_assoc]
      exact mul_le_mul_of_nonneg_left herr (pow_nonneg h0 _)

/-- **C72 (convergence).**  If the FFT solver succeeds and the iteration contracts with a factor `κ < 1`, the solver
returns without under-relaxing as soon as `maxits` allows the error to fall below `atol`. -/
theorem C72_converges (s : Setup) (sol : Solver) (rhs x0 : Fld) {κ : ℝ} (h0 : 0 ≤ κ) (h1 : κ ≤ 1)
    (hc : Contracts s sol rhs κ) (hok : ∀ b g, ∃ x, sol s.inner b g = .ok x) (hu : s.initialUnderrelax = 1) (E : ℝ) (hE : E ≤ 1e20)
    (hfirst : ∀ g x, sol s.inner (s.bGuess rhs x0) g = .ok x → s.maxAbs (fun p => s.bGuess rhs x0 p - s.bGuess rhs x p) ≤ E)
    (hk : κ ^ s.maxits * E < s.atol) :
    ∃ x st, s.solve sol rhs x0 = .ok (x, st) := by
  obtain ⟨x, hx⟩ := hok (s.bGuess rhs x0) (if s.innerSet || s.outerSet then s.copyX x0 x0 else x0)
  have hp : s.pair sol x0 (s.bGuess rhs x0) x0 = .ok (s.bGuess rhs x0, x) := by
    unfold Setup.pair
    simp only [bind, Except.bind, hx]
    rfl
  have he := hfirst _ _ hx
  obtain ⟨st', hl⟩ := loop_converges h0 h1 hc hok (s.maxits + 2)
    ⟨(s.bGuess rhs x0, x), (s.bGuess rhs x0, x), 1e20, 0, s.initialUnderrelax, 0⟩ (made_of hp) hu (le_trans he hE)
    (Nat.zero_le _) (show s.maxits < 0 + (s.maxits + 2) by omega)
    (lt_of_le_of_lt (mul_le_mul_of_nonneg_left he (pow_nonneg h0 _)) hk)
  refine ⟨st'.cur.2, st', ?_⟩
  unfold Setup.solve
  simp only [bind, Except.bind, hp, hl]
  rfl

/-- Nothing depends on Z. -/
def Flat (f : Fld) : Prop := ∀ p z, f { p with z := z } = f p

theorem DC_flat {s : Setup} (hz : 0 < s.nz) {f : Fld} (hf : Flat f) : s.DC f = f := by
  funext p
  unfold Setup.DC
  rw [Finset.sum_congr rfl fun k _ => hf p k, Finset.sum_const, Finset.card_range, nsmul_eq_mul]
  have : (s.nz : ℝ) ≠ 0 := by exact_mod_cast hz.ne'
  field_simp

/-- **C72 (coefficients constant in Z).**  If the coefficients do not depend on Z, one call of the FFT solver, with
`rhs/D`, is the answer: nothing is iterated. -/
theorem C72_axisymmetric (s : Setup) (sol : Solver) (rhs x0 : Fld) (hz : 0 < s.nz) (hA : Flat s.A) (h1 : Flat s.C1)
    (h2 : Flat s.C2) (hD : Flat s.D) (hdz : ∀ c z, s.dz (fun _ => c) z = 0) (ha : 0 < s.atol) (x : Fld) (st : St)
    (h : s.solve sol rhs x0 = .ok (x, st)) :
    st.count = 0 ∧ ∃ b g, sol s.inner b g = .ok x ∧ ∀ p, s.Inside p → b p = rhs p / s.D p := by
  have hb : ∀ (w : Fld) p, s.Inside p → s.bGuess rhs w p = rhs p / s.D p := by
    intro w p hp
    have c1 : s.coefXAC p = 0 := by
      unfold Setup.coefXAC Setup.coefX
      rw [DC_flat hz h2, DC_flat hz (f := s.C1TimesD) (fun p z => by unfold Setup.C1TimesD; rw [h1, hD]), ddx_inside hp, ddx_inside hp]
      ring
    have c2 : s.coefZ p = 0 := by
      unfold Setup.coefZ
      rw [ddz_inside hp]
      unfold dZ
      rw [show (fun z => s.C2 { p with z := z }) = fun _ => s.C2 p from funext fun z => h2 p z, hdz, zero_div]
    have c3 : s.AOverDAC p = 0 := by
      unfold Setup.AOverDAC
      rw [DC_flat hz (f := s.AOverD) (fun p z => by unfold Setup.AOverD; rw [hA, hD])]
      ring
    unfold Setup.bGuess
    dsimp only
    rw [c1, c2, c3]
    unfold Setup.rhsOverD
    ring
  unfold Setup.solve at h
  simp only [bind, Except.bind] at h
  split at h
  · exact absurd h (by simp)
  · rename_i c hp
    obtain ⟨e1, e2⟩ := pair_ok hp
    have hcv : s.Conv (s.rms (s.rhsOverD rhs)) (s.errOf rhs c) := by
      right
      refine lt_of_le_of_lt (maxAbs_le s _ le_rfl fun p hi => ?_) ha
      rw [e1, hb _ p hi, hb _ p hi]
      simp
    rw [Setup.loop, if_pos hcv] at h
    simp only [pure, Except.pure, Except.ok.injEq, Prod.mk.injEq] at h
    obtain ⟨rfl, rfl⟩ := h
    exact ⟨rfl, _, _, e2, fun p hi => hb _ p hi⟩

/-- Two processors in X, four points in Z; `A` varies in Z, the other coefficients do not. -/
noncomputable def exSetup : Setup where
  P := 2
  nz := 4
  xstart := fun _ => 1
  xend := fun _ => 3
  ystart := fun _ => 1
  yend := fun _ => 2
  localNx := fun _ => 5
  firstX := fun q => q == 0
  lastX := fun q => q == 1
  dx := fun _ => 1
  g11 := fun _ => 1
  g33 := fun _ => 1
  g13 := fun _ => 0
  A := fun p => if p.z = 0 then 1 else 0
  C1 := fun _ => 1
  C2 := fun _ => 1
  D := fun _ => 2
  innerSet := true
  outerSet := false
  rtol := 1 / 10 ^ 7
  atol := 1 / 10 ^ 3
  maxits := 100
  initialUnderrelax := 1
  dz := fun _ _ => 0
  junk := fun _ _ => 0

open Classical in
/-- A solver for `Delp2 x = x`, for the coefficients of the example. -/
noncomputable def exSol : Solver := fun co b _ =>
  if co = exSetup.inner then .ok fun p => b p / (9 / 8) else .error (.exc "other coefficients")

theorem exDC (p : Pt) : exSetup.DC exSetup.AOverD p = 1 / 8 := by
  unfold Setup.DC Setup.AOverD exSetup
  simp [Finset.sum_range_succ]
  norm_num

theorem exB (rhs x : Fld) (p : Pt) :
    exSetup.bGuess rhs x p = rhs p / 2 - ((if p.z = 0 then 1 else 0) / 2 - 1 / 8) * x p := by
  have h1 : exSetup.coefXAC p = 0 := by
    unfold Setup.coefXAC Setup.coefX Setup.ddx
    have : exSetup.DC exSetup.C2 = fun _ => 1 := by
      funext p; unfold Setup.DC exSetup; simp
    rw [this]
    simp [exSetup]
  have h2 : exSetup.coefZ p = 0 := by
    unfold Setup.coefZ Setup.ddz
    simp [exSetup]
  unfold Setup.bGuess
  dsimp only
  rw [h1, h2]
  have h3 : exSetup.AOverDAC p = (if p.z = 0 then 1 else 0) / 2 - 1 / 8 := by
    unfold Setup.AOverDAC
    rw [exDC]; rfl
  rw [h3]
  simp [exSetup, Setup.rhsOverD]

theorem exSol_ok {co : Inner} {b g x : Fld} (h : exSol co b g = .ok x) : co = exSetup.inner ∧ x = fun p => b p / (9 / 8) := by
  unfold exSol at h
  split_ifs at h with hc
  exact ⟨hc, (Except.ok.inj h).symm⟩

theorem exFactor (p : Pt) : |((if p.z = 0 then 1 else 0) / 2 - 1 / 8 : ℝ)| ≤ 3 / 8 := by
  split_ifs
  · rw [abs_of_nonneg (by norm_num)]; norm_num
  · rw [abs_of_nonpos (by norm_num)]; norm_num

/-- The example meets the hypotheses of the theorems above and needs the iteration: `A` depends on Z. -/
theorem exSetup_meets : Exact exSetup (fun x => x) exSol ∧ Contracts exSetup exSol (fun _ => 1) (1 / 3) ∧
    (∀ b g, ∃ x, exSol exSetup.inner b g = .ok x) ∧ ∃ x st, exSetup.solve exSol (fun _ => 1) (fun _ => 0) = .ok (x, st) := by
  have hcon : Contracts exSetup exSol (fun _ => 1) (1 / 3) := by
    intro b g x b' g' x' h h'
    obtain ⟨_, rfl⟩ := exSol_ok h
    obtain ⟨_, rfl⟩ := exSol_ok h'
    refine maxAbs_le _ _ (mul_nonneg (by norm_num) (maxAbs_nonneg _ _)) fun p hp => ?_
    have hm := le_maxAbs exSetup (fun p => b p - b' p) p hp
    rw [exB, exB]
    have hf := exFactor p
    generalize ((if p.z = 0 then 1 else 0) / 2 - 1 / 8 : ℝ) = a at *
    rw [show (1 : ℝ) / 2 - a * (b p / (9 / 8)) - (1 / 2 - a * (b' p / (9 / 8))) = -(a * (b p - b' p)) * (8 / 9) by ring,
      abs_mul, abs_neg, abs_mul, abs_of_nonneg (show (0 : ℝ) ≤ 8 / 9 by norm_num)]
    have := mul_le_mul hf hm (abs_nonneg _) (by norm_num)
    linarith
  have hok : ∀ b g, ∃ x, exSol exSetup.inner b g = .ok x := fun b g => by
    unfold exSol; rw [if_pos rfl]; exact ⟨_, rfl⟩
  refine ⟨?_, hcon, hok, ?_⟩
  · intro co b g x h p hp
    obtain ⟨rfl, rfl⟩ := exSol_ok h
    have h2 : dX exSetup exSetup.inner.C2 p = 0 := by
      have : exSetup.inner.C2 = fun _ => 1 := by
        funext p
        show exSetup.DC exSetup.C2 p = 1
        unfold Setup.DC exSetup; simp
      rw [this]
      simp [dX]
    have h3 : exSetup.inner.A p = 1 / 8 := exDC p
    rw [h2, h3]
    ring
  · refine C72_converges exSetup exSol _ _ (by norm_num) (by norm_num) hcon hok rfl 1 (by norm_num) ?_ ?_
    · intro g x h
      obtain ⟨_, rfl⟩ := exSol_ok h
      refine maxAbs_le _ _ (by norm_num) fun p hp => ?_
      rw [exB, exB, exB]
      have hf := exFactor p
      generalize ((if p.z = 0 then 1 else 0) / 2 - 1 / 8 : ℝ) = a at *
      rw [show (1 : ℝ) / 2 - a * 0 - (1 / 2 - a * ((1 / 2 - a * 0) / (9 / 8))) = a * (4 / 9) by ring, abs_mul,
        abs_of_nonneg (show (0 : ℝ) ≤ 4 / 9 by norm_num)]
      linarith
    · show (1 / 3 : ℝ) ^ 100 * 1 < 1 / 10 ^ 3
      norm_num

/-- **C72 (`INVERT_RHS`), violated.**  `INVERT_RHS` asks the boundary value to be that of the right-hand side in the
boundary cell.  The right-hand side handed to the FFT solver there contains what the memory of the derivatives held:
two runs that differ in nothing else hand over different boundary values, and in one of them the value is not
`rhs/D` either. -/
theorem C72_rhs_boundary_violated :
    ∃ (s : Setup) (rhs x0 : Fld) (j : Nat → Fld) (p : Pt), s.firstX p.q = true ∧ p.x = s.xstart p.q - 1 ∧ 0 ≤ p.x ∧
      s.ystart p.q ≤ p.y ∧ p.y ≤ s.yend p.q ∧ p.z < s.nz ∧
      s.bGuess rhs x0 p ≠ ({ s with junk := j }).bGuess rhs x0 p ∧
      ({ s with junk := j }).bGuess rhs x0 p ≠ rhs p / s.D p := by
  refine ⟨exSetup, fun _ => 1, fun _ => 0, fun n _ => if n = 2 then 0 else 1, ⟨0, 0, 1, 1⟩, by decide, rfl, le_rfl, by decide,
    by decide, by decide, ?_, ?_⟩
  all_goals
    have h1 : ∀ j : Nat → Fld, ({ exSetup with junk := j } : Setup).bGuess (fun _ => 1) (fun _ => 0) ⟨0, 0, 1, 1⟩
        = 1 / 2 - ((j 0 ⟨0, 0, 1, 1⟩ / 2 - j 2 ⟨0, 0, 1, 1⟩ / 2) * j 3 ⟨0, 0, 1, 1⟩ + j 1 ⟨0, 0, 1, 1⟩ / 2 * j 4 ⟨0, 0, 1, 1⟩) := by
      intro j
      have hin : ¬ ({ exSetup with junk := j } : Setup).Inside ⟨0, 0, 1, 1⟩ := by
        unfold Setup.Inside exSetup; simp
      unfold Setup.bGuess Setup.coefXAC Setup.coefX Setup.coefZ Setup.ddx Setup.ddz
      simp only [if_neg hin]
      unfold Setup.DC Setup.C1TimesD Setup.rhsOverD exSetup
      simp
  · have e := h1 exSetup.junk
    rw [show ({ exSetup with junk := exSetup.junk } : Setup) = exSetup from rfl] at e
    rw [e, h1]
    simp only [exSetup]
    norm_num
  · rw [h1]
    simp only [exSetup]
    norm_num

end Verif.Naulin
