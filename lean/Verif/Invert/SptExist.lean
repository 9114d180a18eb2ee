import Verif.Invert.SptMain
import Mathlib.Analysis.Complex.Norm
import Mathlib.Analysis.Complex.Basic
import Mathlib.Tactic.Linarith

/-!
# The pipelined Thomas algorithm finds a solution for diagonally dominant systems
-/

namespace Verif.Spt

open Verif.Cyclic

/-- The row is weakly diagonally dominant. -/
def Dom (r : Row ℂ) : Prop := ‖r.a‖ + ‖r.c‖ ≤ ‖r.b‖ ∧ r.b ≠ 0

/-- The second of two consecutive rows has a diagonal larger than the lower coefficient, or the first is strictly dominant or does
not couple to the second. -/
def Good (r r' : Row ℂ) : Prop := ‖r'.a‖ < ‖r'.b‖ ∨ ‖r.a‖ + ‖r.c‖ < ‖r.b‖ ∨ r.c = 0

/-- What the elimination keeps about its pivots. -/
def PivOK (r : Row ℂ) (β : ℂ) : Prop := β ≠ 0 ∧ ‖r.c‖ ≤ ‖β‖ ∧ (‖r.a‖ + ‖r.c‖ < ‖r.b‖ → ‖r.c‖ < ‖β‖)

theorem piv_first (r : Row ℂ) (h : Dom r) : PivOK r r.b := by
  have := norm_nonneg r.a
  exact ⟨h.2, by linarith [h.1], fun h => by linarith⟩

theorem piv_step (r r' : Row ℂ) (β : ℂ) (hp : PivOK r β) (hd : Dom r') (hg : Good r r') :
    PivOK r' (r'.b - r'.a * (r.c / β)) := by
  obtain ⟨h0, h1, h2⟩ := hp
  have hβ : 0 < ‖β‖ := norm_pos_iff.mpr h0
  have ha := norm_nonneg r'.a
  have hc := norm_nonneg r'.c
  have hq : ‖r.c / β‖ ≤ 1 := by
    rw [norm_div, div_le_one hβ]; exact h1
  have e1 : ‖r'.a * (r.c / β)‖ ≤ ‖r'.a‖ := by
    rw [norm_mul]
    calc ‖r'.a‖ * ‖r.c / β‖ ≤ ‖r'.a‖ * 1 := mul_le_mul_of_nonneg_left hq ha
      _ = ‖r'.a‖ := mul_one _
  have e2 := norm_sub_norm_le r'.b (r'.a * (r.c / β))
  have hb : 0 < ‖r'.b‖ := norm_pos_iff.mpr hd.2
  refine ⟨?_, by linarith [hd.1], fun h => by linarith⟩
  rw [← norm_pos_iff]
  rcases hg with g | g | g
  · linarith
  · by_cases z : ‖r'.a‖ = 0
    · linarith
    · have ha' : 0 < ‖r'.a‖ := lt_of_le_of_ne ha (Ne.symm z)
      have hq' : ‖r.c / β‖ < 1 := by
        rw [norm_div, div_lt_one hβ]; exact h2 g
      have e3 : ‖r'.a * (r.c / β)‖ < ‖r'.a‖ := by
        rw [norm_mul]
        calc ‖r'.a‖ * ‖r.c / β‖ < ‖r'.a‖ * 1 := mul_lt_mul_of_pos_left hq' ha'
          _ = ‖r'.a‖ := mul_one _
      linarith [hd.1]
  · rw [g, zero_div, mul_zero, sub_zero]; exact hb

theorem fwdLoop_succeeds (row : Nat → Row ℂ) (k : Nat) (s : Fwd ℂ) (hs : PivOK (row 0) s.bet)
    (hd : ∀ j, j < k → Dom (row (j + 1)) ∧ Good (row j) (row (j + 1))) :
    ∃ t, fwdLoop row k s = .ok t ∧ PivOK (row k) t.bet := by
  induction k with
  | zero => exact ⟨s, rfl, hs⟩
  | succ k ih =>
    obtain ⟨t, ht, hp⟩ := ih (fun j hj => hd j (by omega))
    have hp' := piv_step _ _ _ hp (hd k (by omega)).1 (hd k (by omega)).2
    unfold fwdLoop
    rw [ht]
    dsimp only
    unfold fwdStep
    dsimp only
    rw [Nat.add_sub_cancel, if_neg hp'.1]
    exact ⟨_, rfl, hp'⟩

theorem forward_start_succeeds (R : RankSys ℂ) (gam u : Nat → ℂ) (bet um : ℂ)
    (hd : ∀ j, j < R.n → Dom (R.row j)) (hn : 1 ≤ R.n) (hg : ∀ j, j + 1 < R.n → Good (R.row j) (R.row (j + 1))) :
    ∃ g u' b m, tridagForward R gam u true bet um = .ok (g, u', b, m) ∧ PivOK (R.row (R.n - 1)) b := by
  unfold tridagForward fwdFirst
  simp only [if_true]
  rw [if_neg (hd 0 (by omega)).2]
  dsimp only
  obtain ⟨t, ht, hp⟩ := fwdLoop_succeeds R.row (R.n - 1) ⟨gam, upd u 0 ((R.row 0).r / (R.row 0).b), (R.row 0).b⟩
    (piv_first _ (hd 0 (by omega))) (fun j hj => ⟨hd _ (by omega), hg j (by omega)⟩)
  rw [ht]
  exact ⟨_, _, _, _, rfl, hp⟩

theorem forward_next_succeeds (R : RankSys ℂ) (gam u : Nat → ℂ) (bet um : ℂ) (r : Row ℂ) (hr : R.cm = r.c) (hp : PivOK r bet)
    (hd : ∀ j, j < R.n → Dom (R.row j)) (hn : 1 ≤ R.n) (hg0 : Good r (R.row 0))
    (hg : ∀ j, j + 1 < R.n → Good (R.row j) (R.row (j + 1))) :
    ∃ g u' b m, tridagForward R gam u false bet um = .ok (g, u', b, m) ∧ PivOK (R.row (R.n - 1)) b := by
  have h1 := piv_step _ _ _ hp (hd 0 (by omega)) hg0
  unfold tridagForward fwdFirst
  simp only [Bool.false_eq_true, if_false]
  rw [hr, if_neg h1.1]
  dsimp only
  obtain ⟨t, ht, hp⟩ := fwdLoop_succeeds R.row (R.n - 1) ⟨upd gam 0 (r.c / bet), upd u 0 (((R.row 0).r - (R.row 0).a * um) /
    ((R.row 0).b - (R.row 0).a * (r.c / bet))), (R.row 0).b - (R.row 0).a * (r.c / bet)⟩
    h1 (fun j hj => ⟨hd _ (by omega), hg j (by omega)⟩)
  rw [ht]
  exact ⟨_, _, _, _, rfl, hp⟩

/-- **C58.** Weak diagonal dominance, with strictness where the elimination needs it, is enough: no processor meets a zero pivot,
however many calls are made and whatever the uninitialised arrays contain. -/
theorem C58_spt_succeeds (P : Nat) (hP : 2 ≤ P) (R : Nat → RankSys ℂ) (hn : ∀ q, q < P → 1 ≤ (R q).n)
    (hc : ∀ q, q + 1 < P → (R (q + 1)).cm = ((R q).row ((R q).n - 1)).c)
    (hd : ∀ q, q < P → ∀ j, j < (R q).n → Dom ((R q).row j))
    (hg : ∀ q, q < P → ∀ j, j + 1 < (R q).n → Good ((R q).row j) ((R q).row (j + 1)))
    (hg' : ∀ q, q + 1 < P → Good ((R q).row ((R q).n - 1)) ((R (q + 1)).row 0))
    (jg ju : Nat → Nat → ℂ) (k : Nat) : ∃ s, solveMode P R jg ju k = .ok s := by
  have hs : ∃ s, start P R jg ju = .ok s ∧ PivOK ((R 0).row ((R 0).n - 1)) s.msg.1 := by
    unfold start
    rw [if_neg (by omega)]
    obtain ⟨g, u, b, m, h1, h2⟩ := forward_start_succeeds (R 0) (jg 0) (ju 0) 0 0 (hd 0 (by omega)) (hn 0 (by omega)) (hg 0 (by omega))
    rw [h1]
    exact ⟨_, rfl, h2⟩
  obtain ⟨s0, h0, hp0⟩ := hs
  have hI := start_inv P hP R hn jg ju s0 h0
  have key : ∃ s, calls P R k s0 = .ok s ∧ (k + 2 ≤ P → PivOK ((R k).row ((R k).n - 1)) s.msg.1) := by
    induction k with
    | zero => exact ⟨s0, rfl, fun _ => hp0⟩
    | succ k ih =>
      obtain ⟨s, h1, h2⟩ := ih
      obtain ⟨i1, i2⟩ := calls_inv P hP R hn s0 hI k s h1
      unfold calls
      rw [h1]
      dsimp only
      unfold next
      by_cases hk : k + 2 ≤ P
      · obtain ⟨ip, id, -⟩ := i1 hk
        rw [if_neg (by omega)]
        have ep : s.proc.toNat = k + 1 := by omega
        rw [ep]
        obtain ⟨g, u, b, m, h3, h4⟩ := forward_next_succeeds (R (k + 1)) (s.gam (k + 1)) (s.u (k + 1)) s.msg.1 s.msg.2 _
          (hc k (by omega)) (h2 hk) (hd (k + 1) (by omega)) (hn (k + 1) (by omega)) (hg' k (by omega)) (hg (k + 1) (by omega))
        unfold work
        by_cases he : k + 1 + 1 = P
        · rw [if_pos he, h3]
          exact ⟨_, rfl, fun h => absurd h (by omega)⟩
        · rw [if_neg he, if_pos (by rw [id, if_neg (by omega)]; omega), h3]
          exact ⟨_, rfl, fun _ => h4⟩
      · obtain ⟨ip, id, -⟩ := i2 (by omega)
        by_cases hq : s.proc < 0
        · rw [if_pos hq]
          exact ⟨_, rfl, fun h => absurd h (by omega)⟩
        · rw [if_neg hq]
          unfold work
          rw [if_neg (by omega), if_neg (by omega)]
          exact ⟨_, rfl, fun h => absurd h (by omega)⟩
  obtain ⟨s, h1, -⟩ := key
  unfold solveMode
  rw [h0]
  exact ⟨s, h1⟩

end Verif.Spt
