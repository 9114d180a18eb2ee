import Verif.Solver.AdamsMain
import Mathlib.Analysis.SpecialFunctions.Log.Basic

/-! # C59: the time step control over the real numbers -/
namespace Verif.AB
open Verif.RK (Rhs)

/-- adams_bashforth.cxx:229-234 `get_timestep_limit`; `log(0)` is minus infinity, so the limit is infinite for a vanishing error. -/
noncomputable def timestepLimit (rtol : ℝ) (err : ℝ) (order : Nat) : Option ℝ :=
  if err = 0 then none else some (Real.exp (-Real.log (err / rtol) / order))

/-- **C59, step control.** The limit of the code has the properties the theorems about runs assume, for every positive tolerance. -/
theorem C59_limit_ok (p : Params ℝ) (h : 0 < p.rtol) (hl : p.lim = timestepLimit p.rtol) : LimOK p := by
  constructor
  · intro e o l he
    rw [hl] at he
    unfold timestepLimit at he
    split_ifs at he
    cases he
    exact Real.exp_pos _
  · intro e o he ho
    rw [hl]
    unfold timestepLimit
    have ho' : (0 : ℝ) < o := by exact_mod_cast ho
    by_cases h0 : e = 0
    · rw [if_pos h0]
      refine ⟨fun _ l hl => (nomatch hl), fun _ => ?_⟩
      rw [h0]; exact h
    · rw [if_neg h0]
      have hepos : 0 < e := lt_of_le_of_ne he (Ne.symm h0)
      have hdiv : 0 < e / p.rtol := div_pos hepos h
      have key : 1 < Real.exp (-Real.log (e / p.rtol) / o) ↔ e < p.rtol := by
        rw [Real.one_lt_exp_iff]
        constructor
        · intro hh
          have h1 : 0 < -Real.log (e / p.rtol) := by
            by_contra hc
            have := div_nonpos_of_nonpos_of_nonneg (not_lt.1 hc) ho'.le
            linarith
          have h2 : Real.log (e / p.rtol) < 0 := by linarith
          have h3 := (Real.log_neg_iff hdiv).1 h2
          rwa [div_lt_one h] at h3
        · intro hh
          have h3 : e / p.rtol < 1 := (div_lt_one h).2 hh
          have h2 := (Real.log_neg_iff hdiv).2 h3
          exact div_pos (by linarith) ho'
      constructor
      · intro hh l hl
        cases hl
        exact key.2 hh
      · intro hh
        exact key.1 (hh _ rfl)

/-- The solver's default options satisfy the hypotheses of `C59_run`. -/
example (T : ℝ) (hT : 0 < T) : LimOK (⟨true, true, true, 5, T, 1/100000, 50000, timestepLimit (1/100000)⟩ : Params ℝ) ∧ 0 < T :=
  ⟨C59_limit_ok _ (by norm_num) rfl, hT⟩

end Verif.AB
