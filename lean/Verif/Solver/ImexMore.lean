import Verif.Solver.ImexMain
import Mathlib.Tactic.NormNum

/-!
# C61: exactness, termination, and what goes wrong
-/
namespace Verif.Imex
open Verif.RK (Rhs)
open Polynomial

section
variable {K : Type} [Field K] [LinearOrder K] [IsStrictOrderedRing K] {n : Nat}

/-- **C61, order.** A solution that is a polynomial of degree at most `k`, with an explicit part that is a polynomial of degree below `k`,
solves the implicit equation of the step of order `k` exactly, whatever the spacing of the times. -/
theorem C61_exact (F G : Rhs K n) (k : Nat) (H : List (K × Vec K n)) (t : K) (c : Coeffs K)
    (hc : BdfWeights k t (fun j => (H.getD j (0, fun _ => 0)).1) c) (P Q : Fin n → K[X]) (hP : ∀ i, (P i).natDegree ≤ k) (hQ : ∀ i, (Q i).natDegree < k)
    (hist : ∀ j < k, (H.getD j (0, fun _ => 0)).2 = fun i => (P i).eval (H.getD j (0, fun _ => 0)).1)
    (hF : ∀ j < k, ∀ i, F (H.getD j (0, fun _ => 0)).1 (fun i => (P i).eval (H.getD j (0, fun _ => 0)).1) i = (Q i).eval (H.getD j (0, fun _ => 0)).1)
    (ode : ∀ i, (derivative (P i)).eval t = (Q i).eval t + G t (fun i => (P i).eval t) i) (i : Fin n) :
    (P i).eval t - c.dtImp * G t (fun i => (P i).eval t) i = known F k c H i := by
  have e1 := hc.1 (P i) (hP i)
  have e2 := hc.2 (Q i) (hQ i)
  unfold known
  have : ∑ j ∈ Finset.range k, (c.u j * (H.getD j (0, fun _ => 0)).2 i + c.f j * F (H.getD j (0, fun _ => 0)).1 (H.getD j (0, fun _ => 0)).2 i) =
      ∑ j ∈ Finset.range k, c.u j * (P i).eval (H.getD j (0, fun _ => 0)).1 + ∑ j ∈ Finset.range k, c.f j * (Q i).eval (H.getD j (0, fun _ => 0)).1 := by
    rw [← Finset.sum_add_distrib]
    apply Finset.sum_congr rfl
    intro j hj
    have hj' := Finset.mem_range.1 hj
    rw [← hF j hj' i, hist j hj']
  rw [this, ← e1, ← e2, ode i]
  ring

/-! ## The loops end, and the vectors are not read out of range -/

theorem highOrder_no_ub (p : Params K n) (h2 : 2 ≤ p.maxOrder) (hp : p.predictor ≠ 2 ∨ 3 ≤ p.maxOrder) (s : St K n) (a : Try K) (low : Option (Vec K n))
    (c0 : Coeffs K) (ts : Nat → K) (dtNoLimit dt : K) (limited : Bool) : highOrder p s a low c0 ts dtNoLimit dt limited ≠ .ub := by
  intro h
  unfold highOrder at h
  dsimp only at h
  generalize (if (s.order : Int) ≠ s.lastOrder ∨ (List.range p.maxOrder).any (fun j => s.lastTimesteps j ≠ ts j) = true ∨ low.isSome = true
      then calculateCoeffs s.order ts else some c0) = cc at h
  cases cc with
  | none => cases h
  | some c1 =>
    dsimp only at h
    cases ht : takeStep p s.simtime s.order ts s.uV s.fV c1 with
    | ub =>
      unfold takeStep at ht
      obtain ⟨g, hg⟩ := guess_some p h2 hp s.uV (sumRhs s.order s.uV s.fV c1)
      dsimp only at ht
      rw [hg] at ht
      dsimp only at ht
      split at ht <;> cases ht
    | failed =>
      rw [ht] at h
      dsimp only [afterFailure] at h
      split_ifs at h
    | ok v =>
      rw [ht] at h
      dsimp only at h
      cases low with
      | none => cases h
      | some e =>
        dsimp only at h
        split_ifs at h

theorem attempt_no_ub (p : Params K n) (h2 : 2 ≤ p.maxOrder) (hp : p.predictor ≠ 2 ∨ 3 ≤ p.maxOrder) (T cumulative : K) (checking : Bool) (s : St K n)
    (a : Try K) : attempt p T cumulative checking s a ≠ .ub := by
  intro h
  unfold attempt at h
  by_cases hf : a.dtNext < p.dtMinFatal
  · rw [if_pos hf] at h; cases h
  · rw [if_neg hf] at h
    dsimp only at h
    cases checking with
    | false => exact highOrder_no_ub p h2 hp _ _ _ _ _ _ _ _ h
    | true =>
      simp only [if_true] at h
      generalize hts : (fun j => if j = 0 then (if decide (cumulative + clampDt p a.dtNext > T) = true then T - cumulative else clampDt p a.dtNext) else s.timesteps j) = ts at h
      cases hc0 : calculateCoeffs (s.order - 1) ts with
      | none => rw [hc0] at h; cases h
      | some c0 =>
        rw [hc0] at h
        dsimp only at h
        cases ht : takeStep p s.simtime (s.order - 1) ts s.uV s.fV c0 with
        | ub =>
          unfold takeStep at ht
          obtain ⟨g, hg⟩ := guess_some p h2 hp s.uV (sumRhs (s.order - 1) s.uV s.fV c0)
          dsimp only at ht
          rw [hg] at ht
          dsimp only at ht
          split at ht <;> cases ht
        | failed =>
          rw [ht] at h
          dsimp only [afterFailure] at h
          split_ifs at h
        | ok v =>
          rw [ht] at h
          exact highOrder_no_ub p h2 hp _ _ _ _ _ _ _ _ h

theorem attempts_end (p : Params K n) (Sol : K → K → Vec K n → Vec K n → Prop) (hl : Legal p Sol) (T cumulative : K) (hcum : cumulative < T)
    (checking : Bool) (s : St K n) (fuel : Nat) :
    ∀ (a : Try K), 0 < a.dtNext → a.failCounter ≤ 10 → a.adaptCounter ≤ p.mxstepAdapt →
      (10 - a.failCounter) + (p.mxstepAdapt - a.adaptCounter) < fuel →
      attempts p T cumulative checking s fuel a = .thrown ∨ ∃ r, attempts p T cumulative checking s fuel a = .done r := by
  induction fuel with
  | zero => intro a _ _ _ h; omega
  | succ k ih =>
    intro a ha h1 h2 h3
    rw [attempts]
    cases hatt : attempt p T cumulative checking s a with
    | ub => exact absurd hatt (attempt_no_ub p hl.order2 hl.predictor T cumulative checking s a)
    | throw => exact .inl rfl
    | retry a' =>
      dsimp only
      obtain ⟨e1, -, -, e3⟩ := attempt_retry p Sol hl T cumulative hcum checking s a a' ha hatt
      exact ih a' e1 (by omega) (by omega) (by omega)
    | accept u ts c d => exact .inr ⟨_, rfl⟩

/-- **C61, the loops end** with the outputs done or an exception (too many failures or steps, time step too small), without reading outside the
history. -/
theorem C61_ends (p : Params K n) (Sol : K → K → Vec K n → Vec K n → Prop) (hl : Legal p Sol) (T : K) (hT : 0 < T) (nout : Nat)
    (timestep t0 : K) (hts : 0 < timestep) (htsT : timestep ≤ T) (u0 : Vec K n) (mon : Nat → K → Vec K n → Bool) :
    runLoop p T (p.mxstepAdapt + 11) (p.mxstep + 2) mon nout 0 (start timestep t0 u0) [] = .thrown ∨
      ∃ r, runLoop p T (p.mxstepAdapt + 11) (p.mxstep + 2) mon nout 0 (start timestep t0 u0) [] = .done r := by
  have hstep : ∀ (cumulative : K) (s : St K n) (H : List (K × Vec K n)), cumulative < T → Inv p s H →
      internalStep p T cumulative (p.mxstepAdapt + 11) s = .thrown ∨ ∃ s', internalStep p T cumulative (p.mxstepAdapt + 11) s = .done s' := by
    intro cumulative s H hc hinv
    unfold internalStep
    obtain ⟨s1, hs1⟩ : ∃ s1, prepare p s = some s1 ∧ s1.dtNext = s.dtNext := by
      unfold prepare shuffle
      rw [if_neg (by have := hl.order2; omega)]
      exact ⟨_, rfl, rfl⟩
    rw [hs1.1]
    dsimp only
    rcases attempts_end p Sol hl T cumulative hc (p.adaptive && decide (s1.internalCounter % p.nadapt = 0) && decide (s1.order > 1)) s1 (p.mxstepAdapt + 11)
      { dtNext := s1.dtNext, coeffs := s1.coeffs, adaptCounter := 0, failCounter := 0 } (by rw [hs1.2]; exact hinv.dtNext) (by simp) (by simp) (by simp; omega) with h | ⟨r, h⟩
    · rw [h]; exact .inl rfl
    · rw [h]; exact .inr ⟨_, rfl⟩
  have hout : ∀ (fuel : Nat) (cumulative : K) (counter : Nat) (s : St K n) (H : List (K × Vec K n)), cumulative ≤ T → Inv p s H → Hist p Sol t0 u0 H →
      (p.dtMin ≤ p.dtMinFatal → Ahead p T cumulative s H) → 0 ≤ cumulative → (H.length = 1 → cumulative = 0) → p.mxstep + 2 ≤ fuel + counter → counter ≤ p.mxstep →
      outputLoop p T (p.mxstepAdapt + 11) fuel cumulative counter s = .thrown ∨ ∃ s', outputLoop p T (p.mxstepAdapt + 11) fuel cumulative counter s = .done s' := by
    intro fuel
    induction fuel with
    | zero => intro cumulative counter s H _ _ _ _ _ _ h1 h2; omega
    | succ k ih =>
      intro cumulative counter s H hcum hinv hist hah hc0 hz0 h1 h2
      rw [outputLoop]
      by_cases hc : cumulative < T
      · rw [if_pos hc]
        rcases hstep cumulative s H hc hinv with h | ⟨s', h⟩
        · rw [h]; exact .inl rfl
        · rw [h]
          dsimp only
          by_cases hm : counter + 1 > p.mxstep
          · rw [if_pos hm]; exact .inl rfl
          · rw [if_neg hm]
            obtain ⟨t, u, i1, i2, i3, i4, i5, i6⟩ := internalStep_done p Sol hl T cumulative hc _ s s' t0 u0 H hinv hah hc0 hz0 hist h
            exact ih _ _ s' _ i5 i1 i2 i6 (by linarith) (by intro hh; have := hinv.ne; simp at hh; rw [hh] at this; simp at this) (by omega) (by omega)
      · rw [if_neg hc]
        exact .inr ⟨_, rfl⟩
  have hrun : ∀ (todo i : Nat) (s : St K n) (H calls : List (K × Vec K n)), Inv p s H → Hist p Sol t0 u0 H → (p.dtMin ≤ p.dtMinFatal → Ahead p T 0 s H) →
      runLoop p T (p.mxstepAdapt + 11) (p.mxstep + 2) mon todo i s calls = .thrown ∨
      ∃ r, runLoop p T (p.mxstepAdapt + 11) (p.mxstep + 2) mon todo i s calls = .done r := by
    intro todo
    induction todo with
    | zero => intro i s H calls _ _ _; exact .inr ⟨_, rfl⟩
    | succ todo ih =>
      intro i s H calls hinv hist hah
      rw [runLoop]
      rcases hout (p.mxstep + 2) 0 0 s H hT.le hinv hist hah (le_refl _) (fun _ => rfl) (by omega) (by omega) with h | ⟨s', h⟩
      · rw [h]; exact .inl rfl
      · rw [h]
        dsimp only
        by_cases hm : mon i s'.simtime s'.u = true
        · rw [if_pos hm]; exact .inr ⟨_, rfl⟩
        · rw [if_neg hm]
          obtain ⟨H', j1, j2, j3, -, -⟩ := outputLoop_done p Sol hl T _ t0 u0 _ 0 0 s s' H hT.le hinv hist hah (le_refl _) (fun _ => rfl) h
          exact ih (i + 1) s' H' _ j1 j2 (fun h1 => (j3 h1).restart)
  exact hrun nout 0 _ _ [] (start_inv p hl.order2 timestep t0 hts u0) .start (fun _ => start_ahead p T timestep t0 hts htsT u0)

/-- **C61, not satisfied by `maxOrder = 1`** (imex-bdf2.cxx:1161): the option allows it, but the first step reads `timesteps[1]` of a vector of length 1,
whatever the other options. -/
theorem C61_order_one_violated (p : Params K n) (h1 : p.maxOrder = 1) (T : K) (hT : 0 < T) (inner fuel nout : Nat) (mon : Nat → K → Vec K n → Bool) (s : St K n) :
    runLoop p T inner (fuel + 1) mon (nout + 1) 0 s [] = .ub := by
  rw [runLoop, outputLoop, if_pos hT]
  unfold internalStep prepare shuffle
  rw [if_pos (by omega)]
  rfl

end

/-! ## Findings -/

/-- `dy/dt = 1`, all explicit; the solver fails for a step to the time 17/4.  `dtMin` equal to the time step. -/
def stale : Params ℚ 1 where
  maxOrder := 2
  adaptive := true
  nadapt := 2
  mxstep := 100
  mxstepAdapt := 100
  scaleCushUp := 3/2
  scaleCushDown := 1
  dtMax := 10
  dtMin := 1
  dtMinFatal := 1/10000
  predictor := 1
  F := fun _ _ _ => 1
  solve := fun _ t _ r => if t = 17/4 then none else some r
  scale := fun _ _ _ => 2

def report (r : Res (St ℚ 1 × List (ℚ × Vec ℚ 1))) : List ℚ :=
  match r with
  | .done (_, l) => l.flatMap (fun x => [x.1, x.2 0])
  | _ => []

/-- **C61, not satisfied when a step is retried without an error check** (imex-bdf2.cxx:869): the retried step has the time steps of the last
completed one, so the coefficients of the failed attempt are kept.  `dy/dt = 1` from 0 (for which all formulas are exact) gives `y(5) = 16/3`. -/
theorem C61_stale_coefficients_violated :
    report (runLoop stale 5 20 20 (fun _ _ _ => false) 1 0 (start 1 0 (fun _ => 0)) []) = [5, 16/3] := by
  decide +kernel

/-- With a check of every step the retry is right. -/
example : report (runLoop { stale with nadapt := 1, scale := fun _ _ _ => 5/4 } 5 20 20 (fun _ _ _ => false) 2 0 (start 1 0 (fun _ => 0)) []) = [5, 5, 10, 10] := by
  decide +kernel

/-- The same problem without failures; the error estimate asks for one small reduction. -/
def tail : Params ℚ 1 := { stale with
  nadapt := 1
  dtMin := 1/100
  dtMinFatal := 1/100
  solve := fun _ _ _ r => some r
  scale := fun _ _ u => if u 0 = 1/2 then 99/100 else 1 }

def isThrown (r : Res (St ℚ 1 × List (ℚ × Vec ℚ 1))) : Bool :=
  match r with
  | .thrown => true
  | _ => false

/-- **C61, not satisfied when the last step before an output is short** (imex-bdf2.cxx:796-800, 943-964): the step that was cut to end on the output
becomes the next time step, which is then below `dtMinFatal`: the run stops although no step was rejected by more than one percent.  One
output is reached, two are not. -/
theorem C61_short_last_step_violated :
    report (runLoop tail 1 20 20 (fun _ _ _ => false) 1 0 (start (1/4) 0 (fun _ => 0)) []) = [1, 1] ∧
    isThrown (runLoop tail 1 20 20 (fun _ _ _ => false) 2 0 (start (1/4) 0 (fun _ => 0)) []) = true := by
  decide +kernel

/-- The hypotheses of `C61_run_partial` are met. -/
example : Legal { stale with nadapt := 1 } (fun _ _ r u => u = r) where
  order2 := by decide
  order4 := by decide
  predictor := by decide
  dtMax := by decide +kernel
  scale := fun _ _ _ => by show (0 : ℚ) < 2; norm_num
  solve := by
    intro g t γ r u h
    dsimp only [stale] at h
    split_ifs at h
    simpa using h.symm
  fresh := .inr (.inl rfl)

end Verif.Imex
