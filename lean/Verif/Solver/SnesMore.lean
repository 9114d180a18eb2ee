import Mathlib.Algebra.Order.Ring.Rat
import Verif.Solver.SnesThms

/-!
# C79: predictor, resets, and what the code gets wrong
-/

namespace Verif.Snes

section
variable {K V : Type} [Field K] [LinearOrder K] [IsStrictOrderedRing K] [AddCommGroup V] [Module K V]
variable {P : Params K} {f : K → V → V} {snes : Nat → Answer V} {quit : Nat → Bool} {t0 : K} {v : V} {h : K}
  {pred : Bool} {lag : Int} {e : End K V}

omit [IsStrictOrderedRing K] [AddCommGroup V] [Module K V] in
theorem pred_of : ∀ (l : List (Event K V)) (w : View K V),
    ((w.all P l).pred = true ↔ w.pred = true ∧ .reset ∉ l) := by
  intro l
  induction l using List.reverseRecOn with
  | nil => intro w; simp [View.all]
  | append_singleton l c ih =>
    intro w
    rw [all_snoc]
    have := ih w
    cases c with
    | reset => simp [View.see]
    | _ => simp [View.see, this]

omit [IsStrictOrderedRing K] [AddCommGroup V] [Module K V] in
theorem prev_keep : ∀ (a2 : List (Event K V)), (∀ t' dt' x0' g' xs its x, .accept t' dt' x0' g' xs its x ∉ a2) →
    ∀ w : View K V, (w.all P a2).prev = w.prev := by
  intro a2
  induction a2 with
  | nil => intro _ w; rfl
  | cons c a2 ih =>
    intro hn w
    have := ih (fun t' dt' x0' g' xs its x hh => hn t' dt' x0' g' xs its x (List.mem_cons_of_mem _ hh)) (w.see P c)
    show ((w.see P c).all P a2).prev = w.prev
    rw [this]
    cases c with
    | accept t' dt' x0' g' xs its x => exact absurd List.mem_cons_self (hn t' dt' x0' g' xs its x)
    | _ => rfl

/-- **C79 (predictor).**  Let the last accepted step before an attempt go from `(t1, x1)`.  Then that point is
strictly earlier, and with the predictor on, no reset so far and `0 < t1`, the first guess given to SNES is
the linear extrapolation through it and the current state: a solution that is linear in time is predicted
exactly.  In all other cases the first guess is the current state. -/
theorem C79_predictor (hmin : 0 < P.dtMin) (hout : 0 < P.dtout) (hlag : lag ≠ 0)
    (hr : Run P f snes quit t0 v h pred lag e) (a m b : List (Event K V)) (t1 dt1 t dt : K) (x1 g1 xs x x0 g : V) (its : Nat) (l : Int)
    (hl : e.st.log = a ++ .accept t1 dt1 x1 g1 xs its x :: (m ++ .solve t dt x0 g l :: b))
    (hm : ∀ t' dt' x0' g' xs its x, .accept t' dt' x0' g' xs its x ∉ m) :
    t1 < t ∧
    (pred = true → .reset ∉ a ++ m → 0 < t1 →
      g = x0 + (dt / (t - t1)) • (x0 - x1) ∧
      ∀ p q : V, x1 = p + t1 • q → x0 = p + t • q → g = p + (t + dt) • q) ∧
    (pred = false ∨ .reset ∈ a ++ m ∨ ¬ 0 < t1 → g = x0) := by
  have hg := (C79_history hmin hout hlag hr).1
  have hl' : e.st.log = (a ++ .accept t1 dt1 x1 g1 xs its x :: m) ++ .solve t dt x0 g l :: b := by rw [hl]; simp
  obtain ⟨h1, h2, _, _, h5, h6, _⟩ := hg _ _ _ hl'
  have hpr := pred_of (P := P) (a ++ .accept t1 dt1 x1 g1 xs its x :: m) (View.first t0 v h pred)
  have hpv : ((View.first t0 v h pred).all P (a ++ .accept t1 dt1 x1 g1 xs its x :: m)).prev = some (t1, x1) := by
    have : (View.first t0 v h pred).all P (a ++ .accept t1 dt1 x1 g1 xs its x :: m) =
        (((View.first t0 v h pred).all P a).see P (.accept t1 dt1 x1 g1 xs its x)).all P m := by simp [View.all]
    rw [this, prev_keep m hm]
    rfl
  generalize (View.first t0 v h pred).all P (a ++ .accept t1 dt1 x1 g1 xs its x :: m) = w at *
  have hlt := h6 t1 x1 hpv
  have hpr' : w.pred = true ↔ pred = true ∧ .reset ∉ a ++ m := by
    rw [hpr]
    show pred = true ∧ _ ↔ _
    simp
  have hg' : g = if w.pred = true ∧ 0 < t1 then line t1 x1 w.t w.x (w.t + dt) else w.x := by
    rw [h5, View.firstGuess, hpv]
  rw [← h1, ← h2] at hg'
  rw [← h1] at hlt
  have hne : t - t1 ≠ 0 := by
    intro hh
    linarith
  refine ⟨hlt, ?_, ?_⟩
  · intro p1 p2 p3
    rw [if_pos ⟨hpr'.2 ⟨p1, p2⟩, p3⟩] at hg'
    have hgl : g = x0 + (dt / (t - t1)) • (x0 - x1) := by
      rw [hg', line, show (t + dt - t1) / (t - t1) = 1 + dt / (t - t1) by field_simp; ring]
      generalize dt / (t - t1) = β
      module
    refine ⟨hgl, ?_⟩
    intro p q e1 e2
    rw [hgl, e1, e2]
    have : (p + t • q - (p + t1 • q)) = (t - t1) • q := by module
    rw [this, smul_smul, div_mul_cancel₀ _ hne]
    module
  · intro hc
    rw [if_neg] at hg'
    · exact hg'
    · rintro ⟨q1, q2⟩
      obtain ⟨r1, r2⟩ := hpr'.1 q1
      rcases hc with hc | hc | hc
      · rw [r1] at hc
        cases hc
      · exact r2 hc
      · exact hc q2

/-- **C79 (maximum timestep).**  If the first timestep is within the maximum, every attempt made before the
first reset is. -/
theorem C79_max_timestep (hmin : 0 < P.dtMin) (hout : 0 < P.dtout) (hlag : lag ≠ 0)
    (hr : Run P f snes quit t0 v h pred lag e) (hmax : h ≤ P.maxDt) (a b : List (Event K V)) (t dt : K) (x0 g : V) (l : Int)
    (hl : e.st.log = a ++ .solve t dt x0 g l :: b) (hn : .reset ∉ a) : dt ≤ P.maxDt := by
  have hg := (C79_history hmin hout hlag hr).1
  obtain ⟨_, _, h3, _⟩ := hg _ _ _ hl
  have hgp : ∀ a : List (Event K V), AllGood P f snes lag (View.first t0 v h pred) a → .reset ∉ a →
      ((View.first t0 v h pred).all P a).h ≤ P.maxDt ∧
      (∀ t dt x g l, ((View.first t0 v h pred).all P a).last = some (.solve t dt x g l) →
        0 < ((View.first t0 v h pred).all P a).h) ∧
      ((View.first t0 v h pred).all P a).last ≠ some .reset := by
    intro a
    induction a using List.reverseRecOn with
    | nil => exact fun _ _ => ⟨hmax, fun t dt x g l hh => (by cases hh), fun hh => (by cases hh)⟩
    | append_singleton a c ih =>
      intro hga hna
      obtain ⟨g1, hgc⟩ := allGood_init hga
      obtain ⟨q1, q2, q3⟩ := ih g1 (fun hh => hna (List.mem_append_left _ hh))
      rw [all_snoc]
      generalize (View.first t0 v h pred).all P a = w at *
      cases c with
      | solve t dt x g l =>
        refine ⟨q1, fun _ _ _ _ _ _ => ?_, fun hh => (by cases hh)⟩
        rcases hgc.2.2.2.2.2.2.2.2.1 with hq | hq
        · exact absurd hq q3
        · exact lt_of_lt_of_le hmin hq
      | failed =>
        refine ⟨?_, fun _ _ _ _ _ hh => (by cases hh), fun hh => (by cases hh)⟩
        obtain ⟨⟨t, dt, x0, g, l, hf⟩, _⟩ := hgc
        have := q2 _ _ _ _ _ hf
        show w.h / 2 ≤ P.maxDt
        linarith
      | reset => exact absurd (List.mem_append_right _ List.mem_cons_self) hna
      | accept t dt x0 g xs its x =>
        refine ⟨?_, fun _ _ _ _ _ hh => (by cases hh), fun hh => (by cases hh)⟩
        obtain ⟨⟨l, hf⟩, _⟩ := hgc
        have := q2 _ _ _ _ _ hf
        show (if t + dt < w.target P then newSize P its w.h else w.h) ≤ P.maxDt
        unfold newSize
        split
        · split
          · exact min_le_right _ _
          · split
            · linarith
            · exact q1
        · exact q1
      | rhs t x => exact ⟨q1, fun _ _ _ _ _ hh => (by cases hh), fun hh => (by cases hh)⟩
      | monitor t k x => exact ⟨q1, fun _ _ _ _ _ hh => (by cases hh), fun hh => (by cases hh)⟩
  have hga : AllGood P f snes lag (View.first t0 v h pred) a := allGood_prefix (by rw [← hl]; exact hg)
  rw [h3]
  exact (min_le_left _ _).trans (hgp a hga hn).1

/-- **C79 (reset).**  When the solver resets itself, the next attempt goes straight to the output time from
the current state, without extrapolation; no other event comes between. -/
theorem C79_reset (hmin : 0 < P.dtMin) (hout : 0 < P.dtout) (hlag : lag ≠ 0)
    (hr : Run P f snes quit t0 v h pred lag e) (a b : List (Event K V)) (c : Event K V)
    (hl : e.st.log = a ++ .reset :: c :: b) :
    ∃ t dt x0, c = .solve t dt x0 x0 1 ∧ t + dt = t0 + (outputs a + 1) * P.dtout := by
  have hg := (C79_history hmin hout hlag hr).1
  have hc := hg (a ++ [.reset]) c b (by rw [hl]; simp)
  have hga : AllGood P f snes lag (View.first t0 v h pred) a := allGood_prefix (by rw [← hl]; exact hg)
  have hb := view_bounds a hga
  have ho := outs_eq (P := P) (View.first t0 v h pred) rfl a
  have htg : ((View.first t0 v h pred).all P a).target P = t0 + (outputs a + 1) * P.dtout := by
    rw [View.target, all_t0, ho]
    rfl
  rw [all_snoc] at hc
  cases c with
  | solve t dt x0 g l =>
    obtain ⟨h1, h2, h3, _, h5, _, h7, _⟩ := hc
    have e7 : l = 1 := h7 trivial
    have e5 : g = x0 := by
      rw [h5, View.firstGuess, h2]
      show (match ((View.first t0 v h pred).all P a).prev with
        | some (t1, x1) => if false = true ∧ 0 < t1 then _ else ((View.first t0 v h pred).all P a).x
        | none => ((View.first t0 v h pred).all P a).x) = ((View.first t0 v h pred).all P a).x
      cases ((View.first t0 v h pred).all P a).prev with
      | none => rfl
      | some q => exact if_neg (fun hh => Bool.false_ne_true hh.1)
    subst e7
    subst e5
    refine ⟨t, dt, g, rfl, ?_⟩
    have q3 : dt = min P.dtout (((View.first t0 v h pred).all P a).target P - ((View.first t0 v h pred).all P a).t) := h3
    have q1 : t = ((View.first t0 v h pred).all P a).t := h1
    rw [q3, q1, htg, min_eq_right]
    · ring
    · rw [ho] at hb
      linarith
  | failed =>
    obtain ⟨⟨t, dt, x0, g, l, hf⟩, _⟩ := hc
    cases hf
  | accept t dt x0 g xs its x =>
    obtain ⟨⟨l, hf⟩, _⟩ := hc
    cases hf
  | reset => exact absurd rfl hc.2.2.1
  | rhs t x =>
    obtain ⟨_, _, _, t', dt', x0, g, xs, its, x', hf⟩ := hc
    cases hf
  | monitor t k x =>
    obtain ⟨_, _, hf⟩ := hc
    cases hf

/-- **C79 violated (reset after repeated failures).**  The comment in the code says that the timestep falls
below the limit "probably through repeated failures", and that the solver then resets the preconditioner and
tries a large timestep.  It never does so after a failure, in any run: the first failure already marks the
Jacobian lag as saved, so the solver throws instead. -/
theorem C79_reset_after_failure_violated (hmin : 0 < P.dtMin) (hout : 0 < P.dtout) (hlag : lag ≠ 0)
    (hr : Run P f snes quit t0 v h pred lag e) (a b : List (Event K V)) :
    e.st.log ≠ a ++ .failed :: .reset :: b := by
  intro hl
  have hg := (C79_history hmin hout hlag hr).1
  have hc := hg (a ++ [.failed]) .reset b (by rw [hl]; simp)
  rw [all_snoc] at hc
  exact hc.2.1 rfl

/-- **C79 violated (pseudo-transient).**  In the pseudo-transient form the equation does not contain the
state the step starts from, and a steady state of the user's function solves it only if it is zero. -/
theorem C79_pseudo_transient_violated (f : K → V → V) (t dt : K) (x0 x0' x : V) (hdt : dt ≠ 0) :
    residual .pseudoTransient f t dt x0 x = residual .pseudoTransient f t dt x0' x ∧
    (f (t + dt) x = 0 → (residual .pseudoTransient f t dt x x = 0 ↔ x = 0)) := by
  refine ⟨rfl, ?_⟩
  intro hf
  simp only [residual]
  rw [hf, zero_add, smul_eq_zero]
  constructor
  · rintro (hq | hq)
    · exact absurd hq (div_ne_zero (by norm_num) hdt)
    · exact hq
  · exact Or.inr

/-- **C79 violated (no limit, no end).**  If `dt_min_reset` is not positive and SNES keeps failing, the loop
never ends: no number of passes is enough. -/
theorem C79_no_limit_violated (P : Params K) (f : K → V → V) (snes : Nat → Answer V) (target : K)
    (hmin : P.dtMin ≤ 0) (hf : ∀ k, snes k = .failed) : ∀ (n : Nat) (s : St K V), 0 ≤ s.timestep →
      ∃ s', attempts P f snes target n s = .again s' := by
  intro n
  induction n with
  | zero => intro s _; exact ⟨s, rfl⟩
  | succ n ih =>
    intro s hs
    have hlt : ¬ s.timestep < P.dtMin := not_lt.mpr (hmin.trans hs)
    have : attempt P f snes target s = .again (onFail (called target { s with x0 := s.x })) := by
      rw [attempt_eq, if_neg (fun hh => hlt hh.1), if_neg hlt]
      unfold tryIt
      rw [hf]
    unfold attempts
    rw [this]
    refine ih _ ?_
    unfold onFail
    dsimp only
    split
    · show 0 ≤ s.timestep / 2
      linarith
    · show 0 ≤ s.timestep / 2
      linarith

end

/-! ## Concrete runs -/

section
variable {K V : Type} [Field K] [LinearOrder K] [AddCommGroup V] [Module K V]

/-- An executable run: at most `n` passes per output step, at most `m` output steps. -/
def runFuel (P : Params K) (f : K → V → V) (snes : Nat → Answer V) (quit : Nat → Bool) (n : Nat) :
    Nat → Nat → St K V → Option (End K V)
  | 0, _, _ => none
  | m + 1, k, s =>
    if P.nout ≤ k then some (.returned s)
    else match attempts P f snes (s.t + P.dtout) n { s with saved := 0 } with
      | .again _ => none
      | .threw s' => some (.threw s')
      | .stop s' => if quit k then some (.returned (output k s')) else runFuel P f snes quit n m (k + 1) (output k s')

theorem runFuel_run (P : Params K) (f : K → V → V) (snes : Nat → Answer V) (quit : Nat → Bool) (n : Nat) :
    ∀ (m k : Nat) (s : St K V) (e : End K V), runFuel P f snes quit n m k s = some e → RunFrom P f snes quit k s e := by
  intro m
  induction m with
  | zero => intro k s e h; cases h
  | succ m ih =>
    intro k s e h
    unfold runFuel at h
    by_cases hk : P.nout ≤ k
    · rw [if_pos hk] at h
      cases h
      exact .finished k s hk
    · rw [if_neg hk] at h
      cases ha : attempts P f snes (s.t + P.dtout) n { s with saved := 0 } with
      | again s' =>
        rw [ha] at h
        cases h
      | threw s' =>
        rw [ha] at h
        cases h
        exact .threw k s s' n (by omega) ha
      | stop s' =>
        rw [ha] at h
        dsimp only at h
        cases hq : quit k with
        | true =>
          rw [hq] at h
          cases h
          exact .quit k s s' n (by omega) ha hq
        | false =>
          rw [hq] at h
          exact .next k s s' e n (by omega) ha hq (ih _ _ _ h)

/-- Run and look. -/
theorem run_look {α : Type} (P : Params K) (f : K → V → V) (snes : Nat → Answer V) (quit : Nat → Bool) (n m : Nat)
    (t0 : K) (v : V) (h : K) (pred : Bool) (lag : Int) (look : End K V → α) (r : α)
    (hr : (runFuel P f snes quit n m 0 (start t0 v v h pred lag)).map look = some r) :
    ∃ e, Run P f snes quit t0 v h pred lag e ∧ look e = r := by
  cases he : runFuel P f snes quit n m 0 (start t0 v v h pred lag) with
  | none =>
    rw [he] at hr
    cases hr
  | some e =>
    rw [he] at hr
    exact ⟨e, ⟨v, runFuel_run P f snes quit n m 0 _ e he⟩, Option.some.inj hr⟩
end

/-- Options near the defaults: `dt_min_reset = 1/1000`, `max_timestep = 1/2`, `lower_its = 25`,
`upper_its = 40`, two outputs of length 1. -/
def demo : Params ℚ := { dtMin := 1/1000, maxDt := 1/2, lowerIts := 25, upperIts := 40, dtout := 1, nout := 2 }

/-- A number for each event: solves show their time, step and first guess. -/
def shows : Event ℚ ℚ → List ℚ
  | .solve t dt x0 g l => [0, t, dt, x0, g, l]
  | .failed => [1]
  | .accept t dt _ _ _ its x => [2, t, dt, its, x]
  | .reset => [3]
  | .rhs t x => [4, t, x]
  | .monitor t k x => [5, t, k, x]

/-- Did every accepted vector solve the rearranged backward Euler equation for `x' = 1` exactly? -/
def exact1 : Event ℚ ℚ → Bool
  | .accept t dt x0 _ xs _ _ => residual .rearranged (fun _ _ => (1 : ℚ)) t dt x0 xs = 0
  | _ => true

/-- **C79 violated (no iterations).**  `x' = 1`, `x(1) = 1`, default predictor.  SNES solves both equations
exactly.  The second time its first guess, the extrapolated state, is already the solution, and it reports no
iterations: the code then adds a forward Euler step on top of it.  At time 2 the state is 5/2, not 2. -/
theorem C79_no_iterations_violated :
    ∃ e, Run { demo with nout := 1 } (fun _ _ => (1 : ℚ)) (fun k => if k = 0 then .ok (3/2) 1 else .ok 2 0)
        (fun _ => false) 1 1 (1/2) true 50 e ∧
      (e.st.t, e.st.x, e.st.log.all exact1) = (2, 5/2, true) := by
  refine run_look _ _ _ _ 5 3 _ _ _ _ _ (fun e => (e.st.t, e.st.x, e.st.log.all exact1)) _ ?_
  decide +kernel

/-- **C79 violated (smaller timestep).**  "If exceeded, solve restarts with timestep / 2", says the manual.
With a trial timestep of 8 and an output step of 1 the same solve is made four times, before a smaller step
is tried. -/
theorem C79_smaller_timestep_violated :
    ∃ e, Run { demo with nout := 1 } (fun _ _ => (1 : ℚ)) (fun k => if k ≤ 3 then .failed else .ok 2 1)
        (fun _ => false) 1 1 8 true 50 e ∧
      (e.st.log.map shows).take 9 =
        [[0, 1, 1, 1, 1, 50], [1], [0, 1, 1, 1, 1, 1], [1], [0, 1, 1, 1, 1, 1], [1], [0, 1, 1, 1, 1, 1], [1],
          [0, 1, 1/2, 1, 1, 1]] := by
  refine run_look _ _ _ _ 9 3 _ _ _ _ _ (fun e => (e.st.log.map shows).take 9) _ ?_
  decide +kernel

/-- **C79 violated (maximum timestep).**  `max_timestep` is applied only when a step grows: the first step may
exceed it, and so may the step after a reset.  Here the maximum is 1/2, and the first step is 3/4. -/
theorem C79_max_timestep_violated :
    ∃ e, Run { demo with nout := 1 } (fun _ _ => (1 : ℚ)) (fun _ => .ok 2 1)
        (fun _ => false) 1 1 (3/4) true 50 e ∧
      (e.st.log.map shows).take 1 = [[0, 1, 3/4, 1, 1, 50]] := by
  refine run_look _ _ _ _ 9 3 _ _ _ _ _ (fun e => (e.st.log.map shows).take 1) _ ?_
  decide +kernel

/-- **C79 violated (maximum timestep after a reset).**  The first timestep is below the limit, the reset
makes it a whole output step, twice the maximum. -/
theorem C79_max_timestep_reset_violated :
    ∃ e, Run { demo with nout := 1 } (fun _ _ => (1 : ℚ)) (fun _ => .ok 2 1)
        (fun _ => false) 1 1 (1/10000) true 50 e ∧
      (e.st.log.map shows) = [[3], [0, 1, 1, 1, 1, 1], [2, 1, 1, 1, 2], [4, 2, 2], [5, 2, 0, 2]] := by
  refine run_look _ _ _ _ 9 3 _ _ _ _ _ (fun e => (e.st.log.map shows)) _ ?_
  decide +kernel

/-- **C79 violated (predictor from time zero).**  The test `time1 > 0` is meant to ask whether a previous
point is known, but is false of the point at time 0, where a run normally starts.  `x' = 1`: from time 0 the
second first guess is the current state 1/2; from time 1 it is the solution. -/
theorem C79_predictor_from_zero_violated :
    (∃ e, Run { demo with nout := 1 } (fun _ _ => (1 : ℚ)) (fun k => if k = 0 then .ok (1/2) 1 else .ok 1 1)
        (fun _ => false) 0 0 (1/2) true 50 e ∧
      (e.st.log.map shows).take 3 = [[0, 0, 1/2, 0, 0, 50], [2, 0, 1/2, 1, 1/2], [0, 1/2, 1/2, 1/2, 1/2, 50]]) ∧
    (∃ e, Run { demo with nout := 1 } (fun _ _ => (1 : ℚ)) (fun k => if k = 0 then .ok (3/2) 1 else .ok 2 1)
        (fun _ => false) 1 1 (1/2) true 50 e ∧
      (e.st.log.map shows).take 3 = [[0, 1, 1/2, 1, 1, 50], [2, 1, 1/2, 1, 3/2], [0, 3/2, 1/2, 3/2, 2, 50]]) := by
  constructor
  · refine run_look _ _ _ _ 9 3 _ _ _ _ _ (fun e => (e.st.log.map shows).take 3) _ ?_
    decide +kernel
  · refine run_look _ _ _ _ 9 3 _ _ _ _ _ (fun e => (e.st.log.map shows).take 3) _ ?_
    decide +kernel

/-- A run with a failure, a retry, a change of step size and two outputs: the hypotheses of the theorems above
are met. -/
theorem C79_example :
    0 < demo.dtMin ∧ 0 < demo.dtout ∧ (50 : Int) ≠ 0 ∧
    ∃ e, Run demo (fun _ _ => (1 : ℚ)) (fun k => if k = 0 then .failed else .ok (k + 1) 41)
        (fun _ => false) 1 1 (9/10) true 50 e ∧
      (e.st.t, (e.st.log.map shows).take 5) = (3,
        [[0, 1, 9/10, 1, 1, 50], [1], [0, 1, 9/20, 1, 1, 1], [2, 1, 9/20, 41, 2], [0, 29/20, 81/200, 2, 29/10, 50]]) := by
  refine ⟨by decide +kernel, by decide +kernel, by decide, ?_⟩
  refine run_look _ _ _ _ 9 3 _ _ _ _ _ (fun e => (e.st.t, (e.st.log.map shows).take 5)) _ ?_
  decide +kernel

end Verif.Snes
