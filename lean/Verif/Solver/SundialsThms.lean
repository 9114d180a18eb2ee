import Mathlib.Algebra.Order.Field.Basic
import Mathlib.Tactic.Ring
import Mathlib.Tactic.Linarith
import Mathlib.Tactic.NormNum
import Mathlib.Algebra.Order.Field.Rat
import Verif.Solver.SundialsProps
import Verif.Solver.VarsProps

/-! # C80: theorems about the SUNDIALS drivers -/

namespace Verif.Sundials

variable {K V : Type} [Field K] [LinearOrder K] [IsStrictOrderedRing K]

/-- Every successful step advances. -/
def Positive (o : Nat → Option (Inner K V)) : Prop := ∀ n i, o n = some i → 0 < i.h

omit [LinearOrder K] [IsStrictOrderedRing K] in
theorem reached_unique {o : Nat → Option (Inner K V)} {t0 t t' : K} {n : Nat} (h : Reached o t0 n t)
    (h' : Reached o t0 n t') : t = t' := by
  induction h generalizing t' with
  | zero => cases h'; rfl
  | succ a b ih =>
    cases h' with
    | succ a' b' =>
      rw [b] at b'; cases b'
      rw [ih a']

theorem reached_mono {o : Nat → Option (Inner K V)} (hp : Positive o) {t0 t t' : K} {n m : Nat}
    (h : Reached o t0 n t) (h' : Reached o t0 (n + m) t') : t ≤ t' ∧ (0 < m → ∃ i, o n = some i ∧ t + i.h ≤ t') := by
  induction m generalizing t' with
  | zero => exact ⟨(reached_unique h h').le, by simp⟩
  | succ m ih =>
    cases h' with
    | @succ _ t1 i a b =>
      obtain ⟨h1, h2⟩ := ih a
      have := hp _ _ b
      refine ⟨by linarith, fun _ => ?_⟩
      cases m with
      | zero =>
        refine ⟨i, b, ?_⟩
        linarith
      | succ m =>
        obtain ⟨j, h3, h4⟩ := h2 (by omega)
        exact ⟨j, h3, by linarith⟩

theorem reached_lt {o : Nat → Option (Inner K V)} (hp : Positive o) {t0 t t' : K} {n N : Nat}
    (h : Reached o t0 n t) (h' : Reached o t0 N t') (hlt : t < t') : n < N ∧ ∃ i, o n = some i := by
  rcases Nat.lt_or_ge n N with hn | hn
  · refine ⟨hn, ?_⟩
    obtain ⟨m, rfl⟩ : ∃ m, N = n + m := ⟨N - n, by omega⟩
    obtain ⟨i, hi, _⟩ := (reached_mono hp h h').2 (by omega)
    exact ⟨i, hi⟩
  · obtain ⟨m, rfl⟩ : ∃ m, n = N + m := ⟨n - N, by omega⟩
    have := (reached_mono hp h' h).1
    exact absurd hlt (not_lt.mpr this)

/-- The computed solution has one value at each time. -/
theorem solution_unique {o : Nat → Option (Inner K V)} (hp : Positive o) {t0 t : K} {x y : V}
    (h : Solution o t0 t x) (h' : Solution o t0 t y) : x = y := by
  obtain ⟨n, tn, i, a1, a2, a3, a4, a5⟩ := h
  obtain ⟨m, tm, j, b1, b2, b3, b4, b5⟩ := h'
  have key : ∀ {n m : Nat} {tn tm : K} {i j : Inner K V}, Reached o t0 n tn → o n = some i → t ≤ tn + i.h →
      Reached o t0 m tm → o m = some j → tm < t → m ≤ n := by
    intro n m tn tm i j a1 a2 a4 b1 b2 b3
    by_contra hlt
    obtain ⟨d, rfl⟩ : ∃ d, m = n + 1 + d := ⟨m - (n + 1), by omega⟩
    have := (reached_mono hp (Reached.succ a1 a2) b1).1
    linarith
  have h1 := key a1 a2 a4 b1 b2 b3
  have h2 := key b1 b2 b4 a1 a2 a3
  obtain rfl : n = m := by omega
  rw [a2] at b2; cases b2
  rw [a5, b5]

/-- A run of one of the drivers from `t0`, with `nout` outputs wanted every `dtout`. -/
def Runs (k : Kind) (ms : Bool) (mx : Nat) (o : Nat → Option (Inner K V)) (t0 dtout : K) (quit : Nat → Bool)
    (nout : Nat) (v : V) (e : End K V) : Prop :=
  ∃ fuel, run k ms mx o fuel dtout quit nout 0 (start t0 v) = some e

theorem start_inv (o : Nat → Option (Inner K V)) (t0 dtout : K) (v : V) (b : Bool) :
    Inv o t0 dtout b 0 (start t0 v) :=
  { mem := ⟨Reached.zero, fun k h => (by cases h), fun _ => rfl⟩
    time := by simp [start]
    cover := .inl rfl
    ahead := le_refl _
    outs := rfl
    steps := fun _ => rfl
    none := fun _ => rfl
    log := allGood_nil o t0 dtout }

section
variable {k : Kind} {ms : Bool} {mx : Nat} {o : Nat → Option (Inner K V)} {t0 dtout : K} {quit : Nat → Bool}
  {nout : Nat} {v : V} {e : End K V}

/-- **C80.** Whatever the integrator does, whichever driver and mode: the output monitors are called in order,
number `k` at exactly `t0 + (k + 1) dtout`, with the variables holding the integrator's solution at that time, and
with the user's function run there last (so that its derived quantities are those of the output). -/
theorem C80_outputs (hd : 0 < dtout) (h : Runs k ms mx o t0 dtout quit nout v e)
    (pre post : List (Event K V)) (t : K) (j : Nat) (x : V) (hl : e.st.log = pre ++ .monitor t j x :: post) :
    j = outs pre ∧ t = t0 + (j + 1) * dtout ∧ Solution o t0 t x ∧ ∃ pre', pre = pre' ++ [.rhs t x] := by
  obtain ⟨fuel, h⟩ := h
  obtain ⟨h1, h2, h3, h4, _⟩ := (run_ok hd nout (start_inv o t0 dtout v _) h).1 _ _ _ hl
  exact ⟨h1, h2, h3, h4⟩

/-- **C80.** Timestep monitors see every internal step once and in order, at its end and with its length; IDA
never calls them, and neither does any driver when `monitor_timestep` is off. -/
theorem C80_timestep_monitors (hd : 0 < dtout) (h : Runs k ms mx o t0 dtout quit nout v e) :
    (∀ pre post t dt x, e.st.log = pre ++ .stepMonitor t dt x :: post →
      ∃ tn i, Reached o t0 (steps pre) tn ∧ o (steps pre) = some i ∧ t = tn + i.h ∧ dt = i.h) ∧
    (ms = false ∨ k = .ida → ∀ t dt x, Event.stepMonitor t dt x ∉ e.st.log) := by
  obtain ⟨fuel, h⟩ := h
  obtain ⟨h1, h2, _⟩ := run_ok hd nout (start_inv o t0 dtout v _) h
  refine ⟨fun pre post t dt x hl => ?_, fun hs t dt x hm => ?_⟩
  · obtain ⟨tn, i, a, b, c, d, _⟩ := h1 _ _ _ hl
    exact ⟨tn, i, a, b, c, d⟩
  · obtain ⟨p, q, hpq⟩ := List.append_of_mem hm
    have h0 := h2 (single_false hs)
    rw [hpq, steps_append, steps] at h0
    omega

/-- **C80.** A run that returns has made every output it was asked for, or was stopped by a monitor at the last
one it made; a run that throws did so because a step failed, because `mxstep` steps did not reach the next output
time (never in single-step mode), or because that time is negative. -/
theorem C80_ends (hd : 0 < dtout) (h : Runs k ms mx o t0 dtout quit nout v e) :
    match e with
    | .returned s => outs s.log = nout ∨ ∃ j, quit j = true ∧ j < nout ∧ outs s.log = j + 1
    | .threw s => outs s.log < nout ∧
      (Failed o t0 dtout mx (single k ms) (outs s.log) ∨ Negative t0 dtout (outs s.log)) := by
  obtain ⟨fuel, h⟩ := h
  obtain ⟨_, _, h3, h4⟩ := run_ok hd nout (start_inv o t0 dtout v _) h
  cases e with
  | returned s =>
    rcases (h3 s rfl).1 with a | ⟨j, a, b, c, d⟩
    · left; simpa using a
    · exact .inr ⟨j, a, by simpa using c, d⟩
  | threw s =>
    obtain ⟨a, _, _, d⟩ := h4 s rfl
    exact ⟨by simpa using a, d⟩

end

/-- **C80.** The outputs do not depend on the driver or on `monitor_timestep`: two runs over the same integrator
steps give the same time and state at the same output. -/
theorem C80_modes_agree {k k' : Kind} {ms ms' : Bool} {mx mx' : Nat} {o : Nat → Option (Inner K V)} {t0 dtout : K}
    {quit quit' : Nat → Bool} {nout nout' : Nat} {v v' : V} {e e' : End K V} (hd : 0 < dtout) (hp : Positive o)
    (h : Runs k ms mx o t0 dtout quit nout v e) (h' : Runs k' ms' mx' o t0 dtout quit' nout' v' e')
    {t t' : K} {j : Nat} {x x' : V} (hm : .monitor t j x ∈ e.st.log) (hm' : .monitor t' j x' ∈ e'.st.log) :
    t = t' ∧ x = x' := by
  obtain ⟨p, q, hpq⟩ := List.append_of_mem hm
  obtain ⟨p', q', hpq'⟩ := List.append_of_mem hm'
  obtain ⟨_, a1, a2, _⟩ := C80_outputs hd h p q t j x hpq
  obtain ⟨_, b1, b2, _⟩ := C80_outputs hd h' p' q' t' j x' hpq'
  subst a1 b1
  exact ⟨rfl, solution_unique hp a2 b2⟩

theorem stepping_terminates {o : Nat → Option (Inner K V)} (hp : Positive o) {t0 tout T : K} {N : Nat}
    (hN : Reached o t0 N T) (hT : tout ≤ T) (fuel : Nat) {s : St K V} (hm : MemOk o t0 s.mem)
    (hf : N ≤ s.mem.n + fuel) : stepping o tout fuel s ≠ none := by
  induction fuel generalizing s with
  | zero =>
    rw [stepping]
    by_cases hc : s.mem.tn < tout
    · have := (reached_lt hp hm.reached hN (by linarith)).1
      omega
    · rw [if_neg hc]; simp
  | succ fuel ih =>
    rw [stepping]
    by_cases hc : s.mem.tn < tout
    · rw [if_pos hc]
      cases hs : step o s.mem with
      | none => simp
      | some q =>
        obtain ⟨m', x'⟩ := q
        obtain ⟨h1, h2, _⟩ := memOk_step hm hs
        exact ih h1 (by show N ≤ m'.n + fuel; rw [h2]; omega)
    · rw [if_neg hc]; simp

theorem run_terminates {o : Nat → Option (Inner K V)} (hp : Positive o) {t0 dtout T : K} (hd : 0 < dtout)
    {N : Nat} (hN : Reached o t0 N T) {k : Kind} {ms : Bool} {mx fuel : Nat} {quit : Nat → Bool} (hf : N ≤ fuel)
    (left : Nat) {i : Nat} {s : St K V} (hi : Inv o t0 dtout (single k ms) i s)
    (hT : t0 + ((i + left : Nat) : K) * dtout ≤ T) :
    run k ms mx o fuel dtout quit left i s ≠ none := by
  induction left generalizing i s with
  | zero => rw [run]; simp
  | succ left ih =>
    rw [run]
    cases hr : runTo k ms mx o fuel (s.simtime + dtout) s with
    | none =>
      exfalso
      rw [runTo] at hr
      by_cases hc : ms = false ∨ k = .ida
      · rw [if_pos hc] at hr
        cases hr
      · rw [if_neg hc] at hr
        have := stepping_terminates hp hN (tout := s.simtime + dtout) (by
          rw [hi.time]
          push_cast at hT
          nlinarith [mul_nonneg (Nat.cast_nonneg (α := K) left) hd.le]) fuel hi.mem (by omega)
        cases hs : stepping o (s.simtime + dtout) fuel s with
        | none => exact this hs
        | some r =>
          rw [hs] at hr
          cases r with
          | inl s' => cases hr
          | inr s' =>
            dsimp only at hr
            cases hg : getDky s'.mem (s.simtime + dtout) <;> rw [hg] at hr <;> cases hr
    | some r =>
      dsimp only
      rcases runTo_ok hd hi hr with ⟨s', rfl, hs'⟩ | ⟨s', (⟨rfl, hk⟩ | ⟨rfl, hk⟩), hs'⟩
      · dsimp only
        by_cases hneg : s'.simtime < 0
        · rw [if_pos hneg]; simp
        · rw [if_neg hneg]
          by_cases hq : quit i = true
          · rw [if_pos hq]; simp
          · rw [if_neg hq]
            refine ih (i := i + 1) ?_ (by rw [show i + 1 + left = i + (left + 1) by omega]; exact hT)
            exact
              { mem := hs'.mem
                time := by
                  show s'.simtime = _
                  rw [hs'.time]; push_cast; rfl
                cover := .inr hs'.cover.2
                ahead := hs'.ahead
                outs := by
                  show outs (s'.log ++ _) = _
                  rw [outs_append, hs'.outs]; rfl
                steps := fun h => by
                  show steps (s'.log ++ _) = _
                  rw [steps_append]; exact hs'.steps h
                none := fun h => by
                  show steps (s'.log ++ _) = _
                  rw [steps_append]; exact hs'.none h
                log := allGood_snoc hs'.log ⟨hs'.outs.symm, hs'.time, hs'.sol, hs'.ran, le_of_not_gt hneg⟩ }
      · simp
      · dsimp only
        have : (-1 : K) < 0 := by linarith [zero_lt_one (α := K)]
        rw [if_pos this]; simp

/-- **C80.** If the integrator gets to the end, no output time is negative, and (when the integrator drives) no `mxstep`
steps in a row stay within one output interval, then the run returns having made every output, unless a monitor
stops it. -/
theorem C80_completes {k : Kind} {ms : Bool} {mx : Nat} {o : Nat → Option (Inner K V)} {t0 dtout T : K}
    {quit : Nat → Bool} {nout N : Nat} {v : V} (hd : 0 < dtout) (hp : Positive o) (hN : Reached o t0 N T)
    (hT : t0 + nout * dtout ≤ T) (hneg : 0 ≤ t0 + dtout)
    (hmx : single k ms = false → ∀ n i t t', Reached o t0 n t → Reached o t0 (n + mx) t' →
      t0 + (i : Nat) * dtout ≤ t → t0 + (i + 1) * dtout ≤ t') :
    ∃ s, Runs k ms mx o t0 dtout quit nout v (.returned s) ∧
      ((∀ j, quit j = false) → outs s.log = nout) := by
  have hne := run_terminates (k := k) (ms := ms) (mx := mx) (quit := quit) hp hd hN (le_refl N) nout
    (start_inv o t0 dtout v (single k ms)) (by simpa using hT)
  cases hr : run k ms mx o N dtout quit nout 0 (start t0 v) with
  | none => exact absurd hr hne
  | some e =>
    have hruns : Runs k ms mx o t0 dtout quit nout v e := ⟨N, hr⟩
    have := C80_ends hd hruns
    cases e with
    | returned s =>
      refine ⟨s, hruns, fun hq => ?_⟩
      rcases this with h | ⟨j, h, _⟩
      · exact h
      · rw [hq j] at h; cases h
    | threw s =>
      exfalso
      obtain ⟨h1, h2⟩ := this
      generalize outs s.log = i at *
      rcases h2 with ⟨n, t, a, b, c⟩ | h2
      · have hle : t0 + ((i : K) + 1) * dtout ≤ T := by
          have : ((i : K) + 1) ≤ nout := by exact_mod_cast h1
          nlinarith
        rcases c with c | ⟨c1, n', t', rfl, c2, c3⟩
        · obtain ⟨_, j, hj⟩ := reached_lt hp a hN (by linarith)
          rw [c] at hj; cases hj
        · have := hmx c1 n' i t' t c2 a c3
          linarith
      · rw [Negative] at h2
        nlinarith [mul_nonneg (Nat.cast_nonneg (α := K) i) hd.le]

/-- **C80 violated.** A run whose output times are negative throws at the first output although the integrator did
everything it was asked: the time `run(tout)` returns is taken for an error code. -/
theorem C80_negative_time_violated {k : Kind} {ms : Bool} {mx : Nat} {o : Nat → Option (Inner K V)} {t0 dtout : K}
    {quit : Nat → Bool} {nout : Nat} {v : V} {e : End K V} (hd : 0 < dtout) (hneg : t0 + dtout < 0)
    (hn : 0 < nout) (h : Runs k ms mx o t0 dtout quit nout v e) :
    ∃ s, e = .threw s ∧ outs s.log = 0 := by
  have hout : ∀ t j x, Event.monitor t j x ∉ e.st.log := by
    obtain ⟨fuel, h'⟩ := h
    have hall := (run_ok hd nout (start_inv o t0 dtout v _) h').1
    have : ∀ pre t j x post, e.st.log = pre ++ Event.monitor t j x :: post → outs pre ≠ 0 := by
      intro pre t j x post hl h0
      obtain ⟨a, b, _, _, c⟩ := hall _ _ _ hl
      rw [h0] at a
      subst a
      simp at b
      linarith
    have key : ∀ n, ∀ pre post : List (Event K V), pre.length = n → e.st.log = pre ++ post → outs pre = 0 := by
      intro n
      induction n with
      | zero => intro pre post h1 _; rw [List.length_eq_zero_iff.mp h1]; rfl
      | succ n ih =>
        intro pre post h1 h2
        rcases List.eq_nil_or_concat pre with h3 | ⟨p, q, h3⟩
        · subst h3; simp at h1
        · subst h3
          rw [List.concat_eq_append] at *
          have hp := ih p (q :: post) (by simpa using h1) (by rw [h2]; simp)
          rw [outs_append, hp]
          cases q with
          | monitor t j x => exact absurd hp (this p t j x post (by rw [h2]; simp))
          | rhs t x => rfl
          | stepMonitor t dt x => rfl
    intro t j x hm
    obtain ⟨p, q, hpq⟩ := List.append_of_mem hm
    exact this p t j x q hpq (key _ p _ rfl hpq)
  have hzero : outs e.st.log = 0 := by
    have : ∀ l : List (Event K V), (∀ t j x, Event.monitor t j x ∉ l) → outs l = 0 := by
      intro l
      induction l with
      | nil => intro _; rfl
      | cons a l ih =>
        intro h
        have hl := ih fun t j x hm => h t j x (List.mem_cons_of_mem _ hm)
        cases a with
        | monitor t j x => exact absurd (List.mem_cons_self ..) (h t j x)
        | rhs t x => exact hl
        | stepMonitor t dt x => exact hl
    exact this _ hout
  have := C80_ends hd h
  cases e with
  | returned s =>
    exfalso
    rcases this with h | ⟨j, _, _, h⟩ <;> rw [show outs s.log = 0 from hzero] at h <;> omega
  | threw s => exact ⟨s, rfl, hzero⟩

/-- **C80 violated.** When timestep monitors are called the variables do not hold the solution at that time: they
hold whatever the integrator evaluated the user's function at last. -/
theorem C80_timestep_state_violated {k : Kind} {ms : Bool} {mx : Nat} {o : Nat → Option (Inner K V)} {t0 dtout : K}
    {quit : Nat → Bool} {nout : Nat} {v : V} {e : End K V} (hd : 0 < dtout)
    (h : Runs k ms mx o t0 dtout quit nout v e) (pre post : List (Event K V)) (t dt : K) (x : V)
    (hl : e.st.log = pre ++ .stepMonitor t dt x :: post) :
    ∃ i, o (steps pre) = some i ∧ x = i.seen := by
  obtain ⟨fuel, h⟩ := h
  obtain ⟨tn, i, _, b, _, _, f⟩ := (run_ok hd nout (start_inv o t0 dtout v _) h).1 _ _ _ hl
  exact ⟨i, b, f⟩

/-- **C80 violated.** `mxstep` ("maximum number of internal steps between outputs") has no effect in single-step
mode: every step is a new call, for which the integrator's own count starts again. -/
theorem C80_mxstep_violated {k : Kind} (hk : k ≠ .ida) (mx mx' : Nat) (o : Nat → Option (Inner K V)) (t0 dtout : K)
    (quit : Nat → Bool) (nout : Nat) (v : V) (e : End K V) :
    Runs k true mx o t0 dtout quit nout v e ↔ Runs k true mx' o t0 dtout quit nout v e := by
  have key : ∀ fuel left i s, run k true mx o fuel dtout quit left i s = run k true mx' o fuel dtout quit left i s := by
    intro fuel left
    induction left with
    | zero => intro i s; rfl
    | succ left ih =>
      intro i s
      rw [run, run]
      have : ∀ tout, runTo k true mx o fuel tout s = runTo k true mx' o fuel tout s := by
        intro tout
        rw [runTo, runTo, if_neg (by simp [hk]), if_neg (by simp [hk])]
      rw [this]
      simp only [ih]
  simp only [Runs, key]

/-! ## A run -/

/-- Steps of length 3/4, 1, 1, 1, …, dense output `x = t`, and a last evaluation half a step beyond the end. -/
def demoSteps (n : Nat) : Option (Inner ℚ ℚ) :=
  if n < 6 then some { h := if n = 0 then 3 / 4 else 1, dense := id, seen := 100 + n } else none

/-- A finished run, as data. -/
def shown : Option (End ℚ ℚ) → Option (Bool × List (ℚ × ℚ × ℚ × Nat))
  | none => none
  | some e => some (match e with | .returned _ => true | .threw _ => false,
      e.st.log.map fun
        | .stepMonitor t dt x => (t, dt, x, 0)
        | .rhs t x => (t, x, 0, 1)
        | .monitor t k x => (t, x, k, 2))

/-- Two outputs from CVODE in both modes; the same from negative times; and the integrator failing. -/
theorem C80_example :
    shown (run .cvode false 500 demoSteps 10 2 (fun _ => false) 2 0 (start 0 0)) =
      some (true, [(2, 2, 0, 1), (2, 2, 0, 2), (4, 4, 0, 1), (4, 4, 1, 2)]) ∧
    shown (run .cvode true 500 demoSteps 10 2 (fun _ => false) 2 0 (start 0 0)) =
      some (true, [(3/4, 3/4, 100, 0), (7/4, 1, 101, 0), (11/4, 1, 102, 0), (2, 2, 0, 1), (2, 2, 0, 2),
        (15/4, 1, 103, 0), (19/4, 1, 104, 0), (4, 4, 0, 1), (4, 4, 1, 2)]) ∧
    shown (run .pvode true 500 demoSteps 10 2 (fun _ => false) 1 0 (start (-4) 0)) =
      some (false, [(-13/4, 3/4, 100, 0), (-9/4, 1, 101, 0), (-5/4, 1, 102, 0), (-2, -2, 0, 1)]) ∧
    shown (run .ida true 2 demoSteps 10 2 (fun _ => false) 1 0 (start 0 0)) = some (false, [(7/4, 7/4, 0, 1)]) := by
  refine ⟨?_, ?_, ?_, ?_⟩ <;> decide +kernel

/-- The hypotheses of `C80_completes` are met by this integrator. -/
theorem C80_completes_example : Positive demoSteps ∧ Reached demoSteps 0 5 (19 / 4) ∧
    (0 : ℚ) + (2 : Nat) * 2 ≤ 19 / 4 := by
  refine ⟨?_, ?_, by norm_num⟩
  · intro n i h
    unfold demoSteps at h
    split at h
    · cases h; dsimp only; split <;> norm_num
    · cases h
  · have h : ∀ n, n < 5 → Reached demoSteps 0 (n + 1) ((n : ℚ) + 3 / 4) := by
      intro n
      induction n with
      | zero =>
        intro _
        have := Reached.succ (o := demoSteps) (t0 := 0) Reached.zero (i := ⟨3 / 4, id, 100 + (0 : Nat)⟩) rfl
        simpa using this
      | succ n ih =>
        intro hn
        have hs : demoSteps (n + 1) = some ⟨1, id, 100 + ((n + 1 : Nat) : ℚ)⟩ := by
          rw [demoSteps, if_pos (by omega), if_neg (by omega)]
        have := Reached.succ (ih (by omega)) hs
        rw [show (((n + 1 : Nat) : ℚ) + 3 / 4) = (n : ℚ) + 3 / 4 + 1 by push_cast; ring]
        exact this
    have := h 4 (by omega)
    norm_num at this
    exact this

end Verif.Sundials
