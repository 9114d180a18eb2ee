import Verif.Solver.Run
import Verif.Solver.RKFinal

/-! # C26: theorems about the run loops -/
namespace Verif.RK

variable {K σ : Type} [Field K] [LinearOrder K] [IsStrictOrderedRing K]

/-- Specification: starting at time `t` in state `y`, the steps recorded in the list (time after the step, size of
the step, error estimate) are taken one after the other, and lead to time `t'` and state `y'`. -/
inductive Marches (f : K → K → σ → σ × K) : K → σ → List (K × K × K) → K → σ → Prop where
  | nil (t : K) (y : σ) : Marches f t y [] t y
  | cons (t dt t' : K) (y y' : σ) (l : List (K × K × K))
      (h : Marches f (t + dt) (f t dt y).1 l t' y') :
      Marches f t y ((t + dt, dt, (f t dt y).2) :: l) t' y'

theorem Marches.append {f : K → K → σ → σ × K} {t : K} {y : σ} {l : List (K × K × K)} {t1 : K} {y1 : σ}
    (h : Marches f t y l t1 y1) {l' : List (K × K × K)} {t2 : K} {y2 : σ} (h' : Marches f t1 y1 l' t2 y2) :
    Marches f t y (l ++ l') t2 y2 := by
  induction h with
  | nil => simpa using h'
  | cons t dt t' y y' l _ ih => exact .cons t dt t2 y y2 _ (ih h')

/-- The sizes of the steps add up to the time covered. -/
theorem Marches.sum {f : K → K → σ → σ × K} {t : K} {y : σ} {l : List (K × K × K)} {t1 : K} {y1 : σ}
    (h : Marches f t y l t1 y1) : t + (l.map (fun x => x.2.1)).sum = t1 := by
  induction h with
  | nil => simp
  | cons t dt t' y y' l _ ih => simp only [List.map_cons, List.sum_cons]; rw [← ih]; ring

theorem chooseDt_cases (target t ts : K) :
    (chooseDt target t ts = (target - t, false) ∧ target ≤ t + ts) ∨
    (chooseDt target t ts = (ts, true) ∧ t + ts < target) := by
  unfold chooseDt
  by_cases h : t + ts ≥ target
  · left; rw [if_pos h]; exact ⟨rfl, h⟩
  · right; rw [if_neg h]; exact ⟨rfl, not_le.1 h⟩

theorem clamp_pos {mx ts : K} (h : 0 < ts) : 0 < clampTimestep mx ts := by
  unfold clampTimestep
  split_ifs with hc
  · exact hc.1
  · exact h

/-- `rescale` never makes the time step zero or negative (`pow` is positive). -/
def Positive (m : Method K σ) : Prop := ∀ a b e : K, 0 < a → 0 < b → 0 < m.rescale a b e

theorem newTimestep_pos {m : Method K σ} (hm : Positive m) {ts dt e : K} {r : Bool} (h : 0 < ts) (hd : 0 < dt) :
    0 < newTimestep m ts dt e r := by
  unfold newTimestep
  split_ifs
  · exact clamp_pos (hm _ _ _ h hd)
  · exact h

/-- A step that was accepted. -/
structure Accepted (m : Method K σ) (target : K) (x : K × K × K) : Prop where
  pos : 0 < x.2.1
  before : x.1 ≤ target
  accurate : m.adaptive = true → x.2.2 < m.rtol

/-- What one pass does, by cases. -/
theorem attempt_cases (m : Method K σ) (target : K) (s : St K σ) (hm : Positive m) (h0 : s.simtime < target)
    (hts : 0 < s.timestep) :
    (attempt m target s = .throw ∧ m.adaptive = true ∧ m.mxstep ≤ s.internal_steps) ∨
    (∃ s', attempt m target s = .retry s' ∧ m.adaptive = true ∧ s'.internal_steps = s.internal_steps + 1 ∧
      s.internal_steps < m.mxstep ∧
      s'.simtime = s.simtime ∧ s'.f0 = s.f0 ∧ s'.taken = s.taken ∧ 0 < s'.timestep) ∨
    (∃ s' running dt, attempt m target s = .accept s' running ∧ 0 < dt ∧ 0 < s'.timestep ∧
      s'.simtime = s.simtime + dt ∧ s'.f0 = (m.tryStep s.simtime dt s.f0).1 ∧
      s'.taken = s.taken ++ [(s.simtime + dt, dt, (m.tryStep s.simtime dt s.f0).2)] ∧
      (m.adaptive = true → (m.tryStep s.simtime dt s.f0).2 < m.rtol ∧
        s'.internal_steps = s.internal_steps + 1 ∧ s.internal_steps < m.mxstep) ∧
      (m.adaptive = false → s'.timestep = s.timestep ∧ s'.internal_steps = s.internal_steps) ∧
      (running = true → dt = s.timestep ∧ s.simtime + dt < target) ∧
      (running = false → s.simtime + dt = target ∧ dt ≤ s.timestep)) := by
  have hdt : 0 < (chooseDt target s.simtime s.timestep).1 := by
    rcases chooseDt_cases target s.simtime s.timestep with ⟨h, _⟩ | ⟨h, _⟩ <;> rw [h]
    · simpa using sub_pos.2 h0
    · exact hts
  have hr1 : (chooseDt target s.simtime s.timestep).2 = true →
      (chooseDt target s.simtime s.timestep).1 = s.timestep ∧
        s.simtime + (chooseDt target s.simtime s.timestep).1 < target := by
    rcases chooseDt_cases target s.simtime s.timestep with ⟨h, _⟩ | ⟨h, h'⟩ <;> rw [h]
    · intro hh; cases hh
    · exact fun _ => ⟨rfl, h'⟩
  have hr2 : (chooseDt target s.simtime s.timestep).2 = false →
      s.simtime + (chooseDt target s.simtime s.timestep).1 = target ∧
        (chooseDt target s.simtime s.timestep).1 ≤ s.timestep := by
    rcases chooseDt_cases target s.simtime s.timestep with ⟨h, h'⟩ | ⟨h, h'⟩ <;> rw [h]
    · exact fun _ => ⟨by simp, by simp only; linarith⟩
    · intro hh; cases hh
  unfold attempt
  simp only
  generalize chooseDt target s.simtime s.timestep = c at *
  by_cases ha : m.adaptive = true
  · rw [if_pos ha]
    by_cases hs : s.internal_steps + 1 > m.mxstep
    · left
      rw [if_pos hs]
      exact ⟨rfl, ha, by omega⟩
    · right
      rw [if_neg hs]
      have hn : 0 < newTimestep m s.timestep c.1 (m.tryStep s.simtime c.1 s.f0).2 c.2 :=
        newTimestep_pos hm hts hdt
      by_cases he : (m.tryStep s.simtime c.1 s.f0).2 < m.rtol
      · right
        rw [if_pos he]
        exact ⟨_, c.2, c.1, rfl, hdt, hn, rfl, rfl, rfl, fun _ => ⟨he, rfl, by omega⟩,
          fun hh => by rw [ha] at hh; exact absurd hh (by decide), hr1, hr2⟩
      · left
        rw [if_neg he]
        exact ⟨_, rfl, ha, rfl, by omega, rfl, rfl, rfl, hn⟩
  · right; right
    rw [if_neg ha]
    exact ⟨_, c.2, c.1, rfl, hdt, hts, rfl, rfl, rfl, fun hh => absurd hh ha, fun _ => ⟨rfl, rfl⟩, hr1, hr2⟩

theorem outputLoop_spec (m : Method K σ) (target : K) (hm : Positive m) (k : Nat) (s s' : St K σ)
    (h0 : s.simtime < target) (hts : 0 < s.timestep) (h : outputLoop m target k s = .done s') :
    s'.simtime = target ∧ 0 < s'.timestep ∧ ∃ l, s'.taken = s.taken ++ l ∧
      Marches m.tryStep s.simtime s.f0 l target s'.f0 ∧ (∀ x ∈ l, Accepted m target x) ∧ l ≠ [] ∧
      (m.adaptive = true → s.internal_steps + l.length ≤ m.mxstep) := by
  induction k generalizing s with
  | zero => cases h
  | succ k ih =>
    unfold outputLoop at h
    rcases attempt_cases m target s hm h0 hts with ⟨e, _⟩ | ⟨s1, e, _, hi, _, ht, hf, hk, hp⟩ |
        ⟨s1, r, dt, e, hd, hp, ht, hf, hk, had, hna, hr1, hr2⟩
    · rw [e] at h; cases h
    · rw [e] at h
      obtain ⟨a, b, l, c1, c2, c3, c4, c5⟩ := ih s1 (by rw [ht]; exact h0) hp h
      rw [hk] at c1
      rw [ht, hf] at c2
      exact ⟨a, b, l, c1, c2, c3, c4, fun ha => by have := c5 ha; omega⟩
    · rw [e] at h
      cases r with
      | true =>
        obtain ⟨ed, hlt⟩ := hr1 rfl
        obtain ⟨a, b, l, c1, c2, c3, c4, c5⟩ := ih s1 (by rw [ht]; exact hlt) hp h
        rw [hk, List.append_assoc] at c1
        rw [ht, hf] at c2
        refine ⟨a, b, _, c1, .cons _ _ _ _ _ _ c2, ?_, by simp, ?_⟩
        · intro x hx
          rcases List.mem_cons.1 hx with rfl | hx
          · exact ⟨hd, hlt.le, fun ha => (had ha).1⟩
          · exact c3 x hx
        · intro ha
          have := c5 ha
          rw [(had ha).2.1] at this
          simp only [List.singleton_append, List.length_cons]
          omega
      | false =>
        obtain ⟨et, _⟩ := hr2 rfl
        cases h
        refine ⟨by rw [ht, et], hp, _, hk, ?_, ?_, by simp, ?_⟩
        · have := Marches.cons (f := m.tryStep) s.simtime dt target s.f0 _ [] (by
            rw [et, ← hf]; exact .nil _ _)
          exact this
        · intro x hx
          rcases List.mem_singleton.1 hx with rfl
          exact ⟨hd, et.le, fun ha => (had ha).1⟩
        · intro ha
          have := (had ha).2.2
          simp only [List.length_singleton]
          omega

/-- **C26.** Between outputs, every solver of the family advances the solution by a chain of its own steps which
starts from the current time and state and ends exactly on the output time: the steps have positive size, never go
beyond the output time, and with adaptive stepping each of them was accepted with an error estimate below `rtol` and
there are at most `mxstep` of them; a rejected step leaves no trace in the solution. -/
theorem C26_output_reached (m : Method K σ) (hm : Positive m) (T : K) (hT : 0 < T) (fuel : Nat) (s s' : St K σ)
    (hts : 0 < s.timestep) (h : outputLoop m (s.simtime + T) fuel { s with internal_steps := 0 } = .done s') :
    s'.simtime = s.simtime + T ∧ ∃ l, s'.taken = s.taken ++ l ∧
      Marches m.tryStep s.simtime s.f0 l (s.simtime + T) s'.f0 ∧
      (l.map (fun x => x.2.1)).sum = T ∧
      (∀ x ∈ l, 0 < x.2.1 ∧ x.1 ≤ s.simtime + T ∧ (m.adaptive = true → x.2.2 < m.rtol)) ∧
      (m.adaptive = true → l.length ≤ m.mxstep) := by
  obtain ⟨a, _, l, c1, c2, c3, _, c5⟩ := outputLoop_spec m (s.simtime + T) hm fuel { s with internal_steps := 0 } s'
    (by simpa using hT) hts h
  refine ⟨a, l, c1, c2, ?_, fun x hx => ⟨(c3 x hx).pos, (c3 x hx).before, (c3 x hx).accurate⟩, fun ha => ?_⟩
  · have := c2.sum
    simp only at this
    linarith
  · have := c5 ha
    simpa using this

/-- **C26.** Adaptive stepping always comes to an end: within `mxstep + 1` tries the output time is reached or the
"MXSTEP exceeded" exception is thrown. -/
theorem C26_adaptive_terminates (m : Method K σ) (hm : Positive m) (ha : m.adaptive = true) (target : K) (s : St K σ)
    (h0 : s.simtime < target) (hts : 0 < s.timestep) (fuel : Nat) (hf : m.mxstep + 1 ≤ fuel + s.internal_steps)
    (hf0 : 0 < fuel) : outputLoop m target fuel s ≠ .outOfFuel := by
  induction fuel generalizing s with
  | zero => omega
  | succ k ih =>
    unfold outputLoop
    rcases attempt_cases m target s hm h0 hts with ⟨e, _⟩ | ⟨s1, e, _, hi, hx, ht, hf', hk, hp⟩ |
        ⟨s1, r, dt, e, hd, hp, ht, hf', hk, had, hna, hr1, hr2⟩
    · rw [e]; intro h; cases h
    · rw [e]
      exact ih s1 (by rw [ht]; exact h0) hp (by omega) (by omega)
    · rw [e]
      obtain ⟨_, hi, hx⟩ := had ha
      cases r with
      | true => exact ih s1 (by rw [ht]; exact (hr1 rfl).2) hp (by omega) (by omega)
      | false => intro h; cases h

/-- Taking more passes than needed changes nothing. -/
theorem outputLoop_mono (m : Method K σ) (target : K) (k : Nat) (s : St K σ) (r : Res (St K σ))
    (h : outputLoop m target k s = r) (hr : r ≠ .outOfFuel) : outputLoop m target (k + 1) s = r := by
  induction k generalizing s with
  | zero => exact absurd h.symm hr
  | succ k ih =>
    rw [outputLoop] at h ⊢
    cases he : attempt m target s with
    | throw => rw [he] at h; exact h
    | retry s1 => rw [he] at h; exact ih s1 h
    | accept s1 b =>
      rw [he] at h
      cases b with
      | true => exact ih s1 h
      | false => exact h

/-- The state after `N` steps of size `dt`. -/
theorem fixed_steps (m : Method K σ) (hm : Positive m) (ha : m.adaptive = false) (target : K) (N : Nat) (s : St K σ)
    (hts : 0 < s.timestep) (h0 : s.simtime + N * s.timestep < target) (h1 : target ≤ s.simtime + (N + 1) * s.timestep)
    (fuel : Nat) (hf : N + 1 ≤ fuel) :
    ∃ s', outputLoop m target fuel s = .done s' ∧ s'.timestep = s.timestep ∧
      s'.taken.map (fun x => x.2.1) = s.taken.map (fun x => x.2.1) ++
        (List.replicate N s.timestep ++ [target - s.simtime - N * s.timestep]) := by
  induction N generalizing s fuel with
  | zero =>
    obtain ⟨k, rfl⟩ : ∃ k, fuel = k + 1 := ⟨fuel - 1, by omega⟩
    simp only [Nat.cast_zero, zero_mul, add_zero, zero_add, one_mul] at h0 h1
    rw [outputLoop]
    rcases attempt_cases m target s hm h0 hts with ⟨e, ha', _⟩ | ⟨s1, e, ha', _⟩ |
        ⟨s1, r, dt, e, hd, hp, ht, hf', hk, had, hna, hr1, hr2⟩
    · rw [ha] at ha'; cases ha'
    · rw [ha] at ha'; cases ha'
    · cases r with
      | true =>
        obtain ⟨ed, hlt⟩ := hr1 rfl
        rw [ed] at hlt
        exact absurd h1 (not_le.2 hlt)
      | false =>
        rw [e]
        obtain ⟨et, _⟩ := hr2 rfl
        refine ⟨s1, rfl, (hna ha).1, ?_⟩
        rw [hk]
        simp only [List.map_append, List.map_cons, List.map_nil, List.replicate_zero, List.nil_append, Nat.cast_zero,
          zero_mul, sub_zero]
        rw [show dt = target - s.simtime by linarith]
  | succ N ih =>
    obtain ⟨k, rfl⟩ : ∃ k, fuel = k + 1 := ⟨fuel - 1, by omega⟩
    push_cast at h0 h1
    have hN : (0 : K) ≤ N * s.timestep := mul_nonneg (Nat.cast_nonneg _) hts.le
    have hlt : s.simtime + s.timestep < target := by linarith
    rw [outputLoop]
    rcases attempt_cases m target s hm (by linarith) hts with ⟨e, ha', _⟩ | ⟨s1, e, ha', _⟩ |
        ⟨s1, r, dt, e, hd, hp, ht, hf', hk, had, hna, hr1, hr2⟩
    · rw [ha] at ha'; cases ha'
    · rw [ha] at ha'; cases ha'
    · cases r with
      | false =>
        obtain ⟨et, hle⟩ := hr2 rfl
        exfalso
        linarith
      | true =>
        rw [e]
        obtain ⟨ed, _⟩ := hr1 rfl
        have et := (hna ha).1
        obtain ⟨s', r1, r2, r3⟩ := ih s1 hp (by rw [et, ht, ed]; linarith) (by rw [et, ht, ed]; linarith) k (by omega)
        refine ⟨s', r1, by rw [r2, et], ?_⟩
        rw [r3, hk, et, ht, ed]
        simp only [List.map_append, List.map_cons, List.map_nil, List.append_assoc, List.singleton_append,
          List.replicate_succ, List.cons_append]
        have e' : target - (s.simtime + s.timestep) - (N : K) * s.timestep =
            target - s.simtime - ((N + 1 : Nat) : K) * s.timestep := by push_cast; ring
        rw [e']
        rfl

/-- **C26.** With a fixed time step an output interval `T` always completes (there is no limit on the number of
steps), in the least number `N` of steps that covers it: `N - 1` steps of exactly the requested size and a last one
that makes up the remainder; the requested size is kept for the next interval. -/
theorem C26_fixed_step [Archimedean K] (m : Method K σ) (hm : Positive m) (ha : m.adaptive = false) (T : K)
    (hT : 0 < T) (s : St K σ) (hts : 0 < s.timestep) :
    ∃ N : Nat, 0 < N ∧ (N - 1 : K) * s.timestep < T ∧ T ≤ N * s.timestep ∧ ∀ fuel, N ≤ fuel →
      ∃ s', outputLoop m (s.simtime + T) fuel { s with internal_steps := 0 } = .done s' ∧
        s'.timestep = s.timestep ∧
        s'.taken.map (fun x => x.2.1) = s.taken.map (fun x => x.2.1) ++
          (List.replicate (N - 1) s.timestep ++ [T - (N - 1 : K) * s.timestep]) := by
  obtain ⟨M, hM⟩ := Archimedean.arch T hts
  rw [nsmul_eq_mul] at hM
  have hex : ∃ N : Nat, T ≤ N * s.timestep := ⟨M, hM⟩
  classical
  have hN0 : Nat.find hex ≠ 0 := by
    intro h
    have := Nat.find_spec hex
    rw [h, Nat.cast_zero, zero_mul] at this
    exact absurd hT (not_lt.2 this)
  obtain ⟨N, hN⟩ : ∃ N, Nat.find hex = N + 1 := ⟨Nat.find hex - 1, by omega⟩
  have h1 : T ≤ ((N + 1 : Nat) : K) * s.timestep := hN ▸ Nat.find_spec hex
  have h2 : (N : K) * s.timestep < T := not_le.1 (Nat.find_min hex (by omega))
  refine ⟨N + 1, by omega, by push_cast; simpa using h2, h1, fun fuel hf => ?_⟩
  push_cast at h1
  obtain ⟨s', r1, r2, r3⟩ := fixed_steps m hm ha (s.simtime + T) N { s with internal_steps := 0 } hts
    (by simpa using h2) (by simpa using h1) fuel hf
  refine ⟨s', r1, r2, ?_⟩
  rw [r3]
  simp only [Nat.add_sub_cancel]
  congr 3
  push_cast
  ring

/-- **C26.** Over a whole run the monitors are called at exactly the output times `t₀ + T, t₀ + 2T, …`, each time
with the state reached by a chain of the solver's steps covering the interval since the last output, and there are
`nout` calls unless a monitor asked to stop, in which case that call is the last. -/
theorem runLoop_spec (m : Method K σ) (hm : Positive m) (T : K) (hT : 0 < T) (fuel : Nat) (mon : Nat → K → σ → Bool)
    (todo i : Nat) (s s' : St K σ) (calls calls' : List (K × σ)) (hts : 0 < s.timestep)
    (h : runLoop m T fuel mon todo i s calls = .done (s', calls')) :
    ∃ new, calls' = calls ++ new ∧ new.length ≤ todo ∧
      (∀ j (hj : j < new.length), (new[j]).1 = s.simtime + (j + 1 : Nat) * T ∧
        ∃ l, Marches m.tryStep s.simtime s.f0 l (new[j]).1 (new[j]).2) ∧
      (∀ j (hj : j < new.length), j + 1 < new.length → mon (i + j) (new[j]).1 (new[j]).2 = false) ∧
      (new.length < todo → ∃ j, ∃ hj : j < new.length, j + 1 = new.length ∧
        mon (i + j) (new[j]).1 (new[j]).2 = true) ∧
      s'.simtime = s.simtime + (new.length : K) * T ∧
      ∃ l, s'.taken = s.taken ++ l ∧ Marches m.tryStep s.simtime s.f0 l s'.simtime s'.f0 := by
  induction todo generalizing i s calls with
  | zero =>
    simp only [runLoop] at h
    cases h
    exact ⟨[], by simp, by simp, by simp, by simp, by simp, by simp, [], by simp, .nil _ _⟩
  | succ todo ih =>
    rw [runLoop] at h
    cases ho : outputLoop m (s.simtime + T) fuel { s with internal_steps := 0 } with
    | outOfFuel => rw [ho] at h; cases h
    | thrown => rw [ho] at h; cases h
    | done s1 =>
      rw [ho] at h
      obtain ⟨e1, e2, l, c1, c2, c3, c4, c5⟩ := outputLoop_spec m (s.simtime + T) hm fuel { s with internal_steps := 0 } s1
        (by simpa using hT) hts ho
      simp only at h c1 c2
      by_cases hmon : mon i s1.simtime s1.f0 = true
      · rw [if_pos hmon] at h
        injection h with h
        injection h with h h'
        rw [← h, ← h']
        refine ⟨[(s1.simtime, s1.f0)], rfl, by simp, ?_, ?_, ?_, ?_, l, c1, ?_⟩
        · intro j hj
          simp only [List.length_singleton] at hj
          obtain rfl : j = 0 := by omega
          simp only [List.getElem_singleton]
          refine ⟨by rw [e1]; simp, l, by rw [e1]; exact c2⟩
        · intro j hj hj'
          simp only [List.length_singleton] at hj'
          omega
        · intro _
          exact ⟨0, by simp, by simp, by simpa using hmon⟩
        · rw [e1]; simp
        · rw [e1]; exact c2
      · rw [if_neg hmon] at h
        obtain ⟨new, d1, d2, d3, d4, d5, d6, l', d7, d8⟩ := ih (i + 1) s1 _ e2 h
        refine ⟨(s1.simtime, s1.f0) :: new, by rw [d1]; simp, by simp; omega, ?_, ?_, ?_, ?_,
          l ++ l', by rw [d7, c1, List.append_assoc], ?_⟩
        · intro j hj
          cases j with
          | zero =>
            simp only [List.getElem_cons_zero]
            exact ⟨by rw [e1]; simp, l, by rw [e1]; exact c2⟩
          | succ j =>
            simp only [List.getElem_cons_succ]
            obtain ⟨f1, l2, f2⟩ := d3 j (by simpa using hj)
            refine ⟨by rw [f1, e1]; push_cast; ring, l ++ l2, Marches.append (by rw [e1]; exact c2) f2⟩
        · intro j hj hj'
          cases j with
          | zero => simpa using hmon
          | succ j =>
            simp only [List.getElem_cons_succ]
            simp only [List.length_cons] at hj hj'
            have := d4 j (by omega) (by omega)
            rwa [show i + 1 + j = i + (j + 1) by omega] at this
        · intro hl
          simp only [List.length_cons] at hl
          obtain ⟨j, hj, hj1, hj2⟩ := d5 (by omega)
          refine ⟨j + 1, by simp; omega, by simp; omega, ?_⟩
          simp only [List.getElem_cons_succ]
          rwa [show i + 1 + j = i + (j + 1) by omega] at hj2
        · rw [d6, e1]; push_cast [List.length_cons]; ring
        · refine Marches.append (t1 := s1.simtime) (y1 := s1.f0) (by rw [e1]; exact c2) d8

/-- **C26.** The same for the whole of `run`, which starts at output 0. -/
theorem C26_run (m : Method K σ) (hm : Positive m) (T : K) (hT : 0 < T) (fuel nout : Nat) (mon : Nat → K → σ → Bool)
    (s s' : St K σ) (calls : List (K × σ)) (hts : 0 < s.timestep)
    (h : runLoop m T fuel mon nout 0 s [] = .done (s', calls)) :
    calls.length ≤ nout ∧
      (∀ j (hj : j < calls.length), (calls[j]).1 = s.simtime + (j + 1 : Nat) * T ∧
        ∃ l, Marches m.tryStep s.simtime s.f0 l (calls[j]).1 (calls[j]).2) ∧
      (∀ j (hj : j < calls.length), j + 1 < calls.length → mon j (calls[j]).1 (calls[j]).2 = false) ∧
      (calls.length < nout → ∃ j, ∃ hj : j < calls.length, j + 1 = calls.length ∧
        mon j (calls[j]).1 (calls[j]).2 = true) ∧
      s'.simtime = s.simtime + (calls.length : K) * T := by
  obtain ⟨new, d1, d2, d3, d4, d5, d6, _⟩ := runLoop_spec m hm T hT fuel mon nout 0 s s' [] calls hts h
  simp only [List.nil_append] at d1
  subst d1
  simp only [Nat.zero_add] at d4 d5
  exact ⟨d2, d3, d4, d5, d6⟩

/-- **C26.** Once the internal time step respects the user's `max_timestep` every step taken does. -/
theorem C26_max_timestep (m : Method K σ) (hm : Positive m) (hmx : 0 < m.max_timestep) (target : K) (k : Nat)
    (s s' : St K σ) (h0 : s.simtime < target) (hts : 0 < s.timestep) (hle : s.timestep ≤ m.max_timestep)
    (h : outputLoop m target k s = .done s') :
    s'.timestep ≤ m.max_timestep ∧ ∃ l, s'.taken = s.taken ++ l ∧ ∀ x ∈ l, x.2.1 ≤ m.max_timestep := by
  have hn : ∀ (ts dt e : K) (r : Bool), ts ≤ m.max_timestep → newTimestep m ts dt e r ≤ m.max_timestep := by
    intro ts dt e r hl
    unfold newTimestep clampTimestep
    split_ifs with h1 h2
    · exact le_rfl
    · push Not at h2; exact h2 hmx
    · exact hl
  have key : ∀ s s1 : St K σ, (attempt m target s = .retry s1 ∨ ∃ b, attempt m target s = .accept s1 b) →
      s.timestep ≤ m.max_timestep → s1.timestep ≤ m.max_timestep := by
    intro s s1 he hl
    unfold attempt at he
    simp only at he
    split_ifs at he
    · rcases he with he | ⟨b, he⟩ <;> cases he
    · rcases he with he | ⟨b, he⟩ <;> cases he
      exact hn _ _ _ _ hl
    · rcases he with he | ⟨b, he⟩ <;> cases he
      exact hn _ _ _ _ hl
    · rcases he with he | ⟨b, he⟩ <;> cases he
      exact hl
  induction k generalizing s with
  | zero => cases h
  | succ k ih =>
    unfold outputLoop at h
    rcases attempt_cases m target s hm h0 hts with ⟨e, _⟩ | ⟨s1, e, _, hi, _, ht, hf, hk, hp⟩ |
        ⟨s1, r, dt, e, hd, hp, ht, hf, hk, had, hna, hr1, hr2⟩
    · rw [e] at h; cases h
    · rw [e] at h
      have := ih s1 (by rw [ht]; exact h0) hp (key s s1 (.inl e) hle) h
      rwa [hk] at this
    · rw [e] at h
      have hl1 := key s s1 (.inr ⟨r, e⟩) hle
      cases r with
      | true =>
        obtain ⟨ed, hlt⟩ := hr1 rfl
        obtain ⟨a, l, c1, c2⟩ := ih s1 (by rw [ht]; exact hlt) hp hl1 h
        rw [hk, List.append_assoc] at c1
        refine ⟨a, _, c1, ?_⟩
        intro x hx
        rcases List.mem_cons.1 hx with rfl | hx
        · simp only; rw [ed]; exact hle
        · exact c2 x hx
      | false =>
        cases h
        refine ⟨hl1, _, hk, ?_⟩
        intro x hx
        rcases List.mem_singleton.1 hx with rfl
        exact (hr2 rfl).2.trans hle

/-! ## The error estimate -/

section
variable {n : Nat}

/-- **C26, C27.** The error estimate that decides whether a step is kept is a number between 0 and 1, and with a
positive `atol` it is 0 exactly if the two solutions compared are equal. -/
theorem C26_error_range (atol : K) (hat : 0 < atol) (hn : 0 < n) (a b : Fin n → K) :
    0 ≤ errOf atol n a b ∧ errOf atol n a b ≤ 1 ∧ (errOf atol n a b = 0 ↔ a = b) := by
  have hden : ∀ i, 0 < |a i| + |b i| + atol := fun i => by
    have := abs_nonneg (a i); have := abs_nonneg (b i); linarith
  have hpos : ∀ i, 0 ≤ |a i - b i| / (|a i| + |b i| + atol) := fun i => div_nonneg (abs_nonneg _) (hden i).le
  have hN : (0 : K) < n := by exact_mod_cast hn
  unfold errOf
  refine ⟨div_nonneg (Finset.sum_nonneg fun i _ => hpos i) hN.le, ?_, ?_⟩
  · rw [div_le_one hN]
    calc _ ≤ ∑ _i : Fin n, (1 : K) := by
          apply Finset.sum_le_sum
          intro i _
          rw [div_le_one (hden i)]
          have := abs_sub (a i) (b i)
          linarith
      _ = n := by simp
  · rw [div_eq_zero_iff, or_iff_left hN.ne', Finset.sum_eq_zero_iff_of_nonneg (fun i _ => hpos i)]
    constructor
    · intro h
      funext i
      have := h i (Finset.mem_univ i)
      rw [div_eq_zero_iff, or_iff_left (hden i).ne', abs_eq_zero, sub_eq_zero] at this
      exact this
    · rintro rfl i _
      simp

/-- **C26.** The fixed-step RK4 solver: over one output interval the state advances by `N - 1` classical Runge-Kutta
steps of the requested size and one for the remainder, each of them a step of the classical tableau. -/
theorem C26_rk4_steps_classical (atol rtol mx : K) (mxstep : Nat) (rescale : K → K → K → K) (rhs : Rhs K n)
    (t dt : K) (y : Fin n → K) :
    Butcher.IsStep Butcher.classical rhs t dt y
      ((rk4Method false atol rtol mx mxstep rescale rhs).tryStep t dt y).1 := by
  simpa [rk4Method, rk4Try] using C26_rk4_classical rhs t dt y

/-- **C26.** The adaptive RK4 solver keeps the result of two consecutive classical half steps. -/
theorem C26_rk4_half_steps (atol rtol mx : K) (mxstep : Nat) (rescale : K → K → K → K) (rhs : Rhs K n)
    (t dt : K) (y : Fin n → K) :
    ∃ mid, Butcher.IsStep Butcher.classical rhs t (1/2 * dt) y mid ∧
      Butcher.IsStep Butcher.classical rhs (t + 1/2 * dt) (1/2 * dt) mid
        ((rk4Method true atol rtol mx mxstep rescale rhs).tryStep t dt y).1 ∧
      ∃ full, Butcher.IsStep Butcher.classical rhs t dt y full ∧
        ((rk4Method true atol rtol mx mxstep rescale rhs).tryStep t dt y).2 =
          errOf atol n ((rk4Method true atol rtol mx mxstep rescale rhs).tryStep t dt y).1 full := by
  refine ⟨rk4Step rhs t (1/2 * dt) y, C26_rk4_classical rhs _ _ _, ?_, rk4Step rhs t dt y,
    C26_rk4_classical rhs _ _ _, ?_⟩
  · simpa [rk4Method, rk4Try] using C26_rk4_classical rhs _ _ _
  · simp [rk4Method, rk4Try]

end

end Verif.RK
