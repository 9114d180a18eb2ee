import Verif.Solver.RunProps

/-! # C26: the Euler solver and its CFL limiter -/
namespace Verif.RK

variable {K σ : Type} [Field K] [LinearOrder K] [IsStrictOrderedRing K]

theorem setMax_keep {cfl : K} {s : K × Bool} {d : K} (h : cfl * s.1 ≤ d) : eulerSetMax cfl s d = s := by
  unfold eulerSetMax; rw [if_pos h]

theorem fold_keep {cfl : K} (calls : List K) (s : K × Bool) (h : ∀ d ∈ calls, cfl * s.1 ≤ d) :
    calls.foldl (eulerSetMax cfl) s = s := by
  induction calls with
  | nil => rfl
  | cons d ds ih =>
    rw [List.foldl_cons, setMax_keep (h d (by simp))]
    exact ih (fun e he => h e (by simp [he]))

/-- The limiter leaves a time step that respects every limit, and only ever lowers it. -/
theorem fold_spec {cfl : K} (hc : 0 < cfl) (calls : List K) (hp : ∀ d ∈ calls, 0 < d) (s : K × Bool) (hs : 0 < s.1) :
    0 < (calls.foldl (eulerSetMax cfl) s).1 ∧ (calls.foldl (eulerSetMax cfl) s).1 ≤ s.1 ∧
    (∀ d ∈ calls, cfl * (calls.foldl (eulerSetMax cfl) s).1 ≤ d) ∧
    (calls.foldl (eulerSetMax cfl) s = s ∨
      ((calls.foldl (eulerSetMax cfl) s).2 = true ∧ (calls.foldl (eulerSetMax cfl) s).1 < s.1)) := by
  induction calls generalizing s with
  | nil => exact ⟨hs, le_rfl, by simp, .inl rfl⟩
  | cons d ds ih =>
    have hd := hp d (by simp)
    rw [List.foldl_cons]
    by_cases h : cfl * s.1 ≤ d
    · rw [setMax_keep h]
      obtain ⟨a, b, c, e⟩ := ih (fun x hx => hp x (by simp [hx])) s hs
      refine ⟨a, b, ?_, e⟩
      intro x hx
      rcases List.mem_cons.1 hx with rfl | hx
      · exact (mul_le_mul_of_nonneg_left b hc.le).trans h
      · exact c x hx
    · have e1 : eulerSetMax cfl s d = (d * (99/100) / cfl, true) := by unfold eulerSetMax; rw [if_neg h]
      push Not at h
      have hlt : d * (99/100) / cfl < s.1 := by
        rw [div_lt_iff₀ hc]; nlinarith
      have hle : cfl * (d * (99/100) / cfl) ≤ d := by
        rw [mul_div_cancel₀ _ hc.ne']; linarith
      have hpos : 0 < d * (99/100) / cfl := by positivity
      rw [e1]
      obtain ⟨a, b, c, e⟩ := ih (fun x hx => hp x (by simp [hx])) (d * (99/100) / cfl, true) hpos
      refine ⟨a, b.trans hlt.le, ?_, .inr ?_⟩
      · intro x hx
        rcases List.mem_cons.1 hx with rfl | hx
        · exact (mul_le_mul_of_nonneg_left b hc.le).trans hle
        · exact c x hx
      · rcases e with e | e
        · rw [e]; exact ⟨rfl, hlt⟩
        · exact ⟨e.1, e.2.trans hlt⟩

/-- The value a rank contributes: `10 * old` if none of its limits is violated, otherwise a smaller step that respects
them all. -/
theorem newdtLocal_spec {cfl : K} (hc : 0 < cfl) (calls : List K) (hp : ∀ d ∈ calls, 0 < d) (old : K) (ho : 0 < old) :
    0 < newdtLocal cfl old calls ∧
    ((old < newdtLocal cfl old calls ∧ ∀ d ∈ calls, cfl * old ≤ d) ∨
     (newdtLocal cfl old calls < old ∧ ∀ d ∈ calls, cfl * newdtLocal cfl old calls ≤ d)) := by
  obtain ⟨a, b, c, e⟩ := fold_spec hc calls hp (old, false) ho
  unfold newdtLocal
  simp only
  rcases e with e | ⟨e1, e2⟩
  · rw [e] at c ⊢
    simp only [Bool.false_eq_true, if_false]
    exact ⟨by linarith, .inl ⟨by linarith, c⟩⟩
  · rw [if_pos e1]
    exact ⟨a, .inr ⟨e2, c⟩⟩

theorem newdtGlobal_spec {p : Nat} {cfl old : K} (calls : Fin (p + 1) → List K) :
    (∀ r, newdtGlobal cfl old calls ≤ newdtLocal cfl old (calls r)) ∧
    ∃ r, newdtGlobal cfl old calls = newdtLocal cfl old (calls r) := by
  have key : ∀ (l : List (Fin p)) (a : K),
      l.foldl (fun a r => min a (newdtLocal cfl old (calls r.succ))) a ≤ a ∧
      (∀ r ∈ l, l.foldl (fun a r => min a (newdtLocal cfl old (calls r.succ))) a ≤
        newdtLocal cfl old (calls r.succ)) ∧
      (l.foldl (fun a r => min a (newdtLocal cfl old (calls r.succ))) a = a ∨
        ∃ r : Fin p, l.foldl (fun a r => min a (newdtLocal cfl old (calls r.succ))) a =
          newdtLocal cfl old (calls r.succ)) := by
    intro l
    induction l with
    | nil => intro a; exact ⟨le_rfl, by simp, .inl rfl⟩
    | cons x xs ih =>
      intro a
      rw [List.foldl_cons]
      obtain ⟨h1, h2, h3⟩ := ih (min a (newdtLocal cfl old (calls x.succ)))
      refine ⟨h1.trans (min_le_left _ _), ?_, ?_⟩
      · intro r hr
        rcases List.mem_cons.1 hr with rfl | hr
        · exact h1.trans (min_le_right _ _)
        · exact h2 r hr
      · rcases h3 with h3 | h3
        · rw [h3]
          rcases min_choice a (newdtLocal cfl old (calls x.succ)) with h | h
          · exact .inl h
          · exact .inr ⟨x, h⟩
        · exact .inr h3
  obtain ⟨h1, h2, h3⟩ := key (List.finRange p) (newdtLocal cfl old (calls 0))
  refine ⟨fun r => ?_, ?_⟩
  · refine Fin.cases h1 (fun r => ?_) r
    exact h2 r (List.mem_finRange r)
  · rcases h3 with h3 | ⟨r, h3⟩
    · exact ⟨0, h3⟩
    · exact ⟨r.succ, h3⟩

/-- Every limit the model sets is positive. -/
def PositiveLimits {p : Nat} (m : Euler K σ p) : Prop := ∀ t y r, ∀ d ∈ m.limits t y r, 0 < d

/-- One step of the Euler solver, as every rank sees it. -/
theorem eulerAttempt_spec {p : Nat} (m : Euler K σ (p + 1)) (hc : 0 < m.cfl_factor) (hl : PositiveLimits m)
    (r : Fin (p + 1)) (target : K) (s : St K σ) (h0 : s.simtime < target) (hts : 0 < s.timestep) :
    ∃ (dt ts : K) (running : Bool), 0 < dt ∧ dt ≤ s.timestep ∧ 0 < ts ∧ ts ≤ s.timestep ∧
      (∀ q, ∀ d ∈ m.limits s.simtime s.f0 q, m.cfl_factor * dt ≤ d) ∧
      ((∀ q, ∀ d ∈ m.limits s.simtime s.f0 q, m.cfl_factor * min s.timestep (target - s.simtime) ≤ d) →
        dt = min s.timestep (target - s.simtime) ∧ ts = s.timestep) ∧
      (running = true → s.simtime + dt < target) ∧ (running = false → s.simtime + dt = target) ∧
      ∀ q, eulerAttempt m q target s =
        if s.internal_steps + 1 > m.mxstep then .throw
        else .accept { s with f0 := m.step s.simtime dt s.f0, simtime := s.simtime + dt,
                              internal_steps := s.internal_steps + 1, timestep := ts,
                              taken := s.taken ++ [(s.simtime + dt, dt, 0)] } running := by
  have hdt : 0 < (chooseDt target s.simtime s.timestep).1 ∧
      (chooseDt target s.simtime s.timestep).1 = min s.timestep (target - s.simtime) ∧
      ((chooseDt target s.simtime s.timestep).2 = true →
        s.simtime + (chooseDt target s.simtime s.timestep).1 < target) ∧
      ((chooseDt target s.simtime s.timestep).2 = false →
        s.simtime + (chooseDt target s.simtime s.timestep).1 = target) ∧
      s.simtime + (chooseDt target s.simtime s.timestep).1 ≤ target := by
    rcases chooseDt_cases target s.simtime s.timestep with ⟨h, h'⟩ | ⟨h, h'⟩ <;> rw [h]
    · exact ⟨by simpa using h0, by simp only; rw [min_eq_right]; linarith, fun hh => (by cases hh),
        fun _ => by simp, by simp⟩
    · exact ⟨hts, by simp only; rw [min_eq_left]; linarith, fun _ => h', fun hh => (by cases hh), h'.le⟩
  have hun : ∀ q, eulerAttempt m q target s =
      (let c := chooseDt target s.simtime s.timestep
       let newdt := newdtGlobal m.cfl_factor c.1 (m.limits s.simtime s.f0)
       if newdt < c.1 then
         let ts := ((m.limits s.simtime s.f0 q).foldl (eulerSetMax m.cfl_factor) (newdt, true)).1
         if s.internal_steps + 1 > m.mxstep then .throw
         else .accept { s with f0 := m.step s.simtime newdt s.f0, simtime := s.simtime + ts,
                               internal_steps := s.internal_steps + 1, timestep := ts,
                               taken := s.taken ++ [(s.simtime + ts, ts, 0)] } true
       else
         let ts := ((m.limits s.simtime s.f0 q).foldl (eulerSetMax m.cfl_factor) (c.1, false)).1
         if s.internal_steps + 1 > m.mxstep then .throw
         else .accept { s with f0 := m.step s.simtime c.1 s.f0, simtime := s.simtime + ts,
                               internal_steps := s.internal_steps + 1,
                               taken := s.taken ++ [(s.simtime + ts, ts, 0)] } c.2) := fun q => rfl
  generalize chooseDt target s.simtime s.timestep = c at *
  obtain ⟨hd, hmin, hr1, hr2, hle⟩ := hdt
  have hcle : c.1 ≤ s.timestep := by rw [hmin]; exact min_le_left _ _
  obtain ⟨hg1, q0, hg2⟩ := newdtGlobal_spec (cfl := m.cfl_factor) (old := c.1) (m.limits s.simtime s.f0)
  have hloc := fun q => newdtLocal_spec hc (m.limits s.simtime s.f0 q) (hl s.simtime s.f0 q) c.1 hd
  simp only at hun
  by_cases hn : newdtGlobal m.cfl_factor c.1 (m.limits s.simtime s.f0) < c.1
  · -- a rank lowered the time step
    have hpos : 0 < newdtGlobal m.cfl_factor c.1 (m.limits s.simtime s.f0) := by rw [hg2]; exact (hloc q0).1
    have hlim : ∀ q, ∀ d ∈ m.limits s.simtime s.f0 q,
        m.cfl_factor * newdtGlobal m.cfl_factor c.1 (m.limits s.simtime s.f0) ≤ d := by
      intro q d hdq
      rcases (hloc q).2 with ⟨_, h2⟩ | ⟨_, h2⟩
      · exact (mul_le_mul_of_nonneg_left hn.le hc.le).trans (h2 d hdq)
      · exact (mul_le_mul_of_nonneg_left (hg1 q) hc.le).trans (h2 d hdq)
    refine ⟨_, _, true, hpos, hn.le.trans hcle, hpos, hn.le.trans hcle, hlim, ?_, fun _ => by linarith,
      fun hh => (by cases hh), fun q => ?_⟩
    · intro hall
      exfalso
      rw [← hmin] at hall
      rcases (hloc q0).2 with ⟨h1, _⟩ | ⟨h1, _⟩
      · rw [hg2] at hn; exact absurd hn (not_lt.2 h1.le)
      · have : newdtLocal m.cfl_factor c.1 (m.limits s.simtime s.f0 q0) = 10 * c.1 := by
          unfold newdtLocal
          rw [fold_keep _ (c.1, false) (fun d hdq => hall q0 d hdq)]
          rfl
        rw [this] at h1
        linarith
    · rw [hun q, if_pos hn, fold_keep _ _ (fun d hdq => hlim q d hdq)]
  · have hlim : ∀ q, ∀ d ∈ m.limits s.simtime s.f0 q, m.cfl_factor * c.1 ≤ d := by
      intro q d hdq
      rcases (hloc q).2 with ⟨_, h2⟩ | ⟨h1, _⟩
      · exact h2 d hdq
      · exact absurd ((hg1 q).trans_lt h1) hn
    refine ⟨c.1, s.timestep, c.2, hd, hcle, hts, le_rfl, hlim, fun _ => ⟨hmin, rfl⟩, hr1, hr2, fun q => ?_⟩
    rw [hun q, if_neg hn, fold_keep _ (c.1, false) (fun d hdq => hlim q d hdq)]

/-- The Euler solver's step as a step function for `Marches` (it makes no error estimate). -/
def eulerFn {p : Nat} (m : Euler K σ p) (t dt : K) (y : σ) : σ × K := (m.step t dt y, 0)

theorem eulerOutput_spec {p : Nat} (m : Euler K σ (p + 1)) (hc : 0 < m.cfl_factor) (hl : PositiveLimits m)
    (target : K) (k : Nat) (s : St K σ) (h0 : s.simtime < target) (hts : 0 < s.timestep) :
    (∀ q q', eulerOutput m q target k s = eulerOutput m q' target k s) ∧
    (m.mxstep + 1 ≤ k + s.internal_steps → 0 < k → ∀ q, eulerOutput m q target k s ≠ .outOfFuel) ∧
    ∀ q s', eulerOutput m q target k s = .done s' →
      s'.simtime = target ∧ 0 < s'.timestep ∧ s'.timestep ≤ s.timestep ∧ ∃ l, s'.taken = s.taken ++ l ∧
        Marches (eulerFn m) s.simtime s.f0 l target s'.f0 ∧
        (∀ x ∈ l, 0 < x.2.1 ∧ x.1 ≤ target) ∧
        ∀ l1 x l2 t y, l = l1 ++ x :: l2 → Marches (eulerFn m) s.simtime s.f0 l1 t y →
          ∀ q, ∀ d ∈ m.limits t y q, m.cfl_factor * x.2.1 ≤ d := by
  induction k generalizing s with
  | zero => exact ⟨fun _ _ => rfl, fun _ h => absurd h (by omega), fun q s' h => by cases h⟩
  | succ k ih =>
    obtain ⟨dt, ts, r, hd, hdl, hts1, htsl, hlim, _, hr1, hr2, hatt⟩ :=
      eulerAttempt_spec m hc hl 0 target s h0 hts
    by_cases hmx : s.internal_steps + 1 > m.mxstep
    · simp only [if_pos hmx] at hatt
      refine ⟨fun q q' => ?_, fun _ _ q => ?_, fun q s' h => ?_⟩
      · simp only [eulerOutput, hatt]
      · simp only [eulerOutput, hatt]; intro h; cases h
      · simp only [eulerOutput, hatt] at h; cases h
    · simp only [if_neg hmx] at hatt
      cases r with
      | true =>
        have hlt := hr1 rfl
        obtain ⟨a, b, c⟩ := ih { s with f0 := m.step s.simtime dt s.f0, simtime := s.simtime + dt,
                                        internal_steps := s.internal_steps + 1, timestep := ts,
                                        taken := s.taken ++ [(s.simtime + dt, dt, 0)] } hlt hts1
        refine ⟨fun q q' => ?_, fun hk _ q => ?_, fun q s' h => ?_⟩
        · simp only [eulerOutput, hatt]; exact a q q'
        · simp only [eulerOutput, hatt]
          exact b (by simp only; omega) (by omega) q
        · simp only [eulerOutput, hatt] at h
          obtain ⟨c1, c2, c2', l, c3, c4, c5, c6⟩ := c q s' h
          simp only [List.append_assoc] at c3
          refine ⟨c1, c2, c2'.trans htsl, _, c3, ?_, ?_, ?_⟩
          · exact Marches.cons (f := eulerFn m) s.simtime dt target s.f0 s'.f0 l c4
          · intro x hx
            rcases List.mem_cons.1 hx with rfl | hx
            · exact ⟨hd, hlt.le⟩
            · exact c5 x hx
          · intro l1 x l2 t y he hmar
            cases l1 with
            | nil =>
              cases hmar
              simp only [List.singleton_append, List.nil_append, List.cons.injEq] at he
              rw [← he.1]
              exact hlim
            | cons z l1 =>
              simp only [List.singleton_append, List.cons_append, List.cons.injEq] at he
              obtain ⟨he1, he2⟩ := he
              cases hmar with
              | cons _ dt' _ _ _ _ hm' =>
                have hdd : dt = dt' := (Prod.ext_iff.1 (Prod.ext_iff.1 he1).2).1
                subst hdd
                exact c6 l1 x l2 t y he2 hm'
      | false =>
        have heq := hr2 rfl
        refine ⟨fun q q' => ?_, fun _ _ q => ?_, fun q s' h => ?_⟩
        · simp only [eulerOutput, hatt]
        · simp only [eulerOutput, hatt]; intro h; cases h
        · simp only [eulerOutput, hatt] at h
          injection h with h
          subst h
          refine ⟨heq, hts1, htsl, _, rfl, ?_, ?_, ?_⟩
          · have := Marches.cons (f := eulerFn m) s.simtime dt target s.f0 (m.step s.simtime dt s.f0) [] (by
              rw [heq]; exact .nil _ _)
            exact this
          · intro x hx
            rcases List.mem_singleton.1 hx with rfl
            exact ⟨hd, heq.le⟩
          · intro l1 x l2 t y he hmar
            cases l1 with
            | nil =>
              cases hmar
              simp only [List.nil_append, List.cons.injEq] at he
              rw [← he.1]
              exact hlim
            | cons z l1 =>
              simp only [List.cons_append, List.cons.injEq] at he
              have := congrArg List.length he.2
              simp at this

/-- **C26.** The Euler solver with CFL limiting, over one output interval on any number of ranks: all ranks agree on
the outcome; within `mxstep + 1` steps the output time is reached or the "MXSTEP exceeded" exception is thrown; and if
it is reached, the state has been advanced by a chain of Euler steps from the current time to exactly the output time,
the clock advancing with each by the size of the step actually taken, and no step is larger than any limit that any
rank had set for it (`setMaxTimestep(d)` calls made at the time and state from which the step starts), divided by
`cfl_factor`.  Needs positive limits and `cfl_factor`, and a right-hand side that sets the same limits when it is
evaluated again at the same time and state. -/
theorem C26_euler_cfl {p : Nat} (m : Euler K σ (p + 1)) (hc : 0 < m.cfl_factor) (hl : PositiveLimits m) (T : K)
    (hT : 0 < T) (s : St K σ) (hts : 0 < s.timestep) (fuel : Nat) (hf : m.mxstep < fuel) :
    (∀ q q', eulerOutput m q (s.simtime + T) fuel { s with internal_steps := 0 } =
      eulerOutput m q' (s.simtime + T) fuel { s with internal_steps := 0 }) ∧
    ∀ q, eulerOutput m q (s.simtime + T) fuel { s with internal_steps := 0 } ≠ .outOfFuel ∧
      ∀ s', eulerOutput m q (s.simtime + T) fuel { s with internal_steps := 0 } = .done s' →
        s'.simtime = s.simtime + T ∧ ∃ l, s'.taken = s.taken ++ l ∧
          Marches (eulerFn m) s.simtime s.f0 l (s.simtime + T) s'.f0 ∧
          (∀ x ∈ l, 0 < x.2.1 ∧ x.1 ≤ s.simtime + T) ∧
          ∀ l1 x l2 t y, l = l1 ++ x :: l2 → Marches (eulerFn m) s.simtime s.f0 l1 t y →
            ∀ q, ∀ d ∈ m.limits t y q, m.cfl_factor * x.2.1 ≤ d := by
  obtain ⟨a, b, c⟩ := eulerOutput_spec m hc hl (s.simtime + T) fuel { s with internal_steps := 0 }
    (by simpa using hT) hts
  refine ⟨a, fun q => ⟨b (by simp only; omega) (by omega) q, fun s' h => ?_⟩⟩
  obtain ⟨c1, _, _, l, c2, c3, c4, c5⟩ := c q s' h
  exact ⟨c1, l, c2, c3, c4, c5⟩

/-- **C26.** As long as no limit is violated the Euler solver takes the requested step (or what is left of the output
interval), and keeps the requested size. -/
theorem C26_euler_unlimited {p : Nat} (m : Euler K σ (p + 1)) (hc : 0 < m.cfl_factor) (hl : PositiveLimits m)
    (r : Fin (p + 1)) (target : K) (s : St K σ) (h0 : s.simtime < target) (hts : 0 < s.timestep)
    (hmx : s.internal_steps < m.mxstep)
    (hall : ∀ q, ∀ d ∈ m.limits s.simtime s.f0 q, m.cfl_factor * min s.timestep (target - s.simtime) ≤ d) :
    ∃ s' running, eulerAttempt m r target s = .accept s' running ∧ s'.timestep = s.timestep ∧
      s'.simtime = s.simtime + min s.timestep (target - s.simtime) ∧
      s'.f0 = m.step s.simtime (min s.timestep (target - s.simtime)) s.f0 := by
  obtain ⟨dt, ts, b, _, _, _, _, _, hu, _, _, hatt⟩ := eulerAttempt_spec m hc hl r target s h0 hts
  obtain ⟨rfl, rfl⟩ := hu hall
  have := hatt r
  rw [if_neg (by omega)] at this
  exact ⟨_, b, this, rfl, rfl, rfl⟩

/-! ## Concrete cases -/

/-- `y' = y`, fixed step 2/5 over an interval of 1: steps 2/5, 2/5, 1/5. -/
def demoMethod : Method ℚ (Fin 1 → ℚ) := rk4Method false 1 1 0 0 (fun t _ _ => t) (fun _ y => y)

def demoState : St ℚ (Fin 1 → ℚ) := ⟨0, 2/5, fun _ => 1, 0, []⟩

example : Positive demoMethod := fun a _ _ h _ => h

def dtsOf {σ : Type} : Res (St ℚ σ) → Option (ℚ × List ℚ)
  | .done s => some (s.simtime, s.taken.map (fun x => x.2.1))
  | _ => none

example : dtsOf (outputLoop demoMethod 1 3 demoState) = some (1, [2/5, 2/5, 1/5]) := by decide +kernel

/-- Adaptive stepping: with `rtol = 1/1000` the first try (1/2) is rejected and the step halved. -/
def demoAdaptive : Method ℚ (Fin 1 → ℚ) :=
  rk4Method true (1/1000) (1/100000) (1/2) 100 (fun t _ e => if e > 1/100000 then t / 2 else t * 2) (fun _ y => fun i => 8 * y i)

example : Positive demoAdaptive := by
  intro a b e ha _
  simp only [demoAdaptive, rk4Method]
  split_ifs <;> linarith

example : (dtsOf (outputLoop demoAdaptive 1 101 ⟨0, 1/2, fun _ => 1, 0, []⟩)).isSome = true := by decide +kernel

/-- Euler on two ranks, one of which asks for a time step below 1/5 with `cfl_factor = 2`. -/
def demoEuler : Euler ℚ (Fin 1 → ℚ) 2 :=
  { step := fun t dt y => eulerStep (fun _ y => y) t dt y, limits := fun _ _ r => if r = 1 then [2/5] else [1, 3],
    cfl_factor := 2, mxstep := 500 }

example : 0 < demoEuler.cfl_factor ∧ PositiveLimits demoEuler := by
  refine ⟨by decide +kernel, ?_⟩
  intro t y r d hd
  simp only [demoEuler] at hd
  split_ifs at hd <;> simp only [List.mem_cons, List.not_mem_nil, or_false] at hd
  · rw [hd]; norm_num
  · rcases hd with rfl | rfl <;> norm_num

example : dtsOf (eulerOutput demoEuler 0 (1/2) 501 ⟨0, 1/4, fun _ => 1, 0, []⟩) =
    some (1/2, [99/500, 99/500, 1/2 - 99/250]) := by decide +kernel

/-- The time step given to start with is not compared with `max_timestep`: a first step larger than the maximum. -/
theorem C26_initial_timestep_violated :
    ∃ (m : Method ℚ (Fin 1 → ℚ)) (s : St ℚ (Fin 1 → ℚ)), Positive m ∧ 0 < m.max_timestep ∧ 0 < s.timestep ∧
      dtsOf (outputLoop m 10 101 s) = some (10, [10]) ∧ m.max_timestep < 10 := by
  refine ⟨rk4Method true 1 1 1 100 (fun t _ _ => t) (fun _ _ _ => 0), ⟨0, 20, fun _ => 1, 0, []⟩,
    fun a _ _ h _ => h, by decide +kernel, by decide +kernel, by decide +kernel, by decide +kernel⟩

end Verif.RK
