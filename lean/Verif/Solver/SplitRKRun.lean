import Verif.Solver.SplitRK
import Mathlib.Algebra.Order.Ring.Cast
import Mathlib.Tactic.Linarith
import Mathlib.Tactic.Ring
import Mathlib.Tactic.FieldSimp
import Mathlib.Algebra.Order.Field.Rat

/-!
# C60: the run loop of the split Runge-Kutta solver
-/
namespace Verif.SplitRK

variable {K σ : Type} [Field K] [LinearOrder K] [IsStrictOrderedRing K]

/-- What the run may do to time and state: accepted pairs of half steps, and unchecked full steps whose advance of the time `dt` and step of
the scheme `h` are related by `ok`. -/
inductive Reaches (p : Params K σ) (ok : K → K → Prop) : K → σ → K → σ → Prop where
  | refl (t : K) (y : σ) : Reaches p ok t y t y
  | full (t : K) (y : σ) (dt h : K) (t' : K) (y' : σ) (hd : 0 < dt) (ho : ok dt h)
      (r : Reaches p ok (t + dt) (p.step t h y) t' y') : Reaches p ok t y t' y'
  | halves (t : K) (y : σ) (dt : K) (t' : K) (y' : σ) (hd : 0 < dt)
      (he : p.errorOf (p.step t dt y) (p.step (t + 1/2 * dt) (1/2 * dt) (p.step t (1/2 * dt) y)) < p.rtol)
      (r : Reaches p ok (t + dt) (p.step (t + 1/2 * dt) (1/2 * dt) (p.step t (1/2 * dt) y)) t' y') : Reaches p ok t y t' y'

theorem Reaches.trans {p : Params K σ} {ok : K → K → Prop} {t0 t1 t2 : K} {y0 y1 y2 : σ} (h : Reaches p ok t0 y0 t1 y1)
    (h' : Reaches p ok t1 y1 t2 y2) : Reaches p ok t0 y0 t2 y2 := by
  induction h with
  | refl => exact h'
  | full t y dt h _ _ hd ho _ ih => exact .full t y dt h _ _ hd ho (ih h')
  | halves t y dt _ _ hd he _ ih => exact .halves t y dt _ _ hd he (ih h')

/-- What a pass chooses: the step is positive and ends at the target exactly when the pass is the last one. -/
theorem chooseDt_spec (p : Params K σ) (hrd : p.rd = id) (target t ts : K) (h0 : t < target) (hts : 0 < ts) :
    0 < (chooseDt p target t ts).1 ∧ (chooseDt p target t ts).1 ≤ ts ∧
      ((chooseDt p target t ts).2 = true → t + (chooseDt p target t ts).1 < target) ∧
      ((chooseDt p target t ts).2 = false → t + (chooseDt p target t ts).1 = target) := by
  unfold chooseDt
  rw [hrd]
  simp only [id_eq, ge_iff_le]
  by_cases h : target ≤ t + ts
  · rw [if_pos h]
    refine ⟨by simpa using h0, by simp only; linarith, by simp, fun _ => by simp⟩
  · rw [if_neg h]
    exact ⟨hts, le_refl _, fun _ => by simpa using h, by simp⟩

/-- Steps up to an output. -/
theorem outputLoop_spec (p : Params K σ) (hrd : p.rd = id) (hadapt : ∀ a e, 0 < a → 0 < p.adapt a e) (ok : K → K → Prop) (target : K)
    (hok : ¬(p.adaptive = true ∧ p.adapt_period = 1) → ∀ dt h, 0 < dt → dt ≤ h → ok dt h) (k : Nat) :
    ∀ (inner : Bool) (s s' : St K σ), s.simtime < target → 0 < s.timestep → outputLoop p target k inner s = .done s' →
      s'.simtime = target ∧ 0 < s'.timestep ∧ Reaches p ok s.simtime s.state s'.simtime s'.state := by
  induction k with
  | zero => intro inner s s' _ _ h; cases h
  | succ k ih =>
    intro inner s s' h0 hts h
    rw [outputLoop] at h
    obtain ⟨c1, c2, c3, c4⟩ := chooseDt_spec p hrd target s.simtime s.timestep h0 hts
    by_cases hc : inner = true ∨ (p.adaptive = true ∧ s.internal_steps % p.adapt_period = 0)
    · rw [if_pos hc] at h
      unfold adaptiveTry at h
      dsimp only at h
      have hnew : 0 < (if p.errorOf (p.step s.simtime (chooseDt p target s.simtime s.timestep).1 s.state)
            (p.step (p.rd (s.simtime + 1/2 * (chooseDt p target s.simtime s.timestep).1)) (1/2 * (chooseDt p target s.simtime s.timestep).1)
              (p.step s.simtime (1/2 * (chooseDt p target s.simtime s.timestep).1) s.state)) > p.rtol ∨
          p.errorOf (p.step s.simtime (chooseDt p target s.simtime s.timestep).1 s.state)
            (p.step (p.rd (s.simtime + 1/2 * (chooseDt p target s.simtime s.timestep).1)) (1/2 * (chooseDt p target s.simtime s.timestep).1)
              (p.step s.simtime (1/2 * (chooseDt p target s.simtime s.timestep).1) s.state)) < 1/10 * p.rtol
          then p.adapt s.timestep (p.errorOf (p.step s.simtime (chooseDt p target s.simtime s.timestep).1 s.state)
            (p.step (p.rd (s.simtime + 1/2 * (chooseDt p target s.simtime s.timestep).1)) (1/2 * (chooseDt p target s.simtime s.timestep).1)
              (p.step s.simtime (1/2 * (chooseDt p target s.simtime s.timestep).1) s.state))) else s.timestep) := by
        split
        · exact hadapt _ _ hts
        · exact hts
      generalize hcd : chooseDt p target s.simtime s.timestep = c at *
      by_cases hm : s.internal_steps + 1 > p.mxstep
      · rw [if_pos hm] at h; cases h
      · rw [if_neg hm] at h
        by_cases he : p.errorOf (p.step s.simtime c.1 s.state) (p.step (p.rd (s.simtime + 1/2 * c.1)) (1/2 * c.1) (p.step s.simtime (1/2 * c.1) s.state)) < p.rtol
        · rw [if_pos he] at h
          rw [hrd] at he h hnew
          simp only [id_eq] at he h hnew
          cases hr : c.2 with
          | true =>
            rw [hr] at h
            dsimp only at h
            obtain ⟨e1, e2, e3⟩ := ih false _ s' (c3 hr) hnew h
            exact ⟨e1, e2, .halves _ _ c.1 _ _ c1 he e3⟩
          | false =>
            rw [hr] at h
            dsimp only at h
            simp only [Res.done.injEq] at h
            subst h
            exact ⟨c4 hr, hnew, .halves _ _ c.1 _ _ c1 he (.refl _ _)⟩
        · rw [if_neg he] at h
          dsimp only at h
          have := ih true { s with timestep := _, internal_steps := s.internal_steps + 1 } s' h0 hnew h
          exact this
    · rw [if_neg hc] at h
      unfold fixedStep at h
      dsimp only at h
      generalize hcd : chooseDt p target s.simtime s.timestep = c at *
      rw [hrd] at h
      simp only [id_eq] at h
      have hno : ¬(p.adaptive = true ∧ p.adapt_period = 1) := by
        rintro ⟨h1, h2⟩
        exact hc (.inr ⟨h1, by rw [h2]; exact Nat.mod_one _⟩)
      have hok' := hok hno c.1 s.timestep c1 c2
      cases hr : c.2 with
      | true =>
        rw [hr] at h
        dsimp only at h
        obtain ⟨e1, e2, e3⟩ := ih false ⟨s.simtime + c.1, s.timestep, p.step s.simtime s.timestep s.state, _, _⟩ s' (c3 hr) hts h
        exact ⟨e1, e2, .full _ _ c.1 _ _ _ c1 hok' e3⟩
      | false =>
        rw [hr] at h
        dsimp only at h
        simp only [Res.done.injEq] at h
        subst h
        exact ⟨c4 hr, hts, .full _ _ c.1 _ _ _ c1 hok' (.refl _ _)⟩

theorem runLoop_spec (p : Params K σ) (hrd : p.rd = id) (hadapt : ∀ a e, 0 < a → 0 < p.adapt a e) (ok : K → K → Prop)
    (hok : ¬(p.adaptive = true ∧ p.adapt_period = 1) → ∀ dt h, 0 < dt → dt ≤ h → ok dt h) (T : K) (hT : 0 < T) (fuel : Nat)
    (mon : Nat → K → σ → Bool) (todo : Nat) :
    ∀ (i : Nat) (s s' : St K σ) (calls res : List (K × σ)), 0 < s.timestep → runLoop p T fuel mon todo i s calls = .done (s', res) →
      ∃ new, res = calls ++ new ∧ new.length ≤ todo ∧
        (∀ j (hj : j < new.length), (new[j]).1 = s.simtime + (j + 1 : Nat) * T ∧ Reaches p ok s.simtime s.state (new[j]).1 (new[j]).2) ∧
        (new.length < todo → ∃ j, ∃ hj : j < new.length, j + 1 = new.length ∧ mon (i + j) (new[j]).1 (new[j]).2 = true) ∧
        (∀ j (hj : j < new.length), j + 1 < new.length → mon (i + j) (new[j]).1 (new[j]).2 = false) := by
  induction todo with
  | zero =>
    intro i s s' calls res _ h
    rw [runLoop] at h
    simp only [Res.done.injEq, Prod.mk.injEq] at h
    exact ⟨[], by rw [← h.2, List.append_nil], by simp, fun j hj => absurd hj (by simp), by simp, fun j hj => absurd hj (by simp)⟩
  | succ todo ih =>
    intro i s s' calls res hts h
    rw [runLoop, hrd] at h
    simp only [id_eq] at h
    cases ho : outputLoop p (s.simtime + T) fuel false { s with internal_steps := 0 } with
    | outOfFuel => rw [ho] at h; cases h
    | thrown => rw [ho] at h; cases h
    | done s1 =>
      rw [ho] at h
      obtain ⟨e1, e2, e3⟩ := outputLoop_spec p hrd hadapt ok _ hok fuel false ⟨s.simtime, s.timestep, s.state, 0, s.taken⟩ s1 (by show s.simtime < s.simtime + T; linarith) hts ho
      dsimp only at h e3
      by_cases hm : mon i s1.simtime s1.state = true
      · rw [if_pos hm] at h
        simp only [Res.done.injEq, Prod.mk.injEq] at h
        refine ⟨[(s1.simtime, s1.state)], h.2.symm, by simp, ?_, ?_, ?_⟩
        · intro j hj
          have : j = 0 := by simpa using hj
          subst this
          refine ⟨?_, e3⟩
          show s1.simtime = _
          rw [e1]; push_cast; ring
        · intro _
          exact ⟨0, by simp, rfl, hm⟩
        · intro j hj hj'
          simp at hj'
      · rw [if_neg hm] at h
        obtain ⟨new, n1, n2, n3, n4, n5⟩ := ih (i + 1) s1 s' _ res e2 h
        refine ⟨(s1.simtime, s1.state) :: new, by rw [n1]; simp, by simp; exact n2, ?_, ?_, ?_⟩
        · intro j hj
          match j with
          | 0 =>
            refine ⟨?_, e3⟩
            show s1.simtime = _
            rw [e1]; push_cast; ring
          | j + 1 =>
            obtain ⟨x, z⟩ := n3 j (by simpa using hj)
            refine ⟨?_, e3.trans z⟩
            show (new[j]'(by simpa using hj)).1 = _
            rw [x, e1]; push_cast; ring
        · intro hl
          obtain ⟨j, hj, hj1, hj2⟩ := n4 (by simpa using hl)
          refine ⟨j + 1, by simpa using hj, by simpa using hj1, ?_⟩
          rw [show i + (j + 1) = i + 1 + j by omega]
          exact hj2
        · intro j hj hj'
          match j with
          | 0 => simpa using hm
          | j + 1 =>
            have := n5 j (by simpa using hj) (by simpa using hj')
            rw [show i + (j + 1) = i + 1 + j by omega]
            exact this

/-- **C60, run.** The monitors are called at the exact output times, in order, until the last output or the first monitor that asks to stop;
every state handed to them is reached from the first by steps that follow each other in time.  When each step is checked
(`adapt_period = 1`) all of them are accepted pairs of half steps. -/
theorem C60_run (p : Params K σ) (hrd : p.rd = id) (hadapt : ∀ a e, 0 < a → 0 < p.adapt a e) (T : K) (hT : 0 < T) (fuel nout : Nat)
    (mon : Nat → K → σ → Bool) (s s' : St K σ) (calls : List (K × σ)) (hts : 0 < s.timestep)
    (h : runLoop p T fuel mon nout 0 s [] = .done (s', calls)) :
    calls.length ≤ nout ∧
      (∀ j (hj : j < calls.length), (calls[j]).1 = s.simtime + (j + 1 : Nat) * T ∧
        Reaches p (fun dt h => dt ≤ h) s.simtime s.state (calls[j]).1 (calls[j]).2) ∧
      (p.adaptive = true ∧ p.adapt_period = 1 → ∀ j (hj : j < calls.length),
        Reaches p (fun _ _ => False) s.simtime s.state (calls[j]).1 (calls[j]).2) ∧
      (calls.length < nout → ∃ j, ∃ hj : j < calls.length, j + 1 = calls.length ∧ mon j (calls[j]).1 (calls[j]).2 = true) ∧
      (∀ j (hj : j < calls.length), j + 1 < calls.length → mon j (calls[j]).1 (calls[j]).2 = false) := by
  obtain ⟨new, d1, d2, d3, d4, d5⟩ := runLoop_spec p hrd hadapt (fun dt h => dt ≤ h) (fun _ _ _ _ h => h) T hT fuel mon nout 0 s s' [] calls hts h
  simp only [List.nil_append] at d1
  subst d1
  simp only [Nat.zero_add] at d4 d5
  refine ⟨d2, d3, ?_, d4, d5⟩
  intro hp j hj
  obtain ⟨new', f1, -, f3, -, -⟩ := runLoop_spec p hrd hadapt (fun _ _ => False) (fun hn => absurd hp hn) T hT fuel mon nout 0 s s' [] _ hts h
  simp only [List.nil_append] at f1
  subst f1
  exact (f3 j hj).2

theorem outputLoop_ends (p : Params K σ) (ha : p.adaptive = true) (m : Nat) (hm1 : p.adapt_period ∣ m) (hm2 : p.mxstep ≤ m) (target : K) (fuel : Nat) :
    ∀ (s : St K σ) (inner : Bool), m + 1 ≤ fuel + s.internal_steps → s.internal_steps ≤ m →
    outputLoop p target fuel inner s = .thrown ∨ ∃ s', outputLoop p target fuel inner s = .done s' := by
  induction fuel with
  | zero => intro s inner h1 h2; omega
  | succ k ih =>
    intro s inner h1 h2
    rw [outputLoop]
    by_cases hc : inner = true ∨ (p.adaptive = true ∧ s.internal_steps % p.adapt_period = 0)
    · rw [if_pos hc]
      unfold adaptiveTry
      dsimp only
      by_cases hm : s.internal_steps + 1 > p.mxstep
      · rw [if_pos hm]; exact .inl rfl
      · rw [if_neg hm]
        by_cases he : p.errorOf (p.step s.simtime (chooseDt p target s.simtime s.timestep).1 s.state)
            (p.step (p.rd (s.simtime + 1/2 * (chooseDt p target s.simtime s.timestep).1)) (1/2 * (chooseDt p target s.simtime s.timestep).1)
              (p.step s.simtime (1/2 * (chooseDt p target s.simtime s.timestep).1) s.state)) < p.rtol
        · rw [if_pos he]
          cases (chooseDt p target s.simtime s.timestep).2
          · exact .inr ⟨_, rfl⟩
          · exact ih _ _ (by show m + 1 ≤ k + (s.internal_steps + 1); omega) (by show s.internal_steps + 1 ≤ m; omega)
        · rw [if_neg he]
          exact ih _ _ (by show m + 1 ≤ k + (s.internal_steps + 1); omega) (by show s.internal_steps + 1 ≤ m; omega)
    · rw [if_neg hc]
      unfold fixedStep
      dsimp only
      have hlt : s.internal_steps ≠ m := by
        intro h
        exact hc (.inr ⟨ha, by rw [h]; exact Nat.mod_eq_zero_of_dvd hm1⟩)
      cases (chooseDt p target s.simtime s.timestep).2
      · exact .inr ⟨_, rfl⟩
      · exact ih _ _ (by show m + 1 ≤ k + (s.internal_steps + 1); omega) (by show s.internal_steps + 1 ≤ m; omega)

/-- **C60, the adaptive loop always ends**, with the output reached or the exception for too many steps. -/
theorem C60_adaptive_ends (p : Params K σ) (ha : p.adaptive = true) (hp : 0 < p.adapt_period) (target : K) (s : St K σ) (h0 : s.internal_steps = 0) :
    outputLoop p target (p.mxstep + p.adapt_period + 1) false s = .thrown ∨
      ∃ s', outputLoop p target (p.mxstep + p.adapt_period + 1) false s = .done s' := by
  have hd := Nat.div_add_mod p.mxstep p.adapt_period
  have hl := Nat.mod_lt p.mxstep hp
  have hmul : p.adapt_period * (p.mxstep / p.adapt_period + 1) = p.adapt_period * (p.mxstep / p.adapt_period) + p.adapt_period := by ring
  apply outputLoop_ends p ha (p.adapt_period * (p.mxstep / p.adapt_period + 1)) ⟨_, rfl⟩
  · omega
  · omega
  · omega

end Verif.SplitRK
