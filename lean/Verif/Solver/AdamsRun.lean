import Verif.Solver.AdamsQuad
import Verif.Solver.RunProps

/-! # C59: runs of the Adams-Bashforth solver -/
namespace Verif.AB
open Polynomial
open Verif.RK (Rhs chooseDt chooseDt_cases)

variable {K : Type} [Field K] [LinearOrder K] [IsStrictOrderedRing K] {n : Nat}

/-! ## Specification -/

/-- `w` are Adams-Bashforth weights of that order for a step from `a` to `b` with the given times (exact on polynomials). -/
def Weights (times : List K) (a b : K) (order : Nat) (w : Nat → K) : Prop := order ≤ 8 → Exact (pts times) a b order w

/-- `y` plus the weighted sum of the newest `order` derivatives. -/
def combine (y : Fin n → K) (w : Nat → K) (ds : List (Fin n → K)) (order : Nat) : Fin n → K :=
  fun i => y i + ∑ j ∈ Finset.range order, w j * hist ds j i

/-- **Specification of one step.** From state `y` at the newest of `times`, with the derivatives `ds` at `times`: a full step, or (adaptive
and following the more accurate solution) two half steps with the derivative in the middle taken at a state predicted with weights of
the same order or one more. -/
inductive IsABStep (p : Params K) (rhs : Rhs K n) (times : List K) (ds : List (Fin n → K)) (t : K) (y : Fin n → K) (dt : K)
    (order : Nat) : (Fin n → K) → Prop
  | full (w : Nat → K) (hp : ¬ (p.adaptive = true ∧ p.followHighOrder = true)) (hw : Weights times t (t + dt) order w) :
      IsABStep p rhs times ds t y dt order (combine y w ds order)
  | halves (w w1 w2 : Nat → K) (o : Nat) (ho : o = order ∨ o = order + 1) (hol : o ≤ times.length)
      (hp : p.adaptive = true ∧ p.followHighOrder = true)
      (hw : Weights times t (t + dt / 2) o w) (hw1 : Weights times t (t + dt / 2) order w1)
      (hw2 : Weights ((t + dt / 2) :: times) (t + dt / 2) (t + dt) order w2) :
      IsABStep p rhs times ds t y dt order
        (combine (combine y w1 ds order) w2 (rhs (t + dt / 2) (combine y w ds o) :: ds) order)

/-- The times at which the steps started, newest first. -/
def startTimes (l : List (Taken K n)) : List K := l.map (·.t)

/-- The right-hand sides where the steps started. -/
def startRhs (rhs : Rhs K n) (l : List (Taken K n)) : List (Fin n → K) := l.map fun k => rhs k.t k.y

/-- What is required of every step of a run, given the steps before it. -/
structure StepOK (p : Params K) (rhs : Rhs K n) (past : List (Taken K n)) (k : Taken K n) (y' : Fin n → K) : Prop where
  dt_pos : 0 < k.dt
  dt_max : k.dt ≤ p.max_timestep
  err : p.adaptive = true → k.err < p.rtol
  order_pos : 1 ≤ k.order
  order_max : k.order ≤ max 1 p.maximum_order
  order_history : k.order ≤ past.length + 1
  /-- without order control the order grows by one each step until it is the requested one -/
  order_ramp : ¬ (p.adaptive = true ∧ p.adaptive_order = true) → k.order = min (past.length + 1) (max 1 p.maximum_order)
  step : IsABStep p rhs (startTimes (k :: past)) (startRhs rhs (k :: past)) k.t k.y k.dt k.order y'

/-- The recorded steps lead from `(t0, y0)` to `(t, y)`. -/
inductive Marched (p : Params K) (rhs : Rhs K n) (t0 : K) (y0 : Fin n → K) : List (Taken K n) → K → (Fin n → K) → Prop
  | nil : Marched p rhs t0 y0 [] t0 y0
  | cons (past : List (Taken K n)) (k : Taken K n) (y' : Fin n → K) (h : Marched p rhs t0 y0 past k.t k.y)
      (hs : StepOK p rhs past k y') : Marched p rhs t0 y0 (k :: past) (k.t + k.dt) y'

/-! ## One step -/

theorem foldl_vec (f : Nat → Fin n → K) (m : Nat) (a : Fin n → K) :
    (List.range m).foldl (fun u j => fun i => u i + f j i) a = fun i => a i + ∑ j ∈ Finset.range m, f j i := by
  induction m with
  | zero => simp
  | succ k ih =>
    rw [List.range_succ, List.foldl_append, ih]
    funext i
    simp [Finset.sum_range_succ, add_assoc]

theorem integrateUpdate_eq (u : Fin n → K) (next : K) (times : List K) (ds : List (Fin n → K)) (order : Nat) (h : order ≤ times.length) :
    integrateUpdate u next times ds order = some (combine u (coefficient next (pts times) order) ds order) := by
  unfold integrateUpdate
  rw [if_pos h, foldl_vec (fun j i => hist ds j i * coefficient next (pts times) order j)]
  congr 1
  funext i
  unfold combine
  congr 1
  apply Finset.sum_congr rfl
  intro j _
  ring

/-- The newest times are those of the longer list. -/
theorem pts_take (l : List K) (m i : Nat) (h : i < m) : pts (l.take m) i = pts l i := by
  unfold pts
  rw [List.getD_eq_getElem?_getD, List.getD_eq_getElem?_getD, List.getElem?_take_of_lt h]

theorem hist_take (l : List (Fin n → K)) (m i : Nat) (h : i < m) : hist (l.take m) i = hist l i := by
  unfold hist
  rw [List.getD_eq_getElem?_getD, List.getD_eq_getElem?_getD, List.getElem?_take_of_lt h]

/-- The coefficients look only at the newest `order` times (up to order 8), so they are weights. -/
theorem weights_of (times : List K) (a b : K) (order : Nat) (h1 : 1 ≤ order) (hl : order ≤ times.length)
    (hd : times.Pairwise (fun x y => y < x)) (ha : pts times 0 = a) : Weights times a b order (coefficient b (pts times) order) := by
  intro h8
  rw [← ha]
  apply C59_weights _ _ _ h1 h8
  intro i j hi hj he
  have hget : ∀ i, i < order → ∃ h : i < times.length, pts times i = times[i] := by
    intro i hi
    refine ⟨by omega, ?_⟩
    unfold pts
    rw [List.getD_eq_getElem?_getD, List.getElem?_eq_getElem (by omega)]; rfl
  obtain ⟨h1, e1⟩ := hget i hi
  obtain ⟨h2, e2⟩ := hget j hj
  rw [e1, e2] at he
  rw [List.pairwise_iff_getElem] at hd
  rcases Nat.lt_trichotomy i j with hlt | heq | hgt
  · have := hd i j h1 h2 hlt; rw [he] at this; exact absurd this (lt_irrefl _)
  · exact heq
  · have := hd j i h2 h1 hgt; rw [he] at this; exact absurd this (lt_irrefl _)

/-- The predictor state of a higher-order half step. -/
def midDeriv (rhs : Rhs K n) (s : St K n) (dt : K) (o : Nat) : Fin n → K :=
  rhs (s.simtime + dt / 2) (combine s.state (coefficient (s.simtime + dt / 2) (pts s.times) o) s.history o)

/-- Closed form of `take_step`. -/
theorem takeStep_eq (p : Params K) (rhs : Rhs K n) (s : St K n) (dt : K) (order : Nat) (hl : order ≤ s.times.length) :
    takeStep p rhs s s.simtime dt order =
      let full := combine s.state (coefficient (s.simtime + dt) (pts s.times) order) s.history order
      let d := if order = s.current_order then midDeriv rhs s dt order else s.derivs
      let halves := combine (combine s.state (coefficient (s.simtime + dt / 2) (pts s.times) order) s.history order)
        (coefficient (s.simtime + dt) (pts ((s.simtime + dt / 2) :: s.times)) order) (d :: s.history) order
      if p.adaptive then
        some (if p.followHighOrder then halves else full, getError (fun i => full i - s.state i) (fun i => halves i - s.state i), d)
      else some (full, 0, s.derivs) := by
  have hz : ∀ (u v : Fin n → K) (w : Nat → K) (ds : List (Fin n → K)) (o : Nat), (fun i => u i + combine v w ds o i) = combine (fun i => u i + v i) w ds o := by
    intro u v w ds o
    funext i
    unfold combine
    ring
  have h0 : (fun i => s.state i + (0 : Fin n → K) i) = s.state := by funext i; simp
  have hsub : ∀ (u : Fin n → K) (w : Nat → K) (ds : List (Fin n → K)) (o : Nat), (fun i => combine u w ds o i - s.state i) = combine (fun i => u i - s.state i) w ds o := by
    intro u w ds o
    funext i
    unfold combine
    ring
  have hself : (fun i => s.state i - s.state i) = (0 : Fin n → K) := by funext i; simp
  unfold takeStep integrate
  rw [integrateUpdate_eq _ _ _ _ _ hl, integrateUpdate_eq _ _ _ _ _ hl]
  simp only [bind, Option.bind]
  rw [show s.simtime + dt * (1 / 2) = s.simtime + dt / 2 by ring, show s.simtime + 1 / 2 * dt = s.simtime + dt / 2 by ring]
  rw [integrateUpdate_eq _ _ _ _ _ (by rw [List.length_cons]; omega)]
  simp only [hz, h0, hsub, hself]
  unfold midDeriv
  rfl

theorem getError_nonneg (a b : Fin n → K) : 0 ≤ getError a b := by
  unfold getError
  have : ∀ (l : List (Fin n)) (m : K), 0 ≤ m → 0 ≤ l.foldl (fun m i => max |b i - a i| m) m := by
    intro l
    induction l with
    | nil => intro m h; exact h
    | cons x l ih => intro m h; exact ih _ (le_max_of_le_right h)
  exact this _ 0 (le_refl _)

/-- What is used of `exp(-log(err/rtol)/order)`: it is positive, and exceeds one exactly if the error is below the tolerance. -/
structure LimOK (p : Params K) : Prop where
  pos : ∀ e o l, p.lim e o = some l → 0 < l
  crit : ∀ e o, 0 ≤ e → 1 ≤ o → (e < p.rtol ↔ ∀ l, p.lim e o = some l → 1 < l)

/-- The state inside a pass of `while (running)`. -/
structure Ready (s : St K n) : Prop where
  newest : pts s.times 0 = s.simtime
  desc : s.times.Pairwise (fun x y => y < x)
  order_pos : 1 ≤ s.current_order
  order_len : s.current_order ≤ s.times.length
  ts : 0 < s.timestep

/-- The parts of the state a pass leaves alone. -/
def Same (s s' : St K n) : Prop :=
  s'.simtime = s.simtime ∧ s'.times = s.times ∧ s'.history = s.history ∧ s'.state = s.state ∧ s'.taken = s.taken

theorem desc_cons {s : St K n} (hr : Ready s) {x : K} (hx : s.simtime < x) : (x :: s.times).Pairwise (fun x y => y < x) := by
  rw [List.pairwise_cons]
  refine ⟨fun y hy => ?_, hr.desc⟩
  have hlen := hr.order_len
  have hpos := hr.order_pos
  match hm : s.times with
  | [] => rw [hm] at hy; cases hy
  | a :: l =>
    have ha : a = s.simtime := by
      have := hr.newest
      rw [hm] at this; exact this
    rw [hm] at hy
    have hd := hr.desc
    rw [hm, List.pairwise_cons] at hd
    rcases List.mem_cons.1 hy with h | h
    · rw [h, ha]; exact hx
    · have := hd.1 y h; rw [ha] at this; exact lt_trans this hx

/-- The result of `take_step` is a step of the specification; at the order of the step or, with the derivative of the step of the order
above, one below. -/
theorem takeStep_spec (p : Params K) (rhs : Rhs K n) (s : St K n) (hr : Ready s) (dt : K) (hdt : 0 < dt) (order : Nat) (h1 : 1 ≤ order)
    (hl : order ≤ s.times.length)
    (hd : order = s.current_order ∨ (order + 1 ≤ s.times.length ∧ order ≠ s.current_order ∧ (p.adaptive = true → s.derivs = midDeriv rhs s dt (order + 1)))) :
    ∃ next err d, takeStep p rhs s s.simtime dt order = some (next, err, d) ∧ 0 ≤ err ∧
      IsABStep p rhs s.times s.history s.simtime s.state dt order next ∧
      (p.adaptive = true → order = s.current_order → d = midDeriv rhs s dt order) ∧ (p.adaptive = false → err = 0) := by
  rw [takeStep_eq p rhs s dt order hl]
  have hw : ∀ b o, 1 ≤ o → o ≤ s.times.length → Weights s.times s.simtime b o (coefficient b (pts s.times) o) := fun b o h1 h2 =>
    weights_of s.times s.simtime b o h1 h2 hr.desc hr.newest
  have hw2 : Weights ((s.simtime + dt / 2) :: s.times) (s.simtime + dt / 2) (s.simtime + dt) order
      (coefficient (s.simtime + dt) (pts ((s.simtime + dt / 2) :: s.times)) order) := by
    apply weights_of _ _ _ _ h1
    · rw [List.length_cons]; omega
    · apply desc_cons hr; have := half_pos hdt; linarith
    · rfl
  dsimp only
  cases ha : p.adaptive with
  | false =>
    refine ⟨_, _, _, rfl, le_refl _, ?_, fun h => (nomatch h), fun _ => rfl⟩
    exact IsABStep.full _ (by rw [ha]; simp) (hw _ _ h1 hl)
  | true =>
    rw [if_pos rfl]
    refine ⟨_, _, _, rfl, getError_nonneg _ _, ?_, fun _ h => if_pos h, fun h => (nomatch h)⟩
    cases hf : p.followHighOrder with
    | false =>
      rw [if_neg (by simp)]
      exact IsABStep.full _ (by rw [hf]; simp) (hw _ _ h1 hl)
    | true =>
      rw [if_pos rfl]
      rcases hd with hd | ⟨h2, hne, hd⟩
      · rw [if_pos hd]
        exact IsABStep.halves _ _ _ order (Or.inl rfl) hl ⟨ha, hf⟩ (hw _ _ h1 hl) (hw _ _ h1 hl) hw2
      · rw [if_neg hne, hd ha]
        exact IsABStep.halves _ _ _ (order + 1) (Or.inr rfl) h2 ⟨ha, hf⟩ (hw _ _ (by omega) h2) (hw _ _ h1 hl) hw2

/-- What a pass of the inner loop does. -/
theorem attempt_spec (p : Params K) (rhs : Rhs K n) (hp : LimOK p) (hmax : 0 < p.max_timestep) (target : K) (s : St K n) (hr : Ready s)
    (ht : s.simtime < target) :
    (attempt p rhs target s = .mxstep ∧ p.adaptive = true ∧ p.mxstep ≤ s.internal_steps) ∨
    (∃ s', attempt p rhs target s = .retry s' ∧ Same s s' ∧ Ready s' ∧ p.adaptive = true ∧ s'.current_order = s.current_order ∧
      s'.internal_steps = s.internal_steps + 1 ∧ s.internal_steps < p.mxstep) ∨
    (∃ s' dt err order running low, attempt p rhs target s = .accept s' dt err order running low ∧ Same s s' ∧ 0 < dt ∧
      dt ≤ p.max_timestep ∧ (p.adaptive = true → err < p.rtol) ∧ 0 < s'.timestep ∧
      (running = false → s.simtime + dt = target) ∧ (running = true → s.simtime + dt < target ∧ dt = min s.timestep p.max_timestep) ∧
      order = s'.current_order ∧ 1 ≤ order ∧ (low = false → order = s.current_order) ∧
      (low = true → p.adaptive = true ∧ p.adaptive_order = true) ∧ order ≤ s.current_order ∧
      IsABStep p rhs s.times s.history s.simtime s.state dt order s'.nextState ∧
      (p.adaptive = true → s'.internal_steps = s.internal_steps + 1 ∧ s.internal_steps < p.mxstep) ∧
      (p.adaptive = false → s'.timestep = min s.timestep p.max_timestep)) := by
  have hts : 0 < min s.timestep p.max_timestep := lt_min hr.ts hmax
  have hdt : ∃ dt r, chooseDt target s.simtime (min s.timestep p.max_timestep) = (dt, r) ∧ 0 < dt ∧ dt ≤ p.max_timestep ∧
      (r = false → s.simtime + dt = target) ∧ (r = true → s.simtime + dt < target ∧ dt = min s.timestep p.max_timestep) := by
    rcases chooseDt_cases target s.simtime (min s.timestep p.max_timestep) with ⟨h, h'⟩ | ⟨h, h'⟩
    · refine ⟨_, _, h, by linarith, ?_, fun _ => by ring, fun h => (nomatch h)⟩
      have := min_le_right s.timestep p.max_timestep
      linarith
    · exact ⟨_, _, h, hts, min_le_right _ _, fun h => (nomatch h), fun _ => ⟨h', rfl⟩⟩
  obtain ⟨dt, r, hc, hdpos, hdmax, hrf, hrt⟩ := hdt
  -- the state with the clipped time step
  have hr1 : Ready { s with timestep := min s.timestep p.max_timestep } := ⟨hr.newest, hr.desc, hr.order_pos, hr.order_len, hts⟩
  obtain ⟨next, err, d, htk, herr0, hstep, hmid, hna⟩ := takeStep_spec p rhs _ hr1 dt hdpos s.current_order hr.order_pos hr.order_len (Or.inl rfl)
  unfold attempt
  dsimp only
  rw [hc]
  dsimp only
  dsimp only at htk
  rw [htk]
  dsimp only
  by_cases ha : p.adaptive = false
  · rw [if_pos ha]
    right; right
    refine ⟨_, _, _, _, _, _, rfl, ⟨rfl, rfl, rfl, rfl, rfl⟩, hdpos, hdmax, ?_, hts, hrf, hrt, rfl, hr.order_pos, fun _ => rfl, fun h => (nomatch h), le_refl _, hstep, ?_, fun _ => rfl⟩
    · intro h; rw [ha] at h; cases h
    · intro h; rw [ha] at h; cases h
  · rw [if_neg ha]
    have ha' : p.adaptive = true := by cases h : p.adaptive <;> simp_all
    by_cases hmx : s.internal_steps + 1 > p.mxstep
    · rw [if_pos hmx]
      left
      exact ⟨rfl, ha', by omega⟩
    · rw [if_neg hmx]
      right
      have hgrow : ∀ (e : K) (o : Nat), 0 < (match (p.lim e o).map (dt * ·) with
          | none => min s.timestep p.max_timestep * (11/10) | some l => min (min s.timestep p.max_timestep * (11/10)) l) := by
        intro e o
        have h11 : 0 < min s.timestep p.max_timestep * (11/10) := mul_pos hts (by norm_num)
        cases hl : p.lim e o with
        | none => exact h11
        | some l => exact lt_min h11 (mul_pos hdpos (hp.pos e o l hl))
      by_cases he : err < p.rtol
      · rw [if_pos he]
        right
        by_cases hao : p.adaptive_order = true ∧ s.current_order > 1
        · rw [if_pos hao]
          -- the lower order
          have hr2 : Ready { s with timestep := min s.timestep p.max_timestep, nextState := next, derivs := d, internal_steps := s.internal_steps + 1 } :=
            ⟨hr.newest, hr.desc, hr.order_pos, hr.order_len, hts⟩
          obtain ⟨next', err', d', htk', herr0', hstep', _, _⟩ := takeStep_spec p rhs _ hr2 dt hdpos (s.current_order - 1) (by omega)
            (by have := hr.order_len; show s.current_order - 1 ≤ s.times.length; omega)
            (Or.inr ⟨by have := hr.order_len; show s.current_order - 1 + 1 ≤ s.times.length; omega,
              by show s.current_order - 1 ≠ s.current_order; omega,
              fun _ => by
                have := hmid ha' rfl
                show d = _
                rw [this, show s.current_order - 1 + 1 = s.current_order by omega]
                rfl⟩)
          dsimp only at htk'
          rw [htk']
          dsimp only
          cases hg : limGt ((p.lim err' (s.current_order - 1)).map (dt * ·)) ((p.lim err s.current_order).map (dt * ·)) with
          | true =>
            rw [if_pos rfl]
            refine ⟨_, _, _, _, _, _, rfl, ⟨rfl, rfl, rfl, rfl, rfl⟩, hdpos, hdmax, ?_, hgrow _ _, hrf, hrt, rfl, by omega, fun h => (nomatch h),
              fun _ => ⟨ha', hao.1⟩, by omega, hstep', fun _ => ⟨rfl, by omega⟩, fun h => by rw [ha'] at h; cases h⟩
            intro _
            rw [hp.crit err' (s.current_order - 1) herr0' (by omega)]
            intro l hl
            rw [hl] at hg
            have hcr := (hp.crit err s.current_order herr0 hr.order_pos).1 he
            cases hl2 : p.lim err s.current_order with
            | none => rw [hl2] at hg; cases hg
            | some l2 =>
              rw [hl2] at hg
              have h3 : dt * l2 < dt * l := of_decide_eq_true hg
              have h4 := hcr l2 hl2
              have h5 : l2 < l := lt_of_mul_lt_mul_left h3 hdpos.le
              exact lt_trans h4 h5
          | false =>
            rw [if_neg (by simp)]
            exact ⟨_, _, _, _, _, _, rfl, ⟨rfl, rfl, rfl, rfl, rfl⟩, hdpos, hdmax, fun _ => he, hgrow _ _, hrf, hrt, rfl, hr.order_pos, fun _ => rfl,
              fun h => (nomatch h), le_refl _, hstep, fun _ => ⟨rfl, by omega⟩, fun h => by rw [ha'] at h; cases h⟩
        · rw [if_neg hao]
          exact ⟨_, _, _, _, _, _, rfl, ⟨rfl, rfl, rfl, rfl, rfl⟩, hdpos, hdmax, fun _ => he, hgrow _ _, hrf, hrt, rfl, hr.order_pos, fun _ => rfl,
            fun h => (nomatch h), le_refl _, hstep, fun _ => ⟨rfl, by omega⟩, fun h => by rw [ha'] at h; cases h⟩
      · rw [if_neg he]
        left
        refine ⟨_, rfl, ⟨rfl, rfl, rfl, rfl, rfl⟩, ⟨hr.newest, hr.desc, hr.order_pos, hr.order_len, ?_⟩, ha', rfl, rfl, by omega⟩
        dsimp only
        cases hl : p.lim err s.current_order with
        | none => exact hmax
        | some l => exact mul_pos (by norm_num) (mul_pos hdpos (hp.pos _ _ l hl))

end Verif.AB
