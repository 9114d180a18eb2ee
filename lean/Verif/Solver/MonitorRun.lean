/-
C24: the theorems about monitors.
-/
import Verif.Solver.MonitorProps

namespace Verif.Solver

theorem hyp_close {T : Nat → ℚ} (hT : ∀ i, T i ≠ 0) :
    ∀ i, T i < 0 ∨ (0 < T i ∧ (fun _ : ℚ => True) (T i)) := by
  intro i
  rcases lt_trichotomy (T i) 0 with h | h | h
  · exact .inl h
  · exact absurd h (hT i)
  · exact .inr ⟨h, trivial⟩

theorem finalise_mons {chk : Bool} {N N' : Int} {dt dt' : ℚ} {s s' : State}
    (hs : finaliseMonitorPeriods chk N dt s = .ok (s', N', dt')) : s'.mons = s.mons := by
  unfold finaliseMonitorPeriods at hs
  unfold syncTimestep at hs
  split at hs
  · simp at hs
  · rename_i s1 _ _ h1
    simp only [Except.ok.injEq, Prod.mk.injEq] at hs
    obtain ⟨rfl, -, -⟩ := hs
    split at h1
    · split at h1
      · simp at h1
      · simp at h1
      · split at h1 <;>
        · simp only [Except.ok.injEq, Prod.mk.injEq] at h1
          obtain ⟨rfl, -, -⟩ := h1
          rfl
    · simp only [Except.ok.injEq, Prod.mk.injEq] at h1
      obtain ⟨rfl, -, -⟩ := h1
      rfl

/-- **C24.** Whatever monitors are added (each at most once) and removed, in whatever order:
if `finaliseMonitorPeriods` accepts them, the run is cut into steps `dt'` of which a whole
number `q` makes an output step, and every monitor has a whole number of steps as its period,
equal to its timestep (or the output step, if it has none) up to the tolerance of `isMultiple`
per operation. -/
theorem C24_periods (chk : Bool) (T : Nat → ℚ) (hT : ∀ i, T i ≠ 0) (ops : List Op)
    (hn : (added ops).Nodup) (n0 : Int) (dt0 : ℚ) (N N' : Int) (dt dt' : ℚ) (hdt : 0 < dt) (s' : State)
    (hs : finaliseMonitorPeriods chk N dt (runOps chk (State.new T n0 dt0) ops) = .ok (s', N', dt')) :
    0 < dt' ∧ (∃ q : Int, 0 < q ∧ N' = N * q ∧ Close 1 (q * dt') dt) ∧
    ∀ i ∈ s'.mons, 0 < (s'.mem i).period ∧
      Close (ops.length + 1) ((s'.mem i).period * dt') (wanted T dt i) := by
  obtain ⟨A, h⟩ := inv_run (law_close chk) (hyp_close hT) ops (inv_new _ _ T n0 dt0) hn (by simp)
  rw [Nat.zero_add] at h
  have := finalise_spec (law_close chk) (hyp_close hT) h hdt trivial hs
  rw [finalise_mons hs]
  exact ⟨this.2.2.2.1, this.2.2.2.2.1, this.2.2.2.2.2.2⟩

theorem hyp_grid {T : Nat → ℚ} {u : ℚ} (hu : 0 < u)
    (hT : ∀ i, T i < 0 ∨ (T i ≠ 0 ∧ Grid u (T i))) : ∀ i, T i < 0 ∨ (0 < T i ∧ Grid u (T i)) := by
  intro i
  rcases hT i with h | ⟨h, g⟩
  · exact .inl h
  · obtain ⟨n, _, hn⟩ := id g
    have : 0 ≤ T i := by rw [hn]; positivity
    exact .inr ⟨lt_of_le_of_ne this (Ne.symm h), g⟩

/-- **C24.** The same for timesteps that are multiples of a common unit, at most 10¹² of them:
periods are exact, and so is the number of steps in an output step. -/
theorem C24_periods_exact (chk : Bool) (u : ℚ) (hu : 0 < u) (T : Nat → ℚ)
    (hT : ∀ i, T i < 0 ∨ (T i ≠ 0 ∧ Grid u (T i))) (ops : List Op)
    (hn : (added ops).Nodup) (n0 : Int) (dt0 : ℚ) (N N' : Int) (dt dt' : ℚ) (hdt : 0 < dt)
    (hg : Grid u dt) (s' : State)
    (hs : finaliseMonitorPeriods chk N dt (runOps chk (State.new T n0 dt0) ops) = .ok (s', N', dt')) :
    0 < dt' ∧ (∃ q : Int, 0 < q ∧ N' = N * q ∧ q * dt' = dt) ∧
    ∀ i ∈ s'.mons, 0 < (s'.mem i).period ∧ (s'.mem i).period * dt' = wanted T dt i := by
  obtain ⟨A, h⟩ := inv_run (law_exact chk u hu) (hyp_grid hu hT) ops (inv_new _ _ T n0 dt0) hn (by simp)
  have := finalise_spec (law_exact chk u hu) (hyp_grid hu hT) h hdt hg hs
  rw [finalise_mons hs]
  exact ⟨this.2.2.2.1, this.2.2.2.2.1, this.2.2.2.2.2.2⟩

/-! ### Calls -/

/-- The calls of monitor `i` among the events. -/
def callsOf (i : Nat) (l : List Ev) : List Call :=
  l.filterMap fun e => match e with
    | .call c => if c.id = i then some c else none
    | .cleanup _ => none

theorem callsOf_append (i : Nat) (a b : List Ev) : callsOf i (a ++ b) = callsOf i a ++ callsOf i b :=
  List.filterMap_append

theorem callsOf_cleanup (i : Nat) (l : List Nat) : callsOf i (l.map .cleanup) = [] := by
  unfold callsOf
  rw [List.filterMap_map]
  induction l with
  | nil => rfl
  | cons a l ih => rw [List.filterMap_cons]; exact ih

/-- No monitor asks to stop. -/
def quiet : Call → Int := fun _ => 0
/-- The user does not ask to stop. -/
def noQuit : Int → Bool × Bool := fun _ => (false, false)

theorem callLoop_quiet (mem : Nat → Mon) (t : ℚ) (iter NOUT : Int) (l : List Nat) :
    callLoop mem quiet t iter NOUT l =
      ((l.filter (fun i => decide (iter.tmod (mem i).period = 0))).map
        (fun i => .call ⟨i, t, iter.tdiv (mem i).period - 1, NOUT.tdiv (mem i).period⟩), true) := by
  induction l with
  | nil => rfl
  | cons i l ih =>
    unfold callLoop
    by_cases h : iter.tmod (mem i).period = 0
    · simp [h, quiet, ih]
    · simp [h, ih]

/-- **C24.** One step, nobody asking to stop: the monitors whose period divides the step
number `iter + 1` are called, in the order of the list, each with its own count, and on the
last step all are cleaned up. -/
theorem C24_step (s : State) (t : ℚ) (iter NOUT : Int) :
    call_monitors s quiet false false t iter NOUT =
      ((s.mons.filter (fun i => decide ((s.mem i).period ∣ iter + 1))).map
        (fun i => .call ⟨i, t, (iter + 1).tdiv (s.mem i).period - 1, NOUT.tdiv (s.mem i).period⟩) ++
       (if iter + 1 = NOUT then s.mons.map .cleanup else []), .ok 0) := by
  unfold call_monitors
  simp only [callLoop_quiet, Bool.false_eq_true, if_false, Bool.true_eq_false, or_false]
  congr 4
  funext i
  exact decide_eq_decide.2 (Int.dvd_iff_tmod_eq_zero).symm

theorem callsOf_map {i : Nat} {l : List Nat} (hn : l.Nodup) (f : Nat → Call) (hf : ∀ j, (f j).id = j) :
    callsOf i (l.map fun j => Ev.call (f j)) = if i ∈ l then [f i] else [] := by
  unfold callsOf
  rw [List.filterMap_map]
  induction l with
  | nil => simp
  | cons a l ih =>
    rw [List.nodup_cons] at hn
    rw [List.filterMap_cons]
    simp only [Function.comp, hf]
    by_cases h : a = i
    · subst h
      have := ih hn.2
      simp only [hn.1, if_false] at this
      simp only [if_true, List.mem_cons, true_or]
      rw [show (fun x => if x = a then some (f x) else none) =
        ((fun e => match e with
          | Ev.call c => if c.id = a then some c else none
          | Ev.cleanup _ => none) ∘ fun j => Ev.call (f j)) by funext x; simp [hf], this]
    · simp only [h, if_false]
      rw [show (fun x => if x = i then some (f x) else none) =
        ((fun e => match e with
          | Ev.call c => if c.id = i then some c else none
          | Ev.cleanup _ => none) ∘ fun j => Ev.call (f j)) by funext x; simp [hf], ih hn.2]
      have : (i ∈ a :: l) ↔ i ∈ l := by simp [Ne.symm h]
      simp [this]

theorem callsOf_step (s : State) (hn : s.mons.Nodup) (t : ℚ) (iter NOUT : Int) (i : Nat)
    (hi : i ∈ s.mons) :
    callsOf i (call_monitors s quiet false false t iter NOUT).1 =
      if (s.mem i).period ∣ iter + 1 then
        [⟨i, t, (iter + 1).tdiv (s.mem i).period - 1, NOUT.tdiv (s.mem i).period⟩] else [] := by
  rw [C24_step, callsOf_append]
  have h2 : callsOf i (if iter + 1 = NOUT then s.mons.map .cleanup else []) = [] := by
    split
    · exact callsOf_cleanup _ _
    · rfl
  rw [h2, List.append_nil,
    callsOf_map (hn.filter _) (fun i => ⟨i, t, (iter + 1).tdiv (s.mem i).period - 1, NOUT.tdiv (s.mem i).period⟩)
      (fun _ => rfl)]
  simp only [List.mem_filter, hi, true_and, decide_eq_true_eq]

theorem outputLoop_calls (s : State) (hn : s.mons.Nodup) (t0 dt : ℚ) (N : Int) (i : Nat)
    (hi : i ∈ s.mons) (n : Nat) (k : Int) :
    (outputLoop s quiet noQuit t0 dt N n k).2 = .ok () ∧
    callsOf i (outputLoop s quiet noQuit t0 dt N n k).1 =
      (List.range n).flatMap (fun (j : Nat) =>
        if (s.mem i).period ∣ k + j + 1 then
          [⟨i, t0 + ((k + j + 1 : Int) : ℚ) * dt, (k + j + 1).tdiv (s.mem i).period - 1,
            N.tdiv (s.mem i).period⟩] else []) := by
  induction n generalizing k with
  | zero => exact ⟨rfl, rfl⟩
  | succ n ih =>
    unfold outputLoop
    have hc := C24_step s (t0 + ((k + 1 : Int) : ℚ) * dt) k N
    have hl := callsOf_step s hn (t0 + ((k + 1 : Int) : ℚ) * dt) k N i hi
    rw [hc] at hl
    rw [show (noQuit k).1 = false from rfl, show (noQuit k).2 = false from rfl, hc]
    simp only [ne_eq, not_true_eq_false, if_false]
    have := ih (k + 1)
    refine ⟨this.1, ?_⟩
    rw [callsOf_append, hl, List.range_succ_eq_map, List.flatMap_cons, List.flatMap_map]
    rw [this.2]
    congr 1
    · simp
    · congr 1
      funext j
      have : k + 1 + (j : Int) + 1 = k + ((j + 1 : Nat) : Int) + 1 := by push_cast; ring
      simp only [this]

/-- Every `p`-th of the numbers `1 … n`. -/
theorem every_pth {α : Type} (p : Nat) (hp : 0 < p) (f : Nat → α) (n : Nat) :
    (List.range n).flatMap (fun j => if p ∣ j + 1 then [f ((j + 1) / p)] else []) =
      (List.range (n / p)).map (fun m => f (m + 1)) := by
  induction n with
  | zero => simp
  | succ n ih =>
    rw [List.range_succ, List.flatMap_append, ih, Nat.succ_div]
    by_cases h : p ∣ n + 1
    · rw [if_pos h, List.range_succ, List.map_append]
      have : (n + 1) / p = n / p + 1 := by rw [Nat.succ_div, if_pos h]
      simp [h, this]
    · simp [h]

theorem loop_calls (s : State) (hn : s.mons.Nodup) (t0 dt : ℚ) (N : Int) (hN : 0 ≤ N) (i : Nat)
    (hi : i ∈ s.mons) (hp : 0 < (s.mem i).period) :
    (outputLoop s quiet noQuit t0 dt N N.toNat 0).2 = .ok () ∧
    callsOf i (outputLoop s quiet noQuit t0 dt N N.toNat 0).1 =
      (List.range (N / (s.mem i).period).toNat).map (fun (m : Nat) =>
        ⟨i, t0 + ((m : ℚ) + 1) * ((s.mem i).period * dt), m, N / (s.mem i).period⟩) := by
  have h := outputLoop_calls s hn t0 dt N i hi N.toNat 0
  refine ⟨h.1, ?_⟩
  rw [h.2]
  obtain ⟨p, hpe⟩ : ∃ p : Nat, (s.mem i).period = p := ⟨(s.mem i).period.toNat, by omega⟩
  obtain ⟨n, rfl⟩ : ∃ n : Nat, N = n := ⟨N.toNat, by omega⟩
  rw [hpe] at hp ⊢
  have hp' : 0 < p := by omega
  have := every_pth p hp' (fun m => (⟨i, t0 + (m : ℚ) * (p * dt), (m : Int) - 1, (n : Int) / p⟩ : Call)) n
  rw [Int.toNat_natCast, show ((n : Int) / p).toNat = n / p by rw [← Int.natCast_div]; rfl]
  refine Eq.trans ?_ (this.trans ?_)
  · congr 1
    funext j
    have hd : ((p : Int) ∣ 0 + (j : Int) + 1) ↔ p ∣ j + 1 := by
      rw [zero_add]; exact_mod_cast Int.natCast_dvd_natCast
    by_cases h : p ∣ j + 1
    · rw [if_pos (hd.2 h), if_pos h]
      obtain ⟨q, hq⟩ := h
      have h1 : (0 + (j : Int) + 1) = ((p * q : Nat) : Int) := by omega
      have h2 : (j + 1) / p = q := by rw [hq]; exact Nat.mul_div_cancel_left q hp'
      rw [h1, h2]
      have h3 : ((p * q : Nat) : Int).tdiv p = q := by
        push_cast; exact Int.mul_tdiv_cancel_left _ (by omega)
      have h4 : (n : Int).tdiv p = (n : Int) / p := Int.tdiv_eq_ediv_of_nonneg (by omega)
      rw [h3, h4]
      push_cast
      congr 2
      ring_nf
    · rw [if_neg (fun hc => h (hd.1 hc)), if_neg h]
  · apply List.map_congr_left
    intro m _
    congr 1 <;> push_cast <;> ring

theorem inv_nodup_run {chk : Bool} {T : Nat → ℚ} (hT : ∀ i, T i ≠ 0) (ops : List Op)
    (hn : (added ops).Nodup) (n0 : Int) (dt0 : ℚ) : (runOps chk (State.new T n0 dt0) ops).mons.Nodup := by
  obtain ⟨A, h⟩ := inv_run (law_close chk) (hyp_close hT) ops (inv_new _ _ T n0 dt0) hn (by simp)
  exact h.nodup

/-- **C24.** With the number of steps and the step size computed by `finaliseMonitorPeriods`,
the loop of the solvers calls every monitor at `t0 + W, t0 + 2W, …`, where `W` is its
timestep, with `iter = 0, 1, …`, as often as `W` fits into the length `N * dt` of the run. -/
theorem C24_fire_times (chk : Bool) (u : ℚ) (hu : 0 < u) (T : Nat → ℚ)
    (hT : ∀ i, T i < 0 ∨ (T i ≠ 0 ∧ Grid u (T i))) (ops : List Op)
    (hn : (added ops).Nodup) (n0 : Int) (dt0 : ℚ) (N N' : Int) (dt dt' : ℚ) (hN : 0 ≤ N) (hdt : 0 < dt)
    (hg : Grid u dt) (s' : State)
    (hs : finaliseMonitorPeriods chk N dt (runOps chk (State.new T n0 dt0) ops) = .ok (s', N', dt'))
    (t0 : ℚ) (i : Nat) (hi : i ∈ s'.mons) :
    (outputLoop s' quiet noQuit t0 dt' N' N'.toNat 0).2 = .ok () ∧
    callsOf i (outputLoop s' quiet noQuit t0 dt' N' N'.toNat 0).1 =
      (List.range (⌊N * dt / wanted T dt i⌋).toNat).map (fun (m : Nat) =>
        ⟨i, t0 + ((m : ℚ) + 1) * wanted T dt i, m, ⌊N * dt / wanted T dt i⌋⟩) := by
  have hT0 : ∀ i, T i ≠ 0 := by
    intro i
    rcases hT i with h | h
    · exact h.ne
    · exact h.1
  have hpe := C24_periods_exact chk u hu T hT ops hn n0 dt0 N N' dt dt' hdt hg s' hs
  obtain ⟨hd0, ⟨q, hq, hNq, hqd⟩, hper⟩ := hpe
  have hnd : s'.mons.Nodup := by rw [finalise_mons hs]; exact inv_nodup_run hT0 ops hn n0 dt0
  have hN' : 0 ≤ N' := by rw [hNq]; exact mul_nonneg hN hq.le
  have h := loop_calls s' hnd t0 dt' N' hN' i hi (hper i hi).1
  refine ⟨h.1, ?_⟩
  rw [h.2, (hper i hi).2]
  have hp := (hper i hi).1
  have hdiv : N' / (s'.mem i).period = ⌊(N : ℚ) * dt / wanted T dt i⌋ := by
    have e1 : (N : ℚ) * dt / wanted T dt i = (N' : ℚ) / ((s'.mem i).period : ℚ) := by
      rw [← (hper i hi).2, ← hqd, hNq]
      have : (0 : ℚ) < (s'.mem i).period := by exact_mod_cast hp
      push_cast
      field_simp
    rw [e1]
    obtain ⟨p, hpn⟩ : ∃ p : Nat, (s'.mem i).period = p := ⟨(s'.mem i).period.toNat, by omega⟩
    rw [hpn]
    exact_mod_cast (Rat.floor_intCast_div_natCast N' p).symm
  rw [hdiv]

/-! ### What `solve` does -/

/-- **C24.** `solve` runs its loop with `number_output_steps` and `output_timestep`, which
`finaliseMonitorPeriods` does not change: monitor `i` is called at multiples of
`period * output_timestep`. -/
theorem C24_solve_calls (chk : Bool) (s s' : State) (hn : s.mons.Nodup) (N N' : Int) (dt dt' t0 : ℚ)
    (hN : 0 ≤ N) (dump : Bool)
    (hs : finaliseMonitorPeriods chk N dt { s with number_output_steps := N, output_timestep := dt }
      = .ok (s', N', dt'))
    (hm : s'.number_output_steps = N ∧ s'.output_timestep = dt)
    (i : Nat) (hi : i ∈ s.mons) (hp : 0 < (s'.mem i).period) :
    (solve chk N dt dump quiet noQuit t0 s).2 = .ok () ∧
    callsOf i (solve chk N dt dump quiet noQuit t0 s).1 =
      (if dump then [⟨i, t0, -1, N'.tdiv (s'.mem i).period⟩] else []) ++
      (List.range (N / (s'.mem i).period).toNat).map (fun (m : Nat) =>
        ⟨i, t0 + ((m : ℚ) + 1) * ((s'.mem i).period * dt), m, N / (s'.mem i).period⟩) := by
  have hmons : s'.mons = s.mons :=
    finalise_mons (s := { s with number_output_steps := N, output_timestep := dt }) hs
  unfold solve
  rw [if_neg (not_lt.2 hN)]
  simp only
  rw [hs]
  simp only
  have hl := loop_calls { s' with initialised := true } (by rw [hmons]; exact hn) t0 dt N hN i
    (by rw [hmons]; exact hi) hp
  simp only [hm.1, hm.2] at hl ⊢
  cases dump with
  | false =>
    simp only [Bool.false_eq_true, if_false, ne_eq, not_true_eq_false, List.nil_append]
    exact hl
  | true =>
    simp only [if_true, show (noQuit (-1)).1 = false from rfl, show (noQuit (-1)).2 = false from rfl]
    have hc := callsOf_step { s' with initialised := true } (by rw [hmons]; exact hn) t0 (-1) N' i
      (by rw [hmons]; exact hi)
    simp only [hm.1, hm.2] at hc
    rw [C24_step] at hc ⊢
    simp only [ne_eq, not_true_eq_false, if_false]
    refine ⟨hl.1, ?_⟩
    rw [callsOf_append, hl.2, hc]
    simp

/-- The internal timestep is that of some monitor that was added. -/
theorem internal_origin (chk : Bool) (ops : List Op) (s : State) (T : Nat → ℚ)
    (hts : ∀ i, (s.mem i).timestep = T i) (B : List Nat)
    (h : s.internal_timestep = -1 ∨ ∃ j ∈ B, ¬ T j < 0 ∧ s.internal_timestep = T j) :
    (runOps chk s ops).internal_timestep = -1 ∨
      ∃ j ∈ B ++ added ops, ¬ T j < 0 ∧ (runOps chk s ops).internal_timestep = T j := by
  induction ops generalizing s B with
  | nil => simpa [added, runOps] using h
  | cons op ops ih =>
    cases op with
    | remove i => exact ih (removeMonitor i s) hts B h
    | add i front =>
      have key : (∀ j, ((Op.run chk s (.add i front)).mem j).timestep = T j) ∧
          ((Op.run chk s (.add i front)).internal_timestep = -1 ∨
            ∃ j ∈ B ++ [i], ¬ T j < 0 ∧ (Op.run chk s (.add i front)).internal_timestep = T j) := by
        have hold : s.internal_timestep = -1 ∨ ∃ j ∈ B ++ [i], ¬ T j < 0 ∧ s.internal_timestep = T j := by
          rcases h with h | ⟨j, hj, h⟩
          · exact .inl h
          · exact .inr ⟨j, by simp [hj], h⟩
        have setp : ∀ p j, ((s.setPeriod i p).mem j).timestep = T j := by
          intro p j
          simp only [State.setPeriod]
          split
          · rename_i hj; subst hj; exact hts j
          · exact hts j
        simp only [Op.run, addMonitor, adjustMonitorPeriods, hts i]
        by_cases c1 : T i < 0
        · simp only [if_pos c1]
          exact ⟨setp _, hold⟩
        · simp only [if_neg c1]
          by_cases c2 : s.initialised = false ∧ s.internal_timestep < 0
          · simp only [if_pos c2]
            exact ⟨hts, .inr ⟨i, by simp, c1, rfl⟩⟩
          · simp only [if_neg c2]
            cases isMultiple chk s.internal_timestep (T i) with
            | error e => exact ⟨hts, hold⟩
            | ok b =>
              cases b with
              | false => exact ⟨hts, hold⟩
              | true =>
                simp only
                by_cases c3 : T i > s.internal_timestep * (3 / 2)
                · simp only [if_pos c3]
                  exact ⟨setp _, hold⟩
                · simp only [if_neg c3]
                  by_cases c4 : s.initialised = true
                  · simp only [if_pos c4]
                    exact ⟨hts, hold⟩
                  · simp only [if_neg c4]
                    exact ⟨fun j => by rw [scale_timestep]; exact hts j, .inr ⟨i, by simp, c1, rfl⟩⟩
      have := ih _ key.1 (B ++ [i]) key.2
      simpa [added, runOps] using this

/-- **C24, partial.** If no monitor is faster than the outputs, `solve` calls every monitor at
the multiples of its timestep (and once at the start if `dump_on_restart`).  The full claim has
no such restriction; it fails, see `C24_fast_monitor_violated`. -/
theorem C24_run_partial (chk : Bool) (u : ℚ) (hu : 0 < u) (T : Nat → ℚ)
    (hT : ∀ i, T i < 0 ∨ (T i ≠ 0 ∧ Grid u (T i))) (ops : List Op)
    (hn : (added ops).Nodup) (n0 : Int) (dt0 : ℚ) (N N' : Int) (dt dt' : ℚ) (hN : 0 ≤ N) (hdt : 0 < dt)
    (hg : Grid u dt) (hslow : ∀ i ∈ added ops, T i < 0 ∨ dt ≤ T i) (s' : State)
    (hs : finaliseMonitorPeriods chk N dt { runOps chk (State.new T n0 dt0) ops with
      number_output_steps := N, output_timestep := dt } = .ok (s', N', dt'))
    (t0 : ℚ) (dump : Bool) (i : Nat) (hi : i ∈ s'.mons) :
    let r := solve chk N dt dump quiet noQuit t0 (runOps chk (State.new T n0 dt0) ops)
    let M := ⌊N * dt / wanted T dt i⌋
    r.2 = .ok () ∧
    callsOf i r.1 = (if dump then [⟨i, t0, -1, M⟩] else []) ++
      (List.range M.toNat).map (fun (m : Nat) => ⟨i, t0 + ((m : ℚ) + 1) * wanted T dt i, m, M⟩) := by
  have hT0 : ∀ i, T i ≠ 0 := by
    intro i
    rcases hT i with h | h
    · exact h.ne
    · exact h.1
  obtain ⟨A, hinv⟩ := inv_run (law_exact chk u hu) (hyp_grid hu hT) ops (inv_new _ _ T n0 dt0) hn (by simp)
  set s := runOps chk (State.new T n0 dt0) ops with hsdef
  have hinv2 : Inv (Grid u) (fun _ a b => a = b) T A (0 + ops.length)
      { s with number_output_steps := N, output_timestep := dt } :=
    ⟨hinv.ts, hinv.new, hinv.sub, hinv.nodup, hinv.init, hinv.internal, hinv.unset, hinv.per⟩
  have hf := finalise_spec (law_exact chk u hu) (hyp_grid hu hT) hinv2 hdt hg hs
  obtain ⟨hm1, hm2, hm3, hd0, ⟨q, hq, hNq, hqd⟩, hdd, hper⟩ := hf
  have hmons : s'.mons = s.mons := hm1
  have hd : dt' = dt := by
    rcases hdd with h | ⟨h, _⟩
    · exact h
    · rcases internal_origin chk ops (State.new T n0 dt0) T (fun _ => rfl) [] (.inl rfl) with h2 | ⟨j, hj, hjn, h2⟩
      · simp only [← hsdef] at h2
        simp only at h; rw [h2] at h; linarith
      · simp only [← hsdef] at h2
        simp only at h
        rw [List.nil_append] at hj
        have hge : dt ≤ dt' := by
          rcases hslow j hj with h3 | h3
          · exact absurd h3 hjn
          · rw [h, h2]; exact h3
        have hq1 : (1 : ℚ) ≤ q := by exact_mod_cast hq
        have : dt' ≤ q * dt' := le_mul_of_one_le_left hd0.le hq1
        linarith
  have hq1 : q = 1 := by
    have : (q : ℚ) * dt = 1 * dt := by rw [hd] at hqd; linarith
    have := mul_right_cancel₀ hdt.ne' this
    exact_mod_cast this
  have hNN : N' = N := by rw [hNq, hq1]; ring
  have hi' : i ∈ s.mons := by rw [← hmons]; exact hi
  have hp := (hper i (by simpa using hi')).1
  have hpd := (hper i (by simpa using hi')).2
  rw [hd] at hpd
  have h := C24_solve_calls chk s s' hinv.nodup N N' dt dt' t0 hN dump hs ⟨hm2, hm3⟩ i hi' hp
  have hdiv : N / (s'.mem i).period = ⌊(N : ℚ) * dt / wanted T dt i⌋ := by
    have e1 : (N : ℚ) * dt / wanted T dt i = (N : ℚ) / ((s'.mem i).period : ℚ) := by
      rw [← hpd]
      have : (0 : ℚ) < (s'.mem i).period := by exact_mod_cast hp
      field_simp
    rw [e1]
    obtain ⟨p, hpn⟩ : ∃ p : Nat, (s'.mem i).period = p := ⟨(s'.mem i).period.toNat, by omega⟩
    rw [hpn]
    exact_mod_cast (Rat.floor_intCast_div_natCast N p).symm
  have hdiv2 : N'.tdiv (s'.mem i).period = ⌊(N : ℚ) * dt / wanted T dt i⌋ := by
    rw [hNN, ← hdiv]; exact Int.tdiv_eq_ediv_of_nonneg hN
  intro r M
  refine ⟨h.1, ?_⟩
  rw [h.2, hdiv2, hdiv, hpd]

/-! ### Rejection and stopping -/

theorem isMultiple_grid (chk : Bool) (u : ℚ) (hu : 0 < u) (x y : ℚ) (hx : 0 < x) (hy : 0 < y)
    (gx : Grid u x) (gy : Grid u y) :
    isMultiple chk x y = .ok true ↔ (∃ n : ℕ, y = n * x) ∨ (∃ n : ℕ, x = n * y) := by
  have fwd : ∀ x y : ℚ, 0 < x → 0 < y → (∃ n : ℕ, y = n * x) → isMultiple chk x y = .ok true := by
    rintro x y hx hy ⟨n, rfl⟩
    unfold isMultiple
    rw [if_neg (by rintro ⟨-, h⟩; exact h ⟨hx, hy⟩)]
    have hn : (1 : ℚ) ≤ n := by
      have : (0 : ℚ) < n := by
        by_contra hc
        have : (n : ℚ) * x ≤ 0 := mul_nonpos_of_nonpos_of_nonneg (not_lt.1 hc) hx.le
        linarith
      have : 0 < n := by exact_mod_cast this
      exact_mod_cast this
    have hle : ¬ x > n * x := not_lt.2 (le_mul_of_one_le_left hx.le hn)
    simp only [if_neg hle]
    rw [mul_div_assoc, div_self hx.ne', mul_one, show ((n : ℕ) : ℚ) = ((n : Int) : ℚ) by push_cast; rfl, sround_int]
    simp only [sub_self, zero_div, abs_zero, Except.ok.injEq, decide_eq_true_eq]
    exact ⟨hx.ne', by push_cast; exact hy.ne', by norm_num [eps]⟩
  constructor
  · intro h
    rcases le_total x y with hle | hle
    · left
      have := (law_exact chk u hu).mult x y gx gy hx hy h (by linarith)
      have hr : 0 < sround (y / x) := sround_pos (by rw [le_div_iff₀ hx]; linarith)
      exact ⟨(sround (y / x)).toNat, by
        have h2 : ((sround (y / x)).toNat : ℚ) = ((sround (y / x) : Int) : ℚ) := by
          exact_mod_cast Int.toNat_of_nonneg hr.le
        rw [h2]; exact this.symm⟩
    · right
      rw [isMultiple_comm] at h
      have := (law_exact chk u hu).mult y x gy gx hy hx h (by linarith)
      have hr : 0 < sround (x / y) := sround_pos (by rw [le_div_iff₀ hy]; linarith)
      exact ⟨(sround (x / y)).toNat, by
        have h2 : ((sround (x / y)).toNat : ℚ) = ((sround (x / y) : Int) : ℚ) := by
          exact_mod_cast Int.toNat_of_nonneg hr.le
        rw [h2]; exact this.symm⟩
  · rintro (h | h)
    · exact fwd x y hx hy h
    · rw [isMultiple_comm]; exact fwd y x hy hx h

/-- **C24.** Before `solve`, a monitor is accepted exactly if its timestep divides, or is a
multiple of, the smallest timestep so far; otherwise `addMonitor` throws. -/
theorem C24_accepted_iff (chk : Bool) (u : ℚ) (hu : 0 < u) (s : State) (hi : s.initialised = false)
    (hx : 0 < s.internal_timestep) (gx : Grid u s.internal_timestep) (i : Nat) (front : Bool)
    (hy : 0 < (s.mem i).timestep) (gy : Grid u (s.mem i).timestep) :
    (∃ s', addMonitor chk i front s = .ok s') ↔
      (∃ n : ℕ, (s.mem i).timestep = n * s.internal_timestep) ∨
      (∃ n : ℕ, s.internal_timestep = n * (s.mem i).timestep) := by
  rw [← isMultiple_grid chk u hu _ _ hx hy gx gy]
  unfold addMonitor adjustMonitorPeriods
  simp only [if_neg (not_lt.2 hy.le), hi, true_and, if_neg (not_lt.2 hx.le)]
  cases isMultiple chk s.internal_timestep (s.mem i).timestep with
  | error e => simp
  | ok b =>
    cases b with
    | false => simp
    | true =>
      simp only [Bool.false_eq_true, if_false]
      by_cases c3 : (s.mem i).timestep > s.internal_timestep * (3 / 2)
      · simp [c3]
      · simp [c3]

theorem callLoop_quit (mem : Nat → Mon) (ret : Call → Int) (t : ℚ) (iter NOUT : Int) (l : List Nat) :
    ((callLoop mem ret t iter NOUT l).2 = false ↔
      ∃ i ∈ l, (mem i).period ∣ iter ∧
        ret ⟨i, t, iter.tdiv (mem i).period - 1, NOUT.tdiv (mem i).period⟩ ≠ 0) ∧
    ((callLoop mem ret t iter NOUT l).2 = false →
      ∃ pre c, (callLoop mem ret t iter NOUT l).1 = pre ++ [.call c] ∧ ret c ≠ 0 ∧
        ∀ d, Ev.call d ∈ pre → ret d = 0) := by
  induction l with
  | nil => simp [callLoop]
  | cons i l ih =>
    unfold callLoop
    by_cases h : iter.tmod (mem i).period = 0
    · have hd : (mem i).period ∣ iter := Int.dvd_iff_tmod_eq_zero.2 h
      by_cases hr : ret ⟨i, t, iter.tdiv (mem i).period - 1, NOUT.tdiv (mem i).period⟩ = 0
      · simp only [h, if_true, hr, ne_eq, not_true_eq_false, if_false]
        constructor
        · rw [ih.1]
          constructor
          · rintro ⟨j, hj, h2⟩; exact ⟨j, by simp [hj], h2⟩
          · rintro ⟨j, hj, h2⟩
            simp only [List.mem_cons] at hj
            rcases hj with rfl | hj
            · exact absurd hr h2.2
            · exact ⟨j, hj, h2⟩
        · intro hf
          obtain ⟨pre, c, h1, h2, h3⟩ := ih.2 hf
          refine ⟨_ :: pre, c, by rw [h1]; rfl, h2, ?_⟩
          intro d hdm
          simp only [List.mem_cons, Ev.call.injEq] at hdm
          rcases hdm with rfl | hdm
          · exact hr
          · exact h3 d hdm
      · simp only [h, if_true, ne_eq, hr, not_false_eq_true]
        refine ⟨⟨fun _ => ⟨i, by simp, hd, hr⟩, fun _ => trivial⟩, fun _ => ⟨[], _, rfl, hr, by simp⟩⟩
    · have hd : ¬ (mem i).period ∣ iter := fun hc => h (Int.dvd_iff_tmod_eq_zero.1 hc)
      simp only [h, if_false]
      constructor
      · rw [ih.1]
        constructor
        · rintro ⟨j, hj, h2⟩; exact ⟨j, by simp [hj], h2⟩
        · rintro ⟨j, hj, h2⟩
          simp only [List.mem_cons] at hj
          rcases hj with rfl | hj
          · exact absurd h2.1 hd
          · exact ⟨j, hj, h2⟩
      · exact ih.2

/-- **C24.** Stopping.  `call_monitors` throws exactly if a monitor due at this step returns a
non-zero code.  Then no monitor behind it in the list is called any more, and every monitor is
cleaned up. -/
theorem C24_quit (s : State) (ret : Call → Int) (quit2 : Bool) (t : ℚ) (iter NOUT : Int) :
    ((∃ e, (call_monitors s ret false quit2 t iter NOUT).2 = .error e) ↔
      ∃ i ∈ s.mons, (s.mem i).period ∣ iter + 1 ∧
        ret ⟨i, t, (iter + 1).tdiv (s.mem i).period - 1, NOUT.tdiv (s.mem i).period⟩ ≠ 0) ∧
    ((∃ e, (call_monitors s ret false quit2 t iter NOUT).2 = .error e) →
      ∃ pre c, (call_monitors s ret false quit2 t iter NOUT).1 =
          pre ++ [.call c] ++ s.mons.map .cleanup ∧ ret c ≠ 0 ∧
        ∀ d, Ev.call d ∈ pre → ret d = 0) := by
  have h := callLoop_quit s.mem ret t (iter + 1) NOUT s.mons
  rw [← h.1]
  unfold call_monitors
  simp only [Bool.false_eq_true, if_false]
  cases hb : (callLoop s.mem ret t (iter + 1) NOUT s.mons).2 with
  | false =>
    obtain ⟨pre, c, h1, h2, h3⟩ := h.2 hb
    simp only [if_true]
    refine ⟨⟨fun _ => trivial, fun _ => ⟨_, rfl⟩⟩, fun _ => ⟨pre, c, by rw [h1], h2, h3⟩⟩
  | true => simp

/-- **C24.** Stopping, continued: an exception in one step ends the loop over outputs. -/
theorem C24_quit_ends_run (s : State) (ret : Call → Int) (quit : Int → Bool × Bool) (t0 dt : ℚ) (N : Int)
    (n : Nat) (k : Int) (e : Err) (l : List Ev)
    (h : call_monitors s ret (quit k).1 (quit k).2 (t0 + ((k + 1 : Int) : ℚ) * dt) k N = (l, .error e)) :
    outputLoop s ret quit t0 dt N (n + 1) k = (l, .error e) := by
  unfold outputLoop
  rw [h]

/-- **C24.** Stopping on request of the user: after the step in which the request is seen, all
monitors have been cleaned up and the loop ends without exception. -/
theorem C24_user_quit (s : State) (quit : Int → Bool × Bool) (t0 dt : ℚ) (N : Int)
    (n : Nat) (k : Int) (hq : (quit k).2 = true) :
    (outputLoop s quiet quit t0 dt N (n + 1) k).2 = .ok () ∧
    ∃ calls, (outputLoop s quiet quit t0 dt N (n + 1) k).1 = calls ++ s.mons.map .cleanup ∧
      ∀ e ∈ calls, ∃ i ∈ s.mons, (s.mem i).period ∣ k + 1 ∧
        ∃ c, e = .call c ∧ c.id = i ∧ c.time = t0 + ((k + 1 : Int) : ℚ) * dt := by
  unfold outputLoop
  unfold call_monitors
  simp only [callLoop_quiet, hq, Bool.true_eq_false, if_false, or_true, if_true, ne_eq, one_ne_zero,
    not_false_eq_true, true_and]
  refine ⟨_, rfl, ?_⟩
  intro e he
  simp only [List.mem_map, List.mem_filter, decide_eq_true_eq] at he
  obtain ⟨i, ⟨hi, hd⟩, rfl⟩ := he
  exact ⟨i, hi, Int.dvd_iff_tmod_eq_zero.2 hd, _, rfl, rfl, rfl⟩

end Verif.Solver
