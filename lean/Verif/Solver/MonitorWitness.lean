/-
C24: concrete cases, and histories for which the claim fails.
-/
import Verif.Solver.MonitorRun

namespace Verif.Solver

/-- Monitor 0 has no timestep (like the output monitor), 1 has timestep 1, 2 has 3, 3 has 1/2,
4 has 5/2. -/
def exT (i : Nat) : ℚ := if i = 1 then 1 else if i = 2 then 3 else if i = 3 then 1 / 2 else
  if i = 4 then 5 / 2 else -1

theorem exT_grid (i : Nat) : exT i < 0 ∨ (exT i ≠ 0 ∧ Grid (1 / 2) (exT i)) := by
  unfold exT
  split
  · exact .inr ⟨by norm_num, 2, by norm_num, by norm_num⟩
  split
  · exact .inr ⟨by norm_num, 6, by norm_num, by norm_num⟩
  split
  · exact .inr ⟨by norm_num, 1, by norm_num, by norm_num⟩
  split
  · exact .inr ⟨by norm_num, 5, by norm_num, by norm_num⟩
  · exact .inl (by norm_num)

/-- What can be compared of a result: the monitors with their periods, and the two numbers. -/
def view (x : Out (State × Int × ℚ)) : Option (List (Nat × Int) × Int × ℚ) :=
  match x with
  | .ok (s, N, dt) => some (s.mons.map (fun i => (i, (s.mem i).period)), N, dt)
  | .error _ => none

theorem of_view {x : Out (State × Int × ℚ)} {l : List (Nat × Int)} {N : Int} {dt : ℚ}
    (h : view x = some (l, N, dt)) :
    ∃ s', x = .ok (s', N, dt) ∧ s'.mons.map (fun i => (i, (s'.mem i).period)) = l := by
  unfold view at h
  split at h
  · rename_i s N' dt'
    simp only [Option.some.injEq, Prod.mk.injEq] at h
    obtain ⟨h1, rfl, rfl⟩ := h
    exact ⟨s, rfl, h1⟩
  · simp at h

/-- Monitors of an example. -/
def exOps : List Op := [.add 0 false, .add 2 false, .add 1 true, .remove 2, .add 3 false]

/-- The hypotheses of `C24_periods_exact` and `C24_fire_times` are met: finalisation succeeds,
the periods are 2 steps of 1/2 for monitor 1, 4 for the outputs. -/
example : (added exOps).Nodup ∧
    ∃ s', finaliseMonitorPeriods true 5 2 (runOps true (State.new exT 5 2) exOps) = .ok (s', 20, 1 / 2) ∧
      s'.mons.map (fun i => (i, (s'.mem i).period)) = [(1, 2), (0, 4), (3, 1)] :=
  ⟨by decide, of_view (by decide +kernel)⟩

/-- The hypotheses of `C24_run_partial` are met with outputs every 1/2. -/
example : (∀ i ∈ added exOps, exT i < 0 ∨ 1 / 2 ≤ exT i) ∧
    ∃ s', finaliseMonitorPeriods true 5 (1 / 2) { runOps true (State.new exT 5 2) exOps with
      number_output_steps := 5, output_timestep := 1 / 2 } = .ok (s', 5, 1 / 2) ∧
      s'.mons.map (fun i => (i, (s'.mem i).period)) = [(1, 2), (0, 1), (3, 1)] :=
  ⟨by decide +kernel, of_view (by decide +kernel)⟩

/-- A monitor with an incommensurate timestep is rejected. -/
example : (addMonitor true 4 true (runOps true (State.new exT 5 2) [.add 1 true])).isOk = false := by
  decide +kernel

/-- **C24 fails** for a monitor faster than the outputs.  With outputs every 2 and a monitor
with timestep 1, `solve` for 5 outputs (up to time 10) calls the monitor at times 2, 4, 6, 8, 10
instead of 1, 2, …, 10, and the output monitor at times 4 and 8 instead of 2, 4, 6, 8, 10:
`finaliseMonitorPeriods` adjusts local variables of `solve`, but the solvers use
`getNumberOutputSteps()` and `getOutputTimestep()`. -/
theorem C24_fast_monitor_violated :
    let r := solve true 5 2 false quiet noQuit 0 (runOps true (State.new exT 5 2) [.add 0 false, .add 1 false])
    r.2 = .ok () ∧
    (callsOf 1 r.1).map (·.time) = [2, 4, 6, 8, 10] ∧
    (callsOf 0 r.1).map (·.time) = [4, 8] := by
  refine ⟨?_, ?_, ?_⟩ <;> decide +kernel

/-- Start a run, then add a monitor: the period it gets and the step of the run. -/
def lateAdd (T : Nat → ℚ) (ops : List Op) (N : Int) (dt : ℚ) (i : Nat) : Option (Int × ℚ) :=
  match finaliseMonitorPeriods true N dt (runOps true (State.new T N dt) ops) with
  | .error _ => none
  | .ok (s, _, dt') => match addMonitor true i false { s with initialised := true } with
    | .error _ => none
    | .ok s => some ((s.mem i).period, dt')

/-- **C24 fails** for a monitor added after `solve` has started, when the monitors so far are
slower than the outputs: `internal_timestep` is then not the step of the run.  With a monitor of
timestep 1 and outputs every 1/2, a monitor with timestep 3 added later gets a period of 3 steps
of 1/2. -/
theorem C24_late_monitor_violated :
    lateAdd exT [.add 1 false] 5 (1 / 2) 2 = some (3, 1 / 2) ∧ (3 : ℚ) * (1 / 2) ≠ exT 2 := by
  refine ⟨?_, ?_⟩ <;> decide +kernel

/-- **C24 fails** for a monitor that is added twice: its period is multiplied twice when a
faster monitor is added. -/
theorem C24_added_twice_violated :
    ∃ s', finaliseMonitorPeriods true 5 (1 / 2)
        (runOps true (State.new exT 5 (1 / 2)) [.add 1 false, .add 1 false, .add 3 false])
        = .ok (s', 5, 1 / 2) ∧
      s'.mons.map (fun i => (i, (s'.mem i).period)) = [(1, 4), (1, 4), (3, 1)] ∧
      (4 : ℚ) * (1 / 2) ≠ exT 1 := by
  obtain ⟨s', h1, h2⟩ := of_view (x := finaliseMonitorPeriods true 5 (1 / 2)
    (runOps true (State.new exT 5 (1 / 2)) [.add 1 false, .add 1 false, .add 3 false]))
    (l := [(1, 4), (1, 4), (3, 1)]) (N := 5) (dt := 1 / 2) (by decide +kernel)
  exact ⟨s', h1, h2, by decide +kernel⟩

end Verif.Solver
