import Verif.Sys.Timer
import Mathlib.Tactic.Ring
import Mathlib.Tactic.Linarith
import Mathlib.Tactic.NormNum

/-!
# C73: timers measure the time during which at least one of their objects exists
-/

namespace Verif.Timer

/-- Objects of label `L` that exist after an event, if `n` did before. -/
def after (L : String) (n : Nat) : Ev → Nat
  | .start l => if l = L then n + 1 else n
  | .stop l => if l = L then n - 1 else n
  | _ => n

/-- Objects of label `L` that exist after a history. -/
def alive (L : String) : Nat → List (ℝ × Ev) → Nat
  | n, [] => n
  | n, (_, e) :: r => alive L (after L n e) r

/-- The time between `t`, when `n` objects of label `L` existed, and `now` during which at least one existed: the sum of
the intervals between events. -/
noncomputable def busy (L : String) : Nat → ℝ → List (ℝ × Ev) → ℝ → ℝ
  | n, t, [], now => if 0 < n then now - t else 0
  | n, t, (t', e) :: r, now => (if 0 < n then t' - t else 0) + busy L (after L n e) t' r now

/-- Whether an event makes the first object of label `L`. -/
def begun (L : String) (n : Nat) : Ev → Nat
  | .start l => if l = L ∧ n = 0 then 1 else 0
  | _ => 0

/-- The number of times an object of label `L` was made while there was none. -/
def begins (L : String) : Nat → List (ℝ × Ev) → Nat
  | _, [] => 0
  | n, (_, e) :: r => begun L n e + begins L (after L n e) r

/-- Only objects that exist are destroyed, and `cleanup` is not called. -/
def Legal (L : String) : Nat → List (ℝ × Ev) → Prop
  | _, [] => True
  | n, (_, e) :: r => e ≠ .cleanup ∧ (e = .stop L → 0 < n) ∧ Legal L (after L n e) r

/-- `L` is not reset in the history. -/
def NoReset (L : String) (evs : List (ℝ × Ev)) : Prop := ∀ x ∈ evs, x.2 ≠ .reset L

/-- What an entry records when `n` objects exist at time `t`. -/
def Rel (o : Option Info) (n : Nat) (t T R : ℝ) (h : Nat) : Prop :=
  match o with
  | none => n = 0 ∧ T = 0 ∧ R = 0 ∧ h = 0
  | some i => i.counter = n ∧ i.hits = h ∧ i.running = decide (0 < n) ∧
      i.total + (if 0 < n then t - i.started else 0) = T ∧ i.time + (if 0 < n then t - i.started else 0) = R

theorem rel_get {st : Store} {L : String} {n : Nat} {t T R : ℝ} {h : Nat} (hr : Rel (st L) n t T R h) (now : ℝ) :
    Rel (some (getInfo st L now)) n t T R h := by
  unfold getInfo
  cases e : st L with
  | some i => rw [e] at hr; exact hr
  | none =>
    rw [e] at hr
    obtain ⟨rfl, rfl, rfl, rfl⟩ := hr
    simp [Rel]

theorem rel_total {i : Info} {n : Nat} {t T R : ℝ} {h : Nat} (hr : Rel (some i) n t T R h) (now : ℝ) :
    getTotalTime i now = T + (if 0 < n then now - t else 0) ∧ getTime i now = R + (if 0 < n then now - t else 0) := by
  obtain ⟨_, _, h3, h4, h5⟩ := hr
  unfold getTotalTime getTime
  rw [h3]
  by_cases hn : 0 < n
  · simp only [hn, decide_true, if_true] at *
    constructor <;> linarith
  · simp only [hn, decide_false, if_false, Bool.false_eq_true] at *
    constructor <;> linarith

theorem after_start (L l : String) (n : Nat) : after L n (.start l) = if l = L then n + 1 else n := rfl
theorem after_stop (L l : String) (n : Nat) : after L n (.stop l) = if l = L then n - 1 else n := rfl
theorem begun_start (L l : String) (n : Nat) : begun L n (.start l) = if l = L ∧ n = 0 then 1 else 0 := rfl
theorem begun_stop (L l : String) (n : Nat) : begun L n (.stop l) = 0 := rfl
theorem begun_reset (L l : String) (n : Nat) : begun L n (.reset l) = 0 := rfl
theorem after_reset (L l : String) (n : Nat) : after L n (.reset l) = n := rfl

/-- One event. -/
theorem rel_step {st st' : Store} {L : String} {n : Nat} {t T R : ℝ} {h : Nat} (hr : Rel (st L) n t T R h) {t' : ℝ} {e : Ev}
    (hs : step st t' e = .ok st') (h1 : e ≠ .cleanup) (h2 : e = .stop L → 0 < n) :
    Rel (st' L) (after L n e) t' (T + if 0 < n then t' - t else 0)
      (if e = .reset L then 0 else R + if 0 < n then t' - t else 0)
      (begun L n e + h) := by
  have hg := rel_get hr t'
  have other : ∀ l i, l ≠ L → Rel (put st l i L) n t' (T + if 0 < n then t' - t else 0)
      (R + if 0 < n then t' - t else 0) (0 + h) := by
    intro l i hl
    unfold put
    rw [if_neg (Ne.symm hl)]
    cases e : st L with
    | none =>
      rw [e] at hr
      obtain ⟨rfl, rfl, rfl, rfl⟩ := hr
      simp [Rel]
    | some j =>
      rw [e] at hr
      obtain ⟨a1, a2, a3, a4, a5⟩ := hr
      refine ⟨a1, by omega, a3, ?_, ?_⟩
      · rw [← a4]; split_ifs <;> ring
      · rw [← a5]; split_ifs <;> ring
  cases e with
  | cleanup => exact absurd rfl h1
  | start l =>
    simp only [step, Except.ok.injEq] at hs
    subst hs
    by_cases hl : l = L
    · subst hl
      unfold start
      rw [begun_start, after_start, if_neg (fun hh => Ev.noConfusion hh), if_pos rfl]
      generalize getInfo st l t' = i at hg ⊢
      obtain ⟨a1, a2, a3, a4, a5⟩ := hg
      unfold put
      rw [if_pos rfl]
      by_cases hn : n = 0
      · subst hn
        rw [if_pos a1]
        simp only [Nat.lt_irrefl, if_false, add_zero] at a4 a5 ⊢
        refine ⟨?_, ?_, ?_, ?_, ?_⟩ <;> dsimp only <;> simp [a1, a2, a4, a5]
        omega
      · rw [if_neg (by rw [a1]; exact hn)]
        have hp : 0 < n := by omega
        rw [if_pos hp] at a4 a5 ⊢
        refine ⟨by dsimp only; omega, by dsimp only; simp [hn, a2], ?_, ?_, ?_⟩
        · dsimp only; rw [a3]; simp [hp]
        · dsimp only; rw [if_pos (by omega), ← a4]; ring
        · dsimp only; rw [if_pos (by omega), ← a5]; ring
    · rw [begun_start, after_start, if_neg hl, if_neg (fun hh => Ev.noConfusion hh)]
      simp only [hl, false_and, if_false]
      exact other l _ hl
  | stop l =>
    replace hs : stop st l t' = .ok st' := hs
    unfold stop at hs
    by_cases hl : l = L
    · subst hl
      have hp := h2 rfl
      cases e : st l with
      | none => rw [e] at hr; have := hr.1; omega
      | some i =>
        rw [e] at hs hr
        dsimp only at hs
        simp only [Except.ok.injEq] at hs
        subst hs
        obtain ⟨a1, a2, a3, a4, a5⟩ := hr
        rw [if_pos hp] at a4 a5
        unfold put
        rw [begun_stop, after_stop, if_pos rfl, if_pos rfl, if_pos hp, if_neg (fun hh => Ev.noConfusion hh)]
        by_cases hn : n = 1
        · subst hn
          rw [if_pos (by omega)]
          refine ⟨by dsimp only; omega, by dsimp only; omega, by simp, ?_, ?_⟩
          · dsimp only; rw [← a4]; simp; ring
          · dsimp only; rw [← a5]; simp; ring
        · rw [if_neg (by omega)]
          refine ⟨by dsimp only; omega, by dsimp only; omega, ?_, ?_, ?_⟩
          · dsimp only; rw [a3]; simp [hp]; omega
          · dsimp only; rw [if_pos (by omega), ← a4]; ring
          · dsimp only; rw [if_pos (by omega), ← a5]; ring
    · rw [begun_stop, after_stop, if_neg hl, if_neg (fun hh => Ev.noConfusion hh)]
      cases e : st l with
      | none => rw [e] at hs; exact absurd hs (by simp)
      | some i =>
        rw [e] at hs
        dsimp only at hs
        simp only [Except.ok.injEq] at hs
        subst hs
        exact other l _ hl
  | reset l =>
    simp only [step, Except.ok.injEq] at hs
    subst hs
    by_cases hl : l = L
    · subst hl
      rw [if_pos rfl]
      generalize getInfo st l t' = i at hg ⊢
      obtain ⟨a1, a2, a3, a4, a5⟩ := hg
      rw [begun_reset, after_reset]
      unfold put resetTime
      rw [if_pos rfl]
      dsimp only
      rw [a3]
      by_cases hp : 0 < n
      · rw [if_pos hp] at a4 a5 ⊢
        rw [if_pos (by simp [hp])]
        refine ⟨a1, by dsimp only; omega, rfl, ?_, ?_⟩
        · dsimp only; rw [if_pos hp, ← a4]; ring
        · dsimp only; rw [if_pos hp]; ring
      · rw [if_neg hp] at a4 a5 ⊢
        rw [if_neg (by simp [hp])]
        refine ⟨a1, by dsimp only; omega, rfl, ?_, ?_⟩
        · dsimp only; rw [if_neg hp, ← a4]; ring
        · dsimp only; rw [if_neg hp]; ring
    · have hne : (Ev.reset l) ≠ .reset L := fun hh => hl (by injection hh)
      rw [begun_reset, if_neg hne]
      exact other l _ hl

theorem run_total {L : String} : ∀ (evs : List (ℝ × Ev)) (st st' : Store) (n : Nat) (t T R : ℝ) (h : Nat),
    Rel (st L) n t T R h → Legal L n evs → run st evs = .ok st' → ∀ now,
      getTotalTime (getInfo st' L now) now = T + busy L n t evs now ∧
      (NoReset L evs → getTime (getInfo st' L now) now = R + busy L n t evs now) ∧
      (getInfo st' L now).hits = begins L n evs + h ∧ (getInfo st' L now).counter = alive L n evs ∧
      ∃ t' T' R' h', Rel (st' L) (alive L n evs) t' T' R' h' := by
  intro evs
  induction evs with
  | nil =>
    intro st st' n t T R h hr _ hrun now
    simp only [run, Except.ok.injEq] at hrun
    subst hrun
    have hg := rel_get hr now
    obtain ⟨a, b⟩ := rel_total hg now
    exact ⟨a, fun _ => b, by simp [begins, hg.2.1], hg.1, _, _, _, _, hr⟩
  | cons x r ih =>
    obtain ⟨t', e⟩ := x
    intro st st' n t T R h hr hl hrun now
    obtain ⟨l1, l2, l3⟩ := hl
    rw [run] at hrun
    cases hs : step st t' e with
    | error x => rw [hs] at hrun; exact absurd hrun (by simp)
    | ok st1 =>
      rw [hs] at hrun
      have hr1 := rel_step hr hs l1 l2
      obtain ⟨i1, i2, i3, i4, i5⟩ := ih st1 st' _ _ _ _ _ hr1 l3 hrun now
      refine ⟨by rw [i1, busy]; ring, fun hn => ?_, by rw [i3, begins]; omega, i4, i5⟩
      rw [i2 fun x hx => hn x (List.mem_cons_of_mem _ hx), if_neg (hn (t', e) List.mem_cons_self), busy]
      ring

theorem rel_init (L : String) (t : ℝ) : Rel ((fun _ => none : Store) L) 0 t 0 0 0 := ⟨rfl, rfl, rfl, rfl⟩

/-- **C73 (total time).**  After every history of timers made, destroyed and reset, with any number of labels and any
nesting, `getTotalTime` of a label is the time during which at least one of its objects existed, however often the label
was reset; and its number of hits is the number of times its count of objects left zero. -/
theorem C73_total (L : String) (evs : List (ℝ × Ev)) (hl : Legal L 0 evs) (st : Store)
    (h : run (fun _ => none) evs = .ok st) (t0 now : ℝ) :
    getTotalTime (getInfo st L now) now = busy L 0 t0 evs now ∧ (getInfo st L now).hits = begins L 0 evs := by
  obtain ⟨a, _, b, _, _⟩ := run_total evs _ st 0 t0 0 0 0 (rel_init L t0) hl h now
  exact ⟨by rw [a, zero_add], by rw [b, Nat.add_zero]⟩

theorem run_append : ∀ (a b : List (ℝ × Ev)) (st st' : Store), run st (a ++ b) = .ok st' →
    ∃ m, run st a = .ok m ∧ run m b = .ok st' := by
  intro a
  induction a with
  | nil => intro b st st' h; exact ⟨st, rfl, h⟩
  | cons x r ih =>
    obtain ⟨t, e⟩ := x
    intro b st st' h
    rw [List.cons_append, run] at h
    rw [run]
    cases hs : step st t e with
    | error x => rw [hs] at h; exact absurd h (by simp)
    | ok s1 =>
      rw [hs] at h
      exact ih b s1 st' h

theorem legal_append (L : String) : ∀ (a b : List (ℝ × Ev)) (n : Nat), Legal L n (a ++ b) →
    Legal L n a ∧ Legal L (alive L n a) b := by
  intro a
  induction a with
  | nil => intro b n h; exact ⟨trivial, h⟩
  | cons x r ih =>
    obtain ⟨t, e⟩ := x
    intro b n h
    obtain ⟨h1, h2, h3⟩ := h
    obtain ⟨i1, i2⟩ := ih b _ h3
    exact ⟨⟨h1, h2, i1⟩, i2⟩

/-- **C73 (time since the last reset).**  `getTime` is the time since the label's last reset during which at least one of
its objects existed (since the beginning if it was never reset), and it is what `resetTime` would return. -/
theorem C73_time (L : String) (pre post : List (ℝ × Ev)) (t0 : ℝ) (hl : Legal L 0 (pre ++ (t0, .reset L) :: post))
    (hno : NoReset L post) (st : Store) (h : run (fun _ => none) (pre ++ (t0, .reset L) :: post) = .ok st) (now : ℝ) :
    getTime (getInfo st L now) now = busy L (alive L 0 pre) t0 post now ∧
    (resetTime (getInfo st L now) now).1 = getTime (getInfo st L now) now := by
  constructor
  · obtain ⟨m, h1, h2⟩ := run_append _ _ _ _ h
    obtain ⟨l1, l2⟩ := legal_append L _ _ _ hl
    obtain ⟨_, _, _, _, t', T', R', h', hr⟩ := run_total pre _ m 0 t0 0 0 0 (rel_init L t0) l1 h1 now
    rw [run] at h2
    cases hs : step m t0 (.reset L) with
    | error x => rw [hs] at h2; exact absurd h2 (by simp)
    | ok s1 =>
      rw [hs] at h2
      have hr1 := rel_step hr hs l2.1 l2.2.1
      rw [if_pos rfl] at hr1
      obtain ⟨_, i2, _⟩ := run_total post _ st _ _ _ _ _ hr1 l2.2.2 h2 now
      rw [i2 hno, zero_add]
      rfl
  · unfold resetTime getTime
    dsimp only
    split_ifs <;> rfl

/-- Without any reset, both times are the same. -/
theorem C73_time_unreset (L : String) (evs : List (ℝ × Ev)) (hl : Legal L 0 evs) (hno : NoReset L evs) (st : Store)
    (h : run (fun _ => none) evs = .ok st) (t0 now : ℝ) : getTime (getInfo st L now) now = busy L 0 t0 evs now := by
  obtain ⟨_, a, _⟩ := run_total evs _ st 0 t0 0 0 0 (rel_init L t0) hl h now
  rw [a hno, zero_add]

/-- **C73 (labels do not interfere).**  Every history that destroys only objects that exist runs, for all labels at once. -/
theorem C73_runs (evs : List (ℝ × Ev)) (hl : ∀ L, Legal L 0 evs) : ∃ st, run (fun _ => none) evs = .ok st := by
  suffices H : ∀ (evs : List (ℝ × Ev)) (st : Store) (n : String → Nat) (t : ℝ),
      (∀ L, ∃ T R h, Rel (st L) (n L) t T R h) → (∀ L, Legal L (n L) evs) → ∃ st', run st evs = .ok st' from
    H evs _ (fun _ => 0) 0 (fun L => ⟨_, _, _, rel_init L 0⟩) hl
  intro evs
  induction evs with
  | nil => intro st n t _ _; exact ⟨st, rfl⟩
  | cons x r ih =>
    obtain ⟨t', e⟩ := x
    intro st n t hr hl
    have hs : ∃ st1, step st t' e = .ok st1 := by
      cases e with
      | start l => exact ⟨_, rfl⟩
      | reset l => exact ⟨_, rfl⟩
      | cleanup => exact ⟨_, rfl⟩
      | stop l =>
        have hp : 0 < n l := (hl l).2.1 rfl
        obtain ⟨T, R, h, hrel⟩ := hr l
        show ∃ st1, stop st l t' = .ok st1
        unfold stop
        cases e : st l with
        | none => rw [e] at hrel; have := hrel.1; omega
        | some i => exact ⟨_, rfl⟩
    obtain ⟨st1, hs⟩ := hs
    rw [run, hs]
    refine ih st1 (fun L => after L (n L) e) t' (fun L => ?_) fun L => (hl L).2.2
    obtain ⟨T, R, h, hrel⟩ := hr L
    exact ⟨_, _, _, rel_step hrel hs (hl L).1 (hl L).2.1⟩

/-- Busy time never decreases and never exceeds the time that passed, for clock readings in order. -/
theorem C73_bounds (L : String) : ∀ (evs : List (ℝ × Ev)) (n : Nat) (t now : ℝ),
    (t :: evs.map Prod.fst ++ [now]).Pairwise (· ≤ ·) → 0 ≤ busy L n t evs now ∧ busy L n t evs now ≤ now - t := by
  intro evs
  induction evs with
  | nil =>
    intro n t now h
    have : t ≤ now := by simpa using h
    unfold busy
    split_ifs <;> constructor <;> linarith
  | cons x r ih =>
    obtain ⟨t', e⟩ := x
    intro n t now h
    simp only [List.map_cons, List.cons_append, List.pairwise_cons] at h
    have ht : t ≤ t' := h.1 t' (by simp)
    obtain ⟨i1, i2⟩ := ih (after L n e) t' now (by simpa [List.pairwise_cons] using h.2)
    rw [busy]
    split_ifs <;> constructor <;> linarith

/-- **C73 (report).**  The rows of the report are the timers, each once, in order of falling total time, with their
hits and mean time. -/
theorem C73_report (entries : List (String × Info)) (rows : List (String × ℝ × ℝ × Nat × ℝ)) (h : report entries = .ok rows) :
    ∃ order : List (String × Info), order.Perm entries ∧ order.Pairwise (fun a b => b.2.total ≤ a.2.total) ∧
      rows.map (fun r => (r.1, r.2.1, r.2.2.2)) = order.map fun kv => (kv.1, kv.2.total, kv.2.hits, kv.2.total / (kv.2.hits : ℝ)) := by
  unfold report at h
  have hp := List.mergeSort_perm entries (fun a b => decide (a.2.total ≥ b.2.total))
  have hs := List.pairwise_mergeSort (le := fun a b : String × Info => decide (a.2.total ≥ b.2.total))
    (by intro a b c; simp only [decide_eq_true_eq]; intro h1 h2; linarith)
    (by intro a b; simp only [Bool.or_eq_true, decide_eq_true_eq]; exact le_total _ _) entries
  generalize entries.mergeSort (fun a b => decide (a.2.total ≥ b.2.total)) = w at *
  cases w with
  | nil => exact absurd h (by simp)
  | cons top rest =>
    simp only [Except.ok.injEq] at h
    subst h
    refine ⟨top :: rest, hp, hs.imp (by intro a b; simp), ?_⟩
    simp

/-- **C73 (report), violated.**  The column headed "% of top" is to show the percentage of the largest total time, so
100 for the timer with the largest; it shows 1. -/
theorem C73_percent_violated : ∃ (entries : List (String × Info)) (rows : List (String × ℝ × ℝ × Nat × ℝ)),
    report entries = .ok rows ∧ ∃ r ∈ rows, r.2.1 = 2 ∧ (∀ r' ∈ rows, r'.2.1 ≤ r.2.1) ∧ r.2.2.1 = 1 := by
  refine ⟨[("run", ⟨2, 2, false, 0, 0, 1⟩)], [("run", 2, 1, 1, 2)], ?_, ("run", 2, 1, 1, 2), by simp, rfl, by simp, rfl⟩
  simp [report]

/-- The report of no timers reads past the end of an empty sequence. -/
theorem C73_empty_report : report [] = .error (.ub "max_element of an empty map") := by
  simp [report]

/-- Clearing all timers while one exists leaves it with a dangling reference. -/
theorem C73_cleanup_dangling (t1 t2 t3 : ℝ) :
    run (fun _ => none) [(t1, .start "run"), (t2, .cleanup), (t3, .stop "run")]
      = .error (.ub "reference to an erased entry") := by
  simp [run, step, stop]

/-- A concrete history: two nested objects, another label, a reset in between. -/
example : (∀ L, Legal L 0 [(1, .start "a"), (2, .start "b"), (3, .start "a"), (4, .stop "a"), (5, .reset "a"), (7, .stop "a")])
    ∧ busy "a" 0 0 [(1, .start "a"), (2, .start "b"), (3, .start "a"), (4, .stop "a"), (5, .reset "a"), (7, .stop "a")] 9 = 6 := by
  constructor
  · intro L
    refine ⟨by simp, by simp, by simp, by simp, by simp, by simp, by simp, ?_, by simp, by simp, by simp, ?_, trivial⟩
    all_goals
      intro h
      obtain rfl : "a" = L := by injection h
      decide
  · simp [busy, after]
    norm_num

end Verif.Timer
