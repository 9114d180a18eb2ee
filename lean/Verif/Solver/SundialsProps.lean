import Mathlib.Algebra.Order.Field.Basic
import Mathlib.Tactic.Ring
import Mathlib.Tactic.Linarith
import Verif.Solver.SundialsSpec

/-! # Invariants of the SUNDIALS drivers -/

namespace Verif.Sundials

variable {K V : Type} [Field K] [LinearOrder K] [IsStrictOrderedRing K]

omit [IsStrictOrderedRing K] in
theorem allGood_nil (o : Nat → Option (Inner K V)) (t0 dtout : K) : AllGood o t0 dtout [] := by
  intro pre e post h
  cases pre <;> simp at h

omit [IsStrictOrderedRing K] in
theorem allGood_snoc {o : Nat → Option (Inner K V)} {t0 dtout : K} {log : List (Event K V)} {e : Event K V}
    (h : AllGood o t0 dtout log) (he : Good o t0 dtout log e) : AllGood o t0 dtout (log ++ [e]) := by
  intro pre e' post hl
  rcases List.eq_nil_or_concat post with hp | ⟨p', q, hp⟩
  · subst hp
    obtain ⟨h1, h2⟩ := List.append_inj' hl rfl
    cases h2; subst h1; exact he
  · subst hp
    rw [List.concat_eq_append, ← List.cons_append, ← List.append_assoc] at hl
    obtain ⟨h1, _⟩ := List.append_inj' hl rfl
    exact h _ _ _ h1

omit [Field K] [LinearOrder K] [IsStrictOrderedRing K] in
theorem outs_append (a b : List (Event K V)) : outs (a ++ b) = outs a + outs b := by
  induction a with
  | nil => simp [outs]
  | cons e l ih => cases e <;> simp [outs, ih] <;> omega

omit [Field K] [LinearOrder K] [IsStrictOrderedRing K] in
theorem steps_append (a b : List (Event K V)) : steps (a ++ b) = steps a + steps b := by
  induction a with
  | nil => simp [steps]
  | cons e l ih => cases e <;> simp [steps, ih] <;> omega

/-- The integrator's memory describes the trajectory: the last step ends at its time and covers every time
after `lo`. -/
structure MemOk (o : Nat → Option (Inner K V)) (t0 : K) (m : Mem K V) : Prop where
  reached : Reached o t0 m.n m.tn
  last : ∀ k, m.n = k + 1 → ∃ tn i, Reached o t0 k tn ∧ o k = some i ∧ m.tn = tn + i.h ∧ m.hu = i.h ∧
    m.dense = i.dense
  fresh : m.n = 0 → m.tn = t0

theorem memOk_step {o : Nat → Option (Inner K V)} {t0 : K} {m m' : Mem K V} {x : V} (hm : MemOk o t0 m)
    (h : step o m = some (m', x)) : MemOk o t0 m' ∧ m'.n = m.n + 1 ∧ m'.tn - m'.hu = m.tn ∧
      ∃ i, o m.n = some i ∧ m'.tn = m.tn + i.h ∧ x = i.seen := by
  rw [step] at h
  cases ho : o m.n with
  | none => rw [ho] at h; cases h
  | some i =>
    rw [ho] at h
    cases h
    refine ⟨⟨Reached.succ hm.reached ho, ?_, ?_⟩, rfl, ?_, i, rfl, rfl, rfl⟩
    · intro k hk
      have : m.n = k := by simpa using hk
      subst this
      exact ⟨m.tn, i, hm.reached, ho, rfl, rfl, rfl⟩
    · intro h; simp at h
    · simp

omit [LinearOrder K] [IsStrictOrderedRing K] in
theorem step_none {o : Nat → Option (Inner K V)} {m : Mem K V} (h : step o m = none) : o m.n = none := by
  rw [step] at h
  cases ho : o m.n with
  | none => rfl
  | some i => rw [ho] at h; cases h

theorem normal_ok {o : Nat → Option (Inner K V)} {t0 tout : K} (ht0 : t0 < tout) (rem : Nat) {m m' : Mem K V}
    {x x' : V} {b : Bool} (hm : MemOk o t0 m) (hlo : m.n = 0 ∨ m.tn - m.hu < tout)
    (h : normal o tout rem m x = (b, m', x')) :
    MemOk o t0 m' ∧ (b = true → 0 < m'.n ∧ m'.tn - m'.hu < tout ∧ tout ≤ m'.tn) ∧
      (b = false → m'.tn < tout ∧ (o m'.n = none ∨ m'.n = m.n + rem)) := by
  have hlt : ∀ m : Mem K V, MemOk o t0 m → ¬ (0 < m.n ∧ tout ≤ m.tn) → m.tn < tout := by
    intro m hm hc
    by_cases hn : m.n = 0
    · rw [hm.fresh hn]; exact ht0
    · exact lt_of_not_ge fun hge => hc ⟨by omega, hge⟩
  induction rem generalizing m x with
  | zero =>
    rw [normal] at h
    by_cases hc : 0 < m.n ∧ tout ≤ m.tn
    · rw [if_pos hc] at h; cases h
      exact ⟨hm, fun _ => ⟨hc.1, hlo.resolve_left (Nat.ne_of_gt hc.1), hc.2⟩, by simp⟩
    · rw [if_neg hc] at h; cases h
      exact ⟨hm, by simp, fun _ => ⟨hlt _ hm hc, .inr rfl⟩⟩
  | succ rem ih =>
    rw [normal] at h
    by_cases hc : 0 < m.n ∧ tout ≤ m.tn
    · rw [if_pos hc] at h; cases h
      exact ⟨hm, fun _ => ⟨hc.1, hlo.resolve_left (Nat.ne_of_gt hc.1), hc.2⟩, by simp⟩
    · rw [if_neg hc] at h
      cases hs : step o m with
      | none =>
        have hn := step_none hs
        rw [hs] at h; cases h; exact ⟨hm, by simp, fun _ => ⟨hlt _ hm hc, .inl hn⟩⟩
      | some p =>
        obtain ⟨m1, x1⟩ := p
        rw [hs] at h
        obtain ⟨h1, h2, h3, _⟩ := memOk_step hm hs
        obtain ⟨a, b, c⟩ := ih h1 (.inr (by rw [h3]; exact hlt m hm hc)) h
        refine ⟨a, b, fun hb => ⟨(c hb).1, (c hb).2.imp_right fun h => ?_⟩⟩
        rw [h, h2]; omega

/-- A time in the last step: the dense output there is the solution. -/
theorem MemOk.solution {o : Nat → Option (Inner K V)} {t0 : K} {m : Mem K V} {t : K} (hm : MemOk o t0 m)
    (h : 0 < m.n) (h1 : m.tn - m.hu < t) (h2 : t ≤ m.tn) : Solution o t0 t (m.dense t) := by
  obtain ⟨k, hk⟩ : ∃ k, m.n = k + 1 := ⟨m.n - 1, by omega⟩
  obtain ⟨tn, i, a, b, c, d, e⟩ := hm.last k hk
  refine ⟨k, tn, i, a, b, ?_, ?_, by rw [e]⟩
  · rw [c, d] at h1; linarith
  · rw [c] at h2; exact h2

/-- What holds between output steps. -/
structure Inv (o : Nat → Option (Inner K V)) (t0 dtout : K) (single : Bool) (i : Nat) (s : St K V) : Prop where
  mem : MemOk o t0 s.mem
  time : s.simtime = t0 + i * dtout
  cover : s.mem.n = 0 ∨ s.mem.tn - s.mem.hu < s.simtime
  ahead : s.simtime ≤ s.mem.tn
  outs : outs s.log = i
  steps : single = true → steps s.log = s.mem.n
  none : single = false → Verif.Sundials.steps s.log = 0
  log : AllGood o t0 dtout s.log

/-- The loop in single-step mode. -/
theorem stepping_ok {o : Nat → Option (Inner K V)} {t0 dtout tout : K} (fuel : Nat) {s : St K V}
    {r : St K V ⊕ St K V} (hm : MemOk o t0 s.mem) (hlo : s.mem.n = 0 ∨ s.mem.tn - s.mem.hu < tout)
    (hs : steps s.log = s.mem.n) (hl : AllGood o t0 dtout s.log) (h : stepping o tout fuel s = some r) :
    let s' := r.elim id id
    MemOk o t0 s'.mem ∧ (s'.mem.n = 0 ∨ s'.mem.tn - s'.mem.hu < tout) ∧ steps s'.log = s'.mem.n ∧
      AllGood o t0 dtout s'.log ∧ outs s'.log = outs s.log ∧ s'.simtime = s.simtime ∧
      (∀ q, r = .inr q → tout ≤ q.mem.tn) ∧ (∀ q, r = .inl q → o q.mem.n = none ∧ q.mem.tn < tout) := by
  induction fuel generalizing s with
  | zero =>
    rw [stepping] at h
    by_cases hc : s.mem.tn < tout
    · rw [if_pos hc] at h; cases h
    · rw [if_neg hc] at h; cases h
      refine ⟨hm, hlo, hs, hl, rfl, rfl, ?_, ?_⟩
      · rintro q ⟨⟩; exact le_of_not_gt hc
      · rintro q ⟨⟩
  | succ fuel ih =>
    rw [stepping] at h
    by_cases hc : s.mem.tn < tout
    · rw [if_pos hc] at h
      cases hst : step o s.mem with
      | none =>
        rw [hst] at h; cases h
        refine ⟨hm, hlo, hs, hl, rfl, rfl, ?_, ?_⟩
        · rintro q ⟨⟩
        · rintro q ⟨⟩
          exact ⟨step_none hst, hc⟩
      | some p =>
        obtain ⟨m1, x1⟩ := p
        rw [hst] at h
        obtain ⟨h1, h2, h3, i, h4, h5, h6⟩ := memOk_step hm hst
        have := ih (s := { s with mem := m1, vars := x1, log := s.log ++ [.stepMonitor m1.tn (m1.tn - s.mem.tn) x1] })
          h1 (.inr (by show m1.tn - m1.hu < tout; rw [h3]; exact hc))
          (by show Verif.Sundials.steps (s.log ++ _) = m1.n; rw [steps_append, hs, h2]; rfl)
          (allGood_snoc hl (by
            refine ⟨s.mem.tn, i, ?_, ?_, h5, ?_, h6⟩
            · rw [hs]; exact hm.reached
            · rw [hs]; exact h4
            · rw [h5]; ring)) h
        obtain ⟨a1, a2, a3, a4, a5, a6, a7⟩ := this
        refine ⟨a1, a2, a3, a4, ?_, a6, a7⟩
        rw [a5, outs_append]; rfl
    · rw [if_neg hc] at h; cases h
      refine ⟨hm, hlo, hs, hl, rfl, rfl, ?_, ?_⟩
      · rintro q ⟨⟩; exact le_of_not_gt hc
      · rintro q ⟨⟩

/-- Is the driver in single-step mode? -/
def single (k : Kind) (ms : Bool) : Bool := ms && decide (k ≠ .ida)

theorem single_false {k : Kind} {ms : Bool} (h : ms = false ∨ k = .ida) : single k ms = false := by
  rcases h with h | h <;> simp [single, h]

theorem single_true {k : Kind} {ms : Bool} (h : ¬ (ms = false ∨ k = .ida)) : single k ms = true := by
  simp only [not_or, Bool.not_eq_false] at h
  simp [single, h.1, h.2]

/-- Why the integrator may fail to reach output `i`: a step failed before it, or (when the integrator drives)
`mx` steps after the previous output did not reach it. -/
def Failed (o : Nat → Option (Inner K V)) (t0 dtout : K) (mx : Nat) (single : Bool) (i : Nat) : Prop :=
  ∃ n t, Reached o t0 n t ∧ t < t0 + (i + 1) * dtout ∧
    (o n = none ∨ (single = false ∧ ∃ n' t', n = n' + mx ∧ Reached o t0 n' t' ∧ t0 + i * dtout ≤ t'))

/-- What `run(tout)` achieved. -/
structure Done (o : Nat → Option (Inner K V)) (t0 dtout : K) (single : Bool) (i : Nat) (s : St K V) : Prop where
  mem : MemOk o t0 s.mem
  time : s.simtime = t0 + (i + 1) * dtout
  cover : 0 < s.mem.n ∧ s.mem.tn - s.mem.hu < s.simtime
  ahead : s.simtime ≤ s.mem.tn
  outs : outs s.log = i
  steps : single = true → steps s.log = s.mem.n
  none : single = false → Verif.Sundials.steps s.log = 0
  log : AllGood o t0 dtout s.log
  sol : Solution o t0 s.simtime s.vars
  ran : ∃ pre, s.log = pre ++ [.rhs s.simtime s.vars]

/-- What is left after a failure. -/
structure Fell (o : Nat → Option (Inner K V)) (t0 dtout : K) (mx : Nat) (single : Bool) (i : Nat) (s : St K V) : Prop where
  outs : outs s.log = i
  none : single = false → steps s.log = 0
  log : AllGood o t0 dtout s.log
  why : Failed o t0 dtout mx single i

theorem failWith_cases (k : Kind) (s : St K V) :
    (failWith k s = .threw s ∧ k = .cvode) ∨ (failWith k s = .ret (-1) s ∧ k ≠ .cvode) := by
  cases k <;> simp [failWith]

theorem runTo_ok {o : Nat → Option (Inner K V)} {t0 dtout : K} (hd : 0 < dtout) {k : Kind} {ms : Bool} {mx fuel : Nat}
    {i : Nat} {s : St K V} {r : Res K V} (hi : Inv o t0 dtout (single k ms) i s)
    (h : runTo k ms mx o fuel (s.simtime + dtout) s = some r) :
    (∃ s', r = .ret s'.simtime s' ∧ Done o t0 dtout (single k ms) i s') ∨
    (∃ s', ((r = .threw s' ∧ k = .cvode) ∨ (r = .ret (-1) s' ∧ k ≠ .cvode)) ∧
      Fell o t0 dtout mx (single k ms) i s') := by
  have htout : s.simtime + dtout = t0 + ((i : K) + 1) * dtout := by rw [hi.time]; ring
  have hpos : (0 : K) ≤ i * dtout := mul_nonneg (Nat.cast_nonneg i) hd.le
  have ht0 : t0 < s.simtime + dtout := by rw [hi.time]; linarith
  have hcov : s.mem.n = 0 ∨ s.mem.tn - s.mem.hu < s.simtime + dtout :=
    hi.cover.imp_right fun h => by linarith
  rw [runTo] at h
  by_cases hc : ms = false ∨ k = .ida
  · rw [if_pos hc] at h
    have hsf := single_false hc
    generalize hn : normal o (s.simtime + dtout) mx s.mem s.vars = q at h
    obtain ⟨b, m, x⟩ := q
    obtain ⟨h1, h2, h3⟩ := normal_ok ht0 mx hi.mem hcov hn
    dsimp only at h
    cases b with
    | true =>
      obtain ⟨a1, a2, a3⟩ := h2 rfl
      have hsol := h1.solution a1 a2 a3
      simp only [finish, if_true, Option.some.injEq] at h
      left
      subst h
      refine ⟨St.mk m (m.dense (s.simtime + dtout)) (s.simtime + dtout)
        (s.log ++ [.rhs (s.simtime + dtout) (m.dense (s.simtime + dtout))]), rfl, ⟨h1, htout, ⟨a1, a2⟩, a3, ?_, ?_, ?_, ?_, hsol, ⟨s.log, rfl⟩⟩⟩
      · show Verif.Sundials.outs (s.log ++ _) = i
        rw [outs_append, hi.outs]; rfl
      · intro h; rw [hsf] at h; cases h
      · intro _
        show Verif.Sundials.steps (s.log ++ _) = 0
        rw [steps_append, hi.none hsf]; rfl
      · exact allGood_snoc hi.log (.inl hsol)
    | false =>
      obtain ⟨a1, a2⟩ := h3 rfl
      simp only [finish, Bool.false_eq_true, if_false, Option.some.injEq] at h
      right
      subst h
      refine ⟨_, failWith_cases _ _, ⟨?_, ?_, ?_, ?_⟩⟩
      · show Verif.Sundials.outs (s.log ++ _) = i
        rw [outs_append, hi.outs]; rfl
      · intro _
        show Verif.Sundials.steps (s.log ++ _) = 0
        rw [steps_append, hi.none hsf]; rfl
      · refine allGood_snoc hi.log (.inr ⟨m.n, h1.reached, ?_⟩)
        show m.tn < _
        rw [hi.outs, ← htout]; exact a1
      · refine ⟨m.n, m.tn, h1.reached, by rw [← htout]; exact a1, a2.imp_right fun h => ⟨hsf, ?_⟩⟩
        exact ⟨s.mem.n, s.mem.tn, h, hi.mem.reached, by rw [← hi.time]; exact hi.ahead⟩
  · rw [if_neg hc] at h
    have hst := single_true hc
    cases hs : stepping o (s.simtime + dtout) fuel s with
    | none => rw [hs] at h; cases h
    | some r' =>
      rw [hs] at h
      obtain ⟨a1, a2, a3, a4, a5, a6, a7, a8⟩ := stepping_ok (dtout := dtout) fuel hi.mem hcov (hi.steps hst) hi.log hs
      cases r' with
      | inl s' =>
        simp only [Option.some.injEq] at h
        subst h
        simp only [Sum.elim_inl, id] at a1 a2 a3 a4 a5 a6
        obtain ⟨b1, b2⟩ := a8 s' rfl
        right
        refine ⟨_, failWith_cases _ _, ⟨by rw [a5, hi.outs], fun h => (by rw [hst] at h; cases h), a4, ?_⟩⟩
        exact ⟨s'.mem.n, s'.mem.tn, a1.reached, by rw [← htout]; exact b2, .inl b1⟩
      | inr s' =>
        simp only [Sum.elim_inr, id] at a1 a2 a3 a4 a5 a6
        have b1 := a7 s' rfl
        have hn : 0 < s'.mem.n := by
          apply Nat.pos_of_ne_zero
          intro h0
          rw [a1.fresh h0] at b1
          linarith
        have b2 := a2.resolve_left (by omega)
        have hg : getDky s'.mem (s.simtime + dtout) = some (s'.mem.dense (s.simtime + dtout)) := by
          rw [getDky, if_pos ⟨hn, b2.le, b1⟩]
        have hsol := a1.solution hn b2 b1
        simp only [hg, finish, if_true, Option.some.injEq] at h
        left
        subst h
        refine ⟨St.mk s'.mem (s'.mem.dense (s.simtime + dtout)) (s.simtime + dtout)
          (s'.log ++ [.rhs (s.simtime + dtout) (s'.mem.dense (s.simtime + dtout))]), rfl, ⟨a1, htout, ⟨hn, b2⟩, b1, ?_, ?_, ?_, ?_, hsol, ⟨s'.log, rfl⟩⟩⟩
        · show Verif.Sundials.outs (s'.log ++ _) = i
          rw [outs_append, a5, hi.outs]; rfl
        · intro _
          show Verif.Sundials.steps (s'.log ++ _) = s'.mem.n
          rw [steps_append, a3]; rfl
        · intro h; rw [hst] at h; cases h
        · exact allGood_snoc a4 (.inl hsol)

/-- The next output time is negative, and then a success is taken for a failure. -/
def Negative (t0 dtout : K) (i : Nat) : Prop := t0 + ((i : K) + 1) * dtout < 0

theorem run_ok {o : Nat → Option (Inner K V)} {t0 dtout : K} (hd : 0 < dtout) {k : Kind} {ms : Bool} {mx fuel : Nat}
    {quit : Nat → Bool} (left : Nat) {i : Nat} {s : St K V} {e : End K V} (hi : Inv o t0 dtout (single k ms) i s)
    (h : run k ms mx o fuel dtout quit left i s = some e) :
    AllGood o t0 dtout e.st.log ∧ (single k ms = false → steps e.st.log = 0) ∧
    (∀ s', e = .returned s' → (outs s'.log = i + left ∨
        ∃ j, quit j = true ∧ i ≤ j ∧ j < i + left ∧ outs s'.log = j + 1) ∧
      (∀ j, i ≤ j → j + 1 < outs s'.log → quit j = false)) ∧
    (∀ s', e = .threw s' → outs s'.log < i + left ∧ i ≤ outs s'.log ∧
        (∀ j, i ≤ j → j < outs s'.log → quit j = false) ∧
      (Failed o t0 dtout mx (single k ms) (outs s'.log) ∨ Negative t0 dtout (outs s'.log))) := by
  induction left generalizing i s with
  | zero =>
    rw [run] at h
    cases h
    refine ⟨hi.log, fun h => (hi.none h), ?_, ?_⟩
    · rintro s' ⟨⟩
      refine ⟨.inl hi.outs, fun j h1 h2 => ?_⟩
      rw [hi.outs] at h2; omega
    · rintro s' ⟨⟩
  | succ left ih =>
    rw [run] at h
    cases hr : runTo k ms mx o fuel (s.simtime + dtout) s with
    | none => rw [hr] at h; cases h
    | some r =>
      rw [hr] at h
      rcases runTo_ok hd hi hr with ⟨s', rfl, hs'⟩ | ⟨s', (⟨rfl, hk⟩ | ⟨rfl, hk⟩), hs'⟩
      · dsimp only at h
        by_cases hneg : s'.simtime < 0
        · rw [if_pos hneg] at h
          cases h
          refine ⟨hs'.log, fun h => (hs'.none h), ?_, ?_⟩
          · rintro s'' ⟨⟩
          · rintro s'' ⟨⟩
            refine ⟨?_, ?_, ?_, .inr ?_⟩
            · rw [hs'.outs]; omega
            · rw [hs'.outs]
            · intro j h1 h2; rw [hs'.outs] at h2; omega
            · rw [Negative, hs'.outs, ← hs'.time]; exact hneg
        · rw [if_neg hneg] at h
          have hout : outs (s'.log ++ [.monitor s'.simtime i s'.vars]) = i + 1 := by
            rw [outs_append, hs'.outs]; rfl
          have hgood : AllGood o t0 dtout (s'.log ++ [.monitor s'.simtime i s'.vars]) :=
            allGood_snoc hs'.log ⟨hs'.outs.symm, hs'.time, hs'.sol, hs'.ran, le_of_not_gt hneg⟩
          have hsteps : steps (s'.log ++ [.monitor s'.simtime i s'.vars]) = steps s'.log := by
            rw [steps_append]; rfl
          by_cases hq : quit i = true
          · rw [if_pos hq] at h
            cases h
            refine ⟨hgood, fun h => (hsteps.trans (hs'.none h)), ?_, ?_⟩
            · rintro s'' ⟨⟩
              refine ⟨.inr ⟨i, hq, le_refl _, by omega, hout⟩, ?_⟩
              intro j h1 h2
              rw [hout] at h2; omega
            · rintro s'' ⟨⟩
          · rw [if_neg hq] at h
            have hq' : quit i = false := by simpa using hq
            have hinv : Inv o t0 dtout (single k ms) (i + 1)
                { s' with log := s'.log ++ [.monitor s'.simtime i s'.vars] } :=
              { mem := hs'.mem
                time := by
                  show s'.simtime = _
                  rw [hs'.time]; push_cast; rfl
                cover := .inr hs'.cover.2
                ahead := hs'.ahead
                outs := hout
                steps := fun h => hsteps.trans (hs'.steps h)
                none := fun h => hsteps.trans (hs'.none h)
                log := hgood }
            obtain ⟨b1, b2, b3, b4⟩ := ih hinv h
            refine ⟨b1, b2, ?_, ?_⟩
            · intro s'' he
              obtain ⟨c1, c2⟩ := b3 s'' he
              refine ⟨?_, ?_⟩
              · rcases c1 with c1 | ⟨j, d1, d2, d3, d4⟩
                · left; omega
                · exact .inr ⟨j, d1, by omega, by omega, d4⟩
              · intro j h1 h2
                rcases Nat.eq_or_lt_of_le h1 with h | h
                · rw [← h]; exact hq'
                · exact c2 j (by omega) h2
            · intro s'' he
              obtain ⟨c1, c2, c3, c4⟩ := b4 s'' he
              refine ⟨by omega, by omega, ?_, c4⟩
              intro j h1 h2
              rcases Nat.eq_or_lt_of_le h1 with h | h
              · rw [← h]; exact hq'
              · exact c3 j (by omega) h2
      · cases h
        refine ⟨hs'.log, hs'.none, by rintro s'' ⟨⟩, ?_⟩
        rintro s'' ⟨⟩
        refine ⟨by rw [hs'.outs]; omega, by rw [hs'.outs], fun j h1 h2 => ?_, .inl (by rw [hs'.outs]; exact hs'.why)⟩
        rw [hs'.outs] at h2; omega
      · dsimp only at h
        have : (-1 : K) < 0 := by linarith [zero_lt_one (α := K)]
        rw [if_pos this] at h
        cases h
        refine ⟨hs'.log, hs'.none, by rintro s'' ⟨⟩, ?_⟩
        rintro s'' ⟨⟩
        refine ⟨by show outs s'.log < _; rw [hs'.outs]; omega, by show i ≤ outs s'.log; rw [hs'.outs], fun j h1 h2 => ?_, .inl ?_⟩
        · have h2' : j < outs s'.log := h2
          rw [hs'.outs] at h2'; omega
        · show Failed _ _ _ _ _ (outs s'.log)
          rw [hs'.outs]; exact hs'.why

end Verif.Sundials
