import Mathlib.Algebra.Order.Field.Basic
import Mathlib.Algebra.Module.Basic
import Mathlib.Tactic.Ring
import Mathlib.Tactic.FieldSimp
import Mathlib.Tactic.Linarith
import Mathlib.Tactic.LinearCombination
import Mathlib.Tactic.Module
import Verif.Solver.SnesSpec

/-!
# Invariant of the SNES run loop
-/

namespace Verif.Snes

variable {K V : Type} [Field K] [LinearOrder K] [IsStrictOrderedRing K] [AddCommGroup V] [Module K V]

omit [IsStrictOrderedRing K] [AddCommGroup V] [Module K V] in
theorem all_snoc (P : Params K) (w : View K V) (l : List (Event K V)) (e : Event K V) :
    w.all P (l ++ [e]) = (w.all P l).see P e := by
  simp [View.all]

omit [IsStrictOrderedRing K] in
theorem allGood_nil (P : Params K) (f : K → V → V) (snes : Nat → Answer V) (lag : Int) (w : View K V) :
    AllGood P f snes lag w [] := by
  intro a e b h
  simp at h

omit [IsStrictOrderedRing K] in
theorem allGood_snoc (P : Params K) (f : K → V → V) (snes : Nat → Answer V) (lag : Int) (w : View K V)
    (l : List (Event K V)) (e : Event K V) (hl : AllGood P f snes lag w l)
    (he : Good P f snes lag (w.all P l) e) : AllGood P f snes lag w (l ++ [e]) := by
  intro a e' b h
  rcases List.eq_nil_or_concat b with hb | ⟨b', c, hb⟩
  · subst hb
    have := List.append_inj_right' h.symm rfl
    have h2 := List.append_inj_left' h.symm rfl
    simp only [List.cons.injEq, and_true] at this
    subst this
    subst h2
    exact he
  · subst hb
    rw [List.concat_eq_append, ← List.cons_append, ← List.append_assoc] at h
    have h2 := List.append_inj_left' h rfl
    exact hl a e' b' h2

/-- The last event is not a pending one. -/
def Idle (o : Option (Event K V)) : Prop :=
  o ≠ some .reset ∧ (∀ t' dt' x' g' l', o ≠ some (.solve t' dt' x' g' l')) ∧ (∀ t' x', o ≠ some (.rhs t' x'))

/-- What ties the solver's state to the events, whenever no solve is pending. -/
structure Core (P : Params K) (f : K → V → V) (snes : Nat → Answer V) (lag : Int) (w0 : View K V)
    (w : View K V) (s : St K V) : Prop where
  view : w = w0.all P s.log
  good : AllGood P f snes lag w0 s.log
  t : s.t = w.t
  x : s.x = w.x
  h : s.timestep = w.h
  pred : s.predictor = w.pred
  calls : s.calls = w.solves
  prev : ∀ t1 x1, w.prev = some (t1, x1) → t1 < w.t ∧ (s.predictor = true → s.time1 = t1 ∧ s.x1 = x1)
  noPrev : w.prev = none → ¬ 0 < s.time1

/-- The invariant at the top of the do-while loop. -/
structure Inv (P : Params K) (f : K → V → V) (snes : Nat → Answer V) (lag : Int) (w0 : View K V)
    (target : K) (s : St K V) (w : View K V) : Prop where
  core : Core P f snes lag w0 w s
  tgt : target = w.target P
  before : w.t < target
  after : target ≤ w.t + P.dtout
  idle : Idle w.last
  failed : w.last = some .failed → s.saved = lag ∧ s.lag = 1
  notFailed : w.last ≠ some .failed → s.saved = 0 ∧ s.lag = lag

/-- What holds when an attempt is about to be made. -/
structure Mid (P : Params K) (f : K → V → V) (snes : Nat → Answer V) (lag : Int) (w0 : View K V)
    (target : K) (s : St K V) (w : View K V) : Prop where
  core : Core P f snes lag w0 w s
  x0 : s.x0 = s.x
  tgt : target = w.target P
  before : w.t < target
  after : target ≤ w.t + P.dtout
  pos : 0 < w.h
  limit : w.last = some .reset ∨ P.dtMin ≤ w.h
  noSolve : ∀ t' dt' x' g' l', w.last ≠ some (.solve t' dt' x' g' l')
  noRhs : ∀ t' x', w.last ≠ some (.rhs t' x')
  retried : retry w.last → s.saved = lag ∧ s.lag = 1
  fresh : ¬ retry w.last → s.saved = 0 ∧ s.lag = lag

/-- What holds when an output time has been reached. -/
structure Out (P : Params K) (f : K → V → V) (snes : Nat → Answer V) (lag : Int) (w0 : View K V)
    (target : K) (s : St K V) (w : View K V) : Prop where
  core : Core P f snes lag w0 w s
  tgt : target = w.target P
  now : w.t = target
  last : ∃ t' dt' x0 g xs its x', w.last = some (.accept t' dt' x0 g xs its x')
  saved : s.saved = 0 ∧ s.lag = lag

/-- What holds when the solver gives up. -/
structure Gave (P : Params K) (f : K → V → V) (snes : Nat → Answer V) (lag : Int) (w0 : View K V)
    (target : K) (s : St K V) (w : View K V) : Prop where
  core : Core P f snes lag w0 w s
  tgt : target = w.target P
  before : w.t < target
  small : w.h < P.dtMin
  last : w.last = some .failed

theorem stepSize_eq (target : K) (s : St K V) : stepSize target s = min s.timestep (target - s.t) := by
  unfold stepSize
  by_cases h : target ≤ s.t + s.timestep
  · rw [if_pos h, min_eq_right]
    linarith
  · rw [if_neg h, min_eq_left]
    push Not at h
    linarith

theorem guess_eq {P : Params K} {f : K → V → V} {snes : Nat → Answer V} {lag : Int} {w0 : View K V}
    {target : K} {s : St K V} {w : View K V} (h : Core P f snes lag w0 w s) :
    guess target s = w.firstGuess (stepSize target s) := by
  unfold guess View.firstGuess
  rcases hp : w.prev with _ | ⟨t1, x1⟩
  · rw [if_neg (fun hh => h.noPrev hp hh.2)]
    exact h.x
  · obtain ⟨hlt, hk⟩ := h.prev t1 x1 hp
    by_cases hpr : s.predictor = true
    · obtain ⟨e1, e2⟩ := hk hpr
      rw [e1, e2, ← h.pred]
      by_cases h0 : s.predictor = true ∧ 0 < t1
      · rw [if_pos h0]
        dsimp only
        rw [if_pos h0]
        rw [line, h.t, h.x]
        generalize stepSize target s = d
        have hne : w.t - t1 ≠ 0 := by
          intro hh
          linarith
        have : (w.t + d - t1) / (w.t - t1) = 1 + d / (w.t - t1) := by
          field_simp
          ring
        rw [this]
        generalize d / (w.t - t1) = β
        module
      · rw [if_neg h0]
        dsimp only
        rw [if_neg h0]
        exact h.x
    · have hw : ¬ (w.pred = true ∧ 0 < t1) := by
        rw [← h.pred]
        exact fun hh => hpr hh.1
      rw [if_neg (fun hh => hpr hh.1)]
      dsimp only
      rw [if_neg hw]
      exact h.x

omit [AddCommGroup V] [Module K V] in
theorem adapt_eq (P : Params K) (its : Nat) (h : K) : adapt P its h = newSize P its h := by
  unfold adapt newSize
  have e1 : h * (11 / 10) = h * 11 / 10 := by ring
  have e2 : h * (9 / 10) = h * 9 / 10 := by ring
  dsimp only
  rw [e1, e2]
  by_cases h1 : its ≤ P.lowerIts
  · rw [if_pos h1, if_pos h1]
    by_cases h2 : P.maxDt < h * 11 / 10
    · rw [if_pos h2, min_eq_right h2.le]
    · rw [if_neg h2, min_eq_left (not_lt.mp h2)]
  · rw [if_neg h1, if_neg h1]

section
variable {P : Params K} {f : K → V → V} {snes : Nat → Answer V} {lag : Int} {w0 : View K V} {target : K}

/-- The state in which `SNESSolve` is called. -/
def called (target : K) (s : St K V) : St K V :=
  { s with dt := stepSize target s, calls := s.calls + 1,
           log := s.log ++ [.solve s.t (stepSize target s) s.x0 (guess target s) s.lag] }

/-- The attempt itself, after the possible reset. -/
def tryIt (P : Params K) (f : K → V → V) (snes : Nat → Answer V) (target : K) (s : St K V) : Res K V :=
  match snes s.calls with
  | .failed => .again (onFail (called target s))
  | .ok xs its =>
    if isLast target s then .stop (onSuccess P f (isLast target s) (guess target s) xs its (called target s))
    else .again (onSuccess P f (isLast target s) (guess target s) xs its (called target s))

omit [IsStrictOrderedRing K] in
theorem attempt_eq (s : St K V) : attempt P f snes target s =
    if s.timestep < P.dtMin ∧ s.saved ≠ 0 then .threw { s with x0 := s.x }
    else if s.timestep < P.dtMin then tryIt P f snes target (resetSt P { s with x0 := s.x })
    else tryIt P f snes target { s with x0 := s.x } := by
  unfold attempt
  dsimp only
  by_cases h1 : s.timestep < P.dtMin ∧ s.saved ≠ 0
  · rw [if_pos h1, if_pos h1]
  · rw [if_neg h1, if_neg h1]
    by_cases h2 : s.timestep < P.dtMin
    · rw [if_pos h2, if_pos h2]
      rfl
    · rw [if_neg h2, if_neg h2]
      rfl

theorem mid_of_inv (hmin : 0 < P.dtMin) {s : St K V} {w : View K V}
    (h : Inv P f snes lag w0 target s w) (hs : ¬ s.timestep < P.dtMin) :
    Mid P f snes lag w0 target { s with x0 := s.x } w := by
  have c := h.core
  have hh : P.dtMin ≤ w.h := by
    rw [← c.h]
    exact not_lt.mp hs
  have hr : retry w.last ↔ w.last = some .failed := by
    have h1 := h.idle.1
    rcases hl : w.last with _ | e
    · simp [retry]
    · cases e <;> simp_all [retry]
  exact ⟨⟨c.view, c.good, c.t, c.x, c.h, c.pred, c.calls, c.prev, c.noPrev⟩, rfl, h.tgt, h.before, h.after,
    lt_of_lt_of_le hmin hh, Or.inr hh, h.idle.2.1, h.idle.2.2, fun q => h.failed (hr.1 q),
    fun q => h.notFailed (fun hq => q (hr.2 hq))⟩

theorem mid_of_reset (hout : 0 < P.dtout) (hlag : lag ≠ 0) {s : St K V} {w : View K V}
    (h : Inv P f snes lag w0 target s w) (hs : s.timestep < P.dtMin) (h0 : ¬ s.saved ≠ 0) :
    Mid P f snes lag w0 target (resetSt P { s with x0 := s.x }) (w.see P .reset) := by
  have c := h.core
  have hnf : w.last ≠ some .failed := by
    intro hq
    have := (h.failed hq).1
    exact h0 (by rw [this]; exact hlag)
  obtain ⟨h1, h2⟩ := h.notFailed hnf
  refine ⟨⟨?_, ?_, c.t, c.x, rfl, rfl, c.calls, ?_, c.noPrev⟩, rfl, h.tgt, h.before, h.after, hout, Or.inl rfl, ?_, ?_, ?_, ?_⟩
  · show w.see P .reset = w0.all P (s.log ++ [.reset])
    rw [all_snoc, ← c.view]
  · refine allGood_snoc P f snes lag w0 s.log .reset c.good ?_
    rw [← c.view]
    exact ⟨by rw [← c.h]; exact hs, hnf, h.idle.1, by rw [← h.tgt]; exact h.before, h.idle.2.1, h.idle.2.2⟩
  · intro t1 x1 hp
    exact ⟨(c.prev t1 x1 hp).1, fun hf => by cases hf⟩
  · intro t' dt' x' g' l' hh
    simp [View.see] at hh
  · intro t' x' hh
    simp [View.see] at hh
  · intro _
    exact ⟨h2, rfl⟩
  · intro hq
    exact absurd trivial hq

/-- What the event of the solve is. -/
theorem good_solve {s : St K V} {w : View K V} (h : Mid P f snes lag w0 target s w) :
    Good P f snes lag w (.solve s.t (stepSize target s) s.x0 (guess target s) s.lag) := by
  have c := h.core
  refine ⟨c.t, by rw [h.x0]; exact c.x, ?_, ?_, guess_eq c, fun t1 x1 hp => (c.prev t1 x1 hp).1,
    fun q => (h.retried q).2, fun q => (h.fresh q).2, h.limit, h.noSolve, h.noRhs⟩
  · rw [stepSize_eq, c.h, c.t, h.tgt]
  · rw [stepSize_eq, c.h, c.t]
    exact lt_min h.pos (by linarith [h.before])

theorem called_log {s : St K V} {w : View K V} (h : Mid P f snes lag w0 target s w) :
    AllGood P f snes lag w0 (called target s).log := by
  refine allGood_snoc P f snes lag w0 s.log _ h.core.good ?_
  rw [← h.core.view]
  exact good_solve h

theorem called_view {s : St K V} {w : View K V} (h : Mid P f snes lag w0 target s w) :
    w0.all P (called target s).log =
      w.see P (.solve s.t (stepSize target s) s.x0 (guess target s) s.lag) := by
  show w0.all P (s.log ++ [_]) = _
  rw [all_snoc, ← h.core.view]

theorem inv_fail {s : St K V} {w : View K V} (h : Mid P f snes lag w0 target s w)
    (hlag : lag ≠ 0) (ha : snes s.calls = .failed) :
    ∃ w', Inv P f snes lag w0 target (onFail (called target s)) w' ∧ w'.outs = w.outs ∧ w'.t = w.t ∧
      w'.h = w.h / 2 ∧ w'.last = some .failed := by
  have c := h.core
  let e1 : Event K V := .solve s.t (stepSize target s) s.x0 (guess target s) s.lag
  have hsl : (onFail (called target s)).saved = lag ∧ (onFail (called target s)).lag = 1 := by
    unfold onFail
    dsimp only
    by_cases hr : retry w.last
    · obtain ⟨h1, h2⟩ := h.retried hr
      rw [if_neg (show ¬ (called target s).saved = 0 by show ¬ s.saved = 0; rw [h1]; exact hlag)]
      exact ⟨h1, h2⟩
    · obtain ⟨h1, h2⟩ := h.fresh hr
      rw [if_pos (show (called target s).saved = 0 from h1)]
      exact ⟨h2, rfl⟩
  have hrest : (onFail (called target s)).log = (called target s).log ++ [.failed] ∧
      (onFail (called target s)).t = s.t ∧ (onFail (called target s)).x = s.x0 ∧
      (onFail (called target s)).timestep = s.timestep / 2 ∧
      (onFail (called target s)).predictor = s.predictor ∧
      (onFail (called target s)).calls = s.calls + 1 ∧
      (onFail (called target s)).time1 = s.time1 ∧ (onFail (called target s)).x1 = s.x1 := by
    unfold onFail
    dsimp only
    by_cases hr : (called target s).saved = 0
    · rw [if_pos hr]
      exact ⟨rfl, rfl, rfl, rfl, rfl, rfl, rfl, rfl⟩
    · rw [if_neg hr]
      exact ⟨rfl, rfl, rfl, rfl, rfl, rfl, rfl, rfl⟩
  obtain ⟨r1, r2, r3, r4, r5, r6, r7, r8⟩ := hrest
  refine ⟨(w.see P e1).see P .failed, ⟨⟨?_, ?_, ?_, ?_, ?_, ?_, ?_, ?_, ?_⟩, ?_, ?_, ?_, ?_, ?_, ?_⟩, rfl, rfl, rfl, rfl⟩
  · rw [r1, all_snoc, called_view h]
  · rw [r1]
    refine allGood_snoc P f snes lag w0 _ _ (called_log h) ?_
    rw [called_view h]
    exact ⟨⟨_, _, _, _, _, rfl⟩, by rw [← ha, c.calls]; rfl⟩
  · rw [r2]
    exact c.t
  · rw [r3, h.x0]
    exact c.x
  · rw [r4, c.h]
    rfl
  · rw [r5]
    exact c.pred
  · rw [r6, c.calls]
    rfl
  · intro t1 x1 hp
    rw [r5, r7, r8]
    exact c.prev t1 x1 hp
  · intro hp
    rw [r7]
    exact c.noPrev hp
  · exact h.tgt
  · exact h.before
  · exact h.after
  · exact ⟨by simp [View.see], by simp [View.see], by simp [View.see]⟩
  · exact fun _ => hsl
  · intro hq
    exact absurd rfl hq

/-- Fields after a successful solve. -/
theorem onSuccess_fields (last : Bool) (g xs : V) (its : Nat) (s : St K V) :
    (onSuccess P f last g xs its s).log = s.log ++
      [.accept s.t s.dt s.x0 g xs its (if its = 0 then s.dt • f s.t xs + xs else xs)] ∧
    (onSuccess P f last g xs its s).t = s.t + s.dt ∧
    (onSuccess P f last g xs its s).x = (if its = 0 then s.dt • f s.t xs + xs else xs) ∧
    (onSuccess P f last g xs its s).timestep = (if last then s.timestep else adapt P its s.timestep) ∧
    (onSuccess P f last g xs its s).predictor = s.predictor ∧
    (onSuccess P f last g xs its s).calls = s.calls ∧
    (onSuccess P f last g xs its s).time1 = (if s.predictor then s.t else s.time1) ∧
    (onSuccess P f last g xs its s).x1 = (if s.predictor then s.x0 else s.x1) ∧
    (onSuccess P f last g xs its s).saved = 0 ∧
    (onSuccess P f last g xs its s).lag = (if s.saved ≠ 0 then s.saved else s.lag) := by
  unfold onSuccess
  dsimp only
  by_cases h1 : s.saved ≠ 0 <;> by_cases h2 : s.predictor = true <;> by_cases h3 : last = true <;>
    simp [h1, h2, h3]
  all_goals exact not_not.mp h1

theorem success_core (hlag : lag ≠ 0) {s : St K V} {w : View K V} (h : Mid P f snes lag w0 target s w) (xs : V) (its : Nat)
    (ha : snes s.calls = .ok xs its) (s' : St K V)
    (hs : s' = onSuccess P f (isLast target s) (guess target s) xs its (called target s)) :
    ∃ w', Core P f snes lag w0 w' s' ∧ w'.outs = w.outs ∧ w'.t0 = w.t0 ∧ w'.t = w.t + stepSize target s ∧
      (∃ t' dt' x0 g xs its x', w'.last = some (.accept t' dt' x0 g xs its x')) ∧
      s'.saved = 0 ∧ s'.lag = lag ∧
      (w'.h = if isLast target s then w.h else newSize P its w.h) := by
  have c := h.core
  obtain ⟨r1, r2, r3, r4, r5, r6, r7, r8, r9, r10⟩ :=
    onSuccess_fields (P := P) (f := f) (isLast target s) (guess target s) xs its (called target s)
  rw [← hs] at r1 r2 r3 r4 r5 r6 r7 r8 r9 r10
  have hpos : 0 < stepSize target s := by
    rw [stepSize_eq, c.h, c.t]
    exact lt_min h.pos (by linarith [h.before])
  let e1 : Event K V := .solve s.t (stepSize target s) s.x0 (guess target s) s.lag
  let x' := if its = 0 then stepSize target s • f s.t xs + xs else xs
  let e2 : Event K V := .accept s.t (stepSize target s) s.x0 (guess target s) xs its x'
  have hlst : ((w.see P e1).target P ≤ s.t + stepSize target s) ↔ isLast target s = true := by
    have : (w.see P e1).target P = target := h.tgt.symm
    rw [this, isLast, decide_eq_true_eq, stepSize]
    by_cases hq : target ≤ s.t + s.timestep
    · rw [if_pos hq]
      simp [hq]
    · rw [if_neg hq]
  have hh : ((w.see P e1).see P e2).h = if isLast target s then w.h else newSize P its w.h := by
    show (if s.t + stepSize target s < (w.see P e1).target P then newSize P its w.h else w.h) = _
    by_cases hq : isLast target s = true
    · rw [if_neg (not_lt.mpr (hlst.2 hq)), if_pos hq]
    · rw [if_pos (not_le.mp (fun hl => hq (hlst.1 hl))), if_neg hq]
  refine ⟨(w.see P e1).see P e2, ⟨?_, ?_, r2, r3, ?_, ?_, ?_, ?_, ?_⟩, rfl, rfl, ?_, ⟨_, _, _, _, _, _, _, rfl⟩, r9, ?_, hh⟩
  · rw [r1, all_snoc, called_view h]
    rfl
  · rw [r1]
    refine allGood_snoc P f snes lag w0 _ _ (called_log h) ?_
    rw [called_view h]
    refine ⟨⟨_, rfl⟩, by rw [← ha, c.calls]; rfl, fun hi => by rw [if_neg hi], fun hi => ?_⟩
    rw [if_pos hi]
    exact add_comm _ _
  · rw [r4, hh, adapt_eq]
    show (if isLast target s = true then s.timestep else newSize P its s.timestep) = _
    rw [c.h]
  · rw [r5]
    exact c.pred
  · rw [r6]
    show s.calls + 1 = w.solves + 1
    rw [c.calls]
  · intro t1 x1 hp
    have hp' : some (s.t, s.x0) = some (t1, x1) := hp
    simp only [Option.some.injEq, Prod.mk.injEq] at hp'
    obtain ⟨p1, p2⟩ := hp'
    refine ⟨?_, fun hpr => ?_⟩
    · show t1 < s.t + stepSize target s
      rw [← p1]
      linarith
    · rw [r5] at hpr
      have hpr' : s.predictor = true := hpr
      rw [r7, r8]
      show (if s.predictor = true then s.t else s.time1) = t1 ∧ (if s.predictor = true then s.x0 else s.x1) = x1
      rw [if_pos hpr', if_pos hpr']
      exact ⟨p1, p2⟩
  · intro hp
    have hp' : some (s.t, s.x0) = none := hp
    cases hp'
  · show s.t + stepSize target s = _
    rw [c.t]
  · rw [r10]
    show (if s.saved ≠ 0 then s.saved else s.lag) = lag
    by_cases hr : retry w.last
    · obtain ⟨h1, h2⟩ := h.retried hr
      rw [h1, if_pos hlag]
    · obtain ⟨h1, h2⟩ := h.fresh hr
      rw [h1, if_neg (by simp), h2]

/-- What one attempt does to the invariant. -/
theorem tryIt_inv (hlag : lag ≠ 0) {s : St K V} {w : View K V} (h : Mid P f snes lag w0 target s w) :
    (∃ s' w', tryIt P f snes target s = .again s' ∧ Inv P f snes lag w0 target s' w' ∧ w'.outs = w.outs ∧
      w'.t = w.t ∧ w'.h = w.h / 2 ∧ w'.last = some .failed) ∨
    (∃ s' w', tryIt P f snes target s = .again s' ∧ Inv P f snes lag w0 target s' w' ∧ w'.outs = w.outs ∧
      w'.t = w.t + w.h) ∨
    (∃ s' w', tryIt P f snes target s = .stop s' ∧ Out P f snes lag w0 target s' w' ∧ w'.outs = w.outs) := by
  have c := h.core
  rcases ha : snes s.calls with _ | ⟨xs, its⟩
  · left
    obtain ⟨w', h1, h2, h3, h4, h5⟩ := inv_fail h hlag ha
    refine ⟨_, w', ?_, h1, h2, h3, h4, h5⟩
    unfold tryIt
    rw [ha]
  · right
    obtain ⟨w', h1, h2, h3, h4, h5, h6, h7, h8⟩ := success_core hlag h xs its ha _ rfl
    have htgt : w'.target P = target := by
      rw [h.tgt]
      unfold View.target
      rw [h2, h3]
    by_cases hl : isLast target s = true
    · right
      refine ⟨_, w', ?_, ⟨h1, htgt.symm, ?_, h5, h6, h7⟩, h2⟩
      · unfold tryIt
        rw [ha]
        dsimp only
        rw [if_pos hl]
      · have hq : target ≤ s.t + s.timestep := of_decide_eq_true hl
        rw [h4, stepSize, if_pos hq, c.t]
        ring
    · left
      have hq : ¬ target ≤ s.t + s.timestep := fun hq => hl (decide_eq_true hq)
      have hstep : stepSize target s = w.h := by rw [stepSize, if_neg hq, c.h]
      have hlt : w'.t < target := by
        rw [h4, hstep, ← c.h, ← c.t]
        exact not_le.mp hq
      obtain ⟨t', dt', x0', g', xs', its', x'', hlast⟩ := h5
      refine ⟨_, w', ?_, ⟨h1, htgt.symm, hlt, ?_, ?_, ?_, fun _ => ⟨h6, h7⟩⟩, h2, by rw [h4, hstep]⟩
      · unfold tryIt
        rw [ha]
        dsimp only
        rw [if_neg hl]
      · rw [h4, hstep]
        linarith [h.after, h.pos]
      · rw [hlast]
        exact ⟨by simp, by simp, by simp⟩
      · rw [hlast]
        intro hh
        cases hh

/-- What one pass through the loop does to the invariant. -/
theorem attempt_inv (hmin : 0 < P.dtMin) (hout : 0 < P.dtout) (hlag : lag ≠ 0) {s : St K V} {w : View K V}
    (h : Inv P f snes lag w0 target s w) :
    (∃ s', attempt P f snes target s = .threw s' ∧ Gave P f snes lag w0 target s' w) ∨
    (∃ s' w', attempt P f snes target s = .again s' ∧ Inv P f snes lag w0 target s' w' ∧ w'.outs = w.outs ∧
      w'.t = w.t ∧ w'.last = some .failed ∧
      (P.dtMin ≤ w.h ∧ w'.h = w.h / 2 ∨ w.last ≠ some .failed ∧ w'.h = P.dtout / 2)) ∨
    (∃ s' w', attempt P f snes target s = .again s' ∧ Inv P f snes lag w0 target s' w' ∧ w'.outs = w.outs ∧
      w.t + P.dtMin ≤ w'.t) ∨
    (∃ s' w', attempt P f snes target s = .stop s' ∧ Out P f snes lag w0 target s' w' ∧ w'.outs = w.outs) := by
  have c := h.core
  rw [attempt_eq]
  by_cases h1 : s.timestep < P.dtMin ∧ s.saved ≠ 0
  · left
    rw [if_pos h1]
    refine ⟨_, rfl, ⟨⟨c.view, c.good, c.t, c.x, c.h, c.pred, c.calls, c.prev, c.noPrev⟩, h.tgt, h.before, ?_, ?_⟩⟩
    · rw [← c.h]
      exact h1.1
    · by_contra hq
      exact h1.2 (h.notFailed hq).1
  · right
    rw [if_neg h1]
    by_cases h2 : s.timestep < P.dtMin
    · rw [if_pos h2]
      have hsv : ¬ s.saved ≠ 0 := fun hq => h1 ⟨h2, hq⟩
      have hm := mid_of_reset hout hlag h h2 hsv
      have hnf : w.last ≠ some .failed := by
        intro hq
        exact hsv (by rw [(h.failed hq).1]; exact hlag)
      rcases tryIt_inv hlag hm with ⟨s', w', e, hi, ho, ht, hh, hl⟩ | ⟨s', w', e, hi, ho, ht⟩ | ⟨s', w', e, hi, ho⟩
      · exact Or.inl ⟨s', w', e, hi, ho, ht, hl, Or.inr ⟨hnf, hh⟩⟩
      · exfalso
        have hb := hi.before
        have hht : w'.t = w.t + P.dtout := ht
        have ha := h.after
        rw [hht] at hb
        exact absurd ha (not_le.mpr hb)
      · exact Or.inr (Or.inr ⟨s', w', e, hi, ho⟩)
    · rw [if_neg h2]
      have hm := mid_of_inv hmin h h2
      have hge : P.dtMin ≤ w.h := by
        rw [← c.h]
        exact not_lt.mp h2
      rcases tryIt_inv hlag hm with ⟨s', w', e, hi, ho, ht, hh, hl⟩ | ⟨s', w', e, hi, ho, ht⟩ | ⟨s', w', e, hi, ho⟩
      · exact Or.inl ⟨s', w', e, hi, ho, ht, hl, Or.inl ⟨hge, hh⟩⟩
      · exact Or.inr (Or.inl ⟨s', w', e, hi, ho, by rw [ht]; linarith⟩)
      · exact Or.inr (Or.inr ⟨s', w', e, hi, ho⟩)

/-- The invariant through the whole do-while loop. -/
theorem attempts_inv (hmin : 0 < P.dtMin) (hout : 0 < P.dtout) (hlag : lag ≠ 0) :
    ∀ (n : Nat) (s : St K V) (w : View K V), Inv P f snes lag w0 target s w →
      (∀ s', attempts P f snes target n s = .threw s' → ∃ w', Gave P f snes lag w0 target s' w' ∧ w'.outs = w.outs) ∧
      (∀ s', attempts P f snes target n s = .stop s' → ∃ w', Out P f snes lag w0 target s' w' ∧ w'.outs = w.outs) := by
  intro n
  induction n with
  | zero =>
    intro s w _
    exact ⟨fun s' hs => (by cases hs), fun s' hs => by cases hs⟩
  | succ n ih =>
    intro s w h
    unfold attempts
    rcases attempt_inv hmin hout hlag h with ⟨s', e, hg⟩ | ⟨s', w', e, hi, ho, _⟩ | ⟨s', w', e, hi, ho, _⟩ | ⟨s', w', e, hi, ho⟩
    · rw [e]
      dsimp only
      exact ⟨fun q hq => (by cases hq; exact ⟨w, hg, rfl⟩), fun q hq => by cases hq⟩
    · rw [e]
      dsimp only
      rw [← ho]
      exact ih s' w' hi
    · rw [e]
      dsimp only
      rw [← ho]
      exact ih s' w' hi
    · rw [e]
      dsimp only
      exact ⟨fun q hq => (by cases hq), fun q hq => by cases hq; exact ⟨w', hi, ho⟩⟩

end

end Verif.Snes
