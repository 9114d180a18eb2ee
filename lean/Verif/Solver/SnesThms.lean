import Verif.Solver.SnesRun

/-!
# C79: the backward Euler / SNES solver
-/

namespace Verif.Snes

variable {K V : Type} [Field K] [LinearOrder K] [IsStrictOrderedRing K] [AddCommGroup V] [Module K V]

/-- A run of the solver from time `t0` and state `v`, with the given options, that ends as `e`. -/
def Run (P : Params K) (f : K → V → V) (snes : Nat → Answer V) (quit : Nat → Bool)
    (t0 : K) (v : V) (h : K) (pred : Bool) (lag : Int) (e : End K V) : Prop :=
  ∃ junk, RunFrom P f snes quit 0 (start t0 v junk h pred lag) e

section
variable {P : Params K} {f : K → V → V} {snes : Nat → Answer V} {quit : Nat → Bool} {t0 : K} {v : V} {h : K}
  {pred : Bool} {lag : Int} {e : End K V}

theorem run_ended (hmin : 0 < P.dtMin) (hout : 0 < P.dtout) (hlag : lag ≠ 0)
    (hr : Run P f snes quit t0 v h pred lag e) :
    Ended P f snes lag (View.first t0 v h pred) quit 0 e := by
  obtain ⟨junk, hr⟩ := hr
  exact run_inv hmin hout hlag quit hr _ (top_start t0 v junk h pred)

theorem ended_good {w0 : View K V} {k : Nat} (he : Ended P f snes lag w0 quit k e) :
    AllGood P f snes lag w0 e.st.log := by
  cases e with
  | returned s =>
    obtain ⟨m, w, ht, _⟩ := he
    exact ht.core.good
  | threw s =>
    obtain ⟨tg, w, ht, _⟩ := he
    exact ht.core.good

/-- **C79 (history).**  For every behaviour of SNES, every user function and every answer of the monitors:
each event of a run is one that the specification allows after the events before it, and the final time and
state are those of the last accepted step. -/
theorem C79_history (hmin : 0 < P.dtMin) (hout : 0 < P.dtout) (hlag : lag ≠ 0)
    (hr : Run P f snes quit t0 v h pred lag e) :
    AllGood P f snes lag (View.first t0 v h pred) e.st.log ∧
    e.st.t = ((View.first t0 v h pred).all P e.st.log).t ∧
    e.st.x = ((View.first t0 v h pred).all P e.st.log).x := by
  have he := run_ended hmin hout hlag hr
  refine ⟨ended_good he, ?_⟩
  cases e with
  | returned s =>
    obtain ⟨m, w, ht, _⟩ := he
    have c := ht.core
    have := c.view
    subst this
    exact ⟨c.t, c.x⟩
  | threw s =>
    obtain ⟨tg, w, ht, _⟩ := he
    have c := ht.core
    have := c.view
    subst this
    exact ⟨c.t, c.x⟩

omit [IsStrictOrderedRing K] in
theorem allGood_init {w0 : View K V} {l : List (Event K V)} {e : Event K V}
    (h : AllGood P f snes lag w0 (l ++ [e])) :
    AllGood P f snes lag w0 l ∧ Good P f snes lag (w0.all P l) e := by
  refine ⟨fun a e' b hl => h a e' (b ++ [e]) (by rw [hl]; simp), h l e [] rfl⟩

omit [IsStrictOrderedRing K] in
/-- A property of views that holds at first and that every allowed event keeps, holds after every prefix. -/
theorem view_induct {w0 : View K V} (J : View K V → Prop) (h0 : J w0)
    (hs : ∀ w e, J w → Good P f snes lag w e → J (w.see P e)) :
    ∀ log, AllGood P f snes lag w0 log → J (w0.all P log) := by
  intro log
  induction log using List.reverseRecOn with
  | nil => intro _; exact h0
  | append_singleton l e ih =>
    intro hg
    obtain ⟨h1, h2⟩ := allGood_init hg
    rw [all_snoc]
    exact hs _ e (ih h1) h2

omit [IsStrictOrderedRing K] in
theorem allGood_prefix {w0 : View K V} {a b : List (Event K V)} (h : AllGood P f snes lag w0 (a ++ b)) :
    AllGood P f snes lag w0 a := fun x e y hl => h x e (y ++ b) (by rw [hl]; simp)

omit [IsStrictOrderedRing K] [AddCommGroup V] [Module K V] in
theorem see_last (w : View K V) (e : Event K V) : (w.see P e).last = some e := rfl

omit [IsStrictOrderedRing K] [AddCommGroup V] [Module K V] in
theorem last_of {w0 : View K V} (h0 : w0.last = none) {a : List (Event K V)} {e : Event K V}
    (h : (w0.all P a).last = some e) : ∃ a', a = a' ++ [e] := by
  rcases List.eq_nil_or_concat a with ha | ⟨a', c, ha⟩
  · subst ha
    have : w0.last = some e := h
    rw [h0] at this
    cases this
  · rw [List.concat_eq_append] at ha
    subst ha
    rw [all_snoc, see_last] at h
    cases h
    exact ⟨a', rfl⟩

/-- **C79 (equation).**  Every step accepted after at least one nonlinear iteration ends at the vector SNES
left.  If SNES solved the equation it was given, both backward Euler forms give the backward Euler step from
the state before; the defect of an inexact solve is the residual (or the step size times the residual); the
direct form gives a steady state at the new time. -/
theorem C79_equation (hmin : 0 < P.dtMin) (hout : 0 < P.dtout) (hlag : lag ≠ 0)
    (hr : Run P f snes quit t0 v h pred lag e) (t dt : K) (x0 g xs x : V) (its : Nat)
    (hev : .accept t dt x0 g xs its x ∈ e.st.log) (hits : its ≠ 0) :
    0 < dt ∧ x = xs ∧
    (residual .backwardEuler f t dt x0 xs = 0 ↔ x = x0 + dt • f (t + dt) x) ∧
    (residual .rearranged f t dt x0 xs = 0 ↔ x = x0 + dt • f (t + dt) x) ∧
    x - (x0 + dt • f (t + dt) x) = residual .backwardEuler f t dt x0 xs ∧
    (x0 + dt • f (t + dt) x) - x = dt • residual .rearranged f t dt x0 xs ∧
    (residual .directNewton f t dt x0 xs = 0 ↔ f (t + dt) x = 0) := by
  have hg := (C79_history hmin hout hlag hr).1
  obtain ⟨a, b, hl⟩ := List.append_of_mem hev
  obtain ⟨⟨l, hlast⟩, _, h1, _⟩ := hg a _ b hl
  have hx := h1 hits
  subst hx
  obtain ⟨a', ha'⟩ := last_of (show (View.first t0 v h pred).last = none from rfl) hlast
  have hgood := hg a' (.solve t dt x0 g l) (.accept t dt x0 g x its x :: b) (by rw [hl, ha']; simp)
  have hpos : 0 < dt := hgood.2.2.2.1
  have hne : dt ≠ 0 := ne_of_gt hpos
  have d1 : x - (x0 + dt • f (t + dt) x) = residual .backwardEuler f t dt x0 x := by
    simp only [residual]
    generalize f (t + dt) x = y
    module
  have d2 : (x0 + dt • f (t + dt) x) - x = dt • residual .rearranged f t dt x0 x := by
    simp only [residual]
    generalize f (t + dt) x = y
    rw [smul_add, smul_smul, show dt * (-1 / dt) = -1 by field_simp]
    module
  refine ⟨hpos, rfl, ?_, ?_, d1, d2, Iff.rfl⟩
  · rw [← d1, sub_eq_zero]
  · constructor
    · intro hq
      rw [hq, smul_zero, sub_eq_zero] at d2
      exact d2.symm
    · intro hq
      have : dt • residual .rearranged f t dt x0 x = 0 := by
        rw [← d2, sub_eq_zero]
        exact hq.symm
      rcases smul_eq_zero.mp this with hz | hz
      · exact absurd hz hne
      · exact hz

/-- What the monitors see: time and number of each call. -/
def monitored : Event K V → Option (K × Nat)
  | .monitor t k _ => some (t, k)
  | _ => none

theorem monitors_of {w0 : View K V} (h0 : w0.outs = 0) : ∀ log : List (Event K V),
    AllGood P f snes lag w0 log →
    log.filterMap monitored = (List.range (w0.all P log).outs).map (fun (k : Nat) => (w0.t0 + (k + 1) * P.dtout, k)) := by
  intro log
  induction log using List.reverseRecOn with
  | nil =>
    intro _
    show [] = _
    rw [show (w0.all P []).outs = 0 from h0]
    rfl
  | append_singleton l e ih =>
    intro hg
    obtain ⟨h1, h2⟩ := allGood_init hg
    rw [List.filterMap_append, ih h1, all_snoc]
    have ht0 : (w0.all P l).t0 = w0.t0 := all_t0 l w0
    cases e with
    | monitor t k x =>
      obtain ⟨e1, e2, _⟩ := h2
      show _ ++ [(t, k)] = (List.range ((w0.all P l).outs + 1)).map _
      rw [List.range_succ, List.map_append, e1, e2, View.target, ht0]
      rfl
    | _ => exact List.append_nil _

/-- **C79 (output times).**  The monitors are called once per output, in order, at exactly
`t0 + (k+1)·dtout`.  A run that returns has made all its outputs, or stopped at the first one where a
monitor asked it to, and ends at the time of its last output with its Jacobian lag as configured; a run that
throws has made fewer. -/
theorem C79_output_times (hmin : 0 < P.dtMin) (hout : 0 < P.dtout) (hlag : lag ≠ 0)
    (hr : Run P f snes quit t0 v h pred lag e) :
    ∃ m, e.st.log.filterMap monitored = (List.range m).map (fun (k : Nat) => (t0 + (k + 1) * P.dtout, k)) ∧
      (∀ s, e = .returned s → m ≤ P.nout ∧ (m = P.nout ∨ 0 < m ∧ quit (m - 1) = true) ∧
        (∀ j, j + 1 < m → quit j = false) ∧ s.t = t0 + m * P.dtout ∧ s.lag = lag) ∧
      (∀ s, e = .threw s → m < P.nout ∧ ∀ j, j < m → quit j = false) := by
  have he := run_ended hmin hout hlag hr
  have hg := ended_good he
  refine ⟨_, monitors_of rfl _ hg, ?_, ?_⟩
  · intro s hs
    subst hs
    obtain ⟨m, w, ht, a1, a2, a3, a4⟩ := he
    have c := ht.core
    have hv : (View.first t0 v h pred).all P s.log = w := c.view.symm
    have hm : ((View.first t0 v h pred).all P (End.returned s).st.log).outs = m := by
      show ((View.first t0 v h pred).all P s.log).outs = m
      rw [hv, ht.outs]
    rw [hm]
    refine ⟨a2 (Nat.zero_le _), ?_, fun j hj => a4 j (Nat.zero_le _) hj, ?_, ht.lag⟩
    · rcases a3 with a3 | ⟨j, _, b2, b3⟩
      · exact Or.inl (Nat.le_antisymm (a2 (Nat.zero_le _)) a3)
      · exact Or.inr ⟨by omega, by rw [b2]; exact b3⟩
    · rw [c.t, ht.now, ← hv, all_t0]
      rfl
  · intro s hs
    subst hs
    obtain ⟨tg, w, ht, a1, a2, a3⟩ := he
    have c := ht.core
    have hv : (View.first t0 v h pred).all P s.log = w := c.view.symm
    show ((View.first t0 v h pred).all P s.log).outs < _ ∧ ∀ j, j < ((View.first t0 v h pred).all P s.log).outs → _
    rw [hv]
    exact ⟨a2, fun j hj => a3 j (Nat.zero_le _) hj⟩

/-- **C79 (outputs).**  Just before the monitors are called, the user's function has run at that time on the
state they are given, which is the end of an accepted step. -/
theorem C79_outputs (hmin : 0 < P.dtMin) (hout : 0 < P.dtout) (hlag : lag ≠ 0)
    (hr : Run P f snes quit t0 v h pred lag e) (a b : List (Event K V)) (t : K) (k : Nat) (x : V)
    (hl : e.st.log = a ++ .monitor t k x :: b) :
    ∃ a' t' dt' x0 g xs its, a = a' ++ [.accept t' dt' x0 g xs its x, .rhs t x] ∧ t' + dt' = t := by
  have hg := (C79_history hmin hout hlag hr).1
  obtain ⟨_, _, h3⟩ := hg a _ b hl
  obtain ⟨a1, ha1⟩ := last_of (show (View.first t0 v h pred).last = none from rfl) h3
  obtain ⟨_, h5, h6, t', dt', x0, g, xs, its, x', h7⟩ := hg a1 (.rhs t x) (.monitor t k x :: b) (by rw [hl, ha1]; simp)
  obtain ⟨a2, ha2⟩ := last_of (show (View.first t0 v h pred).last = none from rfl) h7
  refine ⟨a2, t', dt', x0, g, xs, its, ?_, ?_⟩
  · rw [ha1, ha2]
    have : x = x' := by
      rw [h6, ha2, all_snoc]
      rfl
    rw [this]
    simp
  · rw [h5, ha2, all_snoc]
    rfl

/-- Number of outputs among some events. -/
def outputs (l : List (Event K V)) : Nat := (l.filterMap monitored).length

omit [IsStrictOrderedRing K] [AddCommGroup V] [Module K V] in
theorem outs_eq (w0 : View K V) (h0 : w0.outs = 0) : ∀ l : List (Event K V), (w0.all P l).outs = outputs l := by
  intro l
  induction l using List.reverseRecOn with
  | nil => exact h0
  | append_singleton l e ih =>
    rw [all_snoc, outputs, List.filterMap_append, List.length_append]
    cases e with
    | monitor t k x =>
      show (w0.all P l).outs + 1 = _ + 1
      rw [ih]
      rfl
    | _ =>
      show (w0.all P l).outs = _
      rw [ih]
      rfl

theorem view_bounds : ∀ log : List (Event K V), AllGood P f snes lag (View.first t0 v h pred) log →
    t0 + ((View.first t0 v h pred).all P log).outs * P.dtout ≤ ((View.first t0 v h pred).all P log).t := by
  intro log hg
  have := view_induct (w0 := View.first t0 v h pred)
    (fun w => w.t0 + w.outs * P.dtout ≤ w.t ∧ (∀ t dt x g l, w.last = some (.solve t dt x g l) → t = w.t ∧ 0 < dt) ∧
      (∀ t x, w.last = some (.rhs t x) → w.t = w.target P)) ?_ ?_ log hg
  · have h1 := this.1
    rw [all_t0] at h1
    exact h1
  · refine ⟨by simp [View.first], fun t dt x g l hh => (by cases hh), fun t x hh => by cases hh⟩
  · rintro w e ⟨j1, j2, j3⟩ hg
    cases e with
    | solve t dt x g l =>
      refine ⟨j1, ?_, fun t x hh => by cases hh⟩
      intro t' dt' x' g' l' hh
      cases hh
      exact ⟨hg.1, hg.2.2.2.1⟩
    | failed => exact ⟨j1, fun t dt x g l hh => (by cases hh), fun t x hh => by cases hh⟩
    | reset => exact ⟨j1, fun t dt x g l hh => (by cases hh), fun t x hh => by cases hh⟩
    | accept t dt x0 g xs its x =>
      refine ⟨?_, fun t dt x g l hh => (by cases hh), fun t x hh => by cases hh⟩
      obtain ⟨⟨l, hlast⟩, _⟩ := hg
      obtain ⟨h1, h2⟩ := j2 _ _ _ _ _ hlast
      show w.t0 + w.outs * P.dtout ≤ t + dt
      rw [h1]
      linarith
    | rhs t x =>
      refine ⟨j1, fun t dt x g l hh => (by cases hh), ?_⟩
      intro t' x' _
      obtain ⟨h1, h2, _⟩ := hg
      show w.t = w.target P
      rw [← h2, h1]
    | monitor t k x =>
      refine ⟨?_, fun t dt x g l hh => (by cases hh), fun t x hh => by cases hh⟩
      obtain ⟨h1, h2, h3⟩ := hg
      have := j3 _ _ h3
      show w.t0 + ((w.outs + 1 : Nat) : K) * P.dtout ≤ w.t
      rw [this, View.target]
      push_cast
      exact le_refl _

/-- **C79 (steps).**  Every attempt is made with a positive step, lies within the current output interval,
and starts from the time and state where the last accepted step ended (or the start of the run): failed
attempts, however many, leave no trace in the state. -/
theorem C79_steps (hmin : 0 < P.dtMin) (hout : 0 < P.dtout) (hlag : lag ≠ 0)
    (hr : Run P f snes quit t0 v h pred lag e) (a b : List (Event K V)) (t dt : K) (x0 g : V) (l : Int)
    (hl : e.st.log = a ++ .solve t dt x0 g l :: b) :
    0 < dt ∧ t0 + outputs a * P.dtout ≤ t ∧ t + dt ≤ t0 + (outputs a + 1) * P.dtout ∧
    (∀ a1 a2 t' dt' x0' g' xs its x, a = a1 ++ .accept t' dt' x0' g' xs its x :: a2 →
      (∀ t' dt' x0' g' xs its x, .accept t' dt' x0' g' xs its x ∉ a2) → t = t' + dt' ∧ x0 = x) ∧
    ((∀ t' dt' x0' g' xs its x, .accept t' dt' x0' g' xs its x ∉ a) → t = t0 ∧ x0 = v) := by
  have hg := (C79_history hmin hout hlag hr).1
  obtain ⟨h1, h2, h3, h4, _⟩ := hg a _ b hl
  have hgp : AllGood P f snes lag (View.first t0 v h pred) a := allGood_prefix (by rw [← hl]; exact hg)
  have hb := view_bounds a hgp
  have ho := outs_eq (P := P) (View.first t0 v h pred) rfl a
  have keep : ∀ (a2 : List (Event K V)), (∀ t' dt' x0' g' xs its x, .accept t' dt' x0' g' xs its x ∉ a2) →
      ∀ w : View K V, (w.all P a2).t = w.t ∧ (w.all P a2).x = w.x := by
    intro a2
    induction a2 with
    | nil => intro _ w; exact ⟨rfl, rfl⟩
    | cons c a2 ih =>
      intro hn w
      have := ih (fun t' dt' x0' g' xs its x hh => hn t' dt' x0' g' xs its x (List.mem_cons_of_mem _ hh)) (w.see P c)
      show ((w.see P c).all P a2).t = w.t ∧ ((w.see P c).all P a2).x = w.x
      rw [this.1, this.2]
      cases c with
      | accept t' dt' x0' g' xs its x => exact absurd List.mem_cons_self (hn t' dt' x0' g' xs its x)
      | _ => exact ⟨rfl, rfl⟩
  refine ⟨h4, ?_, ?_, ?_, ?_⟩
  · rw [h1, ← ho]
    exact hb
  · have : dt ≤ ((View.first t0 v h pred).all P a).target P - ((View.first t0 v h pred).all P a).t := by
      rw [h3]
      exact min_le_right _ _
    rw [View.target, all_t0, ho, ← h1] at this
    have h0 : (View.first t0 v h pred).t0 = t0 := rfl
    rw [h0] at this
    linarith
  · intro a1 a2 t' dt' x0' g' xs its x ha hn
    have : (View.first t0 v h pred).all P a =
        (((View.first t0 v h pred).all P a1).see P (.accept t' dt' x0' g' xs its x)).all P a2 := by
      rw [ha]
      simp [View.all]
    obtain ⟨k1, k2⟩ := keep a2 hn (((View.first t0 v h pred).all P a1).see P (.accept t' dt' x0' g' xs its x))
    rw [h1, h2, this, k1, k2]
    exact ⟨rfl, rfl⟩
  · intro hn
    obtain ⟨k1, k2⟩ := keep a hn (View.first t0 v h pred)
    rw [h1, h2, k1, k2]
    exact ⟨rfl, rfl⟩

/-- **C79 (retry).**  After a failure the next attempt starts from the same time and state, with a fresh
Jacobian, and a step not larger and not less than half the one that failed; it is half unless the failed
step was cut at the output time. -/
theorem C79_retry (hmin : 0 < P.dtMin) (hout : 0 < P.dtout) (hlag : lag ≠ 0)
    (hr : Run P f snes quit t0 v h pred lag e) (a b : List (Event K V)) (t dt t' dt' : K) (x0 g x0' g' : V) (l l' : Int)
    (hl : e.st.log = a ++ .solve t dt x0 g l :: .failed :: .solve t' dt' x0' g' l' :: b) :
    t' = t ∧ x0' = x0 ∧ l' = 1 ∧ dt / 2 ≤ dt' ∧ dt' ≤ dt ∧
    (t + dt < t0 + (outputs a + 1) * P.dtout → dt' = dt / 2) := by
  have hg := (C79_history hmin hout hlag hr).1
  obtain ⟨h1, h2, h3, h4, _⟩ := hg a _ _ hl
  obtain ⟨k1, k2, k3, k4, _, _, k5, _⟩ := hg (a ++ [.solve t dt x0 g l, .failed]) (.solve t' dt' x0' g' l') b (by rw [hl]; simp)
  have hv : (View.first t0 v h pred).all P (a ++ [.solve t dt x0 g l, .failed]) =
      (((View.first t0 v h pred).all P a).see P (.solve t dt x0 g l)).see P .failed := by simp [View.all]
  have ho := outs_eq (P := P) (View.first t0 v h pred) rfl a
  have htg : ((View.first t0 v h pred).all P a).target P = t0 + (outputs a + 1) * P.dtout := by
    rw [View.target, all_t0, ho]
    rfl
  rw [hv] at k1 k2 k3 k5
  generalize (View.first t0 v h pred).all P a = w at *
  have q1 : t' = w.t := k1
  have q2 : x0' = w.x := k2
  have q3 : dt' = min (w.h / 2) (w.target P - w.t) := k3
  have q5 : l' = 1 := k5 trivial
  rw [htg] at h3 q3
  generalize t0 + ((outputs a : K) + 1) * P.dtout = T at *
  have hTt : 0 < T - w.t := lt_of_lt_of_le h4 (by rw [h3]; exact min_le_right _ _)
  have hh : 0 < w.h := lt_of_lt_of_le h4 (by rw [h3]; exact min_le_left _ _)
  refine ⟨by rw [q1, h1], by rw [q2, h2], q5, ?_, ?_, ?_⟩
  · rw [q3, h3]
    refine le_min ?_ ?_
    · have := min_le_left w.h (T - w.t)
      linarith
    · have := min_le_right w.h (T - w.t)
      linarith
  · rw [q3, h3]
    exact min_le_min (by linarith) (le_refl _)
  · intro hc
    rw [h1, h3] at hc
    have : w.h < T - w.t := by
      by_contra hq
      rw [min_eq_right (not_lt.mp hq)] at hc
      linarith
    rw [q3, h3, min_eq_left this.le, min_eq_left (by linarith)]

/-- **C79 (step size control).**  After an accepted step that did not reach the output time, the next attempt
(if the solver has not reset itself) is 10% larger if there were few nonlinear iterations, but not above the
maximum, 10% smaller if there were many, and the same otherwise; always cut at the output time. -/
theorem C79_step_size (hmin : 0 < P.dtMin) (hout : 0 < P.dtout) (hlag : lag ≠ 0)
    (hr : Run P f snes quit t0 v h pred lag e) (a b : List (Event K V)) (t dt t' dt' : K) (x0 g x0' g' xs x : V) (its : Nat) (l' : Int)
    (hl : e.st.log = a ++ .accept t dt x0 g xs its x :: .solve t' dt' x0' g' l' :: b) :
    t' = t + dt ∧ l' = lag ∧
    dt' = min (if its ≤ P.lowerIts then min (dt * 11 / 10) P.maxDt else if P.upperIts ≤ its then dt * 9 / 10 else dt)
      (t0 + (outputs a + 1) * P.dtout - t') := by
  have hg := (C79_history hmin hout hlag hr).1
  obtain ⟨⟨l, hlast⟩, _⟩ := hg a _ _ hl
  obtain ⟨a1, ha1⟩ := last_of (show (View.first t0 v h pred).last = none from rfl) hlast
  have hsolve := hg a1 (.solve t dt x0 g l) (.accept t dt x0 g xs its x :: .solve t' dt' x0' g' l' :: b) (by rw [hl, ha1]; simp)
  obtain ⟨k1, _, k3, k4, _, _, _, k5, _⟩ := hg (a ++ [.accept t dt x0 g xs its x]) (.solve t' dt' x0' g' l') b (by rw [hl]; simp)
  have ho := outs_eq (P := P) (View.first t0 v h pred) rfl a
  have htg : ((View.first t0 v h pred).all P a).target P = t0 + (outputs a + 1) * P.dtout := by
    rw [View.target, all_t0, ho]
    rfl
  rw [all_snoc] at k1 k3 k5
  have hwa : (View.first t0 v h pred).all P a = ((View.first t0 v h pred).all P a1).see P (.solve t dt x0 g l) := by
    rw [ha1, all_snoc]
  obtain ⟨h1, _, h3, h4, _⟩ := hsolve
  have hh : ((View.first t0 v h pred).all P a).h = ((View.first t0 v h pred).all P a1).h := by rw [hwa]; rfl
  have ht : ((View.first t0 v h pred).all P a).t = ((View.first t0 v h pred).all P a1).t := by rw [hwa]; rfl
  have htt : ((View.first t0 v h pred).all P a).target P = ((View.first t0 v h pred).all P a1).target P := by rw [hwa]; rfl
  rw [← hh, ← ht, ← htt, htg] at h3
  rw [← ht] at h1
  generalize (View.first t0 v h pred).all P a = w at *
  have q1 : t' = t + dt := k1
  have q3 : dt' = min (if t + dt < w.target P then newSize P its w.h else w.h) (w.target P - (t + dt)) := k3
  have q5 : l' = lag := k5 (fun hh => hh)
  refine ⟨q1, q5, ?_⟩
  rw [htg] at q3
  rw [q1]
  generalize t0 + ((outputs a : K) + 1) * P.dtout = T at *
  have hlt : t + dt < T := by
    have : dt' ≤ T - (t + dt) := by rw [q3]; exact min_le_right _ _
    linarith
  have hdt : dt = w.h := by
    rw [h3]
    refine min_eq_left ?_
    by_contra hq
    rw [min_eq_right (not_le.mp hq).le] at h3
    rw [h3, h1] at hlt
    linarith
  rw [q3, if_pos hlt, newSize, hdt]

/-- **C79 (giving up).**  The solver throws only after an attempt with a step below twice `dt_min_reset`
failed, and leaves time and state as they were at the last accepted step. -/
theorem C79_gives_up (hmin : 0 < P.dtMin) (hout : 0 < P.dtout) (hlag : lag ≠ 0) (s : St K V)
    (hr : Run P f snes quit t0 v h pred lag (.threw s)) :
    ∃ a t dt x0 g l, s.log = a ++ [.solve t dt x0 g l, .failed] ∧ dt < 2 * P.dtMin ∧ s.t = t ∧ s.x = x0 := by
  have he := run_ended hmin hout hlag hr
  obtain ⟨tg, w, ht, _⟩ := he
  have c := ht.core
  have hv := c.view
  have hlast := ht.last
  have hsm := ht.small
  have hg := c.good
  rw [hv] at hlast
  obtain ⟨a1, ha1⟩ := last_of (show (View.first t0 v h pred).last = none from rfl) hlast
  obtain ⟨⟨t, dt, x0, g, l, hf⟩, _⟩ := hg a1 .failed [] (by rw [ha1])
  obtain ⟨a2, ha2⟩ := last_of (show (View.first t0 v h pred).last = none from rfl) hf
  obtain ⟨h1, h2, h3, _⟩ := hg a2 (.solve t dt x0 g l) [.failed] (by rw [ha1, ha2]; simp)
  have hw : w = (((View.first t0 v h pred).all P a2).see P (.solve t dt x0 g l)).see P .failed := by
    rw [hv, ha1, ha2, all_snoc, all_snoc]
  refine ⟨a2, t, dt, x0, g, l, by rw [ha1, ha2]; simp, ?_, ?_, ?_⟩
  · have hq : w.h = ((View.first t0 v h pred).all P a2).h / 2 := by rw [hw]; rfl
    have : dt ≤ ((View.first t0 v h pred).all P a2).h := by rw [h3]; exact min_le_left _ _
    rw [hq] at hsm
    linarith
  · rw [c.t, h1, hw]
    rfl
  · rw [c.x, h2, hw]
    rfl

/-- **C79 (termination).**  With positive `dt_min_reset` and output step, every run ends, whatever SNES
does, and in only one way. -/
theorem C79_termination [Archimedean K] (P : Params K) (f : K → V → V) (snes : Nat → Answer V) (quit : Nat → Bool)
    (t0 : K) (v junk : V) (h : K) (pred : Bool) (lag : Int)
    (hmin : 0 < P.dtMin) (hout : 0 < P.dtout) (hlag : lag ≠ 0) :
    ∃ e, RunFrom P f snes quit 0 (start t0 v junk h pred lag) e ∧
      ∀ e', RunFrom P f snes quit 0 (start t0 v junk h pred lag) e' → e' = e := by
  obtain ⟨e, he⟩ := run_exists (P := P) (f := f) (snes := snes) hmin hout hlag quit _ 0 _ _ rfl
    (top_start t0 v junk h pred)
  exact ⟨e, he, fun e' h' => (run_unique he e' h').symm⟩

end

end Verif.Snes
