import Mathlib.Algebra.Order.Archimedean.Basic
import Verif.Solver.SnesProps

/-!
# The whole SNES run: invariant and termination
-/

namespace Verif.Snes

variable {K V : Type} [Field K] [LinearOrder K] [IsStrictOrderedRing K] [AddCommGroup V] [Module K V]
variable {P : Params K} {f : K → V → V} {snes : Nat → Answer V} {lag : Int} {w0 : View K V} {target : K}

omit [IsStrictOrderedRing K] [AddCommGroup V] [Module K V] in
theorem see_t0 (w : View K V) (e : Event K V) : (w.see P e).t0 = w.t0 := by
  cases e <;> rfl

omit [IsStrictOrderedRing K] [AddCommGroup V] [Module K V] in
theorem all_t0 (l : List (Event K V)) : ∀ w : View K V, (w.all P l).t0 = w.t0 := by
  induction l with
  | nil => intro w; rfl
  | cons e l ih =>
    intro w
    show ((w.see P e).all P l).t0 = _
    rw [ih, see_t0]

/-- What holds at the start of an output step. -/
structure Top (P : Params K) (f : K → V → V) (snes : Nat → Answer V) (lag : Int) (w0 : View K V)
    (k : Nat) (s : St K V) (w : View K V) : Prop where
  core : Core P f snes lag w0 w s
  outs : w.outs = k
  now : w.t = w.t0 + k * P.dtout
  last : w.last = none ∨ ∃ t k' x, w.last = some (.monitor t k' x)
  lag : s.lag = lag

theorem inv_of_top (hout : 0 < P.dtout) {k : Nat} {s : St K V} {w : View K V} (h : Top P f snes lag w0 k s w) :
    Inv P f snes lag w0 (s.t + P.dtout) { s with saved := 0 } w := by
  have c := h.core
  have hnf : w.last ≠ some .failed := by
    rcases h.last with hl | ⟨_, _, _, hl⟩ <;> rw [hl] <;> intro hq <;> cases hq
  refine ⟨⟨c.view, c.good, c.t, c.x, c.h, c.pred, c.calls, c.prev, c.noPrev⟩, ?_, ?_, ?_, ?_, fun q => absurd q hnf, fun _ => ⟨rfl, h.lag⟩⟩
  · rw [c.t, h.now, View.target, h.outs]
    ring
  · rw [c.t]
    linarith
  · rw [c.t]
  · rcases h.last with hl | ⟨_, _, _, hl⟩ <;> rw [hl] <;> exact ⟨by simp, by simp, by simp⟩

theorem top_of_out {k : Nat} {s : St K V} {w : View K V} (h : Out P f snes lag w0 target s w) (hk : w.outs = k) :
    ∃ w', Top P f snes lag w0 (k + 1) (output k s) w' := by
  have c := h.core
  let e1 : Event K V := .rhs s.t s.x
  let e2 : Event K V := .monitor s.t k s.x
  have hlog : (output k s).log = (s.log ++ [e1]) ++ [e2] := by
    show s.log ++ [e1, e2] = _
    simp
  have hn : s.t = w.target P := by rw [c.t, h.now, h.tgt]
  have g1 : AllGood P f snes lag w0 (s.log ++ [e1]) := by
    refine allGood_snoc P f snes lag w0 _ _ c.good ?_
    rw [← c.view]
    exact ⟨hn, c.t, c.x, h.last⟩
  refine ⟨(w.see P e1).see P e2, ⟨⟨?_, ?_, c.t, c.x, c.h, c.pred, c.calls, c.prev, c.noPrev⟩, ?_, ?_, Or.inr ⟨_, _, _, rfl⟩, h.saved.2⟩⟩
  · rw [hlog, all_snoc, all_snoc, ← c.view]
  · rw [hlog]
    refine allGood_snoc P f snes lag w0 _ _ g1 ?_
    rw [all_snoc, ← c.view]
    exact ⟨hn, hk.symm, rfl⟩
  · show w.outs + 1 = k + 1
    rw [hk]
  · show w.t = w.t0 + ((k + 1 : Nat) : K) * P.dtout
    rw [h.now, h.tgt, View.target, hk]
    push_cast
    ring

/-- What is known at the end of a run entered at output step `k`. -/
def Ended (P : Params K) (f : K → V → V) (snes : Nat → Answer V) (lag : Int) (w0 : View K V)
    (quit : Nat → Bool) (k : Nat) : End K V → Prop
  | .returned s => ∃ m w, Top P f snes lag w0 m s w ∧ k ≤ m ∧ (k ≤ P.nout → m ≤ P.nout) ∧
      (P.nout ≤ m ∨ ∃ j, k ≤ j ∧ m = j + 1 ∧ quit j = true) ∧ (∀ j, k ≤ j → j + 1 < m → quit j = false)
  | .threw s => ∃ target w, Gave P f snes lag w0 target s w ∧ k ≤ w.outs ∧ w.outs < P.nout ∧
      (∀ j, k ≤ j → j < w.outs → quit j = false)

theorem run_inv (hmin : 0 < P.dtMin) (hout : 0 < P.dtout) (hlag : lag ≠ 0) (quit : Nat → Bool) {k : Nat}
    {s : St K V} {e : End K V} (hr : RunFrom P f snes quit k s e) :
    ∀ w, Top P f snes lag w0 k s w → Ended P f snes lag w0 quit k e := by
  induction hr with
  | finished k s h =>
    intro w ht
    exact ⟨k, w, ht, le_refl k, fun hk => hk, Or.inl h, fun j h1 h2 => absurd h2 (by omega)⟩
  | threw k s s' n h ha =>
    intro w ht
    obtain ⟨w', hg, ho⟩ := (attempts_inv hmin hout hlag n _ w (inv_of_top hout ht)).1 s' ha
    have hk := ht.outs
    exact ⟨_, w', hg, by omega, by omega, fun j h1 h2 => absurd h2 (by omega)⟩
  | quit k s s' n h ha hq =>
    intro w ht
    obtain ⟨w', hg, ho⟩ := (attempts_inv hmin hout hlag n _ w (inv_of_top hout ht)).2 s' ha
    have hk := ht.outs
    obtain ⟨w2, h2⟩ := top_of_out hg (ho.trans hk)
    exact ⟨k + 1, w2, h2, by omega, fun _ => h, Or.inr ⟨k, le_refl k, rfl, hq⟩, fun j h1 h2 => absurd h2 (by omega)⟩
  | next k s s' e n h ha hq hr ih =>
    intro w ht
    obtain ⟨w', hg, ho⟩ := (attempts_inv hmin hout hlag n _ w (inv_of_top hout ht)).2 s' ha
    have hk := ht.outs
    obtain ⟨w2, h2⟩ := top_of_out hg (ho.trans hk)
    have := ih w2 h2
    cases e with
    | returned se =>
      obtain ⟨m, w3, t3, a1, a2, a3, a4⟩ := this
      refine ⟨m, w3, t3, by omega, fun _ => a2 h, ?_, ?_⟩
      · rcases a3 with a3 | ⟨j, b1, b2, b3⟩
        · exact Or.inl a3
        · exact Or.inr ⟨j, by omega, b2, b3⟩
      · intro j h1 h2
        by_cases hjk : j = k
        · rw [hjk]
          exact hq
        · exact a4 j (by omega) h2
    | threw se =>
      obtain ⟨tg, w3, t3, a1, a2, a3⟩ := this
      refine ⟨tg, w3, t3, by omega, a2, ?_⟩
      intro j h1 h2
      by_cases hjk : j = k
      · rw [hjk]
        exact hq
      · exact a3 j (by omega) h2

theorem top_start (t0 : K) (v junk : V) (h : K) (pred : Bool) :
    Top P f snes lag (View.first t0 v h pred) 0 (start t0 v junk h pred lag) (View.first t0 v h pred) := by
  refine ⟨⟨rfl, allGood_nil P f snes lag _, rfl, rfl, rfl, rfl, rfl, ?_, ?_⟩, rfl, ?_, Or.inl rfl, rfl⟩
  · intro t1 x1 hp
    cases hp
  · intro _
    show ¬ (0 : K) < -1
    linarith
  · show t0 = t0 + ((0 : Nat) : K) * P.dtout
    simp

/-! ## Termination -/

/-- Failures in a row come to an end: either the loop ends, or a step is accepted that moves time on by at
least the limit. -/
theorem failures_end (hmin : 0 < P.dtMin) (hout : 0 < P.dtout) (hlag : lag ≠ 0)
    (Q : St K V → Prop)
    (hQ : ∀ s w, Inv P f snes lag w0 target s w →
      ∀ s' w', attempt P f snes target s = .again s' → Inv P f snes lag w0 target s' w' → Q s' → Q s)
    (hthr : ∀ s s', attempt P f snes target s = .threw s' → Q s)
    (hstop : ∀ s s', attempt P f snes target s = .stop s' → Q s) (t : K)
    (hstep : ∀ s w, Inv P f snes lag w0 target s w → t + P.dtMin ≤ w.t → Q s) :
    ∀ (m : Nat) (s : St K V) (w : View K V), Inv P f snes lag w0 target s w → t ≤ w.t →
      w.last = some .failed → w.h < P.dtMin * 2 ^ m → Q s := by
  intro m
  induction m with
  | zero =>
    intro s w hi ht hl hh
    rcases attempt_inv hmin hout hlag hi with ⟨s', e, hg⟩ | ⟨s', w', e, hi', ho, ht', hl', hc⟩ | ⟨s', w', e, hi', ho, ht'⟩ | ⟨s', w', e, hi', ho⟩
    · exact hthr s s' e
    · rcases hc with ⟨h1, _⟩ | ⟨h1, _⟩
      · rw [pow_zero, mul_one] at hh
        exact absurd h1 (not_le.mpr hh)
      · exact absurd hl h1
    · exact hQ s w hi s' w' e hi' (hstep s' w' hi' (by linarith))
    · exact hstop s s' e
  | succ m ih =>
    intro s w hi ht hl hh
    rcases attempt_inv hmin hout hlag hi with ⟨s', e, hg⟩ | ⟨s', w', e, hi', ho, ht', hl', hc⟩ | ⟨s', w', e, hi', ho, ht'⟩ | ⟨s', w', e, hi', ho⟩
    · exact hthr s s' e
    · rcases hc with ⟨h1, h2⟩ | ⟨h1, _⟩
      · refine hQ s w hi s' w' e hi' (ih s' w' hi' (by rw [ht']; exact ht) hl' ?_)
        rw [h2]
        rw [pow_succ] at hh
        linarith
      · exact absurd hl h1
    · exact hQ s w hi s' w' e hi' (hstep s' w' hi' (by linarith))
    · exact hstop s s' e

/-- The do-while loop ends within some number of passes. -/
def Ends (P : Params K) (f : K → V → V) (snes : Nat → Answer V) (target : K) (s : St K V) : Prop :=
  ∃ n s', attempts P f snes target n s = .stop s' ∨ attempts P f snes target n s = .threw s'

omit [IsStrictOrderedRing K] in
theorem ends_again {s s' : St K V} (h : attempt P f snes target s = .again s')
    (he : Ends P f snes target s') : Ends P f snes target s := by
  obtain ⟨n, r, hr⟩ := he
  refine ⟨n + 1, r, ?_⟩
  unfold attempts
  rw [h]
  exact hr

omit [IsStrictOrderedRing K] in
theorem ends_stop {s s' : St K V} (h : attempt P f snes target s = .stop s') : Ends P f snes target s :=
  ⟨1, s', Or.inl (by unfold attempts; rw [h])⟩

omit [IsStrictOrderedRing K] in
theorem ends_threw {s s' : St K V} (h : attempt P f snes target s = .threw s') : Ends P f snes target s :=
  ⟨1, s', Or.inr (by unfold attempts; rw [h])⟩

theorem inv_ends [Archimedean K] (hmin : 0 < P.dtMin) (hout : 0 < P.dtout) (hlag : lag ≠ 0) :
    ∀ (m : Nat) (s : St K V) (w : View K V), Inv P f snes lag w0 target s w →
      target - w.t < m * P.dtMin → Ends P f snes target s := by
  intro m
  induction m with
  | zero =>
    intro s w hi hm
    have := hi.before
    push_cast at hm
    linarith
  | succ m ih =>
    intro s w hi hm
    push_cast at hm
    have hstep : ∀ s' w', Inv P f snes lag w0 target s' w' → w.t + P.dtMin ≤ w'.t → Ends P f snes target s' := by
      intro s' w' hi' ht
      exact ih s' w' hi' (by linarith)
    rcases attempt_inv hmin hout hlag hi with ⟨s', e, hg⟩ | ⟨s', w', e, hi', ho, ht', hl', hc⟩ | ⟨s', w', e, hi', ho, ht'⟩ | ⟨s', w', e, hi', ho⟩
    · exact ends_threw e
    · refine ends_again e ?_
      obtain ⟨q, hq⟩ := pow_unbounded_of_one_lt (w'.h / P.dtMin) (show (1 : K) < 2 by norm_num)
      refine failures_end hmin hout hlag (Ends P f snes target)
        (fun s w _ s' w' he _ hs => ends_again he hs) (fun s s' => ends_threw) (fun s s' => ends_stop)
        w.t hstep q s' w' hi' (by rw [ht']) hl' ?_
      rw [div_lt_iff₀ hmin] at hq
      linarith
    · exact ends_again e (hstep s' w' hi' ht')
    · exact ends_stop e

theorem run_exists [Archimedean K] (hmin : 0 < P.dtMin) (hout : 0 < P.dtout) (hlag : lag ≠ 0) (quit : Nat → Bool) :
    ∀ (m k : Nat) (s : St K V) (w : View K V), P.nout - k = m → Top P f snes lag w0 k s w →
      ∃ e, RunFrom P f snes quit k s e := by
  intro m
  induction m with
  | zero =>
    intro k s w hm ht
    exact ⟨_, .finished k s (by omega)⟩
  | succ m ih =>
    intro k s w hm ht
    have hi := inv_of_top hout ht
    obtain ⟨q, hq⟩ := exists_nat_gt ((s.t + P.dtout - w.t) / P.dtMin)
    obtain ⟨n, s', he⟩ := inv_ends hmin hout hlag q _ w hi (by rw [div_lt_iff₀ hmin] at hq; exact hq)
    rcases he with he | he
    · obtain ⟨w', hg, ho⟩ := (attempts_inv hmin hout hlag n _ w hi).2 s' he
      have hk := ht.outs
      obtain ⟨w2, h2⟩ := top_of_out hg (ho.trans hk)
      cases hqk : quit k with
      | true => exact ⟨_, .quit k s s' n (by omega) he hqk⟩
      | false =>
        obtain ⟨e, hr⟩ := ih (k + 1) _ w2 (by omega) h2
        exact ⟨e, .next k s s' e n (by omega) he hqk hr⟩
    · exact ⟨_, .threw k s s' n (by omega) he⟩

omit [IsStrictOrderedRing K] in
theorem attempts_more (r : Res K V) (hr : ∀ s, r ≠ .again s) : ∀ (n m : Nat) (s : St K V),
    attempts P f snes target n s = r → n ≤ m → attempts P f snes target m s = r := by
  intro n
  induction n with
  | zero =>
    intro m s h _
    exact absurd h.symm (hr s)
  | succ n ih =>
    intro m s h hm
    obtain ⟨m', rfl⟩ : ∃ m', m = m' + 1 := ⟨m - 1, by omega⟩
    unfold attempts at h ⊢
    cases ha : attempt P f snes target s with
    | again s' =>
      rw [ha] at h
      exact ih m' s' h (by omega)
    | stop s' =>
      rw [ha] at h
      exact h
    | threw s' =>
      rw [ha] at h
      exact h

omit [IsStrictOrderedRing K] in
theorem attempts_unique {r r' : Res K V} (hr : ∀ s, r ≠ .again s) (hr' : ∀ s, r' ≠ .again s) {n m : Nat}
    {s : St K V} (h : attempts P f snes target n s = r) (h' : attempts P f snes target m s = r') : r = r' := by
  have h1 := attempts_more r hr n (max n m) s h (le_max_left _ _)
  have h2 := attempts_more r' hr' m (max n m) s h' (le_max_right _ _)
  rw [← h1, ← h2]

omit [IsStrictOrderedRing K] in
theorem run_unique {quit : Nat → Bool} {k : Nat} {s : St K V} {e : End K V}
    (h : RunFrom P f snes quit k s e) : ∀ e', RunFrom P f snes quit k s e' → e = e' := by
  have ns : ∀ (q : St K V), ∀ s, Res.stop q ≠ .again s := fun q s hh => by cases hh
  have nt : ∀ (q : St K V), ∀ s, Res.threw q ≠ .again s := fun q s hh => by cases hh
  induction h with
  | finished k s h =>
    intro e' h'
    cases h' with
    | finished => rfl
    | threw _ _ _ _ hk _ => omega
    | quit _ _ _ _ hk _ _ => omega
    | next _ _ _ _ _ hk _ _ _ => omega
  | threw k s s' n h ha =>
    intro e' h'
    cases h' with
    | finished _ _ hk => omega
    | threw _ _ s2 _ hk ha2 =>
      have := attempts_unique (nt _) (nt _) ha ha2
      cases this
      rfl
    | quit _ _ s2 _ hk ha2 _ => cases attempts_unique (nt _) (ns _) ha ha2
    | next _ _ s2 _ _ hk ha2 _ _ => cases attempts_unique (nt _) (ns _) ha ha2
  | quit k s s' n h ha hq =>
    intro e' h'
    cases h' with
    | finished _ _ hk => omega
    | threw _ _ s2 _ hk ha2 => cases attempts_unique (ns _) (nt _) ha ha2
    | quit _ _ s2 _ hk ha2 _ =>
      have := attempts_unique (ns _) (ns _) ha ha2
      cases this
      rfl
    | next _ _ s2 _ _ hk ha2 hq2 _ =>
      rw [hq] at hq2
      cases hq2
  | next k s s' e n h ha hq hr ih =>
    intro e' h'
    cases h' with
    | finished _ _ hk => omega
    | threw _ _ s2 _ hk ha2 => cases attempts_unique (ns _) (nt _) ha ha2
    | quit _ _ s2 _ hk ha2 hq2 =>
      rw [hq] at hq2
      cases hq2
    | next _ _ s2 _ _ hk ha2 hq2 hr2 =>
      have := attempts_unique (ns _) (ns _) ha ha2
      cases this
      exact ih e' hr2

end Verif.Snes
