import Verif.Solver.AdamsRun

/-! # C59: theorems about runs of the Adams-Bashforth solver -/
namespace Verif.AB
open Polynomial
open Verif.RK (Rhs)

variable {K : Type} [Field K] [LinearOrder K] [IsStrictOrderedRing K] {n : Nat}

/-- Between steps: the stored times and derivatives are those of the newest steps taken. -/
structure Inv (p : Params K) (rhs : Rhs K n) (t0 : K) (y0 : Fin n → K) (s : St K n) : Prop where
  marched : Marched p rhs t0 y0 s.taken s.simtime s.state
  stored : ∃ m, m ≤ s.taken.length ∧ s.times = startTimes (s.taken.take m) ∧ s.history = startRhs rhs (s.taken.take m) ∧
    s.current_order ≤ m + 1
  order_pos : 1 ≤ s.current_order
  order_max : s.current_order ≤ max 1 p.maximum_order
  ramp : ¬ (p.adaptive = true ∧ p.adaptive_order = true) → s.current_order = min (s.taken.length + 1) (max 1 p.maximum_order)
  ts : 0 < s.timestep

theorem Marched.times {p : Params K} {rhs : Rhs K n} {t0 : K} {y0 : Fin n → K} {l : List (Taken K n)} {t : K} {y : Fin n → K}
    (h : Marched p rhs t0 y0 l t y) : l.Pairwise (fun a b => b.t < a.t) ∧ ∀ k ∈ l, k.t < t := by
  induction h with
  | nil => exact ⟨List.Pairwise.nil, fun k hk => (nomatch hk)⟩
  | cons past k y' _ hs ih =>
    refine ⟨List.pairwise_cons.2 ⟨ih.2, ih.1⟩, fun k' hk' => ?_⟩
    have := hs.dt_pos
    rcases List.mem_cons.1 hk' with h | h
    · rw [h]; linarith
    · have := ih.2 k' h; linarith

theorem startTimes_take (l : List (Taken K n)) (m : Nat) : startTimes (l.take m) = (startTimes l).take m := by
  unfold startTimes; rw [List.map_take]

theorem startRhs_take (rhs : Rhs K n) (l : List (Taken K n)) (m : Nat) : startRhs rhs (l.take m) = (startRhs rhs l).take m := by
  unfold startRhs; rw [List.map_take]

theorem Weights.congr {l l' : List K} {a b : K} {order : Nat} {w : Nat → K} (he : ∀ i, i < order → pts l i = pts l' i)
    (h : Weights l a b order w) : Weights l' a b order w := by
  intro h8 P hP
  rw [← h h8 P hP]
  apply Finset.sum_congr rfl
  intro j hj
  rw [he j (Finset.mem_range.1 hj)]

theorem combine_congr (y : Fin n → K) (w : Nat → K) (ds ds' : List (Fin n → K)) (order : Nat)
    (he : ∀ i, i < order → hist ds i = hist ds' i) : combine y w ds order = combine y w ds' order := by
  funext i
  unfold combine
  congr 1
  apply Finset.sum_congr rfl
  intro j hj
  rw [he j (Finset.mem_range.1 hj)]

/-- Steps of the specification look at the newest entries only. -/
theorem IsABStep.extend {p : Params K} {rhs : Rhs K n} {times : List K} {ds : List (Fin n → K)} {m : Nat} {t : K} {y : Fin n → K} {dt : K}
    {order : Nat} {y' : Fin n → K} (ho : order ≤ m) (h : IsABStep p rhs (times.take m) (ds.take m) t y dt order y') :
    IsABStep p rhs times ds t y dt order y' := by
  have hpt : ∀ o, o ≤ m → ∀ i, i < o → pts (times.take m) i = pts times i := fun o ho i hi => pts_take _ _ _ (by omega)
  have hht : ∀ o, o ≤ m → ∀ i, i < o → hist (ds.take m) i = hist ds i := fun o ho i hi => hist_take _ _ _ (by omega)
  cases h with
  | full w hp hw =>
    rw [combine_congr y w _ ds order (hht order ho)]
    exact .full w hp (hw.congr (hpt order ho))
  | halves w w1 w2 o hoo hol hp hw hw1 hw2 =>
    rw [List.length_take] at hol
    have hom : o ≤ m := by omega
    rw [combine_congr y w _ ds o (hht o hom), combine_congr y w1 _ ds order (hht order ho)]
    rw [combine_congr _ w2 _ (rhs (t + dt / 2) (combine y w ds o) :: ds) order (fun i hi => by
      cases i with
      | zero => rfl
      | succ i => exact hht order ho i (by omega))]
    refine .halves w w1 w2 o hoo (by omega) hp (hw.congr (hpt o hom)) (hw1.congr (hpt order ho)) (hw2.congr (fun i hi => ?_))
    cases i with
    | zero => rfl
    | succ i => exact hpt order ho i (by omega)

/-- After `push` the inner loop can start. -/
theorem Inv.ready {p : Params K} {rhs : Rhs K n} {t0 : K} {y0 : Fin n → K} {s : St K n} (h : Inv p rhs t0 y0 s) : Ready (push rhs s) := by
  obtain ⟨m, hm, ht, hh, ho⟩ := h.stored
  have hlen : s.times.length = m := by rw [ht]; unfold startTimes; rw [List.length_map, List.length_take]; omega
  obtain ⟨h1, h2⟩ := h.marched.times
  refine ⟨rfl, ?_, h.order_pos, ?_, h.ts⟩
  · show (s.simtime :: s.times).Pairwise _
    rw [List.pairwise_cons]
    constructor
    · intro x hx
      rw [ht] at hx
      unfold startTimes at hx
      obtain ⟨k, hk, rfl⟩ := List.mem_map.1 hx
      exact h2 k (List.mem_of_mem_take hk)
    · rw [ht]
      unfold startTimes
      rw [List.pairwise_map]
      exact h1.sublist (List.take_sublist _ _)
  · show s.current_order ≤ (s.simtime :: s.times).length
    rw [List.length_cons, hlen]; exact ho

/-- The state in the middle of a pass: what `push` made of a state between steps, up to the fields the inner loop changes. -/
structure Mid (p : Params K) (rhs : Rhs K n) (t0 : K) (y0 : Fin n → K) (s : St K n) : Prop where
  marched : Marched p rhs t0 y0 s.taken s.simtime s.state
  stored : ∃ m, m ≤ s.taken.length ∧ s.times = s.simtime :: startTimes (s.taken.take m) ∧
    s.history = rhs s.simtime s.state :: startRhs rhs (s.taken.take m)
  order_max : s.current_order ≤ max 1 p.maximum_order
  ramp : ¬ (p.adaptive = true ∧ p.adaptive_order = true) → s.current_order = min (s.taken.length + 1) (max 1 p.maximum_order)
  ready : Ready s

theorem Inv.mid {p : Params K} {rhs : Rhs K n} {t0 : K} {y0 : Fin n → K} {s : St K n} (h : Inv p rhs t0 y0 s) : Mid p rhs t0 y0 (push rhs s) := by
  obtain ⟨m, hm, ht, hh, ho⟩ := h.stored
  refine ⟨h.marched, ⟨m, hm, ?_, ?_⟩, h.order_max, h.ramp, h.ready⟩
  · show s.simtime :: s.times = _; rw [ht]; rfl
  · show rhs s.simtime s.state :: s.history = _; rw [hh]; rfl

theorem Mid.same {p : Params K} {rhs : Rhs K n} {t0 : K} {y0 : Fin n → K} {s s' : St K n} (h : Mid p rhs t0 y0 s) (hs : Same s s')
    (ho : s'.current_order = s.current_order) (hr : Ready s') : Mid p rhs t0 y0 s' := by
  obtain ⟨e1, e2, e3, e4, e5⟩ := hs
  refine ⟨?_, ?_, by rw [ho]; exact h.order_max, by rw [ho, e5]; exact h.ramp, hr⟩
  · rw [e5, e1, e4]; exact h.marched
  · rw [e5, e2, e3, e1, e4]; exact h.stored

/-- A step accepted keeps the invariant. -/
theorem Mid.finish {p : Params K} {rhs : Rhs K n} {t0 : K} {y0 : Fin n → K} {s s' : St K n} (h : Mid p rhs t0 y0 s) (hs : Same s s')
    {dt err : K} {order : Nat} {low : Bool} (hdt : 0 < dt) (hmax : dt ≤ p.max_timestep) (herr : p.adaptive = true → err < p.rtol)
    (hts : 0 < s'.timestep) (ho : order = s'.current_order) (h1 : 1 ≤ order)
    (hlow : low = false → order = s.current_order) (hlow' : low = true → p.adaptive = true ∧ p.adaptive_order = true) (hle : order ≤ s.current_order)
    (hstep : IsABStep p rhs s.times s.history s.simtime s.state dt order s'.nextState) :
    Inv p rhs t0 y0 (finishStep p s' dt err order low) := by
  obtain ⟨e1, e2, e3, e4, e5⟩ := hs
  obtain ⟨m, hm, ht, hh⟩ := h.stored
  have hlen : s.times.length = m + 1 := by
    rw [ht, List.length_cons]; unfold startTimes; rw [List.length_map, List.length_take]; omega
  have hlenh : s.history.length = m + 1 := by
    rw [hh, List.length_cons]; unfold startRhs; rw [List.length_map, List.length_take]; omega
  have hol : order ≤ m + 1 := by have := h.ready.order_len; omega
  have hom : order ≤ max 1 p.maximum_order := le_trans hle h.order_max
  -- the recorded step
  have hcons : ∀ j, startTimes ((⟨s.simtime, s.state, dt, order, err⟩ :: s.taken : List (Taken K n)).take (j + 1)) =
      s.simtime :: startTimes (s.taken.take j) := fun j => rfl
  have hconsh : ∀ j, startRhs rhs ((⟨s.simtime, s.state, dt, order, err⟩ :: s.taken : List (Taken K n)).take (j + 1)) =
      rhs s.simtime s.state :: startRhs rhs (s.taken.take j) := fun j => rfl
  have hok : StepOK p rhs s.taken ⟨s.simtime, s.state, dt, order, err⟩ s'.nextState := by
    refine ⟨hdt, hmax, herr, h1, hom, ?_, fun hn => ?_, ?_⟩
    · show order ≤ s.taken.length + 1; omega
    · have : low = false := by
        cases hl : low with
        | false => rfl
        | true => exact absurd (hlow' hl) hn
      show order = _
      rw [hlow this]; exact h.ramp hn
    · apply IsABStep.extend hol
      rw [← startTimes_take, ← startRhs_take, hcons, hconsh, ← ht, ← hh]
      exact hstep
  have hmar := Marched.cons (p := p) (rhs := rhs) (t0 := t0) (y0 := y0) s.taken ⟨s.simtime, s.state, dt, order, err⟩ s'.nextState h.marched hok
  refine ⟨?_, ?_, ?_, ?_, ?_, hts⟩
  · show Marched p rhs t0 y0 (⟨s'.simtime, s'.state, dt, order, err⟩ :: s'.taken) (s'.simtime + dt) s'.nextState
    rw [e5, e1, e4]; exact hmar
  · have hco : (finishStep p s' dt err order low).current_order =
        if order < p.maximum_order ∧ low = false then order + 1 else order := by
      show (if s'.current_order < p.maximum_order ∧ low = false then s'.current_order + 1 else s'.current_order) = _
      rw [← ho]
    have htk : (finishStep p s' dt err order low).taken = ⟨s.simtime, s.state, dt, order, err⟩ :: s.taken := by
      show ⟨s'.simtime, s'.state, dt, order, err⟩ :: s'.taken = _
      rw [e5, e1, e4]
    rw [htk, hco]
    by_cases hpop : m + 1 = p.maximum_order
    · refine ⟨m, by rw [List.length_cons]; omega, ?_, ?_, ?_⟩
      · show (if s'.times.length = p.maximum_order then s'.times.dropLast else s'.times) = _
        rw [e2, if_pos (by omega), List.dropLast_eq_take, hlen, ht, ← hcons m, startTimes_take, List.take_take, startTimes_take]
        congr 1; omega
      · show (if s'.history.length = p.maximum_order then s'.history.dropLast else s'.history) = _
        rw [e3, if_pos (by omega), List.dropLast_eq_take, hlenh, hh, ← hconsh m, startRhs_take, List.take_take, startRhs_take]
        congr 1; omega
      · split_ifs <;> omega
    · refine ⟨m + 1, by rw [List.length_cons]; omega, ?_, ?_, ?_⟩
      · show (if s'.times.length = p.maximum_order then s'.times.dropLast else s'.times) = _
        rw [e2, if_neg (by omega), ht, ← hcons m]
      · show (if s'.history.length = p.maximum_order then s'.history.dropLast else s'.history) = _
        rw [e3, if_neg (by omega), hh, ← hconsh m]
      · split_ifs <;> omega
  · show 1 ≤ (if s'.current_order < p.maximum_order ∧ low = false then s'.current_order + 1 else s'.current_order)
    split_ifs <;> omega
  · show (if s'.current_order < p.maximum_order ∧ low = false then s'.current_order + 1 else s'.current_order) ≤ _
    split_ifs <;> omega
  · intro hn
    have hl : low = false := by
      cases hl : low with
      | false => rfl
      | true => exact absurd (hlow' hl) hn
    have hr := h.ramp hn
    have hoo := hlow hl
    show (if s'.current_order < p.maximum_order ∧ low = false then s'.current_order + 1 else s'.current_order) =
      min ((⟨s'.simtime, s'.state, dt, order, err⟩ :: s'.taken : List (Taken K n)).length + 1) _
    rw [List.length_cons, e5]
    split_ifs with hc
    · omega
    · have : ¬ s'.current_order < p.maximum_order := fun h => hc ⟨h, hl⟩
      omega

/-- The loop to the next output. -/
theorem outputLoop_spec (p : Params K) (rhs : Rhs K n) (hp : LimOK p) (hmax : 0 < p.max_timestep) (target t0 : K) (y0 : Fin n → K) (k : Nat)
    (fresh : Bool) (s : St K n) (ht : s.simtime < target) (h : if fresh then Inv p rhs t0 y0 s else Mid p rhs t0 y0 s)
    (hi : p.adaptive = true → s.internal_steps ≤ p.mxstep) :
    outputLoop p rhs target k fresh s ≠ .assertion ∧
    (∀ s', outputLoop p rhs target k fresh s = .done s' → Inv p rhs t0 y0 s' ∧ s'.simtime = target ∧
      ∃ l, l ≠ [] ∧ s'.taken = l ++ s.taken ∧ (p.adaptive = true → s.internal_steps + l.length ≤ p.mxstep)) ∧
    (outputLoop p rhs target k fresh s = .mxstep → p.adaptive = true) ∧
    (outputLoop p rhs target k fresh s = .outOfFuel →
      (p.adaptive = true → s.internal_steps + k ≤ p.mxstep) ∧
      (p.adaptive = false → s.simtime + k * min s.timestep p.max_timestep < target)) := by
  induction k generalizing fresh s with
  | zero =>
    refine ⟨fun h => (nomatch h), fun s' h => (nomatch h), fun h => (nomatch h), fun _ => ⟨fun ha => ?_, fun _ => ?_⟩⟩
    · have := hi ha; omega
    · simpa using ht
  | succ k ih =>
    -- the state the pass works on
    obtain ⟨s1, hs1, hmid, e1, e2, e3, e4⟩ : ∃ s1, s1 = (if fresh then push rhs s else s) ∧ Mid p rhs t0 y0 s1 ∧ s1.simtime = s.simtime ∧
        s1.taken = s.taken ∧ s1.internal_steps = s.internal_steps ∧ s1.timestep = s.timestep := by
      cases fresh with
      | true => exact ⟨_, rfl, Inv.mid h, rfl, rfl, rfl, rfl⟩
      | false => exact ⟨_, rfl, h, rfl, rfl, rfl, rfl⟩
    unfold outputLoop
    rw [← hs1]
    rcases attempt_spec p rhs hp hmax target s1 hmid.ready (by rw [e1]; exact ht) with ⟨ha, had, _⟩ | ⟨s', ha, hsame, hr, had, hco, hint, hlt⟩ |
      ⟨s', dt, err, order, running, low, ha, hsame, hdt, hdm, herr, hts, hrf, hrt, ho, h1, hlow, hlow', hle, hstep, hint, hna⟩
    · rw [ha]
      exact ⟨fun h => (nomatch h), fun s' h => (nomatch h), fun _ => had, fun h => (nomatch h)⟩
    · rw [ha]
      dsimp only
      have hm' := hmid.same hsame hco hr
      obtain ⟨r1, r2, r3, r4⟩ := ih false s' (by rw [hsame.1, e1]; exact ht) (by simpa using hm') (fun _ => by omega)
      refine ⟨r1, fun s'' hs => ?_, r3, fun hf => ⟨fun had => ?_, fun hn => by rw [had] at hn; cases hn⟩⟩
      · obtain ⟨q1, q2, l, q3, q4, q5⟩ := r2 s'' hs
        refine ⟨q1, q2, l, q3, by rw [q4, hsame.2.2.2.2, e2], fun had => ?_⟩
        have := q5 had; omega
      · have := (r4 hf).1 had; omega
    · rw [ha]
      have hinv := hmid.finish (low := low) hsame hdt hdm herr hts ho h1 hlow hlow' hle hstep
      have htk : (finishStep p s' dt err order low).taken = [⟨s.simtime, s1.state, dt, order, err⟩] ++ s.taken := by
        show ⟨s'.simtime, s'.state, dt, order, err⟩ :: s'.taken = _
        rw [hsame.2.2.2.2, hsame.1, hsame.2.2.2.1, e1, e2]; rfl
      have hst : (finishStep p s' dt err order low).simtime = s.simtime + dt := by
        show s'.simtime + dt = _
        rw [hsame.1, e1]
      cases running with
      | true =>
        dsimp only
        obtain ⟨h3, h4⟩ := hrt rfl
        obtain ⟨r1, r2, r3, r4⟩ := ih true (finishStep p s' dt err order low) (by rw [hst, ← e1]; exact h3) (by simpa using hinv)
          (fun had => by show s'.internal_steps ≤ _; have := hint had; omega)
        refine ⟨r1, fun s'' hs => ?_, r3, fun hf => ⟨fun had => ?_, fun hn => ?_⟩⟩
        · obtain ⟨q1, q2, l, q3, q4, q5⟩ := r2 s'' hs
          refine ⟨q1, q2, l ++ [⟨s.simtime, s1.state, dt, order, err⟩], by simp, by rw [q4, htk, List.append_assoc], fun had => ?_⟩
          have h5 := q5 had
          have h6 := hint had
          have h7 : (finishStep p s' dt err order low).internal_steps = s'.internal_steps := rfl
          rw [List.length_append, List.length_singleton]
          omega
        · have h5 := (r4 hf).1 had
          have h6 := hint had
          have h7 : (finishStep p s' dt err order low).internal_steps = s'.internal_steps := rfl
          omega
        · have h5 := (r4 hf).2 hn
          have h6 : (finishStep p s' dt err order low).timestep = min s.timestep p.max_timestep := by
            show s'.timestep = _
            rw [hna hn, e4]
          rw [h6, hst, h4, e4, min_assoc, min_self] at h5
          push_cast
          linarith
      | false =>
        dsimp only
        refine ⟨fun h => (nomatch h), fun s'' hs => ?_, fun h => (nomatch h), fun h => (nomatch h)⟩
        cases hs
        refine ⟨hinv, by rw [hst, ← e1]; exact hrf rfl, _, by simp, htk, fun had => ?_⟩
        have := hint had
        simp only [List.length_singleton]
        omega

/-- The invariant holds at the start. -/
theorem Inv.start (p : Params K) (rhs : Rhs K n) (t : K) (y : Fin n → K) (ts : K) (hts : 0 < ts) : Inv p rhs t y (init t y ts) :=
  ⟨.nil, ⟨0, le_refl _, rfl, rfl, le_refl _⟩, le_refl _, le_max_left _ _, fun _ => (min_eq_left (le_max_left _ _)).symm, hts⟩

/-- Whole runs. -/
theorem runLoop_spec (p : Params K) (rhs : Rhs K n) (hp : LimOK p) (hmax : 0 < p.max_timestep) (T : K) (hT : 0 < T) (fuel : Nat)
    (mon : Nat → K → (Fin n → K) → Bool) (t0 : K) (y0 : Fin n → K) (todo i : Nat) (s : St K n) (calls : List (K × (Fin n → K)))
    (h : Inv p rhs t0 y0 s) :
    runLoop p rhs T fuel mon todo i s calls ≠ .assertion ∧
    ∀ s' calls', runLoop p rhs T fuel mon todo i s calls = .done (s', calls') → (Inv p rhs t0 y0 s' ∧ ∃ l', s'.taken = l' ++ s.taken) ∧
      ∃ new, calls' = calls ++ new ∧ new.length ≤ todo ∧ s'.simtime = s.simtime + new.length * T ∧
        (∀ j (hj : j < new.length), new[j].1 = s.simtime + (j + 1) * T ∧ ∃ l, Marched p rhs t0 y0 l new[j].1 new[j].2 ∧ ∃ l', s'.taken = l' ++ l) ∧
        (new.length < todo → ∃ c, new.getLast? = some c ∧ mon (i + new.length - 1) c.1 c.2 = true) := by
  induction todo generalizing i s calls with
  | zero =>
    refine ⟨fun h => (nomatch h), fun s' calls' hd => ?_⟩
    cases hd
    exact ⟨⟨h, [], rfl⟩, [], by simp, le_refl _, by simp, fun j hj => absurd hj (by simp), fun h => absurd h (by simp)⟩
  | succ todo ih =>
    have hinv0 : Inv p rhs t0 y0 { s with internal_steps := 0 } := ⟨h.marched, h.stored, h.order_pos, h.order_max, h.ramp, h.ts⟩
    obtain ⟨r1, r2, _, _⟩ := outputLoop_spec p rhs hp hmax (s.simtime + T) t0 y0 fuel true { s with internal_steps := 0 }
      (by show s.simtime < _; linarith) (by simpa using hinv0) (fun _ => Nat.zero_le _)
    unfold runLoop
    split
    · exact ⟨fun h => (nomatch h), fun _ _ h => (nomatch h)⟩
    · rename_i hb; exact absurd hb r1
    · exact ⟨fun h => (nomatch h), fun _ _ h => (nomatch h)⟩
    · rename_i s1 hb
      obtain ⟨q1, q2, l, _, q4, _⟩ := r2 s1 hb
      dsimp only
      have hinv1 : Inv p rhs t0 y0 { s1 with derivs := rhs s1.simtime s1.state } := ⟨q1.marched, q1.stored, q1.order_pos, q1.order_max, q1.ramp, q1.ts⟩
      by_cases hm : mon i s1.simtime s1.state = true
      · rw [if_pos hm]
        refine ⟨fun h => (nomatch h), fun s' calls' hd => ?_⟩
        cases hd
        refine ⟨⟨hinv1, l, q4⟩, [(s1.simtime, s1.state)], rfl, by simp, ?_, ?_, fun _ => ⟨_, rfl, ?_⟩⟩
        · show s1.simtime = _
          rw [q2]; simp
        · intro j hj
          have : j = 0 := by simpa using hj
          subst this
          exact ⟨by show s1.simtime = _; rw [q2]; simp, s1.taken, q1.marched, [], rfl⟩
        · simpa using hm
      · rw [if_neg hm]
        obtain ⟨g1, g2⟩ := ih (i + 1) { s1 with derivs := rhs s1.simtime s1.state } (calls ++ [(s1.simtime, s1.state)]) hinv1
        refine ⟨g1, fun s' calls' hd => ?_⟩
        obtain ⟨⟨w1, l', w7⟩, new, w2, w3, w4, w5, w6⟩ := g2 s' calls' hd
        replace w7 : s'.taken = l' ++ s1.taken := w7
        have hst : ({ s1 with derivs := rhs s1.simtime s1.state } : St K n).simtime = s.simtime + T := q2
        rw [hst] at w4
        refine ⟨⟨w1, l' ++ l, by rw [w7, q4, List.append_assoc]⟩, (s1.simtime, s1.state) :: new, by rw [w2]; simp, by rw [List.length_cons]; omega, ?_, ?_, ?_⟩
        · rw [w4, List.length_cons]; push_cast; ring
        · intro j hj
          cases j with
          | zero =>
            exact ⟨by show s1.simtime = _; rw [q2]; simp, s1.taken, q1.marched, l', w7⟩
          | succ j =>
            obtain ⟨v1, v2⟩ := w5 j (by rw [List.length_cons] at hj; omega)
            refine ⟨?_, v2⟩
            rw [List.getElem_cons_succ, v1, hst]; push_cast; ring
        · intro hlt
          rw [List.length_cons] at hlt
          obtain ⟨c, hc1, hc2⟩ := w6 (by omega)
          refine ⟨c, ?_, ?_⟩
          · cases new with
            | nil => simp at hc1
            | cons a b => rw [List.getLast?_cons_cons]; exact hc1
          · rw [List.length_cons]
            rw [show i + (new.length + 1) - 1 = i + 1 + new.length - 1 by omega]
            exact hc2

/-- **C59, runs.** Every run from initial data that ends normally: the monitors are called exactly at the output times, in order, with
the state of a march of legal Adams-Bashforth steps from the initial data (positive, at most `max_timestep`, error estimate below the
tolerance if adaptive, order at most the requested one and the number of states known), and the run is only shorter than requested
if a monitor stopped it.  The assertion on the length of the history never fails. -/
theorem C59_run (p : Params K) (rhs : Rhs K n) (hp : LimOK p) (hmax : 0 < p.max_timestep) (ts : K) (hts : 0 < ts) (T : K) (hT : 0 < T)
    (fuel nout : Nat) (mon : Nat → K → (Fin n → K) → Bool) (t0 : K) (y0 : Fin n → K) :
    runLoop p rhs T fuel mon nout 0 (init t0 y0 ts) [] ≠ .assertion ∧
    ∀ s calls, runLoop p rhs T fuel mon nout 0 (init t0 y0 ts) [] = .done (s, calls) →
      Marched p rhs t0 y0 s.taken s.simtime s.state ∧ s.simtime = t0 + calls.length * T ∧ calls.length ≤ nout ∧
      (∀ j (hj : j < calls.length), calls[j].1 = t0 + (j + 1) * T ∧
        ∃ l, Marched p rhs t0 y0 l calls[j].1 calls[j].2 ∧ ∃ l', s.taken = l' ++ l) ∧
      (calls.length < nout → ∃ c, calls.getLast? = some c ∧ mon (calls.length - 1) c.1 c.2 = true) := by
  obtain ⟨h1, h2⟩ := runLoop_spec p rhs hp hmax T hT fuel mon t0 y0 nout 0 (init t0 y0 ts) [] (Inv.start p rhs t0 y0 ts hts)
  refine ⟨h1, fun s calls hd => ?_⟩
  obtain ⟨⟨w1, _⟩, new, w2, w3, w4, w5, w6⟩ := h2 s calls hd
  rw [List.nil_append] at w2
  subst w2
  exact ⟨w1.marched, w4, w3, w5, by simpa using w6⟩

/-- **C59, it ends.** Up to an output: the adaptive solver needs at most `mxstep` passes or reports that they were exceeded; the solver
with fixed time step needs no more passes than fit into the interval. -/
theorem C59_terminates (p : Params K) (rhs : Rhs K n) (hp : LimOK p) (hmax : 0 < p.max_timestep) (T : K) (hT : 0 < T) (t0 : K)
    (y0 : Fin n → K) (s : St K n) (h : Inv p rhs t0 y0 s) (fuel : Nat)
    (hf : if p.adaptive then p.mxstep < fuel else T ≤ fuel * min s.timestep p.max_timestep) :
    (∃ s', outputLoop p rhs (s.simtime + T) fuel true { s with internal_steps := 0 } = .done s') ∨
    (p.adaptive = true ∧ outputLoop p rhs (s.simtime + T) fuel true { s with internal_steps := 0 } = .mxstep) := by
  have hinv0 : Inv p rhs t0 y0 { s with internal_steps := 0 } := ⟨h.marched, h.stored, h.order_pos, h.order_max, h.ramp, h.ts⟩
  obtain ⟨r1, _, r3, r4⟩ := outputLoop_spec p rhs hp hmax (s.simtime + T) t0 y0 fuel true { s with internal_steps := 0 }
    (by show s.simtime < _; linarith) (by simpa using hinv0) (fun _ => Nat.zero_le _)
  cases hb : outputLoop p rhs (s.simtime + T) fuel true { s with internal_steps := 0 } with
  | outOfFuel =>
    exfalso
    obtain ⟨g1, g2⟩ := r4 hb
    cases ha : p.adaptive with
    | true =>
      rw [ha, if_pos rfl] at hf
      have := g1 ha
      dsimp only at this
      omega
    | false =>
      rw [ha, if_neg (by simp)] at hf
      have := g2 ha
      dsimp only at this
      linarith
  | assertion => exact absurd hb r1
  | mxstep => exact Or.inr ⟨r3 hb, rfl⟩
  | done s' => exact Or.inl ⟨s', rfl⟩

/-- What an Adams-Bashforth step does when the derivatives are those of a polynomial. -/
theorem combine_poly {l : List (Taken K n)} {rhs : Rhs K n} {P : Fin n → K[X]} (hrhs : ∀ t y m, rhs t y m = (derivative (P m)).eval t)
    {times : List K} {ds : List (Fin n → K)} {order : Nat} (hds : ∀ j, j < order → ∀ m, hist ds j m = (derivative (P m)).eval (pts times j))
    {a b : K} {w : Nat → K} (h8 : order ≤ 8) (hw : Weights times a b order w) (hP : ∀ m, (P m).natDegree ≤ order) (y : Fin n → K) (m : Fin n) :
    combine y w ds order m = y m + ((P m).eval b - (P m).eval a) := by
  unfold combine
  rw [← hw h8 (P m) (hP m)]
  congr 1
  apply Finset.sum_congr rfl
  intro j hj
  rw [hds j (Finset.mem_range.1 hj)]

/-- **C59, exactness.** If the right-hand side is the derivative of a polynomial in time of degree at most the order of a step (up to 8),
the step adds exactly the increment of the polynomial, whatever the spacing of the earlier times, and the two solutions compared agree. -/
theorem C59_exact {p : Params K} {rhs : Rhs K n} {past : List (Taken K n)} {k : Taken K n} {y' : Fin n → K} (h : StepOK p rhs past k y')
    (P : Fin n → K[X]) (hrhs : ∀ t y m, rhs t y m = (derivative (P m)).eval t) (h8 : k.order ≤ 8) (hP : ∀ m, (P m).natDegree ≤ k.order)
    (m : Fin n) : y' m = k.y m + ((P m).eval (k.t + k.dt) - (P m).eval k.t) := by
  have hds : ∀ j, j < k.order → ∀ m, hist (startRhs rhs (k :: past)) j m = (derivative (P m)).eval (pts (startTimes (k :: past)) j) := by
    intro j hj m
    have hl : j < (k :: past).length := by have := h.order_history; rw [List.length_cons]; omega
    unfold hist pts startRhs startTimes
    rw [List.getD_eq_getElem?_getD, List.getD_eq_getElem?_getD, List.getElem?_map, List.getElem?_map, List.getElem?_eq_getElem hl]
    simp [hrhs]
  have hs := h.step
  generalize startRhs rhs (k :: past) = ds at *
  generalize startTimes (k :: past) = times at *
  cases hs with
  | full w hp hw => exact combine_poly (l := past) hrhs hds h8 hw hP k.y m
  | halves w w1 w2 o hoo hol hp hw hw1 hw2 =>
    rw [combine_poly (l := past) hrhs (times := (k.t + k.dt / 2) :: times) (fun j hj m => ?_) h8 hw2 hP _ m,
      combine_poly (l := past) hrhs hds h8 hw1 hP k.y m]
    · ring
    · cases j with
      | zero => show rhs _ _ m = _; rw [hrhs]; rfl
      | succ j => exact hds j (by omega) m

/-- **C59, order of accuracy.** For any right-hand side with a polynomial solution `Q` of degree at most the order of a step: if the states
the step uses lie on it, the next state lies on it. -/
theorem C59_exact_solution {p : Params K} {rhs : Rhs K n} {past : List (Taken K n)} {k : Taken K n} {y' : Fin n → K} (h : StepOK p rhs past k y')
    (Q : Fin n → K[X]) (hQ : ∀ t m, rhs t (fun i => (Q i).eval t) m = (derivative (Q m)).eval t) (h8 : k.order + 1 ≤ 8)
    (hdeg : ∀ m, (Q m).natDegree ≤ k.order) (hex : ∀ j, j ≤ k.order → ∀ k', (k :: past)[j]? = some k' → k'.y = fun i => (Q i).eval k'.t) :
    y' = fun i => (Q i).eval (k.t + k.dt) := by
  have hk : k.y = fun i => (Q i).eval k.t := hex 0 (Nat.zero_le _) k rfl
  have hds : ∀ j, j ≤ k.order → j < (k :: past).length → ∀ m, hist (startRhs rhs (k :: past)) j m = (derivative (Q m)).eval (pts (startTimes (k :: past)) j) := by
    intro j hj hl m
    have he := hex j hj (k :: past)[j] (List.getElem?_eq_getElem hl)
    unfold hist pts startRhs startTimes
    rw [List.getD_eq_getElem?_getD, List.getD_eq_getElem?_getD, List.getElem?_map, List.getElem?_map, List.getElem?_eq_getElem hl]
    simp only [Option.map_some, Option.getD_some]
    rw [he, hQ]
  have hol : k.order ≤ (k :: past).length := by have := h.order_history; rw [List.length_cons]; omega
  have hlt : (startTimes (k :: past)).length = (k :: past).length := by unfold startTimes; rw [List.length_map]
  have hs := h.step
  funext m
  have hcomb : ∀ (o : Nat), o ≤ k.order + 1 → k.order ≤ o → o ≤ (k :: past).length → ∀ (b : K) (w : Nat → K), Weights (startTimes (k :: past)) k.t b o w →
      combine k.y w (startRhs rhs (k :: past)) o = fun i => (Q i).eval b := by
    intro o h1 h2 h3 b w hw
    funext i
    unfold combine
    have he := hw (by omega) (Q i) (le_trans (hdeg i) h2)
    have : ∑ j ∈ Finset.range o, w j * hist (startRhs rhs (k :: past)) j i = (Q i).eval b - (Q i).eval k.t := by
      rw [← he]
      apply Finset.sum_congr rfl
      intro j hj
      have := Finset.mem_range.1 hj
      rw [hds j (by omega) (by omega)]
    rw [this, hk]
    ring
  cases hs with
  | full w hp hw => rw [hcomb k.order (by omega) (le_refl _) hol _ w hw]
  | halves w w1 w2 o hoo hol' hp hw hw1 hw2 =>
    rw [hcomb k.order (by omega) (le_refl _) hol _ w1 hw1, hcomb o (by omega) (by omega) (by omega) _ w hw]
    unfold combine
    have he := hw2 (by omega) (Q m) (hdeg m)
    have : ∑ j ∈ Finset.range k.order, w2 j * hist (rhs (k.t + k.dt / 2) (fun i => (Q i).eval (k.t + k.dt / 2)) :: startRhs rhs (k :: past)) j m =
        (Q m).eval (k.t + k.dt) - (Q m).eval (k.t + k.dt / 2) := by
      rw [← he]
      apply Finset.sum_congr rfl
      intro j hj
      congr 1
      have := Finset.mem_range.1 hj
      cases j with
      | zero => show rhs _ _ m = _; rw [hQ]; rfl
      | succ j => exact hds j (by omega) (by omega) m
    rw [this]
    ring

/-- What is looked at in the example: time, state, steps, number of outputs. -/
def summary : Out (St ℚ 1 × List (ℚ × (Fin 1 → ℚ))) → List ℚ
  | .done (s, calls) => s.simtime :: s.state 0 :: calls.length :: s.taken.flatMap (fun k => [k.t, k.order, k.y 0])
  | _ => []

/-- Three steps with fixed time step on `y' = 2 t` from 0, requested order 2: Euler first, exact from then on. -/
example : summary (runLoop ⟨false, false, false, 2, 1, 0, 0, fun _ _ => none⟩ (fun t _ _ => 2 * t) 3 10 (fun _ _ _ => false) 1 0
    (init 0 0 1) []) = [3, 8, 1, 2, 2, 3, 1, 2, 0, 0, 1, 0] := by decide +kernel

end Verif.AB
