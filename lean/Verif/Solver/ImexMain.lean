import Verif.Solver.ImexRun

/-!
# C61: theorems about runs
-/
namespace Verif.Imex
open Verif.RK (Rhs)

variable {K : Type} [Field K] [LinearOrder K] [IsStrictOrderedRing K] {n : Nat}

/-- The step tried and its time steps. -/
theorem attempt_accept (p : Params K n) (Sol : K → K → Vec K n → Vec K n → Prop) (hl : Legal p Sol) (T cumulative : K) (hcum : cumulative < T)
    (checking : Bool) (s : St K n) (a : Try K) (ha : 0 < a.dtNext)
    (hD : checking = false → p.dtMin ≤ p.dtMinFatal → a.dtNext ≤ s.dtNext)
    (hfresh : checking = false → ∀ ts : Nat → K, (∀ j, j ≠ 0 → ts j = s.timesteps j) → ts 0 ≤ clampDt p a.dtNext → p.dtMinFatal ≤ a.dtNext →
      (s.order : Int) = s.lastOrder → (∀ j < p.maxOrder, s.lastTimesteps j = ts j) → calculateCoeffs s.order ts = some a.coeffs)
    (u : Vec K n) (ts : Nat → K) (c : Coeffs K) (dtNext : K) (h : attempt p T cumulative checking s a = .accept u ts c dtNext) :
    Accepted p Sol T cumulative checking s u ts c dtNext := by
  unfold attempt at h
  by_cases hf : a.dtNext < p.dtMinFatal
  · rw [if_pos hf] at h; cases h
  · rw [if_neg hf] at h
    dsimp only at h
    obtain ⟨hc1, hc2⟩ := clampDt_pos p hl.dtMax a.dtNext ha
    have hcl : checking = false → p.dtMin ≤ p.dtMinFatal → clampDt p a.dtNext ≤ s.dtNext :=
      fun h1 h2 => (clampDt_le p h2 a.dtNext (not_lt.1 hf)).trans (hD h1 h2)
    generalize clampDt p a.dtNext = dno at *
    have hdt : 0 < (if decide (cumulative + dno > T) = true then T - cumulative else dno) ∧
        cumulative + (if decide (cumulative + dno > T) = true then T - cumulative else dno) ≤ T ∧
        (if decide (cumulative + dno > T) = true then T - cumulative else dno) ≤ max p.dtMin p.dtMax ∧
        (if decide (cumulative + dno > T) = true then T - cumulative else dno) ≤ dno ∧
        (decide (cumulative + dno > T) = true → cumulative + (if decide (cumulative + dno > T) = true then T - cumulative else dno) = T) := by
      by_cases hlim : cumulative + dno > T
      · simp only [hlim, decide_true, if_true]
        exact ⟨by linarith, by linarith, by linarith, by linarith, fun _ => by ring⟩
      · simp only [hlim, decide_false, Bool.false_eq_true, if_false]
        exact ⟨hc1, not_lt.1 hlim, hc2, le_refl _, fun h => by cases h⟩
    generalize (if decide (cumulative + dno > T) = true then T - cumulative else dno) = dt at *
    obtain ⟨d1, d2, d3, d4, d5⟩ := hdt
    cases checking with
    | false =>
      simp only [Bool.false_eq_true, if_false] at h
      obtain ⟨rfl, e2, e3, e4, -, e6⟩ := highOrder_accept p Sol hl s a none a.coeffs _ dno dt _ d1 hc1
        (fun q1 q2 _ => hfresh rfl _ (fun j hj => if_neg hj) d4 (not_lt.1 hf) q1 q2) u ts c dtNext h
      refine ⟨d1, fun j hj => if_neg hj, d2, d3, e4, e3, (fun hh => by cases hh), e2, ?_⟩
      rcases e6 with e6 | ⟨-, e7, e8⟩
      · exact .inl e6
      · exact .inr ⟨rfl, d5 e7, fun h2 => by rw [e8]; exact hcl rfl h2⟩
    | true =>
      simp only [if_true] at h
      cases hc0 : calculateCoeffs (s.order - 1) (fun j => if j = 0 then dt else s.timesteps j) with
      | none => rw [hc0] at h; cases h
      | some c0 =>
        rw [hc0] at h
        dsimp only at h
        cases ht : takeStep p s.simtime (s.order - 1) (fun j => if j = 0 then dt else s.timesteps j) s.uV s.fV c0 with
        | ub => rw [ht] at h; cases h
        | failed =>
          rw [ht] at h
          dsimp only [afterFailure] at h
          split_ifs at h
        | ok e =>
          rw [ht] at h
          dsimp only at h
          obtain ⟨rfl, e2, e3, e4, e5, e6⟩ := highOrder_accept p Sol hl s a (some e) c0 _ dno dt _ d1 hc1 (fun _ _ q => by cases q) u ts c dtNext h
          refine ⟨d1, fun j hj => if_neg hj, d2, d3, e4, e3, fun _ => ⟨c0, e, hc0, takeStep_ok p Sol hl.solve _ _ _ _ _ _ _ ht, e5 e rfl⟩, e2, ?_⟩
          rcases e6 with e6 | ⟨e7, -⟩
          · exact .inl e6
          · cases e7

theorem attempt_retry (p : Params K n) (Sol : K → K → Vec K n → Vec K n → Prop) (hl : Legal p Sol) (T cumulative : K) (hcum : cumulative < T)
    (checking : Bool) (s : St K n) (a a' : Try K) (ha : 0 < a.dtNext) (h : attempt p T cumulative checking s a = .retry a') :
    0 < a'.dtNext ∧ (p.adaptive = true ∨ checking = true) ∧ (checking = false → p.dtMinFatal ≤ a.dtNext ∧ a'.dtNext ≤ clampDt p a.dtNext * (1/2)) ∧
      ((a'.failCounter = a.failCounter + 1 ∧ a'.failCounter ≤ 10 ∧ a'.adaptCounter = a.adaptCounter) ∨
       (a'.failCounter = a.failCounter ∧ a'.adaptCounter = a.adaptCounter + 1 ∧ a'.adaptCounter ≤ p.mxstepAdapt)) := by
  unfold attempt at h
  by_cases hf : a.dtNext < p.dtMinFatal
  · rw [if_pos hf] at h; cases h
  · rw [if_neg hf] at h
    dsimp only at h
    obtain ⟨hc1, hc2⟩ := clampDt_pos p hl.dtMax a.dtNext ha
    generalize clampDt p a.dtNext = dno at *
    have hdt : 0 < (if decide (cumulative + dno > T) = true then T - cumulative else dno) ∧
        (if decide (cumulative + dno > T) = true then T - cumulative else dno) ≤ dno := by
      by_cases hlim : cumulative + dno > T
      · simp only [hlim, decide_true, if_true]
        exact ⟨by linarith, by linarith⟩
      · simp only [hlim, decide_false, Bool.false_eq_true, if_false]
        exact ⟨hc1, le_refl _⟩
    generalize (if decide (cumulative + dno > T) = true then T - cumulative else dno) = dt at *
    obtain ⟨hdt, hdt2⟩ := hdt
    cases checking with
    | false =>
      simp only [Bool.false_eq_true, if_false] at h
      obtain ⟨e1, e2, e4, e3⟩ := highOrder_retry p Sol hl s a none a.coeffs _ dno dt _ hdt a' h
      exact ⟨e1, .inl (by simpa using e2), fun _ => ⟨not_lt.1 hf, by rw [e4 rfl]; linarith⟩, e3⟩
    | true =>
      simp only [if_true] at h
      cases hc0 : calculateCoeffs (s.order - 1) (fun j => if j = 0 then dt else s.timesteps j) with
      | none => rw [hc0] at h; cases h
      | some c0 =>
        rw [hc0] at h
        dsimp only at h
        cases ht : takeStep p s.simtime (s.order - 1) (fun j => if j = 0 then dt else s.timesteps j) s.uV s.fV c0 with
        | ub => rw [ht] at h; cases h
        | failed =>
          rw [ht] at h
          dsimp only [afterFailure] at h
          by_cases had : p.adaptive = false
          · rw [if_pos had] at h; cases h
          · rw [if_neg had] at h
            by_cases hf : a.failCounter + 1 > 10
            · rw [if_pos hf] at h; cases h
            · rw [if_neg hf] at h
              simp only [Att.retry.injEq] at h
              subst h
              exact ⟨by dsimp only; positivity, .inr rfl, (fun hh => by cases hh), .inl ⟨rfl, by dsimp only; omega, rfl⟩⟩
        | ok e =>
          rw [ht] at h
          dsimp only at h
          obtain ⟨e1, e2, -, e3⟩ := highOrder_retry p Sol hl s a (some e) c0 _ dno dt _ hdt a' h
          exact ⟨e1, .inr rfl, (fun hh => by cases hh), e3⟩

/-- The loop over attempts: an accepted one. -/
theorem attempts_done (p : Params K n) (Sol : K → K → Vec K n → Vec K n → Prop) (hl : Legal p Sol) (T cumulative : K) (hcum : cumulative < T)
    (checking : Bool) (s : St K n) (fuel : Nat) :
    ∀ (a : Try K), 0 < a.dtNext → (checking = false → p.dtMin ≤ p.dtMinFatal → a.dtNext ≤ s.dtNext) →
      (checking = false → ∀ ts : Nat → K, (∀ j, j ≠ 0 → ts j = s.timesteps j) → ts 0 ≤ clampDt p a.dtNext → p.dtMinFatal ≤ a.dtNext →
        (s.order : Int) = s.lastOrder → (∀ j < p.maxOrder, s.lastTimesteps j = ts j) → calculateCoeffs s.order ts = some a.coeffs) →
      (checking = false → p.adaptive = false ∨ (s.order : Int) ≠ s.lastOrder ∨
        (p.dtMin ≤ p.dtMinFatal ∧ (s.lastTimesteps 0 = s.lastTimesteps 1 → s.dtNext < 2 * s.lastTimesteps 0))) →
      s.timesteps 1 = s.lastTimesteps 0 →
      ∀ (u : Vec K n) (ts : Nat → K) (c : Coeffs K) (dtNext : K), attempts p T cumulative checking s fuel a = .done (u, ts, c, dtNext) →
        Accepted p Sol T cumulative checking s u ts c dtNext := by
  induction fuel with
  | zero => intro a _ _ _ _ _ u ts c d h; cases h
  | succ k ih =>
    intro a ha hD hfresh hsingle hts1 u ts c d h
    rw [attempts] at h
    cases hatt : attempt p T cumulative checking s a with
    | ub => rw [hatt] at h; cases h
    | throw => rw [hatt] at h; cases h
    | retry a' =>
      rw [hatt] at h
      obtain ⟨e1, e2, e3, -⟩ := attempt_retry p Sol hl T cumulative hcum checking s a a' ha hatt
      refine ih a' e1 ?_ ?_ hsingle hts1 u ts c d h
      · intro h1 h2
        obtain ⟨q1, q2⟩ := e3 h1
        have := clampDt_le p h2 a.dtNext q1
        have := hD h1 h2
        linarith
      · intro hc ts' hj h0 hfat ho hall
        rcases hsingle hc with h1 | h1 | ⟨h1, h2⟩
        · rcases e2 with e2 | e2
          · rw [h1] at e2; cases e2
          · rw [hc] at e2; cases e2
        · exact absurd ho h1
        · exfalso
          have hm := hl.order2
          have l0 := hall 0 (by omega)
          have l1 := hall 1 (by omega)
          rw [hj 1 (by omega), hts1] at l1
          have h3 := h2 l1.symm
          obtain ⟨q1, q2⟩ := e3 hc
          have h4 := clampDt_le p h1 a.dtNext q1
          have h5 := hD hc h1
          have h6 := clampDt_le p h1 a'.dtNext hfat
          linarith
    | accept u' ts' c' d' =>
      rw [hatt] at h
      simp only [Res.done.injEq, Prod.mk.injEq] at h
      obtain ⟨rfl, rfl, rfl, rfl⟩ := h
      exact attempt_accept p Sol hl T cumulative hcum checking s a ha hD hfresh _ _ _ _ hatt

/-- How far ahead of the last steps the next time step may be: at most a factor 5/4, except after a step that was cut at an output. -/
def Ahead (p : Params K n) (T cumulative : K) (s : St K n) (H : List (K × Vec K n)) : Prop :=
  s.dtNext ≤ 5/4 * T ∧ (2 ≤ H.length → s.dtNext ≤ 5/4 * s.timesteps 0 ∨
    ((cumulative = 0 ∨ cumulative = T) ∧ (s.dtNext ≤ 5/4 * s.timesteps 1 ∨ s.timesteps 0 = T)))

/-- Sums of the time steps are differences of the times of the history. -/
theorem times_eq (H : List (K × Vec K n)) (t : K) (m : Nat) (ts : Nat → K) (h0 : ts 0 = t - (H.getD 0 (0, fun _ => 0)).1)
    (hs : ∀ j, j + 1 < m → ts (j + 1) = (H.getD j (0, fun _ => 0)).1 - (H.getD (j + 1) (0, fun _ => 0)).1) (j : Nat) (hj : j < m) :
    timesOf t ts j = (H.getD j (0, fun _ => 0)).1 := by
  unfold timesOf
  induction j with
  | zero => rw [Finset.sum_range_one, h0]; ring
  | succ j ih =>
    have := ih (by omega)
    rw [Finset.sum_range_succ, hs j hj]
    linear_combination this

theorem bdf_congr (k : Nat) (t : K) (times times' : Nat → K) (c : Coeffs K) (h : ∀ j, j < k → times j = times' j) (hb : BdfWeights k t times c) :
    BdfWeights k t times' c := by
  refine ⟨fun P hP => ?_, fun Q hQ => ?_⟩
  · rw [hb.1 P hP]
    exact Finset.sum_congr rfl (fun j hj => by rw [h j (Finset.mem_range.1 hj)])
  · rw [hb.2 Q hQ]
    exact Finset.sum_congr rfl (fun j hj => by rw [h j (Finset.mem_range.1 hj)])

/-- One internal step extends the history by one. -/
theorem internalStep_done (p : Params K n) (Sol : K → K → Vec K n → Vec K n → Prop) (hl : Legal p Sol) (T cumulative : K) (hcum : cumulative < T)
    (fuel : Nat) (s0 s' : St K n) (t0 : K) (u0 : Vec K n) (H : List (K × Vec K n)) (hinv : Inv p s0 H) (hah : p.dtMin ≤ p.dtMinFatal → Ahead p T cumulative s0 H) (hcum0 : 0 ≤ cumulative) (hz0 : H.length = 1 → cumulative = 0) (hist : Hist p Sol t0 u0 H)
    (h : internalStep p T cumulative fuel s0 = .done s') :
    ∃ t u, Inv p s' ((t, u) :: H) ∧ Hist p Sol t0 u0 ((t, u) :: H) ∧ s'.simtime = s0.simtime + s'.timesteps 0 ∧ 0 < s'.timesteps 0 ∧
      cumulative + s'.timesteps 0 ≤ T ∧ (p.dtMin ≤ p.dtMinFatal → Ahead p T (cumulative + s'.timesteps 0) s' ((t, u) :: H)) := by
  have hm2 := hl.order2
  have hm4 := hl.order4
  unfold internalStep at h
  obtain ⟨⟨t', u'⟩, H', rfl⟩ : ∃ x H', H = x :: H' := by
    cases H with
    | nil => exact absurd hinv.ne (by simp)
    | cons x H' => exact ⟨x, H', rfl⟩
  have hz : H'.length = 0 → cumulative = 0 := fun h0 => hz0 (by simp [h0])
  have htime : s0.simtime = t' := by have := hinv.time; simpa using this
  have hstate : s0.u = u' := by have := hinv.state; simpa using this
  have horder : s0.order = min (H'.length + 1) p.maxOrder := by have := hinv.order; simpa using this
  have hcnt : s0.internalCounter = H'.length := by have := hinv.counter; simp at this; exact this
  obtain ⟨s, hs⟩ : ∃ s, prepare p s0 = some s := by
    unfold prepare shuffle
    rw [if_neg (by omega)]
    exact ⟨_, rfl⟩
  rw [hs] at h
  dsimp only at h
  unfold prepare shuffle at hs
  rw [if_neg (by omega)] at hs
  simp only [Option.map_some, Option.some.injEq] at hs
  have s_order : s.order = s0.order := by rw [← hs]
  have s_time : s.simtime = s0.simtime := by rw [← hs]
  have s_last : s.lastTimesteps = s0.lastTimesteps := by rw [← hs]
  have s_lastO : s.lastOrder = s0.lastOrder := by rw [← hs]
  have s_co : s.coeffs = s0.coeffs := by rw [← hs]
  have s_dt : s.dtNext = s0.dtNext := by rw [← hs]
  have s_cnt : s.internalCounter = s0.internalCounter := by rw [← hs]
  have s_ts : ∀ j, s.timesteps j = if j = 0 then s0.timesteps 0 else s0.timesteps (j - 1) := by intro j; rw [← hs]
  have s_uV : ∀ j, j < H'.length + 1 → j < p.maxOrder → s.uV j = (((t', u') :: H').getD j (0, fun _ => 0)).2 := by
    intro j h1 h2
    rw [← hs]
    dsimp only
    by_cases hj : j = 0
    · subst hj; rw [if_pos rfl, hstate]; rfl
    · rw [if_neg hj, hinv.uV (j - 1) (by simp; omega) (by omega), show j - 1 + 1 = j by omega]
  have s_fV : ∀ j, j < H'.length + 1 → j < p.maxOrder →
      s.fV j = p.F (((t', u') :: H').getD j (0, fun _ => 0)).1 (((t', u') :: H').getD j (0, fun _ => 0)).2 := by
    intro j h1 h2
    rw [← hs]
    dsimp only
    by_cases hj : j = 0
    · subst hj; rw [if_pos rfl, if_pos trivial, hstate, htime]; rfl
    · rw [if_neg hj, if_neg hj, hinv.fV (j - 1) (by simp; omega) (by omega), show j - 1 + 1 = j by omega]
  clear hs
  generalize hchk : (p.adaptive && decide (s.internalCounter % p.nadapt = 0) && decide (s.order > 1)) = checking at h
  cases hatt : attempts p T cumulative checking s fuel { dtNext := s.dtNext, coeffs := s.coeffs, adaptCounter := 0, failCounter := 0 } with
  | outOfFuel => rw [hatt] at h; cases h
  | ub => rw [hatt] at h; cases h
  | thrown => rw [hatt] at h; cases h
  | done r =>
    obtain ⟨u, ts, c, dtNext⟩ := r
    rw [hatt] at h
    simp only [Res.done.injEq] at h
    have hacc : Accepted p Sol T cumulative checking s u ts c dtNext := by
      refine attempts_done p Sol hl T cumulative hcum checking s fuel _ (by rw [s_dt]; exact hinv.dtNext) (fun _ _ => le_refl _) ?_ ?_
        (by rw [s_ts, if_neg (by omega), s_last, hinv.last]) u ts c dtNext hatt
      · intro _ ts' _ _ _ ho hts
        dsimp only
        rw [s_co]
        have hlen : ((t', u') :: H').length ≠ 1 := by
          intro h1
          have := hinv.lastOrder
          rw [if_pos h1] at this
          rw [s_lastO, this] at ho
          omega
        have hlo := hinv.lastOrder
        rw [if_neg hlen] at hlo
        have hne := hinv.ne
        rw [← hinv.coeffs (by omega)]
        have hoo : s.order = min (((t', u') :: H').length - 1) p.maxOrder := by
          rw [s_lastO, hlo] at ho
          exact_mod_cast ho
        rw [hoo]
        apply coeffs_congr
        · omega
        · omega
        · intro j hj
          rw [← hinv.last, ← s_last]
          exact (hts j (by omega)).symm
      · intro hcf
        rcases hl.fresh with h1 | h1 | h1
        · exact .inl h1
        · by_cases hH : H'.length = 0
          · right; left
            have := hinv.lastOrder
            rw [if_pos (by simp [hH])] at this
            rw [s_lastO, this]
            omega
          · left
            by_contra had
            have had' : p.adaptive = true := by simpa using had
            rw [h1, Nat.mod_one, had'] at hchk
            have : s.order > 1 := by rw [s_order, horder]; omega
            simp [this] at hchk
            rw [hcf] at hchk
            cases hchk
        · by_cases hH : H'.length = 0
          · right; left
            have := hinv.lastOrder
            rw [if_pos (by simp [hH])] at this
            rw [s_lastO, this]
            omega
          · right; right
            refine ⟨h1, fun hu => ?_⟩
            obtain ⟨b1, b2⟩ := hah h1
            have hp0 := hinv.pos 0
            rw [s_last, hinv.last] at hu ⊢
            rw [s_dt]
            rcases b2 (by simp; omega) with b2 | ⟨-, b2 | b2⟩
            · linarith
            · rw [← hu] at b2; linarith
            · rw [← b2] at b1; linarith
    have hpos : ∀ j, 0 < ts j := by
      intro j
      by_cases hj : j = 0
      · subst hj; exact hacc.pos
      · rw [hacc.tail j hj, s_ts, if_neg hj]; exact hinv.pos _
    have htimes : ∀ j, j < H'.length + 1 → j < p.maxOrder → timesOf (s.simtime + ts 0) ts j = (((t', u') :: H').getD j (0, fun _ => 0)).1 := by
      intro j h1 h2
      apply times_eq ((t', u') :: H') (s.simtime + ts 0) (min (H'.length + 1) p.maxOrder) ts
      · rw [s_time, htime]
        show ts 0 = t' + ts 0 - t'
        ring
      · intro i hi
        rw [hacc.tail (i + 1) (by omega), s_ts, if_neg (by omega), show i + 1 - 1 = i by omega, hinv.steps i (by simp; omega) (by omega)]
      · omega
    have hknown : ∀ (k : Nat) (c : Coeffs K), k ≤ H'.length + 1 → k ≤ p.maxOrder → sumRhs k s.uV s.fV c = known p.F k c ((t', u') :: H') := by
      intro k c h1 h2
      funext i
      rw [sumRhs_eq]
      unfold known
      apply Finset.sum_congr rfl
      intro j hj
      have := Finset.mem_range.1 hj
      rw [s_uV j (by omega) (by omega), s_fV j (by omega) (by omega)]
    have hstep : ∀ (k : Nat) (c : Coeffs K) (v : Vec K n), 1 ≤ k → k ≤ H'.length + 1 → k ≤ p.maxOrder → calculateCoeffs k ts = some c →
        Sol (s.simtime + ts 0) c.dtImp (sumRhs k s.uV s.fV c) v → BdfStep p.F Sol k ((t', u') :: H') (s.simtime + ts 0) v := by
      intro k c v hk h1 h2 hc hsol
      obtain ⟨c2, hc2, hw⟩ := C61_weights k hk (by omega) (s.simtime + ts 0) ts hpos
      rw [hc] at hc2
      cases hc2
      refine ⟨c, bdf_congr k _ _ _ c (fun j hj => htimes j (by omega) (by omega)) hw, ?_⟩
      rw [← hknown k c h1 h2]
      exact hsol
    refine ⟨s.simtime + ts 0, u, ?_, ?_, ?_, ?_, ?_, ?_⟩
    · subst h
      constructor
      · simp
      · rfl
      · rfl
      · show (if s.order < p.maxOrder then s.order + 1 else s.order) = _
        rw [s_order, horder]
        simp only [List.length_cons]
        split_ifs <;> omega
      · intro j h1 h2
        show s.uV j = _
        rw [s_uV j (by simpa using h1) h2]
        rfl
      · intro j h1 h2
        show s.fV j = _
        rw [s_fV j (by simpa using h1) h2]
        rfl
      · intro j h1 h2
        show ts j = _
        by_cases hj : j = 0
        · subst hj
          show ts 0 = s.simtime + ts 0 - t'
          rw [s_time, htime]; ring
        · obtain ⟨i, rfl⟩ : ∃ i, j = i + 1 := ⟨j - 1, by omega⟩
          rw [hacc.tail (i + 1) hj, s_ts, if_neg hj, show i + 1 - 1 = i by omega, hinv.steps i (by simp at h1 ⊢; omega) (by omega)]
          rfl
      · exact hpos
      · rfl
      · show ((s.order : Nat) : Int) = _
        rw [s_order, horder]
        simp
      · intro _
        show calculateCoeffs _ ts = some c
        rw [← hacc.coeffs, s_order, horder]
        simp
      · exact hacc.next
      · show s.internalCounter + 1 + 1 = _
        rw [s_cnt, hcnt]; simp
    · refine Hist.step t' u' H' (s.simtime + ts 0) u hist ?_ ?_ ?_ ?_
      · rw [s_time, htime]; linarith [hacc.pos]
      · rw [s_time, htime]; have := hacc.limit; linarith
      · have := hstep s.order c u (by rw [s_order, horder]; omega) (by rw [s_order, horder]; omega) (by rw [s_order, horder]; omega) hacc.coeffs hacc.sol
        rwa [s_order, horder] at this
      · intro h1 h2 h3
        have hc : checking = true := by
          rw [← hchk, h1, s_cnt, hcnt, h2, s_order, horder]
          simpa using h3
        obtain ⟨c', e, q1, q2, q3⟩ := hacc.checked hc
        have := hstep (s.order - 1) c' e (by rw [s_order, horder]; omega) (by rw [s_order, horder]; omega) (by rw [s_order, horder]; omega) q1 q2
        rw [s_order, horder] at this q3
        exact ⟨e, this, q3⟩
    · subst h
      show s.simtime + ts 0 = s0.simtime + ts 0
      rw [s_time]
    · subst h; exact hacc.pos
    · subst h; exact hacc.within
    · intro h1
      obtain ⟨b1, b2⟩ := hah h1
      subst h
      show dtNext ≤ 5/4 * T ∧ (_ → dtNext ≤ 5/4 * ts 0 ∨ ((cumulative + ts 0 = 0 ∨ cumulative + ts 0 = T) ∧ (dtNext ≤ 5/4 * ts 1 ∨ ts 0 = T)))
      have hw := hacc.within
      rcases hacc.bound with e | ⟨-, e2, e3⟩
      · exact ⟨by linarith, fun _ => .inl e⟩
      · have e4 := e3 h1
        rw [s_dt] at e4
        refine ⟨e4.trans b1, fun _ => ?_⟩
        by_cases hH : H'.length = 0
        · have hc0 := hz hH
          exact .inr ⟨.inr e2, .inr (by rw [hc0] at e2; linarith)⟩
        · rcases b2 (by simp; omega) with b2 | ⟨b3 | b3, -⟩
          · right
            refine ⟨.inr e2, .inl ?_⟩
            rw [hacc.tail 1 (by omega), s_ts, if_neg (by omega)]
            exact e4.trans b2
          · exact .inr ⟨.inr e2, .inr (by rw [b3] at e2; linarith)⟩
          · exact absurd b3 hcum.ne

/-- All steps up to an output. -/
theorem outputLoop_done (p : Params K n) (Sol : K → K → Vec K n → Vec K n → Prop) (hl : Legal p Sol) (T : K) (inner : Nat) (t0 : K) (u0 : Vec K n) (fuel : Nat) :
    ∀ (cumulative : K) (counter : Nat) (s s' : St K n) (H : List (K × Vec K n)), cumulative ≤ T → Inv p s H → Hist p Sol t0 u0 H →
      (p.dtMin ≤ p.dtMinFatal → Ahead p T cumulative s H) → 0 ≤ cumulative → (H.length = 1 → cumulative = 0) →
      outputLoop p T inner fuel cumulative counter s = .done s' →
      ∃ H', Inv p s' H' ∧ Hist p Sol t0 u0 H' ∧ (p.dtMin ≤ p.dtMinFatal → Ahead p T T s' H') ∧ H <:+ H' ∧ s'.simtime = s.simtime + (T - cumulative) := by
  induction fuel with
  | zero => intro cumulative counter s s' H _ _ _ _ _ _ h; cases h
  | succ k ih =>
    intro cumulative counter s s' H hcum hinv hist hah hc0 hz0 h
    rw [outputLoop] at h
    by_cases hc : cumulative < T
    · rw [if_pos hc] at h
      cases hi : internalStep p T cumulative inner s with
      | outOfFuel => rw [hi] at h; cases h
      | ub => rw [hi] at h; cases h
      | thrown => rw [hi] at h; cases h
      | done s1 =>
        rw [hi] at h
        dsimp only at h
        by_cases hm : counter + 1 > p.mxstep
        · rw [if_pos hm] at h; cases h
        · rw [if_neg hm] at h
          obtain ⟨t, u, i1, i2, i3, i4, i5, i6⟩ := internalStep_done p Sol hl T cumulative hc inner s s1 t0 u0 H hinv hah hc0 hz0 hist hi
          obtain ⟨H', j1, j2, j5, j3, j4⟩ := ih _ _ s1 s' _ i5 i1 i2 i6 (by linarith) (by intro hh; have := hinv.ne; simp at hh; rw [hh] at this; simp at this) h
          refine ⟨H', j1, j2, j5, (List.suffix_cons _ _).trans j3, ?_⟩
          rw [j4, i3]; ring
    · rw [if_neg hc] at h
      simp only [Res.done.injEq] at h
      subst h
      have : cumulative = T := le_antisymm hcum (not_lt.1 hc)
      exact ⟨H, hinv, hist, (fun h1 => by rw [← this]; exact this ▸ hah h1), List.suffix_refl _, by rw [this]; ring⟩

omit [IsStrictOrderedRing K] in
theorem Ahead.restart {p : Params K n} {T : K} {s : St K n} {H : List (K × Vec K n)} (h : Ahead p T T s H) : Ahead p T 0 s H :=
  ⟨h.1, fun h2 => (h.2 h2).imp id (fun q => ⟨.inl rfl, q.2⟩)⟩

theorem runLoop_done (p : Params K n) (Sol : K → K → Vec K n → Vec K n → Prop) (hl : Legal p Sol) (T : K) (hT : 0 < T) (inner fuel : Nat) (t0 : K) (u0 : Vec K n)
    (mon : Nat → K → Vec K n → Bool) (todo : Nat) :
    ∀ (i : Nat) (s s' : St K n) (H : List (K × Vec K n)) (calls res : List (K × Vec K n)), Inv p s H → Hist p Sol t0 u0 H →
      (p.dtMin ≤ p.dtMinFatal → Ahead p T 0 s H) → runLoop p T inner fuel mon todo i s calls = .done (s', res) →
      ∃ new H', res = calls ++ new ∧ new.length ≤ todo ∧ Hist p Sol t0 u0 H' ∧ H <:+ H' ∧
        (∀ j (hj : j < new.length), (new[j]).1 = s.simtime + (j + 1 : Nat) * T ∧ new[j] ∈ H') ∧
        (new.length < todo → ∃ j, ∃ hj : j < new.length, j + 1 = new.length ∧ mon (i + j) (new[j]).1 (new[j]).2 = true) ∧
        (∀ j (hj : j < new.length), j + 1 < new.length → mon (i + j) (new[j]).1 (new[j]).2 = false) := by
  induction todo with
  | zero =>
    intro i s s' H calls res _ hist _ h
    rw [runLoop] at h
    simp only [Res.done.injEq, Prod.mk.injEq] at h
    exact ⟨[], H, by rw [← h.2, List.append_nil], by simp, hist, List.suffix_refl _, fun j hj => absurd hj (by simp), by simp, fun j hj => absurd hj (by simp)⟩
  | succ todo ih =>
    intro i s s' H calls res hinv hist hah h
    rw [runLoop] at h
    cases ho : outputLoop p T inner fuel 0 0 s with
    | outOfFuel => rw [ho] at h; cases h
    | ub => rw [ho] at h; cases h
    | thrown => rw [ho] at h; cases h
    | done s1 =>
      rw [ho] at h
      obtain ⟨H1, i1, i2, i5, i3, i4⟩ := outputLoop_done p Sol hl T inner t0 u0 fuel 0 0 s s1 H hT.le hinv hist hah (le_refl _) (fun _ => rfl) ho
      have hmem : (s1.simtime, s1.u) ∈ H1 := by
        have := i1.ne
        cases H1 with
        | nil => simp at this
        | cons x l =>
          have e1 := i1.time
          have e2 := i1.state
          simp at e1 e2
          rw [e1, e2]
          exact List.mem_cons_self
      have htime : s1.simtime = s.simtime + T := by rw [i4]; ring
      dsimp only at h
      by_cases hm : mon i s1.simtime s1.u = true
      · rw [if_pos hm] at h
        simp only [Res.done.injEq, Prod.mk.injEq] at h
        refine ⟨[(s1.simtime, s1.u)], H1, h.2.symm, by simp, i2, i3, ?_, ?_, ?_⟩
        · intro j hj
          have : j = 0 := by simpa using hj
          subst this
          refine ⟨?_, hmem⟩
          show s1.simtime = _
          rw [htime]; push_cast; ring
        · intro _
          exact ⟨0, by simp, rfl, hm⟩
        · intro j hj hj'
          simp at hj'
      · rw [if_neg hm] at h
        obtain ⟨new, H', n1, n2, n3, n4, n5, n6, n7⟩ := ih (i + 1) s1 s' H1 _ res i1 i2 (fun h1 => Ahead.restart (i5 h1)) h
        refine ⟨(s1.simtime, s1.u) :: new, H', by rw [n1]; simp, by simp; exact n2, n3, i3.trans n4, ?_, ?_, ?_⟩
        · intro j hj
          match j with
          | 0 =>
            refine ⟨?_, n4.subset hmem⟩
            show s1.simtime = _
            rw [htime]; push_cast; ring
          | j + 1 =>
            obtain ⟨x, z⟩ := n5 j (by simpa using hj)
            refine ⟨?_, z⟩
            show (new[j]'(by simpa using hj)).1 = _
            rw [x, htime]; push_cast; ring
        · intro hlt
          obtain ⟨j, hj, hj1, hj2⟩ := n6 (by simpa using hlt)
          refine ⟨j + 1, by simpa using hj, by simpa using hj1, ?_⟩
          rw [show i + (j + 1) = i + 1 + j by omega]
          exact hj2
        · intro j hj hj'
          match j with
          | 0 => simpa using hm
          | j + 1 =>
            have := n7 j (by simpa using hj) (by simpa using hj')
            rw [show i + (j + 1) = i + 1 + j by omega]
            exact this

theorem start_inv (p : Params K n) (h2 : 2 ≤ p.maxOrder) (timestep t0 : K) (hts : 0 < timestep) (u0 : Vec K n) : Inv p (start timestep t0 u0) [(t0, u0)] := by
  constructor
  · simp
  · rfl
  · rfl
  · show 1 = min 1 p.maxOrder
    omega
  · intro j h; simp at h
  · intro j h; simp at h
  · intro j h; simp at h
  · intro j; exact hts
  · rfl
  · rfl
  · intro h; simp at h
  · exact hts
  · rfl

theorem start_ahead (p : Params K n) (T timestep t0 : K) (hts : 0 < timestep) (htsT : timestep ≤ T) (u0 : Vec K n) :
    Ahead p T 0 (start timestep t0 u0) [(t0, u0)] := by
  refine ⟨?_, fun h => by simp at h⟩
  show timestep ≤ 5/4 * T
  linarith

/-- **C61, run.** The states given to the monitors are those of one history of steps of the variable-step IMEX-BDF formulas, at the exact
output times, in order, until the last output or the first monitor that asks to stop. -/
theorem C61_run_partial (p : Params K n) (Sol : K → K → Vec K n → Vec K n → Prop) (hl : Legal p Sol) (T : K) (hT : 0 < T) (inner fuel nout : Nat)
    (timestep t0 : K) (hts : 0 < timestep) (htsT : timestep ≤ T) (u0 : Vec K n) (mon : Nat → K → Vec K n → Bool) (s' : St K n) (calls : List (K × Vec K n))
    (h : runLoop p T inner fuel mon nout 0 (start timestep t0 u0) [] = .done (s', calls)) :
    calls.length ≤ nout ∧
      (∃ H, Hist p Sol t0 u0 H ∧ ∀ j (hj : j < calls.length), (calls[j]).1 = t0 + (j + 1 : Nat) * T ∧ calls[j] ∈ H) ∧
      (calls.length < nout → ∃ j, ∃ hj : j < calls.length, j + 1 = calls.length ∧ mon j (calls[j]).1 (calls[j]).2 = true) ∧
      (∀ j (hj : j < calls.length), j + 1 < calls.length → mon j (calls[j]).1 (calls[j]).2 = false) := by
  obtain ⟨new, H', d1, d2, d3, -, d5, d6, d7⟩ := runLoop_done p Sol hl T hT inner fuel t0 u0 mon nout 0 _ s' _ [] calls
    (start_inv p hl.order2 timestep t0 hts u0) .start (fun _ => start_ahead p T timestep t0 hts htsT u0) h
  simp only [List.nil_append] at d1
  subst d1
  simp only [Nat.zero_add] at d6 d7
  exact ⟨d2, ⟨H', d3, d5⟩, d6, d7⟩

end Verif.Imex
