import Verif.Solver.ImexCoeffs

/-!
# C61: the run of the IMEX-BDF solver

Specification of a run: a history of accepted states (newest first) in which every state comes from the states before it by the
variable-step formula for the actual times.
-/
namespace Verif.Imex
open Verif.RK (Rhs)

variable {K : Type} [Field K] [LinearOrder K] [IsStrictOrderedRing K] {n : Nat}

/-- The known part of the formula: weighted states and explicit right-hand sides of the last `k` entries of the history. -/
def known (F : Rhs K n) (k : Nat) (c : Coeffs K) (H : List (K × Vec K n)) : Vec K n := fun i =>
  ∑ j ∈ Finset.range k, (c.u j * (H.getD j (0, fun _ => 0)).2 i + c.f j * F (H.getD j (0, fun _ => 0)).1 (H.getD j (0, fun _ => 0)).2 i)

/-- `u` is a solution at time `t` of the formula of order `k` after the history `H`; `Sol t γ r u` says that `u - γ G(t, u) = r` is solved
(to whatever accuracy the nonlinear solver guarantees). -/
def BdfStep (F : Rhs K n) (Sol : K → K → Vec K n → Vec K n → Prop) (k : Nat) (H : List (K × Vec K n)) (t : K) (u : Vec K n) : Prop :=
  ∃ c : Coeffs K, BdfWeights k t (fun j => (H.getD j (0, fun _ => 0)).1) c ∧ Sol t c.dtImp (known F k c H) u

/-- Histories from `u0` at `t0`. -/
inductive Hist (p : Params K n) (Sol : K → K → Vec K n → Vec K n → Prop) (t0 : K) (u0 : Vec K n) : List (K × Vec K n) → Prop where
  | start : Hist p Sol t0 u0 [(t0, u0)]
  | step (t' : K) (u' : Vec K n) (H : List (K × Vec K n)) (t : K) (u : Vec K n) (hH : Hist p Sol t0 u0 ((t', u') :: H))
      (later : t' < t) (limit : t - t' ≤ max p.dtMin p.dtMax)
      (formula : BdfStep p.F Sol (min (H.length + 1) p.maxOrder) ((t', u') :: H) t u)
      (checked : p.adaptive = true → H.length % p.nadapt = 0 → 1 < min (H.length + 1) p.maxOrder →
        ∃ e, BdfStep p.F Sol (min (H.length + 1) p.maxOrder - 1) ((t', u') :: H) t e ∧
          p.scaleCushDown ≤ p.scale (min (H.length + 1) p.maxOrder) e u) :
      Hist p Sol t0 u0 ((t, u) :: (t', u') :: H)

/-- What a user must give: `maxOrder` from 2 to 4 and a predictor with enough history; positive limits; the solver does what it says; every
step is checked or none, or (the default) the lower limit of the time step is not above the fatal one. -/
structure Legal (p : Params K n) (Sol : K → K → Vec K n → Vec K n → Prop) : Prop where
  order2 : 2 ≤ p.maxOrder
  order4 : p.maxOrder ≤ 4
  predictor : p.predictor ≠ 2 ∨ 3 ≤ p.maxOrder
  dtMax : 0 < p.dtMax
  scale : ∀ k a b, 0 < p.scale k a b
  solve : ∀ g t γ r u, p.solve g t γ r = some u → Sol t γ r u
  fresh : p.adaptive = false ∨ p.nadapt = 1 ∨ p.dtMin ≤ p.dtMinFatal

theorem rawCoeffs_congr (k : Nat) (hk : k ≤ 4) (ts ts' : Nat → K) (h : ∀ j, j < k → ts j = ts' j) : rawCoeffs k ts = rawCoeffs k ts' := by
  have : k = 0 ∨ k = 1 ∨ k = 2 ∨ k = 3 ∨ k = 4 := by omega
  rcases this with rfl | rfl | rfl | rfl | rfl
  · rfl
  · simp only [rawCoeffs, h 0 (by omega)]
  · simp only [rawCoeffs, h 0 (by omega), h 1 (by omega)]
  · simp only [rawCoeffs, h 0 (by omega), h 1 (by omega), h 2 (by omega)]
  · simp only [rawCoeffs, h 0 (by omega), h 1 (by omega), h 2 (by omega), h 3 (by omega)]

theorem coeffs_congr (k : Nat) (hk0 : 1 ≤ k) (hk : k ≤ 4) (ts ts' : Nat → K) (h : ∀ j, j < k → ts j = ts' j) : calculateCoeffs k ts = calculateCoeffs k ts' := by
  unfold calculateCoeffs
  rw [rawCoeffs_congr k hk ts ts' h, h 0 (by omega)]

theorem sumRhs_eq (k : Nat) (uV fV : Nat → Vec K n) (c : Coeffs K) (i : Fin n) :
    sumRhs k uV fV c i = ∑ j ∈ Finset.range k, (c.u j * uV j i + c.f j * fV j i) := by
  unfold sumRhs
  have : ∀ (r : Vec K n), (List.range k).foldl (fun r j => fun i => r i + (uV j i * c.u j + fV j i * c.f j)) r i =
      r i + ∑ j ∈ Finset.range k, (c.u j * uV j i + c.f j * fV j i) := by
    induction k with
    | zero => intro r; simp
    | succ k ih =>
      intro r
      rw [List.range_succ, List.foldl_append, List.foldl_cons, List.foldl_nil, ih, Finset.sum_range_succ]
      ring
  rw [this]
  simp

/-- The state of the solver after a history. -/
structure Inv (p : Params K n) (s : St K n) (H : List (K × Vec K n)) : Prop where
  ne : 1 ≤ H.length
  time : s.simtime = (H.getD 0 (0, fun _ => 0)).1
  state : s.u = (H.getD 0 (0, fun _ => 0)).2
  order : s.order = min H.length p.maxOrder
  uV : ∀ j, j + 1 < H.length → j < p.maxOrder → s.uV j = (H.getD (j + 1) (0, fun _ => 0)).2
  fV : ∀ j, j + 1 < H.length → j < p.maxOrder → s.fV j = p.F (H.getD (j + 1) (0, fun _ => 0)).1 (H.getD (j + 1) (0, fun _ => 0)).2
  steps : ∀ j, j + 1 < H.length → j < p.maxOrder → s.timesteps j = (H.getD j (0, fun _ => 0)).1 - (H.getD (j + 1) (0, fun _ => 0)).1
  pos : ∀ j, 0 < s.timesteps j
  last : s.lastTimesteps = s.timesteps
  lastOrder : s.lastOrder = if H.length = 1 then (-1 : Int) else ((min (H.length - 1) p.maxOrder : Nat) : Int)
  coeffs : 2 ≤ H.length → calculateCoeffs (min (H.length - 1) p.maxOrder) s.timesteps = some s.coeffs
  dtNext : 0 < s.dtNext
  counter : s.internalCounter + 1 = H.length

theorem clampDt_pos (p : Params K n) (hm : 0 < p.dtMax) (dt : K) (h : 0 < dt) : 0 < clampDt p dt ∧ clampDt p dt ≤ max p.dtMin p.dtMax := by
  unfold clampDt
  split_ifs with h1 h2
  · exact ⟨h.trans h1, le_max_left _ _⟩
  · exact ⟨hm, le_max_right _ _⟩
  · push Not at h2; exact ⟨h, h2.trans (le_max_right _ _)⟩

theorem clampDt_le (p : Params K n) (h : p.dtMin ≤ p.dtMinFatal) (dt : K) (hd : p.dtMinFatal ≤ dt) : clampDt p dt ≤ dt := by
  unfold clampDt
  split_ifs with h1 h2
  · exact absurd (h.trans hd) (not_le.2 h1)
  · exact h2.le
  · exact le_rfl

theorem guess_some (p : Params K n) (h2 : 2 ≤ p.maxOrder) (hp : p.predictor ≠ 2 ∨ 3 ≤ p.maxOrder) (uV : Nat → Vec K n) (r : Vec K n) :
    ∃ g, guess p uV r = some g := by
  unfold guess
  split_ifs with a b c d e
  · exact ⟨_, rfl⟩
  · exact ⟨_, rfl⟩
  · omega
  · exact ⟨_, rfl⟩
  · omega
  · exact ⟨_, rfl⟩

theorem takeStep_ok (p : Params K n) (Sol : K → K → Vec K n → Vec K n → Prop) (hs : ∀ g t γ r u, p.solve g t γ r = some u → Sol t γ r u)
    (t : K) (k : Nat) (ts : Nat → K) (uV fV : Nat → Vec K n) (c : Coeffs K) (u : Vec K n) (h : takeStep p t k ts uV fV c = .ok u) :
    Sol (t + ts 0) c.dtImp (sumRhs k uV fV c) u := by
  unfold takeStep at h
  dsimp only at h
  cases hg : guess p uV (sumRhs k uV fV c) with
  | none => rw [hg] at h; cases h
  | some g =>
    rw [hg] at h
    dsimp only at h
    cases hv : p.solve g (t + ts 0) c.dtImp (sumRhs k uV fV c) with
    | none => rw [hv] at h; cases h
    | some v =>
      rw [hv] at h
      simp only [Stepped.ok.injEq] at h
      subst h
      exact hs _ _ _ _ _ hv

/-- An accepted attempt. -/
structure Accepted (p : Params K n) (Sol : K → K → Vec K n → Vec K n → Prop) (T cumulative : K) (checking : Bool) (s : St K n) (u : Vec K n)
    (ts : Nat → K) (c : Coeffs K) (dtNext : K) : Prop where
  pos : 0 < ts 0
  tail : ∀ j, j ≠ 0 → ts j = s.timesteps j
  within : cumulative + ts 0 ≤ T
  limit : ts 0 ≤ max p.dtMin p.dtMax
  sol : Sol (s.simtime + ts 0) c.dtImp (sumRhs s.order s.uV s.fV c) u
  coeffs : calculateCoeffs s.order ts = some c
  checked : checking = true → ∃ c' e, calculateCoeffs (s.order - 1) ts = some c' ∧
    Sol (s.simtime + ts 0) c'.dtImp (sumRhs (s.order - 1) s.uV s.fV c') e ∧ p.scaleCushDown ≤ p.scale s.order e u
  next : 0 < dtNext
  bound : dtNext ≤ 5/4 * ts 0 ∨ (checking = false ∧ cumulative + ts 0 = T ∧ (p.dtMin ≤ p.dtMinFatal → dtNext ≤ s.dtNext))

theorem highOrder_accept (p : Params K n) (Sol : K → K → Vec K n → Vec K n → Prop) (hl : Legal p Sol) (s : St K n) (a : Try K) (low : Option (Vec K n))
    (c0 : Coeffs K) (ts : Nat → K) (dtNoLimit dt : K) (limited : Bool) (hdt : 0 < dt) (hno : 0 < dtNoLimit)
    (hfresh : (s.order : Int) = s.lastOrder → (∀ j < p.maxOrder, s.lastTimesteps j = ts j) → low = none → calculateCoeffs s.order ts = some c0)
    (u : Vec K n) (ts' : Nat → K) (c : Coeffs K) (dtNext : K) (h : highOrder p s a low c0 ts dtNoLimit dt limited = .accept u ts' c dtNext) :
    ts' = ts ∧ 0 < dtNext ∧ calculateCoeffs s.order ts = some c ∧ Sol (s.simtime + ts 0) c.dtImp (sumRhs s.order s.uV s.fV c) u ∧
      (∀ e, low = some e → p.scaleCushDown ≤ p.scale s.order e u) ∧ (dtNext ≤ 5/4 * dt ∨ (low = none ∧ limited = true ∧ dtNext = dtNoLimit)) := by
  unfold highOrder at h
  dsimp only at h
  have hc : ∀ c1, (if (s.order : Int) ≠ s.lastOrder ∨ (List.range p.maxOrder).any (fun j => s.lastTimesteps j ≠ ts j) = true ∨ low.isSome = true
      then calculateCoeffs s.order ts else some c0) = some c1 → calculateCoeffs s.order ts = some c1 := by
    intro c1 h1
    by_cases hcond : (s.order : Int) ≠ s.lastOrder ∨ (List.range p.maxOrder).any (fun j => s.lastTimesteps j ≠ ts j) = true ∨ low.isSome = true
    · rwa [if_pos hcond] at h1
    · rw [if_neg hcond] at h1
      push Not at hcond
      obtain ⟨q1, q2, q3⟩ := hcond
      rw [hfresh q1 ?_ ?_]
      · exact h1
      · intro j hj
        by_contra hne
        apply q2
        rw [List.any_eq_true]
        exact ⟨j, List.mem_range.2 hj, by simpa using hne⟩
      · cases low with
        | none => rfl
        | some e => exact absurd rfl q3
  generalize hcc : (if (s.order : Int) ≠ s.lastOrder ∨ (List.range p.maxOrder).any (fun j => s.lastTimesteps j ≠ ts j) = true ∨ low.isSome = true
      then calculateCoeffs s.order ts else some c0) = cc at h hc
  cases cc with
  | none => cases h
  | some c1 =>
    dsimp only at h
    have hc1 := hc c1 rfl
    cases ht : takeStep p s.simtime s.order ts s.uV s.fV c1 with
    | ub => rw [ht] at h; cases h
    | failed =>
      rw [ht] at h
      dsimp only [afterFailure] at h
      split_ifs at h
    | ok v =>
      rw [ht] at h
      dsimp only at h
      have hsol := takeStep_ok p Sol hl.solve _ _ _ _ _ _ _ ht
      cases low with
      | none =>
        simp only [Att.accept.injEq] at h
        obtain ⟨rfl, rfl, rfl, rfl⟩ := h
        refine ⟨rfl, ?_, hc1, hsol, (fun e he => by cases he), ?_⟩
        · split_ifs <;> assumption
        · cases limited with
          | true => exact .inr ⟨rfl, rfl, rfl⟩
          | false => left; simp only [Bool.false_eq_true, if_false]; linarith
      | some e =>
        dsimp only at h
        have hsc := hl.scale s.order e v
        by_cases hd : p.scale s.order e v < p.scaleCushDown
        · rw [if_pos hd] at h
          dsimp only at h
          split_ifs at h
          simp at *
        · rw [if_neg hd] at h
          push Not at hd
          by_cases hup : p.scale s.order e v ≥ p.scaleCushUp ∧ a.adaptCounter = 0 ∧ a.failCounter = 0
          · rw [if_pos hup] at h
            dsimp only at h
            by_cases hm : a.adaptCounter + 1 > p.mxstepAdapt
            · rw [if_pos hm] at h; cases h
            · rw [if_neg hm] at h
              simp only [Bool.false_eq_true, if_false, Att.accept.injEq] at h
              obtain ⟨rfl, rfl, rfl, rfl⟩ := h
              refine ⟨rfl, mul_pos hdt (lt_min hsc (by norm_num)), hc1, hsol, fun e' he => ?_, .inl ?_⟩
              · cases he
                exact hd
              · have := mul_le_mul_of_nonneg_left (min_le_right (p.scale s.order e v) (5/4)) hdt.le
                linarith
          · rw [if_neg hup] at h
            dsimp only at h
            by_cases hm : a.adaptCounter + 1 > p.mxstepAdapt
            · rw [if_pos hm] at h; cases h
            · rw [if_neg hm] at h
              simp only [Bool.false_eq_true, if_false, Att.accept.injEq] at h
              obtain ⟨rfl, rfl, rfl, rfl⟩ := h
              refine ⟨rfl, hdt, hc1, hsol, fun e' he => ?_, .inl (by linarith)⟩
              cases he
              exact hd

/-- A failed attempt leaves a positive time step, and is impossible without adaptation. -/
theorem highOrder_retry (p : Params K n) (Sol : K → K → Vec K n → Vec K n → Prop) (hl : Legal p Sol) (s : St K n) (a : Try K) (low : Option (Vec K n))
    (c0 : Coeffs K) (ts : Nat → K) (dtNoLimit dt : K) (limited : Bool) (hdt : 0 < dt) (a' : Try K)
    (h : highOrder p s a low c0 ts dtNoLimit dt limited = .retry a') :
    0 < a'.dtNext ∧ (p.adaptive = true ∨ low.isSome = true) ∧ (low = none → a'.dtNext = dt * (1/2)) ∧
      ((a'.failCounter = a.failCounter + 1 ∧ a'.failCounter ≤ 10 ∧ a'.adaptCounter = a.adaptCounter) ∨
       (a'.failCounter = a.failCounter ∧ a'.adaptCounter = a.adaptCounter + 1 ∧ a'.adaptCounter ≤ p.mxstepAdapt)) := by
  unfold highOrder at h
  dsimp only at h
  generalize (if (s.order : Int) ≠ s.lastOrder ∨ (List.range p.maxOrder).any (fun j => s.lastTimesteps j ≠ ts j) = true ∨ low.isSome = true
      then calculateCoeffs s.order ts else some c0) = cc at h
  cases cc with
  | none => cases h
  | some c1 =>
    dsimp only at h
    cases ht : takeStep p s.simtime s.order ts s.uV s.fV c1 with
    | ub => rw [ht] at h; cases h
    | failed =>
      rw [ht] at h
      dsimp only [afterFailure] at h
      by_cases ha : p.adaptive = false
      · rw [if_pos ha] at h; cases h
      · rw [if_neg ha] at h
        by_cases hf : a.failCounter + 1 > 10
        · rw [if_pos hf] at h; cases h
        · rw [if_neg hf] at h
          simp only [Att.retry.injEq] at h
          subst h
          exact ⟨by dsimp only; positivity, .inl (by simpa using ha), fun _ => rfl, .inl ⟨rfl, by dsimp only; omega, rfl⟩⟩
    | ok v =>
      rw [ht] at h
      dsimp only at h
      cases low with
      | none => cases h
      | some e =>
        dsimp only at h
        have hsc := hl.scale s.order e v
        have hr : 0 < (if p.scale s.order e v < p.scaleCushDown then (true, dt * p.scale s.order e v)
          else if p.scale s.order e v ≥ p.scaleCushUp ∧ a.adaptCounter = 0 ∧ a.failCounter = 0 then (false, dt * min (p.scale s.order e v) (5/4))
          else (false, dt)).2 := by
          split_ifs
          · exact mul_pos hdt hsc
          · exact mul_pos hdt (lt_min hsc (by norm_num))
          · exact hdt
        generalize (if p.scale s.order e v < p.scaleCushDown then (true, dt * p.scale s.order e v)
          else if p.scale s.order e v ≥ p.scaleCushUp ∧ a.adaptCounter = 0 ∧ a.failCounter = 0 then (false, dt * min (p.scale s.order e v) (5/4))
          else (false, dt)) = r at h hr
        by_cases hm : a.adaptCounter + 1 > p.mxstepAdapt
        · rw [if_pos hm] at h; cases h
        · rw [if_neg hm] at h
          by_cases hr1 : r.1 = true
          · rw [if_pos hr1] at h
            simp only [Att.retry.injEq] at h
            subst h
            exact ⟨hr, .inr rfl, (fun hh => by cases hh), .inr ⟨rfl, rfl, by dsimp only; omega⟩⟩
          · rw [if_neg hr1] at h; cases h

end Verif.Imex
