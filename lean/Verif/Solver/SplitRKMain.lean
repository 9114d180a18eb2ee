import Verif.Solver.SplitRKRun
import Verif.Solver.SplitRKProps
import Mathlib.Tactic.NormNum

/-!
# C60: fixed steps, and what goes wrong
-/
namespace Verif.SplitRK

section
variable {K σ : Type} [Field K] [LinearOrder K] [IsStrictOrderedRing K]

/-- `N` steps of the scheme of size `ts`. -/
def advance (step : K → K → σ → σ) (ts : K) : Nat → K → σ → σ
  | 0, _, y => y
  | N + 1, t, y => advance step ts N (t + ts) (step t ts y)

theorem fixed_steps (p : Params K σ) (hrd : p.rd = id) (ha : p.adaptive = false) (ts : K) (hts : 0 < ts) (N : Nat) :
    ∀ (fuel : Nat) (s : St K σ), N + 1 ≤ fuel → s.timestep = ts → ∃ s', outputLoop p (s.simtime + (N + 1 : Nat) * ts) fuel false s = .done s' ∧
      s'.simtime = s.simtime + (N + 1 : Nat) * ts ∧ s'.timestep = ts ∧ s'.state = advance p.step ts (N + 1) s.simtime s.state := by
  induction N with
  | zero =>
    intro fuel s hf hs
    obtain ⟨k, rfl⟩ : ∃ k, fuel = k + 1 := ⟨fuel - 1, by omega⟩
    rw [outputLoop, if_neg (by rintro (h | ⟨h, -⟩); · cases h
                               · rw [ha] at h; cases h)]
    have hc : chooseDt p (s.simtime + ((0 + 1 : Nat) : K) * ts) s.simtime s.timestep = (ts, false) := by
      unfold chooseDt
      rw [hrd, hs]
      simp
    unfold fixedStep
    rw [hc]
    refine ⟨_, rfl, ?_, hs, ?_⟩
    · show p.rd (s.simtime + ts) = _
      rw [hrd]; simp
    · show p.step s.simtime s.timestep s.state = _
      rw [hs]; rfl
  | succ N ih =>
    intro fuel s hf hs
    obtain ⟨k, rfl⟩ : ∃ k, fuel = k + 1 := ⟨fuel - 1, by omega⟩
    rw [outputLoop, if_neg (by rintro (h | ⟨h, -⟩); · cases h
                               · rw [ha] at h; cases h)]
    have hN : (0 : K) ≤ N := by positivity
    have hc : chooseDt p (s.simtime + ((N + 1 + 1 : Nat) : K) * ts) s.simtime s.timestep = (ts, true) := by
      unfold chooseDt
      rw [hrd, hs, if_neg]
      push_cast
      simp only [id_eq, ge_iff_le, not_le]
      nlinarith
    unfold fixedStep
    rw [hc]
    dsimp only
    obtain ⟨s', h1, h2, h3, h4⟩ := ih k ⟨p.rd (s.simtime + ts), s.timestep, p.step s.simtime s.timestep s.state, s.internal_steps + 1,
      ⟨s.simtime, s.state, ts, s.timestep⟩ :: s.taken⟩ (by omega) hs
    have e : p.rd (s.simtime + ts) + ((N + 1 : Nat) : K) * ts = s.simtime + ((N + 1 + 1 : Nat) : K) * ts := by
      rw [hrd]; push_cast; simp only [id_eq]; ring
    rw [e] at h1
    refine ⟨s', h1, ?_, h3, ?_⟩
    · rw [h2]; exact e
    · rw [h4]
      dsimp only
      rw [hrd, hs]
      rfl

/-- **C60, fixed step, exact arithmetic.** Without adaptation, `init` makes the time step divide the output interval, and an output is that
number of steps of the scheme, each over its own interval. -/
theorem C60_fixed_partial (p : Params K σ) (hrd : p.rd = id) (ha : p.adaptive = false) (ceilDiv : K → K → Nat) (T ts0 : K) (hT : 0 < T) (hc : 0 < ceilDiv T ts0)
    (fuel : Nat) (s : St K σ) (hs : s.timestep = initTimestep ceilDiv T ts0) (hf : ceilDiv T ts0 ≤ fuel) :
    ∃ s', outputLoop p (s.simtime + T) fuel false s = .done s' ∧ s'.simtime = s.simtime + T ∧ s'.timestep = s.timestep ∧
      s'.state = advance p.step (T / (ceilDiv T ts0 : K)) (ceilDiv T ts0) s.simtime s.state := by
  obtain ⟨N, hN⟩ : ∃ N, ceilDiv T ts0 = N + 1 := ⟨ceilDiv T ts0 - 1, by omega⟩
  unfold initTimestep at hs
  rw [hN] at hs hf ⊢
  have hN0 : ((N + 1 : Nat) : K) ≠ 0 := by positivity
  have hts : 0 < T / ((N + 1 : Nat) : K) := by positivity
  obtain ⟨s', h1, h2, h3, h4⟩ := fixed_steps p hrd ha (T / ((N + 1 : Nat) : K)) hts N fuel s hf hs
  have e : s.simtime + ((N + 1 : Nat) : K) * (T / ((N + 1 : Nat) : K)) = s.simtime + T := by field_simp
  rw [e] at h1 h2
  exact ⟨s', h1, h2, h3.trans hs.symm, h4⟩

end

/-! ## Findings -/

/-- The scheme for `dy/dt = 1`, all of it convective: exact, whatever the step. -/
def unitStep (t h : ℚ) (y : ℚ) : ℚ := takeStep 2 (fun _ _ _ => 0) (fun _ _ _ => 1) t h (fun _ : Fin 1 => y) 0

theorem unitStep_exact (t h y : ℚ) : unitStep t h y = y + h := by
  unfold unitStep takeStep diffusionStep advectionStep
  simp
  ring

/-- Adaptive run, `atol = rtol`-type error, growth of the step limited to a factor 2, `adapt_period = 2`. -/
def period2 : Params ℚ ℚ where
  adaptive := true
  adapt_period := 2
  mxstep := 1000
  rtol := 1/1000
  adapt := fun ts _ => ts * 2
  step := unitStep
  errorOf := fun a b => |a - b| / (|a| + |b| + 1/1000000)
  rd := id

def report (r : Res (St ℚ ℚ × List (ℚ × ℚ))) : List ℚ :=
  match r with
  | .done (_, l) => l.flatMap (fun x => [x.1, x.2])
  | _ => []

/-- **C60, not satisfied with `adapt_period > 1`** (split-rk.cxx:180): the step that ends on the output time is taken with the full time step:
`dy/dt = 1`, `y(0) = 0` gives `y(1) = 3/2`. -/
theorem C60_adapt_period_violated :
    (∀ t h y, unitStep t h y = y + h) ∧ report (runLoop period2 1 10 (fun _ _ _ => false) 1 0 ⟨0, 1/2, 0, 0, []⟩ []) = [1, 3/2] :=
  ⟨unitStep_exact, by decide +kernel⟩

/-- Rounding to the nearest number with 53 significant bits, ties to even, for arguments between 0 and 2. -/
def rd53 (x : ℚ) : ℚ :=
  if x ≤ 0 then x else
  let num := x.num.toNat
  let den := x.den
  -- smallest `k` with `x * 2^k ≥ 2^52`
  let k0 := 52 + den.log2 - num.log2
  let k := if num * 2 ^ k0 < 2 ^ 52 * den then k0 + 1 else k0
  let q := num * 2 ^ k / den
  let r := num * 2 ^ k % den
  let m := if 2 * r > den ∨ (2 * r = den ∧ q % 2 = 1) then q + 1 else q
  (m : ℚ) / (2 ^ k : Nat)

/-- `rd53` rounds `1/10`, `3/10` as IEEE double precision does (the significands are those of `0.1` and `0.3`). -/
example : [rd53 (1/10), rd53 (3/10), rd53 1] = [3602879701896397 / 2 ^ 55, 5404319552844595 / 2 ^ 54, 1] := by decide +kernel

/-- No adaptation; times in double precision. -/
def plain : Params ℚ ℚ := { period2 with adaptive := false, rd := rd53 }

/-- **C60, not satisfied without adaptation either** (split-rk.cxx:180): output interval 1, time step 0.1.  In double precision ten steps end
just below 1, an eleventh is needed to reach the output time, and it is taken with the full time step: `dy/dt = 1` gives 11 steps of 0.1. -/
theorem C60_fixed_step_rounding_violated :
    rd53 (1 / rd53 (1/10)) = 10 ∧
    report (runLoop plain 1 20 (fun _ _ _ => false) 1 0 ⟨0, rd53 (1/10), 0, 0, []⟩ []) = [1, 11 * rd53 (1/10)] := by
  decide +kernel

section
variable {K : Type} [Field K] [LinearOrder K] [IsStrictOrderedRing K]

/-- **C60, not satisfied for a right-hand side that depends on time** (split-rk.cxx:232, 250): for `dy/dt = t`, `y(0) = 0` the diffusion step
returns a multiple of `dt³` for every number of stages, instead of `dt²/2`. -/
theorem C60_time_dependent_violated (s : Nat) : ∃ kappa : K, ∀ dt : K,
    diffusionStep s (fun t (_ : Fin 1 → K) _ => t) 0 dt (fun _ => 0) = fun _ => kappa * dt ^ 3 := by
  have key : ∀ (l : List Nat) (b1 b2 k1 k2 : K), ∃ kappa : K, ∀ (dt w : K) (u3 : Fin 1 → K),
      (l.foldl (stage (fun t (_ : Fin 1 → K) _ => t) 0 w (fun _ => 0) (fun _ => 0))
        { u1 := fun _ => k1 * dt ^ 3, u2 := fun _ => k2 * dt ^ 3, u3 := u3, b_jm1 := b1, b_jm2 := b2 }).u1 = fun _ => kappa * dt ^ 3 := by
    intro l
    induction l with
    | nil => intro b1 b2 k1 k2; exact ⟨k1, fun _ _ _ => rfl⟩
    | cons j l ih =>
      intro b1 b2 k1 k2
      obtain ⟨kappa, hk⟩ := ih (bj j) b1 ((2 * j - 1) / j * bj j / b1 * k1 + -(j - 1) / j * bj j / b2 * k2) k1
      refine ⟨kappa, fun dt w u3 => ?_⟩
      rw [List.foldl_cons, ← hk dt w (fun _ => k2 * dt ^ 3)]
      congr 3
      unfold stage
      dsimp only
      congr 1
      funext _
      ring
  obtain ⟨kappa, hk⟩ := key ((List.range (s - 2)).map (· + 3)) (1/3) (1/3) (3/2 * (4 / ((s : K) * s + s - 2) * (4 / ((s : K) * s + s - 2) / 3))) 0
  refine ⟨kappa, fun dt => ?_⟩
  rw [← hk dt (dt * 4 / ((s : K) * s + s - 2)) (fun _ => 0 + dt * 4 / ((s : K) * s + s - 2) / 3 * dt)]
  unfold diffusionStep
  dsimp only
  congr 3
  all_goals
    funext _
    ring

end

/-- The hypotheses of `C60_run` and `C60_fixed_partial` are met: a plain run in exact arithmetic. -/
example : report (runLoop { plain with rd := id } 1 20 (fun _ _ _ => false) 2 0 ⟨0, initTimestep (fun _ _ => 10) 1 (1/10), 0, 0, []⟩ []) = [1, 1, 2, 2] := by
  decide +kernel

/-- Checked steps. -/
example : report (runLoop { period2 with adapt_period := 1 } 1 20 (fun _ _ _ => false) 2 0 ⟨0, 1/3, 0, 0, []⟩ []) = [1, 1, 2, 2] := by
  decide +kernel

end Verif.SplitRK
