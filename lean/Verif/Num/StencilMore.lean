import Verif.Num.StencilProps
import Mathlib.Algebra.BigOperators.Intervals
import Mathlib.Tactic.NormNum

/-! # C30: direction, conservation and symmetry of the derivative stencils -/
namespace Verif.Num

variable {K : Type} [Field K] [LinearOrder K] [IsStrictOrderedRing K]

/-! ## Upwind methods look upwind -/

/-- **C30.** `U1` and `U2` take their information from the upwind side only: if two fields agree at and below point `i`
and the velocity there is not negative, both give the same value; likewise at and above `i` when it is not positive. -/
theorem C30_upwind_side (v f g : Int → K) (nan : K) (i : Int) :
    (0 ≤ v i → (∀ j ≤ i, f j = g j) →
      flowValue VDDX_U1 false nan v f i = flowValue VDDX_U1 false nan v g i ∧
      flowValue VDDX_U2 true nan v f i = flowValue VDDX_U2 true nan v g i) ∧
    (v i ≤ 0 → (∀ j ≥ i, f j = g j) →
      flowValue VDDX_U1 false nan v f i = flowValue VDDX_U1 false nan v g i ∧
      flowValue VDDX_U2 true nan v f i = flowValue VDDX_U2 true nan v g i) := by
  refine ⟨fun hv hfg => ?_, fun hv hfg => ?_⟩
  · simp only [flowValue, populate, VDDX_U1, VDDX_U2, if_pos hv, if_true, hfg i (by omega), hfg (i - 1) (by omega),
      hfg (i - 2) (by omega), and_self]
  · rcases hv.lt_or_eq with h | h
    · have h' : ¬ v i ≥ 0 := not_le.mpr h
      simp only [flowValue, populate, VDDX_U1, VDDX_U2, if_neg h', if_true, hfg i (by omega), hfg (i + 1) (by omega),
        hfg (i + 2) (by omega), and_self]
    · simp only [flowValue, populate, VDDX_U1, VDDX_U2, h, zero_mul, ite_self, and_self]

/-- **C30.** An explicit Euler step of `df/dt = - v df/dx` with `U1` within the CFL limit keeps the new value between the
old values at the point and its neighbours: no new extrema. -/
theorem C30_U1_monotone (v f : Int → K) (nan h dt lo hi : K) (hh : 0 < h) (hdt : 0 ≤ dt) (i : Int)
    (hcfl : |v i| * dt ≤ h) (hlo : lo ≤ f (i - 1) ∧ lo ≤ f i ∧ lo ≤ f (i + 1))
    (hhi : f (i - 1) ≤ hi ∧ f i ≤ hi ∧ f (i + 1) ≤ hi) :
    lo ≤ f i - dt * (flowValue VDDX_U1 false nan v f i / h) ∧
      f i - dt * (flowValue VDDX_U1 false nan v f i / h) ≤ hi := by
  have conv : ∀ a b t : K, 0 ≤ t → t ≤ 1 → lo ≤ a → lo ≤ b → a ≤ hi → b ≤ hi →
      lo ≤ a - t * (a - b) ∧ a - t * (a - b) ≤ hi := by
    intro a b t h0 h1 ha hb ha' hb'
    have e : a - t * (a - b) = (1 - t) * a + t * b := by ring
    rw [e]
    constructor
    · nlinarith [mul_nonneg (sub_nonneg.mpr h1) (sub_nonneg.mpr ha), mul_nonneg h0 (sub_nonneg.mpr hb)]
    · nlinarith [mul_nonneg (sub_nonneg.mpr h1) (sub_nonneg.mpr ha'), mul_nonneg h0 (sub_nonneg.mpr hb')]
  have ht : ∀ w : K, 0 ≤ w → w * dt ≤ h → 0 ≤ dt * w / h ∧ dt * w / h ≤ 1 := by
    intro w hw hwt
    refine ⟨by positivity, ?_⟩
    rw [div_le_one hh]; linarith
  simp only [flowValue, populate, VDDX_U1]
  by_cases hv : v i ≥ 0
  · rw [if_pos hv]
    rw [abs_of_nonneg hv] at hcfl
    obtain ⟨t0, t1⟩ := ht _ hv hcfl
    have e : f i - dt * (v i * (f i - f (i - 1)) / h) = f i - dt * v i / h * (f i - f (i - 1)) := by ring
    rw [e]
    exact conv _ _ _ t0 t1 hlo.2.1 hlo.1 hhi.2.1 hhi.1
  · rw [if_neg hv]
    have hv' : v i < 0 := not_le.mp hv
    rw [abs_of_neg hv'] at hcfl
    obtain ⟨t0, t1⟩ := ht _ (le_of_lt (neg_pos.mpr hv')) hcfl
    have e : f i - dt * (v i * (f (i + 1) - f i) / h) = f i - dt * (-v i) / h * (f i - f (i + 1)) := by ring
    rw [e]
    exact conv _ _ _ t0 t1 hlo.2.1 hlo.2.2 hhi.2.1 hhi.2.2


/-! ## Flux methods conserve -/

/-- A field on a periodic line of `N` points. -/
def PeriodicLine (N : Nat) (f : Int → K) : Prop := ∀ i, f (i + N) = f i

omit [LinearOrder K] [IsStrictOrderedRing K] in
theorem periodic_telescope (N : Nat) (D Φ : Int → K) (hD : ∀ i, D i = Φ (i + 1) - Φ i) (hΦ : Φ N = Φ 0) :
    (∑ i ∈ Finset.range N, D i) = 0 := by
  have : ∀ i : Nat, D i = (fun k : Nat => Φ k) (i + 1) - (fun k : Nat => Φ k) i := by
    intro i; rw [hD]; push_cast; rfl
  rw [Finset.sum_congr rfl (fun i _ => this i)]
  exact (Finset.sum_range_sub (fun k : Nat => Φ k) N).trans (by simp [hΦ])

/-- **C30.** Every flux method is conservative: on a periodic line the contributions of all points add up to zero, for
any velocity and field, staggered or not. -/
theorem C30_flux_conservative (N : Nat) (v f : Int → K) (nan : K) (hv : PeriodicLine N v) (hf : PeriodicLine N f) :
    (∑ i ∈ Finset.range N, flowStencil FDDX_U1 .none false nan v f i) = 0 ∧
    (∑ i ∈ Finset.range N, flowStencil FDDX_U2 .none true nan v f i) = 0 ∧
    (∑ i ∈ Finset.range N, flowStencil FDDX_C2 .none false nan v f i) = 0 ∧
    (∑ i ∈ Finset.range N, flowStencil FDDX_C4 .none true nan v f i) = 0 ∧
    (∀ st : Stagger, st ≠ .none →
      (∑ i ∈ Finset.range N, flowStencil FDDX_U1_stag st false nan v f i) = 0 ∧
      (∑ i ∈ Finset.range N, flowStencil FDDX_U2_stag st true nan v f i) = 0) := by
  have pv : ∀ c : Int, v (N + c) = v c := fun c => by rw [add_comm]; exact hv c
  have pf : ∀ c : Int, f (N + c) = f c := fun c => by rw [add_comm]; exact hf c
  have pv' : ∀ c : Int, v (N - c) = v (-c) := fun c => pv (-c)
  have pf' : ∀ c : Int, f (N - c) = f (-c) := fun c => pf (-c)
  have pv0 : v N = v 0 := by simpa using pv 0
  have pf0 : f N = f 0 := by simpa using pf 0
  have a1 : ∀ i : Int, i + 1 - 1 = i := by intro i; ring
  have a2 : ∀ i : Int, i + 1 - 2 = i - 1 := by intro i; ring
  have a3 : ∀ i : Int, i + 1 + 1 = i + 2 := by intro i; ring
  refine ⟨?_, ?_, ?_, ?_, ?_⟩
  · refine periodic_telescope N _ (fun i => if 1/2 * (v (i-1) + v i) ≥ 0 then 1/2 * (v (i-1) + v i) * f (i-1)
      else 1/2 * (v (i-1) + v i) * f i) ?_ ?_
    · intro i
      simp only [flowStencil, populate, FDDX_U1, a1]
      ring
    · simp only [pv0, pf0, pv', pf', zero_sub]
  · refine periodic_telescope N _ (fun i => if 1/2 * (v (i-1) + v i) ≥ 0 then
        1/2 * (v (i-1) + v i) * (3/2 * f (i-1) - 1/2 * f (i-2))
      else 1/2 * (v (i-1) + v i) * (3/2 * f i - 1/2 * f (i+1))) ?_ ?_
    · intro i
      simp only [flowStencil, populate, FDDX_U2, a1, a2, a3, if_true]
      ring
    · simp only [pv0, pf0, pv', pf', pf, zero_sub, zero_add]
  · refine periodic_telescope N _ (fun i => 1/2 * (v (i-1) * f (i-1) + v i * f i)) ?_ ?_
    · intro i
      simp only [flowStencil, populate, FDDX_C2, a1]
      ring
    · simp only [pv0, pf0, pv', pf', zero_sub]
  · refine periodic_telescope N _ (fun i => (7 * (v (i-1) * f (i-1) + v i * f i) - v (i-2) * f (i-2)
      - v (i+1) * f (i+1)) / 12) ?_ ?_
    · intro i
      simp only [flowStencil, populate, FDDX_C4, a1, a2, a3, if_true]
      ring
    · simp only [pv0, pf0, pv, pv', pf', pf, zero_sub, zero_add]
  · intro st hst
    cases st with
    | none => exact absurd rfl hst
    | c2l =>
      constructor
      · refine periodic_telescope N _ (fun i => if v (i-1) ≥ 0 then v (i-1) * f (i-1) else v (i-1) * f i) ?_ ?_
        · intro i
          simp only [flowStencil, populate, FDDX_U1_stag, a1]
          ring
        · simp only [pf0, pv', pf', zero_sub]
      · refine periodic_telescope N _ (fun i => if v (i-1) ≥ 0 then v (i-1) * (3/2 * f (i-1) - 1/2 * f (i-2))
          else v (i-1) * (3/2 * f i - 1/2 * f (i+1))) ?_ ?_
        · intro i
          simp only [flowStencil, populate, FDDX_U2_stag, a1, a2, a3, if_true]
        · simp only [pf0, pv', pf', pf, zero_sub, zero_add]
    | l2c =>
      constructor
      · refine periodic_telescope N _ (fun i => if v i ≥ 0 then v i * f (i-1) else v i * f i) ?_ ?_
        · intro i
          simp only [flowStencil, populate, FDDX_U1_stag, a1]
          ring
        · simp only [pv0, pf0, pf', zero_sub]
      · refine periodic_telescope N _ (fun i => if v i ≥ 0 then v i * (3/2 * f (i-1) - 1/2 * f (i-2))
          else v i * (3/2 * f i - 1/2 * f (i+1))) ?_ ?_
        · intro i
          simp only [flowStencil, populate, FDDX_U2_stag, a1, a2, a3, if_true]
        · simp only [pv0, pf0, pf', pf, zero_sub, zero_add]

/-- **C30.** With a uniform velocity a flux method and the upwind method of the same name agree, staggered or not. -/
theorem C30_flux_uniform (v nan : K) (f : Int → K) (i : Int) :
    flowStencil FDDX_U1 .none false nan (fun _ => v) f i = flowValue VDDX_U1 false nan (fun _ => v) f i ∧
    flowStencil FDDX_U2 .none true nan (fun _ => v) f i = flowValue VDDX_U2 true nan (fun _ => v) f i ∧
    flowStencil FDDX_C2 .none false nan (fun _ => v) f i = flowValue VDDX_C2 false nan (fun _ => v) f i ∧
    flowStencil FDDX_C4 .none true nan (fun _ => v) f i = flowValue VDDX_C4 true nan (fun _ => v) f i ∧
    (∀ st, flowStencil FDDX_U1_stag st false nan (fun _ => v) f i =
      flowStencil VDDX_U1_stag st false nan (fun _ => v) f i ∧
      flowStencil FDDX_U2_stag st true nan (fun _ => v) f i =
      flowStencil VDDX_U2_stag st true nan (fun _ => v) f i) := by
  have e : (1:K)/2 * (v + v) = v := by ring
  refine ⟨?_, ?_, ?_, ?_, fun st => ⟨?_, ?_⟩⟩
  · simp only [flowStencil, flowValue, populate, FDDX_U1, VDDX_U1, e]
    split_ifs <;> ring
  · simp only [flowStencil, flowValue, populate, FDDX_U2, VDDX_U2, e]
    split_ifs <;> ring
  · simp only [flowStencil, flowValue, populate, FDDX_C2, VDDX_C2]; ring
  · simp only [flowStencil, flowValue, populate, FDDX_C4, VDDX_C4, if_true]; ring
  · cases st <;> simp only [flowStencil, populate, FDDX_U1_stag, VDDX_U1_stag] <;> split_ifs <;> ring
  · cases st <;> simp only [flowStencil, populate, FDDX_U2_stag, VDDX_U2_stag, if_true] <;> split_ifs <;> ring

/-- **C30.** The central flux methods differentiate the product of velocity and field: exactly when the product is a
quadratic (`C2`) or quartic (`C4`). -/
theorem C30_flux_central (V P : Polynomial K) (x0 h nan : K) (hh : h ≠ 0) (low : Bool) (i : Int) :
    ((V * P).natDegree ≤ 2 →
      flowStencil FDDX_C2 .none false nan (sample V x0 h low) (sample P x0 h low) i / h =
        (V * P).derivative.eval (pos x0 h low i)) ∧
    ((V * P).natDegree ≤ 4 →
      flowStencil FDDX_C4 .none true nan (sample V x0 h low) (sample P x0 h low) i / h =
        (V * P).derivative.eval (pos x0 h low i)) := by
  have key : ∀ j, sample V x0 h low j * sample P x0 h low j = sample (V * P) x0 h low j := by
    intro j; simp only [sample, Polynomial.eval_mul]
  constructor
  · intro hd
    rw [← (C30_first_central (V * P) x0 h nan hh low i).1 hd]
    simp only [flowStencil, standard, populate, FDDX_C2, DDX_C2, key]
  · intro hd
    rw [← (C30_first_central (V * P) x0 h nan hh low i).2 hd]
    simp only [flowStencil, standard, populate, FDDX_C4, DDX_C4, ← key, if_true]
    ring

/-! ## Mirror symmetry -/

/-- A field on the mirrored line. -/
def mirror (f : Int → K) (i : Int) : K := f (-i)

omit [LinearOrder K] [IsStrictOrderedRing K] in
theorem populate_mirror (wide : Bool) (nan : K) (f : Int → K) (i : Int) :
    populate .none wide nan (mirror f) (-i) =
      ⟨(populate .none wide nan f i).pp, (populate .none wide nan f i).p, (populate .none wide nan f i).c,
        (populate .none wide nan f i).m, (populate .none wide nan f i).mm⟩ := by
  have e1 : -(-i - 2) = i + 2 := by ring
  have e2 : -(-i - 1) = i + 1 := by ring
  have e3 : -(-i + 2) = i - 2 := by ring
  have e4 : -(-i + 1) = i - 1 := by ring
  simp only [populate, mirror, e1, e2, e3, e4, neg_neg]

/-- The third order WENO derivative taken from the left. -/
theorem weno3_mirror (v : K) (f : Stencil K) :
    VDDX_WENO3 (-v) ⟨f.pp, f.p, f.c, f.m, f.mm⟩ = VDDX_WENO3 v f := by
  rcases lt_trichotomy v 0 with h | h | h
  · have h1 : -v > 0 := neg_pos.mpr h
    have h2 : ¬ v > 0 := not_lt.mpr h.le
    simp only [VDDX_WENO3, if_pos h1, if_neg h2]
    ring
  · subst h; simp only [VDDX_WENO3, neg_zero, zero_mul]
  · have h1 : ¬ -v > 0 := not_lt.mpr (neg_nonpos.mpr h.le)
    simp only [VDDX_WENO3, if_neg h1, if_pos h]
    ring

/-- `DDX_CWENO3` is the mean of the two one-sided derivatives. -/
theorem cweno3_mean (f : Stencil K) : DDX_CWENO3 f = VDDX_WENO3 (1/2) f - VDDX_WENO3 (-(1/2)) f := by
  have h1 : (1/2 : K) > 0 := by norm_num
  have h2 : ¬ (-(1/2) : K) > 0 := by norm_num
  have hma : ∀ ma : K, VDDX_WENO3 (1/2) ⟨f.mm + ma, f.m + ma, f.c + ma, f.p + ma, f.pp + ma⟩ +
        VDDX_WENO3 (-(1/2)) ⟨ma - f.mm, ma - f.m, ma - f.c, ma - f.p, ma - f.pp⟩ =
        VDDX_WENO3 (1/2) f - VDDX_WENO3 (-(1/2)) f := by
    intro ma
    simp only [VDDX_WENO3, if_pos h1, if_neg h2]
    have e1 : f.c + ma - 2 * (f.m + ma) + (f.mm + ma) = f.c - 2 * f.m + f.mm := by ring
    have e2 : f.p + ma - 2 * (f.c + ma) + (f.m + ma) = f.p - 2 * f.c + f.m := by ring
    have e3 : (ma - f.pp - 2 * (ma - f.p) + (ma - f.c)) * (ma - f.pp - 2 * (ma - f.p) + (ma - f.c)) =
      (f.pp - 2 * f.p + f.c) * (f.pp - 2 * f.p + f.c) := by ring
    have e4 : (ma - f.p - 2 * (ma - f.c) + (ma - f.m)) * (ma - f.p - 2 * (ma - f.c) + (ma - f.m)) =
      (f.p - 2 * f.c + f.m) * (f.p - 2 * f.c + f.m) := by ring
    rw [e1, e2, e3, e4]
    ring
  unfold DDX_CWENO3
  exact hma _

/-- **C30.** Mirroring the line negates first derivatives (`C2`, `C4`, `W2`, `W3`) and keeps second and fourth
derivatives; mirroring both the field and the velocity keeps every upwind derivative. -/
theorem C30_mirror (f v : Int → K) (nan : K) (i : Int) :
    standard DDX_C2 .none false nan (mirror f) (-i) = -standard DDX_C2 .none false nan f i ∧
    standard DDX_C4 .none true nan (mirror f) (-i) = -standard DDX_C4 .none true nan f i ∧
    standard DDX_CWENO2 .none false nan (mirror f) (-i) = -standard DDX_CWENO2 .none false nan f i ∧
    standard DDX_CWENO3 .none true nan (mirror f) (-i) = -standard DDX_CWENO3 .none true nan f i ∧
    standard D2DX2_C2 .none false nan (mirror f) (-i) = standard D2DX2_C2 .none false nan f i ∧
    standard D2DX2_C4 .none true nan (mirror f) (-i) = standard D2DX2_C4 .none true nan f i ∧
    standard D4DX4_C2 .none true nan (mirror f) (-i) = standard D4DX4_C2 .none true nan f i ∧
    (let w := fun j => -mirror v j
     flowValue VDDX_C2 false nan w (mirror f) (-i) = flowValue VDDX_C2 false nan v f i ∧
     flowValue VDDX_C4 true nan w (mirror f) (-i) = flowValue VDDX_C4 true nan v f i ∧
     flowValue VDDX_U1 false nan w (mirror f) (-i) = flowValue VDDX_U1 false nan v f i ∧
     flowValue VDDX_U2 true nan w (mirror f) (-i) = flowValue VDDX_U2 true nan v f i ∧
     flowValue VDDX_U3 true nan w (mirror f) (-i) = flowValue VDDX_U3 true nan v f i ∧
     flowValue VDDX_WENO3 true nan w (mirror f) (-i) = flowValue VDDX_WENO3 true nan v f i) := by
  have hw : -mirror v (-i) = -v i := by simp only [mirror, neg_neg]
  have hsgn : ∀ a b : K, (0 < v i → a = b) → (v i < 0 → a = b) → (v i = 0 → a = b) → a = b := by
    intro a b h1 h2 h3
    rcases lt_trichotomy (v i) 0 with h | h | h
    · exact h2 h
    · exact h3 h
    · exact h1 h
  have n1 : 0 < v i → ¬ -v i ≥ 0 := fun h => not_le.mpr (neg_neg_of_pos h)
  have n2 : v i < 0 → -v i ≥ 0 := fun h => (neg_pos.mpr h).le
  have n3 : v i < 0 → ¬ v i ≥ 0 := fun h => not_le.mpr h
  have n4 : 0 < v i → v i ≥ 0 := fun h => h.le
  simp only [standard, flowValue, populate_mirror, hw]
  generalize populate .none true nan f i = s
  generalize populate .none false nan f i = t
  refine ⟨?_, ?_, ?_, ?_, ?_, ?_, ?_, ?_, ?_, ?_, ?_, ?_, ?_⟩
  · simp only [DDX_C2]; ring
  · simp only [DDX_C4]; ring
  · simp only [DDX_CWENO2]; 
    have e1 : (t.c - t.p) * (t.c - t.p) = (t.p - t.c) * (t.p - t.c) := by ring
    have e2 : (t.m - t.c) * (t.m - t.c) = (t.c - t.m) * (t.c - t.m) := by ring
    have e3 : (t.m - 2 * t.c + t.p) * (t.m - 2 * t.c + t.p) = (t.p - 2 * t.c + t.m) * (t.p - 2 * t.c + t.m) := by ring
    have e4 : (t.m - t.p) * (t.m - t.p) = (t.p - t.m) * (t.p - t.m) := by ring
    rw [e1, e2, e3, e4]
    ring
  · rw [cweno3_mean, cweno3_mean, ← weno3_mirror (1/2) s]
    have := weno3_mirror (-(1/2)) s
    rw [neg_neg] at this
    rw [this]; ring
  · simp only [D2DX2_C2]; ring
  · simp only [D2DX2_C4]; ring
  · simp only [D4DX4_C2]; ring
  · simp only [VDDX_C2]; ring
  · simp only [VDDX_C4]; ring
  · refine hsgn _ _ (fun h => ?_) (fun h => ?_) (fun h => ?_)
    · simp only [VDDX_U1, if_neg (n1 h), if_pos (n4 h)]; ring
    · simp only [VDDX_U1, if_pos (n2 h), if_neg (n3 h)]; ring
    · simp only [VDDX_U1, h, neg_zero, zero_mul]
  · refine hsgn _ _ (fun h => ?_) (fun h => ?_) (fun h => ?_)
    · simp only [VDDX_U2, if_neg (n1 h), if_pos (n4 h)]; ring
    · simp only [VDDX_U2, if_pos (n2 h), if_neg (n3 h)]; ring
    · simp only [VDDX_U2, h, neg_zero, zero_mul]
  · refine hsgn _ _ (fun h => ?_) (fun h => ?_) (fun h => ?_)
    · simp only [VDDX_U3, if_neg (n1 h), if_pos (n4 h)]; ring
    · simp only [VDDX_U3, if_pos (n2 h), if_neg (n3 h)]; ring
    · simp only [VDDX_U3, h, neg_zero, zero_mul]
  · exact weno3_mirror (v i) s

/-- **C30 (finding F48).** `S2` is not a derivative in this sense: its upwinding follows the sign of the field itself,
so negating the field does not negate the derivative. -/
theorem C30_S2_not_odd_violated :
    ∃ f : Int → ℚ, standard DDX_S2 .none true 0 (fun j => -f j) 0 ≠ -standard DDX_S2 .none true 0 f 0 := by
  refine ⟨fun j => if j = 0 then 1 else 0, ?_⟩
  simp only [standard, populate, DDX_S2, SIGN, if_true]
  norm_num

/-! ## Witnesses -/

/-- The hypotheses of `C30_U1_monotone` hold for a field that varies and a velocity at the CFL limit. -/
example : (0:ℚ) < 1/2 ∧ (0:ℚ) ≤ 1/6 ∧ |(-3 : ℚ)| * (1/6) ≤ 1/2 ∧
    ((0:ℚ) ≤ 1 ∧ (0:ℚ) ≤ 2 ∧ (0:ℚ) ≤ 5) ∧ ((1:ℚ) ≤ 5 ∧ (2:ℚ) ≤ 5 ∧ (5:ℚ) ≤ 5) := by decide +kernel

/-- A periodic field that is not constant. -/
example : PeriodicLine 2 (fun i : Int => if i % 2 = 0 then (1:ℚ) else 3) := by
  intro i
  have h : (i + ((2 : Nat) : Int)) % 2 = i % 2 := by omega
  simp only [h]

/-- A cubic that is not a quadratic, as used in the exactness theorems. -/
example : (Polynomial.X ^ 3 + Polynomial.X : Polynomial ℚ).natDegree ≤ 3 ∧
    (Polynomial.X ^ 3 + Polynomial.X : Polynomial ℚ).coeff 3 = 1 := by
  constructor
  · refine (Polynomial.natDegree_add_le _ _).trans ?_
    simp
  · simp [Polynomial.coeff_X_pow, Polynomial.coeff_X]

/-! ## Which stencil is chosen -/

/-- **C30.** `Mesh::getStagger`: locations other than centre and the staggered location of the direction are refused
when they differ; equal locations, or a mesh without staggered grids, use the unstaggered stencils; otherwise the
stencil is the one from the input's to the output's location. -/
theorem C30_getStagger (staggerGrids : Bool) (inloc outloc centre allowed : Nat) (hne : centre ≠ allowed) :
    (getStagger staggerGrids inloc outloc centre allowed = none ↔
      inloc ≠ outloc ∧ ¬ ((inloc = centre ∧ outloc = allowed) ∨ (inloc = allowed ∧ outloc = centre))) ∧
    (inloc = outloc → getStagger staggerGrids inloc outloc centre allowed = some .none) ∧
    (getStagger true centre allowed centre allowed = some .c2l) ∧
    (getStagger true allowed centre centre allowed = some .l2c) := by
  refine ⟨?_, ?_, ?_, ?_⟩
  · unfold getStagger
    by_cases h : outloc = inloc ∨ (outloc = centre ∧ inloc = allowed) ∨ (outloc = allowed ∧ inloc = centre)
    · rw [if_neg (not_not.mpr h)]
      constructor
      · intro h'; exfalso; revert h'; split_ifs <;> simp
      · rintro ⟨h1, h2⟩
        exfalso
        rcases h with h | h | h
        · exact h1 h.symm
        · exact h2 (Or.inr ⟨h.2, h.1⟩)
        · exact h2 (Or.inl ⟨h.2, h.1⟩)
    · rw [if_pos h]
      simp only [true_iff]
      refine ⟨fun e => h (Or.inl e.symm), ?_⟩
      rintro (e | e)
      · exact h (Or.inr (Or.inr ⟨e.2, e.1⟩))
      · exact h (Or.inr (Or.inl ⟨e.2, e.1⟩))
  · intro e; unfold getStagger; simp [e]
  · unfold getStagger; simp [hne.symm]
  · unfold getStagger; simp [hne]

/-- **C30.** The third order WENO method blends the central and the second order upwind method with a weight in `(0, 1]`, and where
the second differences at the point and at its upwind neighbour have the same size it is the third order upwind method. -/
theorem C30_W3_blend (v f : Int → K) (nan : K) (i : Int) :
    (∃ w : K, 0 < w ∧ w ≤ 1 ∧ flowValue VDDX_WENO3 true nan v f i =
      (1 - w) * flowValue VDDX_C2 true nan v f i + w * flowValue VDDX_U2 true nan v f i) ∧
    ((0 ≤ v i → (f i - 2 * f (i - 1) + f (i - 2)) ^ 2 = (f (i + 1) - 2 * f i + f (i - 1)) ^ 2) →
     (v i < 0 → (f (i + 2) - 2 * f (i + 1) + f i) ^ 2 = (f (i + 1) - 2 * f i + f (i - 1)) ^ 2) →
      flowValue VDDX_WENO3 true nan v f i = flowValue VDDX_U3 true nan v f i) := by
  have sm : (0 : K) < WENO_SMALL := by unfold WENO_SMALL; positivity
  have wpos : ∀ r : K, 0 < 1 / (1 + 2 * r * r) ∧ 1 / (1 + 2 * r * r) ≤ 1 := by
    intro r
    have h : 0 ≤ 2 * r * r := by nlinarith [mul_self_nonneg r]
    refine ⟨by positivity, ?_⟩
    rw [div_le_one (by linarith)]
    linarith
  simp only [flowValue, populate, if_true]
  rcases lt_trichotomy (v i) 0 with h | h | h
  · constructor
    · refine ⟨_, (wpos ((WENO_SMALL + (f (i + 2) - 2 * f (i + 1) + f i) * (f (i + 2) - 2 * f (i + 1) + f i)) /
        (WENO_SMALL + (f (i + 1) - 2 * f i + f (i - 1)) * (f (i + 1) - 2 * f i + f (i - 1))))).1, (wpos _).2, ?_⟩
      simp only [VDDX_WENO3, VDDX_C2, VDDX_U2, if_neg (not_lt.2 h.le), ge_iff_le, if_neg (not_le.2 h)]
      ring
    · intro _ h2
      have e := h2 h
      simp only [VDDX_WENO3, VDDX_U3, if_neg (not_lt.2 h.le), ge_iff_le, if_neg (not_le.2 h)]
      have e' : (f (i + 2) - 2 * f (i + 1) + f i) * (f (i + 2) - 2 * f (i + 1) + f i) =
          (f (i + 1) - 2 * f i + f (i - 1)) * (f (i + 1) - 2 * f i + f (i - 1)) := by linear_combination e
      rw [e', div_self (by nlinarith [mul_self_nonneg (f (i + 1) - 2 * f i + f (i - 1))])]
      ring
  · constructor
    · refine ⟨1, one_pos, le_refl _, ?_⟩
      rw [h]
      simp [VDDX_WENO3, VDDX_C2, VDDX_U2]
    · intro _ _
      rw [h]
      simp [VDDX_WENO3, VDDX_U3]
  · constructor
    · refine ⟨_, (wpos ((WENO_SMALL + (f i - 2 * f (i - 1) + f (i - 2)) * (f i - 2 * f (i - 1) + f (i - 2))) /
        (WENO_SMALL + (f (i + 1) - 2 * f i + f (i - 1)) * (f (i + 1) - 2 * f i + f (i - 1))))).1, (wpos _).2, ?_⟩
      simp only [VDDX_WENO3, VDDX_C2, VDDX_U2, if_pos h, ge_iff_le, if_pos h.le]
      ring
    · intro h1 _
      have e := h1 h.le
      simp only [VDDX_WENO3, VDDX_U3, if_pos h, ge_iff_le, if_pos h.le]
      have e' : (f i - 2 * f (i - 1) + f (i - 2)) * (f i - 2 * f (i - 1) + f (i - 2)) =
          (f (i + 1) - 2 * f i + f (i - 1)) * (f (i + 1) - 2 * f i + f (i - 1)) := by linear_combination e
      rw [e', div_self (by nlinarith [mul_self_nonneg (f (i + 1) - 2 * f i + f (i - 1))])]
      ring

/-- A field with equal second differences and a non-zero third difference. -/
example : let f : Int → ℚ := fun i => if i = 0 then 0 else if i = 1 then 1 else if i = -1 then 0 else 1
    (f 0 - 2 * f (-1) + f (-2)) ^ 2 = (f 1 - 2 * f 0 + f (-1)) ^ 2 ∧ f 1 - 3 * f 0 + 3 * f (-1) - f (-2) = 0 ∧
      (f 0 - 2 * f (-1) + f (-2)) ^ 2 ≠ 0 := by decide +kernel

/-- **C30.** Staggered `U1` with any velocity: the field enters only through the differences on the upwind side of each of
the two faces of the cell (`lo`, `hi` are the velocities on its lower and upper face).  In particular, with `U1` or `U2`, a
uniform field is not changed by any velocity field, however divergent. -/
theorem C30_staggered_upwind_divergent (v f : Int → K) (nan c : K) (st : Stagger) (hst : st ≠ .none) (i : Int) :
    (let lo := if st = .c2l then v (i - 1) else v i
     let hi := if st = .c2l then v i else v (i + 1)
     flowStencil VDDX_U1_stag st false nan v f i = max lo 0 * (f i - f (i - 1)) + min hi 0 * (f (i + 1) - f i)) ∧
    flowStencil VDDX_U1_stag st false nan v (fun _ => c) i = 0 ∧
    flowStencil VDDX_U2_stag st true nan v (fun _ => c) i = 0 := by
  have key : ∀ (lo hi a b d : K), (-1 : K) * ((if lo ≥ 0 then lo * a else lo * b) - (if hi ≥ 0 then hi * b else hi * d)) -
      b * (hi - lo) = max lo 0 * (b - a) + min hi 0 * (d - b) := by
    intro lo hi a b d
    rcases le_total 0 lo with h1 | h1 <;> rcases le_total 0 hi with h2 | h2
    · rw [if_pos h1, if_pos h2, max_eq_left h1, min_eq_right h2]; ring
    · rw [if_pos h1, max_eq_left h1, min_eq_left h2]
      split
      · have : hi = 0 := le_antisymm h2 ‹_›
        subst this; ring
      · ring
    · rw [if_pos h2, max_eq_right h1, min_eq_right h2]
      split
      · have : lo = 0 := le_antisymm h1 ‹_›
        subst this; ring
      · ring
    · rw [max_eq_right h1, min_eq_left h2]
      split <;> split
      · have : lo = 0 := le_antisymm h1 ‹_›
        have : hi = 0 := le_antisymm h2 ‹_›
        subst_vars; ring
      · have : lo = 0 := le_antisymm h1 ‹_›
        subst this; ring
      · have : hi = 0 := le_antisymm h2 ‹_›
        subst this; ring
      · ring
  refine ⟨?_, ?_, ?_⟩
  · cases st with
    | none => exact absurd rfl hst
    | c2l =>
      have := key (v (i - 1)) (v i) (f (i - 1)) (f i) (f (i + 1))
      simp only [flowStencil, VDDX_U1_stag, populate, if_true] at this ⊢
      rw [← this]; ring
    | l2c =>
      have := key (v i) (v (i + 1)) (f (i - 1)) (f i) (f (i + 1))
      simp only [flowStencil, VDDX_U1_stag, populate, reduceCtorEq, if_false] at this ⊢
      rw [← this]; ring
  · cases st <;> simp only [flowStencil, VDDX_U1_stag, populate] <;> split <;> split <;> ring
  · cases st <;> simp only [flowStencil, VDDX_U2_stag, populate, if_true] <;> split <;> split <;> ring

/-- A divergent velocity field. -/
example : flowStencil (K := ℚ) VDDX_U1_stag .c2l false 7 (fun j => j) (fun j => j * j) 3 = 2 * (9 - 4) := by decide +kernel

end Verif.Num
