import Verif.Invert.PcrProps

/-!
# C66: one row per processor, and the three phases together
-/
namespace Verif.Pcr
open Verif.Cyclic

variable {K : Type} [Field K]

/-- `z` solves the rows `s`, which couple processors at distance `D`. -/
def T (P D : Nat) (s : Nat → Row K) (z : Nat → K) : Prop :=
  ∀ p, p < P → (s p).Holds (if D ≤ p then z (p - D) else 0) (z p) (if p + D < P then z (p + D) else 0)

/-- One level of parallel cyclic reduction on the single rows. -/
def step (P D : Nat) (s : Nat → Row K) : Nat → Row K := fun p =>
  combine (if D ≤ p then -(s p).a / (s (p - D)).b else 0) (if p + D < P then -(s p).c / (s (p + D)).b else 0)
    (s (p - D)) (s p) (s (p + D))

/-- No division by zero in `step`. -/
def StepOK (P D : Nat) (s : Nat → Row K) : Prop :=
  ∀ p, p < P → (D ≤ p → (s (p - D)).b ≠ 0) ∧ (p + D < P → (s (p + D)).b ≠ 0)

theorem T_step {P D : Nat} {s : Nat → Row K} {z : Nat → K} (hok : StepOK P D s) (h : T P D s z) :
    T P (2 * D) (step P D s) z := by
  intro p hp
  have h0 := h p hp
  obtain ⟨k1, k2⟩ := hok p hp
  unfold step Row.Holds combine
  unfold Row.Holds at h0
  dsimp only
  by_cases hl : D ≤ p <;> by_cases hr : p + D < P
  · have h1 := h (p - D) (by omega)
    have h2 := h (p + D) hr
    unfold Row.Holds at h1 h2
    rw [if_pos (show p - D + D < P by omega), Nat.sub_add_cancel hl] at h1
    rw [if_pos (show D ≤ p + D by omega), Nat.add_sub_cancel] at h2
    rw [if_pos hl, if_pos hr] at h0 ⊢
    have e1 : (if D ≤ p - D then z (p - D - D) else 0) = if 2 * D ≤ p then z (p - 2 * D) else 0 := by
      by_cases q : 2 * D ≤ p
      · rw [if_pos (by omega), if_pos q]; congr 1; omega
      · rw [if_neg (by omega), if_neg q]
    have e2 : (if p + D + D < P then z (p + D + D) else 0) = if p + 2 * D < P then z (p + 2 * D) else 0 := by
      rw [show p + D + D = p + 2 * D by omega]
    rw [e1] at h1
    rw [e2] at h2
    generalize (if 2 * D ≤ p then z (p - 2 * D) else 0) = za at *
    generalize (if p + 2 * D < P then z (p + 2 * D) else 0) = zb at *
    have f1 : (s p).a = (s p).a / (s (p - D)).b * (s (p - D)).b := by have := k1 hl; field_simp
    have f2 : (s p).c = (s p).c / (s (p + D)).b * (s (p + D)).b := by have := k2 hr; field_simp
    rw [f1, f2] at h0
    have f3 : -(s p).a / (s (p - D)).b = -((s p).a / (s (p - D)).b) := by ring
    have f4 : -(s p).c / (s (p + D)).b = -((s p).c / (s (p + D)).b) := by ring
    rw [f3, f4]
    linear_combination h0 - (s p).a / (s (p - D)).b * h1 - (s p).c / (s (p + D)).b * h2
  · have h1 := h (p - D) (by omega)
    unfold Row.Holds at h1
    rw [if_pos (show p - D + D < P by omega), Nat.sub_add_cancel hl] at h1
    rw [if_pos hl, if_neg hr] at h0 ⊢
    have e1 : (if D ≤ p - D then z (p - D - D) else 0) = if 2 * D ≤ p then z (p - 2 * D) else 0 := by
      by_cases q : 2 * D ≤ p
      · rw [if_pos (by omega), if_pos q]; congr 1; omega
      · rw [if_neg (by omega), if_neg q]
    rw [e1] at h1
    generalize (if 2 * D ≤ p then z (p - 2 * D) else 0) = za at *
    have f1 : (s p).a = (s p).a / (s (p - D)).b * (s (p - D)).b := by have := k1 hl; field_simp
    rw [f1] at h0
    have f3 : -(s p).a / (s (p - D)).b = -((s p).a / (s (p - D)).b) := by ring
    rw [f3]
    linear_combination h0 - (s p).a / (s (p - D)).b * h1
  · have h2 := h (p + D) hr
    unfold Row.Holds at h2
    rw [if_pos (show D ≤ p + D by omega), Nat.add_sub_cancel] at h2
    rw [if_neg hl, if_pos hr] at h0 ⊢
    have e2 : (if p + D + D < P then z (p + D + D) else 0) = if p + 2 * D < P then z (p + 2 * D) else 0 := by
      rw [show p + D + D = p + 2 * D by omega]
    rw [e2] at h2
    generalize (if p + 2 * D < P then z (p + 2 * D) else 0) = zb at *
    have f2 : (s p).c = (s p).c / (s (p + D)).b * (s (p + D)).b := by have := k2 hr; field_simp
    rw [f2] at h0
    have f4 : -(s p).c / (s (p + D)).b = -((s p).c / (s (p + D)).b) := by ring
    rw [f4]
    linear_combination h0 - (s p).c / (s (p + D)).b * h2
  · rw [if_neg hl, if_neg hr] at h0 ⊢
    linear_combination h0

/-- The right-hand sides do not enter the coefficients. -/
theorem step_hom (P D : Nat) (s : Nat → Row K) (p : Nat) :
    step P D (fun q => (s q).hom) p = (step P D s p).hom := by
  unfold step combine Row.hom
  simp

/-- The levels. -/
def stepN (P : Nat) (s : Nat → Row K) : Nat → Nat → Row K
  | 0 => s
  | l + 1 => step P (2 ^ l) (stepN P s l)

theorem stepN_hom (P : Nat) (s : Nat → Row K) (l : Nat) :
    stepN P (fun q => (s q).hom) l = fun p => (stepN P s l p).hom := by
  induction l with
  | zero => rfl
  | succ l ih =>
    funext p
    rw [stepN, ih, step_hom, stepN]

theorem T_stepN {P : Nat} {s : Nat → Row K} {z : Nat → K} (l : Nat)
    (hok : ∀ k, k < l → StepOK P (2 ^ k) (stepN P s k)) (h : T P 1 s z) : T P (2 ^ l) (stepN P s l) z := by
  induction l with
  | zero => exact h
  | succ l ih =>
    rw [stepN, pow_succ']
    exact T_step (hok l (by omega)) (ih (fun k hk => hok k (by omega)))

/-- The reduction on the arrays is `step` on the last rows. -/
theorem pcrLevel_last {P n D : Nat} (hD : 1 ≤ D) (hDP : D ∣ P) (hn : 1 ≤ n) (w : Nat → Nat → Row K) (p : Nat) (hp : p < P) :
    pcrLevel P n D w p n = step P D (fun q => w q n) p := by
  have c1 : p / D = 0 ↔ ¬ D ≤ p := by rw [Nat.div_eq_zero_iff]; omega
  have c2 : p / D = P / D - 1 ↔ ¬ p + D < P := by
    obtain ⟨m, rfl⟩ := hDP
    have hm : 1 ≤ m := by
      rcases Nat.eq_zero_or_pos m with rfl | h
      · simp at hp
      · exact h
    obtain ⟨m', rfl⟩ : ∃ m', m = m' + 1 := ⟨m - 1, by omega⟩
    rw [Nat.mul_div_cancel_left _ (by omega), Nat.add_sub_cancel]
    have hle : p / D ≤ m' := by
      have := (Nat.div_lt_iff_lt_mul (show 0 < D by omega)).mpr (by rw [Nat.mul_comm]; exact hp)
      omega
    have : m' ≤ p / D ↔ m' * D ≤ p := Nat.le_div_iff_mul_le (by omega)
    have e : D * (m' + 1) = m' * D + D := by ring
    rw [e]
    omega
  unfold pcrLevel upd
  rw [if_pos rfl]
  unfold pcrReduce
  simp only [c1, c2]
  unfold step pcrExchange
  have x1 : ¬ (n = n + 1 ∧ p + D < P) := by omega
  have x2 : ¬ (n = 0 ∧ D ≤ p) := by omega
  have x3 : ¬ (0 = n + 1 ∧ p + D < P) := by omega
  have x4 : ¬ (n + 1 = 0 ∧ D ≤ p) := by omega
  simp only [x1, x2, x3, x4, if_false, true_and]
  unfold combine
  by_cases hl : D ≤ p <;> by_cases hr : p + D < P
  · rw [if_neg (not_not.mpr hl), if_neg (not_not.mpr hr)]
    simp only [hl, hr, if_true]
  · rw [if_neg (not_not.mpr hl), if_pos hr]
    simp only [hl, hr, if_true, if_false, zero_mul]
  · rw [if_pos hl, if_neg (not_not.mpr hr)]
    simp only [hl, hr, if_true, if_false, zero_mul]
  · rw [if_pos hl, if_pos hr]
    simp only [hl, hr, if_false, zero_mul]

theorem pcrForward_last {P n M : Nat} (hP : P = 2 ^ M) (hn : 1 ≤ n) (w : Nat → Nat → Row K) (l : Nat) (hl : l ≤ M) (p : Nat)
    (hp : p < P) : pcrForward P n w l p n = stepN P (fun q => w q n) l p := by
  induction l generalizing p with
  | zero => rfl
  | succ l ih =>
    rw [pcrForward, stepN, pcrLevel_last Nat.one_le_two_pow (by rw [hP]; exact pow_dvd_pow 2 (by omega)) hn _ p hp]
    unfold step
    dsimp only
    have e : ∀ q, q < P → pcrForward P n w l q n = stepN P (fun q => w q n) l q := fun q hq => ih (by omega) q hq
    by_cases hr : p + 2 ^ l < P
    · rw [e p hp, e (p - 2 ^ l) (lt_of_le_of_lt (Nat.sub_le _ _) hp), e (p + 2 ^ l) hr]
    · rw [e p hp, e (p - 2 ^ l) (lt_of_le_of_lt (Nat.sub_le _ _) hp)]
      unfold combine
      simp only [hr, if_false, zero_mul]

/-- The checks on the arrays are the checks on the last rows. -/
theorem pcrOK_stepOK {P n D : Nat} (hD : 1 ≤ D) (hDP : D ∣ P) (hn : 1 ≤ n) {w : Nat → Nat → Row K} (h : PcrOK P n D w) :
    StepOK P D (fun q => w q n) := by
  intro p hp
  obtain ⟨h1, h2⟩ := h p hp
  constructor
  · intro hl
    have c1 : p / D ≠ 0 := by rw [Ne, Nat.div_eq_zero_iff]; omega
    have := h1 c1
    rw [pcrExchange, if_neg (by omega), if_pos ⟨rfl, hl⟩] at this
    exact this
  · intro hr
    have c2 : p / D ≠ P / D - 1 := by
      have h3 : (p + D) / D = p / D + 1 := Nat.add_div_right _ (by omega)
      have h4 : (p + D) / D < P / D := by
        obtain ⟨m, rfl⟩ := hDP
        rw [Nat.mul_div_cancel_left _ (by omega), Nat.div_lt_iff_lt_mul (by omega), Nat.mul_comm m]
        exact hr
      omega
    have := h2 c2
    rw [pcrExchange, if_pos ⟨rfl, hr⟩] at this
    exact this

/-! ## The 2x2 systems -/

/-- A 2x2 system with a non-zero determinant has the solution of Cramer's rule. -/
theorem cramer {u v : Row K} (hd : det u v ≠ 0) {y z : K} (h1 : u.b * y + u.c * z = u.r) (h2 : v.a * y + v.b * z = v.r) :
    y = (u.r * v.b - v.r * u.c) / det u v ∧ z = (v.r * u.b - u.r * v.a) / det u v := by
  rw [eq_div_iff hd, eq_div_iff hd]
  unfold det
  constructor
  · linear_combination v.b * h1 - u.c * h2
  · linear_combination u.b * h2 - v.a * h1

/-- What the 2x2 solver leaves in `x(n)`, from the rows `s`. -/
def val2 (P : Nat) (s : Nat → Row K) (p : Nat) : K :=
  if p < P / 2 then ((s p).r * (s (p + P / 2)).b - (s (p + P / 2)).r * (s p).c) / det (s p) (s (p + P / 2))
  else if 0 < P / 2 then ((s p).r * (s (p - P / 2)).b - (s (p - P / 2)).r * (s p).a) / det (s (p - P / 2)) (s p)
  else (s p).r / (s p).b

/-- The determinants are not zero. -/
def Det2 (P : Nat) (s : Nat → Row K) : Prop :=
  (∀ p, p < P / 2 → det (s p) (s (p + P / 2)) ≠ 0) ∧ (P = 1 → (s 0).b ≠ 0)

theorem T_val2 {P M : Nat} (hP : P = 2 ^ M) {s : Nat → Row K} {z : Nat → K} (hd : Det2 P s)
    (h : T P (2 ^ (M - 1)) s z) (p : Nat) (hp : p < P) : z p = val2 P s p := by
  rcases Nat.eq_zero_or_pos M with rfl | hM
  · subst hP
    obtain rfl : p = 0 := by simpa using hp
    have h0 := h 0 hp
    have := hd.2 rfl
    unfold val2
    unfold Row.Holds at h0
    simp at h0
    simp
    rw [eq_div_iff this]
    linear_combination h0
  · obtain ⟨m, rfl⟩ : ∃ m, M = m + 1 := ⟨M - 1, by omega⟩
    rw [Nat.add_sub_cancel] at h
    rw [pow_succ'] at hP
    have hh : P / 2 = 2 ^ m := by omega
    have h1 : 1 ≤ 2 ^ m := Nat.one_le_two_pow
    unfold val2
    rw [hh]
    have hd1 := hd.1
    rw [hh] at hd1
    generalize 2 ^ m = H at *
    by_cases hlt : p < H
    · rw [if_pos hlt]
      have a1 := h p hp
      have a2 := h (p + H) (by omega)
      unfold Row.Holds at a1 a2
      rw [if_neg (by omega), if_pos (by omega)] at a1
      rw [if_pos (by omega), if_neg (by omega), Nat.add_sub_cancel] at a2
      exact (cramer (y := z p) (z := z (p + H)) (hd1 p hlt) (by linear_combination a1) (by linear_combination a2)).1
    · rw [if_neg hlt, if_pos (by omega)]
      have a1 := h (p - H) (by omega)
      have a2 := h p hp
      unfold Row.Holds at a1 a2
      rw [if_neg (by omega), if_pos (by omega), Nat.sub_add_cancel (by omega)] at a1
      rw [if_pos (by omega), if_neg (by omega)] at a2
      have := hd1 (p - H) (by omega)
      rw [Nat.sub_add_cancel (by omega)] at this
      exact (cramer (y := z (p - H)) (z := z p) this (by linear_combination a1) (by linear_combination a2)).2

/-- The rows of `T` as a linear map. -/
def tMap (P : Nat) (s : Nat → Row K) : (Fin P → K) →ₗ[K] (Fin P → K) where
  toFun v := fun j => (s j).a * (if h : 1 ≤ j.1 then v ⟨j.1 - 1, by omega⟩ else 0) + (s j).b * v j +
    (s j).c * (if h : j.1 + 1 < P then v ⟨j.1 + 1, h⟩ else 0)
  map_add' u v := by
    funext j
    simp only [Pi.add_apply]
    split <;> split <;> ring
  map_smul' k v := by
    funext j
    simp only [Pi.smul_apply, smul_eq_mul, RingHom.id_apply]
    split <;> split <;> ring

theorem tMap_eq {P : Nat} (s : Nat → Row K) (v : Fin P → K) (b : Nat → K) :
    (tMap P s v = fun j => b j.1) ↔ T P 1 (fun p => { s p with r := b p }) (fun i => if h : i < P then v ⟨i, h⟩ else 0) := by
  have key : ∀ j : Fin P, tMap P s v j = (s j).a * (if 1 ≤ j.1 then (if h : j.1 - 1 < P then v ⟨j.1 - 1, h⟩ else 0) else 0) +
      (s j).b * (if h : j.1 < P then v ⟨j.1, h⟩ else 0) +
      (s j).c * (if j.1 + 1 < P then (if h : j.1 + 1 < P then v ⟨j.1 + 1, h⟩ else 0) else 0) := by
    intro j
    change (s j).a * (if h : 1 ≤ j.1 then v ⟨j.1 - 1, by omega⟩ else 0) + (s j).b * v j +
      (s j).c * (if h : j.1 + 1 < P then v ⟨j.1 + 1, h⟩ else 0) = _
    have h1 : j.1 - 1 < P := by omega
    rw [dif_pos h1, dif_pos j.2]
    by_cases q1 : 1 ≤ j.1 <;> by_cases q2 : j.1 + 1 < P <;> simp [q1, q2]
  constructor
  · intro h p hp
    have := congrFun h ⟨p, hp⟩
    rw [key] at this
    exact this
  · intro h
    funext j
    rw [key]
    exact h j.1 j.2

/-- The single rows have a solution, and `val2` is it. -/
theorem T_solution {P M : Nat} (hP : P = 2 ^ M) {s : Nat → Row K}
    (hok : ∀ k, k < M - 1 → StepOK P (2 ^ k) (stepN P s k)) (hd : Det2 P (stepN P s (M - 1))) :
    T P 1 s (val2 P (stepN P s (M - 1))) := by
  have huniq : ∀ (r : Nat → K) (z : Nat → K), T P 1 (fun p => { s p with r := r p }) z → (∀ p, p < P → r p = 0) →
      ∀ p, p < P → z p = 0 := by
    intro r z hz hr p hp
    have hz' : T P 1 (fun q => (s q).hom) z := by
      intro q hq
      have := hz q hq
      unfold Row.Holds at this ⊢
      exact this.trans (hr q hq)
    have hok' : ∀ k, k < M - 1 → StepOK P (2 ^ k) (stepN P (fun q => (s q).hom) k) := by
      intro k hk
      rw [stepN_hom]
      exact hok k hk
    have hd' : Det2 P (stepN P (fun q => (s q).hom) (M - 1)) := by
      rw [stepN_hom]
      exact hd
    have hT := T_stepN (M - 1) hok' hz'
    have := T_val2 hP hd' hT p hp
    rw [this, stepN_hom]
    unfold val2 Row.hom
    simp
  have hinj : Function.Injective (tMap P s) := by
    rw [injective_iff_map_eq_zero]
    intro v hv
    have h0 := (tMap_eq s v (fun _ => 0)).mp (by rw [hv]; rfl)
    funext j
    have := huniq _ _ h0 (fun _ _ => rfl) j.1 j.2
    rw [dif_pos j.2] at this
    exact this
  obtain ⟨v, hv⟩ := LinearMap.injective_iff_surjective.1 hinj (fun j : Fin P => (s j).r)
  have hs := (tMap_eq s v (fun p => (s p).r)).mp hv
  obtain ⟨y, hT⟩ : ∃ y, T P 1 s y := ⟨_, hs⟩
  have hval := fun p hp => T_val2 hP hd (T_stepN (M - 1) hok hT) p hp
  intro p hp
  have := hT p hp
  rw [hval p hp] at this
  by_cases hl : 1 ≤ p <;> by_cases hr : p + 1 < P
  · rw [if_pos hl, if_pos hr] at this ⊢
    rw [hval (p - 1) (by omega), hval (p + 1) hr] at this
    exact this
  · rw [if_pos hl, if_neg hr] at this ⊢
    rw [hval (p - 1) (by omega)] at this
    exact this
  · rw [if_neg hl, if_pos hr] at this ⊢
    rw [hval (p + 1) hr] at this
    exact this
  · rw [if_neg hl, if_neg hr] at this ⊢
    exact this

/-! ## The three phases -/

theorem levels_two_pow (M : Nat) : levels (2 ^ M) = M := Nat.log2_two_pow

/-- The 2x2 solver's result on the arrays. -/
theorem pcrSolve2_last {P n M : Nat} (hP : P = 2 ^ M) (hn : 1 ≤ n) (w : Nat → Nat → Row K) (x : Nat → Nat → K)
    (hw0 : ∀ p, P = 1 → w p 0 = dummy) (p : Nat) (hp : p < P) :
    pcrSolve2 P n w x p n = val2 P (fun q => w q n) p ∧ (p = 0 → x 0 0 = 0 → pcrSolve2 P n w x p 0 = 0) := by
  have hP1 : 1 ≤ P := by rw [hP]; exact Nat.one_le_two_pow
  unfold pcrSolve2 val2 pcrPair
  dsimp only
  by_cases hlt : p < P / 2
  · simp only [hlt, if_true]
    refine ⟨?_, ?_⟩
    · rw [upd, if_neg (by omega), upd, if_pos rfl]
    · intro h0 hx
      rw [upd, if_neg (by omega), upd, if_neg (by omega), h0, hx]
  · simp only [hlt, if_false]
    by_cases h2 : 0 < P / 2
    · simp only [h2, if_true]
      refine ⟨?_, fun h0 => absurd h2 (by omega)⟩
      rw [upd, if_pos rfl]
    · have h1 : P = 1 := by omega
      simp only [h2, if_false, hw0 p h1]
      unfold det dummy
      refine ⟨?_, ?_⟩
      · rw [upd, if_pos rfl]
        simp
      · intro _ _
        rw [upd, if_neg (by omega), upd, if_pos rfl]
        simp

/-- What the single-row phase leaves in `x(n)` and, after the exchange, in `x(0)`. -/
theorem single_solves {P n M : Nat} (hP : P = 2 ^ M) (hn1 : 1 ≤ n) (u : Nat → Nat → Row K) (x : Nat → Nat → K)
    (hu0 : ∀ p, u p 0 = dummy) (hx : x 0 0 = 0)
    (hpcr : ∀ l, l < M - 1 → PcrOK P n (2 ^ l) (pcrForward P n u l))
    (hdet : ∀ p, p < P → det (pcrPair P n (pcrForward P n u (M - 1)) p).1 (pcrPair P n (pcrForward P n u (M - 1)) p).2 ≠ 0) :
    ∃ z, T P 1 (fun q => u q n) z ∧
      (∀ p, p < P → backExchange n (pcrSolve2 P n (pcrForward P n u (M - 1)) x) p n = z p) ∧
      (∀ p, p < P → backExchange n (pcrSolve2 P n (pcrForward P n u (M - 1)) x) p 0 = if p = 0 then 0 else z (p - 1)) := by
  have hP1 : 1 ≤ P := by rw [hP]; exact Nat.one_le_two_pow
  set s : Nat → Row K := fun q => u q n with hs
  have hpl : ∀ l, l ≤ M → ∀ q, q < P → pcrForward P n u l q n = stepN P s l q := fun l hl q hq =>
    pcrForward_last hP hn1 u l hl q hq
  have hok : ∀ k, k < M - 1 → StepOK P (2 ^ k) (stepN P s k) := by
    intro k hk
    have h1 := hpcr k hk
    have h2 := pcrOK_stepOK Nat.one_le_two_pow (by rw [hP]; exact pow_dvd_pow 2 (by omega)) hn1 h1
    intro p hp
    obtain ⟨k1, k2⟩ := h2 p hp
    refine ⟨fun hl => ?_, fun hr => ?_⟩
    · rw [← hpl k (by omega) _ (lt_of_le_of_lt (Nat.sub_le _ _) hp)]; exact k1 hl
    · rw [← hpl k (by omega) _ hr]; exact k2 hr
  set R := pcrForward P n u (M - 1) with hR
  have hkeep0 : ∀ p, P = 1 → R p 0 = dummy := by
    intro p h1
    have : M = 0 := by
      rcases Nat.eq_zero_or_pos M with h | h
      · exact h
      · have : 2 ^ 1 ≤ 2 ^ M := Nat.pow_le_pow_right (by omega) h
        omega
    rw [hR, this]
    exact hu0 p
  have hlast : ∀ q, q < P → R q n = stepN P s (M - 1) q := fun q hq => hpl (M - 1) (by omega) q hq
  have hd : Det2 P (stepN P s (M - 1)) := by
    constructor
    · intro p hp
      have := hdet p (by omega)
      unfold pcrPair at this
      rw [if_pos hp] at this
      dsimp only at this
      rw [hlast p (by omega), hlast (p + P / 2) (by omega)] at this
      exact this
    · intro h1
      have := hdet 0 (by omega)
      unfold pcrPair at this
      rw [if_neg (by omega), if_neg (by omega)] at this
      dsimp only at this
      rw [hkeep0 0 h1, hlast 0 (by omega)] at this
      unfold det dummy at this
      simpa using this
  have hT := T_solution hP hok hd
  set z := val2 P (stepN P s (M - 1)) with hz
  have hval : ∀ p, p < P → pcrSolve2 P n R x p n = z p := by
    intro p hp
    rw [(pcrSolve2_last hP hn1 _ x hkeep0 p hp).1, hz]
    unfold val2
    dsimp only
    by_cases h2 : p < P / 2
    · rw [if_pos h2, if_pos h2, hlast p hp, hlast (p + P / 2) (by omega)]
    · rw [if_neg h2, if_neg h2]
      by_cases h3 : 0 < P / 2
      · rw [if_pos h3, if_pos h3, hlast p hp, hlast (p - P / 2) (by omega)]
      · rw [if_neg h3, if_neg h3, hlast p hp]
  refine ⟨z, hT, fun p hp => ?_, fun p hp => ?_⟩
  · rw [backExchange, if_neg (by omega)]
    exact hval p hp
  · rw [backExchange]
    by_cases h0 : p = 0
    · subst h0
      rw [if_neg (by omega), if_pos rfl]
      exact (pcrSolve2_last hP hn1 _ x hkeep0 0 hp).2 rfl hx
    · rw [if_pos ⟨rfl, by omega⟩, if_neg h0]
      exact hval (p - 1) (by omega)

/-- `crPcr` solves all the rows of all the processors. -/
theorem crPcr_solves {P n M L : Nat} (hP : P = 2 ^ M) (hn : n = 2 ^ L) (w : Nat → Nat → Row K) (x : Nat → Nat → K)
    (hw0 : ∀ p, w p 0 = dummy) (hwn : w (P - 1) (n + 1) = dummy) (hx : x 0 0 = 0) (hpiv : CorePivots P n w) :
    E P n 1 w (crPcr P n w x) := by
  have hP1 : 1 ≤ P := by rw [hP]; exact Nat.one_le_two_pow
  have hn1 : 1 ≤ n := by rw [hn]; exact Nat.one_le_two_pow
  have hLn : levels n = L := by rw [hn]; exact levels_two_pow L
  have hLP : levels P = M := by rw [hP]; exact levels_two_pow M
  set u := crForward P n w L with hu
  have hrows : pcrRows P n w = pcrForward P n u (M - 1) := by unfold pcrRows; rw [hLn, hLP]
  obtain ⟨z, hT, hyn', hy0'⟩ := single_solves hP hn1 u x (fun p => by rw [hu, (crForward_keeps w L).1, hw0]) hx
    (fun l hl => by have := hpiv.pcr l (by rw [hLP]; exact hl); rw [hLn] at this; exact this)
    (fun p hp => by have := hpiv.det p hp; rw [hrows] at this; exact this)
  set y := backExchange n (pcrSolve2 P n (pcrRows P n w) x) with hy
  have hyn : ∀ p, p < P → y p n = z p := fun p hp => by rw [hy, hrows]; exact hyn' p hp
  have hy0 : ∀ p, p < P → y p 0 = if p = 0 then 0 else z (p - 1) := fun p hp => by rw [hy, hrows]; exact hy0' p hp
  -- substitution
  have hres : ∀ p, crPcr P n w x p = backLoop n (pcrRows P n w p) L (y p) := by
    intro p
    unfold crPcr
    rw [hLn]
  have hback : ∀ p, p < P → OddEq n L (pcrRows P n w p) 0 (crPcr P n w x p) ∧ crPcr P n w x p 0 = y p 0 ∧
      crPcr P n w x p n = y p n := by
    intro p hp
    rw [hres]
    refine backLoop_spec hn1 (by rw [hn]) _ (hpiv.back p hp) L (le_refl _) (y p) ?_
    intro k hk1 hk2
    omega
  -- the rows of every level
  have hE : ∀ k, k ≤ L → E P n (2 ^ (L - k)) (crForward P n w (L - k)) (crPcr P n w x) := by
    intro k
    induction k with
    | zero =>
      intro _ p hp i hi1 hi2 hdvd
      rw [Nat.sub_zero, ← hn] at hdvd
      obtain rfl : i = n := le_antisymm hi2 (Nat.le_of_dvd hi1 hdvd)
      rw [Nat.sub_zero, ← hn, ← hu]
      have h1 := hT p hp
      unfold prv nxt
      rw [if_pos rfl, if_pos rfl, (hback p hp).2.2, hyn p hp]
      have e1 : (if p = 0 then (0 : K) else crPcr P i w x (p - 1) i) = if 1 ≤ p then z (p - 1) else 0 := by
        by_cases h0 : p = 0
        · rw [if_pos h0, if_neg (by omega)]
        · rw [if_neg h0, if_pos (by omega), (hback (p - 1) (by omega)).2.2, hyn (p - 1) (by omega)]
      have e2 : (if p + 1 < P then crPcr P i w x (p + 1) i else 0) = if p + 1 < P then z (p + 1) else 0 := by
        by_cases h0 : p + 1 < P
        · rw [if_pos h0, if_pos h0, (hback (p + 1) h0).2.2, hyn (p + 1) h0]
        · rw [if_neg h0, if_neg h0]
      rw [e1, e2]
      exact h1
    | succ k ih =>
      intro hk
      have hpow : 2 * 2 ^ (L - (k + 1)) = 2 ^ (L - k) := by rw [← pow_succ']; congr 1; omega
      have hdn : 2 * 2 ^ (L - (k + 1)) ∣ n := by rw [hpow, hn]; exact pow_dvd_pow 2 (by omega)
      have hstep : crForward P n w (L - k) = crLevel P n (2 ^ (L - (k + 1))) (crForward P n w (L - (k + 1))) := by
        rw [show L - k = (L - (k + 1)) + 1 by omega, crForward]
      refine E_step Nat.one_le_two_pow hdn hn1 ?_ (hpiv.cr _ (by omega)) (x := crPcr P n w x) ?_ ?_
      · rw [(crForward_keeps w _).2, hwn]
      · rw [hpow, ← hstep]
        exact ih (by omega)
      · intro p hp i hi1 hi2 h1 h2
        have hin : i < n := by
          rcases Nat.lt_or_ge i n with h | h
          · exact h
          · exact absurd (by rw [show i = n by omega]; exact hdn) h2
        have hrow : crForward P n w (L - (k + 1)) p i = pcrRows P n w p i := by
          rw [hrows, pcrForward_keeps _ _ _ _ hi1 hin, hu]
          have := crForward_odd (P := P) w (L - (k + 1)) (k + 1) p i hi2 (by rw [pow_succ']; exact h2)
          rw [← this]
          congr 1
          omega
        rw [hrow]
        have := (hback p hp).1 (L - (k + 1)) (by omega) (by omega) i h1 (by rw [pow_succ']; exact h2) hin
        unfold prv nxt
        rw [if_neg (show ¬ i = n by omega)]
        by_cases hid : i = 2 ^ (L - (k + 1))
        · rw [if_pos hid]
          rw [← hid, Nat.sub_self, (hback p hp).2.1, hy0 p hp] at this
          by_cases h0 : p = 0
          · rw [if_pos h0] at this ⊢
            rw [← hid]
            exact this
          · rw [if_neg h0] at this ⊢
            rw [(hback (p - 1) (by omega)).2.2, hyn (p - 1) (by omega), ← hid]
            exact this
        · rw [if_neg hid]
          exact this
  have := hE L (le_refl _)
  rw [Nat.sub_self] at this
  exact this

end Verif.Pcr
