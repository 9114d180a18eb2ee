/-
C24: monitors are called at the multiples of their timesteps.
-/
import Verif.Solver.Monitor
import Mathlib.Data.List.Nodup

namespace Verif.Solver

/-! ### Rounding -/

theorem sround_near (x : ℚ) : |(sround x : ℚ) - x| ≤ 1 / 2 := by
  unfold sround
  rw [abs_le]
  split
  · have h1 := Int.floor_le (x + 1 / 2)
    have h2 := Int.lt_floor_add_one (x + 1 / 2)
    constructor <;> linarith
  · have h1 := Int.le_ceil (x - 1 / 2)
    have h2 := Int.ceil_lt_add_one (x - 1 / 2)
    constructor <;> linarith

theorem sround_pos {x : ℚ} (h : 2 / 3 ≤ x) : 0 < sround x := by
  have := abs_le.1 (sround_near x)
  have h1 : (0 : ℚ) < sround x := by linarith
  exact_mod_cast h1

theorem sround_one {x : ℚ} (h1 : 1 / 2 < x) (h2 : x < 3 / 2) : sround x = 1 := by
  have := abs_le.1 (sround_near x)
  have h3 : (0 : ℚ) < sround x := by linarith
  have h4 : (sround x : ℚ) < 2 := by linarith
  have h5 : 0 < sround x := by exact_mod_cast h3
  have h6 : sround x < 2 := by exact_mod_cast h4
  omega

theorem sround_int (n : Int) : sround n = n := by
  have := abs_le.1 (sround_near n)
  have h3 : ((sround n - n : Int) : ℚ) < 1 := by push_cast; linarith
  have h4 : (-1 : ℚ) < ((sround n - n : Int) : ℚ) := by push_cast; linarith
  have h5 : sround n - n < 1 := by exact_mod_cast h3
  have h6 : -1 < sround n - n := by exact_mod_cast h4
  omega

theorem isMultiple_true {chk : Bool} {a b : ℚ} (ha : 0 < a) (hb : 0 < b)
    (h : isMultiple chk a b = .ok true) :
    (a ≤ b → |(sround (b / a) : ℚ) * a - b| < eps * b) ∧
    (b ≤ a → |(sround (a / b) : ℚ) * b - a| < eps * a) := by
  unfold isMultiple at h
  rw [if_neg (by simp [ha, hb])] at h
  simp only [Except.ok.injEq, decide_eq_true_eq] at h
  obtain ⟨-, -, h⟩ := h
  constructor
  · intro hab
    rw [if_neg (not_lt.2 hab), if_neg (not_lt.2 hab), abs_div, abs_of_pos hb,
      div_lt_iff₀ hb] at h
    exact h
  · intro hab
    rcases lt_or_eq_of_le hab with hlt | heq
    · rw [if_pos hlt, if_pos hlt, abs_div, abs_of_pos ha, div_lt_iff₀ ha] at h
      exact h
    · subst heq
      simp only [gt_iff_lt, lt_irrefl, if_false] at h
      rw [abs_div, abs_of_pos ha, div_lt_iff₀ ha] at h
      exact h

theorem isMultiple_comm (chk : Bool) {a b : ℚ} : isMultiple chk a b = isMultiple chk b a := by
  unfold isMultiple
  rcases lt_trichotomy a b with h | h | h
  · rw [if_neg (not_lt.2 h.le), if_neg (not_lt.2 h.le), if_pos h, if_pos h]
    simp only [and_comm (a := a > 0)]
  · subst h; rfl
  · rw [if_neg (not_lt.2 h.le), if_neg (not_lt.2 h.le), if_pos h, if_pos h]
    simp only [and_comm (a := a > 0)]

/-! ### How well periods and timesteps agree -/

/-- `R k a b`: `a` agrees with `b` after `k` adjustments; `D` is the set of timesteps. -/
structure Law (chk : Bool) (D : ℚ → Prop) (R : ℕ → ℚ → ℚ → Prop) : Prop where
  refl : ∀ x, R 0 x x
  mono : ∀ k a b, 0 < a → 0 < b → R k a b → R (k + 1) a b
  mult : ∀ x y, D x → D y → 0 < x → 0 < y → isMultiple chk x y = .ok true → x ≤ y * (3 / 2) →
    R 1 ((sround (y / x) : ℚ) * x) y
  trans : ∀ k (p m : Int) i t T, 0 < p → 0 < m → 0 < i → 0 < t → 0 < T →
    R k ((p : ℚ) * i) T → R 1 ((m : ℚ) * t) i → R (k + 1) (((p * m : Int) : ℚ) * t) T

/-- Up to the tolerance. -/
def Close (k : ℕ) (a b : ℚ) : Prop := b * (1 - eps) ^ k ≤ a ∧ a * (1 - eps) ^ k ≤ b

theorem eps_pos : 0 < 1 - eps := by norm_num [eps]
theorem eps_lt : 1 - eps ≤ 1 := by norm_num [eps]

theorem law_close (chk : Bool) : Law chk (fun _ => True) Close where
  refl x := by simp [Close]
  mono k a b ha hb h := by
    have h1 : (1 - eps) ^ (k + 1) ≤ (1 - eps) ^ k := by
      rw [pow_succ]
      exact mul_le_of_le_one_right (pow_nonneg eps_pos.le k) eps_lt
    exact ⟨le_trans (mul_le_mul_of_nonneg_left h1 hb.le) h.1,
      le_trans (mul_le_mul_of_nonneg_left h1 ha.le) h.2⟩
  mult x y _ _ hx hy h hxy := by
    have hm := isMultiple_true hx hy h
    unfold Close
    rw [pow_one]
    have he : eps = 1 / 1000000000000 := rfl
    rcases le_total x y with hle | hle
    · have := abs_lt.1 (hm.1 hle)
      constructor
      · linarith
      · rw [he] at *; nlinarith
    · have h2 := abs_lt.1 (hm.2 hle)
      have h3 : x / y ≤ 3 / 2 := by rw [div_le_iff₀ hy]; linarith
      have h4 : 1 ≤ x / y := by rw [le_div_iff₀ hy]; linarith
      have h5 : sround (x / y) = 1 := by
        rcases lt_or_eq_of_le h3 with h3 | h3
        · exact sround_one (by linarith) h3
        · exfalso
          have h6 : sround (x / y) = 2 := by rw [h3]; norm_num [sround]
          rw [h6] at h2
          have : x = 3 / 2 * y := by rw [← h3]; field_simp
          rw [he] at h2; push_cast at h2; linarith
      rw [h5] at h2
      push_cast at h2
      have h7 : sround (y / x) = 1 := by
        apply sround_one
        · rw [lt_div_iff₀ hx]; rw [he] at h2; linarith
        · rw [div_lt_iff₀ hx]; linarith
      rw [h7]
      push_cast
      rw [he] at *
      constructor <;> linarith
  trans k p m i t T hp hm hi ht hT h1 h2 := by
    unfold Close at *
    rw [pow_one] at h2
    push_cast
    have hp' : (0 : ℚ) < p := by exact_mod_cast hp
    have hk : 0 ≤ (1 - eps) ^ k := pow_nonneg eps_pos.le k
    constructor
    · calc T * (1 - eps) ^ (k + 1) = (T * (1 - eps) ^ k) * (1 - eps) := by ring
        _ ≤ ((p : ℚ) * i) * (1 - eps) := mul_le_mul_of_nonneg_right h1.1 eps_pos.le
        _ = p * (i * (1 - eps)) := by ring
        _ ≤ p * (m * t) := mul_le_mul_of_nonneg_left h2.1 hp'.le
        _ = p * m * t := by ring
    · calc (p : ℚ) * m * t * (1 - eps) ^ (k + 1) = p * (m * t * (1 - eps)) * (1 - eps) ^ k := by ring
        _ ≤ p * i * (1 - eps) ^ k :=
          mul_le_mul_of_nonneg_right (mul_le_mul_of_nonneg_left h2.2 hp'.le) hk
        _ ≤ T := h1.2

/-- Timesteps that are multiples of a unit, not more than 10¹² of them. -/
def Grid (u : ℚ) (x : ℚ) : Prop := ∃ n : ℕ, n ≤ 1000000000000 ∧ x = n * u

theorem law_exact (chk : Bool) (u : ℚ) (hu : 0 < u) : Law chk (Grid u) (fun _ a b => a = b) where
  refl x := rfl
  mono _ _ _ _ _ h := h
  mult x y hx hy hx0 hy0 h hxy := by
    have hm := isMultiple_true hx0 hy0 h
    obtain ⟨a, ha, rfl⟩ := hx
    obtain ⟨b, hb, rfl⟩ := hy
    have key : ∀ a b : ℕ, b ≤ 1000000000000 → ∀ r : Int, |(r : ℚ) * (a * u) - b * u| < eps * (b * u) →
        r * a = b := by
      intro a b hb r hr
      have h1 : (r : ℚ) * (a * u) - b * u = ((r * a - b : Int) : ℚ) * u := by push_cast; ring
      rw [h1, abs_mul, abs_of_pos hu, ← mul_assoc] at hr
      have h2 : |((r * a - b : Int) : ℚ)| < eps * b := lt_of_mul_lt_mul_right hr hu.le
      have h3 : eps * (b : ℚ) ≤ 1 := by
        have : (b : ℚ) ≤ 1000000000000 := by exact_mod_cast hb
        unfold eps; linarith
      have h4 := abs_lt.1 (lt_of_lt_of_le h2 h3)
      have h5 : r * a - b < 1 := by exact_mod_cast h4.2
      have h6 : -1 < r * a - b := by exact_mod_cast h4.1
      omega
    rcases le_total ((a : ℚ) * u) (b * u) with hle | hle
    · have := key a b hb _ (hm.1 hle)
      have h2 : (((sround (b * u / (a * u)) * a : Int)) : ℚ) = b := by rw [this]; push_cast; rfl
      push_cast at h2
      rw [← mul_assoc, h2]
    · have hk := key b a ha _ (hm.2 hle)
      set r := sround (a * u / (b * u)) with hr
      have h3 : (a : ℚ) * u / (b * u) ≤ 3 / 2 := by rw [div_le_iff₀ hy0]; linarith
      have h4 := abs_le.1 (sround_near (a * u / (b * u)))
      rw [← hr] at h4
      have h5 : (r : ℚ) ≤ 2 := by linarith
      have h5' : r ≤ 2 := by exact_mod_cast h5
      have ha0 : (0 : ℚ) < a := by
        by_contra hn
        exact absurd hx0 (not_lt.2 (mul_nonpos_of_nonpos_of_nonneg (not_lt.1 hn) hu.le))
      have hb0 : (0 : ℚ) < b := by
        by_contra hn
        exact absurd hy0 (not_lt.2 (mul_nonpos_of_nonpos_of_nonneg (not_lt.1 hn) hu.le))
      have ha1 : 0 < a := by exact_mod_cast ha0
      have hb1 : 0 < b := by exact_mod_cast hb0
      have hle' : (2 : ℚ) * a ≤ 3 * b := by
        have : (a : ℚ) * u ≤ b * (3 / 2) * u := by linarith
        have := le_of_mul_le_mul_right this hu
        linarith
      have hle2 : 2 * a ≤ 3 * b := by exact_mod_cast hle'
      have hba : b = a := by
        have : r ≠ 2 := by rintro h; rw [h] at hk; omega
        have h0 : 0 < r := by
          by_contra hn
          have : r * b ≤ 0 := mul_nonpos_of_nonpos_of_nonneg (by omega) (by omega)
          omega
        have : r = 1 := by omega
        rw [this] at hk; omega
      subst hba
      rw [div_self hx0.ne', show (1 : ℚ) = ((1 : Int) : ℚ) by norm_num, sround_int]
      push_cast; ring
  trans k p m i t T _ _ _ _ _ h1 h2 := by
    push_cast
    rw [← h1, ← h2]; ring

/-! ### The invariant -/

theorem scale_other (m : Int) (l : List Nat) (mem : Nat → Mon) {j : Nat} (h : j ∉ l) :
    scale m l mem j = mem j := by
  induction l generalizing mem with
  | nil => rfl
  | cons i l ih =>
    simp only [List.mem_cons, not_or] at h
    show scale m l _ j = _
    rw [ih _ h.2]; simp only [if_neg h.1]

theorem scale_mem (m : Int) (l : List Nat) (mem : Nat → Mon) {j : Nat} (hn : l.Nodup) (h : j ∈ l) :
    scale m l mem j = { mem j with period := (mem j).period * m } := by
  induction l generalizing mem with
  | nil => simp at h
  | cons i l ih =>
    rw [List.nodup_cons] at hn
    show scale m l _ j = _
    by_cases hj : j = i
    · subst hj
      rw [scale_other m l _ hn.1]; simp only [if_true]
    · rw [ih _ hn.2 (by simpa [hj] using h)]; simp only [if_neg hj]

theorem scale_timestep (m : Int) (l : List Nat) (mem : Nat → Mon) (j : Nat) :
    (scale m l mem j).timestep = (mem j).timestep := by
  induction l generalizing mem with
  | nil => rfl
  | cons i l ih =>
    show (scale m l _ j).timestep = _
    rw [ih]
    by_cases hj : j = i
    · subst hj; simp
    · simp [hj]

theorem setDefaults_spec (ts : ℚ) (p : Int) (l : List Nat) (mem : Nat → Mon) (j : Nat) :
    setDefaults ts p l mem j = if j ∈ l ∧ (mem j).timestep < 0 then ⟨ts, p⟩ else mem j := by
  induction l generalizing mem with
  | nil => simp [setDefaults]
  | cons i l ih =>
    show setDefaults ts p l _ j = _
    rw [ih]
    by_cases hi : (mem i).timestep < 0
    · simp only [if_pos hi]
      by_cases hj : j = i
      · subst hj
        simp [hi]
      · simp [hj]
    · simp only [if_neg hi]
      by_cases hj : j = i
      · subst hj; simp [hi]
      · simp [hj]

/-- What holds of a solver with the monitors of timesteps `T`, of which those in `A` have
been added (and perhaps removed again) by now, before `solve`. -/
structure Inv (D : ℚ → Prop) (R : ℕ → ℚ → ℚ → Prop) (T : Nat → ℚ) (A : List Nat) (k : ℕ)
    (s : State) : Prop where
  ts : ∀ i, (s.mem i).timestep = T i
  new : ∀ i, i ∉ A → (s.mem i).period = 1
  sub : ∀ i ∈ s.mons, i ∈ A
  nodup : s.mons.Nodup
  init : s.initialised = false
  internal : s.internal_timestep = -1 ∨ (0 < s.internal_timestep ∧ D s.internal_timestep)
  unset : s.internal_timestep = -1 → s.default_monitor_period = 1 ∧ ∀ i ∈ s.mons, T i < 0
  per : 0 < s.internal_timestep → ∀ i ∈ s.mons, 0 < T i →
    0 < (s.mem i).period ∧ R k ((s.mem i).period * s.internal_timestep) (T i)

theorem inv_new (D : ℚ → Prop) (R : ℕ → ℚ → ℚ → Prop) (T : Nat → ℚ) (nout : Int) (dt : ℚ) :
    Inv D R T [] 0 (State.new T nout dt) where
  ts _ := rfl
  new _ _ := rfl
  sub i h := by simp [State.new] at h
  nodup := List.nodup_nil
  init := rfl
  internal := .inl rfl
  unset _ := ⟨rfl, fun i h => by simp [State.new] at h⟩
  per h := by norm_num [State.new] at h

theorem nodup_place {l : List Nat} {i : Nat} (front : Bool) (h : l.Nodup) (hi : i ∉ l) :
    (if front then i :: l else l ++ [i]).Nodup := by
  cases front
  · rw [if_neg (by simp), List.nodup_append]
    simp [h, hi]
    rintro a ha rfl; exact hi ha
  · rw [if_pos rfl]; simp [h, hi]

theorem mem_place {l : List Nat} {i j : Nat} (front : Bool) :
    j ∈ (if front then i :: l else l ++ [i]) ↔ j = i ∨ j ∈ l := by
  cases front <;> simp [or_comm]

variable {chk : Bool} {D : ℚ → Prop} {R : ℕ → ℚ → ℚ → Prop}

theorem inv_remove (law : Law chk D R) {T : Nat → ℚ} {A : List Nat} {k : ℕ} {s : State}
    (h : Inv D R T A k s) (i : Nat) : Inv D R T A (k + 1) (removeMonitor i s) where
  ts := h.ts
  new := h.new
  sub j hj := h.sub j (List.mem_of_mem_filter hj)
  nodup := h.nodup.filter _
  init := h.init
  internal := h.internal
  unset hu := ⟨(h.unset hu).1, fun j hj => (h.unset hu).2 j (List.mem_of_mem_filter hj)⟩
  per hp j hj hT := by
    have := h.per hp j (List.mem_of_mem_filter hj) hT
    refine ⟨this.1, law.mono _ _ _ ?_ hT this.2⟩
    have : (0 : ℚ) < (s.mem j).period := by exact_mod_cast this.1
    exact mul_pos this hp

theorem inv_mono (law : Law chk D R) {T : Nat → ℚ} {A A' : List Nat} {k : ℕ} {s : State}
    (h : Inv D R T A k s) (hA : ∀ i ∈ A, i ∈ A') : Inv D R T A' (k + 1) s where
  ts := h.ts
  new i hi := h.new i (fun hc => hi (hA i hc))
  sub i hi := hA i (h.sub i hi)
  nodup := h.nodup
  init := h.init
  internal := h.internal
  unset := h.unset
  per hp j hj hT := by
    have := h.per hp j hj hT
    refine ⟨this.1, law.mono _ _ _ ?_ hT this.2⟩
    have : (0 : ℚ) < (s.mem j).period := by exact_mod_cast this.1
    exact mul_pos this hp

theorem inv_add (law : Law chk D R) {T : Nat → ℚ} (hT0 : ∀ i, T i < 0 ∨ (0 < T i ∧ D (T i)))
    {A : List Nat} {k : ℕ} {s s' : State} (h : Inv D R T A k s) (i : Nat) (hi : i ∉ A)
    (front : Bool) (hs : addMonitor chk i front s = .ok s') : Inv D R T (i :: A) (k + 1) s' := by
  have him : i ∉ s.mons := fun hc => hi (h.sub i hc)
  have posk : ∀ j ∈ s.mons, 0 < T j → 0 < s.internal_timestep →
      0 < (s.mem j).period ∧ R (k + 1) ((s.mem j).period * s.internal_timestep) (T j) := by
    intro j hj hT hp
    have := h.per hp j hj hT
    refine ⟨this.1, law.mono _ _ _ ?_ hT this.2⟩
    have : (0 : ℚ) < (s.mem j).period := by exact_mod_cast this.1
    exact mul_pos this hp
  have anyk : ∀ x, 0 < x → R (k + 1) x x := by
    intro x hx
    have : ∀ n, R n x x := by
      intro n
      induction n with
      | zero => exact law.refl x
      | succ n ih => exact law.mono n x x hx hx ih
    exact this _
  have onek : ∀ a b, 0 < a → 0 < b → R 1 a b → R (k + 1) a b := by
    intro a b ha hb h1
    have : ∀ n, R (n + 1) a b := by
      intro n
      induction n with
      | zero => exact h1
      | succ n ih => exact law.mono _ a b ha hb ih
    exact this k
  unfold addMonitor at hs
  unfold adjustMonitorPeriods at hs
  simp only [h.ts i, h.init, true_and] at hs
  by_cases c1 : T i < 0
  · -- default timestep
    rw [if_pos c1] at hs
    simp only [Except.ok.injEq] at hs
    subst hs
    have setp : ∀ j, j ∈ s.mons → (s.setPeriod i s.default_monitor_period).mem j = s.mem j := by
      intro j hj
      have : j ≠ i := by rintro rfl; exact him hj
      simp [State.setPeriod, this]
    refine ⟨?_, ?_, ?_, ?_, h.init, h.internal, ?_, ?_⟩
    · intro j; simp only [State.setPeriod]; split
      · rename_i hj; subst hj; exact h.ts j
      · exact h.ts j
    · intro j hj
      simp only [List.mem_cons, not_or] at hj
      simp only [State.setPeriod, if_neg hj.1]
      exact h.new j hj.2
    · intro j hj
      rw [mem_place] at hj
      rcases hj with rfl | hj
      · simp
      · simp [h.sub j hj]
    · exact nodup_place _ h.nodup him
    · intro hu
      refine ⟨(h.unset hu).1, ?_⟩
      intro j hj
      rw [mem_place] at hj
      rcases hj with rfl | hj
      · exact c1
      · exact (h.unset hu).2 j hj
    · intro hp j hj hT
      rw [mem_place] at hj
      rcases hj with rfl | hj
      · linarith
      · rw [setp j hj]
        exact posk j hj hT hp
  · rw [if_neg c1] at hs
    have hTi : 0 < T i ∧ D (T i) := by
      rcases hT0 i with h | h
      · exact absurd h c1
      · exact h
    by_cases c2 : s.internal_timestep < 0
    · -- first one with a timestep
      rw [if_pos c2] at hs
      have hu : s.internal_timestep = -1 := by
        rcases h.internal with h | h
        · exact h
        · linarith [h.1]
      simp only [Except.ok.injEq] at hs
      subst hs
      refine ⟨h.ts, ?_, ?_, ?_, h.init, .inr hTi, ?_, ?_⟩
      · intro j hj
        exact h.new j (by simp at hj; exact hj.2)
      · intro j hj
        rw [mem_place] at hj
        rcases hj with rfl | hj
        · simp
        · simp [h.sub j hj]
      · exact nodup_place _ h.nodup him
      · intro hc; simp only at hc; linarith
      · intro _ j hj hT
        rw [mem_place] at hj
        rcases hj with rfl | hj
        · simp only [h.new j hi]
          refine ⟨by norm_num, ?_⟩
          simpa using anyk _ hTi.1
        · linarith [(h.unset hu).2 j hj]
    · rw [if_neg c2] at hs
      have hint : 0 < s.internal_timestep ∧ D s.internal_timestep := by
        rcases h.internal with h | h
        · exact absurd (by rw [h]; norm_num) c2
        · exact h
      cases hm : isMultiple chk s.internal_timestep (T i) with
      | error e => rw [hm] at hs; simp at hs
      | ok b =>
        cases b with
        | false => rw [hm] at hs; simp at hs
        | true =>
          rw [hm] at hs
          simp only at hs
          by_cases c3 : T i > s.internal_timestep * (3 / 2)
          · -- larger timestep
            rw [if_pos c3] at hs
            simp only [Except.ok.injEq] at hs
            subst hs
            have hpos : 0 < sround (T i / s.internal_timestep) := by
              apply sround_pos
              rw [le_div_iff₀ hint.1]; linarith
            refine ⟨?_, ?_, ?_, ?_, h.init, h.internal, ?_, ?_⟩
            · intro j; simp only [State.setPeriod]; split
              · rename_i hj; subst hj; exact h.ts j
              · exact h.ts j
            · intro j hj
              simp only [List.mem_cons, not_or] at hj
              simp only [State.setPeriod, if_neg hj.1]
              exact h.new j hj.2
            · intro j hj
              rw [mem_place] at hj
              rcases hj with rfl | hj
              · simp
              · simp [h.sub j hj]
            · exact nodup_place _ h.nodup him
            · intro hc; simp only at hc; linarith [hint.1]
            · intro hp j hj hT
              rw [mem_place] at hj
              rcases hj with rfl | hj
              · simp only [State.setPeriod, if_true]
                refine ⟨hpos, onek _ _ ?_ hT ?_⟩
                · have : (0 : ℚ) < sround (T j / s.internal_timestep) := by exact_mod_cast hpos
                  exact mul_pos this hp
                · exact law.mult _ _ hint.2 hTi.2 hint.1 hTi.1 hm (by linarith)
              · have hji : j ≠ i := by rintro rfl; exact him hj
                simp only [State.setPeriod, if_neg hji]
                exact posk j hj hT hp
          · -- smaller timestep
            rw [if_neg c3] at hs
            simp only [Bool.false_eq_true, if_false, Except.ok.injEq] at hs
            subst hs
            push Not at c3
            have hpos : 0 < sround (s.internal_timestep / T i) := by
              apply sround_pos
              rw [le_div_iff₀ hTi.1]; linarith
            refine ⟨?_, ?_, ?_, ?_, rfl, .inr hTi, ?_, ?_⟩
            · intro j; simp only [scale_timestep]; exact h.ts j
            · intro j hj
              simp only [List.mem_cons, not_or] at hj
              have hj2 : j ∉ s.mons := fun hc => hj.2 (h.sub j hc)
              simp only [scale_other _ _ _ hj2]
              exact h.new j hj.2
            · intro j hj
              rw [mem_place] at hj
              rcases hj with rfl | hj
              · simp
              · simp [h.sub j hj]
            · exact nodup_place _ h.nodup him
            · intro hc; simp only at hc; linarith [hTi.1]
            · intro hp j hj hT
              rw [mem_place] at hj
              rcases hj with rfl | hj
              · simp only [scale_other _ _ _ him, h.new j hi]
                refine ⟨by norm_num, ?_⟩
                simpa using anyk _ hTi.1
              · simp only [scale_mem _ _ _ h.nodup hj]
                have := h.per hint.1 j hj hT
                refine ⟨mul_pos this.1 hpos, ?_⟩
                refine law.trans k _ _ s.internal_timestep (T i) (T j) this.1 hpos hint.1 hTi.1 hT
                  this.2 ?_
                rw [isMultiple_comm] at hm
                exact law.mult _ _ hTi.2 hint.2 hTi.1 hint.1 hm c3

theorem inv_run (law : Law chk D R) {T : Nat → ℚ} (hT0 : ∀ i, T i < 0 ∨ (0 < T i ∧ D (T i)))
    (ops : List Op) {A : List Nat} {k : ℕ} {s : State} (h : Inv D R T A k s)
    (hn : (added ops).Nodup) (hd : ∀ i ∈ added ops, i ∉ A) :
    ∃ A', Inv D R T A' (k + ops.length) (runOps chk s ops) := by
  induction ops generalizing A k s with
  | nil => exact ⟨A, h⟩
  | cons op ops ih =>
    cases op with
    | remove i =>
      obtain ⟨A', h'⟩ := ih (inv_remove law h i) hn hd
      exact ⟨A', by rw [List.length_cons, ← Nat.add_assoc, Nat.add_right_comm]; exact h'⟩
    | add i front =>
      simp only [added, List.nodup_cons, List.mem_cons, forall_eq_or_imp] at hn hd
      have hstep : Inv D R T (i :: A) (k + 1) (Op.run chk s (.add i front)) := by
        show Inv D R T (i :: A) (k + 1) (match addMonitor chk i front s with
          | .ok s' => s'
          | .error _ => s)
        cases hs : addMonitor chk i front s with
        | error e => exact inv_mono law h (fun j hj => List.mem_cons_of_mem _ hj)
        | ok s' => exact inv_add law hT0 h i hd.1 front hs
      obtain ⟨A', h'⟩ := ih hstep hn.2 (by
        intro j hj hc
        simp only [List.mem_cons] at hc
        rcases hc with rfl | hc
        · exact hn.1 hj
        · exact hd.2 j hj hc)
      exact ⟨A', by rw [List.length_cons, ← Nat.add_assoc, Nat.add_right_comm]; exact h'⟩

/-- The timestep a monitor gets: its own, or that of the outputs if it has none. -/
def wanted (T : Nat → ℚ) (dt : ℚ) (i : Nat) : ℚ := if T i < 0 then dt else T i

theorem finalise_spec (law : Law chk D R) {T : Nat → ℚ}
    (hT0 : ∀ i, T i < 0 ∨ (0 < T i ∧ D (T i))) {A : List Nat} {k : ℕ} {s s' : State}
    (h : Inv D R T A k s) {N N' : Int} {dt dt' : ℚ} (hdt : 0 < dt) (hD : D dt)
    (hs : finaliseMonitorPeriods chk N dt s = .ok (s', N', dt')) :
    s'.mons = s.mons ∧ s'.number_output_steps = s.number_output_steps ∧
    s'.output_timestep = s.output_timestep ∧ 0 < dt' ∧
    (∃ q : Int, 0 < q ∧ N' = N * q ∧ R 1 (q * dt') dt) ∧
    (dt' = dt ∨ (dt' = s.internal_timestep ∧ dt' < dt * (3 / 2))) ∧
    ∀ i ∈ s.mons, 0 < (s'.mem i).period ∧
      R (k + 1) ((s'.mem i).period * dt') (wanted T dt i) := by
  have onek : ∀ a b, 0 < a → 0 < b → R 1 a b → R (k + 1) a b := by
    intro a b ha hb h1
    have : ∀ n, R (n + 1) a b := by
      intro n
      induction n with
      | zero => exact h1
      | succ n ih => exact law.mono _ a b ha hb ih
    exact this k
  have one1 : ∀ x, 0 < x → R 1 x x := fun x hx => law.mono _ _ _ hx hx (law.refl x)
  have casesT : ∀ i, T i < 0 ∨ (¬ T i < 0 ∧ 0 < T i) := by
    intro i
    rcases hT0 i with h | h
    · exact .inl h
    · exact .inr ⟨not_lt.2 h.1.le, h.1⟩
  unfold finaliseMonitorPeriods at hs
  unfold syncTimestep at hs
  rcases h.internal with hi | hi
  · -- no monitor has a timestep
    rw [if_neg (by rw [hi]; norm_num)] at hs
    simp only [Except.ok.injEq, Prod.mk.injEq] at hs
    obtain ⟨rfl, rfl, rfl⟩ := hs
    have hu := h.unset hi
    refine ⟨rfl, rfl, rfl, hdt, ⟨1, by norm_num, by ring, by simpa using one1 _ hdt⟩, .inl rfl, ?_⟩
    intro i him
    have hTi := hu.2 i him
    simp only [setDefaults_spec, h.ts i, him, hTi, and_self, if_true, wanted, hu.1]
    refine ⟨by norm_num, ?_⟩
    simpa using onek _ _ hdt hdt (one1 _ hdt)
  · rw [if_pos hi.1] at hs
    cases hm : isMultiple chk s.internal_timestep dt with
    | error e => rw [hm] at hs; simp at hs
    | ok b =>
      cases b with
      | false => rw [hm] at hs; simp at hs
      | true =>
        rw [hm] at hs
        by_cases c : s.internal_timestep < dt * (3 / 2)
        · -- the internal timestep is used
          simp only [if_pos c, Except.ok.injEq, Prod.mk.injEq] at hs
          obtain ⟨rfl, rfl, rfl⟩ := hs
          have hpos : 0 < sround (dt / s.internal_timestep) := by
            apply sround_pos
            rw [le_div_iff₀ hi.1]; linarith
          have hR := law.mult _ _ hi.2 hD hi.1 hdt hm c.le
          have hqpos : (0 : ℚ) < sround (dt / s.internal_timestep) * s.internal_timestep :=
            mul_pos (by exact_mod_cast hpos) hi.1
          refine ⟨rfl, rfl, rfl, hi.1, ⟨_, hpos, rfl, hR⟩, .inr ⟨rfl, c⟩, ?_⟩
          intro i him
          rcases casesT i with hTi | hTi
          · simp only [setDefaults_spec, h.ts i, him, hTi, and_self, if_true, wanted]
            exact ⟨hpos, onek _ _ hqpos hdt hR⟩
          · simp only [setDefaults_spec, h.ts i, hTi.1, and_false, if_false, wanted]
            have := h.per hi.1 i him hTi.2
            refine ⟨this.1, law.mono _ _ _ ?_ hTi.2 this.2⟩
            exact mul_pos (by exact_mod_cast this.1) hi.1
        · -- the output timestep is used
          simp only [if_neg c, Except.ok.injEq, Prod.mk.injEq] at hs
          obtain ⟨rfl, rfl, rfl⟩ := hs
          push Not at c
          have hpos : 0 < sround (s.internal_timestep / dt) := by
            apply sround_pos
            rw [le_div_iff₀ hdt]; linarith
          have hR := law.mult _ _ hD hi.2 hdt hi.1 (by rw [isMultiple_comm]; exact hm) (by linarith)
          refine ⟨rfl, rfl, rfl, hdt, ⟨1, by norm_num, by ring, by simpa using one1 _ hdt⟩,
            .inl rfl, ?_⟩
          intro i him
          rcases casesT i with hTi | hTi
          · simp only [setDefaults_spec, scale_timestep, h.ts i, him, hTi, and_self, if_true, wanted]
            refine ⟨by norm_num, ?_⟩
            simpa using onek _ _ hdt hdt (one1 _ hdt)
          · simp only [setDefaults_spec, scale_timestep, h.ts i, hTi.1, and_false, if_false, wanted,
              scale_mem _ _ _ h.nodup him]
            have := h.per hi.1 i him hTi.2
            exact ⟨mul_pos this.1 hpos,
              law.trans _ _ _ _ _ _ this.1 hpos hi.1 hdt hTi.2 this.2 hR⟩

end Verif.Solver
