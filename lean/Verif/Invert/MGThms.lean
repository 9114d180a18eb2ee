import Mathlib.Algebra.BigOperators.Group.Finset.Basic
import Mathlib.Algebra.BigOperators.Intervals
import Mathlib.Tactic.LinearCombination
import Verif.Invert.MGProps

/-! # C84: the equation solved by `LaplaceMultigrid` -/

namespace Verif.MG

open Finset Spec

variable {K : Type} [Field K] [LinearOrder K]

theorem zOf_prev {nz k : Nat} (h1 : 1 ≤ k) (h2 : k ≤ nz) : zOf nz (k - 1) = dn nz (k - 1) := by
  unfold zOf dn
  by_cases hk : k - 1 = 0
  · rw [if_pos hk, hk, Nat.zero_add, Nat.mod_eq_of_lt (by omega)]
  · rw [if_neg hk, if_neg (by omega)]
    have : k - 1 + nz - 1 = (k - 2) + nz := by omega
    rw [this, Nat.add_mod_right, Nat.mod_eq_of_lt (by omega)]
    omega

theorem zOf_next {nz k : Nat} (h1 : 1 ≤ k) (h2 : k ≤ nz) : zOf nz (k + 1) = up nz (k - 1) := by
  unfold zOf up
  rw [if_neg (by omega)]
  by_cases hk : k = nz
  · rw [if_pos (by omega)]
    have : k - 1 + 1 = nz := by omega
    rw [this, Nat.mod_self]
  · rw [if_neg (by omega)]
    have : k - 1 + 1 = k := by omega
    rw [this, Nat.mod_eq_of_lt (by omega)]
    omega

theorem zOf_self {nz k : Nat} (h1 : 1 ≤ k) (h2 : k ≤ nz) : zOf nz k = k - 1 := by
  unfold zOf
  rw [if_neg (by omega), if_neg (by omega)]

variable {c : Cfg K} {x : Vec K}

/-- The dimensions of the fine grid. -/
def Cfg.dim (c : Cfg K) : Dim := ⟨c.np, c.nx, c.nz⟩

omit [LinearOrder K] in
theorem result_cell (x0 : Nat → Nat → K) (hx : 0 < c.nx) (p i z : Nat) (hp : p < c.np)
    (h1 : 1 ≤ i) (h2 : i ≤ c.nx) : result c x0 x (p * c.nx + i) z = x p i (z + 1) := by
  have hle : p * c.nx + c.nx ≤ c.np * c.nx := by
    have := Nat.mul_le_mul_right c.nx (show p + 1 ≤ c.np from hp)
    rw [Nat.add_mul, Nat.one_mul] at this
    exact this
  unfold result
  simp only
  rw [if_neg (by omega), if_neg (by omega)]
  have e : p * c.nx + i - 1 = (i - 1) + c.nx * p := by rw [Nat.mul_comm]; omega
  rw [e, Nat.add_mul_div_left _ _ hx, Nat.add_mul_mod_self_left, Nat.div_eq_of_lt (by omega),
    Nat.mod_eq_of_lt (by omega), Nat.zero_add]
  have : i - 1 + 1 = i := by omega
  rw [this]

omit [LinearOrder K] in
theorem value_in (hf : Fixed c.dim x) (x0 : Nat → Nat → K) (hx : 0 < c.nx) (hz : 0 < c.nz)
    (p i k : Nat) (hp : p < c.np) (h1 : 1 ≤ i) (h2 : i ≤ c.nx) (hk : k ≤ c.nz + 1) :
    x p i k = result c x0 x (p * c.nx + i) (zOf c.nz k) := by
  rw [result_cell x0 hx p i _ hp h1 h2]
  unfold zOf
  by_cases k0 : k = 0
  · rw [if_pos k0, k0]
    have : c.nz - 1 + 1 = c.nz := by omega
    rw [this]
    exact fixed_zlo hf p i h1 h2
  · rw [if_neg k0]
    by_cases k1 : k = c.nz + 1
    · rw [if_pos k1, k1]
      exact fixed_zhi hf p i h1 h2
    · rw [if_neg k1]
      have : k - 1 + 1 = k := by omega
      rw [this]

omit [LinearOrder K] in
theorem value_lo (hf : Fixed c.dim x) (x0 : Nat → Nat → K) (hx : 0 < c.nx) (hz : 0 < c.nz)
    (p i k : Nat) (hp : p < c.np) (h1 : 1 ≤ i) (h2 : i ≤ c.nx) (hk : k ≤ c.nz + 1)
    (hn : ¬ (p = 0 ∧ i = 1)) :
    x p (i - 1) k = result c x0 x (p * c.nx + i - 1) (zOf c.nz k) := by
  by_cases hi : i = 1
  · subst hi
    have hp0 : 0 < p := by omega
    have e : p * c.nx + 1 - 1 = (p - 1) * c.nx + c.nx := by
      obtain ⟨q, rfl⟩ : ∃ q, p = q + 1 := ⟨p - 1, by omega⟩
      rw [Nat.add_sub_cancel, Nat.add_sub_cancel, Nat.add_mul, Nat.one_mul]
    rw [e, ← value_in hf x0 hx hz (p - 1) c.nx k (by omega) hx (Nat.le_refl _) hk]
    exact fixed_xlo hf hx p k hp0 hp
  · have e : p * c.nx + i - 1 = p * c.nx + (i - 1) := by omega
    rw [e]
    exact value_in hf x0 hx hz p (i - 1) k hp (by omega) (by omega) hk

omit [LinearOrder K] in
theorem value_hi (hf : Fixed c.dim x) (x0 : Nat → Nat → K) (hx : 0 < c.nx) (hz : 0 < c.nz)
    (p i k : Nat) (hp : p < c.np) (h1 : 1 ≤ i) (h2 : i ≤ c.nx) (hk : k ≤ c.nz + 1)
    (hn : ¬ (p + 1 = c.np ∧ i = c.nx)) :
    x p (i + 1) k = result c x0 x (p * c.nx + i + 1) (zOf c.nz k) := by
  by_cases hi : i = c.nx
  · subst hi
    have hp0 : p + 1 < c.np := by omega
    have e : p * c.nx + c.nx + 1 = (p + 1) * c.nx + 1 := by
      rw [Nat.add_mul, Nat.one_mul]
    rw [e, ← value_in hf x0 hx hz (p + 1) 1 k (by omega) (Nat.le_refl _) hx hk]
    exact fixed_xhi hf hx p k hp0
  · have e : p * c.nx + i + 1 = p * c.nx + (i + 1) := by omega
    rw [e]
    exact value_in hf x0 hx hz p (i + 1) k hp (by omega) (by omega) hk

omit [LinearOrder K] in
/-- The inner guard row of the result. -/
theorem guard_in (x0 : Nat → Nat → K) (hx : 0 < c.nx) (hp : 0 < c.np) (z : Nat) :
    result c x0 x 0 z = (if c.inn.grad then result c x0 x 1 z else -result c x0 x 1 z)
      + ghostIn c x0 z := by
  have h := result_cell (x := x) x0 hx 0 1 z hp (Nat.le_refl _) hx
  rw [Nat.zero_mul, Nat.zero_add] at h
  rw [h]
  unfold result ghostIn
  simp only [if_pos]
  cases c.inn.grad <;> cases c.inn.set <;> simp <;> ring

omit [LinearOrder K] in
/-- The outer guard row of the result. -/
theorem guard_out (x0 : Nat → Nat → K) (hx : 0 < c.nx) (hp : 0 < c.np) (z : Nat) :
    result c x0 x (c.np * c.nx + 1) z
      = (if c.out.grad then result c x0 x (c.np * c.nx) z else -result c x0 x (c.np * c.nx) z)
      + ghostOut c x0 z := by
  have h := result_cell (x := x) x0 hx (c.np - 1) c.nx z (by omega) hx (Nat.le_refl _)
  have e : (c.np - 1) * c.nx + c.nx = c.np * c.nx := by
    obtain ⟨q, hq⟩ : ∃ q, c.np = q + 1 := ⟨c.np - 1, by omega⟩
    rw [hq, Nat.add_sub_cancel, Nat.add_mul, Nat.one_mul]
  rw [e] at h
  rw [h]
  unfold result ghostOut
  simp only
  rw [if_neg (by omega), if_pos trivial]
  cases c.out.grad <;> cases c.inn.set <;> cases c.out.set <;> simp <;> ring

/-- One row of the unmodified matrix applied to a field on the whole grid. -/
def wide (m : Nat → K) (nz : Nat) (f : Nat → Nat → K) (i z : Nat) : K :=
  m 4 * f i z + m 3 * f i (dn nz z) + m 5 * f i (up nz z) + m 1 * f (i - 1) z + m 7 * f (i + 1) z
    + m 0 * f (i - 1) (dn nz z) + m 2 * f (i - 1) (up nz z) + m 6 * f (i + 1) (dn nz z)
    + m 8 * f (i + 1) (up nz z)

omit [LinearOrder K] in
/-- Eliminating the guards changes nothing: the defect of the reduced system is the defect of the
returned field. -/
theorem eliminate (hf : Fixed c.dim x) (bin x0 : Nat → Nat → K) (hx : 0 < c.nx) (hz : 0 < c.nz)
    (p i k : Nat) (hp : p < c.np) (h1 : 1 ≤ i) (h2 : i ≤ c.nx) (h3 : 1 ≤ k) (h4 : k ≤ c.nz) :
    fineRhs c bin x0 p i k - row (fineMat c) x p i k
      = bin (p * c.nx + i) (k - 1)
        - wide (baseMat c p i k) c.nz (result c x0 x) (p * c.nx + i) (k - 1) := by
  have c0 := value_in hf x0 hx hz p i k hp h1 h2 (by omega)
  have c1 := value_in hf x0 hx hz p i (k - 1) hp h1 h2 (by omega)
  have c2 := value_in hf x0 hx hz p i (k + 1) hp h1 h2 (by omega)
  rw [zOf_self h3 h4] at c0
  rw [zOf_prev h3 h4] at c1
  rw [zOf_next h3 h4] at c2
  unfold row off wide fineRhs fineMat Cfg.gi
  generalize hm : baseMat c p i k = m
  simp only [c0, c1, c2]
  rw [zOf_self h3 h4, zOf_prev h3 h4, zOf_next h3 h4]
  by_cases hfirst : p = 0 ∧ i = 1
  · have gl : ∀ z, result c x0 x (p * c.nx + i - 1) z
        = (if c.inn.grad then result c x0 x (p * c.nx + i) z
          else -result c x0 x (p * c.nx + i) z) + ghostIn c x0 z := by
      intro z
      rw [hfirst.1, hfirst.2, Nat.zero_mul, Nat.zero_add]
      exact guard_in x0 hx (by omega) z
    simp only [gl]
    by_cases hlast : p + 1 = c.np ∧ i = c.nx
    · have gh : ∀ z, result c x0 x (p * c.nx + i + 1) z
          = (if c.out.grad then result c x0 x (p * c.nx + i) z
            else -result c x0 x (p * c.nx + i) z) + ghostOut c x0 z := by
        intro z
        have e : p * c.nx + i = c.np * c.nx := by
          rw [hlast.2, ← hlast.1, Nat.add_mul, Nat.one_mul]
        rw [e]
        exact guard_out x0 hx (by omega) z
      simp only [gh, if_pos hfirst, if_pos hlast, innerRow, outerRow]
      cases c.inn.grad <;> cases c.out.grad <;> simp <;> ring
    · have d0 := value_hi hf x0 hx hz p i k hp h1 h2 (by omega) hlast
      have d1 := value_hi hf x0 hx hz p i (k - 1) hp h1 h2 (by omega) hlast
      have d2 := value_hi hf x0 hx hz p i (k + 1) hp h1 h2 (by omega) hlast
      rw [zOf_self h3 h4] at d0
      rw [zOf_prev h3 h4] at d1
      rw [zOf_next h3 h4] at d2
      simp only [d0, d1, d2, if_pos hfirst, if_neg hlast, innerRow]
      cases c.inn.grad <;> simp <;> ring
  · have e0 := value_lo hf x0 hx hz p i k hp h1 h2 (by omega) hfirst
    have e1 := value_lo hf x0 hx hz p i (k - 1) hp h1 h2 (by omega) hfirst
    have e2 := value_lo hf x0 hx hz p i (k + 1) hp h1 h2 (by omega) hfirst
    rw [zOf_self h3 h4] at e0
    rw [zOf_prev h3 h4] at e1
    rw [zOf_next h3 h4] at e2
    by_cases hlast : p + 1 = c.np ∧ i = c.nx
    · have gh : ∀ z, result c x0 x (p * c.nx + i + 1) z
          = (if c.out.grad then result c x0 x (p * c.nx + i) z
            else -result c x0 x (p * c.nx + i) z) + ghostOut c x0 z := by
        intro z
        have e : p * c.nx + i = c.np * c.nx := by
          rw [hlast.2, ← hlast.1, Nat.add_mul, Nat.one_mul]
        rw [e]
        exact guard_out x0 hx (by omega) z
      simp only [gh, e0, e1, e2, if_neg hfirst, if_pos hlast, outerRow]
      cases c.out.grad <;> simp <;> ring
    · have d0 := value_hi hf x0 hx hz p i k hp h1 h2 (by omega) hlast
      have d1 := value_hi hf x0 hx hz p i (k - 1) hp h1 h2 (by omega) hlast
      have d2 := value_hi hf x0 hx hz p i (k + 1) hp h1 h2 (by omega) hlast
      rw [zOf_self h3 h4] at d0
      rw [zOf_prev h3 h4] at d1
      rw [zOf_next h3 h4] at d2
      simp only [d0, d1, d2, e0, e1, e2, if_neg hfirst, if_neg hlast]
      ring

variable [IsStrictOrderedRing K]

/-- On a uniform grid the nine entries are the operator. -/
theorem wide_op (hu : c.nonuniform = false) (f : Nat → Nat → K) (p i k : Nat) :
    wide (baseMat c p i k) c.nz f (p * c.nx + i) (k - 1)
      = op c.coef c.nz c.nonuniform f (p * c.nx + i) (k - 1) := by
  unfold wide op baseMat Cfg.gi d2dx2 d2dz2 d2dxdz Spec.ddx Spec.ddz up dn
  simp only [hu]
  simp only [Bool.false_eq_true, if_false]
  ring

omit [LinearOrder K] [IsStrictOrderedRing K] in
theorem sum_split (np nx : Nat) (F : Nat → K) :
    ∑ i ∈ range (np * nx), F i = ∑ p ∈ range np, ∑ i ∈ range nx, F (p * nx + i) := by
  induction np with
  | zero => simp
  | succ n ih =>
    rw [Nat.add_mul, Nat.one_mul, Finset.sum_range_add, ih, Finset.sum_range_succ]

theorem residual_cell (d : Dim) (A : Mat K) (x b : Vec K) (p i k : Nat) (h1 : i < d.nx)
    (h2 : k < d.nz) :
    residualVec d A x b p (i + 1) (k + 1) = b p (i + 1) (k + 1) - row A x p (i + 1) (k + 1) := by
  unfold residualVec
  rw [comm_inside d _ _ _ _ (by omega) (by omega) (by omega) (by omega)]
  exact if_pos (by simp [Dim.inside]; omega)

/-- The error of the returned field is the norm of the residual of the reduced system. -/
theorem err_eq (hu : c.nonuniform = false) (hf : Fixed c.dim x) (bin x0 : Nat → Nat → K)
    (hx : 0 < c.nx) (hz : 0 < c.nz) :
    Spec.err c bin (result c x0 x)
      = c.par.sqrt (vectorProd c.dim (residualVec c.dim (fineMat c) x (fineRhs c bin x0))
          (residualVec c.dim (fineMat c) x (fineRhs c bin x0))) := by
  unfold Spec.err
  congr 1
  rw [sum_split]
  unfold vectorProd
  refine Finset.sum_congr rfl fun p hp => Finset.sum_congr rfl fun i hi =>
    Finset.sum_congr rfl fun k hk => ?_
  have hp' := Finset.mem_range.mp hp
  have hi' : i < c.nx := Finset.mem_range.mp hi
  have hk' : k < c.nz := Finset.mem_range.mp hk
  rw [residual_cell c.dim _ _ _ p i k hi' hk']
  have h := eliminate hf bin x0 hx hz p (i + 1) (k + 1) hp' (by omega) (by omega) (by omega)
    (by omega)
  rw [wide_op hu] at h
  rw [h]
  simp only [Nat.add_sub_cancel, Nat.add_assoc]

omit [IsStrictOrderedRing K] [LinearOrder K] in
theorem two_mul_half [CharZero K] (a : K) : a * 2 / 2 = a := by
  field_simp

/-- The boundary conditions of the returned field. -/
theorem result_bcs (hx : 0 < c.nx) (hp : 0 < c.np)
    (hs : c.out.grad = true → c.out.set = c.inn.set) (x0 : Nat → Nat → K) :
    BCs c x0 (result c x0 x) := by
  intro z _
  constructor
  · unfold InnerBC
    rw [guard_in x0 hx hp z]
    unfold ghostIn
    cases c.inn.grad <;> cases c.inn.set <;> simp <;> ring
  · unfold OuterBC
    rw [guard_out x0 hx hp z]
    unfold ghostOut
    cases hg : c.out.grad
    · cases c.out.set <;> simp <;> ring
    · rw [hs hg]
      cases c.inn.set <;> simp <;> ring

omit [IsStrictOrderedRing K] in
theorem row_zero (A : Mat K) (p i k : Nat) : row A (fun _ _ _ => (0 : K)) p i k = 0 := by
  simp [row, off]

omit [IsStrictOrderedRing K] in
/-- The operator only looks at the grid. -/
theorem op_congr (co : Coef K) (nz n : Nat) (non : Bool) (f g : Nat → Nat → K)
    (h : ∀ i z, i ≤ n + 1 → z < nz → f i z = g i z) (i z : Nat) (hi : i < n) (hz : z < nz) :
    op co nz non f (i + 1) z = op co nz non g (i + 1) z := by
  have hu : up nz z < nz := Nat.mod_lt _ (by omega)
  have hd : dn nz z < nz := Nat.mod_lt _ (by omega)
  have e : i + 1 - 1 = i := by omega
  unfold op d2dx2 d2dz2 d2dxdz Spec.ddx Spec.ddz
  simp only [e]
  rw [h (i + 1) z (by omega) hz, h (i + 1 + 1) z (by omega) hz, h i z (by omega) hz,
    h (i + 1) _ (by omega) hu, h (i + 1) _ (by omega) hd, h (i + 1 + 1) _ (by omega) hu,
    h (i + 1 + 1) _ (by omega) hd, h i _ (by omega) hu, h i _ (by omega) hd]

/-- A field which is zero inside and meets the boundary conditions is the returned field of the
zero vector. -/
theorem zero_field (hx : 0 < c.nx) (hp : 0 < c.np)
    (hs : c.out.grad = true → c.out.set = c.inn.set) (x0 f : Nat → Nat → K)
    (hin : ∀ i z, 1 ≤ i → i ≤ c.np * c.nx → z < c.nz → f i z = 0) (hb : BCs c x0 f) :
    ∀ i z, i ≤ c.np * c.nx + 1 → z < c.nz → f i z = result c x0 (fun _ _ _ => 0) i z := by
  intro i z hi hz
  have hn : 0 < c.np * c.nx := Nat.mul_pos hp hx
  obtain ⟨b1, b2⟩ := hb z hz
  by_cases i0 : i = 0
  · subst i0
    unfold InnerBC at b1
    rw [hin 1 z (Nat.le_refl _) hn hz] at b1
    unfold result
    simp only [if_pos]
    revert b1
    cases c.inn.grad <;> cases c.inn.set <;> simp <;> intro b1
    · linear_combination 2 * b1
    · linear_combination -b1
  · by_cases i1 : i = c.np * c.nx + 1
    · subst i1
      unfold OuterBC at b2
      rw [hin _ z hn (Nat.le_refl _) hz] at b2
      unfold result
      simp only
      rw [if_neg i0, if_pos trivial]
      revert b2
      cases hg : c.out.grad
      · cases c.out.set <;> simp <;> intro b2
        linear_combination 2 * b2
      · rw [hs hg]
        cases c.inn.set <;> simp <;> intro b2
        linear_combination b2
    · rw [hin i z (by omega) (by omega) hz]
      unfold result
      simp only
      rw [if_neg i0, if_neg i1]

/-! ## The levels -/

theorem availGo_spec (m : Nat) : ∀ (n nn : Nat), 1 ≤ n → n ≤ m →
    m - n + 1 ≤ availGo m n nn ∧ availGo m n nn ≤ m
      ∧ 2 ^ (availGo m n nn - 1 - (m - n)) ∣ nn := by
  intro n
  induction n with
  | zero => intro nn h; omega
  | succ n ih =>
    intro nn _ hm
    unfold availGo
    split_ifs with h1 h2
    · refine ⟨by omega, by omega, ?_⟩
      have : m - (n + 1) + 1 - 1 - (m - (n + 1)) = 0 := by omega
      rw [this, Nat.pow_zero]
      exact one_dvd _
    · obtain ⟨a1, a2, a3⟩ := ih (nn / 2) (by omega) (by omega)
      refine ⟨by omega, a2, ?_⟩
      have : availGo m n (nn / 2) - 1 - (m - (n + 1))
          = (availGo m n (nn / 2) - 1 - (m - n)) + 1 := by omega
      rw [this, Nat.pow_succ]
      have e : nn = nn / 2 * 2 := by omega
      have key := Nat.mul_dvd_mul a3 (Nat.dvd_refl 2)
      rwa [← e] at key
    · refine ⟨by omega, Nat.le_refl _, ?_⟩
      have : m - 1 - (m - (n + 1)) = 0 := by omega
      rw [this, Nat.pow_zero]
      exact one_dvd _

theorem avail_spec (m nx nz : Nat) :
    1 ≤ avail m nx nz ∧ 2 ^ (avail m nx nz - 1) ∣ nx ∧ 2 ^ (avail m nx nz - 1) ∣ nz := by
  unfold avail
  split_ifs with h
  · simp only
    obtain ⟨a1, a2, a3⟩ := availGo_spec m m nx (by omega) (Nat.le_refl _)
    generalize availGo m m nx = m1 at *
    obtain ⟨b1, b2, b3⟩ := availGo_spec m1 m1 nz (by omega) (Nat.le_refl _)
    rw [Nat.sub_self, Nat.sub_zero] at a3 b3
    exact ⟨by omega, Nat.dvd_trans (Nat.pow_dvd_pow 2 (by omega)) a3, b3⟩
  · exact ⟨Nat.le_refl _, by simp, by simp⟩

theorem serialGo_spec : ∀ (n nn mm kk : Nat),
    kk ≤ serialGo n nn mm kk ∧ 2 ^ (serialGo n nn mm kk - kk) ∣ nn
      ∧ 2 ^ (serialGo n nn mm kk - kk) ∣ mm := by
  intro n
  induction n with
  | zero => intro nn mm kk; simp [serialGo]
  | succ n ih =>
    intro nn mm kk
    unfold serialGo
    split_ifs with h
    · obtain ⟨a1, a2, a3⟩ := ih (nn / 2) (mm / 2) (kk + 1)
      generalize serialGo n (nn / 2) (mm / 2) (kk + 1) = r at *
      have : r - kk = (r - (kk + 1)) + 1 := by omega
      rw [this, Nat.pow_succ]
      have e : nn = nn / 2 * 2 := by omega
      have e' : mm = mm / 2 * 2 := by omega
      refine ⟨by omega, ?_, ?_⟩
      · have key := Nat.mul_dvd_mul a2 (Nat.dvd_refl 2); rwa [← e] at key
      · have key := Nat.mul_dvd_mul a3 (Nat.dvd_refl 2); rwa [← e'] at key
    · simp

theorem div_pos_of_dvd {n j t : Nat} (hn : 0 < n) (hd : 2 ^ t ∣ n) (hj : j ≤ t) :
    0 < n / 2 ^ j :=
  Nat.div_pos (Nat.le_of_dvd hn (Nat.dvd_trans (Nat.pow_dvd_pow 2 hj) hd))
    (Nat.pow_pos (by omega))

omit [IsStrictOrderedRing K] in
theorem hier_pos (hx : 0 < c.nx) (hz : 0 < c.nz) : c.hier.Pos := by
  obtain ⟨_, a2, a3⟩ := avail_spec c.mglevel c.nx c.nz
  intro l hl
  exact ⟨div_pos_of_dvd hx a2 (Nat.sub_le _ _), div_pos_of_dvd hz a3 (Nat.sub_le _ _)⟩

omit [IsStrictOrderedRing K] in
theorem serial_pos (hp : 0 < c.np) (hx : 0 < c.nx) (hz : 0 < c.nz) : c.serial.Pos := by
  obtain ⟨h1, h2⟩ := hier_pos (c := c) hx hz 0 (Nat.zero_le _)
  have hg : 0 < (c.hier.dim 0).np * (c.hier.dim 0).nx := Nat.mul_pos hp h1
  obtain ⟨a1, a2, a3⟩ := serialGo_spec (c.mglevel - c.aclevel)
    ((c.hier.dim 0).np * (c.hier.dim 0).nx) (c.hier.dim 0).nz 1
  intro l hl
  exact ⟨div_pos_of_dvd hg a2 (Nat.sub_le _ _), div_pos_of_dvd h2 a3 (Nat.sub_le _ _)⟩

omit [IsStrictOrderedRing K] in
theorem hier_dim : c.hier.dim c.hier.top = c.dim := by
  simp [Cfg.hier, levelDim, Cfg.dim]

omit [IsStrictOrderedRing K] in
theorem hier_mat : c.hier.mat c.hier.top = fineMat c := by
  simp [Cfg.hier, levelMat]

omit [IsStrictOrderedRing K] in
theorem lowGmres_fixed {h : Hier K} (hp : h.Pos) (arn : Arn K) (x b y : Vec K)
    (e : lowGmres h arn x b = .ok y) : Fixed (h.dim 0) y := by
  refine (pGMRES_spec (g := ⟨h.par, h.dim 0, h.mat 0, _, _, _, _⟩) ?_ e).1
  intro q w hw
  exact smoothings_fixed (hp 0 (Nat.zero_le _)).1 (hp 0 (Nat.zero_le _)).2 hw

omit [IsStrictOrderedRing K] in
theorem low_fixed (hx : 0 < c.nx) (hz : 0 < c.nz) (x b y : Vec K) (e : c.low x b = .ok y) :
    Fixed (c.hier.dim 0) y := by
  unfold Cfg.low at e
  have hp := hier_pos (c := c) hx hz
  split_ifs at e
  · unfold lowSerial at e
    split_ifs at e
    · simp only [bind, Except.bind] at e
      split at e
      · cases e
      · cases e
        exact comm_idem _ (hp 0 (Nat.zero_le _)).1 (hp 0 (Nat.zero_le _)).2 _
  · exact lowGmres_fixed hp _ _ _ _ e

omit [IsStrictOrderedRing K] in
theorem pre_fixed (hx : 0 < c.nx) (hz : 0 < c.nz) (q w : Vec K)
    (e : cycleMG c.hier c.low c.hier.top (fun _ _ _ => 0) q = .ok w) :
    Fixed (c.hier.dim c.hier.top) w :=
  cycle_fixed (hier_pos hx hz) (fun _ _ _ _ e => low_fixed hx hz _ _ _ e) _ (Nat.le_refl _) _ _ _
    (fixed_zero _) e

/-! ## The theorems -/

/-- **C84, the part that holds.**  With the GMRES solver (`solvertype = 1`, the default, or a
single level), on a uniform grid and with `INVERT_SET` given for both boundaries or none when the
outer one is a gradient: whatever the sizes, numbers of processors and levels, the coefficients and
the scalars of the Krylov method, a field returned by `solve` meets both boundary conditions
exactly, and its error is at most `rtol` times the error of the zero field with those boundary
conditions, plus `atol`.  Missing: the plain multigrid iteration, non-uniform grids, mixed `SET`
flags, which violate it (below). -/
theorem C84_solution_partial (hc : Usable c)
    (hplag : c.plag = 1 ∨ c.aclevel = 1) (hu : c.nonuniform = false)
    (hs : c.out.grad = true → c.out.set = c.inn.set)
    (bin x0 f : Nat → Nat → K) (h : solve c bin x0 = .ok f)
    (f0 : Nat → Nat → K) (hin : ∀ i z, 1 ≤ i → i ≤ c.np * c.nx → z < c.nz → f0 i z = 0)
    (hb : BCs c x0 f0) :
    BCs c x0 f ∧ Spec.err c bin f ≤ c.par.rtol * Spec.err c bin f0 + c.par.atol := by
  have hnx := hc.nx
  have hnz := hc.nz
  unfold solve at h
  simp only [bind, Except.bind] at h
  split at h
  · cases h
  · rename_i x hx
    cases h
    refine ⟨result_bcs hnx hc.np hs x0, ?_⟩
    have e0 : Spec.err c bin f0
        = c.par.sqrt (vectorProd c.dim (fineRhs c bin x0) (fineRhs c bin x0)) := by
      have hz := zero_field hnx hc.np hs x0 f0 hin hb
      have : Spec.err c bin f0 = Spec.err c bin (result c x0 fun _ _ _ => 0) := by
        unfold Spec.err
        congr 1
        refine Finset.sum_congr rfl fun i hi => Finset.sum_congr rfl fun z hz' => ?_
        rw [op_congr c.coef c.nz (c.np * c.nx) _ _ _ hz i z (Finset.mem_range.mp hi)
          (Finset.mem_range.mp hz')]
      rw [this, err_eq hu (fixed_zero _) bin x0 hnx hnz]
      congr 1
      unfold vectorProd
      refine Finset.sum_congr rfl fun p _ => Finset.sum_congr rfl fun i hi =>
        Finset.sum_congr rfl fun k hk => ?_
      rw [residual_cell c.dim _ _ _ p i k (Finset.mem_range.mp hi) (Finset.mem_range.mp hk),
        row_zero, sub_zero]
    unfold getSolution at hx
    have htop : c.hier.top = 0 ∨ c.plag = 1 := by
      rcases hplag with h | h
      · exact Or.inr h
      · left; show c.aclevel - 1 = 0; omega
    rw [if_pos htop] at hx
    obtain ⟨hf, hr⟩ := pGMRES_spec (fun q w e => pre_fixed hnx hnz q w e) hx
    simp only at hf hr
    rw [hier_dim, hier_mat] at hr
    rw [hier_dim] at hf
    rw [e0, err_eq hu hf bin x0 hnx hnz]
    rcases hr trivial with hr | ⟨hx0, hsm⟩
    · exact hr
    · have e1 := err_eq (x := x) hu hf bin x0 hnx hnz
      have e2 : Spec.err c bin (result c x0 x) = Spec.err c bin f0 := by
        rw [hx0]
        unfold Spec.err
        congr 1
        refine Finset.sum_congr rfl fun i hi => Finset.sum_congr rfl fun z hz' => ?_
        rw [op_congr c.coef c.nz (c.np * c.nx) _ f0 _ (zero_field hnx hc.np hs x0 f0 hin hb) i z
          (Finset.mem_range.mp hi) (Finset.mem_range.mp hz')]
      rw [← e1, e2, e0]
      have hsm' : c.par.sqrt (vectorProd c.dim (fineRhs c bin x0) (fineRhs c bin x0))
          < c.par.atol * c.par.rtol := hsm
      have s0 := hc.sqrt (vectorProd c.dim (fineRhs c bin x0) (fineRhs c bin x0))
      have r0 := hc.rtol
      have m1 : c.par.atol * c.par.rtol ≤ c.par.atol := mul_le_of_le_one_right hc.atol hc.rtol1
      have m2 := mul_nonneg r0 s0
      linarith

/-! ### The plain iteration -/

/-- `m` corrections by multigrid cycles, each computed from the defect left by the one before. -/
inductive Corrected (h : Hier K) (low : Vec K → Vec K → Out (Vec K)) (rhs : Vec K) :
    Nat → Vec K → Vec K → Prop
  | zero : Corrected h low rhs 0 (fun _ _ _ => 0) rhs
  | succ {m : Nat} {x r y : Vec K} : Corrected h low rhs m x r →
      cycleMG h low h.top (fun _ _ _ => 0) r = .ok y →
      Corrected h low rhs (m + 1) (fun p i k => x p i k + y p i k)
        (residualVec (h.dim h.top) (h.mat h.top) (fun p i k => x p i k + y p i k) rhs)

omit [IsStrictOrderedRing K] in
theorem mgLoop_spec {h : Hier K} {low : Vec K → Vec K → Out (Vec K)} {rhs : Vec K} {ini : K}
    (hfix : ∀ q w, cycleMG h low h.top (fun _ _ _ => 0) q = .ok w → Fixed (h.dim h.top) w) :
    ∀ (n : Nat) (m : Nat) (sol r : Vec K) (pe : K) (x : Vec K), Corrected h low rhs m sol r →
      Fixed (h.dim h.top) sol → mgLoop h low rhs ini n sol r pe = .ok x →
      Fixed (h.dim h.top) x ∧ ∃ m' r', Corrected h low rhs m' x r' ∧ m' ≤ m + n ∧
        (m' = m + n ∨ h.par.sqrt (vectorProd (h.dim h.top)
            (residualVec (h.dim h.top) (h.mat h.top) x rhs)
            (residualVec (h.dim h.top) (h.mat h.top) x rhs)) < h.par.rtol * ini + h.par.atol) := by
  intro n
  induction n with
  | zero =>
    intro m sol r pe x hc hf e
    cases e
    exact ⟨hf, m, r, hc, Nat.le_refl _, Or.inl rfl⟩
  | succ n ih =>
    intro m sol r pe x hc hf e
    rw [mgLoop] at e
    simp only [bind, Except.bind] at e
    split at e
    · cases e
    · rename_i y hy
      have hc' := Corrected.succ hc hy
      have hf' : Fixed (h.dim h.top) (fun p i k => sol p i k + y p i k) := fixed_add hf (hfix _ _ hy)
      split_ifs at e with h1 h2
      · cases e
        exact ⟨hf', m + 1, _, hc', by omega, Or.inr h1⟩
      · obtain ⟨a, m', r', b, c1, d⟩ := ih (m + 1) _ _ _ x hc' hf' e
        exact ⟨a, m', r', b, by omega, by
          rcases d with d | d
          · exact Or.inl (by omega)
          · exact Or.inr d⟩

/-- **C84, the plain iteration.**  With `solvertype = 0` and more than one level, a field returned
meets both boundary conditions exactly, and its error is within the tolerance unless it is what 150
cycles made of zero, in which case nothing is said (`C84_limit_violated`). -/
theorem C84_plain_partial (hc : Usable c) (hplag : c.plag ≠ 1) (hlev : 1 < c.aclevel)
    (hu : c.nonuniform = false) (hs : c.out.grad = true → c.out.set = c.inn.set)
    (bin x0 f : Nat → Nat → K) (h : solve c bin x0 = .ok f)
    (f0 : Nat → Nat → K) (hin : ∀ i z, 1 ≤ i → i ≤ c.np * c.nx → z < c.nz → f0 i z = 0)
    (hb : BCs c x0 f0) :
    BCs c x0 f ∧ (Spec.err c bin f < c.par.rtol * Spec.err c bin f0 + c.par.atol
      ∨ ∃ x r, f = result c x0 x ∧ Corrected c.hier c.low (fineRhs c bin x0) 150 x r) := by
  have hnx := hc.nx
  have hnz := hc.nz
  unfold solve at h
  simp only [bind, Except.bind] at h
  split at h
  · cases h
  · rename_i x hx
    cases h
    refine ⟨result_bcs hnx hc.np hs x0, ?_⟩
    have e0 : Spec.err c bin f0
        = c.par.sqrt (vectorProd c.dim (fineRhs c bin x0) (fineRhs c bin x0)) := by
      have hz := zero_field hnx hc.np hs x0 f0 hin hb
      have : Spec.err c bin f0 = Spec.err c bin (result c x0 fun _ _ _ => 0) := by
        unfold Spec.err
        congr 1
        refine Finset.sum_congr rfl fun i hi => Finset.sum_congr rfl fun z hz' => ?_
        rw [op_congr c.coef c.nz (c.np * c.nx) _ _ _ hz i z (Finset.mem_range.mp hi)
          (Finset.mem_range.mp hz')]
      rw [this, err_eq hu (fixed_zero _) bin x0 hnx hnz]
      congr 1
      unfold vectorProd
      refine Finset.sum_congr rfl fun p _ => Finset.sum_congr rfl fun i hi =>
        Finset.sum_congr rfl fun k hk => ?_
      rw [residual_cell c.dim _ _ _ p i k (Finset.mem_range.mp hi) (Finset.mem_range.mp hk),
        row_zero, sub_zero]
    unfold getSolution at hx
    have htop : ¬ (c.hier.top = 0 ∨ c.plag = 1) := by
      rintro (h | h)
      · have : c.aclevel - 1 = 0 := h
        omega
      · exact hplag h
    rw [if_neg htop] at hx
    unfold solveMG at hx
    obtain ⟨hf, m, r, hcor, hm, hd⟩ := mgLoop_spec (fun q w e => pre_fixed hnx hnz q w e) 150 0 _ _ _ x
      .zero (fixed_zero _) hx
    rcases hd with hd | hd
    · rw [hd] at hcor
      exact Or.inr ⟨x, r, rfl, hcor⟩
    · rw [hier_dim, hier_mat] at hd
      rw [hier_dim] at hf
      left
      rw [e0, err_eq hu hf bin x0 hnx hnz]
      exact hd

/-! ### Every call ends -/

omit [IsStrictOrderedRing K] in
theorem smoothings_ends (s : Par K) (d : Dim) (A : Mat K) (x b : Vec K) :
    smoothings s d A x b ≠ .error (.ub "runaway") := by
  unfold smoothings
  split_ifs <;> intro h <;> cases h

omit [IsStrictOrderedRing K] in
theorem cycle_ends {h : Hier K} {low : Vec K → Vec K → Out (Vec K)}
    (hl : ∀ x b, low x b ≠ .error (.ub "runaway")) :
    ∀ (l : Nat) (x b : Vec K), cycleMG h low l x b ≠ .error (.ub "runaway") := by
  intro l
  induction l with
  | zero => intro x b; exact hl x b
  | succ l ih =>
    intro x b h1
    simp only [cycleMG, bind, Except.bind] at h1
    split at h1
    · rename_i e he; cases h1; exact smoothings_ends _ _ _ _ _ he
    · split at h1
      · rename_i e he; cases h1; exact ih _ _ he
      · exact smoothings_ends _ _ _ _ _ h1

omit [IsStrictOrderedRing K] in
theorem lowGmres_ends {h : Hier K} (hp : h.Pos) (arn : Arn K) (x b : Vec K) :
    lowGmres h arn x b ≠ .error (.ub "runaway") := by
  refine pGMRES_ends (g := ⟨h.par, h.dim 0, h.mat 0, _, _, _, _⟩) b ?_ ?_
  · intro q w hw
    exact smoothings_fixed (hp 0 (Nat.zero_le _)).1 (hp 0 (Nat.zero_le _)).2 hw
  · intro q
    exact smoothings_ends _ _ _ _ _

omit [IsStrictOrderedRing K] in
theorem low_ends (hp : 0 < c.np) (hx : 0 < c.nx) (hz : 0 < c.nz) (x b : Vec K) :
    c.low x b ≠ .error (.ub "runaway") := by
  unfold Cfg.low
  split_ifs
  · unfold lowSerial
    split_ifs
    · intro e
      simp only [bind, Except.bind] at e
      split at e
      · rename_i er he; cases e
        exact cycle_ends (fun _ _ => lowGmres_ends (serial_pos hp hx hz) _ _ _) _ _ _ he
      · cases e
    · intro e; injection e with e; injection e with e; exact absurd e (by decide)
  · exact lowGmres_ends (hier_pos hx hz) _ _ _

omit [IsStrictOrderedRing K] in
theorem mgLoop_ends {h : Hier K} {low : Vec K → Vec K → Out (Vec K)}
    (hl : ∀ x b, low x b ≠ .error (.ub "runaway")) (rhs : Vec K) (ini : K) :
    ∀ (n : Nat) (sol r : Vec K) (pe : K), mgLoop h low rhs ini n sol r pe ≠ .error (.ub "runaway") := by
  intro n
  induction n with
  | zero => intro sol r pe e; cases e
  | succ n ih =>
    intro sol r pe e
    rw [mgLoop] at e
    simp only [bind, Except.bind] at e
    split at e
    · rename_i er he; cases e; exact cycle_ends hl _ _ _ he
    · split_ifs at e
      · cases e
      · exact ih _ _ _ e

omit [IsStrictOrderedRing K] in
/-- Every call of `solve` ends, for any sizes, coefficients and scalars of the Krylov method: the
restarts of GMRES, on every level, are used up before the bound of the model is reached, although
the counter is set back after a slow iteration on a coarse level. -/
theorem C84_ends (hp : 0 < c.np) (hx : 0 < c.nx) (hz : 0 < c.nz) (bin x0 : Nat → Nat → K) :
    solve c bin x0 ≠ .error (.ub "runaway") := by
  intro h
  unfold solve at h
  simp only [bind, Except.bind] at h
  split at h
  · rename_i e he
    cases h
    unfold getSolution at he
    split_ifs at he
    · exact pGMRES_ends _ (fun q w e => pre_fixed hx hz q w e)
        (fun q => cycle_ends (fun _ _ => low_ends hp hx hz _ _) _ _ _) he
    · exact pGMRES_ends _ (fun q w e => pre_fixed hx hz q w e)
        (fun q => cycle_ends (fun _ _ => low_ends hp hx hz _ _) _ _ _) he
    · exact mgLoop_ends (fun _ _ => low_ends hp hx hz _ _) _ _ _ _ _ _ he
  · cases h

end Verif.MG
