import Verif.Num.Interp
import Mathlib.Tactic.Ring
import Mathlib.Tactic.Linarith
import Mathlib.Tactic.FieldSimp
import Mathlib.Tactic.Positivity
import Mathlib.Tactic.NormNum
import Mathlib.Tactic.SplitIfs
import Mathlib.Tactic.LinearCombination

/-!
# C49: interpolation reproduces polynomials, respects bounds and stays inside the grid
-/

namespace Verif.Num.Interp

open Verif

variable {K : Type} [Field K] [LinearOrder K] [IsStrictOrderedRing K] [FloorRing K]

/-! ### Specification -/

/-- A cubic with coefficients `a0 … a3`. -/
def cub (a : Fin 4 → K) (x : K) : K := a 0 + a 1 * x + a 2 * x ^ 2 + a 3 * x ^ 3
/-- Its derivative. -/
def dcub (a : Fin 4 → K) (x : K) : K := a 1 + 2 * a 2 * x + 3 * a 3 * x ^ 2
/-- A polynomial in two variables, cubic in each: the coefficient of `x^i z^j` is `c j i`. -/
def poly (c : Fin 4 → Fin 4 → K) (x z : K) : K := cub (fun j => cub (c j) x) z

/-- Degree at most 2 in each variable. -/
def Quadratic (c : Fin 4 → Fin 4 → K) : Prop := ∀ i, c 3 i = 0 ∧ c i 3 = 0
/-- Degree at most 1 in each variable. -/
def Linear (c : Fin 4 → Fin 4 → K) : Prop := ∀ i, c 3 i = 0 ∧ c i 3 = 0 ∧ c 2 i = 0 ∧ c i 2 = 0

/-- The field agrees with the polynomial at the grid points `(i + a, k + b)`,
`lo ≤ a, b ≤ hi`; `Z` is periodic with period `ncz`. -/
def Agrees (ncz : Int) (f : Int → Int → K) (c : Fin 4 → Fin 4 → K) (i k lo hi : Int) : Prop :=
  ∀ a b : Int, lo ≤ a → a ≤ hi → lo ≤ b → b ≤ hi →
    f (i + a) ((k + b) % ncz) = poly c (((i + a : Int) : K)) (((k + b : Int) : K))

/-! ### Indices -/

theorem wrap_eq {n : Int} (hn : 0 < n) (k : Int) : wrap n k = k % n := by
  unfold wrap
  have h1 : 0 ≤ k.tmod n + n := by
    have := Int.lt_tmod_of_pos k hn; omega
  rw [Int.tmod_eq_emod_of_nonneg h1]
  rw [Int.add_emod_right]
  rcases le_or_gt 0 k with h | h
  · rw [Int.tmod_eq_emod_of_nonneg h, Int.emod_emod_of_dvd _ (dvd_refl n)]
  · have := Int.tmod_add_mul_tdiv k n
    have e : k.tmod n = k + n * (-(k.tdiv n)) := by rw [Int.mul_neg]; omega
    rw [e, Int.add_mul_emod_self_left]

theorem tmod_next {n : Int} (hn : 0 < n) (k b : Int) (hb : 0 ≤ b) :
    (k % n + b).tmod n = (k + b) % n := by
  have h0 := Int.emod_nonneg k (by omega : n ≠ 0)
  rw [Int.tmod_eq_emod_of_nonneg (by omega)]
  rw [Int.emod_add_emod]

theorem tmod_prev {n : Int} (hn : 0 < n) (k : Int) :
    (k % n - 1 + n).tmod n = (k + -1) % n := by
  have h0 := Int.emod_nonneg k (by omega : n ≠ 0)
  rw [Int.tmod_eq_emod_of_nonneg (by omega)]
  have : k % n - 1 + n = (k % n + -1) + n := by ring
  rw [this, Int.add_emod_right, Int.emod_add_emod]

theorem at?_ok (g : Grid) (f : Int → Int → K) (x z : Int) (h0 : 0 ≤ x) (h1 : x < g.LocalNx) :
    at? g f x z = .ok (f x z) := by unfold at?; exact if_pos ⟨h0, h1⟩

theorem checkRange_ok (c : Corner K) (h1 : 0 ≤ c.tx) (h2 : c.tx ≤ 1) (h3 : 0 ≤ c.tz) (h4 : c.tz ≤ 1) :
    checkRange c = .ok c := by
  unfold checkRange
  rw [if_neg (by push Not; exact ⟨h1, h2⟩), if_neg (by push Not; exact ⟨h3, h4⟩)]

theorem frac0 (x : K) : 0 ≤ x - (⌊x⌋ : Int) := sub_nonneg.2 (Int.floor_le x)
theorem frac1 (x : K) : x - (⌊x⌋ : Int) ≤ 1 := by
  have := Int.lt_floor_add_one x; linarith

/-! ### One dimension -/

/-- Four-point Lagrange interpolation reproduces cubics. -/
theorem lagrange4_cub (a : Fin 4 → K) (x t : K) :
    lagrange4 (cub a (x + -1)) (cub a x) (cub a (x + 1)) (cub a (x + 2)) t = cub a (x + t) := by
  unfold lagrange4 cub
  field_simp
  ring

/-- Hermite interpolation reproduces cubics given their derivatives. -/
theorem hermite4_cub (a : Fin 4 → K) (x t : K) :
    hermite4 (cub a x) (cub a (x + 1)) (dcub a x) (dcub a (x + 1)) t = cub a (x + t) := by
  unfold hermite4 cub dcub h00 h01 h10 h11
  ring

theorem poly_swap (c : Fin 4 → Fin 4 → K) (x z : K) :
    poly c x z = cub (fun i => cub (fun j => c j i) z) x := by
  unfold poly cub; ring

/-! ### Bilinear -/

theorem interpBilinear_eq (g : Grid) (hz : 0 < g.ncz) (f : Int → Int → K) (dx dz : K)
    (h0 : 0 ≤ ⌊dx⌋) (h1 : ⌊dx⌋ + 1 < g.LocalNx) :
    interpBilinear g f dx dz = .ok (
      f ⌊dx⌋ (⌊dz⌋ % g.ncz) * ((1 - (dx - (⌊dx⌋ : Int))) * (1 - (dz - (⌊dz⌋ : Int))))
      + f (⌊dx⌋ + 1) (⌊dz⌋ % g.ncz) * ((dx - (⌊dx⌋ : Int)) * (1 - (dz - (⌊dz⌋ : Int))))
      + f ⌊dx⌋ ((⌊dz⌋ + 1) % g.ncz) * ((1 - (dx - (⌊dx⌋ : Int))) * (dz - (⌊dz⌋ : Int)))
      + f (⌊dx⌋ + 1) ((⌊dz⌋ + 1) % g.ncz) * ((dx - (⌊dx⌋ : Int)) * (dz - (⌊dz⌋ : Int)))) := by
  unfold interpBilinear cornerBilinear
  rw [checkRange_ok _ (frac0 dx) (frac1 dx) (frac0 dz) (frac1 dz)]
  show bilinear g f _ = _
  unfold bilinear
  simp only [bind, Except.bind, wrap_eq hz, tmod_next hz _ 1 (by omega)]
  rw [at?_ok _ _ _ _ h0 (by omega), at?_ok _ _ _ _ (by omega) h1, at?_ok _ _ _ _ h0 (by omega),
    at?_ok _ _ _ _ (by omega) h1]
  rfl

/-- **C49.** Bilinear interpolation at any position between the first and the last column
reproduces a bilinear function exactly, across the periodic Z boundary too. -/
theorem C49_bilinear_exact (g : Grid) (hz : 0 < g.ncz) (f : Int → Int → K) (c : Fin 4 → Fin 4 → K)
    (hc : Linear c) (dx dz : K) (h0 : 0 ≤ dx) (h1 : dx < ((g.LocalNx - 1 : Int) : K))
    (hf : Agrees g.ncz f c ⌊dx⌋ ⌊dz⌋ 0 1) :
    interpBilinear g f dx dz = .ok (poly c dx dz) := by
  have i0 : 0 ≤ ⌊dx⌋ := Int.floor_nonneg.2 h0
  have i1 : ⌊dx⌋ < g.LocalNx - 1 := Int.floor_lt.2 h1
  rw [interpBilinear_eq g hz f dx dz i0 (by omega)]
  congr 1
  have e00 := hf 0 0 (by omega) (by omega) (by omega) (by omega)
  have e10 := hf 1 0 (by omega) (by omega) (by omega) (by omega)
  have e01 := hf 0 1 (by omega) (by omega) (by omega) (by omega)
  have e11 := hf 1 1 (by omega) (by omega) (by omega) (by omega)
  simp only [add_zero] at e00 e10 e01
  rw [e00, e10, e01, e11]
  push_cast
  generalize ((⌊dx⌋ : Int) : K) = X
  generalize ((⌊dz⌋ : Int) : K) = Z
  have q3 := fun i => (hc i).1
  have r3 := fun i => (hc i).2.1
  have q2 := fun i => (hc i).2.2.1
  have r2 := fun i => (hc i).2.2.2
  unfold poly cub
  simp only [q3, r3, q2, r2]
  ring

/-- A convex combination with bilinear weights lies between the bounds of its values. -/
theorem convex4 (a b c d s t lo hi : K) (s0 : 0 ≤ s) (s1 : s ≤ 1) (t0 : 0 ≤ t) (t1 : t ≤ 1)
    (la : lo ≤ a) (lb : lo ≤ b) (lc : lo ≤ c) (ld : lo ≤ d)
    (ha : a ≤ hi) (hb : b ≤ hi) (hc : c ≤ hi) (hd : d ≤ hi) :
    lo ≤ a * ((1 - s) * (1 - t)) + b * (s * (1 - t)) + c * ((1 - s) * t) + d * (s * t) ∧
    a * ((1 - s) * (1 - t)) + b * (s * (1 - t)) + c * ((1 - s) * t) + d * (s * t) ≤ hi := by
  have w0 : 0 ≤ (1 - s) * (1 - t) := mul_nonneg (by linarith) (by linarith)
  have w1 : 0 ≤ s * (1 - t) := mul_nonneg s0 (by linarith)
  have w2 : 0 ≤ (1 - s) * t := mul_nonneg (by linarith) t0
  have w3 : 0 ≤ s * t := mul_nonneg s0 t0
  constructor
  · have := mul_nonneg (sub_nonneg.2 la) w0
    have := mul_nonneg (sub_nonneg.2 lb) w1
    have := mul_nonneg (sub_nonneg.2 lc) w2
    have := mul_nonneg (sub_nonneg.2 ld) w3
    nlinarith
  · have := mul_nonneg (sub_nonneg.2 ha) w0
    have := mul_nonneg (sub_nonneg.2 hb) w1
    have := mul_nonneg (sub_nonneg.2 hc) w2
    have := mul_nonneg (sub_nonneg.2 hd) w3
    nlinarith

/-- **C49.** Bilinear interpolation never leaves the range of the four surrounding values. -/
theorem C49_bilinear_bounded (g : Grid) (hz : 0 < g.ncz) (f : Int → Int → K) (dx dz lo hi : K)
    (h0 : 0 ≤ dx) (h1 : dx < ((g.LocalNx - 1 : Int) : K))
    (hf : ∀ a b : Int, 0 ≤ a → a ≤ 1 → 0 ≤ b → b ≤ 1 →
      lo ≤ f (⌊dx⌋ + a) ((⌊dz⌋ + b) % g.ncz) ∧ f (⌊dx⌋ + a) ((⌊dz⌋ + b) % g.ncz) ≤ hi) :
    ∃ r, interpBilinear g f dx dz = .ok r ∧ lo ≤ r ∧ r ≤ hi := by
  have i0 : 0 ≤ ⌊dx⌋ := Int.floor_nonneg.2 h0
  have i1 : ⌊dx⌋ < g.LocalNx - 1 := Int.floor_lt.2 h1
  refine ⟨_, interpBilinear_eq g hz f dx dz i0 (by omega), ?_⟩
  have e00 := hf 0 0 (by omega) (by omega) (by omega) (by omega)
  have e10 := hf 1 0 (by omega) (by omega) (by omega) (by omega)
  have e01 := hf 0 1 (by omega) (by omega) (by omega) (by omega)
  have e11 := hf 1 1 (by omega) (by omega) (by omega) (by omega)
  simp only [add_zero] at e00 e10 e01
  exact convex4 _ _ _ _ _ _ lo hi (frac0 dx) (frac1 dx) (frac0 dz) (frac1 dz)
    e00.1 e10.1 e01.1 e11.1 e00.2 e10.2 e01.2 e11.2

/-- **C49 violated (finding).** At the last column exactly – a grid point – bilinear
interpolation reads one column past the end of the array (with weight zero). -/
theorem C49_bilinear_last_column_violated (g : Grid) (hx : 0 < g.LocalNx) (f : Int → Int → K) (dz : K) :
    ∃ msg, interpBilinear g f ((g.LocalNx - 1 : Int) : K) dz = .error (.ub msg) := by
  unfold interpBilinear cornerBilinear
  rw [checkRange_ok _ (frac0 _) (frac1 _) (frac0 dz) (frac1 dz)]
  show ∃ msg, bilinear g f _ = _
  unfold bilinear
  have e : ⌊((g.LocalNx - 1 : Int) : K)⌋ = g.LocalNx - 1 := Int.floor_intCast _
  simp only [bind, Except.bind, e]
  rw [at?_ok _ _ _ _ (by omega) (by omega)]
  unfold at?
  rw [if_neg (by omega)]
  exact ⟨_, rfl⟩

/-! ### Lagrange -/

theorem lagrangeZ_eq (g : Grid) (hz : 0 < g.ncz) (f : Int → Int → K) (x k : Int) (tz : K)
    (h0 : 0 ≤ x) (h1 : x < g.LocalNx) :
    lagrangeZ g f x k tz = .ok (lagrange4 (f x ((k + -1) % g.ncz)) (f x (k % g.ncz))
      (f x ((k + 1) % g.ncz)) (f x ((k + 2) % g.ncz)) tz) := by
  unfold lagrangeZ
  simp only [bind, Except.bind, wrap_eq hz, tmod_next hz _ 1 (by omega), tmod_next hz _ 2 (by omega),
    tmod_prev hz, at?_ok g f x _ h0 h1]
  rfl

theorem lagrange_poly (g : Grid) (hz : 0 < g.ncz) (f : Int → Int → K) (c : Fin 4 → Fin 4 → K)
    (q : Corner K) (h0 : 1 ≤ q.i) (h1 : q.i + 2 < g.LocalNx) (hf : Agrees g.ncz f c q.i q.k (-1) 2) :
    lagrange g f q = .ok (poly c ((q.i : K) + q.tx) ((q.k : K) + q.tz)) := by
  have col : ∀ a : Int, -1 ≤ a → a ≤ 2 → lagrangeZ g f (q.i + a) q.k q.tz =
      .ok (poly c ((q.i : K) + (a : K)) ((q.k : K) + q.tz)) := by
    intro a a0 a1
    rw [lagrangeZ_eq g hz f _ _ _ (by omega) (by omega)]
    have e0 := hf a (-1) a0 a1 (by omega) (by omega)
    have e1 := hf a 0 a0 a1 (by omega) (by omega)
    have e2 := hf a 1 a0 a1 (by omega) (by omega)
    have e3 := hf a 2 a0 a1 (by omega) (by omega)
    rw [add_zero] at e1
    rw [e0, e1, e2, e3]
    congr 1
    have := lagrange4_cub (fun j => cub (c j) (((q.i + a : Int) : K))) (q.k : K) q.tz
    unfold poly
    simp only [Int.cast_add, Int.cast_neg, Int.cast_one, Int.cast_ofNat] at this ⊢
    exact this
  unfold lagrange
  dsimp only
  rw [if_neg (by omega), if_neg (by omega)]
  have c0 := col (-1) (by omega) (by omega)
  have c1 := col 0 (by omega) (by omega)
  have c2 := col 1 (by omega) (by omega)
  have c3 := col 2 (by omega) (by omega)
  have s : q.i + -1 = q.i - 1 := by omega
  rw [s] at c0
  rw [add_zero] at c1
  have s2 : q.i + 2 = q.i + 1 + 1 := by omega
  rw [s2] at c3
  simp only [bind, Except.bind, c0, c1, c2, c3]
  show Except.ok _ = Except.ok _
  congr 1
  have := lagrange4_cub (fun i => cub (fun j => c j i) ((q.k : K) + q.tz)) (q.i : K) q.tx
  simp only [poly_swap, Int.cast_neg, Int.cast_one, Int.cast_ofNat, Int.cast_zero, add_zero]
  exact this

/-- **C49.** Four-point Lagrange interpolation reproduces every polynomial that is cubic in
X and in Z, at every position whose four columns exist, up to the end of the domain. -/
theorem C49_lagrange_exact (g : Grid) (hz : 0 < g.ncz) (f : Int → Int → K) (c : Fin 4 → Fin 4 → K)
    (dx dz : K) (h0 : 1 ≤ dx) (h1 : dx < ((g.LocalNx - 2 : Int) : K))
    (hx : ⌊dx⌋ ≠ g.xend) (hf : Agrees g.ncz f c ⌊dx⌋ ⌊dz⌋ (-1) 2) :
    interpLagrange g f dx dz = .ok (poly c dx dz) := by
  have i0 : 1 ≤ ⌊dx⌋ := Int.le_floor.2 (by exact_mod_cast h0)
  have i1 : ⌊dx⌋ < g.LocalNx - 2 := Int.floor_lt.2 h1
  unfold interpLagrange cornerLagrange
  rw [if_neg hx, checkRange_ok _ (frac0 dx) (frac1 dx) (frac0 dz) (frac1 dz)]
  show lagrange g f _ = _
  rw [lagrange_poly g hz f c _ i0 (by dsimp only; omega) hf]
  dsimp only
  congr 2 <;> ring

/-- **C49.** Also exactly at the last interior column. -/
theorem C49_lagrange_exact_at_end (g : Grid) (hz : 0 < g.ncz) (f : Int → Int → K)
    (c : Fin 4 → Fin 4 → K) (dz : K) (h0 : 2 ≤ g.xend) (h1 : g.xend + 1 < g.LocalNx)
    (hf : Agrees g.ncz f c (g.xend - 1) ⌊dz⌋ (-1) 2) :
    interpLagrange g f (g.xend : K) dz = .ok (poly c (g.xend : K) dz) := by
  unfold interpLagrange cornerLagrange
  rw [Int.floor_intCast, if_pos rfl, checkRange_ok _ (by simp) (by simp) (frac0 dz) (frac1 dz)]
  show lagrange g f _ = _
  rw [lagrange_poly g hz f c _ (by dsimp only; omega) (by dsimp only; omega) hf]
  dsimp only
  push_cast
  congr 2 <;> ring

/-- **C49 violated (finding).** Just past the last interior column, where the guard cells
hold data, Lagrange interpolation returns the value at the last interior column whatever
the position: for the field `f = x` at `x = xend + 1/2` it returns `xend`, while at
`xend + 3/2` it returns `xend + 3/2`. -/
theorem C49_lagrange_past_end_violated :
    let g : Grid := ⟨10, 2, 6, 4⟩
    let f : Int → Int → ℚ := fun x _ => x
    interpLagrange g f (13 / 2) 0 = .ok 6 ∧ interpLagrange g f (15 / 2) 0 = .ok (15 / 2) := by
  constructor
  · have : interpLagrange (⟨10, 2, 6, 4⟩ : Grid) (fun x _ => (x : ℚ)) (13 / 2) 0 = .ok 6 := by
      decide +kernel
    exact this
  · have : interpLagrange (⟨10, 2, 6, 4⟩ : Grid) (fun x _ => (x : ℚ)) (15 / 2) 0 = .ok (15 / 2) := by
      decide +kernel
    exact this

/-! ### Hermite splines -/

/-- The corner used by the Hermite splines when the position is inside the domain. -/
theorem cornerHermite_inside (g : Grid) (hz : 0 < g.ncz) (dx dz : K)
    (h0 : (g.xstart : K) ≤ dx) (h1 : dx < (g.xend : K)) :
    cornerHermite g dx dz =
      .ok ⟨⌊dx⌋, ⌊dz⌋ % g.ncz, dx - (⌊dx⌋ : Int), dz - (⌊dz⌋ : Int)⟩ := by
  have i0 : g.xstart ≤ ⌊dx⌋ := Int.le_floor.2 h0
  have i1 : ⌊dx⌋ < g.xend := Int.floor_lt.2 h1
  unfold cornerHermite
  dsimp only
  rw [if_neg (show ¬ ⌊dx⌋ ≥ g.xend by omega)]
  dsimp only
  rw [if_neg (show ¬ ⌊dx⌋ < g.xstart by omega), wrap_eq hz]
  exact checkRange_ok _ (frac0 dx) (frac1 dx) (frac0 dz) (frac1 dz)

/-- At and beyond the last interior column. -/
theorem cornerHermite_right (g : Grid) (hz : 0 < g.ncz) (hg : g.xstart < g.xend) (dx dz : K)
    (h1 : (g.xend : K) ≤ dx) :
    cornerHermite g dx dz = .ok ⟨g.xend - 1, ⌊dz⌋ % g.ncz, 1, dz - (⌊dz⌋ : Int)⟩ := by
  have i1 : g.xend ≤ ⌊dx⌋ := Int.le_floor.2 h1
  unfold cornerHermite
  dsimp only
  rw [if_pos (show ⌊dx⌋ ≥ g.xend by omega)]
  dsimp only
  rw [if_neg (show ¬ g.xend - 1 < g.xstart by omega), wrap_eq hz]
  exact checkRange_ok _ (by simp) (by simp) (frac0 dz) (frac1 dz)

/-- Before the first interior column. -/
theorem cornerHermite_left (g : Grid) (hz : 0 < g.ncz) (hg : g.xstart < g.xend) (dx dz : K)
    (h1 : dx < (g.xstart : K)) :
    cornerHermite g dx dz = .ok ⟨g.xstart, ⌊dz⌋ % g.ncz, 0, dz - (⌊dz⌋ : Int)⟩ := by
  have i1 : ⌊dx⌋ < g.xstart := Int.floor_lt.2 h1
  unfold cornerHermite
  dsimp only
  rw [if_neg (show ¬ ⌊dx⌋ ≥ g.xend by omega)]
  dsimp only
  rw [if_pos (show ⌊dx⌋ < g.xstart by omega), wrap_eq hz]
  exact checkRange_ok _ (by simp) (by simp) (frac0 dz) (frac1 dz)

/-- `hermite` as a formula, when both columns are in the grid. -/
theorem hermite_eq (g : Grid) (hz : 0 < g.ncz) (f fx fz fxz : Int → Int → K) (i k : Int) (tx tz : K)
    (h0 : 0 ≤ i) (h1 : i + 1 < g.LocalNx) :
    hermite g f fx fz fxz ⟨i, k % g.ncz, tx, tz⟩ = .ok (
      hermite4
        (hermite4 (f i (k % g.ncz)) (f (i + 1) (k % g.ncz)) (fx i (k % g.ncz)) (fx (i + 1) (k % g.ncz)) tx)
        (hermite4 (f i ((k + 1) % g.ncz)) (f (i + 1) ((k + 1) % g.ncz)) (fx i ((k + 1) % g.ncz))
          (fx (i + 1) ((k + 1) % g.ncz)) tx)
        (hermite4 (fz i (k % g.ncz)) (fz (i + 1) (k % g.ncz)) (fxz i (k % g.ncz))
          (fxz (i + 1) (k % g.ncz)) tx)
        (hermite4 (fz i ((k + 1) % g.ncz)) (fz (i + 1) ((k + 1) % g.ncz)) (fxz i ((k + 1) % g.ncz))
          (fxz (i + 1) ((k + 1) % g.ncz)) tx) tz) := by
  unfold hermite
  have A : ∀ (u : Int → Int → K) z, at? g u i z = .ok (u i z) :=
    fun u z => at?_ok g u i z h0 (by omega)
  have B : ∀ (u : Int → Int → K) z, at? g u (i + 1) z = .ok (u (i + 1) z) :=
    fun u z => at?_ok g u (i + 1) z (by omega) h1
  simp only [bind, Except.bind, A, B, tmod_next hz _ 1 (by omega), pure, Except.pure]

/-- Value, X derivative, Z derivative and mixed derivative of a polynomial. -/
def polyX (c : Fin 4 → Fin 4 → K) (x z : K) : K := cub (fun j => dcub (c j) x) z
/-- Z derivative. -/
def polyZ (c : Fin 4 → Fin 4 → K) (x z : K) : K := dcub (fun j => cub (c j) x) z
/-- Mixed derivative. -/
def polyXZ (c : Fin 4 → Fin 4 → K) (x z : K) : K := dcub (fun j => dcub (c j) x) z

theorem hermite2_poly (c : Fin 4 → Fin 4 → K) (x z tx tz : K) :
    hermite4
      (hermite4 (poly c x z) (poly c (x + 1) z) (polyX c x z) (polyX c (x + 1) z) tx)
      (hermite4 (poly c x (z + 1)) (poly c (x + 1) (z + 1)) (polyX c x (z + 1)) (polyX c (x + 1) (z + 1)) tx)
      (hermite4 (polyZ c x z) (polyZ c (x + 1) z) (polyXZ c x z) (polyXZ c (x + 1) z) tx)
      (hermite4 (polyZ c x (z + 1)) (polyZ c (x + 1) (z + 1)) (polyXZ c x (z + 1))
        (polyXZ c (x + 1) (z + 1)) tx) tz = poly c (x + tx) (z + tz) := by
  have swX : ∀ x z : K, polyX c x z = dcub (fun i => cub (fun j => c j i) z) x := by
    intro x z; unfold polyX cub dcub; ring
  have swZ : ∀ x z : K, polyZ c x z = cub (fun i => dcub (fun j => c j i) z) x := by
    intro x z; unfold polyZ cub dcub; ring
  have swXZ : ∀ x z : K, polyXZ c x z = dcub (fun i => dcub (fun j => c j i) z) x := by
    intro x z; unfold polyXZ dcub; ring
  simp only [poly_swap, swX, swZ, swXZ, hermite4_cub]
  simp only [← poly_swap, ← swZ]
  unfold poly polyZ
  exact hermite4_cub _ _ _

/-- **C49.** Hermite interpolation, given the exact derivatives at the four corners,
reproduces every polynomial that is cubic in X and in Z. -/
theorem C49_hermite_exact (g : Grid) (hz : 0 < g.ncz) (hs : 0 ≤ g.xstart) (hl : g.xend < g.LocalNx)
    (f fx fz fxz : Int → Int → K) (c : Fin 4 → Fin 4 → K) (dx dz : K)
    (h0 : (g.xstart : K) ≤ dx) (h1 : dx < (g.xend : K))
    (hf : ∀ a b : Int, 0 ≤ a → a ≤ 1 → 0 ≤ b → b ≤ 1 →
      f (⌊dx⌋ + a) ((⌊dz⌋ + b) % g.ncz) = poly c ((⌊dx⌋ : K) + a) ((⌊dz⌋ : K) + b) ∧
      fx (⌊dx⌋ + a) ((⌊dz⌋ + b) % g.ncz) = polyX c ((⌊dx⌋ : K) + a) ((⌊dz⌋ : K) + b) ∧
      fz (⌊dx⌋ + a) ((⌊dz⌋ + b) % g.ncz) = polyZ c ((⌊dx⌋ : K) + a) ((⌊dz⌋ : K) + b) ∧
      fxz (⌊dx⌋ + a) ((⌊dz⌋ + b) % g.ncz) = polyXZ c ((⌊dx⌋ : K) + a) ((⌊dz⌋ : K) + b)) :
    (do let q ← cornerHermite g dx dz; hermite g f fx fz fxz q) = .ok (poly c dx dz) := by
  have i0 : g.xstart ≤ ⌊dx⌋ := Int.le_floor.2 h0
  have i1 : ⌊dx⌋ < g.xend := Int.floor_lt.2 h1
  rw [cornerHermite_inside g hz dx dz h0 h1]
  show hermite g f fx fz fxz _ = _
  rw [hermite_eq g hz f fx fz fxz _ _ _ _ (by omega) (by omega)]
  obtain ⟨a1, a2, a3, a4⟩ := hf 0 0 (by omega) (by omega) (by omega) (by omega)
  obtain ⟨b1, b2, b3, b4⟩ := hf 1 0 (by omega) (by omega) (by omega) (by omega)
  obtain ⟨c1, c2, c3, c4⟩ := hf 0 1 (by omega) (by omega) (by omega) (by omega)
  obtain ⟨d1, d2, d3, d4⟩ := hf 1 1 (by omega) (by omega) (by omega) (by omega)
  simp only [add_zero, Int.cast_zero, Int.cast_one] at a1 a2 a3 a4 b1 b2 b3 b4 c1 c2 c3 c4 d1 d2 d3 d4
  rw [a1, a2, a3, a4, b1, b2, b3, b4, c1, c2, c3, c4, d1, d2, d3, d4, hermite2_poly]
  congr 2 <;> ring

/-- Central differences of a quadratic are its derivative. -/
theorem central_quadratic (a : Fin 4 → K) (h : a 3 = 0) (x : K) :
    (cub a (x + 1) - cub a (x - 1)) / 2 = dcub a x := by
  unfold cub dcub
  rw [h]
  field_simp
  ring

/-- **C49.** With the default second-order derivatives that the method computes itself,
Hermite interpolation reproduces every polynomial quadratic in X and in Z, at every
position in `[xstart, xend)`. -/
theorem C49_hermite_quadratic (g : Grid) (hz : 0 < g.ncz) (hs : 1 ≤ g.xstart)
    (hl : g.xend + 1 < g.LocalNx) (f : Int → Int → K) (c : Fin 4 → Fin 4 → K) (hc : Quadratic c)
    (dx dz : K) (h0 : (g.xstart : K) ≤ dx) (h1 : dx < (g.xend : K))
    (hf : Agrees g.ncz f c ⌊dx⌋ ⌊dz⌋ (-1) 2) :
    interpHermite g f dx dz = .ok (poly c dx dz) := by
  have q3 := fun i => (hc i).1
  have r3 := fun i => (hc i).2
  have F : ∀ a b : Int, -1 ≤ a → a ≤ 2 → -1 ≤ b → b ≤ 2 →
      f (⌊dx⌋ + a) ((⌊dz⌋ + b) % g.ncz) = poly c ((⌊dx⌋ : K) + a) ((⌊dz⌋ : K) + b) := by
    intro a b a0 a1 b0 b1
    rw [hf a b a0 a1 b0 b1]; push_cast; rfl
  -- the X difference
  have FX : ∀ a b : Int, 0 ≤ a → a ≤ 1 → -1 ≤ b → b ≤ 2 →
      ddx f (⌊dx⌋ + a) ((⌊dz⌋ + b) % g.ncz) = polyX c ((⌊dx⌋ : K) + a) ((⌊dz⌋ : K) + b) := by
    intro a b a0 a1 b0 b1
    unfold ddx
    have e1 : ⌊dx⌋ + a + 1 = ⌊dx⌋ + (a + 1) := by ring
    have e2 : ⌊dx⌋ + a - 1 = ⌊dx⌋ + (a - 1) := by ring
    rw [e1, e2, F _ b (by omega) (by omega) b0 b1, F _ b (by omega) (by omega) b0 b1]
    unfold poly polyX cub dcub
    simp only [q3, r3]
    push_cast
    field_simp
    ring
  have zn : ∀ b : Int, ((⌊dz⌋ + b) % g.ncz + 1).tmod g.ncz = (⌊dz⌋ + (b + 1)) % g.ncz := by
    intro b; rw [tmod_next hz _ 1 (by omega)]; congr 1; ring
  have zp : ∀ b : Int, ((⌊dz⌋ + b) % g.ncz - 1 + g.ncz).tmod g.ncz = (⌊dz⌋ + (b - 1)) % g.ncz := by
    intro b; rw [tmod_prev hz]; congr 1; ring
  -- the Z difference
  have FZ : ∀ a b : Int, -1 ≤ a → a ≤ 2 → 0 ≤ b → b ≤ 1 →
      ddz g.ncz f (⌊dx⌋ + a) ((⌊dz⌋ + b) % g.ncz) = polyZ c ((⌊dx⌋ : K) + a) ((⌊dz⌋ : K) + b) := by
    intro a b a0 a1 b0 b1
    unfold ddz
    rw [zn, zp, F a _ a0 a1 (by omega) (by omega), F a _ a0 a1 (by omega) (by omega)]
    unfold poly polyZ cub dcub
    simp only [q3, r3]
    push_cast
    field_simp
    ring
  have FXZ : ∀ a b : Int, 0 ≤ a → a ≤ 1 → 0 ≤ b → b ≤ 1 →
      ddx (ddz g.ncz f) (⌊dx⌋ + a) ((⌊dz⌋ + b) % g.ncz) =
        polyXZ c ((⌊dx⌋ : K) + a) ((⌊dz⌋ : K) + b) := by
    intro a b a0 a1 b0 b1
    have e1 : ⌊dx⌋ + a + 1 = ⌊dx⌋ + (a + 1) := by ring
    have e2 : ⌊dx⌋ + a - 1 = ⌊dx⌋ + (a - 1) := by ring
    show (ddz g.ncz f (⌊dx⌋ + a + 1) _ - ddz g.ncz f (⌊dx⌋ + a - 1) _) / 2 = _
    rw [e1, e2, FZ _ b (by omega) (by omega) b0 b1, FZ _ b (by omega) (by omega) b0 b1]
    unfold polyZ polyXZ cub dcub
    simp only [q3, r3]
    push_cast
    field_simp
    ring
  unfold interpHermite
  exact C49_hermite_exact g hz (by omega) (by omega) f _ _ _ c dx dz h0 h1
    (fun a b a0 a1 b0 b1 => ⟨F a b (by omega) (by omega) (by omega) (by omega),
      FX a b a0 a1 (by omega) (by omega), FZ a b (by omega) (by omega) b0 b1, FXZ a b a0 a1 b0 b1⟩)

/-- `t = 1` in the cell ending at `xend` is the same as the column `xend` itself. -/
theorem hermite4_one (f0 f1 d0 d1 : K) : hermite4 f0 f1 d0 d1 1 = f1 := by
  unfold hermite4 h00 h01 h10 h11; ring
theorem hermite4_zero (f0 f1 d0 d1 : K) : hermite4 f0 f1 d0 d1 0 = f0 := by
  unfold hermite4 h00 h01 h10 h11; ring

/-- **C49.** Outside `[xstart, xend)` the Hermite splines return the value interpolated in Z
at the nearest interior column; no column outside the domain is used. -/
theorem C49_hermite_clamped (g : Grid) (hz : 0 < g.ncz) (hs : 0 ≤ g.xstart) (hg : g.xstart < g.xend)
    (hl : g.xend < g.LocalNx) (f : Int → Int → K) (dx dz : K) :
    ((g.xend : K) ≤ dx → interpHermite g f dx dz = interpZ g.ncz (f g.xend) dz) ∧
    (dx < (g.xstart : K) → interpHermite g f dx dz = interpZ g.ncz (f g.xstart) dz) := by
  have zt : ¬ ((dz - ((⌊dz⌋ : Int) : K)) < 0 ∨ (dz - ((⌊dz⌋ : Int) : K)) > 1) := by
    push Not; exact ⟨frac0 dz, frac1 dz⟩
  constructor
  · intro h
    unfold interpHermite
    rw [cornerHermite_right g hz hg dx dz h]
    show hermite g f _ _ _ _ = _
    rw [hermite_eq g hz _ _ _ _ _ _ _ _ (by omega) (by omega)]
    simp only [hermite4_one]
    unfold interpZ
    dsimp only
    rw [if_neg zt, wrap_eq hz]
    unfold ddz
    have : g.xend - 1 + 1 = g.xend := by omega
    rw [this]
    simp only [tmod_next hz _ 1 (show (0 : Int) ≤ 1 by omega)]
  · intro h
    unfold interpHermite
    rw [cornerHermite_left g hz hg dx dz h]
    show hermite g f _ _ _ _ = _
    rw [hermite_eq g hz _ _ _ _ _ _ _ _ (by omega) (by omega)]
    simp only [hermite4_zero]
    unfold interpZ
    dsimp only
    rw [if_neg zt, wrap_eq hz]
    unfold ddz
    simp only [tmod_next hz _ 1 (show (0 : Int) ≤ 1 by omega)]

/-- **C49.** `ZHermiteSpline` reproduces quadratics in Z, for every real position (also
negative or beyond the period), across the periodic boundary. -/
theorem C49_z_quadratic (ncz : Int) (hz : 0 < ncz) (f : Int → K) (a : Fin 4 → K) (ha : a 3 = 0)
    (dz : K) (hf : ∀ b : Int, -1 ≤ b → b ≤ 2 → f ((⌊dz⌋ + b) % ncz) = cub a ((⌊dz⌋ : K) + b)) :
    interpZ ncz f dz = .ok (cub a dz) := by
  have zt : ¬ ((dz - ((⌊dz⌋ : Int) : K)) < 0 ∨ (dz - ((⌊dz⌋ : Int) : K)) > 1) := by
    push Not; exact ⟨frac0 dz, frac1 dz⟩
  unfold interpZ
  dsimp only
  rw [if_neg zt, wrap_eq hz, tmod_next hz _ 1 (by omega), tmod_next hz _ 1 (by omega), tmod_prev hz,
    tmod_prev hz]
  have e2 : ⌊dz⌋ + 1 + 1 = ⌊dz⌋ + 2 := by ring
  have e0 : ⌊dz⌋ + 1 + -1 = ⌊dz⌋ + 0 := by ring
  have f0 := hf 0 (by omega) (by omega)
  have f1 := hf 1 (by omega) (by omega)
  have f2 := hf 2 (by omega) (by omega)
  have fm := hf (-1) (by omega) (by omega)
  rw [e2, e0, f0, f1, f2, fm]
  rw [add_zero] at f0
  rw [f0]
  have := hermite4_cub a (⌊dz⌋ : K) (dz - ((⌊dz⌋ : Int) : K))
  have c0 := central_quadratic a ha (⌊dz⌋ : K)
  have c1 := central_quadratic a ha ((⌊dz⌋ : K) + 1)
  rw [← c0, ← c1] at this
  push_cast
  have s1 : (⌊dz⌋ : K) + 1 + 1 = (⌊dz⌋ : K) + 2 := by ring
  have s2 : (⌊dz⌋ : K) + 1 - 1 = (⌊dz⌋ : K) := by ring
  have s3 : (⌊dz⌋ : K) + (dz - (⌊dz⌋ : K)) = dz := by ring
  rw [s1, s2, s3] at this
  rw [← this, add_zero, sub_eq_add_neg (⌊dz⌋ : K) 1]

/-- **C49.** The list of positions and weights offered for building matrices gives the same
number as the spline itself, at every column, when Z has at least one point. -/
theorem C49_weights_match (g : Grid) (hz : 0 < g.ncz) (f : Int → K) (dz : K) (i : Int) (tx : K) :
    interpZ g.ncz f dz =
      .ok (applyWeights f (yWeights g ⟨i, ⌊dz⌋ % g.ncz, tx, dz - (⌊dz⌋ : Int)⟩)) := by
  have zt : ¬ ((dz - ((⌊dz⌋ : Int) : K)) < 0 ∨ (dz - ((⌊dz⌋ : Int) : K)) > 1) := by
    push Not; exact ⟨frac0 dz, frac1 dz⟩
  unfold interpZ
  dsimp only
  rw [if_neg zt, wrap_eq hz, tmod_next hz _ 1 (by omega), tmod_next hz _ 1 (by omega), tmod_prev hz,
    tmod_prev hz]
  have m1 : (if ⌊dz⌋ % g.ncz > 0 then ⌊dz⌋ % g.ncz - 1 else g.ncz - 1) = (⌊dz⌋ + -1) % g.ncz := by
    have n0 := Int.emod_nonneg ⌊dz⌋ (by omega : g.ncz ≠ 0)
    have n1 := Int.emod_lt_of_pos ⌊dz⌋ hz
    rw [← Int.emod_add_emod]
    generalize ⌊dz⌋ % g.ncz = m at *
    by_cases h : m > 0
    · rw [if_pos h, Int.emod_eq_of_lt (by omega) (by omega)]; omega
    · have : m = 0 := by omega
      rw [if_neg h, this]
      have : (0 + -1 : Int) = (g.ncz - 1) + g.ncz * (-1) := by ring
      rw [this, Int.add_mul_emod_self_left, Int.emod_eq_of_lt (by omega) (by omega)]
  unfold applyWeights yWeights
  dsimp only
  rw [m1, tmod_next hz _ 1 (by omega), tmod_next hz _ 2 (by omega)]
  simp only [List.map_cons, List.map_nil, List.sum_cons, List.sum_nil]
  have e2 : ⌊dz⌋ + 1 + 1 = ⌊dz⌋ + 2 := by ring
  have e0 : ⌊dz⌋ + 1 + -1 = ⌊dz⌋ := by ring
  rw [e2, e0]
  unfold hermite4
  congr 1
  field_simp
  ring

/-! ### Monotonic Hermite splines -/

theorem monotonic_eq (g : Grid) (hz : 0 < g.ncz) (f fx fz fxz : Int → Int → K) (i k : Int) (tx tz r : K)
    (h0 : 0 ≤ i) (h1 : i + 1 < g.LocalNx)
    (hr : hermite g f fx fz fxz ⟨i, k % g.ncz, tx, tz⟩ = .ok r) :
    monotonic g f fx fz fxz ⟨i, k % g.ncz, tx, tz⟩ = .ok (
      let a := f i (k % g.ncz)
      let b := f (i + 1) (k % g.ncz)
      let d := f i ((k + 1) % g.ncz)
      let e := f (i + 1) ((k + 1) % g.ncz)
      let r1 := if r > max4 a b d e then max4 a b d e else r
      if r1 < min4 a b d e then min4 a b d e else r1) := by
  unfold monotonic
  have ww : wrap g.ncz (k % g.ncz) = k % g.ncz := by
    rw [wrap_eq hz, Int.emod_emod_of_dvd _ (dvd_refl _)]
  dsimp only
  rw [ww, hr]
  simp only [bind, Except.bind]
  rw [tmod_next hz _ 1 (by omega), at?_ok _ _ _ _ h0 (by omega), at?_ok _ _ _ _ (by omega) h1,
    at?_ok _ _ _ _ h0 (by omega), at?_ok _ _ _ _ (by omega) h1]
  rfl

/-- **C49.** The monotonic spline never leaves the range of the values at the four corners
of the cell it uses (the cell of the position, moved into the domain), whatever the
derivatives are. -/
theorem C49_monotonic_bounded (g : Grid) (hz : 0 < g.ncz) (hs : 0 ≤ g.xstart) (hg : g.xstart < g.xend)
    (hl : g.xend < g.LocalNx) (f : Int → Int → K) (dx dz lo hi : K)
    (hf : ∀ x z : Int, g.xstart ≤ x → x ≤ g.xend → (⌊dx⌋ < g.xstart ∨ g.xend ≤ ⌊dx⌋ ∨
        x = ⌊dx⌋ ∨ x = ⌊dx⌋ + 1) → z = ⌊dz⌋ ∨ z = ⌊dz⌋ + 1 →
      lo ≤ f x (z % g.ncz) ∧ f x (z % g.ncz) ≤ hi) :
    ∃ r, interpMonotonic g f dx dz = .ok r ∧ lo ≤ r ∧ r ≤ hi := by
  have key : ∃ i tx, cornerHermite g dx dz = .ok ⟨i, ⌊dz⌋ % g.ncz, tx, dz - (⌊dz⌋ : Int)⟩ ∧
      g.xstart ≤ i ∧ i + 1 ≤ g.xend ∧ (⌊dx⌋ < g.xstart ∨ g.xend ≤ ⌊dx⌋ ∨ i = ⌊dx⌋) := by
    rcases lt_or_ge dx (g.xstart : K) with h | h
    · exact ⟨_, _, cornerHermite_left g hz hg dx dz h, by omega, by omega, Or.inl (Int.floor_lt.2 h)⟩
    · rcases lt_or_ge dx (g.xend : K) with h' | h'
      · have i0 : g.xstart ≤ ⌊dx⌋ := Int.le_floor.2 h
        have i1 : ⌊dx⌋ < g.xend := Int.floor_lt.2 h'
        exact ⟨_, _, cornerHermite_inside g hz dx dz h h', i0, by omega, Or.inr (Or.inr rfl)⟩
      · exact ⟨_, _, cornerHermite_right g hz hg dx dz h', by omega, by omega,
          Or.inr (Or.inl (Int.le_floor.2 h'))⟩
  obtain ⟨i, tx, hc, i0, i1, hi'⟩ := key
  unfold interpMonotonic
  rw [hc]
  show ∃ r, monotonic g f _ _ _ _ = _ ∧ _
  have hr := hermite_eq g hz f (ddx f) (ddz g.ncz f) (ddx (ddz g.ncz f)) i ⌊dz⌋ tx
    (dz - ((⌊dz⌋ : Int) : K)) (by omega) (by omega)
  refine ⟨_, monotonic_eq g hz f _ _ _ i ⌊dz⌋ tx _ _ (by omega) (by omega) hr, ?_⟩
  dsimp only
  have fa := hf i ⌊dz⌋ i0 (by omega) (by omega) (Or.inl rfl)
  have fb := hf (i + 1) ⌊dz⌋ (by omega) (by omega) (by omega) (Or.inl rfl)
  have fd := hf i (⌊dz⌋ + 1) i0 (by omega) (by omega) (Or.inr rfl)
  have fe := hf (i + 1) (⌊dz⌋ + 1) (by omega) (by omega) (by omega) (Or.inr rfl)
  generalize f i (⌊dz⌋ % g.ncz) = a at *
  generalize f (i + 1) (⌊dz⌋ % g.ncz) = b at *
  generalize f i ((⌊dz⌋ + 1) % g.ncz) = d at *
  generalize f (i + 1) ((⌊dz⌋ + 1) % g.ncz) = e at *
  have mx : max4 a b d e ≤ hi := max_le (max_le fa.2 fb.2) (max_le fd.2 fe.2)
  have mn : lo ≤ min4 a b d e := le_min (le_min fa.1 fb.1) (le_min fd.1 fe.1)
  have mm : min4 a b d e ≤ max4 a b d e :=
    le_trans (min_le_left _ _) (le_trans (min_le_left _ _) (le_trans (le_max_left _ _) (le_max_left _ _)))
  split_ifs with p q q
  · exact ⟨mn, le_trans mm mx⟩
  · exact ⟨le_trans mn mm, mx⟩
  · exact ⟨mn, le_trans mm mx⟩
  · exact ⟨le_trans mn (not_lt.1 q), le_trans (not_lt.1 p) mx⟩

/-- **C49.** Where the Hermite value lies within the range of the four corner values, the
monotonic spline returns exactly that value. -/
theorem C49_monotonic_agrees (g : Grid) (hz : 0 < g.ncz) (f : Int → Int → K) (hs : 0 ≤ g.xstart)
    (hl : g.xend < g.LocalNx) (dx dz r : K) (h0 : (g.xstart : K) ≤ dx) (h1 : dx < (g.xend : K))
    (hr : interpHermite g f dx dz = .ok r)
    (lo : min4 (f ⌊dx⌋ (⌊dz⌋ % g.ncz)) (f (⌊dx⌋ + 1) (⌊dz⌋ % g.ncz)) (f ⌊dx⌋ ((⌊dz⌋ + 1) % g.ncz))
      (f (⌊dx⌋ + 1) ((⌊dz⌋ + 1) % g.ncz)) ≤ r)
    (hi : r ≤ max4 (f ⌊dx⌋ (⌊dz⌋ % g.ncz)) (f (⌊dx⌋ + 1) (⌊dz⌋ % g.ncz)) (f ⌊dx⌋ ((⌊dz⌋ + 1) % g.ncz))
      (f (⌊dx⌋ + 1) ((⌊dz⌋ + 1) % g.ncz))) :
    interpMonotonic g f dx dz = .ok r := by
  have i0 : g.xstart ≤ ⌊dx⌋ := Int.le_floor.2 h0
  have i1 : ⌊dx⌋ < g.xend := Int.floor_lt.2 h1
  unfold interpHermite at hr
  rw [cornerHermite_inside g hz dx dz h0 h1] at hr
  unfold interpMonotonic
  rw [cornerHermite_inside g hz dx dz h0 h1]
  show monotonic g f _ _ _ _ = _
  rw [monotonic_eq g hz f _ _ _ ⌊dx⌋ ⌊dz⌋ _ _ r (by omega) (by omega) hr]
  dsimp only
  rw [if_neg (not_lt.2 hi), if_neg (not_lt.2 lo)]

/-! ### Field2D -/

/-- **C49.** `interpolate` of a Field2D with a non-negative displacement that stays inside
the grid reproduces linear functions of X at the displaced position `jx + dx`. -/
theorem C49_field2d_linear (nx jx : Int) (f : Int → K) (a b dx : K) (h0 : 0 ≤ dx)
    (hj : 0 ≤ jx) (h1 : (jx : K) + dx < ((nx - 1 : Int) : K)) (hf : ∀ x : Int, f x = a + b * x) :
    interp2D nx f jx dx = a + b * (jx + dx) := by
  have i0 : 0 ≤ ⌊dx⌋ := Int.floor_nonneg.2 h0
  have i1 : ⌊dx⌋ + jx < nx - 1 := by
    have : ((⌊dx⌋ + jx : Int) : K) < ((nx - 1 : Int) : K) := by
      push_cast
      have := Int.floor_le dx
      push_cast at h1
      linarith
    exact_mod_cast this
  unfold interp2D truncI
  dsimp only
  rw [if_pos h0, if_neg (by omega), if_neg (by omega), hf, hf]
  dsimp only
  push_cast
  ring

/-- **C49.** `interpolate` of a Field2D reads only columns `0 … nx - 1`, whatever the
displacement. -/
theorem C49_field2d_inside (nx jx : Int) (f g : Int → K) (dx : K) (hn : 2 ≤ nx)
    (h : ∀ x, 0 ≤ x → x < nx → f x = g x) : interp2D nx f jx dx = interp2D nx g jx dx := by
  unfold interp2D
  dsimp only
  by_cases h1 : truncI dx + jx < 0
  · rw [if_pos h1]
    dsimp only
    rw [h 0 le_rfl (by omega), h (0 + 1) (by omega) (by omega)]
  · by_cases h2 : truncI dx + jx ≥ nx - 1
    · rw [if_neg h1, if_pos h2]
      dsimp only
      rw [h (nx - 2) (by omega) (by omega), h (nx - 2 + 1) (by omega) (by omega)]
    · rw [if_neg h1, if_neg h2]
      dsimp only
      rw [h _ (by omega) (by omega), h (truncI dx + jx + 1) (by omega) (by omega)]

/-- **C49 violated (finding).** For a negative displacement the index is truncated towards
zero instead of rounded down, so the routine extrapolates from the two points on the wrong
side: with values `0, 0, 1` at columns 1, 2, 3 the value half a cell to the left of column
2 comes out as `-1/2`, outside the range of the data. -/
theorem C49_field2d_negative_violated :
    interp2D (K := ℚ) 6 (fun x => if x = 3 then 1 else 0) 2 (-1 / 2) = -1 / 2 := by
  decide +kernel

/-! ### Cell centres and faces -/

/-- **C49.** Interpolation from cell centres to lower faces reproduces cubics at `i - 1/2`,
and from faces to centres (values stored at `i` belong to `i - 1/2`) at `i`; the guard value
`nan` is not used. -/
theorem C49_stagger_cubic (a : Fin 4 → K) (nan : K) (i : Int) :
    toLow nan (fun j => cub a (j : K)) i = cub a ((i : K) - 1 / 2) ∧
    toCentre nan (fun j => cub a ((j : K) - 1 / 2)) i = cub a (i : K) := by
  constructor
  · unfold toLow interp populate cub
    simp only [if_true]
    push_cast
    field_simp
    ring
  · unfold toCentre interp populate cub
    simp only [if_true]
    push_cast
    field_simp
    ring

/-- **C49.** Interpolating a cubic to the faces and back is the identity. -/
theorem C49_stagger_round_trip (a : Fin 4 → K) (nan : K) (i : Int) :
    toCentre nan (toLow nan (fun j => cub a (j : K))) i = cub a (i : K) := by
  have : toLow nan (fun j => cub a (j : K)) = fun j : Int => cub a ((j : K) - 1 / 2) := by
    funext j; exact (C49_stagger_cubic a nan j).1
  rw [this]
  exact (C49_stagger_cubic a nan i).2

/-- Constants are preserved by every stencil. -/
example : toLow (7 : ℚ) (fun _ => 3) 5 = 3 := by decide +kernel

/-! ### Hypotheses are met -/

/-- The field `x * z` on a grid of ten columns and eight Z points. -/
def demoGrid : Grid := ⟨10, 2, 7, 8⟩
/-- Coefficients of `1 + 2 x z + x² z²`. -/
def demoCoef : Fin 4 → Fin 4 → ℚ := fun j i =>
  if j = 0 ∧ i = 0 then 1 else if j = 1 ∧ i = 1 then 2 else if j = 2 ∧ i = 2 then 1 else 0
/-- The field it samples. -/
def demoField : Int → Int → ℚ := fun x z => 1 + 2 * x * z + x ^ 2 * z ^ 2

example : interpHermite demoGrid demoField (9 / 2) (7 / 2) = .ok (poly demoCoef (9 / 2) (7 / 2)) := by
  decide +kernel
example : interpLagrange demoGrid demoField (9 / 2) (7 / 2) = .ok (poly demoCoef (9 / 2) (7 / 2)) := by
  decide +kernel
example : Quadratic demoCoef := by unfold Quadratic; decide +kernel

end Verif.Num.Interp
