import Verif.Invert.LapXZ
import Verif.Invert.ParThms
import Verif.Invert.LaplaceExist
import Verif.Cyclic.Block

/-!
# C71: `LaplaceXZcyclic` solves `Div(A Grad_perp x) + B x = rhs`

Specification first: the finite-volume operator on the waves through three neighbouring rows.
-/

namespace Verif.LapXZ

open Verif.Fourier Verif.Cyclic Complex
open Verif.Laplace (has cw cw_congr cw_add cw_smul waves_eq_cw leftOf rightOf diffZ prevVal_left nextVal_right Five cw_row)
open Verif.Par (cw_rows result_waves irfft_eq irfft_row)

/-- Average of a quantity at the face between two cells. -/
noncomputable def mid (f : Int → Int → ℝ) (x x' y : Int) : ℝ := (f x y + f x' y) / 2

/-- The flux of `A Grad_perp W` through the face between `x` and `x'`, in the direction of `x'`. -/
noncomputable def flux (g : Geo) (x x' y : Int) (W W' : ℝ) : ℝ :=
  mid g.A x x' y * mid g.J x x' y * mid g.g11 x x' y * ((W' - W) / mid g.dx x x' y)

/-- `Div(A Grad_perp W) + B W` (`include/bout/invert/laplacexz.hxx`) at `x`: the fluxes through the two X faces over
the cell, and the derivatives along Z of the waves through the rows. -/
noncomputable def divGrad (g : Geo) (s : ℝ) (x y : Int) (Wm W Wp : ℝ → ℝ) (t : ℝ) : ℝ :=
  (flux g x (x + 1) y (W t) (Wp t) + flux g x (x - 1) y (W t) (Wm t)) / (g.J x y * g.dx x y)
    + g.A x y * g.g33 x y * diffZ s (diffZ s W) t + g.B x y * W t

/-- The processors fit together. -/
def Setup.WellFormed (s : Setup) : Prop :=
  1 ≤ s.P ∧ 0 < s.n ∧
  ∀ q, q < s.P → (((s.geo q).firstX = true ↔ q = 0) ∧ ((s.geo q).lastX = true ↔ q + 1 = s.P) ∧ (s.geo q).xstart ≤ (s.geo q).xend)

/-- The condition on mode `k`: the gradient or the mean of the guard row and the row inside it.  Bit 0 of the flags
(`INVERT_DC_GRAD`, value 1) asks for the gradient of the mean in Z, bit 1 (`INVERT_AC_GRAD`, value 2) of all else. -/
noncomputable def cond (flags k : Nat) (guard inside : ℂ) : ℂ :=
  if (k = 0 ∧ flags.testBit 0 = true) ∨ (k ≠ 0 ∧ flags.testBit 1 = true) then guard - inside else (guard + inside) / 2

theorem has_bit (flags i : Nat) : has flags (2 ^ i) = flags.testBit i := by
  unfold has
  have hb : ∀ j, (flags &&& 2 ^ i).testBit j = (flags.testBit j && decide (i = j)) := fun j => by
    rw [Nat.testBit_and, Nat.testBit_two_pow]
  cases h : flags.testBit i
  · have : flags &&& 2 ^ i = 0 := Nat.eq_of_testBit_eq fun j => by
      rw [hb, Nat.zero_testBit]
      by_cases e : i = j
      · subst e; rw [h]; rfl
      · simp [e]
    rw [this]; rfl
  · rw [bne_iff_ne]
    intro h0
    have := hb i
    rw [h0, h] at this
    simp at this

theorem cond_grad (flags k : Nat) (u v : ℂ) : cond flags k u v = if grad flags k then u - v else (u + v) / 2 := by
  unfold cond grad
  rw [show INVERT_DC_GRAD = 2 ^ 0 from rfl, show INVERT_AC_GRAD = 2 ^ 1 from rfl, has_bit, has_bit]
  by_cases hk : k = 0 <;> simp [hk]

theorem sys_y (s : Setup) (m k : Nat) (hk : k < s.nmode) : s.y (m * s.nmode + k) = s.ystart + m := by
  unfold Setup.y
  rw [Nat.add_comm, Nat.add_mul_div_right _ _ (by omega), Nat.div_eq_of_lt hk, Nat.zero_add]

theorem sys_kz (s : Setup) (m k : Nat) (hk : k < s.nmode) : s.kz (m * s.nmode + k) = k := by
  unfold Setup.kz
  rw [Nat.add_comm, Nat.add_mul_mod_self_right, Nat.mod_eq_of_lt hk]

theorem sys_lt (s : Setup) {m k : Nat} (hm : m < s.ny) (hk : k < s.nmode) : m * s.nmode + k < s.nsys := by
  unfold Setup.nsys
  have := Nat.mul_le_mul_right s.nmode (show m + 1 ≤ s.ny from hm)
  rw [Nat.mul_comm s.nmode]
  rw [Nat.add_mul] at this
  omega

/-- What a successful solve means. -/
theorem solve_view {s : Setup} {tiny : ℂ → Prop} [DecidablePred tiny] {order : Nat → List Nat} {rhs x0 : F3}
    {x : Nat → Nat → Nat → Nat → ℝ} (hP : 1 ≤ s.P) (h0 : ∀ v, v = 0 → tiny v)
    (hord : ∀ q, q < s.P → (order q).Perm (List.range s.P))
    (h : s.solve tiny order rhs x0 = .ok x) :
    ∃ X : Nat → Nat → Nat → ℂ,
      (∀ m, m < s.ny → ∀ k, k < s.nmode →
        Solves s.P s.N false (fun q j => s.rows rhs x0 q (m * s.nmode + k) j) (fun q j => X q (m * s.nmode + k) j))
      ∧ x = fun m q j => s.back X m q j := by
  unfold Setup.solve at h
  split at h
  · exact absurd h (by simp)
  · rename_i X hX
    exact ⟨X, fun m hm k hk => C22_solves tiny h0 hP hord hX _ (sys_lt s hm hk), (Except.ok.inj h).symm⟩

/-- What survives the round trip: real linear. -/
noncomputable def keep (n k : Nat) (z : ℂ) : ℂ := if k = 0 ∨ 2 * k = n then (z.re : ℂ) else z

theorem keep_row (n k : Nat) (a b c : ℝ) (x y z : ℂ) :
    keep n k (a * x + b * y + c * z) = a * keep n k x + b * keep n k y + c * keep n k z := by
  unfold keep
  split_ifs
  · simp
  · rfl

theorem keep_rfft {n : Nat} (hn : 0 < n) (f : Nat → ℝ) (k : Nat) (hk : 2 * k ≤ n) :
    keep n k (rfft n f k) = rfft n f k := by
  have := C53_rfft_irfft n hn (rfft n f) k hk
  unfold keep
  rw [← this]
  have e : ∀ z, z < n → irfft n (rfft n f) z = f z := C53_roundtrip n f
  generalize irfft n (rfft n f) = w at e
  unfold rfft r2c
  congr 1
  exact Finset.sum_congr rfl fun z hz => by rw [e z (Finset.mem_range.mp hz)]

theorem rfft_back {s : Setup} (hn : 0 < s.n) (X : Nat → Nat → Nat → ℂ) (m q j k : Nat) (hk : k < s.nmode) :
    rfft s.n (s.back X m q j) k = keep s.n k (X q (m * s.nmode + k) j) := by
  unfold Setup.nmode at hk
  exact C53_rfft_irfft s.n hn _ k (by omega)

/-- One row's equation, in the amplitudes of the rows of the result. -/
theorem amp_row {s : Setup} (hn : 0 < s.n) {rhs x0 : F3} {X : Nat → Nat → Nat → ℂ} {m k : Nat} (hk : k < s.nmode)
    (hX : Solves s.P s.N false (fun q j => s.rows rhs x0 q (m * s.nmode + k) j) (fun q j => X q (m * s.nmode + k) j))
    {q j : Nat} (hq : q < s.P) (hj : j < s.N q)
    (hl : (j ≠ 0 ∨ q ≠ 0) ∨ (s.coef q (m * s.nmode + k) j).1 = 0)
    (hr : (j + 1 ≠ s.N q ∨ q + 1 ≠ s.P) ∨ (s.coef q (m * s.nmode + k) j).2.2 = 0) :
    ((s.coef q (m * s.nmode + k) j).1 : ℂ)
        * rfft s.n (s.back X m (leftOf s.P s.N q j).1 (leftOf s.P s.N q j).2) k
      + ((s.coef q (m * s.nmode + k) j).2.1 : ℂ) * rfft s.n (s.back X m q j) k
      + ((s.coef q (m * s.nmode + k) j).2.2 : ℂ)
        * rfft s.n (s.back X m (rightOf s.P s.N q j).1 (rightOf s.P s.N q j).2) k
      = keep s.n k (s.rhsOf rhs x0 q (m * s.nmode + k) j) := by
  have := hX q hq j hj
  unfold Row.Holds Setup.rows at this
  dsimp only at this
  rw [rfft_back hn X m _ _ k hk, rfft_back hn X m _ _ k hk, rfft_back hn X m _ _ k hk, ← keep_row, ← this]
  congr 1
  have el : ((s.coef q (m * s.nmode + k) j).1 : ℂ)
        * X (leftOf s.P s.N q j).1 (m * s.nmode + k) (leftOf s.P s.N q j).2
      = ((s.coef q (m * s.nmode + k) j).1 : ℂ)
        * prevVal s.P s.N false (fun q j => X q (m * s.nmode + k) j) q j := by
    rcases hl with hl | hl
    · rw [prevVal_left (by tauto)]
    · rw [hl]; simp
  have er : ((s.coef q (m * s.nmode + k) j).2.2 : ℂ)
        * X (rightOf s.P s.N q j).1 (m * s.nmode + k) (rightOf s.P s.N q j).2
      = ((s.coef q (m * s.nmode + k) j).2.2 : ℂ)
        * nextVal s.P s.N false (fun q j => X q (m * s.nmode + k) j) q j := by
    rcases hr with hl | hl
    · rw [nextVal_right (by tauto)]
    · rw [hl]; simp
  rw [el, er]

/-- The interior coefficients on amplitudes are the operator on the waves. -/
theorem coef_operator {n : Nat} (hn : 0 < n) (g : Geo) (L : ℝ) (x y : Int) (Fm F Fp : Nat → ℂ) (t : ℝ) :
    cw n (fun k => (face g x (x - 1) y : ℂ) * Fm k
        + ((g.B x y - face g x (x + 1) y - face g x (x - 1) y - g.A x y * (k * 2 * Real.pi / L) ^ 2 * g.g33 x y : ℝ) : ℂ) * F k
        + (face g x (x + 1) y : ℂ) * Fp k) t
      = divGrad g (n / L) x y (cw n Fm) (cw n F) (cw n Fp) t := by
  let v : Five :=
    { c1 := (face g x (x + 1) y + face g x (x - 1) y) / 2
      c2 := g.A x y * g.g33 x y
      c3 := 0
      c4 := (face g x (x + 1) y - face g x (x - 1) y) / 2
      c5 := 0 }
  have key : (fun k : Nat => (face g x (x - 1) y : ℂ) * Fm k
        + ((g.B x y - face g x (x + 1) y - face g x (x - 1) y - g.A x y * (k * 2 * Real.pi / L) ^ 2 * g.g33 x y : ℝ) : ℂ) * F k
        + (face g x (x + 1) y : ℂ) * Fp k)
      = fun k : Nat => ((⟨v.c1 - v.c4, -(k * 2 * Real.pi / L) * v.c3⟩ : ℂ) * Fm k
        + (⟨-2 * v.c1 - (k * 2 * Real.pi / L) ^ 2 * v.c2, (k * 2 * Real.pi / L) * v.c5⟩ : ℂ) * F k
        + (⟨v.c1 + v.c4, (k * 2 * Real.pi / L) * v.c3⟩ : ℂ) * Fp k) + (g.B x y : ℂ) * F k := by
    funext k
    have e1 : ∀ x y : ℝ, (⟨x, y⟩ : ℂ) = (x : ℂ) + (y : ℂ) * I := fun x y => by
      apply Complex.ext <;> simp
    simp only [e1, v]
    push_cast
    ring
  rw [key, cw_add n _ _ t, cw_smul, cw_row hn L v Fm F Fp t]
  have hf : ∀ x', face g x x' y = mid g.A x x' y * mid g.J x x' y * mid g.g11 x x' y / (g.J x y * mid g.dx x x' y * g.dx x y) := by
    intro x'
    unfold face mid
    have hh : ∀ a b : ℝ, 0.5 * (a + b) = (a + b) / 2 := fun a b => by norm_num; ring
    simp only [hh]
  unfold divGrad flux diffZ
  simp only [v, hf, div_eq_mul_inv, mul_inv]
  ring

section
variable {s : Setup} (hw : s.WellFormed)
include hw

theorem interior_bounds {q j : Nat} (hq : q < s.P) (h1 : (s.geo q).xstart ≤ s.ix q j) (h2 : s.ix q j ≤ (s.geo q).xend) :
    j < s.N q ∧ (j ≠ 0 ∨ q ≠ 0) ∧ (j + 1 ≠ s.N q ∨ q + 1 ≠ s.P) := by
  obtain ⟨hP, hn, hg⟩ := hw
  obtain ⟨gf, gl, gx⟩ := hg q hq
  unfold Setup.ix Setup.x0 at h1 h2
  unfold Setup.N Setup.x1 Setup.x0
  generalize (s.geo q).firstX = a at *
  generalize (s.geo q).lastX = b at *
  cases a <;> cases b <;> simp at gf gl h1 h2 ⊢ <;> omega

end

/-- **C71 (interior).**  On any number of processors in X and for any order of message arrival: whenever
`LaplaceXZcyclic::solve` returns, its result `x` satisfies `Div(A Grad_perp x) + B x = rhs` at every point that is not
in the X boundary, for the waves through the points of each row; the rows on either side are taken across processor
boundaries. -/
theorem C71_interior (s : Setup) (hw : s.WellFormed) (tiny : ℂ → Prop) [DecidablePred tiny] (h0 : ∀ v, v = 0 → tiny v)
    (order : Nat → List Nat) (hord : ∀ q, q < s.P → (order q).Perm (List.range s.P)) (rhs x0 : F3)
    (x : Nat → Nat → Nat → Nat → ℝ) (h : s.solve tiny order rhs x0 = .ok x)
    (a b : Nat → Nat → Nat → ℝ) (M : Nat → Nat → ℝ) (m : Nat) (hm : m < s.ny)
    (hx : ∀ q j, IsRow s.n (x m q j) (a q j) (b q j) (M q j))
    (q j : Nat) (hq : q < s.P) (h1 : (s.geo q).xstart ≤ s.ix q j) (h2 : s.ix q j ≤ (s.geo q).xend)
    (ar br : Nat → ℝ) (Nr : ℝ) (hr : IsRow s.n (rhs q (s.ix q j) (s.ystart + m)) ar br Nr) (t : ℝ) :
    let W := fun p : Nat × Nat => waves s.n (a p.1 p.2) (b p.1 p.2)
    divGrad (s.geo q) (s.n / s.zlength) (s.ix q j) (s.ystart + m)
      (W (leftOf s.P s.N q j)) (W (q, j)) (W (rightOf s.P s.N q j)) t = waves s.n ar br t := by
  dsimp only
  obtain ⟨hP, hn, hg⟩ := id hw
  obtain ⟨X, hX, rfl⟩ := solve_view hP h0 hord h
  obtain ⟨hj, hl, hr'⟩ := interior_bounds hw hq h1 h2
  rw [waves_eq_cw hn hr, waves_eq_cw hn (hx _ _), waves_eq_cw hn (hx _ _), waves_eq_cw hn (hx _ _), ← coef_operator hn]
  refine congrFun (cw_rows fun k hk => ?_) t
  have hk' : k < s.nmode := by unfold Setup.nmode; omega
  have e := amp_row hn hk' (hX m hm k hk') hq hj (Or.inl hl) (Or.inl hr')
  have c1 : ¬ ((s.geo q).firstX = true ∧ s.ix q j = (s.geo q).xstart - 1) := by omega
  have c2 : ¬ ((s.geo q).lastX = true ∧ s.ix q j = (s.geo q).xend + 1) := by omega
  have er : s.rhsOf rhs x0 q (m * s.nmode + k) j = rfft s.n (rhs q (s.ix q j) (s.ystart + m)) k := by
    unfold Setup.rhsOf
    dsimp only
    rw [if_neg c1, if_neg c2, sys_y s m k hk', sys_kz s m k hk']
  have ec : s.coef q (m * s.nmode + k) j = (face (s.geo q) (s.ix q j) (s.ix q j - 1) (s.ystart + m),
      (s.geo q).B (s.ix q j) (s.ystart + m) - face (s.geo q) (s.ix q j) (s.ix q j + 1) (s.ystart + m)
        - face (s.geo q) (s.ix q j) (s.ix q j - 1) (s.ystart + m)
        - (s.geo q).A (s.ix q j) (s.ystart + m) * (k * 2 * Real.pi / s.zlength) ^ 2 * (s.geo q).g33 (s.ix q j) (s.ystart + m),
      face (s.geo q) (s.ix q j) (s.ix q j + 1) (s.ystart + m)) := by
    unfold Setup.coef
    dsimp only
    rw [if_neg c1, if_neg c2, sys_y s m k hk', sys_kz s m k hk']
  rw [er, ec, keep_rfft hn _ _ (by omega)] at e
  exact e

/-- The coefficients of the two boundary rows. -/
theorem coef_first {s : Setup} (hw : s.WellFormed) {m k : Nat} (hk : k < s.nmode) :
    s.coef 0 (m * s.nmode + k) 0 = if grad s.inner k then (0, 1, -1) else (0, 0.5, 0.5) := by
  obtain ⟨hP, hn, hg⟩ := hw
  obtain ⟨gf, gl, gx⟩ := hg 0 (by omega)
  have c1 : (s.geo 0).firstX = true ∧ s.ix 0 0 = (s.geo 0).xstart - 1 := by
    refine ⟨gf.mpr rfl, ?_⟩
    unfold Setup.ix Setup.x0
    rw [if_pos (gf.mpr rfl)]; simp
  unfold Setup.coef
  dsimp only
  rw [if_pos c1, sys_kz s m k hk]

theorem last_ix {s : Setup} (hw : s.WellFormed) {q : Nat} (hq : q + 1 = s.P) :
    (s.geo q).lastX = true ∧ s.ix q (s.N q - 1) = (s.geo q).xend + 1 ∧ 2 ≤ s.N q ∧ (q = 0 → 3 ≤ s.N q) := by
  obtain ⟨hP, hn, hg⟩ := hw
  obtain ⟨gf, gl, gx⟩ := hg q (by omega)
  unfold Setup.ix Setup.N Setup.x0 Setup.x1
  generalize (s.geo q).firstX = a at *
  generalize (s.geo q).lastX = b at *
  cases a <;> cases b <;> simp at gf gl ⊢ <;> omega

theorem coef_last {s : Setup} (hw : s.WellFormed) {q m k : Nat} (hk : k < s.nmode) (hq : q + 1 = s.P) :
    s.coef q (m * s.nmode + k) (s.N q - 1) = if grad s.outer k then (-1, 1, 0) else (0.5, 0.5, 0) := by
  obtain ⟨l1, l2, l3, l4⟩ := last_ix hw hq
  obtain ⟨hP, hn, hg⟩ := hw
  obtain ⟨gf, gl, gx⟩ := hg q (by omega)
  unfold Setup.coef
  dsimp only
  rw [if_neg (by omega), if_pos ⟨l1, l2⟩, sys_kz s m k hk]

/-- **C71 (inner boundary).**  Mode by mode, the result's gradient (if `INVERT_DC_GRAD`, respectively `INVERT_AC_GRAD`,
is set) or mean of the guard row and the row inside it is zero, or that of `x0` with `INVERT_SET`, or that of the
right-hand side with `INVERT_RHS`. -/
theorem C71_inner (s : Setup) (hw : s.WellFormed) (tiny : ℂ → Prop) [DecidablePred tiny] (h0 : ∀ v, v = 0 → tiny v)
    (order : Nat → List Nat) (hord : ∀ q, q < s.P → (order q).Perm (List.range s.P)) (rhs x0 : F3)
    (x : Nat → Nat → Nat → Nat → ℝ) (h : s.solve tiny order rhs x0 = .ok x) (m : Nat) (hm : m < s.ny)
    (k : Nat) (hk : k ≤ s.n / 2) :
    let of := fun f : F3 => cond s.inner k (rfft s.n (f 0 ((s.geo 0).xstart - 1) (s.ystart + m)) k)
      (rfft s.n (f 0 (s.geo 0).xstart (s.ystart + m)) k)
    cond s.inner k (rfft s.n (x m 0 0) k) (rfft s.n (x m 0 1) k)
      = if s.inner.testBit 4 = true then of x0 else if s.inner.testBit 5 = true then of rhs else 0 := by
  rw [← has_bit, ← has_bit, show 2 ^ 4 = INVERT_SET from rfl, show 2 ^ 5 = INVERT_RHS from rfl]
  obtain ⟨hP, hn, hg⟩ := id hw
  obtain ⟨gf, gl, gx⟩ := hg 0 (by omega)
  obtain ⟨X, hX, rfl⟩ := solve_view hP h0 hord h
  have hk' : k < s.nmode := by unfold Setup.nmode; omega
  have hN : 2 ≤ s.N 0 := by
    have := gf.mpr rfl
    unfold Setup.N Setup.x0 Setup.x1
    rw [if_pos this]
    split_ifs <;> omega
  have ix0 : s.ix 0 0 = (s.geo 0).xstart - 1 := by
    unfold Setup.ix Setup.x0
    rw [if_pos (gf.mpr rfl)]; simp
  have ec := coef_first hw (m := m) hk'
  have e := amp_row hn hk' (hX m hm k hk') (by omega) (show 0 < s.N 0 by omega)
    (Or.inr (by rw [ec]; split_ifs <;> rfl)) (Or.inl (Or.inl (by omega)))
  have er : rightOf s.P s.N 0 0 = (0, 1) := by unfold rightOf; rw [if_pos (by omega)]
  have h05 : ((0.5 : ℝ) : ℂ) = 1 / 2 := by norm_num
  have hrhs : s.rhsOf rhs x0 0 (m * s.nmode + k) 0
      = if has s.inner INVERT_SET then
          ((s.coef 0 (m * s.nmode + k) 0).2.1 : ℂ) * rfft s.n (x0 0 ((s.geo 0).xstart - 1) (s.ystart + m)) k
            + ((s.coef 0 (m * s.nmode + k) 0).2.2 : ℂ) * rfft s.n (x0 0 (s.geo 0).xstart (s.ystart + m)) k
        else if has s.inner INVERT_RHS then
          ((s.coef 0 (m * s.nmode + k) 0).2.1 : ℂ) * rfft s.n (rhs 0 ((s.geo 0).xstart - 1) (s.ystart + m)) k
            + ((s.coef 0 (m * s.nmode + k) 0).2.2 : ℂ) * rfft s.n (rhs 0 (s.geo 0).xstart (s.ystart + m)) k
        else 0 := by
    unfold Setup.rhsOf
    dsimp only
    rw [if_pos ⟨gf.mpr rfl, ix0⟩, sys_y s m k hk', sys_kz s m k hk']
  have kp : ∀ (u v : ℝ) (f g : Nat → ℝ), keep s.n k ((u : ℂ) * rfft s.n f k + (v : ℂ) * rfft s.n g k)
      = (u : ℂ) * rfft s.n f k + (v : ℂ) * rfft s.n g k := by
    intro u v f g
    have := keep_row s.n k u v 0 (rfft s.n f k) (rfft s.n g k) 0
    rw [keep_rfft hn _ _ (by omega), keep_rfft hn _ _ (by omega)] at this
    simpa using this
  have kz : keep s.n k 0 = 0 := by unfold keep; split_ifs <;> simp
  rw [er, hrhs] at e
  dsimp only at e ⊢
  have e' : keep s.n k (if has s.inner INVERT_SET then
          ((s.coef 0 (m * s.nmode + k) 0).2.1 : ℂ) * rfft s.n (x0 0 ((s.geo 0).xstart - 1) (s.ystart + m)) k
            + ((s.coef 0 (m * s.nmode + k) 0).2.2 : ℂ) * rfft s.n (x0 0 (s.geo 0).xstart (s.ystart + m)) k
        else if has s.inner INVERT_RHS then
          ((s.coef 0 (m * s.nmode + k) 0).2.1 : ℂ) * rfft s.n (rhs 0 ((s.geo 0).xstart - 1) (s.ystart + m)) k
            + ((s.coef 0 (m * s.nmode + k) 0).2.2 : ℂ) * rfft s.n (rhs 0 (s.geo 0).xstart (s.ystart + m)) k
        else 0)
      = if has s.inner INVERT_SET then
          ((s.coef 0 (m * s.nmode + k) 0).2.1 : ℂ) * rfft s.n (x0 0 ((s.geo 0).xstart - 1) (s.ystart + m)) k
            + ((s.coef 0 (m * s.nmode + k) 0).2.2 : ℂ) * rfft s.n (x0 0 (s.geo 0).xstart (s.ystart + m)) k
        else if has s.inner INVERT_RHS then
          ((s.coef 0 (m * s.nmode + k) 0).2.1 : ℂ) * rfft s.n (rhs 0 ((s.geo 0).xstart - 1) (s.ystart + m)) k
            + ((s.coef 0 (m * s.nmode + k) 0).2.2 : ℂ) * rfft s.n (rhs 0 (s.geo 0).xstart (s.ystart + m)) k
        else 0 := by
    split_ifs
    · exact kp _ _ _ _
    · exact kp _ _ _ _
    · exact kz
  rw [e', ec] at e
  simp only [cond_grad]
  by_cases hgr : grad s.inner k = true
  · simp only [hgr, if_true] at e ⊢
    push_cast at e
    split_ifs at e ⊢ <;> linear_combination e
  · simp only [Bool.eq_false_iff.mpr hgr, Bool.false_eq_true, if_false, h05] at e ⊢
    push_cast at e
    split_ifs at e ⊢ <;> linear_combination e

/-- **C71 (outer boundary), part.**  Mode by mode, the result's gradient or mean at the outer boundary is zero, as the
flags ask when neither `INVERT_SET` nor `INVERT_RHS` is set. -/
theorem C71_outer_partial (s : Setup) (hw : s.WellFormed) (tiny : ℂ → Prop) [DecidablePred tiny]
    (h0 : ∀ v, v = 0 → tiny v) (order : Nat → List Nat) (hord : ∀ q, q < s.P → (order q).Perm (List.range s.P))
    (rhs x0 : F3) (x : Nat → Nat → Nat → Nat → ℝ) (h : s.solve tiny order rhs x0 = .ok x) (m : Nat) (hm : m < s.ny)
    (k : Nat) (hk : k ≤ s.n / 2) :
    cond s.outer k (rfft s.n (x m (s.P - 1) (s.N (s.P - 1) - 1)) k) (rfft s.n (x m (s.P - 1) (s.N (s.P - 1) - 2)) k) = 0 := by
  obtain ⟨hP, hn, hg⟩ := id hw
  obtain ⟨q, hq⟩ : ∃ q, q + 1 = s.P := ⟨s.P - 1, by omega⟩
  rw [show s.P - 1 = q by omega]
  obtain ⟨X, hX, rfl⟩ := solve_view hP h0 hord h
  have hk' : k < s.nmode := by unfold Setup.nmode; omega
  obtain ⟨l1, l2, l3, l4⟩ := last_ix hw hq
  have ec := coef_last hw (m := m) hk' hq
  have e := amp_row hn hk' (hX m hm k hk') (by omega) (show s.N q - 1 < s.N q by omega)
    (Or.inl (Or.inl (by omega))) (Or.inr (by rw [ec]; split_ifs <;> rfl))
  have er : leftOf s.P s.N q (s.N q - 1) = (q, s.N q - 2) := by
    unfold leftOf; rw [if_pos (by omega)]; rfl
  have h05 : ((0.5 : ℝ) : ℂ) = 1 / 2 := by norm_num
  have hrhs : s.rhsOf rhs x0 q (m * s.nmode + k) (s.N q - 1) = 0 := by
    have := (hg q (by omega)).2.2
    unfold Setup.rhsOf
    dsimp only
    rw [if_neg (by omega), if_pos ⟨l1, l2⟩]
  have kz : keep s.n k 0 = 0 := by unfold keep; split_ifs <;> simp
  rw [er, hrhs, kz, ec] at e
  simp only [cond_grad]
  by_cases hgr : grad s.outer k = true
  · simp only [hgr, if_true] at e ⊢
    push_cast at e
    linear_combination e
  · simp only [Bool.eq_false_iff.mpr hgr, Bool.false_eq_true, if_false, h05] at e ⊢
    push_cast at e
    linear_combination e

end Verif.LapXZ
