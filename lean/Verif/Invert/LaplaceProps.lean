import Verif.Invert.LaplaceSpec
import Verif.Num.FourierThms3
import Verif.Cyclic.Props

namespace Verif.Laplace

open Verif.Fourier Verif.Cyclic Finset Complex

/-- The waves with complex amplitudes `c`, without the sawtooth. -/
noncomputable def cw (n : Nat) (c : Nat → ℂ) (t : ℝ) : ℝ :=
  waves n (fun m => if m = 0 then (c 0).re else 2 * (c m).re) (fun m => -2 * (c m).im) t

theorem cw_congr {n : Nat} {c d : Nat → ℂ} (h0 : (c 0).re = (d 0).re)
    (h : ∀ m, 1 ≤ m → 2 * m < n → c m = d m) : cw n c = cw n d := by
  funext t
  unfold cw
  apply waves_congr
  · rw [if_pos rfl, if_pos rfl, h0]
  · intro m h1 h2
    rw [if_neg (by omega), if_neg (by omega), h m h1 h2]
    exact ⟨rfl, rfl⟩

theorem cw_add (n : Nat) (c d : Nat → ℂ) (t : ℝ) :
    cw n (fun k => c k + d k) t = cw n c t + cw n d t := by
  unfold cw waves
  dsimp only
  rw [if_pos rfl, if_pos rfl, if_pos rfl, add_add_add_comm, ← sum_add_distrib]
  congr 1
  refine sum_congr rfl fun m hm => ?_
  rw [mem_Ico] at hm
  rw [if_neg (by omega), if_neg (by omega), if_neg (by omega), add_re, add_im]
  ring

theorem cw_smul (n : Nat) (r : ℝ) (c : Nat → ℂ) (t : ℝ) :
    cw n (fun k => (r : ℂ) * c k) t = r * cw n c t := by
  unfold cw waves
  dsimp only
  rw [if_pos rfl, if_pos rfl, mul_add, mul_sum, re_ofReal_mul]
  congr 1
  refine sum_congr rfl fun m hm => ?_
  rw [mem_Ico] at hm
  rw [if_neg (by omega), if_neg (by omega), re_ofReal_mul, im_ofReal_mul]
  ring

/-- Amplitudes of the derivative with respect to the cell number. -/
noncomputable def dc (n : Nat) (c : Nat → ℂ) (k : Nat) : ℂ :=
  c k * ⟨0, (k : ℝ) * (2 * Real.pi / n)⟩

theorem cw_deriv (n : Nat) (c : Nat → ℂ) (t : ℝ) : HasDerivAt (cw n c) (cw n (dc n c) t) t := by
  refine (hasDerivAt_waves n (fun m => if m = 0 then (c 0).re else 2 * (c m).re)
    (fun m => -2 * (c m).im) t).congr_deriv ?_
  unfold cw
  apply waves_congr
  · rw [if_pos rfl, if_pos rfl]; simp [dc]
  · intro m h1 _
    rw [if_neg (by omega), if_neg (by omega), if_neg (by omega)]
    simp only [dc, mul_re, mul_im]
    constructor <;> ring

theorem deriv_cw (n : Nat) (c : Nat → ℂ) : deriv (cw n c) = cw n (dc n c) :=
  funext fun t => (cw_deriv n c t).deriv

/-- A row as `cw` of its transform plus the sawtooth. -/
theorem waves_eq_cw {n : Nat} (hn : 0 < n) {f a b : Nat → ℝ} {N : ℝ} (hf : IsRow n f a b N) :
    waves n a b = cw n (rfft n f) := by
  funext t
  unfold cw
  apply waves_congr
  · rw [if_pos rfl, rfft_of_isRow hn hf 0 (by omega), if_pos rfl, ofReal_re]
  · intro m h1 h2
    rw [if_neg (by omega), rfft_of_isRow hn hf m (by omega), if_neg (by omega), if_neg (by omega)]
    constructor <;> ring

theorem saw_eq {n : Nat} (hn : 0 < n) {f a b : Nat → ℝ} {N : ℝ} (hf : IsRow n f a b N)
    (h2 : n % 2 = 0) : rfft n f (n / 2) = (N : ℂ) := by
  rw [rfft_of_isRow hn hf _ (by omega), if_neg (by omega), if_pos (by omega)]

theorem irfft_cw {n : Nat} (hn : 0 < n) (c : Nat → ℂ) (z : Nat) :
    irfft n c z = cw n c z + sawtooth n (c (n / 2)).re z := irfft_isRow hn c z

/-- The real coefficients behind one matrix row. -/
structure Five where
  c1 : ℝ
  c2 : ℝ
  c3 : ℝ
  c4 : ℝ
  c5 : ℝ

/-- The five coefficients computed by `tridagCoefs`, before division by the grid
spacing. -/
noncomputable def five (o : LapOpts) (g : Geom) (jx : Int) (cc : Option ((Int → ℝ) × (Int → ℝ)))
    (d : Option (Int → ℝ)) : Five :=
  let dd : ℝ := match d with
    | some d => d jx
    | none => 1
  let dc : ℝ := match cc with
    | some (c1, c2) => (c2 (jx + 1) - c2 (jx - 1)) / (2 * g.dx jx * c1 jx)
    | none => 0
  { c1 := g.g11 jx * dd / g.dx jx ^ 2
    c2 := g.g33 jx * dd
    c3 := 2 * g.g13 jx * dd / (2 * g.dx jx)
    c4 := ((if o.allTerms then g.G1 jx else 0) * dd
        - (if o.nonuniform then 1 / 2 * ((g.dx (jx + 1) - g.dx (jx - 1)) / (g.dx jx) ^ 2)
            * (g.g11 jx * dd) else 0)
        + g.g11 jx * dc) / (2 * g.dx jx)
    c5 := (if o.allTerms then g.G3 jx else 0) * dd + g.g13 jx * dc }

theorem tridagCoefs_eq {o : LapOpts} {g : Geom} {jx : Int} (h1 : 0 < jx) (h2 : jx < g.localNx - 1)
    (hs : o.incIntShear = false) (kw : ℝ) (cc : Option ((Int → ℝ) × (Int → ℝ)))
    (d : Option (Int → ℝ)) :
    let v := five o g jx cc d
    tridagCoefs o g jx kw cc d =
      { a := ⟨v.c1 - v.c4, -kw * v.c3⟩
        b := ⟨-2 * v.c1 - kw ^ 2 * v.c2, kw * v.c5⟩
        c := ⟨v.c1 + v.c4, kw * v.c3⟩ } := by
  unfold tridagCoefs five
  dsimp only
  have e : (o.nonuniform = true ∧ jx ≠ 0 ∧ jx ≠ g.localNx - 1) ↔ o.nonuniform = true :=
    ⟨fun h => h.1, fun h => ⟨h, by omega, by omega⟩⟩
  simp only [e, if_pos (And.intro h1 h2), hs, Bool.false_eq_true, if_false]
  have hhalf : (0.5 : ℝ) = 1 / 2 := by norm_num
  rw [hhalf]
  cases o.nonuniform <;> cases d <;> cases cc <;> simp

/-- A matrix row applied to amplitudes is the operator applied to the waves. -/
theorem cw_row {n : Nat} (hn : 0 < n) (L : ℝ) (v : Five) (Fm F Fp : Nat → ℂ) (t : ℝ) :
    cw n (fun k =>
        (⟨v.c1 - v.c4, -(k * 2 * Real.pi / L) * v.c3⟩ : ℂ) * Fm k
        + (⟨-2 * v.c1 - (k * 2 * Real.pi / L) ^ 2 * v.c2, (k * 2 * Real.pi / L) * v.c5⟩ : ℂ) * F k
        + (⟨v.c1 + v.c4, (k * 2 * Real.pi / L) * v.c3⟩ : ℂ) * Fp k) t
      = v.c1 * (cw n Fp t - 2 * cw n F t + cw n Fm t) + v.c4 * (cw n Fp t - cw n Fm t)
        + v.c2 * ((n / L) * deriv (fun u => (n / L) * deriv (cw n F) u) t)
        + v.c3 * ((n / L) * (deriv (cw n Fp) t - deriv (cw n Fm) t))
        + v.c5 * ((n / L) * deriv (cw n F) t) := by
  have hn' : (n : ℝ) ≠ 0 := by exact_mod_cast hn.ne'
  have hdd : deriv (fun u => (n / L) * deriv (cw n F) u) t = (n / L) * cw n (dc n (dc n F)) t := by
    rw [deriv_cw]
    exact ((cw_deriv n (dc n F) t).const_mul (n / L : ℝ)).deriv
  rw [hdd, deriv_cw, deriv_cw, deriv_cw]
  have key : (fun k : Nat =>
        (⟨v.c1 - v.c4, -(k * 2 * Real.pi / L) * v.c3⟩ : ℂ) * Fm k
        + (⟨-2 * v.c1 - (k * 2 * Real.pi / L) ^ 2 * v.c2, (k * 2 * Real.pi / L) * v.c5⟩ : ℂ) * F k
        + (⟨v.c1 + v.c4, (k * 2 * Real.pi / L) * v.c3⟩ : ℂ) * Fp k)
      = fun k : Nat =>
        (((v.c1 - v.c4 : ℝ) : ℂ) * Fm k + ((-2 * v.c1 : ℝ) : ℂ) * F k)
        + ((((v.c1 + v.c4 : ℝ) : ℂ) * Fp k + ((v.c2 * ((n / L) * (n / L)) : ℝ) : ℂ) * dc n (dc n F) k)
        + ((((v.c3 * (n / L) : ℝ) : ℂ) * dc n Fp k + ((-(v.c3 * (n / L)) : ℝ) : ℂ) * dc n Fm k)
        + ((v.c5 * (n / L) : ℝ) : ℂ) * dc n F k)) := by
    funext k
    have e1 : ∀ x y : ℝ, (⟨x, y⟩ : ℂ) = (x : ℂ) + (y : ℂ) * I := fun x y => by
      apply Complex.ext <;> simp
    have hnL : ((n : ℂ)) ≠ 0 := by exact_mod_cast hn.ne'
    simp only [dc, e1]
    push_cast
    have hw : ((k : ℂ) * 2 * Real.pi / L) = (n / L : ℂ) * (k * (2 * Real.pi / n)) := by
      field_simp
    rw [hw]
    linear_combination (-(v.c2 : ℂ) * ((n / L : ℂ) * (k * (2 * Real.pi / n))) ^ 2 * F k) * I_sq
  rw [key]
  rw [cw_add n _ _ t, cw_add n _ _ t, cw_add n _ _ t, cw_add n _ _ t, cw_add n _ _ t,
    cw_add n _ _ t]
  simp only [cw_smul]
  ring

/-- The sawtooth part of a row: real part at the Nyquist mode when the amplitudes are
real. -/
theorem five_operator (o : LapOpts) (g : Geom) (co : LapCoef) (n : Nat) (L : ℝ) (jx : Int)
    (Fm F Fp : Nat → ℂ) (t : ℝ) :
    let v := five o g jx (some (co.C1, co.C2)) (some co.D)
    v.c1 * (cw n Fp t - 2 * cw n F t + cw n Fm t) + v.c4 * (cw n Fp t - cw n Fm t)
        + v.c2 * ((n / L) * deriv (fun u => (n / L) * deriv (cw n F) u) t)
        + v.c3 * ((n / L) * (deriv (cw n Fp) t - deriv (cw n Fm) t))
        + v.c5 * ((n / L) * deriv (cw n F) t) + co.A jx * cw n F t
      = fullOperator o g co (n / L) jx (cw n Fm) (cw n F) (cw n Fp) t := by
  dsimp only
  unfold fullOperator perpLaplacian diffXX diffZ five
  have hx : deriv (diffX (g.dx jx) (cw n Fm) (cw n Fp)) t
      = (deriv (cw n Fp) t - deriv (cw n Fm) t) / (2 * g.dx jx) := by
    have := ((cw_deriv n Fp t).sub (cw_deriv n Fm t)).div_const (2 * g.dx jx)
    rw [deriv_cw, deriv_cw]
    exact this.deriv
  rw [hx]
  unfold diffX
  dsimp only
  generalize deriv (fun u => (n / L : ℝ) * deriv (cw n F) u) t = a1
  generalize deriv (cw n F) t = a2
  generalize deriv (cw n Fp) t = a3
  generalize deriv (cw n Fm) t = a4
  cases o.nonuniform <;> cases o.allTerms <;> simp only [if_true, if_false, Bool.false_eq_true] <;> ring

theorem five_laplacian (o : LapOpts) (g : Geom) (n : Nat) (L : ℝ) (jx : Int)
    (Fm F Fp : Nat → ℂ) (t : ℝ) :
    let v := five o g jx none none
    v.c1 * (cw n Fp t - 2 * cw n F t + cw n Fm t) + v.c4 * (cw n Fp t - cw n Fm t)
        + v.c2 * ((n / L) * deriv (fun u => (n / L) * deriv (cw n F) u) t)
        + v.c3 * ((n / L) * (deriv (cw n Fp) t - deriv (cw n Fm) t))
        + v.c5 * ((n / L) * deriv (cw n F) t)
      = perpLaplacian o g (n / L) jx (cw n Fm) (cw n F) (cw n Fp) t := by
  dsimp only
  unfold perpLaplacian diffXX diffZ five
  have hx : deriv (diffX (g.dx jx) (cw n Fm) (cw n Fp)) t
      = (deriv (cw n Fp) t - deriv (cw n Fm) t) / (2 * g.dx jx) := by
    have := ((cw_deriv n Fp t).sub (cw_deriv n Fm t)).div_const (2 * g.dx jx)
    rw [deriv_cw, deriv_cw]
    exact this.deriv
  rw [hx]
  unfold diffX
  dsimp only
  generalize deriv (fun u => (n / L : ℝ) * deriv (cw n F) u) t = a1
  generalize deriv (cw n F) t = a2
  generalize deriv (cw n Fp) t = a3
  generalize deriv (cw n Fm) t = a4
  cases o.nonuniform <;> cases o.allTerms <;> simp only [if_true, if_false, Bool.false_eq_true] <;> ring

end Verif.Laplace
