import Verif.Invert.LaplaceView

/-!
# C54: the perpendicular Laplacian and its inversion agree
-/

namespace Verif.Laplace

open Verif.Fourier Verif.Cyclic Finset Complex
open scoped Classical

/-- **Delp2.**  At every interior X index, `Delp2` of a field is the perpendicular
Laplacian of the waves through its points: central differences in X, exact
derivatives in Z.  The sawtooth (even `nz`) is treated as a wave of wave number `nz/2`
whose odd Z derivatives vanish. -/
theorem C54_delp2 (n : Nat) (hn : 0 < n) (zlength : ℝ) (o : LapOpts) (hs : o.incIntShear = false)
    (g : Geom) (f : Int → Nat → ℝ) (a b : Int → Nat → ℝ) (N : Int → ℝ)
    (hf : ∀ x, IsRow n (f x) (a x) (b x) (N x)) (jx : Int) (h1 : 0 < jx)
    (h2 : jx < g.localNx - 1) (z : Nat) :
    delp2 n zlength o g f jx z
      = perpLaplacian o g (n / zlength) jx (waves n (a (jx - 1)) (b (jx - 1)))
          (waves n (a jx) (b jx)) (waves n (a (jx + 1)) (b (jx + 1))) z
        + sawtooth n
          (g.g11 jx * diffXX o.nonuniform (g.dx jx) (g.dx (jx - 1)) (g.dx (jx + 1))
              (fun _ => N (jx - 1)) (fun _ => N jx) (fun _ => N (jx + 1)) 0
            + (if o.allTerms then
                g.G1 jx * diffX (g.dx jx) (fun _ => N (jx - 1)) (fun _ => N (jx + 1)) 0 else 0)
            - g.g33 jx * (Real.pi * n / zlength) ^ 2 * N jx) z := by
  unfold delp2
  rw [irfft_cw hn]
  congr 1
  · rw [waves_eq_cw hn (hf (jx - 1)), waves_eq_cw hn (hf jx), waves_eq_cw hn (hf (jx + 1)),
      ← five_laplacian o g n zlength jx, ← cw_row hn zlength]
    simp only [tridagCoefs_eq h1 h2 hs]
  · apply sawtooth_congr
    intro he
    have hh : ((n / 2 : Nat) : ℝ) = n / 2 := by
      rw [Nat.cast_div (by omega) (by norm_num)]; norm_num
    rw [saw_eq hn (hf (jx - 1)) he, saw_eq hn (hf jx) he, saw_eq hn (hf (jx + 1)) he]
    simp only [tridagCoefs_eq h1 h2 hs, add_re, re_mul_ofReal, hh]
    unfold five diffXX diffX
    cases o.nonuniform <;> cases o.allTerms <;>
      simp only [if_true, if_false, Bool.false_eq_true] <;> ring

/-- A matrix row which holds for all amplitudes is the equation for the waves. -/
theorem row_operator {s : LapSetup} (hn : 0 < s.n) (hs : s.opts.incIntShear = false)
    {rhs : Nat → Int → Nat → ℝ} {q j : Nat} (h1 : 0 < s.ix q j)
    (h2 : s.ix q j < (s.geom q).localNx - 1) (Fm F Fp R : Nat → ℂ)
    (h0 : ((s.interiorRow rhs q 0 j).a * Fm 0 + (s.interiorRow rhs q 0 j).b * F 0
      + (s.interiorRow rhs q 0 j).c * Fp 0).re = (R 0).re)
    (h : ∀ k, 1 ≤ k → 2 * k < s.n → (s.interiorRow rhs q k j).a * Fm k
      + (s.interiorRow rhs q k j).b * F k + (s.interiorRow rhs q k j).c * Fp k = R k) (t : ℝ) :
    fullOperator s.opts (s.geom q) (s.coef q) (s.n / s.zlength) (s.ix q j) (cw s.n Fm) (cw s.n F)
      (cw s.n Fp) t = cw s.n R t := by
  have e : ∀ k, (s.interiorRow rhs q k j).a * Fm k + (s.interiorRow rhs q k j).b * F k
      + (s.interiorRow rhs q k j).c * Fp k
      = ((tridagCoefs s.opts (s.geom q) (s.ix q j) (k * 2 * Real.pi / s.zlength)
          (some ((s.coef q).C1, (s.coef q).C2)) (some (s.coef q).D)).a * Fm k
        + (tridagCoefs s.opts (s.geom q) (s.ix q j) (k * 2 * Real.pi / s.zlength)
          (some ((s.coef q).C1, (s.coef q).C2)) (some (s.coef q).D)).b * F k
        + (tridagCoefs s.opts (s.geom q) (s.ix q j) (k * 2 * Real.pi / s.zlength)
          (some ((s.coef q).C1, (s.coef q).C2)) (some (s.coef q).D)).c * Fp k)
        + (((s.coef q).A (s.ix q j) : ℝ) : ℂ) * F k := by
    intro k
    unfold LapSetup.interiorRow
    dsimp only
    ring
  rw [← five_operator, ← cw_row hn, ← cw_smul, ← cw_add]
  refine congrFun (cw_congr ?_ ?_) t
  · rw [← h0, e 0, tridagCoefs_eq h1 h2 hs]
  · intro m hm1 hm2
    rw [← h m hm1 hm2, e m, tridagCoefs_eq h1 h2 hs]

/-- Amplitudes of the returned rows. -/
theorem rfft_back {s : LapSetup} (hn : 0 < s.n) (X : Nat → Nat → Nat → ℂ) (q j k : Nat)
    (hk : 2 * k ≤ s.n) :
    rfft s.n (irfft s.n (s.back X q j)) k
      = if k = 0 ∨ 2 * k = s.n then ((s.back X q j k).re : ℂ) else s.back X q j k :=
  C53_rfft_irfft s.n hn _ k hk

/-- At wave number 0 the row is real. -/
theorem interiorRow_zero {s : LapSetup} (rhs : Nat → Int → Nat → ℝ) (q j : Nat) :
    ((s.interiorRow rhs q 0 j).a).im = 0 ∧ ((s.interiorRow rhs q 0 j).b).im = 0
      ∧ ((s.interiorRow rhs q 0 j).c).im = 0 := by
  unfold LapSetup.interiorRow tridagCoefs
  simp

theorem re_row {a b c x y z : ℂ} (ha : a.im = 0) (hb : b.im = 0) (hc : c.im = 0) :
    (a * (x.re : ℂ) + b * (y.re : ℂ) + c * (z.re : ℂ)).re = (a * x + b * y + c * z).re := by
  simp [mul_re, ha, hb, hc]

theorem prevVal_left {P : Nat} {N : Nat → Nat} {per : Bool} {X : Nat → Nat → ℂ} {q j : Nat}
    (h : j ≠ 0 ∨ q ≠ 0 ∨ per = true) :
    prevVal P N per X q j = X (leftOf P N q j).1 (leftOf P N q j).2 := by
  unfold prevVal leftOf
  by_cases h1 : j ≠ 0
  · rw [if_pos h1, if_pos h1]
  · rw [if_neg h1, if_neg h1]
    by_cases h2 : q ≠ 0
    · rw [if_pos h2, if_pos h2]
    · rw [if_neg h2, if_neg h2, if_pos (by tauto)]

theorem nextVal_right {P : Nat} {N : Nat → Nat} {per : Bool} {X : Nat → Nat → ℂ} {q j : Nat}
    (h : j + 1 ≠ N q ∨ q + 1 ≠ P ∨ per = true) :
    nextVal P N per X q j = X (rightOf P N q j).1 (rightOf P N q j).2 := by
  unfold nextVal rightOf
  by_cases h1 : j + 1 ≠ N q
  · rw [if_pos h1, if_pos h1]
  · rw [if_neg h1, if_neg h1]
    by_cases h2 : q + 1 ≠ P
    · rw [if_pos h2, if_pos h2]
    · rw [if_neg h2, if_neg h2, if_pos (by tauto)]

theorem rfft_zero_real {n : Nat} (hn : 0 < n) (f : Nat → ℝ) : ((rfft n f 0).re : ℂ) = rfft n f 0 := by
  obtain ⟨a, b, N, hf⟩ := exists_isRow hn f
  rw [rfft_of_isRow hn hf 0 (by omega), if_pos rfl, ofReal_re]

/-- **The solution satisfies the equation.**  On any number of processors in X, for
any order of message arrival, whenever `LaplaceCyclic::solve` returns: at every X
index off the X boundaries the result `x`, with the neighbouring rows taken across
processor boundaries, satisfies
`D Delp2(x) + (1/C1) Grad_perp(C2)·Grad_perp(x) + A x = rhs`
for the waves up to wave number `maxmode` (without the mean if `INVERT_ZERO_DC` is
set), and has no waves above it. -/
theorem C54_solve_interior (s : LapSetup) (hw : s.WellFormed) (hper : s.periodicX = false)
    (rhs x0 : Nat → Int → Nat → ℝ) (x : Nat → Nat → Nat → ℝ)
    (h : s.Returned rhs x0 x)
    (a b : Nat → Nat → Nat → ℝ) (M : Nat → Nat → ℝ)
    (hx : ∀ q j, IsRow s.n (x q j) (a q j) (b q j) (M q j))
    (q j : Nat) (hq : q < s.P) (hj : j < s.N q)
    (h1 : (s.geom q).xstart ≤ s.ix q j) (h2 : s.ix q j ≤ (s.geom q).xend)
    (ar br : Nat → ℝ) (Nr : ℝ) (hr : IsRow s.n (rhs q (s.ix q j)) ar br Nr) (t : ℝ) :
    let l := leftOf s.P s.N q j
    let r := rightOf s.P s.N q j
    fullOperator s.opts (s.geom q) (s.coef q) (s.n / s.zlength) (s.ix q j)
        (waves s.n (a l.1 l.2) (b l.1 l.2)) (waves s.n (a q j) (b q j))
        (waves s.n (a r.1 r.2) (b r.1 r.2)) t
      = waves s.n
          (keep (fun m => m ≤ s.maxmode ∧ (has s.flags.global INVERT_ZERO_DC = true → m ≠ 0)) ar)
          (keep (fun m => m ≤ s.maxmode ∧ (has s.flags.global INVERT_ZERO_DC = true → m ≠ 0)) br)
          t := by
  dsimp only
  obtain ⟨hP, hn, hmm, hsh, hg⟩ := id hw
  obtain ⟨hg1, hg2, hg3, hgf, hgl⟩ := hg q hq
  obtain ⟨co, X, hco, hX, rfl⟩ := h.view hw
  set l := leftOf s.P s.N q j with hl
  set r := rightOf s.P s.N q j with hrr
  have hxs : q = 0 → xs (s.geom q) s.periodicX = 0 := by
    intro hq0; unfold xs; rw [if_neg]; simp [hper, hgf.2 hq0]
  have hxe : q + 1 = s.P → xe (s.geom q) s.periodicX = (s.geom q).localNx - 1 := by
    intro hq0; unfold xe; rw [if_neg]; simp [hper, hgl.2 hq0]
  have hNq : ((s.N q : Nat) : Int) = xe (s.geom q) s.periodicX - xs (s.geom q) s.periodicX + 1 := by
    have : 0 < s.N q := by omega
    unfold LapSetup.N at this ⊢
    omega
  have hixe : s.ix q j = xs (s.geom q) s.periodicX + j := rfl
  have hleft : j ≠ 0 ∨ q ≠ 0 ∨ s.periodicX = true := by
    by_contra hc
    have : q = 0 := by tauto
    have := hxs this
    omega
  have hright : j + 1 ≠ s.N q ∨ q + 1 ≠ s.P ∨ s.periodicX = true := by
    by_contra hc
    have h3 : q + 1 = s.P := by tauto
    have h4 : j + 1 = s.N q := by tauto
    have := hxe h3
    omega
  -- the row of mode k
  have hrow : ∀ k, k ≤ s.maxmode → (s.interiorRow rhs q k j).a * X l.1 k l.2
      + (s.interiorRow rhs q k j).b * X q k j + (s.interiorRow rhs q k j).c * X r.1 k r.2
      = rfft s.n (rhs q (s.ix q j)) k := by
    intro k hk
    have := hX k hk q hq j hj
    dsimp only at this
    rw [matrix_interior hw hper hq (hco q hq k hk) j h1 h2] at this
    unfold Row.Holds at this
    rw [prevVal_left hleft, nextVal_right hright] at this
    exact this
  rw [waves_eq_cw hn (hx l.1 l.2), waves_eq_cw hn (hx q j), waves_eq_cw hn (hx r.1 r.2)]
  have hR : waves s.n
          (keep (fun m => m ≤ s.maxmode ∧ (has s.flags.global INVERT_ZERO_DC = true → m ≠ 0)) ar)
          (keep (fun m => m ≤ s.maxmode ∧ (has s.flags.global INVERT_ZERO_DC = true → m ≠ 0)) br) t
      = cw s.n (fun m => if m ≤ s.maxmode ∧ (has s.flags.global INVERT_ZERO_DC = true → m ≠ 0)
          then rfft s.n (rhs q (s.ix q j)) m else 0) t := by
    unfold cw
    apply waves_congr
    · dsimp only
      rw [if_pos rfl]
      unfold keep
      split_ifs
      · rw [rfft_of_isRow hn hr 0 (by omega), if_pos rfl, ofReal_re]
      · rfl
    · intro m hm1 hm2
      unfold keep
      dsimp only
      rw [if_neg (show ¬ m = 0 by omega)]
      split_ifs
      · rw [rfft_of_isRow hn hr m (by omega), if_neg (show ¬ m = 0 by omega), if_neg (show ¬ 2 * m = s.n by omega)]
        constructor <;> ring
      · simp
  rw [hR]
  apply row_operator hn hsh (rhs := rhs) (by omega) (by omega)
  · rw [rfft_back hn _ _ _ 0 (by omega), rfft_back hn _ _ _ 0 (by omega),
      rfft_back hn _ _ _ 0 (by omega), if_pos (Or.inl rfl), if_pos (Or.inl rfl),
      if_pos (Or.inl rfl)]
    obtain ⟨i1, i2, i3⟩ := interiorRow_zero (s := s) rhs q j
    rw [re_row i1 i2 i3]
    by_cases hz : has s.flags.global INVERT_ZERO_DC = true
    · have hb : ∀ q j, s.back X q j 0 = 0 := by
        intro q j; unfold LapSetup.back; rw [if_pos ⟨hz, rfl⟩]
      rw [hb, hb, hb, if_neg (fun hc => hc.2 hz rfl)]
      simp
    · have hb : ∀ q j, s.back X q j 0 = X q 0 j := by
        intro q j; unfold LapSetup.back
        rw [if_neg (fun hc => hz hc.1), if_neg (by omega), if_neg (by simp [hper])]
      rw [hb, hb, hb, if_pos ⟨Nat.zero_le _, fun hc => absurd hc hz⟩, hrow 0 (Nat.zero_le _)]
  · intro k hk1 hk2
    rw [rfft_back hn _ _ _ k (by omega), rfft_back hn _ _ _ k (by omega),
      rfft_back hn _ _ _ k (by omega), if_neg (by omega), if_neg (by omega), if_neg (by omega)]
    by_cases hm : k ≤ s.maxmode
    · have hb : ∀ q j, s.back X q j k = X q k j := by
        intro q j; unfold LapSetup.back
        rw [if_neg (fun hc => by omega), if_neg (by omega), if_neg (fun hc => by omega)]
      rw [hb, hb, hb, if_pos ⟨hm, fun _ => by omega⟩, hrow k hm]
    · have hb : ∀ q j, s.back X q j k = 0 := by
        intro q j; unfold LapSetup.back
        rw [if_neg (fun hc => by omega), if_pos (by omega)]
      rw [hb, hb, hb, if_neg (fun hc => hm hc.1)]
      simp

end Verif.Laplace
