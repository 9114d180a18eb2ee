import Verif.Invert.LaplaceExist

/-!
# C54: `Delp2` undoes the inversion; periodic X
-/

namespace Verif.Laplace

open Verif.Fourier Verif.Cyclic Finset Complex
open scoped Classical

/-- `irfft` depends on the real parts at 0 and `n/2` and the waves between. -/
theorem irfft_ext {n : Nat} (hn : 0 < n) {c d : Nat → ℂ} (h0 : (c 0).re = (d 0).re)
    (h : ∀ m, 1 ≤ m → 2 * m < n → c m = d m) (hN : n % 2 = 0 → (c (n / 2)).re = (d (n / 2)).re)
    (z : Nat) : irfft n c z = irfft n d z := by
  rw [irfft_cw hn, irfft_cw hn, cw_congr h0 h, sawtooth_congr hN]

/-- Without C, D and A the matrix row is that of `Delp2`. -/
theorem tridag_plain {s : LapSetup} {q j : Nat} (hD : (s.coef q).D (s.ix q j) = 1)
    (hC : (s.coef q).C2 (s.ix q j + 1) = (s.coef q).C2 (s.ix q j - 1)) (kw : ℝ) :
    tridagCoefs s.opts (s.geom q) (s.ix q j) kw (some ((s.coef q).C1, (s.coef q).C2))
      (some (s.coef q).D) = tridagCoefs s.opts (s.geom q) (s.ix q j) kw none none := by
  unfold tridagCoefs
  dsimp only
  rw [hD, hC, sub_self, zero_div, ite_self]

/-- **`Delp2` undoes the inversion.**  With `A = 0`, `D = 1`, `C` constant, all waves kept
and the mean not removed: if `f` is the returned field with its X guard cells filled from
the neighbours, then `Delp2(f)` is the right-hand side at every point off the
boundaries.  For even `nz` this needs `g13 = 0` and `G3 = 0` (or no first-derivative
terms) at that point, otherwise it fails in the shortest wave. -/
theorem C54_delp2_solve (s : LapSetup) (hw : s.WellFormed) (hper : s.periodicX = false)
    (rhs x0 : Nat → Int → Nat → ℝ) (x : Nat → Nat → Nat → ℝ)
    (h : s.Returned rhs x0 x)
    (hall : s.maxmode = s.n / 2) (hdc : has s.flags.global INVERT_ZERO_DC = false)
    (q j : Nat) (hq : q < s.P) (hj : j < s.N q)
    (h1 : (s.geom q).xstart ≤ s.ix q j) (h2 : s.ix q j ≤ (s.geom q).xend)
    (hA : (s.coef q).A (s.ix q j) = 0) (hD : (s.coef q).D (s.ix q j) = 1)
    (hC : (s.coef q).C2 (s.ix q j + 1) = (s.coef q).C2 (s.ix q j - 1))
    (heven : s.n % 2 = 0 → (s.geom q).g13 (s.ix q j) = 0
      ∧ (s.opts.allTerms = true → (s.geom q).G3 (s.ix q j) = 0))
    (f : Int → Nat → ℝ) (hf : f (s.ix q j) = x q j)
    (hfm : f (s.ix q j - 1) = x (leftOf s.P s.N q j).1 (leftOf s.P s.N q j).2)
    (hfp : f (s.ix q j + 1) = x (rightOf s.P s.N q j).1 (rightOf s.P s.N q j).2)
    (z : Nat) (hz : z < s.n) :
    delp2 s.n s.zlength s.opts (s.geom q) f (s.ix q j) z = rhs q (s.ix q j) z := by
  obtain ⟨hP, hn, hmm, hsh, hg⟩ := id hw
  obtain ⟨hg1, hg2, hg3, hgf, hgl⟩ := hg q hq
  obtain ⟨co, X, hco, hX, rfl⟩ := h.view hw
  have hxs : q = 0 → xs (s.geom q) s.periodicX = 0 := by
    intro hq0; unfold xs; rw [if_neg]; simp [hper, hgf.2 hq0]
  have hxe : q + 1 = s.P → xe (s.geom q) s.periodicX = (s.geom q).localNx - 1 := by
    intro hq0; unfold xe; rw [if_neg]; simp [hper, hgl.2 hq0]
  have hNq : ((s.N q : Nat) : Int) = xe (s.geom q) s.periodicX - xs (s.geom q) s.periodicX + 1 := by
    have : 0 < s.N q := by omega
    unfold LapSetup.N at this ⊢
    omega
  have hixe : s.ix q j = xs (s.geom q) s.periodicX + j := rfl
  have hleft : j ≠ 0 ∨ q ≠ 0 ∨ s.periodicX = true := by
    by_contra hc
    have : q = 0 := by tauto
    have := hxs this
    omega
  have hright : j + 1 ≠ s.N q ∨ q + 1 ≠ s.P ∨ s.periodicX = true := by
    by_contra hc
    have h3 : q + 1 = s.P := by tauto
    have h4 : j + 1 = s.N q := by tauto
    have := hxe h3
    omega
  have hi0 : 0 < s.ix q j := by omega
  have hi1 : s.ix q j < (s.geom q).localNx - 1 := by omega
  set l := leftOf s.P s.N q j with hl
  set r := rightOf s.P s.N q j with hrr
  set t : Nat → Coef3 := fun k => tridagCoefs s.opts (s.geom q) (s.ix q j)
    (k * 2 * Real.pi / s.zlength) none none with ht
  have hrow : ∀ k, k ≤ s.maxmode → (t k).a * X l.1 k l.2 + (t k).b * X q k j + (t k).c * X r.1 k r.2
      = rfft s.n (rhs q (s.ix q j)) k := by
    intro k hk
    have := hX k hk q hq j hj
    dsimp only at this
    rw [matrix_interior hw hper hq (hco q hq k hk) j h1 h2] at this
    unfold Row.Holds LapSetup.interiorRow at this
    dsimp only at this
    rw [prevVal_left hleft, nextVal_right hright, tridag_plain hD hC, hA, ofReal_zero, add_zero] at this
    exact this
  have hb : ∀ q j k, k ≤ s.maxmode → s.back X q j k = X q k j := by
    intro q j k hk
    unfold LapSetup.back
    rw [hdc, if_neg (by simp), if_neg (by omega), if_neg (by simp [hper])]
  have him : ∀ k, k = 0 ∨ 2 * k = s.n → (t k).a.im = 0 ∧ (t k).b.im = 0 ∧ (t k).c.im = 0 := by
    intro k hk
    rw [ht]
    dsimp only
    rw [tridagCoefs_eq hi0 hi1 hsh]
    dsimp only
    rcases hk with hk | hk
    · rw [hk]; simp
    · obtain ⟨e1, e2⟩ := heven (by omega)
      unfold five
      dsimp only
      rw [e1]
      by_cases ha : s.opts.allTerms = true
      · rw [e2 ha]; simp
      · rw [if_neg ha]; simp
  unfold delp2
  rw [hf, hfm, hfp]
  conv_rhs => rw [← irfft_rfft (rhs q (s.ix q j)) z hz]
  apply irfft_ext hn
  · dsimp only
    rw [rfft_back hn _ _ _ 0 (by omega), rfft_back hn _ _ _ 0 (by omega),
      rfft_back hn _ _ _ 0 (by omega), if_pos (Or.inl rfl), if_pos (Or.inl rfl), if_pos (Or.inl rfl),
      hb _ _ _ (Nat.zero_le _), hb _ _ _ (Nat.zero_le _), hb _ _ _ (Nat.zero_le _), ← hrow 0 (Nat.zero_le _)]
    obtain ⟨i1, i2, i3⟩ := him 0 (Or.inl rfl)
    exact re_row i1 i2 i3
  · intro m hm1 hm2
    dsimp only
    rw [rfft_back hn _ _ _ m (by omega), rfft_back hn _ _ _ m (by omega),
      rfft_back hn _ _ _ m (by omega), if_neg (by omega), if_neg (by omega), if_neg (by omega),
      hb _ _ _ (by omega), hb _ _ _ (by omega), hb _ _ _ (by omega), ← hrow m (by omega)]
  · intro he
    dsimp only
    obtain ⟨k, hk⟩ : ∃ k, k = s.n / 2 := ⟨_, rfl⟩
    rw [← hk]
    have h2n : k = 0 ∨ 2 * k = s.n := Or.inr (by omega)
    have hkm : k ≤ s.maxmode := by omega
    rw [rfft_back hn _ _ _ k (by omega), rfft_back hn _ _ _ k (by omega),
      rfft_back hn _ _ _ k (by omega), if_pos h2n, if_pos h2n, if_pos h2n,
      hb _ _ _ hkm, hb _ _ _ hkm, hb _ _ _ hkm, ← hrow k hkm]
    obtain ⟨i1, i2, i3⟩ := him k h2n
    exact re_row i1 i2 i3

/-! ## Periodic X -/

/-- In periodic X every row is an interior row, except the pinned one of the mean. -/
theorem matrix_periodic {s : LapSetup} (hw : s.WellFormed) (hper : s.periodicX = true)
    {rhs x0 : Nat → Int → Nat → ℝ} {q kz : Nat} (hq : q < s.P) {r : Nat → Row ℂ}
    (h : s.matrix rhs x0 q kz = .ok r) (j : Nat) (hj : j < s.N q) :
    r j = if kz = 0 ∧ q = 0 ∧ j = 0 then { a := 0, b := 1, c := 0, r := 0 }
      else s.interiorRow rhs q kz j := by
  obtain ⟨_, _, _, _, hg⟩ := hw
  obtain ⟨hg1, hg2, hg3, hgf, hgl⟩ := hg q hq
  have hi := inb_le hg1 s.flags
  have ho := outb_le hg1 s.flags
  have hxs : xs (s.geom q) s.periodicX = (s.geom q).xstart := by
    unfold xs; rw [if_pos (Or.inr hper)]
  have hxe : xe (s.geom q) s.periodicX = (s.geom q).xend := by
    unfold xe; rw [if_pos (Or.inr hper)]
  have hN : s.N q = ((s.geom q).xend - (s.geom q).xstart + 1).toNat := by
    unfold LapSetup.N; rw [hxs, hxe]
  have hix : s.ix q j = (s.geom q).xstart + j := by unfold LapSetup.ix; rw [hxs]
  have hbase : baseRows s.opts (s.geom q) (s.coef q) s.periodicX (kz * 2 * Real.pi / s.zlength)
      (s.bk rhs x0 q kz) j = s.interiorRow rhs q kz j := by
    unfold baseRows
    dsimp only
    have hb : s.bk rhs x0 q kz j = rfft s.n (rhs q (s.ix q j)) kz := by
      unfold LapSetup.bk
      dsimp only
      rw [if_neg]
      rintro (⟨h, _⟩ | ⟨h, _⟩) <;> omega
    rw [hb]; rfl
  unfold LapSetup.matrix tridagMatrix at h
  dsimp only at h
  rw [if_neg (by simp [hper])] at h
  by_cases hc : kz = 0 ∧ (s.geom q).firstX = true
  · rw [if_pos hc] at h
    rw [← Except.ok.inj h]
    dsimp only
    have hq0 := hgf.1 hc.2
    by_cases hj0 : j = 0
    · rw [if_pos hj0, if_pos ⟨hc.1, hq0, hj0⟩]
    · rw [if_neg hj0, if_neg (fun h => hj0 h.2.2), hbase]
  · rw [if_neg hc] at h
    rw [← Except.ok.inj h, hbase, if_neg]
    exact fun h => hc ⟨h.1, hgf.2 h.2.1⟩

/-- Wave numbers kept: `1 ≤ m ≤ maxmode`. -/
theorem keep_waves_eq {n : Nat} (hn : 0 < n) {f ar br : Nat → ℝ} {Nr : ℝ} (hr : IsRow n f ar br Nr)
    (S : Nat → Prop) [DecidablePred S] : waves n (keep S ar) (keep S br) = cw n (fun m => if S m then rfft n f m else 0) := by
  funext t
  unfold cw
  apply waves_congr
  · dsimp only
    rw [if_pos rfl]
    unfold keep
    split_ifs
    · rw [rfft_of_isRow hn hr 0 (by omega), if_pos rfl, ofReal_re]
    · rfl
  · intro m hm1 hm2
    unfold keep
    dsimp only
    rw [if_neg (show ¬ m = 0 by omega)]
    split_ifs
    · rw [rfft_of_isRow hn hr m (by omega), if_neg (show ¬ m = 0 by omega),
        if_neg (show ¬ 2 * m = n by omega)]
      constructor <;> simp <;> ring
    · simp

/-- The sum of the entries of an interior row of the mean is `A`. -/
theorem interior_sum {s : LapSetup} (hs : s.opts.incIntShear = false)
    (rhs : Nat → Int → Nat → ℝ) (q j : Nat) (h1 : 0 < s.ix q j)
    (h2 : s.ix q j < (s.geom q).localNx - 1) :
    (s.interiorRow rhs q 0 j).a + (s.interiorRow rhs q 0 j).b + (s.interiorRow rhs q 0 j).c
      = (((s.coef q).A (s.ix q j) : ℝ) : ℂ) := by
  unfold LapSetup.interiorRow
  dsimp only
  rw [tridagCoefs_eq h1 h2 hs]
  apply Complex.ext
  · simp; ring
  · simp

section periodic

variable {s : LapSetup} (hw : s.WellFormed) (hper : s.periodicX = true)
  {rhs x0 : Nat → Int → Nat → ℝ} {x : Nat → Nat → Nat → ℝ}
  (h : s.Returned rhs x0 x)

include hw hper h

/-- **Periodic X, waves.**  At every point the waves `1 ≤ m ≤ maxmode` of the result,
neighbours taken across processors and around the torus, satisfy the equation. -/
theorem C54_periodic_waves
    (a b : Nat → Nat → Nat → ℝ) (M : Nat → Nat → ℝ)
    (hx : ∀ q j, IsRow s.n (x q j) (a q j) (b q j) (M q j))
    (q j : Nat) (hq : q < s.P) (hj : j < s.N q)
    (ar br : Nat → ℝ) (Nr : ℝ) (hr : IsRow s.n (rhs q (s.ix q j)) ar br Nr) (t : ℝ) :
    let l := leftOf s.P s.N q j
    let r := rightOf s.P s.N q j
    fullOperator s.opts (s.geom q) (s.coef q) (s.n / s.zlength) (s.ix q j)
        (waves s.n (keep (· ≠ 0) (a l.1 l.2)) (keep (· ≠ 0) (b l.1 l.2)))
        (waves s.n (keep (· ≠ 0) (a q j)) (keep (· ≠ 0) (b q j)))
        (waves s.n (keep (· ≠ 0) (a r.1 r.2)) (keep (· ≠ 0) (b r.1 r.2))) t
      = waves s.n (keep (fun m => 1 ≤ m ∧ m ≤ s.maxmode) ar)
          (keep (fun m => 1 ≤ m ∧ m ≤ s.maxmode) br) t := by
  dsimp only
  obtain ⟨hP, hn, hmm, hsh, hg⟩ := id hw
  obtain ⟨hg1, hg2, hg3, hgf, hgl⟩ := hg q hq
  obtain ⟨co, X, hco, hX, rfl⟩ := h.view hw
  have hxs : xs (s.geom q) s.periodicX = (s.geom q).xstart := by
    unfold xs; rw [if_pos (Or.inr hper)]
  have hxe : xe (s.geom q) s.periodicX = (s.geom q).xend := by
    unfold xe; rw [if_pos (Or.inr hper)]
  have hN : s.N q = ((s.geom q).xend - (s.geom q).xstart + 1).toNat := by
    unfold LapSetup.N; rw [hxs, hxe]
  have hix : s.ix q j = (s.geom q).xstart + j := by unfold LapSetup.ix; rw [hxs]
  rw [keep_waves_eq hn (hx _ _), keep_waves_eq hn (hx _ _), keep_waves_eq hn (hx _ _),
    keep_waves_eq hn hr]
  apply row_operator hn hsh (rhs := rhs) (by omega) (by omega)
  · dsimp only
    rw [if_neg (by simp), if_neg (by simp), if_neg (by simp), if_neg (by omega)]
    simp
  · intro k hk1 hk2
    dsimp only
    rw [if_pos (by omega), if_pos (by omega), if_pos (by omega), rfft_back hn _ _ _ k (by omega),
      rfft_back hn _ _ _ k (by omega), rfft_back hn _ _ _ k (by omega), if_neg (by omega),
      if_neg (by omega), if_neg (by omega)]
    by_cases hm : k ≤ s.maxmode
    · have hb : ∀ q j, s.back X q j k = X q k j := by
        intro q j; unfold LapSetup.back
        rw [if_neg (fun hc => by omega), if_neg (by omega), if_neg (fun hc => by omega)]
      rw [hb, hb, hb, if_pos ⟨hk1, hm⟩]
      have := hX k hm q hq j hj
      dsimp only at this
      rw [matrix_periodic hw hper hq (hco q hq k hm) j hj, if_neg (by omega)] at this
      unfold Row.Holds at this
      rw [prevVal_left (Or.inr (Or.inr hper)), nextVal_right (Or.inr (Or.inr hper))] at this
      exact this
    · have hb : ∀ q j, s.back X q j k = 0 := by
        intro q j; unfold LapSetup.back
        rw [if_neg (fun hc => by omega), if_pos (by omega)]
      rw [hb, hb, hb, if_neg (by omega)]
      simp

/-- The mean over Z of a returned row. -/
theorem periodic_mean_row (X : Nat → Nat → Nat → ℂ) (hx : x = fun q j => irfft s.n (s.back X q j))
    (hdc : has s.flags.global INVERT_ZERO_DC = false) (q j : Nat) :
    rfft s.n (x q j) 0 = ((((X q 0 j).re - s.average X : ℝ)) : ℂ) := by
  have hn := hw.2.1
  rw [hx, rfft_back hn _ _ _ 0 (by omega), if_pos (Or.inl rfl)]
  unfold LapSetup.back
  rw [hdc, if_neg (by simp), if_neg (by omega), if_pos ⟨hper, rfl⟩]
  simp

/-- **Periodic X, mean.**  The average of the result over X and Z is zero. -/
theorem C54_periodic_mean :
    ∑ q ∈ range s.P, ∑ j ∈ range (s.N q), rfft s.n (x q j) 0 = 0 := by
  obtain ⟨hP, hn, hmm, hsh, hg⟩ := id hw
  obtain ⟨co, X, hco, hX, hxX⟩ := h.view hw
  by_cases hdc : has s.flags.global INVERT_ZERO_DC = true
  · refine sum_eq_zero fun q _ => sum_eq_zero fun j _ => ?_
    exact solve_dropped hw h (by omega) (Or.inr ⟨rfl, hdc⟩) q j
  · have hdc' : has s.flags.global INVERT_ZERO_DC = false := by simpa using hdc
    have e : ∀ q j, rfft s.n (x q j) 0 = ((((X q 0 j).re - s.average X : ℝ)) : ℂ) :=
      fun q j => periodic_mean_row hw hper h X hxX hdc' q j
    simp only [e]
    rw [← ofReal_zero]
    simp only [← ofReal_sum]
    congr 1
    simp only [sum_sub_distrib, sum_const, card_range, nsmul_eq_mul]
    rw [← sum_mul]
    unfold LapSetup.average
    have hne : (∑ q ∈ range s.P, ((s.N q : Nat) : ℝ)) ≠ 0 := by
      have h00 := hg 0 (by omega)
      have : (0 : ℝ) < ∑ q ∈ range s.P, ((s.N q : Nat) : ℝ) := by
        refine sum_pos (fun q hq => ?_) ⟨0, by simp; omega⟩
        obtain ⟨g1, g2, _⟩ := hg q (mem_range.1 hq)
        have : 0 < s.N q := by
          unfold LapSetup.N xs xe
          rw [if_pos (Or.inr hper), if_pos (Or.inr hper)]
          omega
        exact_mod_cast this
      exact this.ne'
    rw [mul_div_cancel₀ _ hne, sub_self]

/-- **Periodic X, equation of the mean.**  Where `A = 0`, at every X index but the first,
the mean over Z satisfies the equation (without C term: with it too). -/
theorem C54_periodic_mean_equation (hdc : has s.flags.global INVERT_ZERO_DC = false)
    (q j : Nat) (hq : q < s.P) (hj : j < s.N q) (hne : ¬ (q = 0 ∧ j = 0))
    (hA : (s.coef q).A (s.ix q j) = 0) :
    let l := leftOf s.P s.N q j
    let r := rightOf s.P s.N q j
    fullOperator s.opts (s.geom q) (s.coef q) (s.n / s.zlength) (s.ix q j)
        (fun _ => (rfft s.n (x l.1 l.2) 0).re) (fun _ => (rfft s.n (x q j) 0).re)
        (fun _ => (rfft s.n (x r.1 r.2) 0).re) 0
      = (rfft s.n (rhs q (s.ix q j)) 0).re := by
  dsimp only
  obtain ⟨hP, hn, hmm, hsh, hg⟩ := id hw
  obtain ⟨hg1, hg2, hg3, hgf, hgl⟩ := hg q hq
  obtain ⟨co, X, hco, hX, hxX⟩ := h.view hw
  have hxs : xs (s.geom q) s.periodicX = (s.geom q).xstart := by
    unfold xs; rw [if_pos (Or.inr hper)]
  have hxe : xe (s.geom q) s.periodicX = (s.geom q).xend := by
    unfold xe; rw [if_pos (Or.inr hper)]
  have hN : s.N q = ((s.geom q).xend - (s.geom q).xstart + 1).toNat := by
    unfold LapSetup.N; rw [hxs, hxe]
  have hix : s.ix q j = (s.geom q).xstart + j := by unfold LapSetup.ix; rw [hxs]
  have hi0 : 0 < s.ix q j := by omega
  have hi1 : s.ix q j < (s.geom q).localNx - 1 := by omega
  have e : ∀ q j, (rfft s.n (x q j) 0).re = (X q 0 j).re - s.average X := by
    intro q j
    rw [periodic_mean_row hw hper h X hxX hdc q j, ofReal_re]
  have hrow := hX 0 (Nat.zero_le _) q hq j hj
  dsimp only at hrow
  rw [matrix_periodic hw hper hq (hco q hq 0 (Nat.zero_le _)) j hj, if_neg (by tauto)] at hrow
  unfold Row.Holds at hrow
  rw [prevVal_left (Or.inr (Or.inr hper)), nextVal_right (Or.inr (Or.inr hper))] at hrow
  set l := leftOf s.P s.N q j
  set r := rightOf s.P s.N q j
  have hcw : ∀ v : ℝ, (fun _ : ℝ => v) = cw s.n (fun k => if k = 0 then (v : ℂ) else 0) := by
    intro v
    funext t
    unfold cw waves
    dsimp only
    rw [if_pos rfl, if_pos rfl, ofReal_re]
    symm
    rw [add_eq_left]
    refine sum_eq_zero fun m hm => ?_
    have hm0 : m ≠ 0 := by
      intro h
      simp [h] at hm
    rw [if_neg hm0, if_neg hm0]
    simp
  have hc := hcw ((rfft s.n (rhs q (s.ix q j)) 0).re)
  rw [show (rfft s.n (rhs q (s.ix q j)) 0).re
    = (fun _ : ℝ => (rfft s.n (rhs q (s.ix q j)) 0).re) (0 : ℝ) from rfl, hc, hcw, hcw, hcw]
  apply row_operator hn hsh (rhs := rhs) hi0 hi1
  · rw [if_pos rfl, if_pos rfl, if_pos rfl, if_pos rfl, ofReal_re, e, e, e]
    obtain ⟨i1, i2, i3⟩ := interiorRow_zero (s := s) rhs q j
    have hsum := interior_sum hsh rhs q j hi0 hi1
    rw [hA, ofReal_zero] at hsum
    have hsre := congrArg Complex.re hsum
    have hre := congrArg Complex.re hrow
    have hrr : (s.interiorRow rhs q 0 j).r = rfft s.n (rhs q (s.ix q j)) 0 := rfl
    rw [hrr] at hre
    rw [← hre]
    simp only [add_re, mul_re, ofReal_re, ofReal_im, zero_re, i1, i2, i3] at hsre ⊢
    linear_combination (-(s.average X)) * hsre
  · intro k hk1 hk2
    rw [if_neg (by omega), if_neg (by omega), if_neg (by omega), if_neg (by omega)]
    simp

omit hw hper h in
/-- The operator applied to the constant 1. -/
theorem operator_one (o : LapOpts) (g : Geom) (co : LapCoef) (c : ℝ) (jx : Int) (t : ℝ) :
    fullOperator o g co c jx (fun _ => 1) (fun _ => 1) (fun _ => 1) t = co.A jx := by
  have e : diffX (g.dx jx) (fun _ => 1) (fun _ => 1) = fun _ => 0 := by
    funext t; unfold diffX; simp
  have e1 : diffZ c (fun _ => 1) = fun _ => 0 := by funext t; unfold diffZ; simp
  have e2 : diffZ c (fun _ => 0) = fun _ => 0 := by funext t; unfold diffZ; simp
  have e3 : diffXX o.nonuniform (g.dx jx) (g.dx (jx - 1)) (g.dx (jx + 1)) (fun _ => 1) (fun _ => 1)
      (fun _ => 1) t = 0 := by
    unfold diffXX; rw [e]; simp; left; norm_num
  unfold fullOperator perpLaplacian
  rw [e3, e, e1, e2]
  simp

/-- **Violated: periodic X with `A ≠ 0`.**  If the right-hand side is `A` itself, the field 1
satisfies the equation at every point; the inversion never returns it (for `A ≠ 0` it is
the only solution of a Helmholtz problem), since it forces the mean over X to zero as if
the operator had a null space. -/
theorem C54_periodic_helmholtz_violated
    (hrhs : ∀ q ix z, rhs q ix z = (s.coef q).A ix) :
    (∀ q j t, fullOperator s.opts (s.geom q) (s.coef q) (s.n / s.zlength) (s.ix q j)
        (fun _ => 1) (fun _ => 1) (fun _ => 1) t = rhs q (s.ix q j) 0)
    ∧ ∃ q j z, q < s.P ∧ j < s.N q ∧ z < s.n ∧ x q j z ≠ 1 := by
  refine ⟨fun q j t => by rw [operator_one, hrhs], ?_⟩
  by_contra hcon
  have hone : ∀ q j z, q < s.P → j < s.N q → z < s.n → x q j z = 1 := by
    intro q j z hq hj hz
    by_contra hc
    exact hcon ⟨q, j, z, hq, hj, hz, hc⟩
  have hm := C54_periodic_mean hw hper h
  obtain ⟨hP, hn, hmm, hsh, hg⟩ := id hw
  have e : ∀ q, q < s.P → ∀ j, j < s.N q → rfft s.n (x q j) 0 = 1 := by
    intro q hq j hj
    have hr : IsRow s.n (x q j) (fun m => if m = 0 then 1 else 0) (fun _ => 0) 0 := by
      intro z hz
      rw [hone q j z hq hj hz]
      unfold waves sawtooth
      dsimp only
      rw [if_pos rfl, sum_eq_zero]
      · simp
      · intro m hm
        have hm0 : m ≠ 0 := by
          intro h
          simp [h] at hm
        rw [if_neg hm0]
        simp
    rw [rfft_of_isRow hn hr 0 (by omega), if_pos rfl, if_pos rfl, ofReal_one]
  rw [sum_congr rfl (fun q hq => sum_congr rfl (fun j hj =>
    e q (mem_range.1 hq) j (mem_range.1 hj)))] at hm
  simp only [sum_const, card_range, nsmul_eq_mul, mul_one] at hm
  have h2 : (∑ q ∈ range s.P, s.N q) = 0 := by exact_mod_cast hm
  have h3 := (sum_eq_zero_iff.1 h2) 0 (by simp; omega)
  obtain ⟨g1, g2, _⟩ := hg 0 (by omega)
  unfold LapSetup.N xs xe at h3
  rw [if_pos (Or.inr hper), if_pos (Or.inr hper)] at h3
  omega

end periodic

end Verif.Laplace
