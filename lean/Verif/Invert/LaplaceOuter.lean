import Verif.Invert.LaplaceBndry

/-!
# C54: outer boundary conditions of the Laplacian inversion

The conditions `INVERT_DC_GRADPAR`, `INVERT_DC_GRADPARINV` and `INVERT_DC_LAP` given
as *inner* flags change the outer condition of the mean (see the findings), so the
theorems about the mean assume they are absent.
-/

namespace Verif.Laplace

open Verif.Fourier Verif.Cyclic Finset Complex
open scoped Classical

/-- The predicate of the rows written by the outer conditions. -/
def outP (s : LapSetup) (q : Nat) : Nat → Prop := fun p =>
  xe (s.geom q) s.periodicX - xs (s.geom q) s.periodicX - (p : Int)
      < outbndry (s.geom q).xstart s.flags
    ∧ (p : Int) ≤ xe (s.geom q) s.periodicX - xs (s.geom q) s.periodicX

/-- Rows of the outer boundary are those written by the outer conditions. -/
theorem matrix_outer {s : LapSetup} (hw : s.WellFormed) (hper : s.periodicX = false)
    {rhs x0 : Nat → Int → Nat → ℝ} {q kz : Nat} (hq : q + 1 = s.P) {r : Nat → Row ℂ}
    (h : s.matrix rhs x0 q kz = .ok r) (j : Nat) (hj : outP s q j) :
    ∃ base : Nat → Row ℂ, outerRows (s.geom q) (s.coef q) s.flags s.periodicX kz
        (kz * 2 * Real.pi / s.zlength) base = .ok r
      ∧ ((has s.flags.outer INVERT_SET = true ∨ has s.flags.outer INVERT_RHS = true) →
        (base j).r = boundaryValue s.n s.flags.outer (rhs q (s.ix q j)) (x0 q (s.ix q j)) kz) := by
  obtain ⟨hP, _, _, _, hg⟩ := hw
  obtain ⟨hg1, hg2, hg3, hgf, hgl⟩ := hg q (by omega)
  have hi := inb_le hg1 s.flags
  have ho := outb_le hg1 s.flags
  have hl : (s.geom q).lastX = true := hgl.2 hq
  have hxe : xe (s.geom q) false = (s.geom q).localNx - 1 := by
    unfold xe; rw [if_neg]; simp [hl]
  unfold outP at hj
  rw [hper, hxe] at hj
  have hix : s.ix q j = xs (s.geom q) false + j := by unfold LapSetup.ix; rw [hper]
  unfold LapSetup.matrix tridagMatrix at h
  dsimp only at h
  rw [hper, if_pos rfl] at h
  have hb : (has s.flags.outer INVERT_SET = true ∨ has s.flags.outer INVERT_RHS = true) →
      s.bk rhs x0 q kz j
        = boundaryValue s.n s.flags.outer (rhs q (s.ix q j)) (x0 q (s.ix q j)) kz := by
    intro hsr
    unfold LapSetup.bk boundaryValue
    dsimp only
    by_cases hset : has s.flags.outer INVERT_SET = true
    · rw [if_pos (Or.inr ⟨by omega, hset, hl⟩), if_pos hset]
    · rw [if_neg, if_neg hset, if_pos (by tauto)]
      rintro (⟨h, _⟩ | ⟨_, h, _⟩)
      · omega
      · exact hset h
  split at h
  · exact absurd h (by simp)
  · rename_i rows1 hr1
    rw [if_pos hl] at h
    refine ⟨rows1, by rw [hper]; exact h, fun hsr => ?_⟩
    have e : rows1 j = baseRows s.opts (s.geom q) (s.coef q) false (kz * 2 * Real.pi / s.zlength)
        (s.bk rhs x0 q kz) j := by
      split_ifs at hr1 with hf
      · refine innerRows_off hr1 j ?_
        have : xs (s.geom q) false = 0 := by
          unfold xs; rw [if_neg]; simp [hf]
        omega
      · rw [Except.ok.inj hr1]
    rw [e]
    unfold baseRows
    dsimp only
    exact hb hsr

/-- What is asked of an outer boundary point: `a x_(j-1) + b x_j = value`. -/
theorem outer_condition {s : LapSetup} (hw : s.WellFormed) (hper : s.periodicX = false)
    {rhs x0 : Nat → Int → Nat → ℝ} {x : Nat → Nat → Nat → ℝ}
    (h : s.Returned rhs x0 x) {q j k : Nat} (hq : q + 1 = s.P)
    (hj : outP s q j) (hk : k ≤ s.maxmode)
    (hz : has s.flags.global INVERT_ZERO_DC = true → k ≠ 0) {a b : ℝ}
    (hrows : ∀ base r : Nat → Row ℂ,
      outerRows (s.geom q) (s.coef q) s.flags s.periodicX k (k * 2 * Real.pi / s.zlength) base
        = .ok r →
      r j = { a := (a : ℂ), b := (b : ℂ), c := 0,
              r := ((if has s.flags.outer (INVERT_RHS ||| INVERT_SET) then base
                 else zeroRhs (outP s q) base) j).r }) :
    (a : ℂ) * rfft s.n (x q (j - 1)) k + (b : ℂ) * rfft s.n (x q j) k
      = boundaryValue s.n s.flags.outer (rhs q (s.ix q j)) (x0 q (s.ix q j)) k := by
  obtain ⟨hP, hn, hmm, hsh, hg⟩ := id hw
  obtain ⟨hg1, hg2, hg3, hgf, hgl⟩ := hg q (by omega)
  have ho := outb_le hg1 s.flags
  have hl : (s.geom q).lastX = true := hgl.2 hq
  have hxe : xe (s.geom q) s.periodicX = (s.geom q).localNx - 1 := by
    unfold xe; rw [if_neg]; simp [hl, hper]
  have hxs : xs (s.geom q) s.periodicX ≤ (s.geom q).xstart := by
    unfold xs; split_ifs <;> omega
  obtain ⟨co, X, hco, hX, rfl⟩ := h.view hw
  obtain ⟨base, hr1, hbv⟩ := matrix_outer hw hper hq (hco q (by omega) k hk) j hj
  have hrow := hrows base _ hr1
  have hj' := hj
  unfold outP at hj'
  have hN : j < s.N q := by unfold LapSetup.N; omega
  have hj0 : j ≠ 0 := by omega
  have hh := hX k hk q (by omega) j hN
  dsimp only at hh
  rw [hrow, rhs_after hj hbv (fun h1 h2 => boundaryValue_zero _ _ _ h1 h2)] at hh
  unfold Row.Holds prevVal at hh
  dsimp only at hh
  rw [if_pos hj0, zero_mul, add_zero] at hh
  exact back_combine hn hper X (by omega) hk hz (ofReal_im a) (ofReal_im b)
    (fun hk0 => boundaryValue_real hn _ _ _ hk0) hh

section outer

variable {s : LapSetup} (hw : s.WellFormed) (hper : s.periodicX = false)
  {rhs x0 : Nat → Int → Nat → ℝ} {x : Nat → Nat → Nat → ℝ}
  (h : s.Returned rhs x0 x) {q j k : Nat} (hq : q + 1 = s.P) (hjN : j < s.N q)
  (hj : (s.N q : Int) - 1 - j < outbndry (s.geom q).xstart s.flags) (hk : k ≤ s.maxmode)
  (hz : has s.flags.global INVERT_ZERO_DC = true → k ≠ 0)

theorem outP_of (hjN : j < s.N q)
    (hj : (s.N q : Int) - 1 - j < outbndry (s.geom q).xstart s.flags) : outP s q j := by
  unfold outP
  have : 0 < s.N q := by omega
  unfold LapSetup.N at *
  omega

include hw hper h hq hj hjN hk hz

/-- **Outer boundary, default**: the value half-way between the boundary point and the
previous point is the prescribed one. -/
theorem C54_outer_value
    (hdc : k = 0 → has s.flags.outer INVERT_DC_GRAD = false
      ∧ has s.flags.inner INVERT_DC_GRADPAR = false ∧ has s.flags.inner INVERT_DC_GRADPARINV = false
      ∧ has s.flags.inner INVERT_DC_LAP = false)
    (hac : k ≠ 0 → has s.flags.outer INVERT_AC_GRAD = false ∧ has s.flags.outer INVERT_AC_LAP = false) :
    (rfft s.n (x q (j - 1)) k + rfft s.n (x q j) k) / 2
      = boundaryValue s.n s.flags.outer (rhs q (s.ix q j)) (x0 q (s.ix q j)) k := by
  have hP := outP_of hjN hj
  have := outer_condition hw hper h hq hP hk hz (a := 1 / 2) (b := 1 / 2) (by
    intro base r1 hr
    unfold outerRows at hr
    dsimp only at hr
    by_cases hk0 : k = 0
    · obtain ⟨e1, e2, e3, e4⟩ := hdc hk0
      rw [if_pos hk0, e1, e2, e3, e4] at hr
      simp only [Bool.false_eq_true, false_and, if_false] at hr
      rw [← Except.ok.inj hr, setRows_on (by exact hP)]
      rfl
    · obtain ⟨e1, e2⟩ := hac hk0
      rw [if_neg hk0, e1, e2] at hr
      simp only [Bool.false_eq_true, false_and, if_false] at hr
      rw [← Except.ok.inj hr, setRows_on (by exact hP)]
      rfl)
  rw [← this]
  push_cast
  ring

/-- **Outer boundary, zero gradient**. -/
theorem C54_outer_zero_gradient
    (hdc : k = 0 → has s.flags.outer INVERT_DC_GRAD = true)
    (hac : k ≠ 0 → has s.flags.outer INVERT_AC_GRAD = true)
    (hs1 : has s.flags.outer INVERT_SET = false) (hs2 : has s.flags.outer INVERT_RHS = false) :
    rfft s.n (x q j) k = rfft s.n (x q (j - 1)) k := by
  have hP := outP_of hjN hj
  have := outer_condition hw hper h hq hP hk hz (a := 1) (b := -1) (by
    intro base r1 hr
    unfold outerRows at hr
    dsimp only at hr
    by_cases hk0 : k = 0
    · rw [if_pos hk0, hdc hk0, hs1, hs2] at hr
      simp only [Bool.false_eq_true, or_false, and_false, if_false, if_true] at hr
      rw [← Except.ok.inj hr, setRows_on (by exact hP)]
      rw [ofReal_neg, ofReal_one]
      rfl
    · rw [if_neg hk0, hac hk0, hs1, hs2] at hr
      simp only [Bool.false_eq_true, or_false, and_false, if_false, if_true] at hr
      rw [← Except.ok.inj hr, setRows_on (by exact hP)]
      rw [ofReal_neg, ofReal_one]
      rfl)
  rw [boundaryValue_zero _ _ _ hs1 hs2] at this
  push_cast at this
  linear_combination -this

/-- **Outer boundary, prescribed gradient**, on a single processor in X or with `includeguards`.  Without it the code
reads the metric at the row number, which is the X index only on a single processor (see the findings). -/
theorem C54_outer_gradient (hone : s.P = 1 ∨ s.flags.guards = true)
    (hdc : k = 0 → has s.flags.outer INVERT_DC_GRAD = true)
    (hac : k ≠ 0 → has s.flags.outer INVERT_AC_GRAD = true)
    (hs : has s.flags.outer INVERT_SET = true ∨ has s.flags.outer INVERT_RHS = true) :
    (rfft s.n (x q j) k - rfft s.n (x q (j - 1)) k)
        / ((Real.sqrt ((s.geom q).gd11 (s.ix q j)) * (s.geom q).dx (s.ix q j) : ℝ) : ℂ)
      = boundaryValue s.n s.flags.outer (rhs q (s.ix q j)) (x0 q (s.ix q j)) k := by
  have hP := outP_of hjN hj
  have hix : (if s.flags.guards = true then xs (s.geom q) s.periodicX else 0) + (j : Int) = s.ix q j := by
    unfold LapSetup.ix
    rcases hone with hone | hg
    · have hq0 : q = 0 := by omega
      obtain ⟨_, _, _, hgf, _⟩ := hw.2.2.2.2 q (by omega)
      have : xs (s.geom q) s.periodicX = 0 := by
        unfold xs
        rw [if_neg (by simp [hper, hgf.2 hq0])]
      rw [this, ite_self]
    · rw [if_pos hg]
  have := outer_condition hw hper h hq hP hk hz
    (a := -1 / Real.sqrt ((s.geom q).gd11 (s.ix q j)) / (s.geom q).dx (s.ix q j))
    (b := 1 / Real.sqrt ((s.geom q).gd11 (s.ix q j)) / (s.geom q).dx (s.ix q j)) (by
    intro base r1 hr
    unfold outerRows at hr
    dsimp only at hr
    by_cases hk0 : k = 0
    · rw [if_pos hk0, if_pos ⟨hdc hk0, hs⟩] at hr
      rw [← Except.ok.inj hr, setRows_on (by exact hP), hix]; rfl
    · rw [if_neg hk0, if_pos ⟨hac hk0, hs⟩] at hr
      rw [← Except.ok.inj hr, setRows_on (by exact hP), hix]; rfl)
  rw [← this, div_div, div_div, ofReal_div, ofReal_div]
  push_cast
  ring

/-- **Outer boundary, decaying waves** (`INVERT_AC_LAP`). -/
theorem C54_outer_decay (hk0 : k ≠ 0) (hg : has s.flags.outer INVERT_AC_GRAD = false)
    (hp : has s.flags.outer INVERT_AC_LAP = true)
    (hs1 : has s.flags.outer INVERT_SET = false) (hs2 : has s.flags.outer INVERT_RHS = false) :
    rfft s.n (x q j) k = ((Real.exp (-(Real.sqrt ((s.geom q).g33 (s.ix q j) / (s.geom q).g11 (s.ix q j))
        * (k * 2 * Real.pi / s.zlength) * (s.geom q).dx (s.ix q j))) : ℝ) : ℂ)
          * rfft s.n (x q (j - 1)) k := by
  have hP := outP_of hjN hj
  have := outer_condition hw hper h hq hP hk hz (b := 1)
    (a := -Real.exp (-1 * Real.sqrt ((s.geom q).g33 (s.ix q j) / (s.geom q).g11 (s.ix q j))
        * (k * 2 * Real.pi / s.zlength) * (s.geom q).dx (s.ix q j))) (by
    intro base r1 hr
    unfold outerRows at hr
    dsimp only at hr
    rw [if_neg hk0, hg, hp] at hr
    simp only [Bool.false_eq_true, false_and, if_false, if_true] at hr
    rw [← Except.ok.inj hr, setRows_on (by exact hP), ofReal_one]
    rfl)
  rw [boundaryValue_zero _ _ _ hs1 hs2] at this
  have e : -(Real.sqrt ((s.geom q).g33 (s.ix q j) / (s.geom q).g11 (s.ix q j))
        * (k * 2 * Real.pi / s.zlength) * (s.geom q).dx (s.ix q j))
      = -1 * Real.sqrt ((s.geom q).g33 (s.ix q j) / (s.geom q).g11 (s.ix q j))
        * (k * 2 * Real.pi / s.zlength) * (s.geom q).dx (s.ix q j) := by ring
  rw [e, ofReal_neg] at *
  rw [ofReal_one] at this
  linear_combination this

end outer

/-! ## In real space -/

/-- Rows whose amplitudes agree are equal. -/
theorem row_ext {n : Nat} (hn : 0 < n) {f g : Nat → ℝ} (h : ∀ k, 2 * k ≤ n → rfft n f k = rfft n g k)
    {z : Nat} (hz : z < n) : f z = g z := by
  rw [← irfft_rfft f z hz, ← irfft_rfft g z hz, irfft_cw hn, irfft_cw hn, h (n / 2) (by omega)]
  congr 1
  exact congrFun (cw_congr (by rw [h 0 (by omega)]) fun m _ h2 => h m (by omega)) _

theorem rfft_smul_row {n : Nat} (r : ℝ) (f : Nat → ℝ) (k : Nat) :
    rfft n (fun z => r * f z) k = r * rfft n f k := by
  unfold rfft r2c
  rw [← mul_assoc, mul_sum]
  congr 1
  refine sum_congr rfl fun z _ => ?_
  push_cast
  ring

/-- Waves which the solver drops are zero on every row. -/
theorem solve_dropped {s : LapSetup} (hw : s.WellFormed)
    {rhs x0 : Nat → Int → Nat → ℝ} {x : Nat → Nat → Nat → ℝ}
    (h : s.Returned rhs x0 x) {k : Nat} (hk : 2 * k ≤ s.n)
    (hd : s.maxmode < k ∨ (k = 0 ∧ has s.flags.global INVERT_ZERO_DC = true)) (q j : Nat) :
    rfft s.n (x q j) k = 0 := by
  obtain ⟨hP, hn, _⟩ := id hw
  obtain ⟨co, X, hco, hX, rfl⟩ := h.view hw
  rw [rfft_back hn X q j k hk]
  have : s.back X q j k = 0 := by
    unfold LapSetup.back
    rcases hd with hd | hd
    · by_cases hc : has s.flags.global INVERT_ZERO_DC = true ∧ k = 0
      · rw [if_pos hc]
      · rw [if_neg hc, if_pos (by omega)]
    · rw [if_pos ⟨hd.2, hd.1⟩]
  rw [this]
  simp

/-- **No boundary flags**: the field changes sign across both boundaries, at every Z
point, i.e. it vanishes half-way. -/
theorem C54_dirichlet {s : LapSetup} (hw : s.WellFormed) (hper : s.periodicX = false)
    {rhs x0 : Nat → Int → Nat → ℝ} {x : Nat → Nat → Nat → ℝ}
    (h : s.Returned rhs x0 x) (hi : s.flags.inner = 0) (ho : s.flags.outer = 0)
    (j z : Nat) (hz : z < s.n) :
    ((j : Int) < inbndry (s.geom 0).xstart s.flags → x 0 j z = -x 0 (j + 1) z)
    ∧ (∀ q, q + 1 = s.P → j < s.N q → (s.N q : Int) - 1 - j < outbndry (s.geom q).xstart s.flags →
        x q j z = -x q (j - 1) z) := by
  have hn : 0 < s.n := hw.2.1
  have hb : ∀ b, has 0 b = false := by intro b; unfold has; simp
  have hneg : ∀ (f g : Nat → ℝ), (∀ k, 2 * k ≤ s.n → rfft s.n f k = -rfft s.n g k) → f z = -g z := by
    intro f g hfg
    rw [show -g z = (fun z => (-1 : ℝ) * g z) z by simp]
    refine row_ext (g := fun z => (-1 : ℝ) * g z) hn (fun k hk => ?_) hz
    rw [rfft_smul_row, hfg k hk]
    push_cast; ring
  have hcase : ∀ k, (s.maxmode < k ∨ (k = 0 ∧ has s.flags.global INVERT_ZERO_DC = true))
      ∨ (k ≤ s.maxmode ∧ (has s.flags.global INVERT_ZERO_DC = true → k ≠ 0)) := by
    intro k; by_cases h1 : s.maxmode < k
    · exact Or.inl (Or.inl h1)
    · by_cases h2 : k = 0 ∧ has s.flags.global INVERT_ZERO_DC = true
      · exact Or.inl (Or.inr h2)
      · exact Or.inr ⟨by omega, fun h3 h4 => h2 ⟨h4, h3⟩⟩
  constructor
  · intro hj
    refine hneg _ _ fun k hk => ?_
    rcases hcase k with hd | ⟨hk1, hk2⟩
    · rw [solve_dropped hw h hk hd, solve_dropped hw h hk hd, neg_zero]
    · have := C54_inner_value hw hper h hj hk1 hk2 (by simp [hi, hb]) (by simp [hi, hb])
        (by simp [hi, hb])
      rw [boundaryValue_zero _ _ _ (by simp [hi, hb]) (by simp [hi, hb])] at this
      linear_combination 2 * this
  · intro q hq hjN hj
    refine hneg _ _ fun k hk => ?_
    rcases hcase k with hd | ⟨hk1, hk2⟩
    · rw [solve_dropped hw h hk hd, solve_dropped hw h hk hd, neg_zero]
    · have := C54_outer_value hw hper h hq hjN hj hk1 hk2 (by simp [hi, ho, hb])
        (by simp [ho, hb])
      rw [boundaryValue_zero _ _ _ (by simp [ho, hb]) (by simp [ho, hb])] at this
      linear_combination 2 * this

end Verif.Laplace
