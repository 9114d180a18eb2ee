import Verif.Invert.LaplaceThms

/-!
# C54: boundary conditions of the Laplacian inversion
-/

namespace Verif.Laplace

open Verif.Fourier Verif.Cyclic Finset Complex
open scoped Classical

/-- Amplitude of wave `k` of the value a user prescribes at X index `ix` of processor
`q`: that of `x0` with `INVERT_SET`, that of the right-hand side with `INVERT_RHS`,
zero otherwise. -/
noncomputable def boundaryValue (n : Nat) (flags : Nat) (rhs x0 : Nat → ℝ) (k : Nat) : ℂ :=
  if has flags INVERT_SET then rfft n x0 k
  else if has flags INVERT_RHS then rfft n rhs k
  else 0

theorem rfft_real {n : Nat} (hn : 0 < n) (f : Nat → ℝ) {k : Nat} (hk : k = 0 ∨ 2 * k = n) :
    (rfft n f k).im = 0 := by
  obtain ⟨a, b, N, hf⟩ := exists_isRow hn f
  rw [rfft_of_isRow hn hf k (by omega)]
  by_cases h : k = 0
  · rw [if_pos h, ofReal_im]
  · rw [if_neg h, if_pos (by omega), ofReal_im]

theorem boundaryValue_real {n : Nat} (hn : 0 < n) (fl : Nat) (f g : Nat → ℝ) {k : Nat}
    (hk : k = 0 ∨ 2 * k = n) : (boundaryValue n fl f g k).im = 0 := by
  unfold boundaryValue
  split_ifs
  · exact rfft_real hn g hk
  · exact rfft_real hn f hk
  · rfl

theorem has_or (f a b : Nat) : has f (a ||| b) = (has f a || has f b) := by
  rw [Bool.eq_iff_iff, Bool.or_eq_true]
  unfold has
  rw [Nat.and_or_distrib_left, bne_iff_ne, bne_iff_ne, bne_iff_ne, ne_eq, Nat.or_eq_zero_iff]
  tauto

/-- A real combination of returned rows. -/
theorem back_combine {s : LapSetup} (hn : 0 < s.n) (hper : s.periodicX = false)
    (X : Nat → Nat → Nat → ℂ) {q1 j1 q2 j2 k : Nat} (hk : 2 * k ≤ s.n) (hk1 : k ≤ s.maxmode)
    (hz : has s.flags.global INVERT_ZERO_DC = true → k ≠ 0) {b c v : ℂ} (hb : b.im = 0)
    (hc : c.im = 0) (hv : k = 0 ∨ 2 * k = s.n → v.im = 0)
    (h : b * X q1 k j1 + c * X q2 k j2 = v) :
    b * rfft s.n (irfft s.n (s.back X q1 j1)) k + c * rfft s.n (irfft s.n (s.back X q2 j2)) k = v := by
  have hbk : ∀ q j, s.back X q j k = X q k j := by
    intro q j
    unfold LapSetup.back
    rw [if_neg (fun hc => hz hc.1 hc.2), if_neg (by omega), if_neg (by simp [hper])]
  rw [rfft_back hn _ _ _ k hk, rfft_back hn _ _ _ k hk]
  by_cases hk0 : k = 0 ∨ 2 * k = s.n
  · rw [if_pos hk0, if_pos hk0, hbk, hbk]
    have hv0 := hv hk0
    rw [← h] at hv0 ⊢
    apply Complex.ext
    · simp [mul_re, hb, hc]
    · rw [hv0]
      simp [mul_im, hb, hc]
  · rw [if_neg hk0, if_neg hk0, hbk, hbk, h]

/-- Rows of the inner boundary are those written by the inner conditions. -/
theorem matrix_inner {s : LapSetup} (hw : s.WellFormed) (hper : s.periodicX = false)
    {rhs x0 : Nat → Int → Nat → ℝ} {kz : Nat} {r : Nat → Row ℂ}
    (h : s.matrix rhs x0 0 kz = .ok r) (j : Nat) (hj : (j : Int) < inbndry (s.geom 0).xstart s.flags) :
    ∃ (base r1 : Nat → Row ℂ), innerRows (s.geom 0) (s.coef 0) s.flags kz (kz * 2 * Real.pi / s.zlength)
        base = .ok r1 ∧ r j = r1 j
      ∧ ((has s.flags.inner INVERT_SET = true ∨ has s.flags.inner INVERT_RHS = true) →
        (base j).r = boundaryValue s.n s.flags.inner (rhs 0 j) (x0 0 j) kz) := by
  obtain ⟨hP, _, _, _, hg⟩ := hw
  obtain ⟨hg1, hg2, hg3, hgf, hgl⟩ := hg 0 (by omega)
  have hi := inb_le hg1 s.flags
  have ho := outb_le hg1 s.flags
  have hf : (s.geom 0).firstX = true := hgf.2 rfl
  have hxs : xs (s.geom 0) false = 0 := by
    unfold xs; rw [if_neg]; simp [hf]
  unfold LapSetup.matrix tridagMatrix at h
  dsimp only at h
  rw [hper, if_pos rfl, if_pos hf] at h
  have hb : (has s.flags.inner INVERT_SET = true ∨ has s.flags.inner INVERT_RHS = true) →
      s.bk rhs x0 0 kz j = boundaryValue s.n s.flags.inner (rhs 0 j) (x0 0 j) kz := by
    intro hsr
    have hix : s.ix 0 j = j := by unfold LapSetup.ix; rw [hper, hxs]; omega
    unfold LapSetup.bk boundaryValue
    dsimp only
    rw [hix]
    by_cases hset : has s.flags.inner INVERT_SET = true
    · rw [if_pos (Or.inl ⟨hj, hset, hf⟩), if_pos hset]
    · rw [if_neg, if_neg hset, if_pos (by tauto)]
      rintro (⟨_, h, _⟩ | ⟨h, _⟩)
      · exact hset h
      · omega
  split at h
  · exact absurd h (by simp)
  · rename_i rows1 hr1
    refine ⟨_, rows1, hr1, ?_, fun hsr => ?_⟩
    · split_ifs at h with hl
      · have : xe (s.geom 0) false = (s.geom 0).localNx - 1 := by
          unfold xe; rw [if_neg]; simp [hl]
        exact outerRows_off h j (by omega) (by omega)
      · rw [Except.ok.inj h]
    · unfold baseRows
      dsimp only
      exact hb hsr

/-- Right-hand side of a boundary row after the zeroing step. -/
theorem rhs_after {P : Nat → Prop} {f : Nat} {base : Nat → Row ℂ} {j : Nat} {v : ℂ} (hP : P j)
    (hv : (has f INVERT_SET = true ∨ has f INVERT_RHS = true) → (base j).r = v)
    (h0 : has f INVERT_SET = false → has f INVERT_RHS = false → v = 0) :
    ((if has f (INVERT_RHS ||| INVERT_SET) then base else zeroRhs P base) j).r = v := by
  rw [has_or]
  by_cases h : (has f INVERT_RHS || has f INVERT_SET) = true
  · rw [if_pos h]
    apply hv
    rcases Bool.or_eq_true_iff.1 h with h | h
    · exact Or.inr h
    · exact Or.inl h
  · rw [if_neg h]
    unfold zeroRhs
    rw [if_pos hP]
    simp only [Bool.or_eq_true, not_or, Bool.not_eq_true] at h
    exact (h0 h.2 h.1).symm

theorem boundaryValue_zero {n f : Nat} (a b : Nat → ℝ) (k : Nat) (h1 : has f INVERT_SET = false)
    (h2 : has f INVERT_RHS = false) : boundaryValue n f a b k = 0 := by
  unfold boundaryValue; rw [h1, h2]; simp

theorem setRows_on {P : Nat → Prop} {v : Nat → Coef3} {rows : Nat → Row ℂ} {j : Nat} (h : P j) :
    setRows P v rows j = { a := (v j).a, b := (v j).b, c := (v j).c, r := (rows j).r } := by
  unfold setRows; rw [if_pos h]

/-- What is asked of an inner boundary point: `b x_j + c x_(j+1) = value`. -/
theorem inner_condition {s : LapSetup} (hw : s.WellFormed) (hper : s.periodicX = false)
    {rhs x0 : Nat → Int → Nat → ℝ} {x : Nat → Nat → Nat → ℝ}
    (h : s.Returned rhs x0 x) {j k : Nat}
    (hj : (j : Int) < inbndry (s.geom 0).xstart s.flags) (hk : k ≤ s.maxmode)
    (hz : has s.flags.global INVERT_ZERO_DC = true → k ≠ 0) {b c : ℝ}
    (hrows : ∀ base r1 : Nat → Row ℂ,
      innerRows (s.geom 0) (s.coef 0) s.flags k (k * 2 * Real.pi / s.zlength) base = .ok r1 →
      r1 j = { a := 0, b := (b : ℂ), c := (c : ℂ),
               r := ((if has s.flags.inner (INVERT_RHS ||| INVERT_SET) then base
                 else zeroRhs (fun ix : Nat => (ix : Int) < inbndry (s.geom 0).xstart s.flags) base) j).r }) :
    (b : ℂ) * rfft s.n (x 0 j) k + (c : ℂ) * rfft s.n (x 0 (j + 1)) k
      = boundaryValue s.n s.flags.inner (rhs 0 j) (x0 0 j) k := by
  obtain ⟨hP, hn, hmm, hsh, hg⟩ := id hw
  obtain ⟨hg1, hg2, hg3, hgf, hgl⟩ := hg 0 (by omega)
  have hi := inb_le hg1 s.flags
  obtain ⟨co, X, hco, hX, rfl⟩ := h.view hw
  obtain ⟨base, r1, hr1, hrj, hbv⟩ := matrix_inner hw hper (hco 0 (by omega) k hk) j hj
  have hrow := hrows base r1 hr1
  have hf : (s.geom 0).firstX = true := hgf.2 rfl
  have hxs : xs (s.geom 0) s.periodicX = 0 := by
    unfold xs; rw [if_neg]; simp [hf, hper]
  have hxe : (s.geom 0).xend ≤ xe (s.geom 0) s.periodicX := by
    unfold xe; split_ifs <;> omega
  have hN : j + 1 < s.N 0 := by unfold LapSetup.N; omega
  have hh := hX k hk 0 (by omega) j (by omega)
  dsimp only at hh
  rw [hrj, hrow, rhs_after (P := fun ix : Nat => (ix : Int) < inbndry (s.geom 0).xstart s.flags)
    hj hbv (fun h1 h2 => boundaryValue_zero _ _ _ h1 h2)] at hh
  unfold Row.Holds nextVal at hh
  dsimp only at hh
  rw [if_pos (by omega), zero_mul, zero_add] at hh
  exact back_combine hn hper X (by omega) hk hz (ofReal_im b) (ofReal_im c)
    (fun hk0 => boundaryValue_real hn _ _ _ hk0) hh

section inner

variable {s : LapSetup} (hw : s.WellFormed) (hper : s.periodicX = false)
  {rhs x0 : Nat → Int → Nat → ℝ} {x : Nat → Nat → Nat → ℝ}
  (h : s.Returned rhs x0 x) {j k : Nat}
  (hj : (j : Int) < inbndry (s.geom 0).xstart s.flags) (hk : k ≤ s.maxmode)
  (hz : has s.flags.global INVERT_ZERO_DC = true → k ≠ 0)

include hw hper h hj hk hz

/-- **Inner boundary, default**: the value half-way between the boundary point and the
next point is the prescribed one (zero without `INVERT_SET` and `INVERT_RHS`), for
every wave up to `maxmode`. -/
theorem C54_inner_value
    (hdc : k = 0 → has s.flags.inner INVERT_DC_GRAD = false
      ∧ has s.flags.inner INVERT_DC_GRADPAR = false ∧ has s.flags.inner INVERT_DC_GRADPARINV = false
      ∧ has s.flags.inner INVERT_DC_LAP = false)
    (hac : k ≠ 0 → has s.flags.inner INVERT_AC_GRAD = false ∧ has s.flags.inner INVERT_AC_LAP = false)
    (hcyl : has s.flags.inner INVERT_IN_CYLINDER = false) :
    (rfft s.n (x 0 j) k + rfft s.n (x 0 (j + 1)) k) / 2
      = boundaryValue s.n s.flags.inner (rhs 0 j) (x0 0 j) k := by
  have := inner_condition hw hper h hj hk hz (b := 1 / 2) (c := 1 / 2) (by
    intro base r1 hr
    unfold innerRows at hr
    dsimp only at hr
    by_cases hk0 : k = 0
    · obtain ⟨e1, e2, e3, e4⟩ := hdc hk0
      rw [if_pos hk0, e1, e2, e3, e4, hcyl] at hr
      simp only [Bool.false_eq_true, false_and, if_false] at hr
      rw [← Except.ok.inj hr, setRows_on (by exact hj)]
    · obtain ⟨e1, e2⟩ := hac hk0
      rw [if_neg hk0, e1, e2, hcyl] at hr
      simp only [Bool.false_eq_true, false_and, if_false] at hr
      rw [← Except.ok.inj hr, setRows_on (by exact hj)])
  rw [← this]
  push_cast
  ring

/-- **Inner boundary, zero gradient**: with `INVERT_DC_GRAD` (for the mean) or
`INVERT_AC_GRAD` (for the waves), and neither `INVERT_SET` nor `INVERT_RHS`. -/
theorem C54_inner_zero_gradient
    (hdc : k = 0 → has s.flags.inner INVERT_DC_GRAD = true)
    (hac : k ≠ 0 → has s.flags.inner INVERT_AC_GRAD = true)
    (hs1 : has s.flags.inner INVERT_SET = false) (hs2 : has s.flags.inner INVERT_RHS = false) :
    rfft s.n (x 0 j) k = rfft s.n (x 0 (j + 1)) k := by
  have := inner_condition hw hper h hj hk hz (b := -1) (c := 1) (by
    intro base r1 hr
    unfold innerRows at hr
    dsimp only at hr
    by_cases hk0 : k = 0
    · rw [if_pos hk0, hdc hk0, hs1, hs2] at hr
      simp only [Bool.false_eq_true, or_false, and_false, if_false, if_true] at hr
      rw [← Except.ok.inj hr, setRows_on (by exact hj)]
      simp
    · rw [if_neg hk0, hac hk0, hs1, hs2] at hr
      simp only [Bool.false_eq_true, or_false, and_false, if_false, if_true] at hr
      rw [← Except.ok.inj hr, setRows_on (by exact hj)]
      simp)
  rw [boundaryValue_zero _ _ _ hs1 hs2] at this
  push_cast at this
  linear_combination -this

/-- **Inner boundary, prescribed gradient**: with a gradient flag and `INVERT_SET` or
`INVERT_RHS` the derivative `(x_(j+1) - x_j) / (sqrt(g_11) dx)` is the prescribed
value. -/
theorem C54_inner_gradient
    (hdc : k = 0 → has s.flags.inner INVERT_DC_GRAD = true)
    (hac : k ≠ 0 → has s.flags.inner INVERT_AC_GRAD = true)
    (hs : has s.flags.inner INVERT_SET = true ∨ has s.flags.inner INVERT_RHS = true) :
    (rfft s.n (x 0 (j + 1)) k - rfft s.n (x 0 j) k)
        / ((Real.sqrt ((s.geom 0).gd11 j) * (s.geom 0).dx j : ℝ) : ℂ)
      = boundaryValue s.n s.flags.inner (rhs 0 j) (x0 0 j) k := by
  have := inner_condition hw hper h hj hk hz
    (b := -1 / Real.sqrt ((s.geom 0).gd11 j) / (s.geom 0).dx j)
    (c := 1 / Real.sqrt ((s.geom 0).gd11 j) / (s.geom 0).dx j) (by
    intro base r1 hr
    unfold innerRows at hr
    dsimp only at hr
    by_cases hk0 : k = 0
    · rw [if_pos hk0, if_pos ⟨hdc hk0, hs⟩] at hr
      rw [← Except.ok.inj hr, setRows_on (by exact hj)]
    · rw [if_neg hk0, if_pos ⟨hac hk0, hs⟩] at hr
      rw [← Except.ok.inj hr, setRows_on (by exact hj)])
  rw [← this, div_div, div_div, ofReal_div, ofReal_div]
  push_cast
  ring

/-- **Inner boundary, zero parallel gradient of the mean** (`INVERT_DC_GRADPAR`). -/
theorem C54_inner_gradpar (hk0 : k = 0) (hg : has s.flags.inner INVERT_DC_GRAD = false)
    (hp : has s.flags.inner INVERT_DC_GRADPAR = true)
    (hs1 : has s.flags.inner INVERT_SET = false) (hs2 : has s.flags.inner INVERT_RHS = false) :
    rfft s.n (x 0 j) k / ((Real.sqrt ((s.geom 0).gd22 j) : ℝ) : ℂ)
      = rfft s.n (x 0 (j + 1)) k / ((Real.sqrt ((s.geom 0).gd22 (j + 1)) : ℝ) : ℂ) := by
  have := inner_condition hw hper h hj hk hz
    (b := 1 / Real.sqrt ((s.geom 0).gd22 j)) (c := -1 / Real.sqrt ((s.geom 0).gd22 (j + 1))) (by
    intro base r1 hr
    unfold innerRows at hr
    dsimp only at hr
    rw [if_pos hk0, hg, hp] at hr
    simp only [Bool.false_eq_true, false_and, if_false, if_true] at hr
    rw [← Except.ok.inj hr, setRows_on (by exact hj)])
  rw [boundaryValue_zero _ _ _ hs1 hs2] at this
  push_cast at this
  linear_combination this

/-- **Inner boundary, decaying waves** (`INVERT_AC_LAP`): the solution of
`g11 x'' = g33 kz² x` which decays into the boundary. -/
theorem C54_inner_decay (hk0 : k ≠ 0) (hg : has s.flags.inner INVERT_AC_GRAD = false)
    (hp : has s.flags.inner INVERT_AC_LAP = true)
    (hs1 : has s.flags.inner INVERT_SET = false) (hs2 : has s.flags.inner INVERT_RHS = false) :
    rfft s.n (x 0 j) k = ((Real.exp (-(Real.sqrt ((s.geom 0).g33 j / (s.geom 0).g11 j)
        * (k * 2 * Real.pi / s.zlength) * (s.geom 0).dx j)) : ℝ) : ℂ) * rfft s.n (x 0 (j + 1)) k := by
  have := inner_condition hw hper h hj hk hz (b := 1)
    (c := -Real.exp (-1 * Real.sqrt ((s.geom 0).g33 j / (s.geom 0).g11 j)
        * (k * 2 * Real.pi / s.zlength) * (s.geom 0).dx j)) (by
    intro base r1 hr
    unfold innerRows at hr
    dsimp only at hr
    rw [if_neg hk0, hg, hp] at hr
    simp only [Bool.false_eq_true, false_and, if_false, if_true] at hr
    rw [← Except.ok.inj hr, setRows_on (by exact hj)]
    simp)
  rw [boundaryValue_zero _ _ _ hs1 hs2] at this
  have e : -(Real.sqrt ((s.geom 0).g33 j / (s.geom 0).g11 j)
        * (k * 2 * Real.pi / s.zlength) * (s.geom 0).dx j)
      = -1 * Real.sqrt ((s.geom 0).g33 j / (s.geom 0).g11 j)
        * (k * 2 * Real.pi / s.zlength) * (s.geom 0).dx j := by ring
  rw [e, ofReal_neg] at *
  rw [ofReal_one] at this
  linear_combination this

/-- **Inner boundary, axis of a cylinder** (`INVERT_IN_CYLINDER`): the boundary point is
the next point seen from the other side of the axis, half a turn away. -/
theorem C54_inner_cylinder
    (hdc : k = 0 → has s.flags.inner INVERT_DC_GRAD = false
      ∧ has s.flags.inner INVERT_DC_GRADPAR = false ∧ has s.flags.inner INVERT_DC_GRADPARINV = false
      ∧ has s.flags.inner INVERT_DC_LAP = false)
    (hac : k ≠ 0 → has s.flags.inner INVERT_AC_GRAD = false ∧ has s.flags.inner INVERT_AC_LAP = false)
    (hcyl : has s.flags.inner INVERT_IN_CYLINDER = true)
    (hs1 : has s.flags.inner INVERT_SET = false) (hs2 : has s.flags.inner INVERT_RHS = false) :
    rfft s.n (x 0 j) k = (-1) ^ k * rfft s.n (x 0 (j + 1)) k := by
  have := inner_condition hw hper h hj hk hz (b := 1) (c := if k % 2 = 0 then -1 else 1) (by
    intro base r1 hr
    unfold innerRows at hr
    dsimp only at hr
    by_cases hk0 : k = 0
    · obtain ⟨e1, e2, e3, e4⟩ := hdc hk0
      rw [if_pos hk0, e1, e2, e3, e4, hcyl] at hr
      simp only [Bool.false_eq_true, false_and, if_false, if_true] at hr
      rw [← Except.ok.inj hr, setRows_on (by exact hj), hk0]
      simp
    · obtain ⟨e1, e2⟩ := hac hk0
      rw [if_neg hk0, e1, e2, hcyl] at hr
      simp only [Bool.false_eq_true, false_and, if_false, if_true] at hr
      rw [← Except.ok.inj hr, setRows_on (by exact hj)]
      split_ifs <;> simp)
  rw [boundaryValue_zero _ _ _ hs1 hs2] at this
  rcases Nat.mod_two_eq_zero_or_one k with hk2 | hk2
  · rw [if_pos hk2] at this
    rw [Even.neg_one_pow (Nat.even_iff.2 hk2)]
    push_cast at this
    linear_combination this
  · rw [if_neg (by omega)] at this
    rw [Odd.neg_one_pow (Nat.odd_iff.2 hk2)]
    push_cast at this
    linear_combination this

end inner

end Verif.Laplace
