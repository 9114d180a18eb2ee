import Mathlib.Tactic.Ring
import Mathlib.Tactic.FieldSimp
import Mathlib.Tactic.LinearCombination
import Mathlib.Tactic.NormNum
import Mathlib.LinearAlgebra.FiniteDimensional.Basic
import Mathlib.LinearAlgebra.Pi
import Verif.Invert.SBandSpec

/-!
# C83: the band Laplacian solver
-/

namespace Verif.SBand

open Verif.SBandSpec Finset

noncomputable section

/-- The band array stands for the matrix with the given diagonals: no entry is misplaced, and the entries of the five
diagonals that fall outside are not used. -/
theorem C83_band (n : Nat) (a : Nat → Row) (junk : Nat → ℂ) (row col : Nat) (hr : row < n) :
    stored (bandArray n a junk) row col = five a row col := by
  unfold stored five
  by_cases h : row ≤ col + 2 ∧ col ≤ row + 2
  · rw [if_pos h, if_pos h]
    unfold bandArray
    have h1 : (col * 7 + (4 + row - col)) / 7 = col := by omega
    have h2 : (col * 7 + (4 + row - col)) % 7 = 4 + row - col := by omega
    dsimp only
    rw [h1, h2, if_pos (by omega)]
    congr 1 <;> omega
  · rw [if_neg h, if_neg h]

theorem apply_congr {n : Nat} {m m' : Nat → Nat → ℂ} (row : Nat) (h : ∀ col, m row col = m' row col) (u : Nat → ℂ) :
    apply n m u row = apply n m' u row := by
  unfold apply
  exact sum_congr rfl fun c _ => by rw [h c]

theorem cband_solves {z : Zgbsv} (hz : Solves z) (junk : Nat → ℂ) (a : Nat → Row) (n : Nat) (h : Nonsing n (five a))
    (b : Nat → ℂ) (row : Nat) (hr : row < n) : apply n (five a) (cbandSolve z junk a n b) row = b row := by
  have hn : Nonsing n (stored (bandArray n a junk)) := fun u hu => h u fun r hr => by
    rw [← hu r hr]
    exact (apply_congr r (fun c => C83_band n a junk r c hr) u).symm
  rw [← hz n _ b hn row hr]
  exact (apply_congr row (fun c => C83_band n a junk row c hr) _).symm

/-- An interior row applied. -/
theorem five_apply (n : Nat) (a : Nat → Row) (u : Nat → ℂ) (i : Nat) (h2 : 2 ≤ i) (hn : i + 3 ≤ n) :
    apply n (five a) u i = a i 0 * u (i - 2) + a i 1 * u (i - 1) + a i 2 * u i + a i 3 * u (i + 1) + a i 4 * u (i + 2) := by
  obtain ⟨j, rfl⟩ : ∃ j, i = j + 2 := ⟨i - 2, by omega⟩
  have hs : apply n (five a) u (j + 2) = ∑ col ∈ Finset.Ico j (j + 5), five a (j + 2) col * u col := by
    unfold apply
    symm
    refine sum_subset ?_ ?_
    · intro c hc
      rw [mem_Ico] at hc
      rw [mem_range]
      omega
    · intro c _ hc
      rw [mem_Ico] at hc
      rw [five, if_neg (by omega), zero_mul]
  rw [hs, show Finset.Ico j (j + 5) = {j, j + 1, j + 2, j + 3, j + 4} by
    ext c; simp only [mem_Ico, mem_insert, mem_singleton]; omega]
  have h0 : j + 2 - (j + 2) = 0 := by omega
  rw [sum_insert (by simp), sum_insert (by simp), sum_insert (by simp), sum_insert (by simp), sum_singleton]
  have e : ∀ c d, d ≤ 4 → c + 2 = j + 2 + d → five a (j + 2) c = a (j + 2) d := fun c d hd hc => by
    rw [five, if_pos (by omega)]
    congr 1
    omega
  rw [e j 0 (by omega) (by omega), e (j + 1) 1 (by omega) (by omega), e (j + 2) 2 (by omega) (by omega),
    e (j + 3) 3 (by omega) (by omega), e (j + 4) 4 (by omega) (by omega)]
  rw [show j + 2 - 2 = j by omega, show j + 2 - 1 = j + 1 by omega, show j + 2 + 1 = j + 3 by omega,
    show j + 2 + 2 = j + 4 by omega]
  ring

theorem xb_pos (o : Opts) (g : Geom) (h : 1 ≤ g.xstart) : 1 ≤ xbndry o g := by
  unfold xbndry; split <;> omega

/-- The rows of interior cells not next to the boundary cells are those of the interior, whatever the flags. -/
theorem matrix_interior (o : Opts) (g : Geom) (kz : Nat) (old : Nat → Row) (i : Nat) (h2 : 2 ≤ i) (hn : i + 3 ≤ g.nx)
    (hb : xbndry o g ≤ i) (hb' : i + xbndry o g < g.nx) : matrix o g kz old i = interior o g kz i := by
  have hbase : base o g kz old i = interior o g kz i := by
    unfold base
    rw [if_neg (by omega)]
    have hr : lo o g ≤ i ∧ i ≤ hi o g := by
      unfold lo hi
      split <;> omega
    split
    · unfold upd
      rw [if_neg (by omega), if_neg (by omega)]; exact if_pos hr
    · exact if_pos hr
  have hin : decide (i < xbndry o g) = false := by rw [decide_eq_false_iff_not]; omega
  have hou : decide (g.nx - 1 < i + xbndry o g ∧ i < g.nx) = false := by rw [decide_eq_false_iff_not]; omega
  have h0 : i ≠ 0 := by omega
  have h1 : i ≠ 1 := by omega
  have h3 : i ≠ g.nx - 1 := by omega
  have h4 : i ≠ g.nx - 2 := by omega
  unfold matrix
  dsimp only
  by_cases hk : kz = 0
  · rw [if_pos hk]
    by_cases ho : o.outer.dcGrad = true
    · rw [if_pos ho]; simp [hin, hou, hbase]
    · rw [if_neg ho]; simp [hin, hbase]
  · rw [if_neg hk]
    have hA : (if o.inner.acGrad = true then fun ix => if decide (ix < xbndry o g) = true then
        setEntry (base o g kz old ix) 3 (-1) else base o g kz old ix
        else if o.inner.acLap = true then upd (upd (base o g kz old) 1 (lap1 g kz)) 0 (lap0 g kz)
        else base o g kz old) i = interior o g kz i := by
      split
      · simp [hin, hbase]
      · split
        · unfold upd; rw [if_neg h0, if_neg h1, hbase]
        · exact hbase
    generalize (if o.inner.acGrad = true then _ else _ : Nat → Row) = B at hA ⊢
    split
    · simp [hou, hA]
    · split
      · unfold upd; rw [if_neg h3, if_neg h4, hA]
      · exact hA

/-- What the rows leave out of the operator: half of the mixed derivative, the factor `D` of the first derivatives, and
the part of the gradient of `C` along z. -/
def defect (o : Opts) (g : Geom) (k : ℝ) (u : Nat → ℂ) (i : Nat) : ℂ :=
  g.D i * g.g13 i * (Complex.I * k) * d1 (g.dx i) u i
    + (g.D i - 1) * ((if o.allTerms then g.G1 i * d1 (g.dx i) u i + g.G3 i * (Complex.I * k) * u i else 0)
      + g.g11 i * ((if o.nonuniform then (nu g i : ℂ) else 0) * d1 (g.dx i) u i))
    + dlogC g i * (g.g13 i * (Complex.I * k) * u i)

theorem cx_eq (a b : ℝ) : cx a b = (a : ℂ) + Complex.I * b := by
  apply Complex.ext <;> simp [cx]

/-- How many rows at each side are boundary rows: one with `INVERT_BOTH_BNDRY_ONE`, otherwise the
number of guard cells, but at least one. -/
theorem C83_width (o : Opts) (g : Geom) :
    xbndry o g = if o.bothOne then 1 else max 1 g.xstart := by
  unfold xbndry
  cases o.bothOne
  · by_cases h : g.xstart < 2
    · simp only [Bool.false_or, h, decide_true, if_true, Bool.false_eq_true, if_false]; omega
    · simp only [Bool.false_or, h, decide_false, if_false, Bool.false_eq_true]; omega
  · simp

/-- **C83, the rows.**  Applied to any `u`, the row of an interior cell is the operator less the defect. -/
theorem C83_rows (o : Opts) (g : Geom) (kz : Nat) (u : Nat → ℂ) (i : Nat) (h2 : 2 ≤ i) (hn : i + 3 ≤ g.nx)
    (hdx : g.dx i ≠ 0) (hC : g.C i ≠ 0) :
    interior o g kz i 0 * u (i - 2) + interior o g kz i 1 * u (i - 1) + interior o g kz i 2 * u i
        + interior o g kz i 3 * u (i + 1) + interior o g kz i 4 * u (i + 2)
      = operator o g (g.kwave kz i) u i - defect o g (g.kwave kz i) u i := by
  have hI : Complex.I ^ 2 = -1 := Complex.I_sq
  have hc4 : coef4 o g i = (if o.allTerms then g.G1 i else 0) + g.g11 i * (if o.nonuniform then nu g i else 0)
      + g.g11 i * dlogC g i := by
    unfold coef4
    rw [if_pos (show 1 < i ∧ i < g.nx - 2 by omega)]
    have hb : (decide (i ≠ 0) && decide (i ≠ g.nx - 1)) = true := by simp; omega
    rw [show (o.nonuniform && (decide (i ≠ 0) && decide (i ≠ g.nx - 1))) = o.nonuniform by rw [hb, Bool.and_true]]
    unfold nu dlogC
    cases o.nonuniform <;> simp <;> ring
  unfold interior operator defect
  generalize coef4 o g i = c4 at hc4
  generalize dlogC g i = dc at hc4 ⊢
  generalize nu g i = nn at hc4 ⊢
  have hdx' : (g.dx i : ℂ) ≠ 0 := by exact_mod_cast hdx
  simp only [mk5, cx_eq, if_true, Nat.one_ne_zero, if_false, OfNat.ofNat_ne_zero, OfNat.ofNat_ne_one, Nat.reduceEqDiff, d1, d2]
  subst hc4
  cases o.allTerms <;> cases o.nonuniform <;>
  · simp only [Bool.false_eq_true, if_true, if_false]
    push_cast
    field_simp
    ring_nf
    simp only [hI]
    ring

/-! ## Solutions -/

/-- Modes and flags for which the result of the band solver is returned as it is. -/
def Plain (o : Opts) (kz : Nat) : Prop := kz ≤ o.maxmode ∧ (kz = 0 → o.zeroDC = false ∧ o.kxZero = false)

theorem solve_plain {o : Opts} {kz : Nat} (h : Plain o kz) (g : Geom) (z : Zgbsv) (junk : Nat → ℂ) (old : Nat → Nat → Row)
    (b x0 : Nat → Nat → ℂ) :
    solve o g z junk old b x0 kz = cbandSolve z junk (matrix o g kz (old kz)) g.nx (rhs o g b x0 kz) := by
  funext ix
  unfold solve
  rw [if_neg (by have := h.1; omega)]
  by_cases hk : kz = 0
  · obtain ⟨h1, h2⟩ := h.2 hk
    simp [h1, h2]
  · simp [hk]

/-- The rows handed over hold of the result. -/
theorem solve_row {o : Opts} {kz : Nat} (h : Plain o kz) (g : Geom) {z : Zgbsv} (hz : Solves z) (junk : Nat → ℂ)
    (old : Nat → Nat → Row) (b x0 : Nat → Nat → ℂ) (hns : Nonsing g.nx (five (matrix o g kz (old kz)))) (i : Nat)
    (hi : i < g.nx) :
    apply g.nx (five (matrix o g kz (old kz))) (solve o g z junk old b x0 kz) i = rhs o g b x0 kz i := by
  rw [solve_plain h]
  exact cband_solves hz junk _ _ hns _ i hi

theorem rhs_interior (o : Opts) (g : Geom) (b x0 : Nat → Nat → ℂ) (kz i : Nat) (hb : xbndry o g ≤ i)
    (hb' : i + xbndry o g < g.nx) : rhs o g b x0 kz i = b kz i := by
  have h1 : decide (i < xbndry o g) = false := by rw [decide_eq_false_iff_not]; omega
  have h2 : decide (g.nx - 1 < i + xbndry o g) = false := by rw [decide_eq_false_iff_not]; omega
  simp [rhs, h1, h2]

/-- **C83.**  Whatever the flags, and whatever the array held before: at every cell inside, not next to a single
boundary cell, the result satisfies the documented equation up to the defect; so exactly where `g13 = 0` and `D = 1` (or
no first derivative terms are asked for). -/
theorem C83_solution_partial {o : Opts} {kz : Nat} (h : Plain o kz) (g : Geom) {z : Zgbsv} (hz : Solves z)
    (junk : Nat → ℂ) (old : Nat → Nat → Row) (b x0 : Nat → Nat → ℂ)
    (hns : Nonsing g.nx (five (matrix o g kz (old kz)))) (i : Nat) (h2 : 2 ≤ i) (hn : i + 3 ≤ g.nx)
    (hb : xbndry o g ≤ i) (hb' : i + xbndry o g < g.nx) (hdx : g.dx i ≠ 0) (hC : g.C i ≠ 0) :
    operator o g (g.kwave kz i) (solve o g z junk old b x0 kz) i
        = b kz i + defect o g (g.kwave kz i) (solve o g z junk old b x0 kz) i ∧
    (g.g13 i = 0 → (g.D i = 1 ∨ (o.allTerms = false ∧ o.nonuniform = false)) →
      operator o g (g.kwave kz i) (solve o g z junk old b x0 kz) i = b kz i) := by
  have hrow := solve_row h g hz junk old b x0 hns i (by omega)
  rw [five_apply _ _ _ _ h2 hn, matrix_interior o g kz _ i h2 hn hb hb', C83_rows o g kz _ i h2 hn hdx hC,
    rhs_interior o g b x0 kz i hb hb'] at hrow
  have h1 := sub_eq_iff_eq_add.1 hrow
  refine ⟨h1, fun hg hD => ?_⟩
  rw [h1]
  have : defect o g (g.kwave kz i) (solve o g z junk old b x0 kz) i = 0 := by
    unfold defect
    rcases hD with hD | ⟨ha, hu⟩
    · rw [hg, hD]; simp
    · rw [hg, ha, hu]; simp
  rw [this, add_zero]

/-! ## Boundary cells -/

theorem unit_apply (n : Nat) (a : Nat → Row) (u : Nat → ℂ) (i : Nat) (hi : i < n) (ha : a i = unit) :
    apply n (five a) u i = u i := by
  unfold apply
  rw [Finset.sum_eq_single i]
  · rw [five, if_pos (by omega), ha, show i + 2 - i = 2 by omega]
    simp [unit, mk5]
  · intro c _ hc
    unfold five
    by_cases h : i ≤ c + 2 ∧ c ≤ i + 2
    · rw [if_pos h, ha]
      have : c + 2 - i ≠ 2 := by omega
      simp [unit, mk5, this]
    · rw [if_neg h, zero_mul]
  · intro h
    exact absurd (mem_range.2 hi) h

/-- Without gradient or Laplacian flags, and for the DC mode without `INVERT_SET` and `INVERT_RHS` on the inner side: the
boundary cells hold zero, or the value from `x0` where `INVERT_SET` asks for it, or the right-hand side where
`INVERT_RHS` does. -/
theorem C83_fixed_value {o : Opts} {kz : Nat} (h : Plain o kz) (g : Geom) {z : Zgbsv} (hz : Solves z)
    (junk : Nat → ℂ) (old : Nat → Nat → Row) (b x0 : Nat → Nat → ℂ)
    (hns : Nonsing g.nx (five (matrix o g kz (old kz)))) (hnx : 2 * xbndry o g + 2 ≤ g.nx) (i : Nat) :
    (i < xbndry o g → o.inner.acGrad = false → o.inner.acLap = false →
      (kz = 0 → o.inner = ⟨false, false, false, false, false, false, false, false⟩) →
      solve o g z junk old b x0 kz i = if o.inner.set then x0 kz i else if o.inner.rhs then b kz i else 0) ∧
    (g.nx ≤ i + xbndry o g → i < g.nx → o.outer.acGrad = false → o.outer.acLap = false → o.outer.dcGrad = false →
      solve o g z junk old b x0 kz i = if o.outer.set then x0 kz i else if o.outer.rhs then b kz i else 0) := by
  have hrow := fun hi => solve_row h g hz junk old b x0 hns i hi
  constructor
  · intro hi f1 f2 f3
    have hN : i < g.nx := by omega
    have hrow := hrow hN
    have hu : matrix o g kz (old kz) i = unit := by
      have hbase : base o g kz (old kz) i = unit := by
        unfold base; exact if_pos (Or.inl hi)
      have hou : decide (g.nx - 1 < i + xbndry o g ∧ i < g.nx) = false := by rw [decide_eq_false_iff_not]; omega
      unfold matrix
      dsimp only
      by_cases hk : kz = 0
      · rw [if_pos hk]
        have hi' : (if decide (i < xbndry o g) = true then innerDC o g i (base o g kz (old kz) i)
            else base o g kz (old kz) i) = unit := by
          rw [if_pos (by simpa using hi), hbase]
          simp [innerDC, f3 hk]
        split
        · simp only [hou, Bool.false_eq_true, if_false]; exact hi'
        · exact hi'
      · rw [if_neg hk, f1, f2]
        simp only [Bool.false_eq_true, if_false]
        split
        · simp only [hou, Bool.false_eq_true, if_false]; exact hbase
        · split
          · unfold upd
            rw [if_neg (by omega), if_neg (by omega), hbase]
          · exact hbase
    rw [unit_apply _ _ _ _ hN hu] at hrow
    rw [hrow]
    have h2 : decide (g.nx - 1 < i + xbndry o g) = false := by rw [decide_eq_false_iff_not]; omega
    unfold rhs
    simp only [h2, show decide (i < xbndry o g) = true by simpa using hi, Bool.true_and, Bool.false_and, Bool.or_false,
      Bool.false_eq_true, if_false]
    cases o.inner.set <;> cases o.inner.rhs <;> simp
  · intro hi hN f1 f2 f3
    have hrow := hrow hN
    have hin : decide (i < xbndry o g) = false := by rw [decide_eq_false_iff_not]; omega
    have hu : matrix o g kz (old kz) i = unit := by
      have hbase : base o g kz (old kz) i = unit := by
        unfold base; exact if_pos (Or.inr ⟨by omega, hN⟩)
      unfold matrix
      dsimp only
      by_cases hk : kz = 0
      · rw [if_pos hk, f3]
        simp only [Bool.false_eq_true, if_false, hin]
        exact hbase
      · rw [if_neg hk, f1, f2]
        simp only [Bool.false_eq_true, if_false]
        split
        · simp only [hin, Bool.false_eq_true, if_false]; exact hbase
        · split
          · unfold upd
            rw [if_neg (by omega), if_neg (by omega), hbase]
          · exact hbase
    rw [unit_apply _ _ _ _ hN hu] at hrow
    rw [hrow]
    unfold rhs
    have h2 : decide (g.nx - 1 < i + xbndry o g) = true := by rw [decide_eq_true_iff]; omega
    simp only [h2, hin, Bool.true_and, Bool.false_and, Bool.false_or, Bool.false_eq_true, if_false]
    cases o.outer.set <;> cases o.outer.rhs <;> simp

/-! ## Where the property fails -/

/-- With one boundary cell on each side, the rows of the first and the last cell inside do not contain `A` at all, nor
the last one `D`: any two solvers that differ only in those have the same rows there (with no zero-Laplacian flag). -/
theorem C83_edge_violated (o : Opts) (g : Geom) (hx : xbndry o g = 1) (hnx : 5 ≤ g.nx) (hi : o.inner.acLap = false)
    (ho : o.outer.acLap = false) (A' D' : Nat → ℝ) (kz : Nat) (old : Nat → Row) :
    matrix o { g with A := A' } kz old 1 = matrix o g kz old 1 ∧
      matrix o { g with A := A' } kz old (g.nx - 2) = matrix o g kz old (g.nx - 2) ∧
      matrix o { g with D := D' } kz old (g.nx - 2) = matrix o g kz old (g.nx - 2) := by
  have key : ∀ (g' : Geom) (i : Nat), g'.nx = g.nx → g'.xstart = g.xstart → i = 1 ∨ i = g.nx - 2 →
      matrix o g' kz old i = if i = g.nx - 2 then edge o g' kz 1 i else edge o g' kz (g'.D 1) i := by
    intro g' i hg hxs hii
    have hx' : xbndry o g' = 1 := by rw [← hx]; unfold xbndry; rw [hxs]
    have hin : decide (i < xbndry o g') = false := by rw [decide_eq_false_iff_not, hx']; omega
    have hou : decide (g'.nx - 1 < i + xbndry o g' ∧ i < g'.nx) = false := by
      rw [decide_eq_false_iff_not, hx', hg]; omega
    have hbase : base o g' kz old i = if i = g.nx - 2 then edge o g' kz 1 i else edge o g' kz (g'.D 1) i := by
      unfold base
      rw [if_neg (by rw [hx', hg]; omega), if_pos (by omega)]
      unfold upd
      rcases hii with rfl | rfl
      · rw [if_neg (by omega), if_pos rfl, if_neg (by omega)]
      · rw [hg, if_pos rfl, if_pos rfl]
    unfold matrix
    dsimp only
    rw [hi, ho]
    by_cases hk : kz = 0
    · rw [if_pos hk]
      by_cases h1 : o.outer.dcGrad = true
      · rw [if_pos h1]; simp only [hin, hou, Bool.false_eq_true, if_false]; exact hbase
      · rw [if_neg h1]; simp only [hin, Bool.false_eq_true, if_false]; exact hbase
    · rw [if_neg hk]
      by_cases h1 : o.outer.acGrad = true <;> by_cases h2 : o.inner.acGrad = true <;>
        simp only [h1, h2, hin, hou, Bool.false_eq_true, if_false, if_true] <;> exact hbase
  refine ⟨?_, ?_, ?_⟩
  · exact ((key { g with A := A' } 1 rfl rfl (Or.inl rfl)).trans rfl).trans (key g 1 rfl rfl (Or.inl rfl)).symm
  · exact ((key { g with A := A' } (g.nx - 2) rfl rfl (Or.inr rfl)).trans rfl).trans
      (key g (g.nx - 2) rfl rfl (Or.inr rfl)).symm
  · refine (key { g with D := D' } (g.nx - 2) rfl rfl (Or.inr rfl)).trans (Eq.trans ?_
      (key g (g.nx - 2) rfl rfl (Or.inr rfl)).symm)
    rw [if_pos rfl, if_pos rfl]
    unfold edge coef4left
    rfl

/-- `INVERT_SET` alone on the inner side: the DC mode gets a gradient condition.  A value independent of x gives zero in
the row, so `x0 = c` there is not met by `x = c`. -/
theorem C83_set_violated (o : Opts) (g : Geom) (old : Nat → Row) (hs : o.inner.set = true) (hnx : 2 * xbndry o g + 2 ≤ g.nx)
    (i : Nat) (hi : i < xbndry o g) (c : ℂ) :
    apply g.nx (five (matrix o g 0 old)) (fun _ => c) i = 0 ∧
      ∀ b x0, rhs o g b x0 0 i = x0 0 i := by
  have hou : decide (g.nx - 1 < i + xbndry o g ∧ i < g.nx) = false := by rw [decide_eq_false_iff_not]; omega
  have hin : decide (i < xbndry o g) = true := by simpa using hi
  have hm : matrix o g 0 old i = innerDC o g i (base o g 0 old i) := by
    unfold matrix
    simp only [if_true]
    split
    · simp only [hou, hin, Bool.false_eq_true, if_true, if_false]
    · simp only [hin, if_true]
  constructor
  · unfold apply
    have hr : ∀ col, col ≠ i → col ≠ i + 1 → five (matrix o g 0 old) i col * c = 0 := by
      intro col h1 h2
      unfold five
      by_cases h : i ≤ col + 2 ∧ col ≤ i + 2
      · rw [if_pos h, hm]
        have e2 : col + 2 - i ≠ 2 := by omega
        have e3 : col + 2 - i ≠ 3 := by omega
        simp [innerDC, hs, mk5, e2, e3]
      · rw [if_neg h, zero_mul]
    have hsum : ∑ col ∈ range g.nx, five (matrix o g 0 old) i col * c
        = ∑ col ∈ ({i, i + 1} : Finset Nat), five (matrix o g 0 old) i col * c := by
      symm
      refine sum_subset ?_ ?_
      · intro x hx
        simp only [mem_insert, mem_singleton] at hx
        rw [mem_range]; omega
      · intro x _ hx
        simp only [mem_insert, mem_singleton, not_or] at hx
        exact hr x hx.1 hx.2
    rw [hsum, sum_insert (by simp), sum_singleton]
    simp only [five, hm, innerDC, hs, Bool.or_true, Bool.true_or, if_true]
    rw [if_pos (by omega), if_pos (by omega), show i + 2 - i = 2 by omega, show i + 1 + 2 - i = 3 by omega]
    simp only [mk5, cx_eq]
    norm_num
    ring
  · intro b x0
    have h2 : decide (g.nx - 1 < i + xbndry o g) = false := by rw [decide_eq_false_iff_not]; omega
    simp [rhs, hs, hin, h2]

/-! ## The hypotheses can be met -/

/-- A matrix as a linear map. -/
def toMap (n : Nat) (m : Nat → Nat → ℂ) : (Fin n → ℂ) →ₗ[ℂ] (Fin n → ℂ) where
  toFun u := fun r => apply n m (fun c => if h : c < n then u ⟨c, h⟩ else 0) r
  map_add' u v := by
    funext r
    simp only [apply, Pi.add_apply, ← sum_add_distrib]
    refine sum_congr rfl fun c hc => ?_
    have := mem_range.1 hc
    simp only [this, dif_pos]
    ring
  map_smul' k u := by
    funext r
    simp only [apply, Pi.smul_apply, smul_eq_mul, mul_sum, RingHom.id_apply]
    refine sum_congr rfl fun c hc => ?_
    have := mem_range.1 hc
    simp only [this, dif_pos]
    ring

/-- A solver that does what `zgbsv` should. -/
theorem solver_exists : ∃ z : Zgbsv, Solves z := by
  have key : ∀ n (AB b : Nat → ℂ), ∃ x : Nat → ℂ, Nonsing n (stored AB) → ∀ row, row < n → apply n (stored AB) x row = b row := by
    intro n AB b
    by_cases h : Nonsing n (stored AB)
    · have hinj : Function.Injective (toMap n (stored AB)) := by
        rw [injective_iff_map_eq_zero]
        intro u hu
        funext i
        have := h (fun c => if h : c < n then u ⟨c, h⟩ else 0) (fun row hr => congrFun hu ⟨row, hr⟩) i i.2
        simpa using this
      obtain ⟨u, hu⟩ := LinearMap.surjective_of_injective hinj (fun i => b i)
      exact ⟨fun c => if h : c < n then u ⟨c, h⟩ else 0, fun _ row hr => congrFun hu ⟨row, hr⟩⟩
    · exact ⟨fun _ => 0, fun h' => absurd h' h⟩
  exact ⟨fun n AB b => (key n AB b).choose, fun n AB b h => (key n AB b).choose_spec h⟩

def geomEx : Geom :=
  { nx := 5, xstart := 2, dx := fun _ => 1, g11 := fun _ => 1, g33 := fun _ => 1, g13 := fun _ => 0, G1 := fun _ => 0,
    G3 := fun _ => 0, gu11 := fun _ => 1, gu22 := fun _ => 1, A := fun _ => 2, C := fun _ => 1, D := fun _ => 1,
    kwave := fun kz _ => kz }

def noFlags : Flags := ⟨false, false, false, false, false, false, false, false⟩

def optsEx : Opts :=
  { allTerms := true, nonuniform := true, bothOne := false, kxZero := false, zeroDC := false, inner := noFlags,
    outer := noFlags, maxmode := 3 }

/-- Five cells, two boundary cells each side, mode one: the matrix is nonsingular, and the result is zero in the boundary
cells and `b / (-30/12 - 1 + 2)` in the middle. -/
theorem C83_example (old : Nat → Row) : Nonsing geomEx.nx (five (matrix optsEx geomEx 1 old)) ∧
    ∃ z, Solves z ∧ ∀ junk b x0, solve optsEx geomEx z junk (fun _ => old) b x0 1 2 = b 1 2 / (-3 / 2) := by
  have hxb : xbndry optsEx geomEx = 2 := by simp [xbndry, optsEx, geomEx]
  have hb : ∀ i, i < 5 → i ≠ 2 → matrix optsEx geomEx 1 old i = unit := by
    intro i hi h2
    have hbase : base optsEx geomEx 1 old i = unit := by
      unfold base
      exact if_pos (by rw [hxb]; simp only [geomEx]; omega)
    unfold matrix
    simp only [optsEx, noFlags, Nat.one_ne_zero, Bool.false_eq_true, if_false]
    exact hbase
  have hm : matrix optsEx geomEx 1 old 2 = interior optsEx geomEx 1 2 :=
    matrix_interior optsEx geomEx 1 old 2 (by omega) (by simp [geomEx]) (by rw [hxb]) (by rw [hxb]; simp [geomEx])
  have hc : coef4 optsEx geomEx 2 = 0 := by simp [coef4, optsEx, geomEx]
  have hrow : ∀ u : Nat → ℂ, u 0 = 0 → u 1 = 0 → u 3 = 0 → u 4 = 0 →
      apply 5 (five (matrix optsEx geomEx 1 old)) u 2 = (-3 / 2) * u 2 := by
    intro u h0 h1 h3 h4
    rw [five_apply 5 _ u 2 (by omega) (by omega), hm]
    simp only [show (2 : Nat) - 2 = 0 from rfl, show (2 : Nat) - 1 = 1 from rfl, show (2 : Nat) + 1 = 3 from rfl,
      show (2 : Nat) + 2 = 4 from rfl, h0, h1, h3, h4, mul_zero, zero_add, add_zero]
    congr 1
    simp only [interior, hc, mk5, cx_eq, geomEx, optsEx]
    norm_num
  have hns : Nonsing geomEx.nx (five (matrix optsEx geomEx 1 old)) := by
    intro u hu
    have hb' : ∀ i, i < 5 → i ≠ 2 → u i = 0 := fun i hi h2 => by
      rw [← unit_apply 5 _ u i hi (hb i hi h2)]; exact hu i hi
    have h2 : (-3 / 2 : ℂ) * u 2 = 0 := by
      rw [← hrow u (hb' 0 (by omega) (by omega)) (hb' 1 (by omega) (by omega)) (hb' 3 (by omega) (by omega))
        (hb' 4 (by omega) (by omega))]
      exact hu 2 (by decide)
    intro i hi
    by_cases h : i = 2
    · subst h
      rcases mul_eq_zero.1 h2 with h | h
      · norm_num at h
      · exact h
    · exact hb' i hi h
  refine ⟨hns, ?_⟩
  obtain ⟨z, hz⟩ := solver_exists
  refine ⟨z, hz, fun junk b x0 => ?_⟩
  have hp : Plain optsEx 1 := ⟨by decide, by simp⟩
  have hr := fun i hi => solve_row hp geomEx hz junk (fun _ => old) b x0 hns i hi
  have hb' : ∀ i, i < 5 → i ≠ 2 → solve optsEx geomEx z junk (fun _ => old) b x0 1 i = 0 := fun i hi h2 => by
    have h1 := hr i hi
    rw [unit_apply geomEx.nx _ _ i hi (hb i hi h2)] at h1
    rw [h1]
    have : i < 2 ∨ 3 ≤ i := by omega
    unfold rhs
    rw [hxb]
    have e : geomEx.nx = 5 := rfl
    rw [e]
    rcases this with h | h
    · have h' : ¬(5 - 1 < i + 2) := by omega
      simp [optsEx, noFlags, h, h']
    · have h' : 5 - 1 < i + 2 := by omega
      simp [optsEx, noFlags, h']
  have h2 := hr 2 (by decide)
  rw [rhs_interior _ _ _ _ _ _ (by rw [hxb]) (by rw [hxb]; simp [geomEx])] at h2
  have h3 := hrow _ (hb' 0 (by omega) (by omega)) (hb' 1 (by omega) (by omega)) (hb' 3 (by omega) (by omega))
        (hb' 4 (by omega) (by omega))
  rw [show geomEx.nx = 5 from rfl, h3] at h2
  rw [← h2]
  norm_num

/-- Half of the mixed derivative is missing: with `g13 = 1` a row differs from the operator by `i k dx(u)` (here for
`u = x` and mode one, by `i`). -/
theorem C83_mixed_violated (old : Nat → Row) :
    let g : Geom := { geomEx with g13 := fun _ => 1 }
    let u : Nat → ℂ := fun i => i
    apply 5 (five (matrix optsEx g 1 old)) u 2 ≠ operator optsEx g (g.kwave 1 2) u 2 := by
  intro g u
  have hxb : xbndry optsEx g = 2 := by simp [xbndry, optsEx, geomEx, g]
  rw [five_apply 5 _ u 2 (by omega) (by omega),
    matrix_interior optsEx g 1 old 2 (by omega) (by simp [geomEx, g]) (by rw [hxb]) (by rw [hxb]; simp [geomEx, g]),
    C83_rows optsEx g 1 u 2 (by omega) (by simp [geomEx, g]) (by simp [geomEx, g]) (by simp [geomEx, g])]
  intro h
  have hd : defect optsEx g (g.kwave 1 2) u 2 = 0 := by linear_combination -h
  have hv : defect optsEx g (g.kwave 1 2) u 2 = Complex.I := by
    simp only [defect, g, geomEx, u, d1, optsEx, nu, dlogC]
    push_cast
    norm_num
  rw [hv] at hd
  exact Complex.I_ne_zero hd

end

end Verif.SBand
