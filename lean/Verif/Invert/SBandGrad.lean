import Verif.Invert.SBandThms

/-!
# C83: boundary cells with a gradient condition
-/

namespace Verif.SBand

open Verif.SBandSpec Finset

noncomputable section

/-- A row with entries on the diagonal and next to it only. -/
theorem three_apply (n : Nat) (a : Nat → Row) (u : Nat → ℂ) (i : Nat) (hi : i < n) (h0 : a i 0 = 0) (h4 : a i 4 = 0)
    (hl : i = 0 → a i 1 = 0) (hr : i + 1 = n → a i 3 = 0) :
    apply n (five a) u i = a i 1 * u (i - 1) + a i 2 * u i + a i 3 * u (i + 1) := by
  have hz : ∀ c, c + 1 ≠ i → c ≠ i → c ≠ i + 1 → five a i c * u c = 0 := by
    intro c h1 h2 h3
    unfold five
    by_cases h : i ≤ c + 2 ∧ c ≤ i + 2
    · rw [if_pos h]
      have : c + 2 - i = 0 ∨ c + 2 - i = 4 := by omega
      rcases this with e | e
      · rw [e, h0, zero_mul]
      · rw [e, h4, zero_mul]
    · rw [if_neg h, zero_mul]
  have hval : ∀ c d, c + 2 = i + d → d ≤ 4 → five a i c = a i d := fun c d hc hd => by
    rw [five, if_pos (by omega)]
    congr 1; omega
  unfold apply
  by_cases hi0 : i = 0
  · subst hi0
    rw [hl rfl, zero_mul, zero_add]
    by_cases hn : 0 + 1 = n
    · subst hn
      rw [hr rfl, sum_range_one, hval 0 2 (by omega) (by omega)]; ring
    · have hsub : ({0, 1} : Finset Nat) ⊆ range n := by
        intro x hx
        simp only [mem_insert, mem_singleton] at hx
        rw [mem_range]; omega
      rw [← sum_subset hsub (fun x _ hx => by
        simp only [mem_insert, mem_singleton, not_or] at hx
        exact hz x (by omega) hx.1 hx.2), sum_insert (by simp), sum_singleton, hval 0 2 (by omega) (by omega),
        hval 1 3 (by omega) (by omega)]
  · by_cases hn : i + 1 = n
    · rw [hr hn, zero_mul, add_zero]
      have hsub : ({i - 1, i} : Finset Nat) ⊆ range n := by
        intro x hx
        simp only [mem_insert, mem_singleton] at hx
        rw [mem_range]; omega
      rw [← sum_subset hsub (fun x hx' hx => by
        simp only [mem_insert, mem_singleton, not_or] at hx
        have := mem_range.1 hx'
        exact hz x (by omega) hx.2 (by omega)), sum_insert (by rw [mem_singleton]; omega), sum_singleton,
        hval (i - 1) 1 (by omega) (by omega), hval i 2 (by omega) (by omega)]
    · have hsub : ({i - 1, i, i + 1} : Finset Nat) ⊆ range n := by
        intro x hx
        simp only [mem_insert, mem_singleton] at hx
        rw [mem_range]; omega
      rw [← sum_subset hsub (fun x _ hx => by
        simp only [mem_insert, mem_singleton, not_or] at hx
        exact hz x (by omega) hx.2.1 hx.2.2), sum_insert (by simp only [mem_insert, mem_singleton]; omega),
        sum_insert (by simp), sum_singleton,
        hval (i - 1) 1 (by omega) (by omega), hval i 2 (by omega) (by omega), hval (i + 1) 3 (by omega) (by omega)]
      ring

/-- Gradient conditions: with `INVERT_AC_GRAD` on the inner side the difference of a boundary cell and the next cell is
the right-hand side; with `INVERT_AC_GRAD` (`INVERT_DC_GRAD` for the DC mode) on the outer side that of a boundary cell and
the one before it; with `INVERT_DC_GRAD` on the inner side half the difference quotient over `sqrt(g_11) dx`.  So zero
gradient with no further flag. -/
theorem C83_gradient {o : Opts} {kz : Nat} (h : Plain o kz) (g : Geom) {z : Zgbsv} (hz : Solves z)
    (junk : Nat → ℂ) (old : Nat → Nat → Row) (b x0 : Nat → Nat → ℂ) (hxs : 1 ≤ g.xstart)
    (hns : Nonsing g.nx (five (matrix o g kz (old kz)))) (hnx : 2 * xbndry o g + 2 ≤ g.nx) (i : Nat) :
    let x := solve o g z junk old b x0 kz
    (i < xbndry o g → kz ≠ 0 → o.inner.acGrad = true → x i - x (i + 1) = rhs o g b x0 kz i) ∧
    (i < xbndry o g → kz = 0 → o.inner.dcGrad = true →
      (x (i + 1) - x i) / (2 * (Real.sqrt (g.gu11 i) * g.dx i : ℝ)) = rhs o g b x0 kz i) ∧
    (g.nx ≤ i + xbndry o g → i < g.nx → (if kz = 0 then o.outer.dcGrad else o.outer.acGrad) = true →
      x i - x (i - 1) = rhs o g b x0 kz i) ∧
    (i < xbndry o g → o.inner.set = false → o.inner.rhs = false → rhs o g b x0 kz i = 0) ∧
    (g.nx ≤ i + xbndry o g → o.outer.set = false → o.outer.rhs = false → rhs o g b x0 kz i = 0) := by
  intro x
  have hxb := xb_pos o g hxs
  have hrow := fun hi => solve_row h g hz junk old b x0 hns i hi
  refine ⟨fun hi hk hf => ?_, fun hi hk hf => ?_, fun hi hN hf => ?_, fun hi hs hr => ?_, fun hi hs hr => ?_⟩
  · have hN : i < g.nx := by omega
    have hou : decide (g.nx - 1 < i + xbndry o g ∧ i < g.nx) = false := by rw [decide_eq_false_iff_not]; omega
    have hbase : base o g kz (old kz) i = unit := by
      unfold base; exact if_pos (Or.inl hi)
    have hm : matrix o g kz (old kz) i = setEntry unit 3 (-1) := by
      unfold matrix
      dsimp only
      rw [if_neg hk, if_pos hf]
      have hA : (if decide (i < xbndry o g) = true then setEntry (base o g kz (old kz) i) 3 (-1)
          else base o g kz (old kz) i) = setEntry unit 3 (-1) := by
        rw [if_pos (by simpa using hi), hbase]
      split
      · simp only [hou, Bool.false_eq_true, if_false]; exact hA
      · split
        · unfold upd
          rw [if_neg (by omega), if_neg (by omega)]; exact hA
        · exact hA
    rw [← hrow hN, three_apply _ _ _ i hN (by rw [hm]; simp [setEntry, unit, mk5]) (by rw [hm]; simp [setEntry, unit, mk5])
      (fun _ => by rw [hm]; simp [setEntry, unit, mk5]) (fun e => by omega), hm]
    simp [setEntry, unit, mk5, x]
    ring
  · have hN : i < g.nx := by omega
    subst hk
    have hou : decide (g.nx - 1 < i + xbndry o g ∧ i < g.nx) = false := by rw [decide_eq_false_iff_not]; omega
    have hm : matrix o g 0 (old 0) i = innerDC o g i (base o g 0 (old 0) i) := by
      unfold matrix
      simp only [if_true]
      have hin : decide (i < xbndry o g) = true := by simpa using hi
      split
      · simp only [hou, hin, Bool.false_eq_true, if_true, if_false]
      · simp only [hin, if_true]
    have hm' : matrix o g 0 (old 0) i = mk5 0 0 (cx (-(1 / 2) / Real.sqrt (g.gu11 i) / g.dx i) 0)
        (cx (1 / 2 / Real.sqrt (g.gu11 i) / g.dx i) 0) 0 := by
      rw [hm, innerDC, hf]; rfl
    rw [← hrow hN, three_apply _ _ _ i hN (by rw [hm']; simp [mk5]) (by rw [hm']; simp [mk5])
      (fun _ => by rw [hm']; simp [mk5]) (fun e => by omega), hm']
    simp only [mk5, cx_eq, if_true, Nat.one_ne_zero, if_false, OfNat.ofNat_ne_zero, OfNat.ofNat_ne_one, Nat.reduceEqDiff, x]
    push_cast
    simp only [div_eq_mul_inv, mul_inv, mul_zero, add_zero, zero_mul, zero_add]
    ring
  · have hin : decide (i < xbndry o g) = false := by rw [decide_eq_false_iff_not]; omega
    have hou : decide (g.nx - 1 < i + xbndry o g ∧ i < g.nx) = true := by rw [decide_eq_true_iff]; omega
    have hbase : base o g kz (old kz) i = unit := by
      unfold base; exact if_pos (Or.inr ⟨by omega, hN⟩)
    have hm : matrix o g kz (old kz) i = setEntry unit 1 (-1) := by
      unfold matrix
      dsimp only
      by_cases hk : kz = 0
      · rw [if_pos hk] at hf
        rw [if_pos hk, if_pos hf, if_pos hou]
        simp only [hin, Bool.false_eq_true, if_false]
        rw [hbase]
      · rw [if_neg hk] at hf
        rw [if_neg hk, if_pos hf, if_pos hou]
        congr 1
        split
        · simp only [hin, Bool.false_eq_true, if_false]; exact hbase
        · split
          · unfold upd
            rw [if_neg (by omega), if_neg (by omega)]; exact hbase
          · exact hbase
    rw [← hrow hN, three_apply _ _ _ i hN (by rw [hm]; simp [setEntry, unit, mk5]) (by rw [hm]; simp [setEntry, unit, mk5])
      (fun e => by omega) (fun e => by rw [hm]; simp [setEntry, unit, mk5]), hm]
    simp [setEntry, unit, mk5, x]
    ring
  · have h1 : decide (i < xbndry o g) = true := by simpa using hi
    have h2 : decide (g.nx - 1 < i + xbndry o g) = false := by rw [decide_eq_false_iff_not]; omega
    simp [rhs, h1, h2, hs, hr]
  · have h2 : decide (g.nx - 1 < i + xbndry o g) = true := by rw [decide_eq_true_iff]; omega
    simp [rhs, h2, hs, hr]

end

end Verif.SBand
