import Verif.Field.PerpIndex

/-! # C94: theorems about global indices of perpendicular slices -/
namespace Verif.PerpIndex

/-- **C94, round trip.** In one decomposition a slice is read with the index it was stored with if that is an interior row or one
beyond an existing boundary, and with -1 otherwise, on every processor and whatever slice is given as model. -/
theorem C94_roundtrip (d : Decomp) (b : Bndry) (pe y similar : Int) (hpe : 0 ≤ pe) (hm : 0 ≤ d.mysub) (hg : 0 ≤ d.myg) :
    let valid := (d.myg ≤ y ∧ y < d.myg + d.mysub) ∨ (b.lower ∧ 0 ≤ y ∧ y < d.myg)
      ∨ (b.upper ∧ d.myg + d.mysub ≤ y ∧ y < d.mysub + 2 * d.myg)
    (valid → load d b pe (store d b pe y) similar = y) ∧ (¬ valid → load d b pe (store d b pe y) similar = -1) := by
  intro valid
  have hp : 0 ≤ pe * d.mysub := mul_nonneg hpe hm
  have hv : valid ↔ first d b ≤ y ∧ y < stop d b := by
    simp only [valid, first, stop]
    cases b.lower <;> cases b.upper <;> simp <;> omega
  have hloc : toLocal d pe (toGlobal d pe y) = y := by unfold toLocal toGlobal; ring
  constructor
  · intro h
    have h1 := hv.1 h
    simp only [load, store, globalIndex, setFromGlobal, if_pos h1, hloc]
  · intro h
    have h1 : ¬ (first d b ≤ y ∧ y < stop d b) := fun h2 => h (hv.2 h2)
    have h2 : ¬ (first d b ≤ toLocal d pe (-1) ∧ toLocal d pe (-1) < stop d b) := by
      rintro ⟨h3, -⟩
      have h4 : 0 ≤ first d b := by unfold first; split_ifs <;> omega
      have h5 : toLocal d pe (-1) < 0 := by unfold toLocal; split_ifs <;> omega
      omega
    simp only [load, store, globalIndex, setFromGlobal, if_neg h1, if_neg h2]

/-- The boundaries a row of processors has in `npe` rows: at the ends, and in a double null on both sides of the upper target. -/
def bndryOf (d : Decomp) (npe pe : Int) : Bndry :=
  ⟨decide (pe = 0) || (d.doubleNull && decide (pe * d.mysub = d.nyInner)),
   decide (pe = npe - 1) || (d.doubleNull && decide ((pe + 1) * d.mysub = d.nyInner))⟩

/-- A decomposition the theorems are about: subdomains larger than two widths of guard cells, and the upper target between two
of them. -/
structure Fits (d : Decomp) (npe : Int) : Prop where
  rows : 0 < npe
  guard : 0 ≤ d.myg
  size : 2 * d.myg < d.mysub
  inner : d.doubleNull → ∃ k, 0 < k ∧ k < npe ∧ k * d.mysub = d.nyInner

theorem past_iff {d : Decomp} {npe : Int} (h : Fits d npe) (pe : Int) :
    past d pe = true ↔ d.doubleNull = true ∧ d.nyInner ≤ pe * d.mysub := by
  unfold past
  rw [Bool.and_eq_true, decide_eq_true_eq]
  refine and_congr_right fun hd => ?_
  obtain ⟨k, -, -, hk⟩ := h.inner hd
  rw [← hk]
  have hm := h.size
  have hg := h.guard
  constructor
  · intro h1
    by_contra h2
    have h3 : pe < k := by
      by_contra h4
      exact h2 (mul_le_mul_of_nonneg_right (not_lt.1 h4) (by omega))
    have h4 : (pe + 1) * d.mysub ≤ k * d.mysub := mul_le_mul_of_nonneg_right (by omega) (by omega)
    have h5 : (pe + 1) * d.mysub = pe * d.mysub + d.mysub := by ring
    omega
  · intro h1; omega

/-- **C94, meaning.** The global index of an interior row depends only on which row of the whole mesh it is, number `k` counted
without boundaries: `k + MYG`, and `2 MYG` more above the upper target of a double null. So it means the same row in every
decomposition. -/
theorem C94_meaning_partial (d : Decomp) (npe pe k : Int) (h : Fits d npe) (hk : pe * d.mysub ≤ k ∧ k < (pe + 1) * d.mysub)
    (b : Bndry) :
    globalIndex d b pe (k - pe * d.mysub + d.myg) = k + d.myg + (if d.doubleNull ∧ d.nyInner ≤ k then 2 * d.myg else 0)
    ∧ setFromGlobal d b pe (k + d.myg + (if d.doubleNull ∧ d.nyInner ≤ k then 2 * d.myg else 0)) = k - pe * d.mysub + d.myg := by
  have hm := h.size
  have hg := h.guard
  have h5 : (pe + 1) * d.mysub = pe * d.mysub + d.mysub := by ring
  rw [h5] at hk
  have hpast : past d pe = true ↔ (d.doubleNull = true ∧ d.nyInner ≤ k) := by
    rw [past_iff h]
    refine and_congr_right fun hd => ?_
    obtain ⟨m, -, -, hmk⟩ := h.inner hd
    rw [← hmk]
    constructor
    · intro h1; omega
    · intro h1
      by_contra h2
      have h3 : pe < m := by
        by_contra h4
        exact h2 (mul_le_mul_of_nonneg_right (not_lt.1 h4) (by omega))
      have h4 : (pe + 1) * d.mysub ≤ m * d.mysub := mul_le_mul_of_nonneg_right (by omega) (by omega)
      omega
  have hif : (if past d pe = true then 2 * d.myg else 0) = if d.doubleNull ∧ d.nyInner ≤ k then 2 * d.myg else 0 := by
    by_cases hc : past d pe = true
    · rw [if_pos hc, if_pos (hpast.1 hc)]
    · rw [if_neg hc, if_neg fun h6 => hc (hpast.2 h6)]
  have hr : first d b ≤ k - pe * d.mysub + d.myg ∧ k - pe * d.mysub + d.myg < stop d b := by
    unfold first stop
    split_ifs <;> omega
  constructor
  · unfold globalIndex
    rw [if_pos hr, toGlobal, hif]; ring
  · have hl : toLocal d pe (k + d.myg + (if d.doubleNull ∧ d.nyInner ≤ k then 2 * d.myg else 0)) = k - pe * d.mysub + d.myg := by
      rw [toLocal, hif]; ring
    simp only [setFromGlobal, hl, if_pos hr]

theorem set_ne {d : Decomp} {b : Bndry} {pe g : Int} (h : setFromGlobal d b pe g ≠ -1) :
    first d b ≤ toLocal d pe g ∧ toLocal d pe g < stop d b := by
  by_contra hc
  simp only [setFromGlobal, if_neg hc] at h
  exact h rfl

theorem not_both {d : Decomp} {npe : Int} (h : Fits d npe) (pe pe' : Int) (h0 : 0 ≤ pe) (hlt : pe < pe') (h1 : pe' < npe) (g : Int)
    (ha : setFromGlobal d (bndryOf d npe pe) pe g ≠ -1) (hb : setFromGlobal d (bndryOf d npe pe') pe' g ≠ -1) : False := by
  have hm := h.size
  have hg := h.guard
  obtain ⟨-, a⟩ := set_ne ha
  obtain ⟨b, -⟩ := set_ne hb
  have h5 : (pe + 1) * d.mysub = pe * d.mysub + d.mysub := by ring
  have hY : (pe + 1) * d.mysub ≤ pe' * d.mysub := mul_le_mul_of_nonneg_right (by omega) (by omega)
  have p1 := past_iff h pe
  have p2 := past_iff h pe'
  have hb0 : pe' ≠ 0 := by omega
  have ha0 : pe ≠ npe - 1 := by omega
  rw [h5] at hY
  unfold stop toLocal bndryOf at a
  unfold first toLocal bndryOf at b
  rw [h5] at a
  simp only [hb0, ha0, decide_false, Bool.false_or, Bool.and_eq_true, decide_eq_true_eq] at a b
  generalize pe * d.mysub = X at *
  generalize pe' * d.mysub = Y at *
  cases hdn : d.doubleNull with
  | false =>
    simp only [hdn, Bool.false_eq_true, false_and, if_false, iff_false] at a b p1 p2
    simp only [p1, p2] at a b
    omega
  | true =>
    simp only [hdn, true_and] at a b p1 p2
    simp only [p1, p2] at a b
    split_ifs at a b <;> omega

/-- **C94, one owner.** At most one row of processors accepts a global index, boundaries included: guard rows at the upper
target of a double null are not confused with rows beyond it. -/
theorem C94_owner_partial (d : Decomp) (npe : Int) (h : Fits d npe) (pe pe' : Int) (h0 : 0 ≤ pe ∧ pe < npe)
    (h1 : 0 ≤ pe' ∧ pe' < npe) (g : Int) (ha : setFromGlobal d (bndryOf d npe pe) pe g ≠ -1)
    (hb : setFromGlobal d (bndryOf d npe pe') pe' g ≠ -1) : pe = pe' := by
  rcases lt_trichotomy pe pe' with hlt | e | hgt
  · exact (not_both h pe pe' h0.1 hlt h1.2 g ha hb).elim
  · exact e
  · exact (not_both h pe' pe h1.1 hgt h0.2 g hb ha).elim

/-- **C94, files without the index.** The index of the slice given as model is used; without one, the first interior row on the
first row of processors. -/
theorem C94_default_partial (d : Decomp) (b : Bndry) (pe similar : Int) :
    (similar ≠ -1 → load d b pe none similar = similar) ∧ (similar = -1 → pe = 0 → load d b pe none similar = d.myg) := by
  refine ⟨fun h => by simp only [load, if_neg h], ?_⟩
  rintro rfl rfl
  simp [load, toLocalNoBndry]

end Verif.PerpIndex
