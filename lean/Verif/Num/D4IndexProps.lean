import Verif.Num.DiffusionProps

/-! # C29: `D4DY4_Index` depends on the decomposition -/
namespace Verif.Num

variable {K : Type} [Field K] [LinearOrder K] [IsStrictOrderedRing K]

open Finset

/-- Third difference at the face between `j` and `j + 1`. -/
def third (f : Int → K) (j : Int) : K := f (j + 2) - 3 * f (j + 1) + 3 * f j - f (j - 1)

/-- The fourth difference at `j`. -/
def fourth (f : Int → K) (j : Int) : K := f (j + 2) - 4 * f (j + 1) + 6 * f j - 4 * f (j - 1) + f (j - 2)

/-- On a uniform grid, away from targets, one pass of the loop of `D4DY4_Index`. -/
theorem d4Index_body (R : YRank) (b : Bool) (C : Col K) (h J0 : K) (hh : h ≠ 0) (hJ0 : J0 ≠ 0)
    (hdy : ∀ i, C.dy i = h) (hJ : ∀ i, C.J i = J0) (hP : R.periodicY = true ∨ (R.firstY = false ∧ R.lastY = false))
    (r : Int → K) (j i : Int) :
    d4IndexDown R b C (d4IndexUp R b C r j) j i = r i + ((if i = j then third C.f j - third C.f (j - 1) else 0) +
      (if i = j + 1 then -third C.f j else 0) + (if i = j - 1 then third C.f (j - 1) else 0)) := by
  have hu : (!R.periodicY && R.lastY) = false := by rcases hP with h | ⟨_, h⟩ <;> simp [h]
  have hl : (!R.periodicY && R.firstY) = false := by rcases hP with h | ⟨h, _⟩ <;> simp [h]
  unfold d4IndexDown d4IndexUp
  simp only [hu, hl, or_true, if_true, addAt_apply, hdy, hJ]
  have e : 1/4 * (h + h) * (J0 + J0) / (J0 * h) = 1 := by field_simp; norm_num
  rw [e]
  simp only [mul_one]
  have t1 : third C.f j = C.f (j + 2) - 3 * C.f (j + 1) + 3 * C.f j - C.f (j - 1) := rfl
  have t2 : third C.f (j - 1) = C.f (j + 1) - 3 * C.f j + 3 * C.f (j - 1) - C.f (j - 2) := by
    unfold third
    rw [show j - 1 + 2 = j + 1 by omega, show j - 1 + 1 = j by omega, show j - 1 - 1 = j - 2 by omega]
  rw [t1, t2]
  split_ifs <;> first | omega | ring

/-- The value of `D4DY4_Index` in any row of a rank that does not touch a target (uniform grid). -/
theorem d4Index_value (R : YRank) (b : Bool) (C : Col K) (h J0 : K) (hh : h ≠ 0) (hJ0 : J0 ≠ 0)
    (hdy : ∀ i, C.dy i = h) (hJ : ∀ i, C.J i = J0) (hP : R.periodicY = true ∨ (R.firstY = false ∧ R.lastY = false))
    (j : Int) (h0 : R.ystart ≤ j) (h1 : j ≤ R.yend) :
    d4Index R b C j = third C.f j - third C.f (j - 1) + (if j = R.ystart then 0 else -third C.f (j - 1)) +
      (if j = R.yend then 0 else third C.f j) := by
  have := foldl_three (fun r j => d4IndexDown R b C (d4IndexUp R b C r j) j)
    (fun j => third C.f j - third C.f (j - 1)) (fun j => -third C.f j) (fun j => third C.f (j - 1))
    (d4Index_body R b C h J0 hh hJ0 hdy hJ hP) R.ystart R.yend j
  unfold d4Index
  rw [this, if_pos ⟨h0, h1⟩]
  have a : (if R.ystart ≤ j - 1 ∧ j - 1 ≤ R.yend then -third C.f (j - 1) else 0) =
      if j = R.ystart then 0 else -third C.f (j - 1) := by
    by_cases hj : j = R.ystart
    · rw [if_pos hj, if_neg (by omega)]
    · rw [if_neg hj, if_pos (by omega)]
  have c : (if R.ystart ≤ j + 1 ∧ j + 1 ≤ R.yend then third C.f (j + 1 - 1) else 0) =
      if j = R.yend then 0 else third C.f j := by
    rw [show j + 1 - 1 = j by omega]
    by_cases hj : j = R.yend
    · rw [if_pos hj, if_neg (by omega)]
    · rw [if_neg hj, if_pos (by omega)]
  rw [a, c]

/-- **C29 (a counterexample).**  `D4DY4_Index` depends on how the line is divided between processors: on a uniform
grid an interior row of a rank gets twice the fourth difference, and the only row of a rank (`MYSUB = 1`) gets it
once.  Each face inside a rank is counted by the cells on both of its sides, a face between ranks by one of them. -/
theorem C29_D4DY4_Index_violated (b : Bool) (C : Col K) (h J0 : K) (hh : h ≠ 0) (hJ0 : J0 ≠ 0)
    (hdy : ∀ i, C.dy i = h) (hJ : ∀ i, C.J i = J0) (j : Int) (R : YRank)
    (hP : R.periodicY = true ∨ (R.firstY = false ∧ R.lastY = false)) :
    (R.ystart < j → j < R.yend → d4Index R b C j = 2 * fourth C.f j) ∧
    (R.ystart = j → R.yend = j → d4Index R b C j = fourth C.f j) := by
  have e : fourth C.f j = third C.f j - third C.f (j - 1) := by
    unfold third fourth
    rw [show j - 1 + 2 = j + 1 by omega, show j - 1 + 1 = j by omega, show j - 1 - 1 = j - 2 by omega]
    ring
  constructor
  · intro h0 h1
    rw [d4Index_value R b C h J0 hh hJ0 hdy hJ hP j (by omega) (by omega), if_neg (by omega), if_neg (by omega), e]
    ring
  · intro h0 h1
    rw [d4Index_value R b C h J0 hh hJ0 hdy hJ hP j (by omega) (by omega), if_pos h0.symm, if_pos h1.symm, e]
    ring

/-- The two cases differ, for example, for `f = y^4`. -/
example : ∃ (f : Int → ℚ), (2 * fourth f 3 : ℚ) ≠ fourth f 3 :=
  ⟨fun j => (j : ℚ) ^ 4, by unfold fourth; norm_num⟩

/-- **C29.** What holds of `D4DY4_Index`: on a uniform grid it conserves the total on a closed field line, however
many processors share it. -/
theorem C29_D4DY4_Index_conserves_partial (p M : Nat) (hp : 0 < p) (g : Int) (b : Bool) (G : Col K) (h J0 : K)
    (hh : h ≠ 0) (hJ0 : J0 ≠ 0) (hdy : ∀ i, G.dy i = h) (hJ : ∀ i, G.J i = J0) (hM : 0 < M)
    (hc : Closed G (p * M)) :
    lineTotal p M g G (fun r => d4Index (lineRank p M g true r) b (lineCol G M g r)) = 0 := by
  have hdy' : ∀ r i, (lineCol G M g r).dy i = h := fun r i => hdy _
  have hJ' : ∀ r i, (lineCol G M g r).J i = J0 := fun r i => hJ _
  have t : ∀ (r : Nat) (j : Int), third (lineCol G M g r).f j = third G.f (j + (r * M - g)) := by
    intro r j
    unfold third lineCol Col.shift
    simp only
    rw [show j + 2 + (↑r * ↑M - g) = j + (↑r * ↑M - g) + 2 by omega,
      show j + 1 + (↑r * ↑M - g) = j + (↑r * ↑M - g) + 1 by omega,
      show j - 1 + (↑r * ↑M - g) = j + (↑r * ↑M - g) - 1 by omega]
  rw [line_telescope p M hp g G _ (fun r j => h * J0 * third (lineCol G M g r).f j *
    (if g ≤ j ∧ j < g + M - 1 then 2 else 1))]
  · have e1 : ((p - 1 : Nat) : Int) * M = p * M - M := by
      rw [show ((p - 1 : Nat) : Int) = p - 1 by omega]; rw [Int.sub_mul, Int.one_mul]
    simp only [t]
    rw [if_neg (by omega), if_neg (by omega), e1, show g + (M : Int) - 1 + (p * M - M - g) = -1 + p * M by omega]
    simp only [Nat.cast_zero, Int.zero_mul]
    rw [show g - 1 + (0 - g) = -1 by omega]
    have : third G.f (-1 + p * M) = third G.f (-1) := by
      unfold third
      rw [show (-1 : Int) + p * M + 2 = (-1 + 2) + p * M by omega,
        show (-1 : Int) + p * M + 1 = (-1 + 1) + p * M by omega,
        show (-1 : Int) + p * M - 1 = (-1 - 1) + p * M by omega]
      simp only [hc.f]
    rw [this, sub_self]
  · intro r hr j h0 h1
    have hv : d4Index (lineRank p M g true r) b (lineCol G M g r) j =
        third (lineCol G M g r).f j - third (lineCol G M g r).f (j - 1) +
        (if j = g then 0 else -third (lineCol G M g r).f (j - 1)) +
        (if j = g + M - 1 then 0 else third (lineCol G M g r).f j) :=
      d4Index_value (lineRank p M g true r) b (lineCol G M g r) h J0 hh hJ0 (hdy' r) (hJ' r) (Or.inl rfl) j h0 h1
    rw [hv, hdy', hJ']
    by_cases ha : j = g <;> by_cases hb : j = g + M - 1
    · rw [if_pos ha, if_pos hb, if_neg (by omega), if_neg (by omega)]; ring
    · rw [if_pos ha, if_neg hb, if_pos (by omega), if_neg (by omega)]; ring
    · rw [if_neg ha, if_pos hb, if_neg (by omega), if_pos (by omega)]; ring
    · rw [if_neg ha, if_neg hb, if_pos (by omega), if_pos (by omega)]; ring
  · intro r hr
    have : ((r + 1 : Nat) : Int) * M = r * M + M := by push_cast; rw [Int.add_mul, Int.one_mul]
    simp only [t]
    rw [if_neg (by omega), if_neg (by omega), this,
      show g + (M : Int) - 1 + (r * M - g) = g - 1 + (r * M + M - g) by omega]

end Verif.Num
