/-
C42: after a communication every guard cell holds the value of the cell it stands for.
-/
import Verif.Comm.Twist

namespace Verif.Comm
open Verif.Mesh

/-! ## Specification -/

/-- Follow the field line at radial position `x` up from row `y`, `n` rows; `none` if it
hits a target. -/
def followUp (c : Cfg) (x : Int) : Nat → Int → Option Int
  | 0, y => some y
  | n + 1, y => (upNeighbour c x y).bind (followUp c x n)

/-- Follow the field line down. -/
def followDown (c : Cfg) (x : Int) : Nat → Int → Option Int
  | 0, y => some y
  | n + 1, y => (downNeighbour c x y).bind (followDown c x n)

/-- A row as seen across a branch cut: shifted if the field is field-aligned. -/
def across {α : Type} (aligned : Var → Bool) (shiftZ : Bool → Int → (Nat → α) → Nat → α)
    (twist up : Bool) (v : Var) (x : Int) (row : Nat → α) : Nat → α :=
  if twist = true ∧ v.is3D = true ∧ aligned v = true then shiftZ up x row else row

/-! ## Rows and ranks -/

section
variable {c : Cfg} (h : Layout c)
include h

/-- Inside the rows of a rank the next row is the next row. -/
theorem up_inside {p r x : Int} (hp0 : 0 ≤ p) (hp1 : p < c.NYPE) (h0 : 0 ≤ r)
    (h1 : r < c.MYSUB - 1) :
    upNeighbour c x (p * c.MYSUB + r) = some (p * c.MYSUB + r + 1) := by
  obtain ⟨_, _, ey, hM⟩ := h.sizes.split
  obtain ⟨a, b, k, d, e, hc⟩ := h.cuts
  have a0 := hc.a0; have ae := hc.ae; have eN := hc.eN
  have no : ∀ {j m : Int}, j + 1 = m * c.MYSUB → 0 ≤ m → ¬ p * c.MYSUB + r = j := by
    intro j m hj hm he
    have : p * c.MYSUB + (r + 1) = m * c.MYSUB + 0 := by omega
    have := block_unique (m := c.MYSUB) hp0 hm (by omega) (by omega) (by omega) hM this
    omega
  have n1 := no hc.ha a0
  have n2 := no hc.he (by omega)
  have n5 : ¬ p * c.MYSUB + r = c.ny - 1 := no (m := c.NYPE) (by rw [← ey]; omega) (by omega)
  unfold upNeighbour
  by_cases hs : DoubleNull c
  · have ab := hc.ab hs; have bk := hc.bk hs; have kd := hc.kd hs; have de := hc.de hs
    have n3 := no (hc.hb hs) (by omega)
    have n4 := no (hc.hd hs) (by omega)
    have n6 : ¬ p * c.MYSUB + r = c.ny_inner - 1 :=
      no (m := k) (by rw [← hc.hk hs]; omega) (by omega)
    simp [n1, n2, n3, n4, n5, n6]
  · simp [n1, n2, n5, hs]

theorem down_inside {p r x : Int} (hp0 : 0 ≤ p) (hp1 : p < c.NYPE) (h0 : 0 < r)
    (h1 : r < c.MYSUB) :
    downNeighbour c x (p * c.MYSUB + r) = some (p * c.MYSUB + r - 1) := by
  obtain ⟨_, _, ey, hM⟩ := h.sizes.split
  obtain ⟨a, b, k, d, e, hc⟩ := h.cuts
  have a0 := hc.a0; have ae := hc.ae; have eN := hc.eN
  have no : ∀ {j m : Int}, j = m * c.MYSUB → 0 ≤ m → ¬ p * c.MYSUB + r = j := by
    intro j m hj hm he
    have : p * c.MYSUB + r = m * c.MYSUB + 0 := by omega
    have := block_unique (m := c.MYSUB) hp0 hm (by omega) (by omega) (by omega) hM this
    omega
  have n1 := no hc.ha a0
  have n2 := no hc.he (by omega)
  have n5 : ¬ p * c.MYSUB + r = 0 := no (m := 0) (by omega) (by omega)
  unfold downNeighbour
  by_cases hs : DoubleNull c
  · have ab := hc.ab hs; have bk := hc.bk hs; have kd := hc.kd hs; have de := hc.de hs
    have n3 := no (hc.hb hs) (by omega)
    have n4 := no (hc.hd hs) (by omega)
    have n6 := no (hc.hk hs) (by omega)
    simp [n1, n2, n3, n4, n5, n6]
  · simp [n1, n2, n5, hs]

/-- The row after the last row of a rank is the first row of a rank. -/
theorem up_first {p x y : Int} (hp0 : 0 ≤ p) (hp1 : p < c.NYPE)
    (hy : upNeighbour c x (p * c.MYSUB + (c.MYSUB - 1)) = some y) :
    ∃ q, 0 ≤ q ∧ q < c.NYPE ∧ y = q * c.MYSUB := by
  obtain ⟨_, _, ey, hM⟩ := h.sizes.split
  obtain ⟨a, b, k, d, e, hc⟩ := h.cuts
  have a0 := hc.a0; have ae := hc.ae; have eN := hc.eN; have legs := hc.legs
  have r22 : p * c.MYSUB + (c.MYSUB - 1) = c.jyseps2_2 ↔ p = e - 1 := last_row_eq hM hc.he
  have r11 : p * c.MYSUB + (c.MYSUB - 1) = c.jyseps1_1 ↔ p = a - 1 := last_row_eq hM hc.ha
  have rny : p * c.MYSUB + (c.MYSUB - 1) = c.ny - 1 ↔ p = c.NYPE - 1 :=
    last_row_eq hM (by rw [← ey]; omega)
  unfold upNeighbour at hy
  simp only [r22, r11, rny] at hy
  by_cases c1 : x < c.ixseps1 ∧ p = e - 1
  · rw [if_pos c1] at hy
    exact ⟨a, a0, by omega, by rw [← hc.ha]; exact (Option.some.inj hy).symm⟩
  rw [if_neg c1] at hy
  by_cases c2 : x < c.ixseps1 ∧ p = a - 1
  · rw [if_pos c2] at hy
    exact ⟨e, by omega, by omega, by rw [← hc.he]; exact (Option.some.inj hy).symm⟩
  rw [if_neg c2] at hy
  have last : (if p = c.NYPE - 1 then none else some (p * c.MYSUB + (c.MYSUB - 1) + 1)) = some y →
      ∃ q, 0 ≤ q ∧ q < c.NYPE ∧ y = q * c.MYSUB := by
    intro hh
    by_cases hl : p = c.NYPE - 1
    · rw [if_pos hl] at hh; cases hh
    · rw [if_neg hl] at hh
      refine ⟨p + 1, by omega, by omega, ?_⟩
      rw [← Option.some.inj hh, Int.add_mul]; omega
  by_cases hs : DoubleNull c
  · have ab := hc.ab hs; have bk := hc.bk hs; have kd := hc.kd hs; have de := hc.de hs
    simp only [last_row_eq hM (hc.hb hs), last_row_eq hM (hc.hd hs), hs, true_and] at hy
    by_cases c3 : x < c.ixseps2 ∧ p = b - 1
    · rw [if_pos c3] at hy
      exact ⟨d, by omega, by omega, by rw [← hc.hd hs]; exact (Option.some.inj hy).symm⟩
    rw [if_neg c3] at hy
    by_cases c4 : x < c.ixseps2 ∧ p = d - 1
    · rw [if_pos c4] at hy
      exact ⟨b, by omega, by omega, by rw [← hc.hb hs]; exact (Option.some.inj hy).symm⟩
    rw [if_neg c4] at hy
    by_cases c5 : p * c.MYSUB + (c.MYSUB - 1) = c.ny_inner - 1
    · rw [if_pos c5] at hy; cases hy
    rw [if_neg c5] at hy
    exact last hy
  · simp only [hs, false_and, if_false] at hy
    exact last hy

theorem down_last {p x y : Int} (hp0 : 0 ≤ p) (hp1 : p < c.NYPE)
    (hy : downNeighbour c x (p * c.MYSUB) = some y) :
    ∃ q, 0 ≤ q ∧ q < c.NYPE ∧ y = q * c.MYSUB + (c.MYSUB - 1) := by
  obtain ⟨_, _, ey, hM⟩ := h.sizes.split
  obtain ⟨a, b, k, d, e, hc⟩ := h.cuts
  have a0 := hc.a0; have ae := hc.ae; have eN := hc.eN; have legs := hc.legs
  have r22 : p * c.MYSUB = c.jyseps2_2 + 1 ↔ p = e := first_row_eq hM hc.he
  have r11 : p * c.MYSUB = c.jyseps1_1 + 1 ↔ p = a := first_row_eq hM hc.ha
  have r0 : p * c.MYSUB = 0 ↔ p = 0 := first_row_eq hM (by omega)
  have fin : ∀ {j m : Int}, j + 1 = m * c.MYSUB → 0 < m → m ≤ c.NYPE → some j = some y →
      ∃ q, 0 ≤ q ∧ q < c.NYPE ∧ y = q * c.MYSUB + (c.MYSUB - 1) := by
    intro j m hj h0 h1 he
    refine ⟨m - 1, by omega, by omega, ?_⟩
    rw [← Option.some.inj he, Int.sub_mul]; omega
  unfold downNeighbour at hy
  simp only [r22, r11, r0] at hy
  by_cases c1 : x < c.ixseps1 ∧ p = a
  · rw [if_pos c1] at hy; exact fin hc.he (by omega) eN hy
  rw [if_neg c1] at hy
  by_cases c2 : x < c.ixseps1 ∧ p = e
  · rw [if_pos c2] at hy; exact fin hc.ha (by omega) (by omega) hy
  rw [if_neg c2] at hy
  have last : (if p = 0 then none else some (p * c.MYSUB - 1)) = some y →
      ∃ q, 0 ≤ q ∧ q < c.NYPE ∧ y = q * c.MYSUB + (c.MYSUB - 1) := by
    intro hh
    by_cases hl : p = 0
    · rw [if_pos hl] at hh; cases hh
    · rw [if_neg hl] at hh
      exact fin (j := p * c.MYSUB - 1) (m := p) (by omega) (by omega) (by omega) hh
  by_cases hs : DoubleNull c
  · have ab := hc.ab hs; have bk := hc.bk hs; have kd := hc.kd hs; have de := hc.de hs
    simp only [first_row_eq hM (hc.hb hs), first_row_eq hM (hc.hd hs), hs, true_and] at hy
    by_cases c3 : x < c.ixseps2 ∧ p = d
    · rw [if_pos c3] at hy; exact fin (hc.hb hs) (by omega) (by omega) hy
    rw [if_neg c3] at hy
    by_cases c4 : x < c.ixseps2 ∧ p = b
    · rw [if_pos c4] at hy; exact fin (hc.hd hs) (by omega) (by omega) hy
    rw [if_neg c4] at hy
    by_cases c5 : p * c.MYSUB = c.ny_inner
    · rw [if_pos c5] at hy; cases hy
    rw [if_neg c5] at hy
    exact last hy
  · simp only [hs, false_and, if_false] at hy
    exact last hy

theorem follow_block {p x : Int} (hp0 : 0 ≤ p) (hp1 : p < c.NYPE) (k : Nat) :
    ∀ r : Int, 0 ≤ r → r + k < c.MYSUB →
      followUp c x k (p * c.MYSUB + r) = some (p * c.MYSUB + r + k) := by
  induction k with
  | zero => intro r _ _; simp [followUp]
  | succ k ih =>
    intro r h0 h1
    push_cast at h1
    rw [followUp, up_inside h hp0 hp1 h0 (by omega), Option.bind_some,
      show p * c.MYSUB + r + 1 = p * c.MYSUB + (r + 1) by omega, ih (r + 1) (by omega) (by omega)]
    congr 1; push_cast; omega

theorem follow_block_down {p x : Int} (hp0 : 0 ≤ p) (hp1 : p < c.NYPE) (k : Nat) :
    ∀ r : Int, r < c.MYSUB → 0 ≤ r - k →
      followDown c x k (p * c.MYSUB + r) = some (p * c.MYSUB + r - k) := by
  induction k with
  | zero => intro r _ _; simp [followDown]
  | succ k ih =>
    intro r h0 h1
    push_cast at h1
    rw [followDown, down_inside h hp0 hp1 (by omega) h0, Option.bind_some,
      show p * c.MYSUB + r - 1 = p * c.MYSUB + (r - 1) by omega, ih (r - 1) (by omega) (by omega)]
    congr 1; push_cast; omega

end

end Verif.Comm
