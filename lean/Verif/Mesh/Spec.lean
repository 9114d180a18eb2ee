/-
Specification of the tokamak topology, independent of the connection code: which row of
the grid follows which along the field line at a given radial position.

`x` is a global X index (counting the X boundary cells, as `ixseps1`/`ixseps2` do), `y` a
global Y index without boundaries, `0 ≤ y < ny`.
-/
import Verif.Mesh.Model
import Mathlib.Tactic.SplitIfs

namespace Verif.Mesh

/-- There is a second X-point with its own pair of divertor legs. -/
def DoubleNull (c : Cfg) : Prop := c.jyseps2_1 ≠ c.jyseps1_2

instance (c : Cfg) : Decidable (DoubleNull c) := by unfold DoubleNull; infer_instance

/-- The row that follows row `y` in the +Y direction at radial position `x`; `none` if the
field line ends on a target plate.

* Inside the lower separatrix (`x < ixseps1`) the last core row `jyseps2_2` joins back to
  the first core row `jyseps1_1 + 1`, and the end of the lower inner leg joins the start of
  the lower outer leg (private flux region).
* Inside the upper separatrix (`x < ixseps2`) of a double null the inner core joins the
  outer core across the upper X-point, and the two upper legs join each other.
* The upper targets of a double null stand between rows `ny_inner - 1` and `ny_inner`.
* The outer lower target stands after row `ny - 1`. -/
def upNeighbour (c : Cfg) (x y : Int) : Option Int :=
  if x < c.ixseps1 ∧ y = c.jyseps2_2 then some (c.jyseps1_1 + 1)
  else if x < c.ixseps1 ∧ y = c.jyseps1_1 then some (c.jyseps2_2 + 1)
  else if DoubleNull c ∧ x < c.ixseps2 ∧ y = c.jyseps2_1 then some (c.jyseps1_2 + 1)
  else if DoubleNull c ∧ x < c.ixseps2 ∧ y = c.jyseps1_2 then some (c.jyseps2_1 + 1)
  else if DoubleNull c ∧ y = c.ny_inner - 1 then none
  else if y = c.ny - 1 then none
  else some (y + 1)

/-- The row that precedes row `y`, i.e. follows it in the -Y direction. -/
def downNeighbour (c : Cfg) (x y : Int) : Option Int :=
  if x < c.ixseps1 ∧ y = c.jyseps1_1 + 1 then some c.jyseps2_2
  else if x < c.ixseps1 ∧ y = c.jyseps2_2 + 1 then some c.jyseps1_1
  else if DoubleNull c ∧ x < c.ixseps2 ∧ y = c.jyseps1_2 + 1 then some c.jyseps2_1
  else if DoubleNull c ∧ x < c.ixseps2 ∧ y = c.jyseps2_1 + 1 then some c.jyseps1_2
  else if DoubleNull c ∧ y = c.ny_inner then none
  else if y = 0 then none
  else some (y - 1)

/-- Whether the step from row `y` to its upper neighbour crosses the branch cut at which
field-aligned data must be twist-shifted: the join that closes the innermost surfaces, at
the X-point on the first separatrix. -/
def upTwist (c : Cfg) (x y : Int) : Bool :=
  if DoubleNull c ∧ c.ixseps2 < c.ixseps1 then decide (x < c.ixseps2 ∧ y = c.jyseps2_1)
  else decide (x < c.ixseps1 ∧ y = c.jyseps2_2)

/-- The same for the step from row `y` to its lower neighbour. -/
def downTwist (c : Cfg) (x y : Int) : Bool :=
  if DoubleNull c ∧ c.ixseps2 < c.ixseps1 then decide (x < c.ixseps2 ∧ y = c.jyseps1_2 + 1)
  else decide (x < c.ixseps1 ∧ y = c.jyseps1_1 + 1)

/-- The poloidal regions all exist and are in order, and the private flux region has either
both of its legs or none. -/
structure Ordered (c : Cfg) : Prop where
  lo : -1 ≤ c.jyseps1_1
  hi : c.jyseps2_2 < c.ny
  core : ¬ DoubleNull c → c.jyseps1_1 < c.jyseps2_2
  inner : DoubleNull c → c.jyseps1_1 < c.jyseps2_1
  legUp1 : DoubleNull c → c.jyseps2_1 + 1 < c.ny_inner
  legUp2 : DoubleNull c → c.ny_inner ≤ c.jyseps1_2
  outer : DoubleNull c → c.jyseps1_2 < c.jyseps2_2
  legs : c.jyseps1_1 = -1 ↔ c.jyseps2_2 = c.ny - 1

/-- Sanity of the specification: on an ordered layout the two neighbour relations are
inverse to each other, so every row has at most one predecessor and one successor. -/
theorem upNeighbour_iff_downNeighbour (c : Cfg) (h : Ordered c) (x y y' : Int)
    (hy : 0 ≤ y) (hy1 : y < c.ny) (hy' : 0 ≤ y') (hy1' : y' < c.ny) :
    upNeighbour c x y = some y' ↔ downNeighbour c x y' = some y := by
  obtain ⟨lo, hi, core, inner, l1, l2, outer, legs⟩ := h
  unfold upNeighbour downNeighbour
  unfold DoubleNull at *
  by_cases hd : c.jyseps2_1 = c.jyseps1_2
  · simp only [hd, ne_eq, not_true_eq_false, false_and, if_false] at *
    have core := core (fun h => h)
    split_ifs <;> (try simp) <;> (try omega)
  · simp only [hd, ne_eq, not_false_eq_true, true_and, forall_const] at *
    have i1 := inner
    have i2 := l1
    have i3 := l2
    have i4 := outer
    split_ifs <;> (try simp) <;> (try omega)

/-- Twist-shifts are the same seen from either side of the join. -/
theorem upTwist_eq_downTwist (c : Cfg) (h : Ordered c) (x y y' : Int)
    (hn : upNeighbour c x y = some y') : upTwist c x y = downTwist c x y' := by
  obtain ⟨lo, hi, core, inner, l1, l2, outer, legs⟩ := h
  unfold upNeighbour at hn
  unfold upTwist downTwist
  unfold DoubleNull at *
  by_cases hd : c.jyseps2_1 = c.jyseps1_2
  · simp only [hd, ne_eq, not_true_eq_false, false_and, if_false] at *
    have core := core (fun h => h)
    split_ifs at hn <;> (try cases hn) <;> exact decide_eq_decide.2 (by omega)
  · simp only [hd, ne_eq, not_false_eq_true, true_and, forall_const] at *
    have i1 := inner
    have i2 := l1
    have i3 := l2
    have i4 := outer
    by_cases hs : c.ixseps2 < c.ixseps1
    · rw [if_pos hs, if_pos hs]
      split_ifs at hn <;> (try cases hn) <;> exact decide_eq_decide.2 (by omega)
    · rw [if_neg hs, if_neg hs]
      split_ifs at hn <;> (try cases hn) <;> exact decide_eq_decide.2 (by omega)

end Verif.Mesh
