/-
C68: the normalised position of a grid point (`x` in [0,1], `y` in units of the core's poloidal circuit) is the same
whichever processor computes it and however the grid is split.
-/
import Verif.Mesh.Coord
import Verif.Mesh.Closed
import Verif.Mesh.ConnWitness
import Mathlib.Tactic.FieldSimp
import Mathlib.Tactic.Ring
import Mathlib.Tactic.Linarith
import Mathlib.Tactic.LinearCombination
import Mathlib.Tactic.NormNum
import Mathlib.Data.Int.Interval

namespace Verif.Coord
open Verif.Mesh

variable {R : Type*} [Field R] [LinearOrder R] [IsStrictOrderedRing R]

/-! ### Specification -/

/-- Row `y` is a row of the core. -/
def CoreRow (c : Cfg) (y : Int) : Prop :=
  (c.jyseps1_1 < y ∧ y ≤ c.jyseps2_1) ∨ (c.jyseps1_2 < y ∧ y ≤ c.jyseps2_2)

instance (c : Cfg) (y : Int) : Decidable (CoreRow c y) := by unfold CoreRow; infer_instance

/-- The rows of the core, and those of them that come before row `y`. -/
def coreRows (c : Cfg) : Finset Int := (Finset.Ico 0 c.ny).filter fun z => CoreRow c z
/-- See `coreRows`. -/
def coreRowsBefore (c : Cfg) (y : Int) : Finset Int := (Finset.Ico 0 y).filter fun z => CoreRow c z

/-- Equal up to a whole number of circuits. -/
def Mod1 (a b : R) : Prop := ∃ k : Int, a = b + (k : R)

/-- The grid `c` split over another number of processors. -/
def resplit (c : Cfg) (nxpe nype : Int) : Cfg := { c with NXPE := nxpe, NYPE := nype }

/-- The two orderings that `setYDecompositionIndices` establishes besides `Layout`. -/
structure Grid (c : Cfg) : Prop extends Layout c where
  h21 : c.jyseps1_1 ≤ c.jyseps2_1
  h12 : c.jyseps1_2 ≤ c.jyseps2_2

/-! ### X -/

/-- The default convention: the interior cells are centred at `(k + 1/2)/MX`. -/
theorem C68_x_centre (y : Bool) (c : Cfg) (px jx : Int) :
    GlobalX R ⟨true, y⟩ c px jx = ((c.getGlobalXIndexNoBoundaries px jx : R) + 1 / 2) / (c.MX : R) := by
  have : c.nx - c.MX = 2 * c.MXG := by unfold Cfg.MX; omega
  unfold GlobalX
  rw [if_pos rfl, this]
  unfold Cfg.getGlobalXIndex Cfg.getGlobalXIndexNoBoundaries
  push_cast
  ring

/-- However the grid is split, the same column has the same `x`: also for guard cells, which are copies of columns of
the neighbour. Either convention. -/
theorem C68_x_split (s : Sym) (c : Cfg) (nxpe nype px px' jx jx' : Int)
    (e : (resplit c nxpe nype).getGlobalXIndex px' jx' = c.getGlobalXIndex px jx) :
    GlobalX R s (resplit c nxpe nype) px' jx' = GlobalX R s c px jx := by
  unfold GlobalX
  rw [e]
  rfl

/-- The guard columns are where the neighbour's columns are. -/
theorem C68_x_guards (s : Sym) (c : Cfg) (px i : Int) :
    GlobalX R s c px (c.xstart - 1 - i) = GlobalX R s c (px - 1) (c.xend - i) ∧
    GlobalX R s c px (c.xend + 1 + i) = GlobalX R s c (px + 1) (c.xstart + i) := by
  have e1 : c.getGlobalXIndex px (c.xstart - 1 - i) = c.getGlobalXIndex (px - 1) (c.xend - i) := by
    unfold Cfg.getGlobalXIndex Cfg.xstart Cfg.xend
    rw [Int.sub_mul]; omega
  have e2 : c.getGlobalXIndex px (c.xend + 1 + i) = c.getGlobalXIndex (px + 1) (c.xstart + i) := by
    unfold Cfg.getGlobalXIndex Cfg.xstart Cfg.xend
    rw [Int.add_mul]; omega
  exact ⟨by unfold GlobalX; rw [e1], by unfold GlobalX; rw [e2]⟩

/-- The two overloads agree. -/
theorem C68_x_overloads (s : Sym) (c : Cfg) (px jx : Int) : GlobalXr s c px (jx : R) = GlobalX R s c px jx := by
  unfold GlobalXr GlobalX Cfg.getGlobalXIndex
  push_cast
  rfl

theorem mx_pos {c : Cfg} (h : Sizes c) : (0 : R) < (c.MX : R) := by
  obtain ⟨e, hm, _, _⟩ := h.split
  have := h.nxpe
  have : 0 < c.MX := by rw [e]; exact Int.mul_pos this hm
  exact_mod_cast this

/-- The values of X boundary conditions are evaluated on the walls: `x = 0` on the inner one and `x = 1` on the outer
one, whatever the location of the field. -/
theorem C68_x_walls (v : View R) (hs : v.s.x = true) (h : Sizes v.c) (iy iz : Int) (loc : Loc) (t : R) :
    (v.px = 0 → (contextB v ⟨v.c.xstart - 1, iy, -1, 0⟩ iz loc t).x = 0) ∧
    (v.px = v.c.NXPE - 1 → (contextB v ⟨v.c.xend + 1, iy, 1, 0⟩ iz loc t).x = 1) := by
  obtain ⟨⟨sx, sy⟩, c, px, py, nz, pi⟩ := v
  simp only at hs h
  subst hs
  have hp := (mx_pos (R := R) h).ne'
  obtain ⟨e, _, _, _⟩ := h.split
  constructor
  · rintro rfl
    simp only [contextB, Int.reduceNeg, ne_eq, neg_eq_zero, one_ne_zero, not_false_eq_true, or_true, if_true,
      show (-1 : Int) < 0 by omega, C68_x_centre, Cfg.getGlobalXIndexNoBoundaries, Cfg.xstart]
    field_simp
    push_cast
    ring
  · intro hpx
    simp only at hpx
    subst hpx
    have e' : (c.MX : R) = (c.NXPE : R) * (c.MXSUB : R) := by rw [e]; push_cast; ring
    simp only [contextB, ne_eq, one_ne_zero, not_false_eq_true, or_true, if_true, show ¬ (1 : Int) < 0 by omega,
      if_false, C68_x_centre, Cfg.getGlobalXIndexNoBoundaries, Cfg.xend]
    field_simp
    rw [e']
    push_cast
    ring

/-- Cell faces: a field at `CELL_XLOW` is evaluated half a cell lower, at `k/MX`. -/
theorem C68_x_face (v : View R) (hs : v.s.x = true) (h : Sizes v.c) (ix iy iz : Int) (t : R) :
    (context v ix iy iz .xlow t).x = (v.c.getGlobalXIndexNoBoundaries v.px ix : R) / (v.c.MX : R) := by
  obtain ⟨⟨sx, sy⟩, c, px, py, nz, pi⟩ := v
  simp only at hs h
  subst hs
  have hp := (mx_pos (R := R) h).ne'
  simp only [context, if_true, C68_x_centre, Cfg.getGlobalXIndexNoBoundaries]
  field_simp
  push_cast
  ring

/-! ### Y -/

/-- The position of row `y` (default convention), in units of the core's circuit. -/
def rowPos (R : Type*) [Field R] (c : Cfg) (y : Int) : R :=
  ((if y < c.ny_inner then y - c.jyseps1_1 else y - c.jyseps1_1 - (c.jyseps1_2 - c.jyseps2_1) : Int) - 1 / 2 : R) /
    (nycore c : R)

theorem globalY_row (x : Bool) (c : Cfg) (py jy : Int) :
    GlobalY R ⟨x, true⟩ c py jy = rowPos R c (c.getGlobalYIndexNoBoundaries py jy) := by
  unfold GlobalY rowPos
  simp only [if_true]
  by_cases h : c.getGlobalYIndexNoBoundaries py jy < c.ny_inner
  · rw [if_pos (by exact_mod_cast h), if_pos h]; push_cast; ring
  · rw [if_neg (by exact_mod_cast h), if_neg h]; push_cast; ring

/-- However the grid is split, the same row has the same `y` (default convention), guard rows included. -/
theorem C68_y_split (x : Bool) (c : Cfg) (nxpe nype py py' jy jy' : Int)
    (e : (resplit c nxpe nype).getGlobalYIndexNoBoundaries py' jy' = c.getGlobalYIndexNoBoundaries py jy) :
    GlobalY R ⟨x, true⟩ (resplit c nxpe nype) py' jy' = GlobalY R ⟨x, true⟩ c py jy := by
  rw [globalY_row, globalY_row, e]
  rfl

theorem nycore_pos {c : Cfg} (h : Grid c) : 0 < nycore c := by
  obtain ⟨lo, hi, core, inner, l1, l2, outer, legs⟩ := h.ordered
  unfold nycore
  by_cases hd : DoubleNull c
  · have := inner hd; have := outer hd; omega
  · have := core hd
    unfold DoubleNull at hd
    omega

theorem legs_le {c : Cfg} (h : Grid c) : c.jyseps2_1 ≤ c.jyseps1_2 := by
  by_cases hd : DoubleNull c
  · have := h.ordered.legUp1 hd; have := h.ordered.legUp2 hd; omega
  · unfold DoubleNull at hd; omega

theorem card_coreRows {c : Cfg} (h : Grid c) : (((coreRows c).card : Int)) = nycore c := by
  obtain ⟨lo, hi, core, inner, l1, l2, outer, legs⟩ := h.ordered
  have h21 := h.h21
  have h12 := h.h12
  have hle := legs_le h
  have : coreRows c = Finset.Ioc c.jyseps1_1 c.jyseps2_1 ∪ Finset.Ioc c.jyseps1_2 c.jyseps2_2 := by
    ext z
    simp only [coreRows, Finset.mem_filter, Finset.mem_Ico, Finset.mem_union, Finset.mem_Ioc]
    unfold CoreRow
    constructor
    · rintro ⟨_, h⟩; exact h
    · intro h; exact ⟨by omega, h⟩
  rw [this, Finset.card_union_of_disjoint, Int.card_Ioc, Int.card_Ioc]
  · unfold nycore; omega
  · rw [Finset.disjoint_left]
    intro z hz hz'
    rw [Finset.mem_Ioc] at hz hz'
    omega

theorem card_coreRowsBefore {c : Cfg} (h : Grid c) {y : Int} (hc : CoreRow c y) :
    (((coreRowsBefore c y).card : Int)) =
      (if y < c.ny_inner then y - c.jyseps1_1 else y - c.jyseps1_1 - (c.jyseps1_2 - c.jyseps2_1)) - 1 := by
  obtain ⟨lo, hi, core, inner, l1, l2, outer, legs⟩ := h.ordered
  have h21 := h.h21
  have h12 := h.h12
  have hle := legs_le h
  have : coreRowsBefore c y = Finset.Ioo c.jyseps1_1 (min y (c.jyseps2_1 + 1)) ∪ Finset.Ioo c.jyseps1_2 y := by
    ext z
    simp only [coreRowsBefore, Finset.mem_filter, Finset.mem_Ico, Finset.mem_union, Finset.mem_Ioo]
    unfold CoreRow at hc ⊢
    constructor
    · rintro ⟨hz, h | h⟩
      · exact Or.inl (by omega)
      · exact Or.inr (by omega)
    · rintro (h | h)
      · exact ⟨by omega, Or.inl (by omega)⟩
      · exact ⟨by omega, Or.inr (by omega)⟩
  rw [this, Finset.card_union_of_disjoint, Int.card_Ioo, Int.card_Ioo]
  · unfold CoreRow at hc
    by_cases hd : DoubleNull c
    · have := l1 hd; have := l2 hd
      split <;> omega
    · unfold DoubleNull at hd
      split <;> omega
  · rw [Finset.disjoint_left]
    intro z hz hz'
    rw [Finset.mem_Ioo] at hz hz'
    omega

/-- The position of a row of the core: `(r + 1/2)/n` where `r` counts the core rows before it and `n` all core rows. -/
theorem C68_y_core (x : Bool) (c : Cfg) (h : Grid c) (py jy : Int)
    (hc : CoreRow c (c.getGlobalYIndexNoBoundaries py jy)) :
    GlobalY R ⟨x, true⟩ c py jy =
      (((coreRowsBefore c (c.getGlobalYIndexNoBoundaries py jy)).card : R) + 1 / 2) / ((coreRows c).card : R) := by
  rw [globalY_row]
  generalize c.getGlobalYIndexNoBoundaries py jy = y at hc ⊢
  have e1 : ((coreRows c).card : R) = (nycore c : R) := by rw [← card_coreRows h]; push_cast; rfl
  have e2 : ((coreRowsBefore c y).card : R) = (((coreRowsBefore c y).card : Int) : R) := by push_cast; rfl
  rw [e1, e2, card_coreRowsBefore h hc]
  unfold rowPos
  push_cast
  ring

theorem nycore_ne {c : Cfg} (h : Grid c) : (nycore c : R) ≠ 0 := by
  have : (0 : R) < (nycore c : R) := by exact_mod_cast nycore_pos h
  exact this.ne'

/-- Along a field line each row is one cell, `1/n` of the core's circuit, further on than the row before it. Only where
the core closes on itself and where the two lower legs join does it jump, by one whole circuit. -/
theorem rowPos_follows {c : Cfg} (h : Grid c) {x y y' : Int} (hn : upNeighbour c x y = some y') :
    rowPos R c y' = rowPos R c y + 1 / (nycore c : R) +
      ((if x < c.ixseps1 ∧ y = c.jyseps2_2 then -1 else if x < c.ixseps1 ∧ y = c.jyseps1_1 then 1 else 0 : Int) : R) := by
  obtain ⟨lo, hi, core, inner, l1, l2, outer, legs⟩ := h.ordered
  have h21 := h.h21
  have h12 := h.h12
  have hnz := nycore_ne (R := R) h
  have key : ∀ a b k : Int, a = b + 1 + k * nycore c →
      ((a : R) - 1 / 2) / (nycore c : R) = ((b : R) - 1 / 2) / (nycore c : R) + 1 / (nycore c : R) + (k : R) := by
    rintro a b k rfl
    field_simp
    push_cast
    ring
  unfold rowPos
  unfold upNeighbour at hn
  have hn2 : nycore c = (c.jyseps2_1 - c.jyseps1_1) + (c.jyseps2_2 - c.jyseps1_2) := rfl
  apply key
  by_cases hd : DoubleNull c
  · have := inner hd; have := l1 hd; have := l2 hd; have := outer hd
    simp only [hd, true_and] at hn
    by_cases c1 : x < c.ixseps1 ∧ y = c.jyseps2_2
    · rw [if_pos c1] at hn ⊢
      cases hn
      rw [if_pos (by omega), if_neg (by omega)]; omega
    rw [if_neg c1] at hn ⊢
    by_cases c2 : x < c.ixseps1 ∧ y = c.jyseps1_1
    · rw [if_pos c2] at hn ⊢
      cases hn
      rw [if_neg (by omega), if_pos (by omega)]; omega
    rw [if_neg c2] at hn ⊢
    by_cases c3 : x < c.ixseps2 ∧ y = c.jyseps2_1
    · rw [if_pos c3] at hn
      cases hn
      rw [if_neg (by omega), if_pos (by omega)]; omega
    rw [if_neg c3] at hn
    by_cases c4 : x < c.ixseps2 ∧ y = c.jyseps1_2
    · rw [if_pos c4] at hn
      cases hn
      rw [if_pos (by omega), if_neg (by omega)]; omega
    rw [if_neg c4] at hn
    by_cases c5 : y = c.ny_inner - 1
    · rw [if_pos c5] at hn; cases hn
    rw [if_neg c5] at hn
    by_cases c6 : y = c.ny - 1
    · rw [if_pos c6] at hn; cases hn
    rw [if_neg c6] at hn
    cases hn
    split <;> split <;> omega
  · have := core hd
    have hd' : c.jyseps2_1 = c.jyseps1_2 := by unfold DoubleNull at hd; omega
    simp only [hd, false_and, if_false] at hn
    have e : ∀ z : Int, (if z < c.ny_inner then z - c.jyseps1_1 else z - c.jyseps1_1 - (c.jyseps1_2 - c.jyseps2_1)) =
        z - c.jyseps1_1 := by intro z; split <;> omega
    rw [e, e]
    by_cases c1 : x < c.ixseps1 ∧ y = c.jyseps2_2
    · rw [if_pos c1] at hn ⊢
      cases hn
      omega
    rw [if_neg c1] at hn ⊢
    by_cases c2 : x < c.ixseps1 ∧ y = c.jyseps1_1
    · rw [if_pos c2] at hn ⊢
      cases hn
      omega
    rw [if_neg c2] at hn ⊢
    by_cases c6 : y = c.ny - 1
    · rw [if_pos c6] at hn; cases hn
    rw [if_neg c6] at hn
    cases hn
    omega

/-- The same for `GlobalY`, whichever processors compute the two positions. -/
theorem C68_y_follows (s : Bool) (c : Cfg) (h : Grid c) (x py jy py' jy' : Int)
    (hn : upNeighbour c x (c.getGlobalYIndexNoBoundaries py jy) = some (c.getGlobalYIndexNoBoundaries py' jy')) :
    GlobalY R ⟨s, true⟩ c py' jy' = GlobalY R ⟨s, true⟩ c py jy + 1 / (nycore c : R) +
      ((if x < c.ixseps1 ∧ c.getGlobalYIndexNoBoundaries py jy = c.jyseps2_2 then -1
        else if x < c.ixseps1 ∧ c.getGlobalYIndexNoBoundaries py jy = c.jyseps1_1 then 1 else 0 : Int) : R) := by
  rw [globalY_row, globalY_row]
  exact rowPos_follows h hn

theorem rowPos_followUp {c : Cfg} (h : Grid c) {x : Int} : ∀ (j : Nat) {y y' : Int}, followUp c x j y = some y' →
    Mod1 (rowPos R c y') (rowPos R c y + (j : R) / (nycore c : R))
  | 0, y, y', he => by
    cases he
    exact ⟨0, by simp⟩
  | j + 1, y, y', he => by
    rw [followUp] at he
    obtain ⟨z, hz, he⟩ := Option.bind_eq_some_iff.mp he
    obtain ⟨k, hk⟩ := rowPos_followUp h j he
    have := rowPos_follows (R := R) h hz
    rw [hk, this]
    refine ⟨(if x < c.ixseps1 ∧ y = c.jyseps2_2 then -1 else if x < c.ixseps1 ∧ y = c.jyseps1_1 then 1 else 0) + k, ?_⟩
    generalize (if x < c.ixseps1 ∧ y = c.jyseps2_2 then -1 else if x < c.ixseps1 ∧ y = c.jyseps1_1 then 1 else 0 : Int) = m
    push_cast
    ring

/-- Away from the upper targets the formula is linear in the row. -/
theorem rowPos_add {c : Cfg} (h : Grid c) {y : Int} {j : Int}
    (hs : DoubleNull c → (y < c.ny_inner ↔ y + j < c.ny_inner)) :
    rowPos R c (y + j) = rowPos R c y + (j : R) / (nycore c : R) := by
  have hnz := nycore_ne (R := R) h
  have key : ∀ a b : Int, a = b + j →
      ((a : R) - 1 / 2) / (nycore c : R) = ((b : R) - 1 / 2) / (nycore c : R) + (j : R) / (nycore c : R) := by
    rintro a b rfl
    push_cast
    ring
  unfold rowPos
  apply key
  by_cases hd : DoubleNull c
  · have := hs hd
    split <;> split <;> omega
  · unfold DoubleNull at hd
    split <;> split <;> omega

theorem myg_le {c : Cfg} (h : Layout c) (hd : DoubleNull c) : c.MYG ≤ c.MYSUB := by
  obtain ⟨a, b, k, d, e, hc⟩ := h.cuts
  have := hc.a0; have := hc.ab hd; have := hc.bk hd; have := hc.kd hd; have := hc.de hd; have := hc.eN
  have hk := h.check
  unfold checkBoutMeshYDecomposition at hk
  by_contra hlt
  rw [if_pos ⟨by show c.ny.tdiv c.NYPE < _; have : c.ny.tdiv c.NYPE = c.MYSUB := rfl; omega, by omega⟩] at hk
  cases hk

/-- Guard rows: a guard row of processor row `py` that holds a copy of another row (what the field line reaches from its
last, or before its first, row) has the `y` of that row up to whole circuits. -/
theorem C68_y_guards (s : Bool) (c : Cfg) (h : Grid c) (x py py' jy' : Int) (j : Nat) (hj : (j : Int) ≤ c.MYG) :
    (followUp c x j (c.getGlobalYIndexNoBoundaries py c.yend) = some (c.getGlobalYIndexNoBoundaries py' jy') →
      Mod1 (GlobalY R ⟨s, true⟩ c py (c.yend + j)) (GlobalY R ⟨s, true⟩ c py' jy')) ∧
    (followUp c x j (c.getGlobalYIndexNoBoundaries py' jy') = some (c.getGlobalYIndexNoBoundaries py c.ystart) →
      Mod1 (GlobalY R ⟨s, true⟩ c py (c.ystart - j)) (GlobalY R ⟨s, true⟩ c py' jy')) := by
  obtain ⟨a, b, k, d, e, hc⟩ := h.cuts
  obtain ⟨_, _, ey, hM⟩ := h.sizes.split
  have ho := h.ordered
  -- the first step cannot cross a target
  have hup : 0 < j → DoubleNull c → ∀ w, followUp c x j (c.ny_inner - 1) ≠ some w := by
    intro hj0 hd w he
    obtain ⟨i, rfl⟩ : ∃ i, j = i + 1 := ⟨j - 1, by omega⟩
    rw [followUp] at he
    have : upNeighbour c x (c.ny_inner - 1) = none := by
      have := ho.inner hd; have := ho.legUp1 hd; have := ho.legUp2 hd; have := ho.outer hd
      unfold upNeighbour
      rw [if_neg (by omega), if_neg (by omega), if_neg (by omega), if_neg (by omega), if_pos ⟨hd, rfl⟩]
    rw [this] at he
    cases he
  have hdown : 0 < j → DoubleNull c → ∀ w, followUp c x j w ≠ some c.ny_inner := by
    intro hj0 hd w he
    obtain ⟨i, rfl⟩ : ∃ i, j = i + 1 := ⟨j - 1, by omega⟩
    rw [followUp_add] at he
    obtain ⟨u, hu, he⟩ := Option.bind_eq_some_iff.mp he
    simp only [followUp] at he
    obtain ⟨u', hu', he⟩ := Option.bind_eq_some_iff.mp he
    cases he
    have := ho.inner hd; have := ho.legUp1 hd; have := ho.legUp2 hd; have := ho.outer hd; have := ho.lo
    have := ho.hi
    unfold upNeighbour at hu'
    simp only [hd, true_and] at hu'
    split_ifs at hu' <;> simp only [Option.some.injEq] at hu' <;> omega
  constructor
  · intro he
    rw [globalY_row, globalY_row]
    obtain ⟨m, hm⟩ := rowPos_followUp (R := R) h j he
    have e1 : c.getGlobalYIndexNoBoundaries py (c.yend + j) = c.getGlobalYIndexNoBoundaries py c.yend + j := by
      unfold Cfg.getGlobalYIndexNoBoundaries; omega
    rw [e1, rowPos_add h]
    · refine ⟨-m, ?_⟩
      rw [hm]; push_cast; ring
    · intro hd
      have hg := myg_le h.toLayout hd
      by_cases hj0 : j = 0
      · subst hj0; simp
      have hne : c.getGlobalYIndexNoBoundaries py c.yend ≠ c.ny_inner - 1 := by
        intro h'; rw [h'] at he; exact hup (by omega) hd _ he
      have hk := hc.hk hd
      have hy : c.getGlobalYIndexNoBoundaries py c.yend = (py + 1) * c.MYSUB - 1 := by
        unfold Cfg.getGlobalYIndexNoBoundaries Cfg.yend; rw [Int.add_mul]; omega
      have hpk : py + 1 ≠ k := fun h' => hne (by rw [hy, hk, h'])
      rw [hy, hk]
      constructor
      · intro hlt
        have : py + 1 < k + 1 := mul_lt_imp hM (by rw [Int.add_mul k]; omega)
        have h2 : (py + 1 + 1) * c.MYSUB ≤ k * c.MYSUB := Int.mul_le_mul_of_nonneg_right (by omega) (by omega)
        rw [Int.add_mul] at h2
        omega
      · intro hlt; omega
  · intro he
    rw [globalY_row, globalY_row]
    obtain ⟨m, hm⟩ := rowPos_followUp (R := R) h j he
    have e1 : c.getGlobalYIndexNoBoundaries py (c.ystart - j) = c.getGlobalYIndexNoBoundaries py c.ystart + (-j) := by
      unfold Cfg.getGlobalYIndexNoBoundaries; omega
    rw [e1, rowPos_add h]
    · refine ⟨m, ?_⟩
      rw [hm]; push_cast; ring
    · intro hd
      have hg := myg_le h.toLayout hd
      by_cases hj0 : j = 0
      · subst hj0; simp
      have hne : c.getGlobalYIndexNoBoundaries py c.ystart ≠ c.ny_inner := by
        intro h'; rw [h'] at he; exact hdown (by omega) hd _ he
      have hk := hc.hk hd
      have hy : c.getGlobalYIndexNoBoundaries py c.ystart = py * c.MYSUB := by
        unfold Cfg.getGlobalYIndexNoBoundaries Cfg.ystart; omega
      have hpk : py ≠ k := fun h' => hne (by rw [hy, hk, h'])
      rw [hy, hk]
      constructor
      · intro hlt; omega
      · intro hlt
        have : py < k + 1 := mul_lt_imp hM (by rw [Int.add_mul k]; omega)
        exact Int.mul_lt_mul_of_pos_right (by omega) hM

end Verif.Coord
