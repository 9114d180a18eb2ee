/-
C68: targets, cell faces, the overloads, the old convention, created fields, vectors from options and `ballooning`.
-/
import Verif.Mesh.CoordProps
import Mathlib.Algebra.BigOperators.Intervals
import Mathlib.Algebra.BigOperators.Group.Finset.Basic

namespace Verif.Coord
open Verif.Mesh

variable {R : Type*} [Field R] [LinearOrder R] [IsStrictOrderedRing R]

theorem rowPos_step {c : Cfg} (h : Grid c) (y : Int) :
    rowPos R c (y - 1) = rowPos R c y - 1 / (nycore c : R) +
      (if DoubleNull c ∧ y = c.ny_inner then ((c.jyseps1_2 - c.jyseps2_1 : Int) : R) / (nycore c : R) else 0) := by
  by_cases hd : DoubleNull c ∧ y = c.ny_inner
  · obtain ⟨_, rfl⟩ := hd
    rw [if_pos ⟨‹_›, rfl⟩]
    unfold rowPos
    rw [if_pos (by omega), if_neg (by omega)]
    push_cast
    ring
  · rw [if_neg hd]
    have := rowPos_add (R := R) h (y := y) (j := -1) (by
      intro hd'
      have : y ≠ c.ny_inner := fun h' => hd ⟨hd', h'⟩
      omega)
    rw [show y - 1 = y + -1 by omega, this]
    push_cast
    ring

theorem noB_add (c : Cfg) (py jy k : Int) :
    c.getGlobalYIndexNoBoundaries py (jy + k) = c.getGlobalYIndexNoBoundaries py jy + k := by
  unfold Cfg.getGlobalYIndexNoBoundaries; omega

theorem noB_sub (c : Cfg) (py jy k : Int) :
    c.getGlobalYIndexNoBoundaries py (jy - k) = c.getGlobalYIndexNoBoundaries py jy - k := by
  unfold Cfg.getGlobalYIndexNoBoundaries; omega

/-- The values of Y boundary conditions are evaluated on the target, half a cell beyond the last row (before the first
row), except at the upper targets (`C68_upper_target_violated`). -/
theorem C68_y_walls_partial (v : View R) (hs : v.s.y = true) (h : Grid v.c) (ix iz : Int) (loc : Loc) (t : R) :
    (¬(DoubleNull v.c ∧ v.c.getGlobalYIndexNoBoundaries v.py v.c.yend = v.c.ny_inner - 1) →
      (contextB v ⟨ix, v.c.yend + 1, 0, 1⟩ iz loc t).y =
        2 * v.pi * (GlobalY R v.s v.c v.py v.c.yend + 1 / 2 / (nycore v.c : R))) ∧
    (¬(DoubleNull v.c ∧ v.c.getGlobalYIndexNoBoundaries v.py v.c.ystart = v.c.ny_inner) →
      (contextB v ⟨ix, v.c.ystart - 1, 0, -1⟩ iz loc t).y =
        2 * v.pi * (GlobalY R v.s v.c v.py v.c.ystart - 1 / 2 / (nycore v.c : R))) := by
  obtain ⟨⟨sx, sy⟩, c, px, py, nz, pi⟩ := v
  simp only at hs h
  subst hs
  constructor
  · intro hn
    simp only at hn
    simp only [contextB, ne_eq, one_ne_zero, not_false_eq_true, or_true, if_true, show ¬ (1 : Int) < 0 by omega,
      if_false, globalY_row, noB_add, noB_sub]
    generalize c.getGlobalYIndexNoBoundaries py c.yend = y at hn ⊢
    have := rowPos_step (R := R) h (y + 1)
    rw [if_neg (by intro ⟨a, b⟩; exact hn ⟨a, by omega⟩)] at this
    rw [this]
    rw [show y + 1 - 1 = y by omega] at this
    rw [this]; ring
  · intro hn
    simp only at hn
    simp only [contextB, Int.reduceNeg, ne_eq, neg_eq_zero, one_ne_zero, not_false_eq_true, or_true, if_true,
      show (-1 : Int) < 0 by omega, globalY_row, noB_add, noB_sub]
    generalize c.getGlobalYIndexNoBoundaries py c.ystart = y at hn ⊢
    have := rowPos_step (R := R) h y
    rw [if_neg hn] at this
    rw [show y - 1 + 1 = y by omega, this]
    ring

/-- At an upper target of a double null the boundary value is not evaluated on the target but half the number of rows
of the upper legs away from it, because the guard rows are given positions in the opposite leg: at either target of
any double null, on any processor next to it. -/
theorem C68_upper_target_violated (v : View R) (hs : v.s.y = true) (h : Grid v.c) (hd : DoubleNull v.c) (hpi : v.pi ≠ 0)
    (ix iz : Int) (loc : Loc) (t : R) :
    (v.c.getGlobalYIndexNoBoundaries v.py v.c.yend = v.c.ny_inner - 1 →
      (contextB v ⟨ix, v.c.yend + 1, 0, 1⟩ iz loc t).y ≠
        2 * v.pi * (GlobalY R v.s v.c v.py v.c.yend + 1 / 2 / (nycore v.c : R))) ∧
    (v.c.getGlobalYIndexNoBoundaries v.py v.c.ystart = v.c.ny_inner →
      (contextB v ⟨ix, v.c.ystart - 1, 0, -1⟩ iz loc t).y ≠
        2 * v.pi * (GlobalY R v.s v.c v.py v.c.ystart - 1 / 2 / (nycore v.c : R))) := by
  obtain ⟨⟨sx, sy⟩, c, px, py, nz, pi⟩ := v
  simp only at hs h hd hpi
  subst hs
  have hnz := nycore_ne (R := R) h
  have hj : ((c.jyseps1_2 - c.jyseps2_1 : Int) : R) ≠ 0 := by
    have := h.ordered.legUp1 hd; have := h.ordered.legUp2 hd
    exact_mod_cast (by omega : c.jyseps1_2 - c.jyseps2_1 ≠ 0)
  constructor
  · intro hn
    simp only at hn
    simp only [contextB, ne_eq, one_ne_zero, not_false_eq_true, or_true, if_true, show ¬ (1 : Int) < 0 by omega,
      if_false, globalY_row, noB_add, noB_sub]
    generalize c.getGlobalYIndexNoBoundaries py c.yend = y at hn ⊢
    have := rowPos_step (R := R) h (y + 1)
    rw [if_pos ⟨hd, by omega⟩] at this
    rw [this]
    rw [show y + 1 - 1 = y by omega] at this
    rw [this]
    intro he
    apply hj
    generalize ((c.jyseps1_2 - c.jyseps2_1 : Int) : R) = J at he ⊢
    generalize rowPos R c (y + 1) = A at he
    have h2 : pi * (J / (nycore c : R)) = 0 := by linear_combination -he
    rcases mul_eq_zero.mp h2 with h3 | h3
    · exact absurd h3 hpi
    · exact (div_eq_zero_iff.mp h3).resolve_right hnz
  · intro hn
    simp only at hn
    simp only [contextB, Int.reduceNeg, ne_eq, neg_eq_zero, one_ne_zero, not_false_eq_true, or_true, if_true,
      show (-1 : Int) < 0 by omega, globalY_row, noB_add, noB_sub]
    generalize c.getGlobalYIndexNoBoundaries py c.ystart = y at hn ⊢
    have := rowPos_step (R := R) h y
    rw [if_pos ⟨hd, hn⟩] at this
    rw [show y - 1 + 1 = y by omega, this]
    intro he
    apply hj
    generalize ((c.jyseps1_2 - c.jyseps2_1 : Int) : R) = J at he ⊢
    generalize rowPos R c y = A at he
    have h2 : pi * (J / (nycore c : R)) = 0 := by linear_combination he
    rcases mul_eq_zero.mp h2 with h3 | h3
    · exact absurd h3 hpi
    · exact (div_eq_zero_iff.mp h3).resolve_right hnz

/-- The hypotheses are met: processor rows 5 and 6 of `doubleNull` (12 rows of processors) end and start at the upper
targets. -/
theorem doubleNull_grid : Grid doubleNull := ⟨doubleNull_layout, by decide, by decide⟩
theorem singleNull_grid : Grid singleNull := ⟨singleNull_layout, by decide, by decide⟩
example : DoubleNull doubleNull ∧ doubleNull.getGlobalYIndexNoBoundaries 5 doubleNull.yend = doubleNull.ny_inner - 1 ∧
    doubleNull.getGlobalYIndexNoBoundaries 6 doubleNull.ystart = doubleNull.ny_inner := by decide
/-- The core of `doubleNull` has 24 rows. The first row of its outer upper leg is at 4.5/24, so the target is at 4/24;
the guard row is put at 19.5/24 (the last row of the inner upper leg), and the boundary value is evaluated at 12/24. -/
example : GlobalY ℚ ⟨true, true⟩ doubleNull 6 2 = 9 / 48 ∧ GlobalY ℚ ⟨true, true⟩ doubleNull 6 1 = 39 / 48 := by
  constructor <;> norm_num [GlobalY, doubleNull, Cfg.getGlobalYIndexNoBoundaries, Cfg.MYSUB, Cfg.MY, nycore,
    show Int.tdiv 48 12 = 4 from rfl]

/-- Cell faces: a field at `CELL_YLOW` is evaluated half a cell lower, except in the first row of the outer upper leg. -/
theorem C68_y_face_partial (v : View R) (hs : v.s.y = true) (h : Grid v.c) (ix iy iz : Int) (t : R)
    (hn : ¬(DoubleNull v.c ∧ v.c.getGlobalYIndexNoBoundaries v.py iy = v.c.ny_inner)) :
    (context v ix iy iz .ylow t).y = 2 * v.pi * (GlobalY R v.s v.c v.py iy - 1 / 2 / (nycore v.c : R)) := by
  obtain ⟨⟨sx, sy⟩, c, px, py, nz, pi⟩ := v
  simp only at hs h hn
  subst hs
  simp only [context, if_true, globalY_row, noB_sub]
  rw [rowPos_step h, if_neg hn]
  ring

/-- In that row it is evaluated elsewhere. -/
theorem C68_upper_face_violated (v : View R) (hs : v.s.y = true) (h : Grid v.c) (hd : DoubleNull v.c) (hpi : v.pi ≠ 0)
    (ix iy iz : Int) (t : R) (hn : v.c.getGlobalYIndexNoBoundaries v.py iy = v.c.ny_inner) :
    (context v ix iy iz .ylow t).y ≠ 2 * v.pi * (GlobalY R v.s v.c v.py iy - 1 / 2 / (nycore v.c : R)) := by
  obtain ⟨⟨sx, sy⟩, c, px, py, nz, pi⟩ := v
  simp only at hs h hd hpi hn
  subst hs
  have hnz := nycore_ne (R := R) h
  have hj : ((c.jyseps1_2 - c.jyseps2_1 : Int) : R) ≠ 0 := by
    have := h.ordered.legUp1 hd; have := h.ordered.legUp2 hd
    exact_mod_cast (by omega : c.jyseps1_2 - c.jyseps2_1 ≠ 0)
  simp only [context, if_true, globalY_row, noB_sub]
  rw [rowPos_step h, if_pos ⟨hd, hn⟩]
  intro he
  apply hj
  generalize ((c.jyseps1_2 - c.jyseps2_1 : Int) : R) = J at he ⊢
  generalize rowPos R c (c.getGlobalYIndexNoBoundaries py iy) = A at he
  have h2 : pi * (J / (nycore c : R)) = 0 := by linear_combination he
  rcases mul_eq_zero.mp h2 with h3 | h3
  · exact absurd h3 hpi
  · exact (div_eq_zero_iff.mp h3).resolve_right hnz

/-- The two overloads of `GlobalY` agree, in either convention. -/
theorem C68_y_overloads (s : Sym) (c : Cfg) (py jy : Int) : GlobalYr s c py (jy : R) = GlobalY R s c py jy := by
  have e : (jy : R) + ((py * c.MYSUB - c.MYG : Int) : R) = (c.getGlobalYIndexNoBoundaries py jy : R) := by
    unfold Cfg.getGlobalYIndexNoBoundaries
    push_cast
    ring
  unfold GlobalYr GlobalY
  simp only [e]
  generalize c.getGlobalYIndexNoBoundaries py jy = y
  cases s.y with
  | true => rfl
  | false =>
    simp only [Bool.false_eq_true, if_false]
    congr 1
    simp only [Int.cast_le, Int.cast_lt, gt_iff_lt]
    split_ifs <;> push_cast <;> rfl

/-- The real overload at half-integers, where the parallel boundary of `ShiftedMetricInterp` evaluates it: half a cell
beyond the last row always, half a cell before the first row except at the outer upper target. -/
theorem C68_y_half_partial (s : Bool) (c : Cfg) (h : Grid c) (py jy : Int) :
    GlobalYr ⟨s, true⟩ c py ((jy : R) + 1 / 2) = GlobalY R ⟨s, true⟩ c py jy + 1 / 2 / (nycore c : R) ∧
    (¬(DoubleNull c ∧ c.getGlobalYIndexNoBoundaries py jy = c.ny_inner) →
      GlobalYr ⟨s, true⟩ c py ((jy : R) - 1 / 2) = GlobalY R ⟨s, true⟩ c py jy - 1 / 2 / (nycore c : R)) := by
  have e : ∀ d : R, (jy : R) + d + ((py * c.MYSUB - c.MYG : Int) : R) = (c.getGlobalYIndexNoBoundaries py jy : R) + d := by
    intro d
    unfold Cfg.getGlobalYIndexNoBoundaries
    push_cast
    ring
  have lt1 : ∀ y : Int, (y : R) + 1 / 2 < (c.ny_inner : R) ↔ y < c.ny_inner := by
    intro y
    constructor
    · intro hl
      have : (y : R) < (c.ny_inner : R) := by linarith
      exact_mod_cast this
    · intro hl
      have : (y : R) + 1 ≤ (c.ny_inner : R) := by exact_mod_cast hl
      linarith
  have lt2 : ∀ y : Int, (y : R) + -(1 / 2) < (c.ny_inner : R) ↔ y ≤ c.ny_inner := by
    intro y
    constructor
    · intro hl
      have : (y : R) < (c.ny_inner : R) + 1 := by linarith
      have : y < c.ny_inner + 1 := by exact_mod_cast this
      omega
    · intro hl
      have : (y : R) ≤ (c.ny_inner : R) := by exact_mod_cast hl
      linarith
  rw [globalY_row]
  constructor
  · unfold GlobalYr rowPos
    simp only [if_true, e]
    generalize c.getGlobalYIndexNoBoundaries py jy = y
    simp only [lt1]
    split <;> (push_cast; ring)
  · intro hn
    rw [sub_eq_add_neg]
    unfold GlobalYr rowPos
    simp only [if_true, e]
    generalize c.getGlobalYIndexNoBoundaries py jy = y at hn ⊢
    simp only [lt2]
    by_cases hd : DoubleNull c
    · have : y ≠ c.ny_inner := fun h' => hn ⟨hd, h'⟩
      by_cases hl : y < c.ny_inner
      · rw [if_pos (by omega), if_pos hl]; push_cast; ring
      · rw [if_neg (by omega), if_neg hl]; push_cast; ring
    · have hd' : c.jyseps1_2 - c.jyseps2_1 = 0 := by unfold DoubleNull at hd; omega
      rw [hd']
      split <;> split <;> (push_cast; ring)

/-! ### The old convention (`symmetricGlobalY = false`) -/

theorem inCore_iff {c : Cfg} (h : Grid c) (hi : 0 < (seps c).inner) {py jy : Int} (k0 : c.ystart ≤ jy)
    (k1 : jy ≤ c.yend) : mypeInCore c py = true ↔ CoreRow c (c.getGlobalYIndexNoBoundaries py jy) := by
  obtain ⟨a, b, k, d, e, hc⟩ := h.cuts
  obtain ⟨_, _, ey, hM⟩ := h.sizes.split
  have hy0 : py * c.MYSUB ≤ c.getGlobalYIndexNoBoundaries py jy := by
    unfold Cfg.getGlobalYIndexNoBoundaries; unfold Cfg.ystart at k0; omega
  have hy1 : c.getGlobalYIndexNoBoundaries py jy < py * c.MYSUB + c.MYSUB := by
    unfold Cfg.getGlobalYIndexNoBoundaries; unfold Cfg.yend at k1; omega
  generalize c.getGlobalYIndexNoBoundaries py jy = y at hy0 hy1
  -- comparisons with a region start may be made at any row of the processor
  have cmp : ∀ q : Int, (q * c.MYSUB ≤ y ↔ q * c.MYSUB ≤ py * c.MYSUB) := by
    intro q
    constructor
    · intro hq
      have : q < py + 1 := mul_lt_imp hM (by rw [Int.add_mul]; omega)
      exact Int.mul_le_mul_of_nonneg_right (by omega) (by omega)
    · intro hq; omega
  have ca := cmp a
  have ce := cmp e
  have ha := hc.ha
  have he := hc.he
  rw [← ha] at ca
  rw [← he] at ce
  unfold mypeInCore CoreRow
  rw [decide_eq_true_iff]
  by_cases hd : DoubleNull c
  · have cb := cmp b
    have cd := cmp d
    rw [← hc.hb hd] at cb
    rw [← hc.hd hd] at cd
    generalize py * c.MYSUB = p at *
    have := hi
    constructor
    · rintro ⟨_, h1 | h1⟩ <;> omega
    · intro h1; refine ⟨hi, ?_⟩; omega
  · have := h.h21; have := h.h12
    unfold DoubleNull at hd
    have hd' : c.jyseps2_1 = c.jyseps1_2 := by omega
    rw [hd'] at *
    generalize py * c.MYSUB = p at *
    constructor
    · rintro ⟨_, h1 | h1⟩ <;> omega
    · intro h1; refine ⟨hi, ?_⟩; omega

/-- The interior rows in the old convention: core rows are at `r/n`, where `r` counts the core rows before; the rows of
the lower inner leg are at 0, of the upper legs at the join of the two halves of the core, of the lower outer leg at 1.
(There are closed surfaces: `ixseps_inner > 0`.) The value depends on the row only, not on how the grid is split. -/
theorem C68_old_y (x : Bool) (c : Cfg) (h : Grid c) (hi : 0 < (seps c).inner) (py jy : Int) (k0 : c.ystart ≤ jy)
    (k1 : jy ≤ c.yend) (y : Int) (hy : y = c.getGlobalYIndexNoBoundaries py jy) :
    GlobalY R ⟨x, false⟩ c py jy =
      if CoreRow c y then ((coreRowsBefore c y).card : R) / ((coreRows c).card : R)
      else if y ≤ c.jyseps1_1 then 0
      else if y ≤ c.jyseps2_2 then ((c.jyseps2_1 - c.jyseps1_1 : Int) : R) / ((coreRows c).card : R)
      else 1 := by
  have hin := inCore_iff h hi (py := py) k0 k1
  have hnz := nycore_ne (R := R) h
  have hall : ((coreRows c).card : R) = (nycore c : R) := by
    rw [← card_coreRows h]; push_cast; rfl
  rw [← hy] at hin
  unfold GlobalY
  simp only [Bool.false_eq_true, if_false, ← hy, hall]
  by_cases hc : CoreRow c y
  · rw [if_pos hc, if_pos (hin.mpr hc)]
    have := card_coreRowsBefore h hc
    have e2 : ((coreRowsBefore c y).card : R) = (((coreRowsBefore c y).card : Int) : R) := by push_cast; rfl
    rw [e2, this]
    congr 2
    obtain ⟨lo, hi, core, inner, l1, l2, outer, legs⟩ := h.ordered
    unfold CoreRow at hc
    by_cases hd : DoubleNull c
    · have := l1 hd; have := l2 hd
      by_cases h1 : y ≤ c.jyseps2_1
      · rw [if_pos h1, if_pos (by omega)]; omega
      · rw [if_neg h1, if_neg (by omega)]; omega
    · unfold DoubleNull at hd
      split <;> split <;> omega
  · rw [if_neg hc, if_neg (fun h' => hc (hin.mp h'))]
    unfold CoreRow at hc
    have h21 := h.h21; have h12 := h.h12
    by_cases c1 : y ≤ c.jyseps1_1
    · rw [if_pos c1, if_pos c1]; simp
    rw [if_neg c1, if_neg c1]
    by_cases c2 : y ≤ c.jyseps2_2
    · rw [if_pos c2, if_pos (by omega)]
    · have hle : c.jyseps2_1 ≤ c.jyseps1_2 := by
        by_cases hd : DoubleNull c
        · have := h.ordered.legUp1 hd; have := h.ordered.legUp2 hd; omega
        · unfold DoubleNull at hd; omega
      rw [if_neg c2, if_neg (by omega), if_pos (by omega)]
      exact div_self hnz

/-! ### Created fields -/

/-- A created field has the same value at the same point of the grid, however the grid is split. -/
theorem C68_created_split {V : Type*} (gen : Pos R → V) (v : View R) (hs : v.s.y = true) (nxpe nype px' py' : Int)
    (loc : Loc) (t : R) (ix iy ix' iy' iz : Int)
    (hx : (resplit v.c nxpe nype).getGlobalXIndex px' ix' = v.c.getGlobalXIndex v.px ix)
    (hy : (resplit v.c nxpe nype).getGlobalYIndexNoBoundaries py' iy' = v.c.getGlobalYIndexNoBoundaries v.py iy) :
    create3D gen { v with c := resplit v.c nxpe nype, px := px', py := py' } loc t ix' iy' iz =
      create3D gen v loc t ix iy iz ∧
    create2D gen { v with c := resplit v.c nxpe nype, px := px', py := py' } loc t ix' iy' =
      create2D gen v loc t ix iy := by
  obtain ⟨⟨sx, sy⟩, c, px, py, nz, pi⟩ := v
  simp only at hs hx hy
  subst hs
  have key : ∀ (iz : Int) (loc : Loc), context (R := R) ⟨⟨sx, true⟩, resplit c nxpe nype, px', py', nz, pi⟩ ix' iy' iz loc t =
      context ⟨⟨sx, true⟩, c, px, py, nz, pi⟩ ix iy iz loc t := by
    intro iz loc
    have e1 := C68_x_split (R := R) ⟨sx, true⟩ c nxpe nype px px' ix ix' hx
    have e2 := C68_x_split (R := R) ⟨sx, true⟩ c nxpe nype px px' (ix - 1) (ix' - 1) (by
      unfold Cfg.getGlobalXIndex at hx ⊢; omega)
    have e3 := C68_y_split (R := R) sx c nxpe nype py py' iy iy' hy
    have e4 := C68_y_split (R := R) sx c nxpe nype py py' (iy - 1) (iy' - 1) (by rw [noB_sub, noB_sub, hy])
    unfold context
    simp only [e1, e2, e3, e4]
  exact ⟨congrArg gen (key _ _), congrArg gen (key _ _)⟩

/-- If the expression is periodic in `y`, what a created field holds in a guard row is what communication would put
there: the value at the row the guard row is a copy of. (`CELL_YLOW` not included, see `C68_upper_face_violated`.) -/
theorem C68_created_guards {V : Type*} (gen : Pos R → V) (v : View R) (hs : v.s.y = true) (h : Grid v.c)
    (hper : ∀ (p : Pos R) (k : Int), gen { p with y := p.y + 2 * v.pi * (k : R) } = gen p)
    (loc : Loc) (hloc : loc ≠ .ylow) (t : R) (x ix iz py' jy' : Int) (j : Nat) (hj : (j : Int) ≤ v.c.MYG) :
    (followUp v.c x j (v.c.getGlobalYIndexNoBoundaries v.py v.c.yend) = some (v.c.getGlobalYIndexNoBoundaries py' jy') →
      create3D gen v loc t ix (v.c.yend + j) iz = create3D gen { v with py := py' } loc t ix jy' iz) ∧
    (followUp v.c x j (v.c.getGlobalYIndexNoBoundaries py' jy') = some (v.c.getGlobalYIndexNoBoundaries v.py v.c.ystart) →
      create3D gen v loc t ix (v.c.ystart - j) iz = create3D gen { v with py := py' } loc t ix jy' iz) := by
  obtain ⟨⟨sx, sy⟩, c, px, py, nz, pi⟩ := v
  simp only at hs h hper hj
  subst hs
  have key : ∀ jy : Int, Mod1 (GlobalY R ⟨sx, true⟩ c py jy) (GlobalY R ⟨sx, true⟩ c py' jy') →
      create3D gen ⟨⟨sx, true⟩, c, px, py, nz, pi⟩ loc t ix jy iz =
        create3D gen ⟨⟨sx, true⟩, c, px, py', nz, pi⟩ loc t ix jy' iz := by
    rintro jy ⟨k, hk⟩
    unfold create3D
    rw [← hper (context ⟨⟨sx, true⟩, c, px, py', nz, pi⟩ ix jy' iz loc t) k]
    congr 1
    ext <;> simp only [context, if_neg hloc]
    rw [hk]
    ring
  obtain ⟨g1, g2⟩ := C68_y_guards (R := R) sx c h x py py' jy' j hj
  exact ⟨fun he => key _ (g1 he), fun he => key _ (g2 he)⟩

/-- `createPerp` evaluates `y` at local row 0, a guard row, so processors of different rows create different fields from
the same expression: for every grid with more than one row of processors, already for the expression `y`. -/
theorem C68_perp_violated (v v' : View R) (hs : v.s.y = true) (h : Grid v.c) (hpi : v.pi ≠ 0) (hN : 2 ≤ v.c.NYPE)
    (hv : v.py = 0) (hv' : v' = { v with py := 1 }) (loc : Loc) (hloc : loc ≠ .ylow) (t : R) (ix iz : Int) :
    createPerp (fun p => p.y) v loc t ix iz ≠ createPerp (fun p => p.y) v' loc t ix iz := by
  subst hv'
  obtain ⟨⟨sx, sy⟩, c, px, py, nz, pi⟩ := v
  simp only at hs h hpi hN hv
  subst hs hv
  have hnz := nycore_ne (R := R) h
  obtain ⟨a, b, k, d, e, hc⟩ := h.cuts
  obtain ⟨_, _, ey, hM⟩ := h.sizes.split
  have hG := h.sizes.myg
  have hMR : (c.MYSUB : R) ≠ 0 := by exact_mod_cast hM.ne'
  simp only [createPerp, context, if_neg hloc, globalY_row]
  have e1 : c.getGlobalYIndexNoBoundaries 1 0 = c.getGlobalYIndexNoBoundaries 0 0 + c.MYSUB := by
    unfold Cfg.getGlobalYIndexNoBoundaries; omega
  rw [e1, rowPos_add h]
  · intro he
    have : pi * ((c.MYSUB : R) / (nycore c : R)) = 0 := by linear_combination -he / 2
    rcases mul_eq_zero.mp this with h3 | h3
    · exact hpi h3
    · rcases div_eq_zero_iff.mp h3 with h4 | h4
      · exact hMR h4
      · exact hnz h4
  · intro hd
    have := hc.a0; have := hc.ab hd; have := hc.bk hd
    have hk := hc.hk hd
    have h2 : 2 * c.MYSUB ≤ k * c.MYSUB := Int.mul_le_mul_of_nonneg_right (by omega) (by omega)
    unfold Cfg.getGlobalYIndexNoBoundaries
    omega

/-- A vector along X read from the options with the offset of this processor (as `ShiftAngle` is) has, for an expression
of `x` only, the value of the field created from that expression. -/
theorem C68_vector {V : Type*} (gen : Pos R → V) (v : View R) (hx : ∀ p p' : Pos R, p.x = p'.x → gen p = gen p')
    (t : R) (i iy : Int) : getVecX gen v (v.c.getGlobalXIndex v.px 0) i = create2D gen v .centre t i iy := by
  apply hx
  have : i - v.px * v.c.MXSUB + v.c.getGlobalXIndex v.px 0 = i := by unfold Cfg.getGlobalXIndex; omega
  simp only [this, context]
  rfl

/-- And along Y, with the offset `OffsetY`. -/
theorem C68_vector_y {V : Type*} (gen : Pos R → V) (v : View R) (hy : ∀ p p' : Pos R, p.y = p'.y → gen p = gen p')
    (t : R) (i ix : Int) : getVecY gen v (v.py * v.c.MYSUB) i = create2D gen v .centre t ix i := by
  apply hy
  simp only [context, Int.sub_add_cancel]
  rfl

/-! ### `ballooning` -/

theorem ROUND_int [FloorRing R] (k : Int) : ROUND (k : R) = k := by
  have f : ∀ m : Int, ⌊(m : R) + 1 / 2⌋ = m := by
    intro m
    rw [Int.floor_eq_iff]
    constructor <;> linarith
  unfold ROUND
  split
  · exact f k
  · have := f (-k)
    push_cast at this
    rw [this]
    omega

/-- `ballooning` finds the flux surface of the point, if the processor has more than one column. Either convention. -/
theorem C68_ballooning_surface [FloorRing R] (v : View R) (h : Sizes v.c) (h2 : 2 ≤ v.c.MXSUB) (ix iy iz : Int) (t : R) :
    ballooningSurface v (context v ix iy iz .centre t).x = some ix := by
  obtain ⟨⟨sx, sy⟩, c, px, py, nz, pi⟩ := v
  simp only at h h2
  have hp := (mx_pos (R := R) h).ne'
  have hn : c.xend - c.xstart ≠ 0 := by unfold Cfg.xend Cfg.xstart; omega
  have hnR : ((c.xend - c.xstart : Int) : R) ≠ 0 := by exact_mod_cast hn
  unfold ballooningSurface
  rw [if_neg hn]
  have lin : ∀ j j' : Int, GlobalX R ⟨sx, sy⟩ c px j - GlobalX R ⟨sx, sy⟩ c px j' = ((j - j' : Int) : R) / (c.MX : R) := by
    intro j j'
    unfold GlobalX Cfg.getGlobalXIndex
    split <;> (push_cast; ring)
  simp only [context, reduceCtorEq, if_false, lin]
  have : ((ix - 0 : Int) : R) / (c.MX : R) / (((c.xend - c.xstart : Int) : R) / (c.MX : R) / ((c.xend - c.xstart : Int) : R)) =
      (ix : R) := by
    rw [Int.sub_zero]
    field_simp
  rw [this, ROUND_int]

/-- With one column per processor it divides zero by zero. -/
theorem C68_ballooning_one_column_violated [FloorRing R] (v : View R) (h : v.c.MXSUB = 1) (x : R) :
    ballooningSurface v x = none := by
  unfold ballooningSurface
  rw [if_pos (by unfold Cfg.xend Cfg.xstart; omega)]

/-- On a closed surface `ballooning` is the sum of the expression over the point and its `n` images along the field line
in each direction; on an open one it is zero. -/
theorem C68_ballooning_images (gen : Pos R → R) (zlength pi : R) (n : Nat) (periodic : Int → Bool) (ts : Int → R)
    (jx : Int) (p : Pos R) :
    ballooning gen zlength pi n periodic ts jx p =
      if periodic jx then
        ∑ k ∈ Finset.Icc (-(n : Int)) n,
          gen { p with y := p.y - (k : R) * (2 * pi), z := p.z + (k : R) * ts jx * (2 * pi) / zlength }
      else 0 := by
  unfold ballooning
  split
  · induction n with
    | zero => simp
    | succ n ih =>
      rw [List.range_succ, List.foldl_append, ih]
      have e : Finset.Icc (-((n + 1 : Nat) : Int)) ((n + 1 : Nat) : Int) =
          insert (-((n + 1 : Nat) : Int)) (insert ((n + 1 : Nat) : Int) (Finset.Icc (-(n : Int)) n)) := by
        ext z
        simp only [Finset.mem_insert, Finset.mem_Icc]
        omega
      rw [e, Finset.sum_insert, Finset.sum_insert]
      · simp only [List.foldl_cons, List.foldl_nil]
        push_cast
        have e1 : p.y - -((n : R) + 1) * (2 * pi) = p.y + ((n : R) + 1) * (2 * pi) := by ring
        have e2 : p.z + -((n : R) + 1) * ts jx * (2 * pi) / zlength = p.z - ((n : R) + 1) * ts jx * (2 * pi) / zlength := by
          ring
        rw [e1, e2]
        ring
      · simp only [Finset.mem_Icc]; omega
      · simp only [Finset.mem_insert, Finset.mem_Icc]; omega
  · rfl

/-! ### The `CELL_ZLOW` branches of the boundary conditions -/

/-- The position computed by hand in the `CELL_ZLOW` branches is that of the boundary `Context`. -/
theorem C68_zlow_context (v : View R) (b : Bnd) (hx : b.bx = -1 ∨ b.bx = 0 ∨ b.bx = 1)
    (hy : b.by' = -1 ∨ b.by' = 0 ∨ b.by' = 1) (iz : Int) (t : R) : contextZlow v b iz t = contextB v b iz .zlow t := by
  obtain ⟨x, y, bx, by'⟩ := b
  simp only at hx hy
  ext
  · rcases hx with rfl | rfl | rfl
    · simp only [contextZlow, contextB, Int.reduceNeg, show (-1 : Int) < 0 by omega, if_true, ne_eq, neg_eq_zero,
        one_ne_zero, not_false_eq_true, or_true, Int.sub_neg, Int.add_sub_cancel]
      ring
    · simp only [contextZlow, contextB, Int.sub_zero, ne_eq, not_true_eq_false, reduceCtorEq, or_self, if_false,
        Int.lt_irrefl]
      ring
    · simp only [contextZlow, contextB, show ¬ (1 : Int) < 0 by omega, if_false, ne_eq, one_ne_zero,
        not_false_eq_true, or_true, if_true]
  · rcases hy with rfl | rfl | rfl
    · simp only [contextZlow, contextB, Int.reduceNeg, show (-1 : Int) < 0 by omega, if_true, ne_eq, neg_eq_zero,
        one_ne_zero, not_false_eq_true, or_true, Int.sub_neg, Int.add_sub_cancel]
      ring
    · simp only [contextZlow, contextB, Int.sub_zero, ne_eq, not_true_eq_false, reduceCtorEq, or_self, if_false,
        Int.lt_irrefl]
      ring
    · simp only [contextZlow, contextB, show ¬ (1 : Int) < 0 by omega, if_false, ne_eq, one_ne_zero,
        not_false_eq_true, or_true, if_true]
      ring
  · simp only [contextZlow, contextB, if_true]
  · rfl

/-- The real overload half a cell before the first row of the outer upper leg is not the target either. -/
theorem C68_y_half_violated (s : Bool) (c : Cfg) (h : Grid c) (hd : DoubleNull c) (py jy : Int)
    (hn : c.getGlobalYIndexNoBoundaries py jy = c.ny_inner) :
    GlobalYr ⟨s, true⟩ c py ((jy : R) - 1 / 2) ≠ GlobalY R ⟨s, true⟩ c py jy - 1 / 2 / (nycore c : R) := by
  have hnz := nycore_ne (R := R) h
  have hj : ((c.jyseps1_2 - c.jyseps2_1 : Int) : R) ≠ 0 := by
    have := h.ordered.legUp1 hd; have := h.ordered.legUp2 hd
    exact_mod_cast (by omega : c.jyseps1_2 - c.jyseps2_1 ≠ 0)
  rw [globalY_row, hn]
  have e : (jy : R) - 1 / 2 + ((py * c.MYSUB - c.MYG : Int) : R) = (c.ny_inner : R) - 1 / 2 := by
    rw [← hn]
    unfold Cfg.getGlobalYIndexNoBoundaries
    push_cast
    ring
  unfold GlobalYr rowPos
  simp only [if_true, e]
  rw [if_pos (by linarith), if_neg (by omega)]
  generalize c.jyseps1_2 - c.jyseps2_1 = J at hj
  intro he
  apply hj
  have h2 : (J : R) / (nycore c : R) = 0 := by
    push_cast at he
    linear_combination he
  exact (div_eq_zero_iff.mp h2).resolve_right hnz

/-- In the old convention a grid without closed surfaces has its core rows at `y/n`, counting the rows of the inner leg
too: with an inner leg the rows of the core range are not where `C68_old_y` puts them. -/
theorem C68_old_open_violated (x : Bool) (c : Cfg) (h : Grid c) (hi : (seps c).inner ≤ 0) (hl : 0 ≤ c.jyseps1_1)
    (py jy : Int) (hc : CoreRow c (c.getGlobalYIndexNoBoundaries py jy)) :
    GlobalY R ⟨x, false⟩ c py jy ≠
      ((coreRowsBefore c (c.getGlobalYIndexNoBoundaries py jy)).card : R) / ((coreRows c).card : R) := by
  have hnz := nycore_ne (R := R) h
  have hall : ((coreRows c).card : R) = (nycore c : R) := by
    rw [← card_coreRows h]; push_cast; rfl
  have hb := card_coreRowsBefore h hc
  have hle := legs_le h
  have h21 := h.h21
  have h12 := h.h12
  have hin : mypeInCore c py = false := by
    unfold mypeInCore
    rw [decide_eq_false_iff_not]
    omega
  unfold GlobalY
  simp only [Bool.false_eq_true, if_false, hall, hin]
  generalize c.getGlobalYIndexNoBoundaries py jy = y at hc hb ⊢
  have e2 : ((coreRowsBefore c y).card : R) = (((coreRowsBefore c y).card : Int) : R) := by push_cast; rfl
  rw [e2, hb]
  unfold CoreRow at hc
  rw [if_neg (by omega), if_neg (by omega), if_neg (by omega)]
  intro he
  have := (div_left_inj' hnz).mp he
  have : y = (if y < c.ny_inner then y - c.jyseps1_1 else y - c.jyseps1_1 - (c.jyseps1_2 - c.jyseps2_1)) - 1 := by
    exact_mod_cast this
  split at this <;> omega

end Verif.Coord
