/-
C19: connections agree with the topology, and the two ends of a connection agree.
-/
import Verif.Mesh.Sides

namespace Verif.Mesh

/-- The rank above local column `jx` according to a rank's connection fields: columns
below the split belong to the inner destination, the others to the outer one
(`boutmesh.hxx` L346-349; this is how `sendY`, `wait` and `createYBoundaries` read them). -/
def Side.dest (s : Side) (jx : Int) : Int := if jx < s.split then s.ind else s.outd

/-- Whether data in column `jx` is twist-shifted on this side (`wait`, `boutmesh.cxx`
L1421-1452; same condition as `hasBranchCutLower`/`hasBranchCutUpper`). -/
def Side.twist (s : Side) (jx : Int) : Bool :=
  if jx < s.split then s.tsIn && decide (s.ind ≠ -1) else s.tsOut && decide (s.outd ≠ -1)

theorem hasBranchCutUpper_eq (s : Conn) (jx : Int) :
    hasBranchCutUpper s jx = s.up.twist jx := by
  unfold hasBranchCutUpper Side.twist Conn.up
  by_cases h : jx < s.UDATA_XSPLIT
  · have h' : ¬ jx ≥ s.UDATA_XSPLIT := by omega
    simp [h]
  · have h' : jx ≥ s.UDATA_XSPLIT := by omega
    simp [h, h']

theorem hasBranchCutLower_eq (s : Conn) (jx : Int) :
    hasBranchCutLower s jx = s.down.twist jx := by
  unfold hasBranchCutLower Side.twist Conn.down
  by_cases h : jx < s.DDATA_XSPLIT
  · have h' : ¬ jx ≥ s.DDATA_XSPLIT := by omega
    simp [h]
  · have h' : jx ≥ s.DDATA_XSPLIT := by omega
    simp [h, h']

theorem proc_num_ne {c : Cfg} (h : Sizes c) {px q : Int} (hx0 : 0 ≤ px) (hx1 : px < c.NXPE)
    (hq0 : 0 ≤ q) (hq1 : q < c.NYPE) : c.PROC_NUM px q ≠ -1 := by
  intro hc
  exact (C16_proc_num_outside c px q h.nxpe).1 hc ⟨hx0, hx1, hq0, hq1⟩

theorem proc_num_out {c : Cfg} (h : Sizes c) {px q : Int} (hq : q < 0 ∨ c.NYPE ≤ q) :
    c.PROC_NUM px q = -1 := by
  apply (C16_proc_num_outside c px q h.nxpe).2
  omega

/-- Local column `jx` of processor column `px` is left of the split iff its global index
is left of `ixs`. -/
theorem lt_splitAt {c : Cfg} {px ixs jx : Int} (j0 : 0 ≤ jx) (j1 : jx < c.LocalNx) :
    jx < splitAt c px ixs ↔ c.getGlobalXIndex px jx < ixs := by
  unfold splitAt Cfg.getGlobalXIndex
  omega

theorem mkSide_dest {c : Cfg} {px : Int} {o : Option Cut} {nb jx : Int}
    (j0 : 0 ≤ jx) (j1 : jx < c.LocalNx) :
    (mkSide c px o nb).dest jx =
      match o with
      | some t => if c.getGlobalXIndex px jx < t.ixs then c.PROC_NUM px t.q else c.PROC_NUM px nb
      | none => c.PROC_NUM px nb := by
  unfold mkSide Side.dest
  cases o with
  | none => simp only; rw [if_neg (by omega)]
  | some t =>
    simp only
    have hl := lt_splitAt (c := c) (px := px) (ixs := t.ixs) j0 j1
    by_cases h0 : 0 < splitAt c px t.ixs
    · rw [if_pos h0]
      simp only
      by_cases hj : c.getGlobalXIndex px jx < t.ixs
      · rw [if_pos hj, if_pos (hl.2 hj)]
      · rw [if_neg hj, if_neg (fun x => hj (hl.1 x)), if_neg]
        intro he
        rw [he] at hl
        exact hj (hl.1 j1)
    · rw [if_neg h0]
      simp only
      have hj : ¬ c.getGlobalXIndex px jx < t.ixs := fun x => by
        have := hl.2 x; omega
      rw [if_neg hj, if_neg (by omega)]

/-- Twist-shift flag of a (possible) cut at global X index `gx`. -/
def cutTwist (o : Option Cut) (gx : Int) : Bool :=
  match o with
  | some t => t.ts && decide (gx < t.ixs)
  | none => false

theorem mkSide_twist {c : Cfg} (h : Sizes c) {px : Int} (hx0 : 0 ≤ px) (hx1 : px < c.NXPE)
    {o : Option Cut} {nb jx : Int} (ho : ∀ t, o = some t → 0 ≤ t.q ∧ t.q < c.NYPE)
    (j0 : 0 ≤ jx) (j1 : jx < c.LocalNx) :
    (mkSide c px o nb).twist jx = cutTwist o (c.getGlobalXIndex px jx) := by
  unfold cutTwist
  cases o with
  | none => simp [mkSide, Side.twist]
  | some t =>
    simp only
    have hq := ho t rfl
    have hne := proc_num_ne h hx0 hx1 hq.1 hq.2
    have hl := lt_splitAt (c := c) (px := px) (ixs := t.ixs) j0 j1
    by_cases h0 : 0 < splitAt c px t.ixs
    · have em : mkSide c px (some t) nb = ⟨splitAt c px t.ixs, c.PROC_NUM px t.q,
          if splitAt c px t.ixs = c.LocalNx then -1 else c.PROC_NUM px nb, t.ts, false⟩ := by
        unfold mkSide; simp only [if_pos h0]
      rw [em]
      unfold Side.twist
      by_cases hj : c.getGlobalXIndex px jx < t.ixs
      · have := hl.2 hj
        simp [hj, hne, this]
      · have : ¬ jx < splitAt c px t.ixs := fun x => hj (hl.1 x)
        simp [hj, this]
    · have em : mkSide c px (some t) nb = ⟨0, -1, c.PROC_NUM px nb, false, false⟩ := by
        unfold mkSide; simp only [if_neg h0]
      rw [em]
      have hj : ¬ c.getGlobalXIndex px jx < t.ixs := fun x => by
        have := hl.2 x; omega
      simp [hj, Side.twist]

/-- The rank expected next to a row: the owner of the neighbouring row at the same radial
position, `-1` at a target. -/
def ownerOf (c : Cfg) (px : Int) (o : Option Int) : Int :=
  match o with
  | some y => c.PROC_NUM px (c.YPROC y)
  | none => -1

section
variable {c : Cfg} (h : Layout c) {a b k d e : Int} (hc : Cuts c a b k d e)
include h hc

theorem cutUp_range {py : Int} (hy0 : 0 ≤ py) (hy1 : py < c.NYPE) (t : Cut)
    (ht : cutUp c a b d e py = some t) : 0 ≤ t.q ∧ t.q < c.NYPE := by
  have a0 := hc.a0; have ae := hc.ae; have eN := hc.eN; have legs := hc.legs
  unfold cutUp at ht
  by_cases h1 : py = e - 1
  · rw [if_pos h1] at ht; cases ht; simp only; omega
  rw [if_neg h1] at ht
  by_cases h2 : py = a - 1
  · rw [if_pos h2] at ht; cases ht; simp only; omega
  rw [if_neg h2] at ht
  by_cases h3 : DoubleNull c ∧ py = b - 1
  · rw [if_pos h3] at ht; cases ht
    have := hc.ab h3.1; have := hc.bk h3.1; have := hc.kd h3.1; have := hc.de h3.1
    simp only; omega
  rw [if_neg h3] at ht
  by_cases h4 : DoubleNull c ∧ py = d - 1
  · rw [if_pos h4] at ht; cases ht
    have := hc.ab h4.1; have := hc.bk h4.1; have := hc.kd h4.1; have := hc.de h4.1
    simp only; omega
  rw [if_neg h4] at ht; cases ht

theorem cutDown_range {py : Int} (hy0 : 0 ≤ py) (hy1 : py < c.NYPE) (t : Cut)
    (ht : cutDown c a b d e py = some t) : 0 ≤ t.q ∧ t.q < c.NYPE := by
  have a0 := hc.a0; have ae := hc.ae; have eN := hc.eN; have legs := hc.legs
  unfold cutDown at ht
  by_cases h1 : py = a
  · rw [if_pos h1] at ht; cases ht; simp only; omega
  rw [if_neg h1] at ht
  by_cases h2 : py = e
  · rw [if_pos h2] at ht; cases ht; simp only; omega
  rw [if_neg h2] at ht
  by_cases h3 : DoubleNull c ∧ py = d
  · rw [if_pos h3] at ht; cases ht
    have := hc.ab h3.1; have := hc.bk h3.1; have := hc.kd h3.1; have := hc.de h3.1
    simp only; omega
  rw [if_neg h3] at ht
  by_cases h4 : DoubleNull c ∧ py = b
  · rw [if_pos h4] at ht; cases ht
    have := hc.ab h4.1; have := hc.bk h4.1; have := hc.kd h4.1; have := hc.de h4.1
    simp only; omega
  rw [if_neg h4] at ht; cases ht

omit h hc in
theorem last_row_eq {m p q j : Int} (hm : 0 < m) (hj : j + 1 = q * m) :
    p * m + (m - 1) = j ↔ p = q - 1 := by
  constructor
  · intro hh
    have : (p + 1) * m = q * m := by rw [Int.add_mul]; omega
    have := Int.eq_of_mul_eq_mul_right (by omega) this
    omega
  · rintro rfl
    rw [Int.sub_mul]; omega

omit h hc in
theorem first_row_eq {m p q j : Int} (hm : 0 < m) (hj : j = q * m) :
    p * m = j ↔ p = q := by
  constructor
  · intro hh
    exact Int.eq_of_mul_eq_mul_right (by omega) (hh.trans hj)
  · rintro rfl; exact hj.symm

theorem yproc_first {q y : Int} (hq0 : 0 ≤ q) (hq1 : q < c.NYPE) (hy : y = q * c.MYSUB) :
    c.YPROC y = q := by
  obtain ⟨_, _, _, hM⟩ := h.sizes.split
  have := yproc_block h.sizes (p := q) (r := 0) hq0 hq1 (by omega) hM
  rw [hy]; simpa using this

theorem yproc_last {q y : Int} (hq0 : 0 ≤ q) (hq1 : q < c.NYPE)
    (hy : y = q * c.MYSUB + (c.MYSUB - 1)) : c.YPROC y = q := by
  obtain ⟨_, _, _, hM⟩ := h.sizes.split
  rw [hy]
  exact yproc_block h.sizes (p := q) (r := c.MYSUB - 1) hq0 hq1 (by omega) (by omega)

/-- The rows at processor edges, and their neighbours, in processor coordinates. -/
theorem upSpec_dest {px py jx : Int} (hy0 : 0 ≤ py) (hy1 : py < c.NYPE)
    (j0 : 0 ≤ jx) (j1 : jx < c.LocalNx) :
    (upSpec c a b k d e px py).dest jx =
      ownerOf c px (upNeighbour c (c.getGlobalXIndex px jx)
        (c.getGlobalYIndexNoBoundaries py c.yend)) := by
  obtain ⟨_, _, ey, hM⟩ := h.sizes.split
  have a0 := hc.a0; have ae := hc.ae; have eN := hc.eN; have legs := hc.legs
  have hrow : c.getGlobalYIndexNoBoundaries py c.yend = py * c.MYSUB + (c.MYSUB - 1) := by
    unfold Cfg.getGlobalYIndexNoBoundaries Cfg.yend; omega
  rw [hrow]
  generalize hgx : c.getGlobalXIndex px jx = gx
  have r22 : py * c.MYSUB + (c.MYSUB - 1) = c.jyseps2_2 ↔ py = e - 1 := last_row_eq hM hc.he
  have r11 : py * c.MYSUB + (c.MYSUB - 1) = c.jyseps1_1 ↔ py = a - 1 := last_row_eq hM hc.ha
  have rny : py * c.MYSUB + (c.MYSUB - 1) = c.ny - 1 ↔ py = c.NYPE - 1 :=
    last_row_eq hM (by omega)
  have hnext : py ≠ c.NYPE - 1 → c.YPROC (py * c.MYSUB + (c.MYSUB - 1) + 1) = py + 1 := by
    intro hne
    apply yproc_first h hc (by omega) (by omega)
    rw [Int.add_mul]; omega
  have pa : c.YPROC (c.jyseps1_1 + 1) = a := yproc_first h hc a0 (by omega) hc.ha
  unfold upSpec upNeighbour
  by_cases hs : DoubleNull c
  · have ab := hc.ab hs; have bk := hc.bk hs; have kd := hc.kd hs; have de := hc.de hs
    have r21 : py * c.MYSUB + (c.MYSUB - 1) = c.jyseps2_1 ↔ py = b - 1 :=
      last_row_eq hM (hc.hb hs)
    have r12 : py * c.MYSUB + (c.MYSUB - 1) = c.jyseps1_2 ↔ py = d - 1 :=
      last_row_eq hM (hc.hd hs)
    have rk : py * c.MYSUB + (c.MYSUB - 1) = c.ny_inner - 1 ↔ py = k - 1 :=
      last_row_eq hM (by have := hc.hk hs; omega)
    have pd : c.YPROC (c.jyseps1_2 + 1) = d := yproc_first h hc (by omega) (by omega) (hc.hd hs)
    have pb : c.YPROC (c.jyseps2_1 + 1) = b := yproc_first h hc (by omega) (by omega) (hc.hb hs)
    simp only [hs, true_and, r22, r11, r21, r12, rk, rny]
    by_cases hk : py = k - 1
    · have h1 : ¬ py = e - 1 := by omega
      have h2 : ¬ py = a - 1 := by omega
      have h3 : ¬ py = b - 1 := by omega
      have h4 : ¬ py = d - 1 := by omega
      simp only [h1, h2, h3, h4, and_false, if_false, if_pos hk, ownerOf, Side.dest]
      split <;> rfl
    rw [if_neg hk, mkSide_dest j0 j1, hgx]
    simp only [if_neg hk]
    unfold cutUp
    simp only [hs, true_and]
    by_cases h1 : py = e - 1
    · have h2 : ¬ py = a - 1 := by omega
      have h3 : ¬ py = b - 1 := by omega
      have h4 : ¬ py = d - 1 := by omega
      simp only [if_pos h1, h2, h3, h4, and_false, if_false]
      by_cases hx : gx < c.ixseps1
      · simp only [if_pos hx, if_pos (And.intro hx h1), ownerOf, pa]
      · simp only [if_neg hx, if_neg (fun x : gx < c.ixseps1 ∧ py = e - 1 => hx x.1)]
        by_cases hl : py = c.NYPE - 1
        · simp only [if_pos hl, ownerOf]; exact proc_num_out h.sizes (by omega)
        · simp only [if_neg hl, ownerOf, hnext hl]
    by_cases h2 : py = a - 1
    · have h3 : ¬ py = b - 1 := by omega
      have h4 : ¬ py = d - 1 := by omega
      have pe : c.YPROC (c.jyseps2_2 + 1) = e := yproc_first h hc (by omega) (by omega) hc.he
      simp only [if_pos h2, h1, h3, h4, and_false, if_false]
      by_cases hx : gx < c.ixseps1
      · simp only [if_pos hx, if_pos (And.intro hx h2), ownerOf, pe]
      · have hl : ¬ py = c.NYPE - 1 := by omega
        simp only [if_neg hx, if_neg (fun x : gx < c.ixseps1 ∧ py = a - 1 => hx x.1),
          if_neg hl, ownerOf, hnext hl]
    by_cases h3 : py = b - 1
    · have h4 : ¬ py = d - 1 := by omega
      have hl : ¬ py = c.NYPE - 1 := by omega
      simp only [if_pos h3, h1, h2, h4, and_false, if_false]
      by_cases hx : gx < c.ixseps2
      · simp only [if_pos hx, if_pos (And.intro hx h3), ownerOf, pd]
      · simp only [if_neg hx, if_neg (fun x : gx < c.ixseps2 ∧ py = b - 1 => hx x.1),
          if_neg hl, ownerOf, hnext hl]
    by_cases h4 : py = d - 1
    · have hl : ¬ py = c.NYPE - 1 := by omega
      simp only [if_pos h4, h1, h2, h3, and_false, if_false]
      by_cases hx : gx < c.ixseps2
      · simp only [if_pos hx, if_pos (And.intro hx h4), ownerOf, pb]
      · simp only [if_neg hx, if_neg (fun x : gx < c.ixseps2 ∧ py = d - 1 => hx x.1),
          if_neg hl, ownerOf, hnext hl]
    simp only [h1, h2, h3, h4, and_false, if_false]
    by_cases hl : py = c.NYPE - 1
    · simp only [if_pos hl, ownerOf]; exact proc_num_out h.sizes (by omega)
    · simp only [if_neg hl, ownerOf, hnext hl]
  · simp only [hs, false_and, if_false, r22, r11, rny]
    rw [mkSide_dest j0 j1, hgx]
    unfold cutUp
    simp only [hs, false_and, if_false]
    by_cases h1 : py = e - 1
    · have h2 : ¬ py = a - 1 := by omega
      simp only [if_pos h1, h2, and_false, if_false]
      by_cases hx : gx < c.ixseps1
      · simp only [if_pos hx, if_pos (And.intro hx h1), ownerOf, pa]
      · simp only [if_neg hx, if_neg (fun x : gx < c.ixseps1 ∧ py = e - 1 => hx x.1)]
        by_cases hl : py = c.NYPE - 1
        · simp only [if_pos hl, ownerOf]; exact proc_num_out h.sizes (by omega)
        · simp only [if_neg hl, ownerOf, hnext hl]
    by_cases h2 : py = a - 1
    · have pe : c.YPROC (c.jyseps2_2 + 1) = e := yproc_first h hc (by omega) (by omega) hc.he
      simp only [if_pos h2, h1, and_false, if_false]
      by_cases hx : gx < c.ixseps1
      · simp only [if_pos hx, if_pos (And.intro hx h2), ownerOf, pe]
      · have hl : ¬ py = c.NYPE - 1 := by omega
        simp only [if_neg hx, if_neg (fun x : gx < c.ixseps1 ∧ py = a - 1 => hx x.1),
          if_neg hl, ownerOf, hnext hl]
    simp only [h1, h2, and_false, if_false]
    by_cases hl : py = c.NYPE - 1
    · simp only [if_pos hl, ownerOf]; exact proc_num_out h.sizes (by omega)
    · simp only [if_neg hl, ownerOf, hnext hl]

theorem downSpec_dest {px py jx : Int} (hy0 : 0 ≤ py) (hy1 : py < c.NYPE)
    (j0 : 0 ≤ jx) (j1 : jx < c.LocalNx) :
    (downSpec c a b k d e px py).dest jx =
      ownerOf c px (downNeighbour c (c.getGlobalXIndex px jx)
        (c.getGlobalYIndexNoBoundaries py c.ystart)) := by
  obtain ⟨_, _, ey, hM⟩ := h.sizes.split
  have a0 := hc.a0; have ae := hc.ae; have eN := hc.eN; have legs := hc.legs
  have hrow : c.getGlobalYIndexNoBoundaries py c.ystart = py * c.MYSUB := by
    unfold Cfg.getGlobalYIndexNoBoundaries Cfg.ystart; omega
  rw [hrow]
  generalize hgx : c.getGlobalXIndex px jx = gx
  have r22 : py * c.MYSUB = c.jyseps2_2 + 1 ↔ py = e := first_row_eq hM hc.he
  have r11 : py * c.MYSUB = c.jyseps1_1 + 1 ↔ py = a := first_row_eq hM hc.ha
  have rny : py * c.MYSUB = 0 ↔ py = 0 := first_row_eq hM (by omega)
  have hnext : py ≠ 0 → c.YPROC (py * c.MYSUB - 1) = py - 1 := by
    intro hne
    apply yproc_last h hc (by omega) (by omega)
    rw [Int.sub_mul]; omega
  have pe : c.YPROC c.jyseps2_2 = e - 1 := by
    apply yproc_last h hc (by omega) (by omega)
    have := hc.he
    rw [Int.sub_mul]; omega
  unfold downSpec downNeighbour
  by_cases hs : DoubleNull c
  · have ab := hc.ab hs; have bk := hc.bk hs; have kd := hc.kd hs; have de := hc.de hs
    have r21 : py * c.MYSUB = c.jyseps2_1 + 1 ↔ py = b := first_row_eq hM (hc.hb hs)
    have r12 : py * c.MYSUB = c.jyseps1_2 + 1 ↔ py = d := first_row_eq hM (hc.hd hs)
    have rk : py * c.MYSUB = c.ny_inner ↔ py = k := first_row_eq hM (hc.hk hs)
    have pd : c.YPROC c.jyseps1_2 = d - 1 := by
      apply yproc_last h hc (by omega) (by omega)
      have := hc.hd hs
      rw [Int.sub_mul]; omega
    have pb : c.YPROC c.jyseps2_1 = b - 1 := by
      apply yproc_last h hc (by omega) (by omega)
      have := hc.hb hs
      rw [Int.sub_mul]; omega
    simp only [hs, true_and, r22, r11, r21, r12, rk, rny]
    by_cases hk : py = k
    · have h1 : ¬ py = e := by omega
      have h2 : ¬ py = a := by omega
      have h3 : ¬ py = b := by omega
      have h4 : ¬ py = d := by omega
      simp only [h1, h2, h3, h4, and_false, if_false, if_pos hk, ownerOf, Side.dest]
      split <;> rfl
    rw [if_neg hk, mkSide_dest j0 j1, hgx]
    simp only [if_neg hk]
    unfold cutDown
    simp only [hs, true_and]
    by_cases h2 : py = a
    · have h1 : ¬ py = e := by omega
      have h3 : ¬ py = b := by omega
      have h4 : ¬ py = d := by omega
      simp only [if_pos h2, h1, h3, h4, and_false, if_false]
      by_cases hx : gx < c.ixseps1
      · simp only [if_pos hx, if_pos (And.intro hx h2), ownerOf, pe]
      · simp only [if_neg hx, if_neg (fun x : gx < c.ixseps1 ∧ py = a => hx x.1)]
        by_cases hl : py = 0
        · simp only [if_pos hl, ownerOf]; exact proc_num_out h.sizes (by omega)
        · simp only [if_neg hl, ownerOf, hnext hl]
    by_cases h1 : py = e
    · have h3 : ¬ py = b := by omega
      have h4 : ¬ py = d := by omega
      have ha0 : 0 < a := by omega
      have pa : c.YPROC c.jyseps1_1 = a - 1 := by
        apply yproc_last h hc (by omega) (by omega)
        have := hc.ha
        rw [Int.sub_mul]; omega
      simp only [if_pos h1, h2, h3, h4, and_false, if_false]
      by_cases hx : gx < c.ixseps1
      · simp only [if_pos hx, if_pos (And.intro hx h1), ownerOf, pa]
      · have hl : ¬ py = 0 := by omega
        simp only [if_neg hx, if_neg (fun x : gx < c.ixseps1 ∧ py = e => hx x.1),
          if_neg hl, ownerOf, hnext hl]
    by_cases h4 : py = d
    · have h3 : ¬ py = b := by omega
      have hl : ¬ py = 0 := by omega
      simp only [if_pos h4, h1, h2, h3, and_false, if_false]
      by_cases hx : gx < c.ixseps2
      · simp only [if_pos hx, if_pos (And.intro hx h4), ownerOf, pb]
      · simp only [if_neg hx, if_neg (fun x : gx < c.ixseps2 ∧ py = d => hx x.1),
          if_neg hl, ownerOf, hnext hl]
    by_cases h3 : py = b
    · have hl : ¬ py = 0 := by omega
      simp only [if_pos h3, h1, h2, h4, and_false, if_false]
      by_cases hx : gx < c.ixseps2
      · simp only [if_pos hx, if_pos (And.intro hx h3), ownerOf, pd]
      · simp only [if_neg hx, if_neg (fun x : gx < c.ixseps2 ∧ py = b => hx x.1),
          if_neg hl, ownerOf, hnext hl]
    simp only [h1, h2, h3, h4, and_false, if_false]
    by_cases hl : py = 0
    · simp only [if_pos hl, ownerOf]; exact proc_num_out h.sizes (by omega)
    · simp only [if_neg hl, ownerOf, hnext hl]
  · simp only [hs, false_and, if_false, r22, r11, rny]
    rw [mkSide_dest j0 j1, hgx]
    unfold cutDown
    simp only [hs, false_and, if_false]
    by_cases h2 : py = a
    · have h1 : ¬ py = e := by omega
      simp only [if_pos h2, h1, and_false, if_false]
      by_cases hx : gx < c.ixseps1
      · simp only [if_pos hx, if_pos (And.intro hx h2), ownerOf, pe]
      · simp only [if_neg hx, if_neg (fun x : gx < c.ixseps1 ∧ py = a => hx x.1)]
        by_cases hl : py = 0
        · simp only [if_pos hl, ownerOf]; exact proc_num_out h.sizes (by omega)
        · simp only [if_neg hl, ownerOf, hnext hl]
    by_cases h1 : py = e
    · have ha0 : 0 < a := by omega
      have pa : c.YPROC c.jyseps1_1 = a - 1 := by
        apply yproc_last h hc (by omega) (by omega)
        have := hc.ha
        rw [Int.sub_mul]; omega
      simp only [if_pos h1, h2, and_false, if_false]
      by_cases hx : gx < c.ixseps1
      · simp only [if_pos hx, if_pos (And.intro hx h1), ownerOf, pa]
      · have hl : ¬ py = 0 := by omega
        simp only [if_neg hx, if_neg (fun x : gx < c.ixseps1 ∧ py = e => hx x.1),
          if_neg hl, ownerOf, hnext hl]
    simp only [h1, h2, and_false, if_false]
    by_cases hl : py = 0
    · simp only [if_pos hl, ownerOf]; exact proc_num_out h.sizes (by omega)
    · simp only [if_neg hl, ownerOf, hnext hl]

end

end Verif.Mesh
