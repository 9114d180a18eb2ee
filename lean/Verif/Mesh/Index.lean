/-
C16 and C17: processor numbers and the decomposition of the index space.
-/
import Verif.Mesh.Model
import Mathlib.Tactic.Linarith
import Mathlib.Tactic.Ring

namespace Verif.Mesh

/-! ## Arithmetic helpers -/

/-- Truncated division of `p*m + r` with `0 ≤ r < m`. -/
theorem tdiv_block {p m r : Int} (hp : 0 ≤ p) (h0 : 0 ≤ r) (h1 : r < m) :
    (p * m + r).tdiv m = p := by
  have hm : 0 < m := by omega
  have hpm : 0 ≤ p * m := Int.mul_nonneg hp (by omega)
  rw [Int.tdiv_eq_ediv_of_nonneg (by omega), Int.add_comm, Int.add_mul_ediv_right _ _ (by omega),
    Int.ediv_eq_zero_of_lt h0 h1]
  omega

/-- Truncated remainder of `p*m + r` with `0 ≤ r < m`. -/
theorem tmod_block {p m r : Int} (hp : 0 ≤ p) (h0 : 0 ≤ r) (h1 : r < m) :
    (p * m + r).tmod m = r := by
  have hm : 0 < m := by omega
  have hpm : 0 ≤ p * m := Int.mul_nonneg hp (by omega)
  rw [Int.tmod_eq_emod_of_nonneg (by omega), Int.add_comm, Int.add_mul_emod_self_right,
    Int.emod_eq_of_lt h0 h1]

/-- Every non-negative number is `p*m + r`. -/
theorem block_decomp {y m : Int} (hy : 0 ≤ y) (hm : 0 < m) :
    y = y.tdiv m * m + y.tmod m ∧ 0 ≤ y.tdiv m ∧ 0 ≤ y.tmod m ∧ y.tmod m < m := by
  rw [Int.tdiv_eq_ediv_of_nonneg hy, Int.tmod_eq_emod_of_nonneg hy]
  refine ⟨?_, Int.ediv_nonneg hy (by omega), Int.emod_nonneg _ (by omega),
    Int.emod_lt_of_pos _ hm⟩
  have := Int.mul_ediv_add_emod y m
  rw [Int.mul_comm]; omega

/-- A block `p*m + r` below `n*m` has `p < n`. -/
theorem block_lt {p n m r : Int} (h0 : 0 ≤ r) (h : p * m + r < n * m) (hm : 0 < m) : p < n := by
  by_contra hc
  have : n * m ≤ p * m := Int.mul_le_mul_of_nonneg_right (by omega) (by omega)
  omega

/-- A block of a processor `p < n` lies below `n*m`. -/
theorem block_bound {p n m r : Int} (h1 : r < m) (h : p < n) (hm : 0 < m) : p * m + r < n * m := by
  have : (p + 1) * m ≤ n * m := Int.mul_le_mul_of_nonneg_right (by omega) (by omega)
  have h2 : (p + 1) * m = p * m + m := by ring
  omega

/-- Uniqueness of the block decomposition. -/
theorem block_unique {p q m r s : Int} (hp : 0 ≤ p) (hq : 0 ≤ q) (h0 : 0 ≤ r) (h1 : r < m)
    (h2 : 0 ≤ s) (h3 : s < m) (h : p * m + r = q * m + s) : p = q ∧ r = s := by
  have a := tdiv_block hp h0 h1
  have b := tdiv_block hq h2 h3
  rw [h] at a
  have : p = q := by omega
  subst this
  exact ⟨rfl, by omega⟩

/-! ## What the splitting code establishes -/

/-- The sizes are usable: positive processor counts, non-negative guard widths, and the
checks of `setDerivedGridSizes` passed. -/
structure Sizes (c : Cfg) : Prop where
  nxpe : 0 < c.NXPE
  nype : 0 < c.NYPE
  mxg : 0 ≤ c.MXG
  myg : 0 ≤ c.MYG
  ny : 0 < c.ny
  ok : c.setDerivedGridSizes = .ok ()

theorem Sizes.split {c : Cfg} (h : Sizes c) :
    c.MX = c.NXPE * c.MXSUB ∧ 0 < c.MXSUB ∧ c.ny = c.NYPE * c.MYSUB ∧ 0 < c.MYSUB := by
  have hok := h.ok
  unfold Cfg.setDerivedGridSizes at hok
  have h1 : ¬ c.nx ≤ 2 * c.MXG := by
    intro hc; rw [if_pos hc] at hok; cases hok
  rw [if_neg h1] at hok
  have h2 : ¬ c.MX.tmod c.NXPE ≠ 0 := by
    intro hc; rw [if_pos hc] at hok; cases hok
  rw [if_neg h2] at hok
  have h3 : ¬ c.MY.tmod c.NYPE ≠ 0 := by
    intro hc; rw [if_pos hc] at hok; cases hok
  have h2' : c.MX.tmod c.NXPE = 0 := by omega
  have h3' : c.MY.tmod c.NYPE = 0 := by omega
  have hMXpos : 0 < c.MX := by unfold Cfg.MX; omega
  have hMY : c.MY = c.ny := rfl
  have bx := block_decomp (y := c.MX) (m := c.NXPE) (by omega) h.nxpe
  have hy := h.ny
  have by' := block_decomp (y := c.MY) (m := c.NYPE) (by omega) h.nype
  rw [h2'] at bx; rw [h3'] at by'
  have ex : c.MX = c.NXPE * c.MXSUB := by
    unfold Cfg.MXSUB; rw [Int.mul_comm]; omega
  have ey : c.ny = c.NYPE * c.MYSUB := by
    unfold Cfg.MYSUB; rw [Int.mul_comm]; omega
  refine ⟨ex, ?_, ey, ?_⟩
  · have h0 : 0 ≤ c.MXSUB := bx.2.1
    by_contra hc
    have : c.MXSUB = 0 := by omega
    rw [this, Int.mul_zero] at ex; omega
  · have h0 : 0 ≤ c.MYSUB := by'.2.1
    by_contra hc
    have : c.MYSUB = 0 := by omega
    rw [this, Int.mul_zero] at ey; omega

/-! ## C16: processor numbers -/

/-- **C16.** Inside the processor grid, `PROC_NUM` is a bijection from positions to the
ranks `0 … NXPE*NYPE-1`: its value is a valid rank, and the position computed from a rank
when the mesh is loaded is its two-sided inverse. -/
theorem C16_proc_num_bijection (c : Cfg) (hx : 0 < c.NXPE) (_hy : 0 < c.NYPE) :
    (∀ px py, 0 ≤ px → px < c.NXPE → 0 ≤ py → py < c.NYPE →
      0 ≤ c.PROC_NUM px py ∧ c.PROC_NUM px py < c.NXPE * c.NYPE ∧
      c.peX (c.PROC_NUM px py) = px ∧ c.peY (c.PROC_NUM px py) = py) ∧
    (∀ r, 0 ≤ r → r < c.NXPE * c.NYPE →
      (0 ≤ c.peX r ∧ c.peX r < c.NXPE) ∧ (0 ≤ c.peY r ∧ c.peY r < c.NYPE) ∧
      c.PROC_NUM (c.peX r) (c.peY r) = r) := by
  constructor
  · intro px py h0 h1 h2 h3
    have hv : c.PROC_NUM px py = py * c.NXPE + px := by
      unfold Cfg.PROC_NUM; rw [if_neg (by omega), if_neg (by omega)]
    rw [hv]
    refine ⟨?_, ?_, ?_, ?_⟩
    · have := Int.mul_nonneg h2 (by omega : (0 : Int) ≤ c.NXPE); omega
    · have := block_bound (n := c.NYPE) h1 h3 hx
      rw [Int.mul_comm c.NXPE]; exact this
    · exact tmod_block h2 h0 h1
    · exact tdiv_block h2 h0 h1
  · intro r h0 h1
    obtain ⟨e, a, b, d⟩ := block_decomp (m := c.NXPE) h0 hx
    have hlt : r.tdiv c.NXPE < c.NYPE := by
      apply block_lt (m := c.NXPE) b _ hx
      rw [← e, Int.mul_comm]; exact h1
    refine ⟨⟨b, d⟩, ⟨a, hlt⟩, ?_⟩
    unfold Cfg.PROC_NUM Cfg.peX Cfg.peY
    rw [if_neg (by omega), if_neg (by omega)]
    omega

/-- **C16.** `PROC_NUM` answers `-1` exactly for positions outside the processor grid, so
"no neighbour" is never confused with a rank. -/
theorem C16_proc_num_outside (c : Cfg) (px py : Int) (hx : 0 < c.NXPE) :
    c.PROC_NUM px py = -1 ↔ ¬ (0 ≤ px ∧ px < c.NXPE ∧ 0 ≤ py ∧ py < c.NYPE) := by
  unfold Cfg.PROC_NUM
  by_cases h1 : px ≥ c.NXPE ∨ px < 0
  · rw [if_pos h1]; constructor
    · intro _; omega
    · intro _; rfl
  · rw [if_neg h1]
    by_cases h2 : py ≥ c.NYPE ∨ py < 0
    · rw [if_pos h2]; constructor
      · intro _; omega
      · intro _; rfl
    · rw [if_neg h2]
      have := Int.mul_nonneg (by omega : (0:Int) ≤ py) (by omega : (0 : Int) ≤ c.NXPE)
      constructor
      · intro _; omega
      · intro hc; exact absurd ⟨by omega, by omega, by omega, by omega⟩ hc

/-- **C16.** Two positions of the grid have the same processor number only if equal. -/
theorem C16_proc_num_injective (c : Cfg) (hx : 0 < c.NXPE) (hy : 0 < c.NYPE)
    (px py qx qy : Int) (hp : c.PROC_NUM px py ≠ -1)
    (h : c.PROC_NUM px py = c.PROC_NUM qx qy) : px = qx ∧ py = qy := by
  have hq : c.PROC_NUM qx qy ≠ -1 := by rw [← h]; exact hp
  have hp' := mt (C16_proc_num_outside c px py hx).2 hp
  have hq' := mt (C16_proc_num_outside c qx qy hx).2 hq
  push Not at hp' hq'
  obtain ⟨a, b, d, e⟩ := hp'
  obtain ⟨a', b', d', e'⟩ := hq'
  have h1 := (C16_proc_num_bijection c hx hy).1 px py a b d e
  have h2 := (C16_proc_num_bijection c hx hy).1 qx qy a' b' d' e'
  rw [h] at h1
  exact ⟨h1.2.2.1.symm.trans h2.2.2.1, h1.2.2.2.symm.trans h2.2.2.2⟩

/-- A 3 by 4 processor grid used in the examples. -/
def demo34 : Cfg :=
  { nx := 16, ny := 32, MXG := 2, MYG := 2, NXPE := 3, NYPE := 4, ixseps1 := 16
    ixseps2 := 16, jyseps1_1 := -1, jyseps2_1 := 16, jyseps1_2 := 16, jyseps2_2 := 31
    ny_inner := 16, periodicX := false }

example : 0 < demo34.NXPE ∧ 0 < demo34.NYPE ∧ demo34.PROC_NUM 2 3 = 11 ∧
    demo34.PROC_NUM 3 0 = -1 ∧ demo34.peX 7 = 1 ∧ demo34.peY 7 = 2 := by decide

/-! ## C17: every grid point has one owner -/

/-- **C17.** Each interior global X index `MXG ≤ x < nx - MXG` lies in the interior
`xstart ≤ i ≤ xend` of exactly one column of processors, the one `XPROC` names, at the
local index given by `getLocalXIndex`. -/
theorem C17_x_owner (c : Cfg) (h : Sizes c) (x : Int) (h0 : c.MXG ≤ x) (h1 : x < c.nx - c.MXG) :
    (0 ≤ c.XPROC x ∧ c.XPROC x < c.NXPE ∧ c.xstart ≤ c.getLocalXIndex (c.XPROC x) x ∧
      c.getLocalXIndex (c.XPROC x) x ≤ c.xend ∧
      c.getGlobalXIndex (c.XPROC x) (c.getLocalXIndex (c.XPROC x) x) = x) ∧
    ∀ px i, 0 ≤ px → px < c.NXPE → c.xstart ≤ i → i ≤ c.xend → c.getGlobalXIndex px i = x →
      px = c.XPROC x ∧ i = c.getLocalXIndex (c.XPROC x) x := by
  obtain ⟨ex, px0, _, _⟩ := h.split
  obtain ⟨e, a, b, d⟩ := block_decomp (y := x - c.MXG) (m := c.MXSUB) (by omega) px0
  have hv : c.XPROC x = (x - c.MXG).tdiv c.MXSUB := by
    unfold Cfg.XPROC; rw [if_pos (by omega)]
  have hlt : (x - c.MXG).tdiv c.MXSUB < c.NXPE := by
    apply block_lt b _ px0
    rw [← e, ← ex]; unfold Cfg.MX; omega
  rw [hv]
  refine ⟨⟨a, hlt, ?_, ?_, ?_⟩, ?_⟩
  · unfold Cfg.xstart Cfg.getLocalXIndex; omega
  · unfold Cfg.xend Cfg.getLocalXIndex; omega
  · unfold Cfg.getGlobalXIndex Cfg.getLocalXIndex; omega
  · intro px i p0 p1 i0 i1 hg
    unfold Cfg.xstart at i0
    unfold Cfg.xend at i1
    unfold Cfg.getGlobalXIndex at hg
    have := block_unique (m := c.MXSUB) (p := px) (q := (x - c.MXG).tdiv c.MXSUB)
      (r := i - c.MXG) (s := (x - c.MXG).tmod c.MXSUB) p0 a (by omega) (by omega) b d (by omega)
    refine ⟨this.1, ?_⟩
    unfold Cfg.getLocalXIndex
    rw [← this.1]; omega

/-- **C17.** Each global Y index `0 ≤ y < ny` (counted without boundaries) lies in the
interior `ystart ≤ j ≤ yend` of exactly one row of processors, the one `YPROC` names, at
the local index given by `getLocalYIndexNoBoundaries`. -/
theorem C17_y_owner (c : Cfg) (h : Sizes c) (y : Int) (h0 : 0 ≤ y) (h1 : y < c.ny) :
    (0 ≤ c.YPROC y ∧ c.YPROC y < c.NYPE ∧
      c.ystart ≤ c.getLocalYIndexNoBoundaries (c.YPROC y) y ∧
      c.getLocalYIndexNoBoundaries (c.YPROC y) y ≤ c.yend ∧
      c.getGlobalYIndexNoBoundaries (c.YPROC y) (c.getLocalYIndexNoBoundaries (c.YPROC y) y) = y) ∧
    ∀ py j, 0 ≤ py → py < c.NYPE → c.ystart ≤ j → j ≤ c.yend →
      c.getGlobalYIndexNoBoundaries py j = y →
      py = c.YPROC y ∧ j = c.getLocalYIndexNoBoundaries (c.YPROC y) y := by
  obtain ⟨_, _, ey, py0⟩ := h.split
  obtain ⟨e, a, b, d⟩ := block_decomp (y := y) (m := c.MYSUB) h0 py0
  have hv : c.YPROC y = y.tdiv c.MYSUB := by
    unfold Cfg.YPROC; rw [if_neg (by omega)]
  have hlt : y.tdiv c.MYSUB < c.NYPE := by
    apply block_lt b _ py0
    rw [← e, ← ey]; omega
  rw [hv]
  refine ⟨⟨a, hlt, ?_, ?_, ?_⟩, ?_⟩
  · unfold Cfg.ystart Cfg.getLocalYIndexNoBoundaries; omega
  · unfold Cfg.yend Cfg.getLocalYIndexNoBoundaries; omega
  · unfold Cfg.getGlobalYIndexNoBoundaries Cfg.getLocalYIndexNoBoundaries; omega
  · intro py j p0 p1 i0 i1 hg
    unfold Cfg.ystart at i0
    unfold Cfg.yend at i1
    unfold Cfg.getGlobalYIndexNoBoundaries at hg
    have := block_unique (m := c.MYSUB) (p := py) (q := y.tdiv c.MYSUB)
      (r := j - c.MYG) (s := y.tmod c.MYSUB) p0 a (by omega) (by omega) b d (by omega)
    refine ⟨this.1, ?_⟩
    unfold Cfg.getLocalYIndexNoBoundaries
    rw [← this.1]; omega

/-- **C17.** The local/global index functions of each rank are mutually inverse, for every
index including guard cells, and the versions with and without boundaries differ by the
X guard width. -/
theorem C17_index_inverse (c : Cfg) (px py i : Int) :
    c.getLocalXIndex px (c.getGlobalXIndex px i) = i ∧
    c.getGlobalXIndex px (c.getLocalXIndex px i) = i ∧
    c.getLocalXIndexNoBoundaries px (c.getGlobalXIndexNoBoundaries px i) = i ∧
    c.getGlobalXIndexNoBoundaries px (c.getLocalXIndexNoBoundaries px i) = i ∧
    c.getLocalYIndex py (c.getGlobalYIndex py i) = i ∧
    c.getGlobalYIndex py (c.getLocalYIndex py i) = i ∧
    c.getLocalYIndexNoBoundaries py (c.getGlobalYIndexNoBoundaries py i) = i ∧
    c.getGlobalYIndexNoBoundaries py (c.getLocalYIndexNoBoundaries py i) = i ∧
    c.getGlobalXIndex px i = c.getGlobalXIndexNoBoundaries px i + c.MXG := by
  refine ⟨?_, ?_, ?_, ?_, ?_, ?_, ?_, ?_, ?_⟩ <;>
    (try simp only [Cfg.getLocalXIndex, Cfg.getGlobalXIndex, Cfg.getLocalXIndexNoBoundaries,
      Cfg.getGlobalXIndexNoBoundaries, Cfg.getLocalYIndexNoBoundaries,
      Cfg.getGlobalYIndexNoBoundaries]) <;> try omega
  · unfold Cfg.getLocalYIndex Cfg.getGlobalYIndex
    by_cases hc : c.jyseps1_2 > c.jyseps2_1 ∧ py * c.MYSUB + 2 * c.MYG + 1 > c.ny_inner
    · rw [if_pos hc, if_pos hc]; omega
    · rw [if_neg hc, if_neg hc]; omega
  · unfold Cfg.getLocalYIndex Cfg.getGlobalYIndex
    by_cases hc : c.jyseps1_2 > c.jyseps2_1 ∧ py * c.MYSUB + 2 * c.MYG + 1 > c.ny_inner
    · rw [if_pos hc, if_pos hc]; omega
    · rw [if_neg hc, if_neg hc]; omega

/-- **C17.** Neighbouring ranks agree on the guard cells: the `k`-th cell past the end of
one rank's X interior has the same global index as the `k`-th interior cell of the next
rank, and likewise in Y. -/
theorem C17_guard_overlap (c : Cfg) (px py k : Int) :
    c.getGlobalXIndex px (c.xend + 1 + k) = c.getGlobalXIndex (px + 1) (c.xstart + k) ∧
    c.getGlobalYIndexNoBoundaries py (c.yend + 1 + k) =
      c.getGlobalYIndexNoBoundaries (py + 1) (c.ystart + k) := by
  unfold Cfg.getGlobalXIndex Cfg.getGlobalYIndexNoBoundaries Cfg.xend Cfg.xstart Cfg.yend Cfg.ystart
  constructor <;> · rw [Int.add_mul]; omega

example : Sizes demo34 := ⟨by decide, by decide, by decide, by decide, by decide, rfl⟩

/-! ### The global Y index that counts boundary cells -/

/-- Position of interior row `y` in the global Y index space that contains the boundary
cells: `MYG` cells precede row 0, and in a double null the two upper targets put `2*MYG`
more cells in front of row `ny_inner` (this is how grid and dump files with Y boundaries
are laid out: `GlobalNy = ny + 4*MYG`). -/
def rowWithBoundaries (c : Cfg) (y : Int) : Int :=
  if c.jyseps1_2 ≠ c.jyseps2_1 ∧ c.ny_inner ≤ y then y + 3 * c.MYG else y + c.MYG

/-- **C17, partial.** `getGlobalYIndex` of an interior row is its position in the global
index space with boundaries – provided there is only one pair of targets, or each rank
has more than `2*MYG` rows.  Missing: without that proviso the statement is false, see
`C17_global_y_index_violated`. -/
theorem C17_global_y_index_partial (c : Cfg) (h : Sizes c)
    (hord : c.jyseps2_1 ≤ c.jyseps1_2)
    (hin : c.jyseps1_2 ≠ c.jyseps2_1 → ∃ k, c.ny_inner = k * c.MYSUB)
    (hbig : c.jyseps1_2 = c.jyseps2_1 ∨ 2 * c.MYG < c.MYSUB)
    (py j : Int) (j0 : c.ystart ≤ j) (j1 : j ≤ c.yend) :
    c.getGlobalYIndex py j = rowWithBoundaries c (c.getGlobalYIndexNoBoundaries py j) := by
  obtain ⟨_, _, _, hM⟩ := h.split
  have hg := h.myg
  unfold Cfg.getGlobalYIndex rowWithBoundaries Cfg.getGlobalYIndexNoBoundaries
  unfold Cfg.ystart at j0
  unfold Cfg.yend at j1
  by_cases hs : c.jyseps1_2 = c.jyseps2_1
  · rw [if_neg (by omega), if_neg (by omega)]; omega
  · obtain ⟨k, hk⟩ := hin hs
    have hb : 2 * c.MYG < c.MYSUB := by omega
    have key : py * c.MYSUB + 2 * c.MYG + 1 > c.ny_inner ↔
        c.ny_inner ≤ j + py * c.MYSUB - c.MYG := by
      rw [hk]
      by_cases hlt : py < k
      · have : (py + 1) * c.MYSUB ≤ k * c.MYSUB :=
          Int.mul_le_mul_of_nonneg_right (by omega) (by omega)
        rw [Int.add_mul] at this
        constructor <;> intro _ <;> omega
      · have : k * c.MYSUB ≤ py * c.MYSUB :=
          Int.mul_le_mul_of_nonneg_right (by omega) (by omega)
        constructor <;> intro _ <;> omega
    by_cases hc : py * c.MYSUB + 2 * c.MYG + 1 > c.ny_inner
    · rw [if_pos ⟨by omega, hc⟩, if_pos ⟨hs, key.1 hc⟩]; omega
    · rw [if_neg (fun x => hc x.2), if_neg (fun x => hc (key.2 x.2))]; omega

/-- A double null with four rows per rank and the default two guard cells. -/
def demoDN : Cfg :=
  { nx := 12, ny := 32, MXG := 2, MYG := 2, NXPE := 1, NYPE := 8, ixseps1 := 6
    ixseps2 := 6, jyseps1_1 := 3, jyseps2_1 := 11, jyseps1_2 := 19, jyseps2_2 := 27
    ny_inner := 16, periodicX := false }

/-- **C17 violated (finding).** In an accepted double-null layout with four rows per rank
and two guard cells, the rank just below the upper inner target reports global Y indices
four too large for its interior rows. -/
theorem C17_global_y_index_violated :
    Sizes demoDN ∧
    checkBoutMeshYDecomposition demoDN.NYPE demoDN.ny demoDN.MYG demoDN.jyseps1_1
      demoDN.jyseps2_1 demoDN.jyseps1_2 demoDN.jyseps2_2 demoDN.ny_inner = some true ∧
    demoDN.getGlobalYIndexNoBoundaries 3 demoDN.ystart = 12 ∧ (12 : Int) < demoDN.ny_inner ∧
    rowWithBoundaries demoDN 12 = 14 ∧
    demoDN.getGlobalYIndex 3 demoDN.ystart = 18 :=
  ⟨⟨by decide, by decide, by decide, by decide, by decide, rfl⟩, by decide, by decide,
    by decide, by decide, by decide⟩

/-- Non-vacuity of `C17_global_y_index_partial`: the same grid on 4 ranks of 8 rows…
has 8 > 2*2 rows per rank. -/
example : let c := { demoDN with NYPE := 4, jyseps1_1 := 7, jyseps2_1 := 7, jyseps1_2 := 23
                                 jyseps2_2 := 23 }
    Sizes c ∧ c.jyseps2_1 ≤ c.jyseps1_2 ∧ c.jyseps1_2 ≠ c.jyseps2_1 ∧
    (∃ k, c.ny_inner = k * c.MYSUB) ∧ 2 * c.MYG < c.MYSUB ∧
    c.getGlobalYIndex 2 c.ystart = 22 :=
  ⟨⟨by decide, by decide, by decide, by decide, by decide, rfl⟩, by decide, by decide,
    ⟨2, by decide⟩, by decide, by decide⟩

end Verif.Mesh
