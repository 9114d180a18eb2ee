/-
C19: layouts that meet the hypotheses of the theorems, and layouts outside them on which
the connection code goes wrong.
-/
import Verif.Mesh.ConnProps

namespace Verif.Mesh

/-! ## Layouts that meet the hypotheses -/

instance (c : Cfg) : Decidable (Ordered c) :=
  decidable_of_iff
    (-1 ≤ c.jyseps1_1 ∧ c.jyseps2_2 < c.ny ∧ (¬ DoubleNull c → c.jyseps1_1 < c.jyseps2_2) ∧
      (DoubleNull c → c.jyseps1_1 < c.jyseps2_1) ∧
      (DoubleNull c → c.jyseps2_1 + 1 < c.ny_inner) ∧
      (DoubleNull c → c.ny_inner ≤ c.jyseps1_2) ∧ (DoubleNull c → c.jyseps1_2 < c.jyseps2_2) ∧
      (c.jyseps1_1 = -1 ↔ c.jyseps2_2 = c.ny - 1))
    ⟨fun ⟨a, b, c, d, e, f, g, h⟩ => ⟨a, b, c, d, e, f, g, h⟩,
     fun ⟨a, b, c, d, e, f, g, h⟩ => ⟨a, b, c, d, e, f, g, h⟩⟩

/-- A lower single null: 32 rows on 8 ranks in Y, two columns of ranks in X. -/
def singleNull : Cfg :=
  { nx := 20, ny := 32, MXG := 2, MYG := 2, NXPE := 2, NYPE := 8, ixseps1 := 9
    ixseps2 := 20, jyseps1_1 := 3, jyseps2_1 := 15, jyseps1_2 := 15, jyseps2_2 := 27
    ny_inner := 16, periodicX := false }

theorem singleNull_layout : Layout singleNull where
  sizes := ⟨by decide, by decide, by decide, by decide, by decide, by decide⟩
  ordered := by decide
  check := by decide
  checks := by decide
  rows := by decide

/-- An unbalanced double null: legs, two halves of the core, upper legs. -/
def doubleNull : Cfg :=
  { nx := 20, ny := 48, MXG := 2, MYG := 2, NXPE := 2, NYPE := 12, ixseps1 := 7
    ixseps2 := 11, jyseps1_1 := 3, jyseps2_1 := 15, jyseps1_2 := 31, jyseps2_2 := 43
    ny_inner := 24, periodicX := false }

theorem doubleNull_layout : Layout doubleNull where
  sizes := ⟨by decide, by decide, by decide, by decide, by decide, by decide⟩
  ordered := by decide
  check := by decide
  checks := by decide
  rows := by decide

/-- The connections of the ranks around the lower X-point of `singleNull`: rank row 0 (the
inner leg) joins rank row 7 (the outer leg) below the separatrix, which cuts the inner
column of ranks at local column 9; and joins rank row 1 above it. -/
example : (topology singleNull 0 0).map Conn.up = .ok ⟨9, singleNull.PROC_NUM 0 7,
    singleNull.PROC_NUM 0 1, false, false⟩ := by decide
example : (topology singleNull 0 6).map Conn.up = .ok ⟨9, singleNull.PROC_NUM 0 1,
    singleNull.PROC_NUM 0 7, true, false⟩ := by decide
example : upNeighbour singleNull 8 27 = some 4 ∧ upNeighbour singleNull 9 27 = some 28 ∧
    upNeighbour singleNull 8 3 = some 28 ∧ upNeighbour singleNull 8 31 = none := by decide
example : upNeighbour doubleNull 10 15 = some 32 ∧ upNeighbour doubleNull 11 15 = some 16 ∧
    upNeighbour doubleNull 10 23 = none ∧ upNeighbour doubleNull 8 43 = some 44 := by decide

/-! ## Layouts on which the connections are wrong -/

/-- One row per rank, with a private flux region. -/
def oneRow : Cfg :=
  { nx := 6, ny := 4, MXG := 1, MYG := 1, NXPE := 1, NYPE := 4, ixseps1 := 3
    ixseps2 := 6, jyseps1_1 := 0, jyseps2_1 := 1, jyseps1_2 := 1, jyseps2_2 := 2
    ny_inner := 1, periodicX := false }

/-- **C19, violated.** With one row per rank every check of the mesh passes, and yet the
private flux region is connected backwards: inside the separatrix the row after the inner
leg (rank 0) should be the outer leg (rank 3), but rank 0 sends up to rank 1 – a core
rank, which itself receives from nobody but the core – and rank 3, where the field line
should end on the target, sends up to rank 0. -/
theorem C19_one_row_per_rank_violated :
    Sizes oneRow ∧ Ordered oneRow ∧ topologyChecks oneRow = .ok () ∧
    checkBoutMeshYDecomposition oneRow.NYPE oneRow.ny oneRow.MYG oneRow.jyseps1_1
      oneRow.jyseps2_1 oneRow.jyseps1_2 oneRow.jyseps2_2 oneRow.ny_inner = some true ∧
    ∃ s0 s3, topology oneRow 0 0 = .ok s0 ∧ topology oneRow 0 3 = .ok s3 ∧
      upNeighbour oneRow 1 0 = some 3 ∧ s0.up.dest 1 = 1 ∧
      upNeighbour oneRow 1 3 = none ∧ s3.up.dest 1 = 0 := by
  refine ⟨⟨by decide, by decide, by decide, by decide, by decide, by decide⟩, by decide,
    by decide, by decide, ?_⟩
  exact ⟨_, _, rfl, rfl, by decide, by decide, by decide, by decide⟩

/-- Only one leg: the core starts at row 0 (`jyseps1_1 = -1`) but ends before the grid does. -/
def oneLeg : Cfg :=
  { nx := 6, ny := 8, MXG := 1, MYG := 1, NXPE := 1, NYPE := 4, ixseps1 := 3
    ixseps2 := 6, jyseps1_1 := -1, jyseps2_1 := 1, jyseps1_2 := 1, jyseps2_2 := 5
    ny_inner := 2, periodicX := false }

/-- **C19, violated.** If there is only one leg the checks of the mesh pass as well, but
the two sides of the boundary between core and leg disagree: rank 2 sends its inner three
columns to rank 0 and only the outer three to rank 3, while rank 3 expects (and sends) all
six columns from (to) rank 2. -/
theorem C19_one_leg_violated :
    Sizes oneLeg ∧ topologyChecks oneLeg = .ok () ∧
    checkBoutMeshYDecomposition oneLeg.NYPE oneLeg.ny oneLeg.MYG oneLeg.jyseps1_1
      oneLeg.jyseps2_1 oneLeg.jyseps1_2 oneLeg.jyseps2_2 oneLeg.ny_inner = some true ∧
    ∃ s2 s3, topology oneLeg 0 2 = .ok s2 ∧ topology oneLeg 0 3 = .ok s3 ∧
      s2.UDATA_OUTDEST = 3 ∧ s3.DDATA_OUTDEST = 2 ∧
      s2.UDATA_XSPLIT = 3 ∧ s3.DDATA_XSPLIT = 0 := by
  refine ⟨⟨by decide, by decide, by decide, by decide, by decide, by decide⟩,
    by decide, by decide, ?_⟩
  exact ⟨_, _, rfl, rfl, by decide, by decide, by decide, by decide⟩

end Verif.Mesh
