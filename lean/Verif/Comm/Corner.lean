/-
C42: `Mesh::communicate` with corner cells: the exchange in Y, then the exchange in X of all
rows including the Y guard rows (`src/mesh/mesh.cxx` L316-330).
-/
import Verif.Comm.Fill

namespace Verif.Comm
open Verif.Mesh

/-- The run of one exchange on all ranks: for each rank the order of events, the old
contents of its buffers, and the Z shift it applies (which depends on the rank's
`ShiftAngle`). -/
structure ExchangeRun (α : Type) where
  es : Int × Int → List Event
  sbuf : Int × Int → SendBufs α
  rbuf : Int × Int → RBuf → Nat → α

/-- All ranks do `j` and wait. -/
def exchange {α : Type} (c : Cfg) (j : Job) (async : Bool) (aligned : Var → Bool)
    (shiftZ : Int × Int → Bool → Int → (Nat → α) → Nat → α) (R : ExchangeRun α) (W : World α) : World α :=
  fun q => afterWait c (connOf c) j async aligned (shiftZ q) W R.sbuf (R.rbuf q) q (R.es q)

/-- The Y part of `communicate` with corners: `sendY(g)`, `mesh.cxx` L321. -/
def jobY (vars : List Var) (nz : Nat) : Job := ⟨vars, nz, false, true, false⟩
/-- The X part of `communicate` with corners: `sendX(g)`, `mesh.cxx` L327. -/
def jobX (vars : List Var) (nz : Nat) : Job := ⟨vars, nz, true, false, true⟩

/-- `Mesh::communicate(FieldGroup&)` with `include_corner_cells` (the default),
`src/mesh/mesh.cxx` L316-330, on all ranks.  Every rank waits for its own Y messages before
it sends in X; a message sent in X by a fast rank cannot be taken for a Y message (different
tags), so the two exchanges do not mix (`C18_sequence_match`). -/
def communicate {α : Type} (c : Cfg) (vars : List Var) (nz : Nat) (async : Bool)
    (aligned : Var → Bool) (shiftZ : Int × Int → Bool → Int → (Nat → α) → Nat → α)
    (RY RX : ExchangeRun α) (W : World α) : World α :=
  exchange c (jobX vars nz) async aligned shiftZ RX
    (exchange c (jobY vars nz) async aligned shiftZ RY W)

/-- The events of every rank are a schedule of what it posted. -/
def ExchangeRun.Ok {α : Type} (c : Cfg) (j : Job) (R : ExchangeRun α) : Prop :=
  ∀ q, IsRank c q → Schedule (postedSlots c (connOf c q) j) [] (R.es q)

/-- Where the `k`-th inner X guard column of rank `q` comes from: processor column and local
column.  At the inner edge of a non-periodic X it is the rank's own. -/
def innerSource (c : Cfg) (q : Int × Int) (k : Int) : Int × Int :=
  if 0 < q.1 then (q.1 - 1, c.MXSUB + k)
  else if c.periodicX then (c.NXPE - 1, c.MXSUB + k) else (q.1, k)

/-- Where the `k`-th outer X guard column comes from. -/
def outerSource (c : Cfg) (q : Int × Int) (k : Int) : Int × Int :=
  if q.1 < c.NXPE - 1 then (q.1 + 1, c.xstart + k)
  else if c.periodicX then (0, c.xstart + k) else (q.1, c.xend + 1 + k)

section
variable {c : Cfg} (h : Layout c) {q : Int × Int} (hq : IsRank c q)
include h hq

/-- **C42.** Corner guard cells, and all other cells of the X guard columns: after
`communicate` with corner cells, every cell of an X guard column in every row – including
the upper and lower guard rows – holds what its source rank in X has in that cell after
the Y exchange. -/
theorem C42_x_guard_columns_with_corners {α : Type} {vars : List Var} {nz : Nat} (hnd : vars.Nodup)
    (async : Bool) (aligned : Var → Bool)
    (shiftZ : Int × Int → Bool → Int → (Nat → α) → Nat → α) (W : World α) (RY RX : ExchangeRun α)
    (hX : RX.Ok c (jobX vars nz)) {v : Var} (hv : v ∈ vars) {k y : Int} {z : Nat}
    (k0 : 0 ≤ k) (k1 : k < c.MXG) (y0 : 0 ≤ y) (y1 : y < c.LocalNy) (hz : z < v.nz nz) :
    communicate c vars nz async aligned shiftZ RY RX W q ⟨v, k, y, z⟩ =
      exchange c (jobY vars nz) async aligned shiftZ RY W ((innerSource c q k).1, q.2)
        ⟨v, (innerSource c q k).2, y, z⟩ ∧
    communicate c vars nz async aligned shiftZ RY RX W q ⟨v, c.xend + 1 + k, y, z⟩ =
      exchange c (jobY vars nz) async aligned shiftZ RY W ((outerSource c q k).1, q.2)
        ⟨v, (outerSource c q k).2, y, z⟩ := by
  have key := C42_x_guard_cells h hq (j := jobX vars nz) (by simp [jobX]) rfl hnd async aligned
    (shiftZ q) (exchange c (jobY vars nz) async aligned shiftZ RY W) RX.sbuf (RX.rbuf q) (RX.es q)
    (hX q hq) hv k0 k1 (Or.inr ⟨rfl, y0, y1⟩) hz
  unfold communicate
  constructor
  · show afterWait _ _ _ _ _ _ _ _ _ _ _ _ = _
    rw [key.1]
    unfold innerSource
    by_cases a : 0 < q.1
    · rw [if_pos a, if_pos a]
    · rw [if_neg a, if_neg a]
      by_cases b : c.periodicX = true
      · rw [if_pos b, if_pos b]
      · rw [if_neg b, if_neg b]
  · show afterWait _ _ _ _ _ _ _ _ _ _ _ _ = _
    rw [key.2]
    unfold outerSource
    by_cases a : q.1 < c.NXPE - 1
    · rw [if_pos a, if_pos a]
    · rw [if_neg a, if_neg a]
      by_cases b : c.periodicX = true
      · rw [if_pos b, if_pos b]
      · rw [if_neg b, if_neg b]

/-- The source of an X guard column is a rank, and a column of it. -/
theorem source_ok {k : Int} (k0 : 0 ≤ k) (k1 : k < c.MXG) :
    (IsRank c ((innerSource c q k).1, q.2) ∧
      0 ≤ (innerSource c q k).2 ∧ (innerSource c q k).2 < c.LocalNx) ∧
    (IsRank c ((outerSource c q k).1, q.2) ∧
      0 ≤ (outerSource c q k).2 ∧ (outerSource c q k).2 < c.LocalNx) := by
  obtain ⟨_, hMX, _, hM⟩ := h.sizes.split
  have n0 := h.sizes.nxpe
  obtain ⟨a, b, d, e⟩ := hq
  unfold innerSource outerSource IsRank Cfg.LocalNx Cfg.xstart Cfg.xend
  constructor
  · split
    · simp only; omega
    · split <;> simp only <;> omega
  · split
    · simp only; omega
    · split <;> simp only <;> omega

/-- **C42.** The corners in terms of the data before the communication: the guard cell in
the `k`-th inner X guard column and the `l`-th upper guard row holds the value of the cell
reached by going to the source column in X and then along the field line in Y (Z-shifted,
once, if the step crosses the branch cut and the field is aligned), or what the source rank
in X held there if the field line ends on a target. -/
theorem C42_inner_upper_corner {α : Type} {vars : List Var} {nz : Nat} (hnd : vars.Nodup)
    (async : Bool) (aligned : Var → Bool)
    (shiftZ : Int × Int → Bool → Int → (Nat → α) → Nat → α) (hsh : ∀ p, ReadsRow nz (shiftZ p))
    (W : World α) (RY RX : ExchangeRun α)
    (hY : RY.Ok c (jobY vars nz)) (hX : RX.Ok c (jobX vars nz)) {v : Var} (hv : v ∈ vars)
    {k l : Int} {z : Nat} (k0 : 0 ≤ k) (k1 : k < c.MXG) (l0 : 0 ≤ l) (l1 : l < c.MYG)
    (hz : z < v.nz nz) (px x : Int) (hsrc : innerSource c q k = (px, x)) :
    communicate c vars nz async aligned shiftZ RY RX W q ⟨v, k, c.yend + 1 + l, z⟩ =
      (upNeighbour c (c.getGlobalXIndex px x) (c.getGlobalYIndexNoBoundaries q.2 c.yend)).elim
        (W (px, q.2) ⟨v, x, c.yend + 1 + l, z⟩)
        (fun y => across aligned (shiftZ (px, q.2))
          (upTwist c (c.getGlobalXIndex px x) (c.getGlobalYIndexNoBoundaries q.2 c.yend)) true
          v x (fun z => W (px, c.YPROC y) ⟨v, x, c.ystart + l, z⟩) z) := by
  obtain ⟨_, _, _, hM⟩ := h.sizes.split
  have g := h.sizes.myg
  have S := (source_ok h hq k0 k1).1
  rw [hsrc] at S
  rw [(C42_x_guard_columns_with_corners h hq hnd async aligned shiftZ W RY RX hX hv k0 k1
    (y := c.yend + 1 + l) (by unfold Cfg.yend; omega) (by unfold Cfg.yend Cfg.LocalNy; omega) hz).1,
    hsrc]
  exact C42_upper_guard_cells h S.1 (j := jobY vars nz) (by simp [jobY]) rfl hnd async aligned
    (shiftZ (px, q.2)) (hsh _) W RY.sbuf (RY.rbuf _) (RY.es _) (hY _ S.1) hv S.2.1 S.2.2 l0 l1 hz

/-- **C42.** Inner X guard column, lower guard row. -/
theorem C42_inner_lower_corner {α : Type} {vars : List Var} {nz : Nat} (hnd : vars.Nodup)
    (async : Bool) (aligned : Var → Bool)
    (shiftZ : Int × Int → Bool → Int → (Nat → α) → Nat → α) (hsh : ∀ p, ReadsRow nz (shiftZ p))
    (W : World α) (RY RX : ExchangeRun α)
    (hY : RY.Ok c (jobY vars nz)) (hX : RX.Ok c (jobX vars nz)) {v : Var} (hv : v ∈ vars)
    {k l : Int} {z : Nat} (k0 : 0 ≤ k) (k1 : k < c.MXG) (l0 : 0 ≤ l) (l1 : l < c.MYG)
    (hz : z < v.nz nz) (px x : Int) (hsrc : innerSource c q k = (px, x)) :
    communicate c vars nz async aligned shiftZ RY RX W q ⟨v, k, c.ystart - 1 - l, z⟩ =
      (downNeighbour c (c.getGlobalXIndex px x) (c.getGlobalYIndexNoBoundaries q.2 c.ystart)).elim
        (W (px, q.2) ⟨v, x, c.ystart - 1 - l, z⟩)
        (fun y => across aligned (shiftZ (px, q.2))
          (downTwist c (c.getGlobalXIndex px x) (c.getGlobalYIndexNoBoundaries q.2 c.ystart)) false
          v x (fun z => W (px, c.YPROC y) ⟨v, x, c.yend - l, z⟩) z) := by
  obtain ⟨_, _, _, hM⟩ := h.sizes.split
  have g := h.sizes.myg
  have S := (source_ok h hq k0 k1).1
  rw [hsrc] at S
  rw [(C42_x_guard_columns_with_corners h hq hnd async aligned shiftZ W RY RX hX hv k0 k1
    (y := c.ystart - 1 - l) (by unfold Cfg.ystart; omega)
    (by unfold Cfg.ystart Cfg.LocalNy; omega) hz).1, hsrc]
  exact C42_lower_guard_cells h S.1 (j := jobY vars nz) (by simp [jobY]) rfl hnd async aligned
    (shiftZ (px, q.2)) (hsh _) W RY.sbuf (RY.rbuf _) (RY.es _) (hY _ S.1) hv S.2.1 S.2.2 l0 l1 hz

/-- **C42.** Outer X guard column, upper guard row. -/
theorem C42_outer_upper_corner {α : Type} {vars : List Var} {nz : Nat} (hnd : vars.Nodup)
    (async : Bool) (aligned : Var → Bool)
    (shiftZ : Int × Int → Bool → Int → (Nat → α) → Nat → α) (hsh : ∀ p, ReadsRow nz (shiftZ p))
    (W : World α) (RY RX : ExchangeRun α)
    (hY : RY.Ok c (jobY vars nz)) (hX : RX.Ok c (jobX vars nz)) {v : Var} (hv : v ∈ vars)
    {k l : Int} {z : Nat} (k0 : 0 ≤ k) (k1 : k < c.MXG) (l0 : 0 ≤ l) (l1 : l < c.MYG)
    (hz : z < v.nz nz) (px x : Int) (hsrc : outerSource c q k = (px, x)) :
    communicate c vars nz async aligned shiftZ RY RX W q ⟨v, c.xend + 1 + k, c.yend + 1 + l, z⟩ =
      (upNeighbour c (c.getGlobalXIndex px x) (c.getGlobalYIndexNoBoundaries q.2 c.yend)).elim
        (W (px, q.2) ⟨v, x, c.yend + 1 + l, z⟩)
        (fun y => across aligned (shiftZ (px, q.2))
          (upTwist c (c.getGlobalXIndex px x) (c.getGlobalYIndexNoBoundaries q.2 c.yend)) true
          v x (fun z => W (px, c.YPROC y) ⟨v, x, c.ystart + l, z⟩) z) := by
  obtain ⟨_, _, _, hM⟩ := h.sizes.split
  have g := h.sizes.myg
  have S := (source_ok h hq k0 k1).2
  rw [hsrc] at S
  rw [(C42_x_guard_columns_with_corners h hq hnd async aligned shiftZ W RY RX hX hv k0 k1
    (y := c.yend + 1 + l) (by unfold Cfg.yend; omega) (by unfold Cfg.yend Cfg.LocalNy; omega) hz).2,
    hsrc]
  exact C42_upper_guard_cells h S.1 (j := jobY vars nz) (by simp [jobY]) rfl hnd async aligned
    (shiftZ (px, q.2)) (hsh _) W RY.sbuf (RY.rbuf _) (RY.es _) (hY _ S.1) hv S.2.1 S.2.2 l0 l1 hz

/-- **C42.** Outer X guard column, lower guard row. -/
theorem C42_outer_lower_corner {α : Type} {vars : List Var} {nz : Nat} (hnd : vars.Nodup)
    (async : Bool) (aligned : Var → Bool)
    (shiftZ : Int × Int → Bool → Int → (Nat → α) → Nat → α) (hsh : ∀ p, ReadsRow nz (shiftZ p))
    (W : World α) (RY RX : ExchangeRun α)
    (hY : RY.Ok c (jobY vars nz)) (hX : RX.Ok c (jobX vars nz)) {v : Var} (hv : v ∈ vars)
    {k l : Int} {z : Nat} (k0 : 0 ≤ k) (k1 : k < c.MXG) (l0 : 0 ≤ l) (l1 : l < c.MYG)
    (hz : z < v.nz nz) (px x : Int) (hsrc : outerSource c q k = (px, x)) :
    communicate c vars nz async aligned shiftZ RY RX W q ⟨v, c.xend + 1 + k, c.ystart - 1 - l, z⟩ =
      (downNeighbour c (c.getGlobalXIndex px x) (c.getGlobalYIndexNoBoundaries q.2 c.ystart)).elim
        (W (px, q.2) ⟨v, x, c.ystart - 1 - l, z⟩)
        (fun y => across aligned (shiftZ (px, q.2))
          (downTwist c (c.getGlobalXIndex px x) (c.getGlobalYIndexNoBoundaries q.2 c.ystart)) false
          v x (fun z => W (px, c.YPROC y) ⟨v, x, c.yend - l, z⟩) z) := by
  obtain ⟨_, _, _, hM⟩ := h.sizes.split
  have g := h.sizes.myg
  have S := (source_ok h hq k0 k1).2
  rw [hsrc] at S
  rw [(C42_x_guard_columns_with_corners h hq hnd async aligned shiftZ W RY RX hX hv k0 k1
    (y := c.ystart - 1 - l) (by unfold Cfg.ystart; omega)
    (by unfold Cfg.ystart Cfg.LocalNy; omega) hz).2, hsrc]
  exact C42_lower_guard_cells h S.1 (j := jobY vars nz) (by simp [jobY]) rfl hnd async aligned
    (shiftZ (px, q.2)) (hsh _) W RY.sbuf (RY.rbuf _) (RY.es _) (hY _ S.1) hv S.2.1 S.2.2 l0 l1 hz

/-- **C42.** The interior is unchanged by `communicate` with corner cells. -/
theorem C42_interior_unchanged {α : Type} {vars : List Var} {nz : Nat} (hnd : vars.Nodup)
    (async : Bool) (aligned : Var → Bool)
    (shiftZ : Int × Int → Bool → Int → (Nat → α) → Nat → α) (W : World α) (RY RX : ExchangeRun α)
    (hY : RY.Ok c (jobY vars nz)) (hX : RX.Ok c (jobX vars nz)) (d : Cell)
    (hd : (c.xstart ≤ d.x ∧ d.x ≤ c.xend) ∧ (c.ystart ≤ d.y ∧ d.y ≤ c.yend) ∨ d.v ∉ vars) :
    communicate c vars nz async aligned shiftZ RY RX W q d = W q d := by
  unfold communicate
  have e1 := C42_other_cells_unchanged h hq (j := jobX vars nz) (by simp [jobX]) hnd async aligned
    (shiftZ q) (exchange c (jobY vars nz) async aligned shiftZ RY W) RX.sbuf (RX.rbuf q) (RX.es q)
    (hX q hq) d hd
  have e2 := C42_other_cells_unchanged h hq (j := jobY vars nz) (by simp [jobY]) hnd async aligned
    (shiftZ q) W RY.sbuf (RY.rbuf q) (RY.es q) (hY q hq) d hd
  exact e1.trans e2

end

/-- Runs exist: the hypotheses `ExchangeRun.Ok` can be met for every configuration. -/
example {α : Type} (c : Cfg) (j : Job) (sb : Int × Int → SendBufs α)
    (rb : Int × Int → RBuf → Nat → α) :
    (⟨fun q => (postedSlots c (connOf c q) j).flatMap fun n => [Event.arrive n, Event.unpack n],
      sb, rb⟩ : ExchangeRun α).Ok c j := fun _ _ => schedule_exists _

/-- A corner of the double null that comes from another rank in X. -/
example : innerSource doubleNull (1, 2) 0 = (0, doubleNull.MXSUB) := by decide

end Verif.Comm
