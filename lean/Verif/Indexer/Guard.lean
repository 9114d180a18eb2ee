/-
C39: after `initialise()` (globalindexer.hxx:108 `fieldmesh->communicate(indices)`) guard cells carry the owner's number.
-/
import Verif.Indexer.Layout
import Verif.Comm.Whole

namespace Verif.Indexer
open Verif.Region Verif.MeshRegions Verif.Comm Verif.Mesh

/-- The place of rank `q` for `addBoundaryRegions`: boutmesh.hxx `firstX`, `lastX`, `firstY`, `lastY`, and the Y connections. -/
def placeOf (c : Cfg) (corners : Bool) (q : Int × Int) : Place :=
  ⟨decide (q.1 = 0), decide (q.1 = c.NXPE - 1), decide (q.2 = 0), decide (q.2 = c.NYPE - 1), c.periodicX, corners,
   ⟨(connOf c q).down.ind, (connOf c q).down.outd, (connOf c q).down.split⟩,
   ⟨(connOf c q).up.ind, (connOf c q).up.outd, (connOf c q).up.split⟩⟩

/-- Flat index of a cell. -/
def flat (ny nz x y z : Int) : Int := (pointInd ny nz x y z).ind

/-- An indexer on the ranks of a mesh: rank `q` of the processor grid has the regions that the mesh makes for it (C45), with
`nz` values in Z. -/
structure OnMesh (c : Cfg) (W : Ranks) (nz : Nat) where
  L : Local
  corners : Bool
  R : Int × Int → Regions
  st : Int × Int → List Stencil
  valid : Valid L
  nx : L.LocalNx = c.LocalNx
  ny : L.LocalNy = c.LocalNy
  xs : L.xstart = c.xstart
  xe : L.xend = c.xend
  ys : L.ystart = c.ystart
  ye : L.yend = c.yend
  ins : ∀ q, IsRank c q → W.ins[(rankAt c q).toNat]? = some (R q, st q)
  inZ : Int → Prop
  zok : ∀ z, inZ z → 0 ≤ z ∧ z < nz
  nobndry : ∀ q, IsRank c q → Is L.LocalNy nz (R q).nobndry (fun x y z => L.inX x ∧ L.inY y ∧ inZ z)
  lower : ∀ q, IsRank c q → Is L.LocalNy nz (R q).lowerY (fun x y z => Lower L (placeOf c corners q) x y ∧ 0 ≤ z ∧ z ≤ nz - 1)
  upper : ∀ q, IsRank c q → Is L.LocalNy nz (R q).upperY (fun x y z => Upper L (placeOf c corners q) x y ∧ 0 ≤ z ∧ z ≤ nz - 1)
  inner : ∀ q, IsRank c q → Is L.LocalNy nz (R q).innerX (fun x y z => Inner L (placeOf c corners q) x y ∧ 0 ≤ z ∧ z ≤ nz - 1)
  outer : ∀ q, IsRank c q → Is L.LocalNy nz (R q).outerX (fun x y z => Outer L (placeOf c corners q) x y ∧ 0 ≤ z ∧ z ≤ nz - 1)

/-- The number at a cell of rank `q`, before communication. -/
def OnMesh.num {c : Cfg} {W : Ranks} {nz : Nat} (_ : OnMesh c W nz) (q : Int × Int) (x y z : Int) : Int :=
  W.num (rankAt c q).toNat (flat c.LocalNy nz x y z)

/-- The cell is an unknown of rank `q`. -/
def OnMesh.unknown {c : Cfg} {W : Ranks} {nz : Nat} (_ : OnMesh c W nz) (q : Int × Int) (x y z : Int) : Prop :=
  W.IsUnknown (rankAt c q).toNat (flat c.LocalNy nz x y z)

/-- The fields of numbers on all ranks, before communication. -/
def OnMesh.world {c : Cfg} {W : Ranks} {nz : Nat} (M : OnMesh c W nz) : World Int := fun q d => M.num q d.x d.y d.z

/-- The fields of numbers after `communicate(indices)`, with a field that is not aligned. -/
def OnMesh.after {c : Cfg} {W : Ranks} {nz : Nat} (M : OnMesh c W nz) (v : Var) (async : Bool)
    (shiftZ : Int × Int → Bool → Int → (Nat → Int) → Nat → Int) (RY RX : ExchangeRun Int) (q : Int × Int) (x y : Int) (z : Nat) : Int :=
  communicate c [v] nz async (fun _ => false) shiftZ RY RX M.world q ⟨v, x, y, z⟩

section
variable {c : Cfg} {W : Ranks} {nz : Nat} (M : OnMesh c W nz)

/-- Interior cells are unknowns. -/
theorem OnMesh.interior {q : Int × Int} (hq : IsRank c q) {x y z : Int} (hx : c.xstart ≤ x ∧ x ≤ c.xend)
    (hy : c.ystart ≤ y ∧ y ≤ c.yend) (hz : M.inZ z) : M.unknown q x y z := by
  refine ⟨_, M.ins q hq, Or.inl ?_⟩
  refine List.mem_map.2 ⟨pointInd c.LocalNy nz x y z, ?_, rfl⟩
  refine (((M.nobndry q hq).mem _).2 ⟨x, y, z, ⟨?_, ?_, hz⟩, by rw [M.ny]⟩)
  · unfold Local.inX; rw [M.xs, M.xe]; exact hx
  · unfold Local.inY; rw [M.ys, M.ye]; exact hy

/-- Ranks exist: every position of the processor grid. -/
theorem rank_up (h : Layout c) {q : Int × Int} (hq : IsRank c q) {x y : Int}
    (hu : upNeighbour c x (c.getGlobalYIndexNoBoundaries q.2 c.yend) = some y) : IsRank c (q.1, c.YPROC y) := by
  obtain ⟨_, _, _, _, _, hc⟩ := h.cuts
  have rowu : c.getGlobalYIndexNoBoundaries q.2 c.yend = q.2 * c.MYSUB + (c.MYSUB - 1) := by
    unfold Cfg.getGlobalYIndexNoBoundaries Cfg.yend; omega
  rw [rowu] at hu
  obtain ⟨r, r0, r1, ry⟩ := up_first h hq.2.2.1 hq.2.2.2 hu
  have yp : c.YPROC y = r := yproc_first h hc r0 r1 ry
  exact ⟨hq.1, hq.2.1, by rw [yp]; exact r0, by rw [yp]; exact r1⟩

theorem rank_down (h : Layout c) {q : Int × Int} (hq : IsRank c q) {x y : Int}
    (hu : downNeighbour c x (c.getGlobalYIndexNoBoundaries q.2 c.ystart) = some y) : IsRank c (q.1, c.YPROC y) := by
  obtain ⟨_, _, _, _, _, hc⟩ := h.cuts
  have rowd : c.getGlobalYIndexNoBoundaries q.2 c.ystart = q.2 * c.MYSUB := by
    unfold Cfg.getGlobalYIndexNoBoundaries Cfg.ystart; omega
  rw [rowd] at hu
  obtain ⟨r, r0, r1, ry⟩ := down_last h hq.2.2.1 hq.2.2.2 hu
  have yp : c.YPROC y = r := yproc_last h hc r0 r1 ry
  exact ⟨hq.1, hq.2.1, by rw [yp]; exact r0, by rw [yp]; exact r1⟩

/-- **C39.** After communication a Y guard cell in one of the rank's own columns carries the number of the cell that follows along the
field line: an unknown of the rank that owns it.  Where the line ends it keeps its own number. -/
theorem C39_y_guard_numbers (h : Layout c) (M : OnMesh c W nz) (v : Var) (hnz : v.nz nz = nz) (async : Bool)
    (shiftZ : Int × Int → Bool → Int → (Nat → Int) → Nat → Int) (hsh : ∀ p, ReadsRow nz (shiftZ p)) (RY RX : ExchangeRun Int)
    (hY : RY.Ok c (jobY [v] nz)) (hX : RX.Ok c (jobX [v] nz)) (q : Int × Int) (hq : IsRank c q)
    (x k : Int) (z : Nat) (hx : c.xstart ≤ x ∧ x ≤ c.xend) (k0 : 0 ≤ k) (k1 : k < c.MYG) (hz : z < nz) :
    (match upNeighbour c (c.getGlobalXIndex q.1 x) (c.getGlobalYIndexNoBoundaries q.2 c.yend) with
     | none => M.after v async shiftZ RY RX q x (c.yend + 1 + k) z = M.num q x (c.yend + 1 + k) z
     | some y => IsRank c (q.1, c.YPROC y) ∧ (M.inZ z → k < c.MYSUB → M.unknown (q.1, c.YPROC y) x (c.ystart + k) z) ∧
         M.after v async shiftZ RY RX q x (c.yend + 1 + k) z = M.num (q.1, c.YPROC y) x (c.ystart + k) z) ∧
    (match downNeighbour c (c.getGlobalXIndex q.1 x) (c.getGlobalYIndexNoBoundaries q.2 c.ystart) with
     | none => M.after v async shiftZ RY RX q x (c.ystart - 1 - k) z = M.num q x (c.ystart - 1 - k) z
     | some y => IsRank c (q.1, c.YPROC y) ∧ (M.inZ z → k < c.MYSUB → M.unknown (q.1, c.YPROC y) x (c.yend - k) z) ∧
         M.after v async shiftZ RY RX q x (c.ystart - 1 - k) z = M.num (q.1, c.YPROC y) x (c.yend - k) z) := by
  have hz' : z < v.nz nz := by rw [hnz]; exact hz
  have U := C42_communicate_upper h hq (vars := [v]) (by simp) async (fun _ => false) shiftZ hsh M.world RY RX hY hX (v := v)
    (by simp) hx.1 hx.2 k0 k1 hz'
  have D := C42_communicate_lower h hq (vars := [v]) (by simp) async (fun _ => false) shiftZ hsh M.world RY RX hY hX (v := v)
    (by simp) hx.1 hx.2 k0 k1 hz'
  constructor
  · cases hu : upNeighbour c (c.getGlobalXIndex q.1 x) (c.getGlobalYIndexNoBoundaries q.2 c.yend) with
    | none => rw [hu] at U; exact U
    | some y =>
      rw [hu] at U
      have hr := rank_up h hq hu
      refine ⟨hr, fun hz hk => M.interior hr hx ?_ hz, ?_⟩
      · unfold Cfg.ystart Cfg.yend; omega
      · refine U.trans ?_
        simp only [Option.elim, across, Bool.false_eq_true, and_false, if_false]
        rfl
  · cases hu : downNeighbour c (c.getGlobalXIndex q.1 x) (c.getGlobalYIndexNoBoundaries q.2 c.ystart) with
    | none => rw [hu] at D; exact D
    | some y =>
      rw [hu] at D
      have hr := rank_down h hq hu
      refine ⟨hr, fun hz hk => M.interior hr hx ?_ hz, ?_⟩
      · unfold Cfg.ystart Cfg.yend; omega
      · refine D.trans ?_
        simp only [Option.elim, across, Bool.false_eq_true, and_false, if_false]
        rfl

/-- **C39.** The same for X guard cells in the rank's own rows: they carry the number of the neighbouring rank's column, an unknown there; at the
edge of a non-periodic X they keep their own. -/
theorem C39_x_guard_numbers (h : Layout c) (M : OnMesh c W nz) (v : Var) (hnz : v.nz nz = nz) (async : Bool)
    (shiftZ : Int × Int → Bool → Int → (Nat → Int) → Nat → Int) (RY RX : ExchangeRun Int)
    (hY : RY.Ok c (jobY [v] nz)) (hX : RX.Ok c (jobX [v] nz)) (q : Int × Int) (hq : IsRank c q)
    (y k : Int) (z : Nat) (hy : c.ystart ≤ y ∧ y ≤ c.yend) (k0 : 0 ≤ k) (k1 : k < c.MXG) (hz : z < nz) :
    (M.after v async shiftZ RY RX q k y z = M.num ((innerSource c q k).1, q.2) (innerSource c q k).2 y z ∧
      (¬ (q.1 = 0 ∧ c.periodicX = false) → M.inZ z → c.MXG ≤ c.MXSUB →
        M.unknown ((innerSource c q k).1, q.2) (innerSource c q k).2 y z)) ∧
    (M.after v async shiftZ RY RX q (c.xend + 1 + k) y z = M.num ((outerSource c q k).1, q.2) (outerSource c q k).2 y z ∧
      (¬ (q.1 = c.NXPE - 1 ∧ c.periodicX = false) → M.inZ z → c.MXG ≤ c.MXSUB →
        M.unknown ((outerSource c q k).1, q.2) (outerSource c q k).2 y z)) := by
  have hz' : z < v.nz nz := by rw [hnz]; exact hz
  have X := C42_communicate_x h hq (vars := [v]) (by simp) async (fun _ => false) shiftZ M.world RY RX hY hX (v := v)
    (by simp) hy.1 hy.2 k0 k1 hz'
  have S := source_ok h hq k0 k1
  refine ⟨⟨X.1, fun he hz hM => M.interior S.1.1 ?_ hy hz⟩, ⟨X.2, fun he hz hM => M.interior S.2.1 ?_ hy hz⟩⟩
  · have := hq.1
    unfold innerSource Cfg.xstart Cfg.xend
    by_cases a : 0 < q.1
    · rw [if_pos a]; simp only; omega
    · rw [if_neg a]
      by_cases b : c.periodicX = true
      · rw [if_pos b]; simp only; omega
      · exact absurd ⟨by omega, by simpa using b⟩ he
  · have := hq.2.1
    unfold outerSource Cfg.xstart Cfg.xend
    by_cases a : q.1 < c.NXPE - 1
    · rw [if_pos a]; simp only; omega
    · rw [if_neg a]
      by_cases b : c.periodicX = true
      · rw [if_pos b]; simp only; omega
      · exact absurd ⟨by omega, by simpa using b⟩ he

/-- Without a neighbour on a side, the field line ends there. -/
theorem ends_up (h : Layout c) {q : Int × Int} (hq : IsRank c q) {corners : Bool} {x : Int} (x0 : 0 ≤ x) (x1 : x < c.LocalNx)
    (hn : ¬ (placeOf c corners q).up.Neighbour x) :
    upNeighbour c (c.getGlobalXIndex q.1 x) (c.getGlobalYIndexNoBoundaries q.2 c.yend) = none := by
  obtain ⟨s, hs, hall⟩ := C19_connections_follow_topology_partial c h q.1 q.2 hq.1 hq.2.1 hq.2.2.1 hq.2.2.2
  have es' : connOf c q = s := by unfold connOf; rw [hs]
  obtain ⟨ud, _⟩ := hall x x0 x1
  rw [← es'] at ud
  cases hu : upNeighbour c (c.getGlobalXIndex q.1 x) (c.getGlobalYIndexNoBoundaries q.2 c.yend) with
  | none => rfl
  | some y =>
    exfalso
    have hr := rank_up h hq hu
    rw [hu] at ud
    have h0 : 0 ≤ c.PROC_NUM q.1 (c.YPROC y) := by
      exact ((C16_proc_num_bijection c h.sizes.nxpe h.sizes.nype).1 _ _ hr.1 hr.2.1 hr.2.2.1 hr.2.2.2).1
    apply hn
    unfold YSide.Neighbour placeOf
    simp only
    unfold Side.dest ownerOf at ud
    simp only at ud
    by_cases hx : x < (connOf c q).up.split
    · rw [if_pos hx] at ud; exact Or.inl ⟨by omega, hx⟩
    · rw [if_neg hx] at ud; exact Or.inr ⟨by omega, by omega⟩

theorem ends_down (h : Layout c) {q : Int × Int} (hq : IsRank c q) {corners : Bool} {x : Int} (x0 : 0 ≤ x) (x1 : x < c.LocalNx)
    (hn : ¬ (placeOf c corners q).down.Neighbour x) :
    downNeighbour c (c.getGlobalXIndex q.1 x) (c.getGlobalYIndexNoBoundaries q.2 c.ystart) = none := by
  obtain ⟨s, hs, hall⟩ := C19_connections_follow_topology_partial c h q.1 q.2 hq.1 hq.2.1 hq.2.2.1 hq.2.2.2
  have es' : connOf c q = s := by unfold connOf; rw [hs]
  obtain ⟨_, ud, _⟩ := hall x x0 x1
  rw [← es'] at ud
  cases hu : downNeighbour c (c.getGlobalXIndex q.1 x) (c.getGlobalYIndexNoBoundaries q.2 c.ystart) with
  | none => rfl
  | some y =>
    exfalso
    have hr := rank_down h hq hu
    rw [hu] at ud
    have h0 : 0 ≤ c.PROC_NUM q.1 (c.YPROC y) := by
      exact ((C16_proc_num_bijection c h.sizes.nxpe h.sizes.nype).1 _ _ hr.1 hr.2.1 hr.2.2.1 hr.2.2.2).1
    apply hn
    unfold YSide.Neighbour placeOf
    simp only
    unfold Side.dest ownerOf at ud
    simp only at ud
    by_cases hx : x < (connOf c q).down.split
    · rw [if_pos hx] at ud; exact Or.inl ⟨by omega, hx⟩
    · rw [if_neg hx] at ud; exact Or.inr ⟨by omega, by omega⟩

/-- **C39.** A rank's own unknowns keep their numbers through the communication (corner cells, which are in neither the rank's own columns
nor its own rows, are left out here). -/
theorem C39_own_numbers_kept (h : Layout c) (M : OnMesh c W nz) (v : Var) (hnz : v.nz nz = nz) (async : Bool)
    (shiftZ : Int × Int → Bool → Int → (Nat → Int) → Nat → Int) (hsh : ∀ p, ReadsRow nz (shiftZ p)) (RY RX : ExchangeRun Int)
    (hY : RY.Ok c (jobY [v] nz)) (hX : RX.Ok c (jobX [v] nz)) (q : Int × Int) (hq : IsRank c q)
    (x y : Int) (z : Nat) (hx0 : 0 ≤ x) (hx1 : x < c.LocalNx) (hy0 : 0 ≤ y) (hy1 : y < c.LocalNy) (hz : z < nz)
    (hc : (c.xstart ≤ x ∧ x ≤ c.xend) ∨ (c.ystart ≤ y ∧ y ≤ c.yend))
    (hu : M.unknown q x y z) : M.after v async shiftZ RY RX q x y z = M.num q x y z := by
  have hg : InGrid M.L.LocalNy nz x y z := ⟨hx0, hy0, by rw [M.ny]; exact hy1, by omega, by exact_mod_cast hz⟩
  obtain ⟨R, hR, hu⟩ := hu
  rw [M.ins q hq] at hR
  injection hR with hR
  subst hR
  simp only at hu
  have hv := M.valid
  have back : ∀ {r : Region} {P : Int → Int → Int → Prop}, Is M.L.LocalNy nz r P → Inside M.L.LocalNy nz P →
      flat c.LocalNy nz x y z ∈ pts r → P x y z := by
    intro r P hr hP hm
    have := (mem_pts hr.mem hP hg).1
    rw [M.ny] at this
    exact this hm
  have inB : ∀ {P : Int → Int → Prop}, (∀ x y, P x y → 0 ≤ x ∧ 0 ≤ y ∧ y < M.L.LocalNy) →
      Inside M.L.LocalNy nz (fun x y z => P x y ∧ 0 ≤ z ∧ z ≤ (nz : Int) - 1) := by
    rintro P hP x y z ⟨hp, h1, h2⟩
    exact ⟨(hP x y hp).1, (hP x y hp).2.1, (hP x y hp).2.2, h1, by omega⟩
  have y1 := hv.y1; have y2 := hv.y2; have y0 := hv.y0
  have lx0 := hv.x0; have lx1 := hv.x1
  have interior : (c.xstart ≤ x ∧ x ≤ c.xend) ∧ (c.ystart ≤ y ∧ y ≤ c.yend) →
      M.after v async shiftZ RY RX q x y z = M.num q x y z := fun hin =>
    C42_interior_unchanged h hq (vars := [v]) (by simp) async (fun _ => false) shiftZ M.world RY RX hY hX _ (Or.inl hin)
  have xguard : c.ystart ≤ y ∧ y ≤ c.yend → ¬ (c.xstart ≤ x ∧ x ≤ c.xend) →
      ((x < c.xstart ∧ q.1 = 0 ∧ c.periodicX = false) ∨ (c.xend < x ∧ q.1 = c.NXPE - 1 ∧ c.periodicX = false)) →
      M.after v async shiftZ RY RX q x y z = M.num q x y z := by
    rintro hy _ (⟨h1, h2, h3⟩ | ⟨h1, h2, h3⟩)
    · have := (C39_x_guard_numbers h M v hnz async shiftZ RY RX hY hX q hq y x z hy hx0 (by unfold Cfg.xstart at h1; exact h1) hz).1.1
      rw [this]
      unfold innerSource
      rw [if_neg (by omega), if_neg (by rw [h3]; simp)]
    · have := (C39_x_guard_numbers h M v hnz async shiftZ RY RX hY hX q hq y (x - c.xend - 1) z hy (by omega)
        (by unfold Cfg.LocalNx at hx1; unfold Cfg.xend; omega) hz).2.1
      rw [show c.xend + 1 + (x - c.xend - 1) = x by omega] at this
      rw [this]
      unfold outerSource
      rw [if_neg (by omega), if_neg (by rw [h3]; simp)]
      simp only
      congr 1
      omega
  have yguard : ∀ hxx : c.xstart ≤ x ∧ x ≤ c.xend,
      ((c.yend < y ∧ upNeighbour c (c.getGlobalXIndex q.1 x) (c.getGlobalYIndexNoBoundaries q.2 c.yend) = none) ∨
       (y < c.ystart ∧ downNeighbour c (c.getGlobalXIndex q.1 x) (c.getGlobalYIndexNoBoundaries q.2 c.ystart) = none)) →
      M.after v async shiftZ RY RX q x y z = M.num q x y z := by
    rintro hxx (⟨h1, h2⟩ | ⟨h1, h2⟩)
    · have := (C39_y_guard_numbers h M v hnz async shiftZ hsh RY RX hY hX q hq x (y - c.yend - 1) z hxx (by omega)
        (by unfold Cfg.LocalNy at hy1; unfold Cfg.yend; omega) hz).1
      rw [h2] at this
      simp only at this
      rw [show c.yend + 1 + (y - c.yend - 1) = y by omega] at this
      exact this
    · have := (C39_y_guard_numbers h M v hnz async shiftZ hsh RY RX hY hX q hq x (c.ystart - 1 - y) z hxx (by omega)
        (by unfold Cfg.ystart; omega) hz).2
      rw [h2] at this
      simp only at this
      rw [show c.ystart - 1 - (c.ystart - 1 - y) = y by omega] at this
      exact this
  rcases hu with hu | ⟨hb, _⟩
  · have := back (M.nobndry q hq) (by
      rintro x y z ⟨hx, hy, hz⟩
      unfold Local.inY at hy
      unfold Local.inX at hx
      have := M.zok z hz
      exact ⟨by omega, by omega, by omega, this.1, this.2⟩) hu
    unfold Local.inX Local.inY at this
    rw [M.xs, M.xe, M.ys, M.ye] at this
    exact interior ⟨this.1, this.2.1⟩
  · unfold InBoundary at hb
    rcases hb with hb | hb | ⟨_, hb | hb⟩
    · obtain ⟨⟨⟨p1, p2⟩, ⟨_, p3⟩, p4⟩, _⟩ := back (M.inner q hq) (inB (by
        rintro x y ⟨_, hx, hy⟩; unfold Local.inY at hy; omega)) hb
      unfold Local.inY at p4
      rw [M.ys, M.ye] at p4
      rw [M.xs] at p3
      refine xguard p4 (by omega) (Or.inl ⟨p3, ?_, p2⟩)
      simpa [placeOf] using p1
    · obtain ⟨⟨⟨p1, p2⟩, ⟨p3, _⟩, p4⟩, _⟩ := back (M.outer q hq) (inB (by
        rintro x y ⟨_, hx, hy⟩; unfold Local.inY at hy; omega)) hb
      unfold Local.inY at p4
      rw [M.ys, M.ye] at p4
      rw [M.xe] at p3
      refine xguard p4 (by omega) (Or.inr ⟨p3, ?_, p2⟩)
      simpa [placeOf] using p1
    · obtain ⟨⟨p1, _, p2⟩, _⟩ := back (M.lower q hq) (inB (by
        rintro x y ⟨hc, hy⟩; have := column_range hv hc; unfold Local.anyX at this; omega)) hb
      rw [M.ys] at p2
      have hx : c.xstart ≤ x ∧ x ≤ c.xend := by
        rcases hc with hc | hc
        · exact hc
        · omega
      refine yguard hx (Or.inr ⟨p2, ends_down h hq hx0 hx1 (corners := M.corners) ?_⟩)
      rcases p1 with p1 | p1 | p1
      · exact p1.2
      · exfalso; have := p1.2.2.1; rw [M.xs] at this; omega
      · exfalso; have := p1.2.2.1; rw [M.xe] at this; omega
    · obtain ⟨⟨p1, p2, _⟩, _⟩ := back (M.upper q hq) (inB (by
        rintro x y ⟨hc, hy⟩; have := column_range hv hc; unfold Local.anyX at this; omega)) hb
      rw [M.ye] at p2
      have hx : c.xstart ≤ x ∧ x ≤ c.xend := by
        rcases hc with hc | hc
        · exact hc
        · omega
      refine yguard hx (Or.inl ⟨p2, ends_up h hq hx0 hx1 (corners := M.corners) ?_⟩)
      rcases p1 with p1 | p1 | p1
      · exact p1.2
      · exfalso; have := p1.2.2.1; rw [M.xs] at this; omega
      · exfalso; have := p1.2.2.1; rw [M.xe] at this; omega

end

end Verif.Indexer
