/-
C42: the whole of `Mesh::communicate` (Y exchange followed by X exchange with corners), cell by cell.
-/
import Verif.Comm.Corner

namespace Verif.Comm
open Verif.Mesh

section
variable {c : Cfg} (h : Layout c) {q : Int × Int} (hq : IsRank c q)
include h hq

/-- The X exchange leaves the rank's own columns alone. -/
theorem x_keeps {α : Type} {vars : List Var} {nz : Nat} (hnd : vars.Nodup) (async : Bool) (aligned : Var → Bool)
    (shiftZ : Int × Int → Bool → Int → (Nat → α) → Nat → α) (W : World α) (R : ExchangeRun α)
    (hR : R.Ok c (jobX vars nz)) (d : Cell) (hd : c.xstart ≤ d.x ∧ d.x ≤ c.xend) :
    exchange c (jobX vars nz) async aligned shiftZ R W q d = W q d := by
  have hn := net_of_layout c h
  obtain ⟨_, _, _, hM⟩ := h.sizes.split
  unfold Cfg.xstart Cfg.xend at hd
  unfold exchange afterWait
  rw [twistShift_eq (px := q.1) (shiftZ q) c h.sizes (connOf c q) (hn.okDown q hq) (hn.okUp q hq) (jobX vars nz)
    hnd aligned]
  rw [if_neg (by simp [jobX])]
  obtain ⟨_, w2⟩ := wait_effect hn hq (j := jobX vars nz) (by simp [jobX]) async W R.sbuf (R.rbuf q) (R.es q) (hR q hq) d
  apply w2
  intro n hp hr
  obtain ⟨h6, hne, hf⟩ := hp
  obtain ⟨hv, hx, hy, _⟩ := hr
  have six : n = 0 ∨ n = 1 ∨ n = 2 ∨ n = 3 ∨ n = 4 ∨ n = 5 := by omega
  rcases six with rfl | rfl | rfl | rfl | rfl | rfl
  · simp [jobX] at hf
  · simp [jobX] at hf
  · simp [jobX] at hf
  · simp [jobX] at hf
  · simp only [rectOf, unpackPlace] at hx hy; omega
  · simp only [rectOf, unpackPlace] at hx hy; omega

/-- The Y exchange leaves the rank's own rows alone. -/
theorem y_keeps {α : Type} {vars : List Var} {nz : Nat} (hnd : vars.Nodup) (async : Bool) (aligned : Var → Bool)
    (shiftZ : Int × Int → Bool → Int → (Nat → α) → Nat → α) (W : World α) (R : ExchangeRun α)
    (hR : R.Ok c (jobY vars nz)) (d : Cell) (hd : c.ystart ≤ d.y ∧ d.y ≤ c.yend) :
    exchange c (jobY vars nz) async aligned shiftZ R W q d = W q d := by
  have hn := net_of_layout c h
  obtain ⟨_, _, _, hM⟩ := h.sizes.split
  unfold Cfg.ystart Cfg.yend at hd
  unfold exchange afterWait
  rw [twistShift_eq (px := q.1) (shiftZ q) c h.sizes (connOf c q) (hn.okDown q hq) (hn.okUp q hq) (jobY vars nz)
    hnd aligned]
  have n1 : ¬ (0 ≤ d.y ∧ d.y < c.MYG ∧ hasBranchCutLower (connOf c q) d.x = true) := by omega
  have n2 : ¬ (c.LocalNy - c.MYG ≤ d.y ∧ d.y < c.LocalNy ∧
      hasBranchCutUpper (connOf c q) d.x = true) := by unfold Cfg.LocalNy; omega
  simp only [n1, n2, if_false, ite_self]
  obtain ⟨_, w2⟩ := wait_effect hn hq (j := jobY vars nz) (by simp [jobY]) async W R.sbuf (R.rbuf q) (R.es q) (hR q hq) d
  apply w2
  intro n hp hr
  obtain ⟨h6, hne, hf⟩ := hp
  obtain ⟨hv, hx, hy, _⟩ := hr
  have six : n = 0 ∨ n = 1 ∨ n = 2 ∨ n = 3 ∨ n = 4 ∨ n = 5 := by omega
  rcases six with rfl | rfl | rfl | rfl | rfl | rfl
  · simp only [rectOf, unpackPlace] at hx hy; omega
  · simp only [rectOf, unpackPlace] at hx hy; omega
  · simp only [rectOf, unpackPlace] at hx hy; omega
  · simp only [rectOf, unpackPlace] at hx hy; omega
  · simp [jobY] at hf
  · simp [jobY] at hf

/-- **C42.** After the whole `communicate`: an upper guard cell in one of the rank's own columns holds the value of the cell that
follows along the field line, or is unchanged where the line ends. -/
theorem C42_communicate_upper {α : Type} {vars : List Var} {nz : Nat} (hnd : vars.Nodup) (async : Bool)
    (aligned : Var → Bool) (shiftZ : Int × Int → Bool → Int → (Nat → α) → Nat → α) (hsh : ∀ p, ReadsRow nz (shiftZ p))
    (W : World α) (RY RX : ExchangeRun α) (hY : RY.Ok c (jobY vars nz)) (hX : RX.Ok c (jobX vars nz))
    {v : Var} (hv : v ∈ vars) {x k : Int} {z : Nat} (x0 : c.xstart ≤ x) (x1 : x ≤ c.xend)
    (k0 : 0 ≤ k) (k1 : k < c.MYG) (hz : z < v.nz nz) :
    communicate c vars nz async aligned shiftZ RY RX W q ⟨v, x, c.yend + 1 + k, z⟩ =
      (upNeighbour c (c.getGlobalXIndex q.1 x) (c.getGlobalYIndexNoBoundaries q.2 c.yend)).elim
        (W q ⟨v, x, c.yend + 1 + k, z⟩)
        (fun y => across aligned (shiftZ q)
          (upTwist c (c.getGlobalXIndex q.1 x) (c.getGlobalYIndexNoBoundaries q.2 c.yend)) true
          v x (fun z => W (q.1, c.YPROC y) ⟨v, x, c.ystart + k, z⟩) z) := by
  have g := h.sizes.mxg
  unfold communicate
  rw [x_keeps h hq hnd async aligned shiftZ _ RX hX _ ⟨x0, x1⟩]
  exact C42_upper_guard_cells h hq (j := jobY vars nz) (by simp [jobY]) rfl hnd async aligned
    (shiftZ q) (hsh _) W RY.sbuf (RY.rbuf _) (RY.es _) (hY _ hq) hv (by unfold Cfg.xstart at x0; omega)
    (by unfold Cfg.xend at x1; unfold Cfg.LocalNx; omega) k0 k1 hz

/-- **C42.** The same for lower guard cells. -/
theorem C42_communicate_lower {α : Type} {vars : List Var} {nz : Nat} (hnd : vars.Nodup) (async : Bool)
    (aligned : Var → Bool) (shiftZ : Int × Int → Bool → Int → (Nat → α) → Nat → α) (hsh : ∀ p, ReadsRow nz (shiftZ p))
    (W : World α) (RY RX : ExchangeRun α) (hY : RY.Ok c (jobY vars nz)) (hX : RX.Ok c (jobX vars nz))
    {v : Var} (hv : v ∈ vars) {x k : Int} {z : Nat} (x0 : c.xstart ≤ x) (x1 : x ≤ c.xend)
    (k0 : 0 ≤ k) (k1 : k < c.MYG) (hz : z < v.nz nz) :
    communicate c vars nz async aligned shiftZ RY RX W q ⟨v, x, c.ystart - 1 - k, z⟩ =
      (downNeighbour c (c.getGlobalXIndex q.1 x) (c.getGlobalYIndexNoBoundaries q.2 c.ystart)).elim
        (W q ⟨v, x, c.ystart - 1 - k, z⟩)
        (fun y => across aligned (shiftZ q)
          (downTwist c (c.getGlobalXIndex q.1 x) (c.getGlobalYIndexNoBoundaries q.2 c.ystart)) false
          v x (fun z => W (q.1, c.YPROC y) ⟨v, x, c.yend - k, z⟩) z) := by
  have g := h.sizes.mxg
  unfold communicate
  rw [x_keeps h hq hnd async aligned shiftZ _ RX hX _ ⟨x0, x1⟩]
  exact C42_lower_guard_cells h hq (j := jobY vars nz) (by simp [jobY]) rfl hnd async aligned
    (shiftZ q) (hsh _) W RY.sbuf (RY.rbuf _) (RY.es _) (hY _ hq) hv (by unfold Cfg.xstart at x0; omega)
    (by unfold Cfg.xend at x1; unfold Cfg.LocalNx; omega) k0 k1 hz

/-- **C42.** X guard cells of the rank's own rows hold what the source rank's own column held before. -/
theorem C42_communicate_x {α : Type} {vars : List Var} {nz : Nat} (hnd : vars.Nodup) (async : Bool)
    (aligned : Var → Bool) (shiftZ : Int × Int → Bool → Int → (Nat → α) → Nat → α)
    (W : World α) (RY RX : ExchangeRun α) (hY : RY.Ok c (jobY vars nz)) (hX : RX.Ok c (jobX vars nz))
    {v : Var} (hv : v ∈ vars) {k y : Int} {z : Nat} (y0 : c.ystart ≤ y) (y1 : y ≤ c.yend)
    (k0 : 0 ≤ k) (k1 : k < c.MXG) (hz : z < v.nz nz) :
    communicate c vars nz async aligned shiftZ RY RX W q ⟨v, k, y, z⟩ =
      W ((innerSource c q k).1, q.2) ⟨v, (innerSource c q k).2, y, z⟩ ∧
    communicate c vars nz async aligned shiftZ RY RX W q ⟨v, c.xend + 1 + k, y, z⟩ =
      W ((outerSource c q k).1, q.2) ⟨v, (outerSource c q k).2, y, z⟩ := by
  obtain ⟨_, _, _, hM⟩ := h.sizes.split
  have g := h.sizes.myg
  have S := source_ok h hq k0 k1
  have key := C42_x_guard_columns_with_corners h hq hnd async aligned shiftZ W RY RX hX hv k0 k1 (y := y)
    (by unfold Cfg.ystart at y0; omega) (by unfold Cfg.yend at y1; unfold Cfg.LocalNy; omega) hz
  constructor
  · rw [key.1]; exact y_keeps h S.1.1 hnd async aligned shiftZ W RY hY _ ⟨y0, y1⟩
  · rw [key.2]; exact y_keeps h S.2.1 hnd async aligned shiftZ W RY hY _ ⟨y0, y1⟩

end
end Verif.Comm
