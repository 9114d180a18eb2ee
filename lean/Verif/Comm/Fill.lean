/-
C42: the guard cells after a communication, on every rank and for every schedule.
-/
import Verif.Comm.Final

namespace Verif.Comm
open Verif.Mesh

section
variable {c : Cfg} {conn : Int × Int → Conn} (hn : Net c conn) {q : Int × Int}
  (hq : IsRank c q)
include hn hq

theorem store_up {α : Type} {j : Job}
    (hcorner : ¬ (j.corners = true ∧ j.doX = true ∧ j.doY = true)) (hY : j.doY = true)
    (async : Bool) (W : World α) (B : Int × Int → SendBufs α) (rbuf : RBuf → Nat → α)
    (es : List Event) (hes : Schedule (postedSlots c (conn q) j) [] es)
    {v : Var} (hv : v ∈ j.vars) {jx k : Int} {z : Nat} (x0 : 0 ≤ jx) (x1 : jx < c.LocalNx)
    (k0 : 0 ≤ k) (k1 : k < c.MYG) (hz : z < v.nz j.nz) :
    (runEvents c (conn q) j (incoming c conn j async W B q) es ⟨W q, rbuf⟩).store
        ⟨v, jx, c.MYSUB + c.MYG + k, z⟩ =
      if (conn q).up.dest jx = -1 then W q ⟨v, jx, c.MYSUB + c.MYG + k, z⟩
      else W (c.peX ((conn q).up.dest jx), c.peY ((conn q).up.dest jx)) ⟨v, jx, c.MYG + k, z⟩ := by
  obtain ⟨w1, w2⟩ := wait_effect hn hq hcorner async W B rbuf es hes
    ⟨v, jx, c.MYSUB + c.MYG + k, z⟩
  obtain ⟨_, _, _, hM⟩ := hn.sizes.split
  by_cases hd : (conn q).up.dest jx = -1
  · rw [if_pos hd]
    apply w2
    intro n hp hr
    obtain ⟨h6, hne, hf⟩ := hp
    obtain ⟨_, hx, hy, _⟩ := hr
    unfold Side.dest at hd
    have six : n = 0 ∨ n = 1 ∨ n = 2 ∨ n = 3 ∨ n = 4 ∨ n = 5 := by omega
    have rows : 4 ≤ n → xRows c j = (c.MYG, c.MYG + c.MYSUB) := by
      intro h
      unfold xRows
      rw [if_neg (show ¬ n < 4 by omega)] at hf
      rw [if_neg (fun hc => hcorner ⟨hc, hf, hY⟩)]
    rcases six with rfl | rfl | rfl | rfl | rfl | rfl
    · simp only [rectOf, unpackPlace] at hx hy
      rw [if_pos (show jx < (conn q).up.split from hx.2)] at hd
      exact hne hd
    · simp only [rectOf, unpackPlace] at hx hy
      rw [if_neg (show ¬ jx < (conn q).up.split from Int.not_lt.2 hx.1)] at hd
      exact hne hd
    · simp only [rectOf, unpackPlace] at hx hy; omega
    · simp only [rectOf, unpackPlace] at hx hy; omega
    · have := rows (by omega); simp only [rectOf, unpackPlace, this] at hx hy; omega
    · have := rows (by omega); simp only [rectOf, unpackPlace, this] at hx hy; omega
  · rw [if_neg hd]
    unfold Side.dest at hd ⊢
    by_cases hs : jx < (conn q).up.split
    · rw [if_pos hs] at hd
      rw [if_pos hs]
      rw [w1 0 ⟨by omega, hd, by simpa using hY⟩
        ⟨hv, ⟨x0, hs⟩, ⟨by simp only [rectOf, unpackPlace]; omega, by simp only [rectOf, unpackPlace]; omega⟩, hz⟩]
      unfold slotVal peerPos shiftOf peerOf
      simp only
      congr 2 <;> omega
    · rw [if_neg hs] at hd
      rw [if_neg hs]
      rw [w1 1 ⟨by omega, hd, by simpa using hY⟩
        ⟨hv, ⟨Int.not_lt.1 hs, x1⟩, ⟨by simp only [rectOf, unpackPlace]; omega, by simp only [rectOf, unpackPlace]; omega⟩, hz⟩]
      unfold slotVal peerPos shiftOf peerOf
      simp only
      congr 2 <;> omega

theorem store_down {α : Type} {j : Job}
    (hcorner : ¬ (j.corners = true ∧ j.doX = true ∧ j.doY = true)) (hY : j.doY = true)
    (async : Bool) (W : World α) (B : Int × Int → SendBufs α) (rbuf : RBuf → Nat → α)
    (es : List Event) (hes : Schedule (postedSlots c (conn q) j) [] es)
    {v : Var} (hv : v ∈ j.vars) {jx k : Int} {z : Nat} (x0 : 0 ≤ jx) (x1 : jx < c.LocalNx)
    (k0 : 0 ≤ k) (k1 : k < c.MYG) (hz : z < v.nz j.nz) :
    (runEvents c (conn q) j (incoming c conn j async W B q) es ⟨W q, rbuf⟩).store
        ⟨v, jx, k, z⟩ =
      if (conn q).down.dest jx = -1 then W q ⟨v, jx, k, z⟩
      else W (c.peX ((conn q).down.dest jx), c.peY ((conn q).down.dest jx))
        ⟨v, jx, c.MYSUB + k, z⟩ := by
  obtain ⟨w1, w2⟩ := wait_effect hn hq hcorner async W B rbuf es hes ⟨v, jx, k, z⟩
  obtain ⟨_, _, _, hM⟩ := hn.sizes.split
  by_cases hd : (conn q).down.dest jx = -1
  · rw [if_pos hd]
    apply w2
    intro n hp hr
    obtain ⟨h6, hne, hf⟩ := hp
    obtain ⟨_, hx, hy, _⟩ := hr
    unfold Side.dest at hd
    have six : n = 0 ∨ n = 1 ∨ n = 2 ∨ n = 3 ∨ n = 4 ∨ n = 5 := by omega
    have rows : 4 ≤ n → xRows c j = (c.MYG, c.MYG + c.MYSUB) := by
      intro h
      unfold xRows
      rw [if_neg (show ¬ n < 4 by omega)] at hf
      rw [if_neg (fun hc => hcorner ⟨hc, hf, hY⟩)]
    rcases six with rfl | rfl | rfl | rfl | rfl | rfl
    · simp only [rectOf, unpackPlace] at hx hy; omega
    · simp only [rectOf, unpackPlace] at hx hy; omega
    · simp only [rectOf, unpackPlace] at hx hy
      rw [if_pos (show jx < (conn q).down.split from hx.2)] at hd
      exact hne hd
    · simp only [rectOf, unpackPlace] at hx hy
      rw [if_neg (show ¬ jx < (conn q).down.split from Int.not_lt.2 hx.1)] at hd
      exact hne hd
    · have := rows (by omega); simp only [rectOf, unpackPlace, this] at hx hy; omega
    · have := rows (by omega); simp only [rectOf, unpackPlace, this] at hx hy; omega
  · rw [if_neg hd]
    unfold Side.dest at hd ⊢
    by_cases hs : jx < (conn q).down.split
    · rw [if_pos hs] at hd
      rw [if_pos hs]
      rw [w1 2 ⟨by omega, hd, by simpa using hY⟩
        ⟨hv, ⟨x0, hs⟩, ⟨k0, k1⟩, hz⟩]
      unfold slotVal peerPos shiftOf peerOf
      simp only
      congr 2 <;> omega
    · rw [if_neg hs] at hd
      rw [if_neg hs]
      rw [w1 3 ⟨by omega, hd, by simpa using hY⟩
        ⟨hv, ⟨Int.not_lt.1 hs, x1⟩, ⟨k0, k1⟩, hz⟩]
      unfold slotVal peerPos shiftOf peerOf
      simp only
      congr 2 <;> omega

theorem store_inside {α : Type} {j : Job}
    (hcorner : ¬ (j.corners = true ∧ j.doX = true ∧ j.doY = true))
    (async : Bool) (W : World α) (B : Int × Int → SendBufs α) (rbuf : RBuf → Nat → α)
    (es : List Event) (hes : Schedule (postedSlots c (conn q) j) [] es) (d : Cell)
    (hd : (c.MXG ≤ d.x ∧ d.x < c.MXG + c.MXSUB) ∧ (c.MYG ≤ d.y ∧ d.y < c.MYG + c.MYSUB) ∨
      d.v ∉ j.vars) :
    (runEvents c (conn q) j (incoming c conn j async W B q) es ⟨W q, rbuf⟩).store d = W q d := by
  obtain ⟨_, w2⟩ := wait_effect hn hq hcorner async W B rbuf es hes d
  apply w2
  intro n hp hr
  obtain ⟨h6, hne, hf⟩ := hp
  obtain ⟨hv, hx, hy, _⟩ := hr
  rcases hd with hd | hd
  · have six : n = 0 ∨ n = 1 ∨ n = 2 ∨ n = 3 ∨ n = 4 ∨ n = 5 := by omega
    rcases six with rfl | rfl | rfl | rfl | rfl | rfl <;>
      (simp only [rectOf, unpackPlace] at hx hy; omega)
  · exact hd hv

theorem store_x {α : Type} {j : Job}
    (hcorner : ¬ (j.corners = true ∧ j.doX = true ∧ j.doY = true)) (hX : j.doX = true)
    (async : Bool) (W : World α) (B : Int × Int → SendBufs α) (rbuf : RBuf → Nat → α)
    (es : List Event) (hes : Schedule (postedSlots c (conn q) j) [] es)
    {v : Var} (hv : v ∈ j.vars) {k y : Int} {z : Nat} (k0 : 0 ≤ k) (k1 : k < c.MXG)
    (y0 : (xRows c j).1 ≤ y) (y1 : y < (xRows c j).2) (hz : z < v.nz j.nz) :
    (runEvents c (conn q) j (incoming c conn j async W B q) es ⟨W q, rbuf⟩).store ⟨v, k, y, z⟩ =
      (if (conn q).IDATA_DEST = -1 then W q ⟨v, k, y, z⟩
       else W (c.peX (conn q).IDATA_DEST, c.peY (conn q).IDATA_DEST) ⟨v, c.MXSUB + k, y, z⟩) ∧
    (runEvents c (conn q) j (incoming c conn j async W B q) es ⟨W q, rbuf⟩).store
        ⟨v, c.MXSUB + c.MXG + k, y, z⟩ =
      (if (conn q).ODATA_DEST = -1 then W q ⟨v, c.MXSUB + c.MXG + k, y, z⟩
       else W (c.peX (conn q).ODATA_DEST, c.peY (conn q).ODATA_DEST) ⟨v, c.MXG + k, y, z⟩) := by
  obtain ⟨_, hMX, _, hM⟩ := hn.sizes.split
  have rows : j.doY = true → xRows c j = (c.MYG, c.MYG + c.MYSUB) := by
    intro h
    unfold xRows
    rw [if_neg (fun hc => hcorner ⟨hc, hX, h⟩)]
  constructor
  · obtain ⟨w1, w2⟩ := wait_effect hn hq hcorner async W B rbuf es hes ⟨v, k, y, z⟩
    by_cases hd : (conn q).IDATA_DEST = -1
    · rw [if_pos hd]
      apply w2
      intro n hp hr
      obtain ⟨h6, hne, hf⟩ := hp
      obtain ⟨_, hx, hy, _⟩ := hr
      have six : n = 0 ∨ n = 1 ∨ n = 2 ∨ n = 3 ∨ n = 4 ∨ n = 5 := by omega
      rcases six with rfl | rfl | rfl | rfl | rfl | rfl
      iterate 4
        · have := rows (by simpa using hf)
          simp only [rectOf, unpackPlace, this] at hx hy y0 y1; omega
      · exact hne hd
      · simp only [rectOf, unpackPlace] at hx; omega
    · rw [if_neg hd, w1 4 ⟨by omega, hd, by simpa using hX⟩
        ⟨hv, ⟨by simp only [rectOf, unpackPlace]; omega, by simp only [rectOf, unpackPlace]; omega⟩,
          ⟨y0, y1⟩, hz⟩]
      unfold slotVal peerPos shiftOf peerOf
      simp only
      congr 2 <;> omega
  · obtain ⟨w1, w2⟩ := wait_effect hn hq hcorner async W B rbuf es hes
      ⟨v, c.MXSUB + c.MXG + k, y, z⟩
    by_cases hd : (conn q).ODATA_DEST = -1
    · rw [if_pos hd]
      apply w2
      intro n hp hr
      obtain ⟨h6, hne, hf⟩ := hp
      obtain ⟨_, hx, hy, _⟩ := hr
      have six : n = 0 ∨ n = 1 ∨ n = 2 ∨ n = 3 ∨ n = 4 ∨ n = 5 := by omega
      rcases six with rfl | rfl | rfl | rfl | rfl | rfl
      iterate 4
        · have := rows (by simpa using hf)
          simp only [rectOf, unpackPlace, this] at hx hy y0 y1; omega
      · simp only [rectOf, unpackPlace] at hx; omega
      · exact hne hd
    · rw [if_neg hd, w1 5 ⟨by omega, hd, by simpa using hX⟩
        ⟨hv, ⟨by simp only [rectOf, unpackPlace]; omega, by simp only [rectOf, unpackPlace]; omega⟩,
          ⟨y0, y1⟩, hz⟩]
      unfold slotVal peerPos shiftOf peerOf
      simp only
      congr 2 <;> omega

end

/-- A Z shift reads only the points of the row. -/
def ReadsRow {α : Type} (nz : Nat) (shiftZ : Bool → Int → (Nat → α) → Nat → α) : Prop :=
  ∀ up x f g, (∀ z, z < nz → f z = g z) → ∀ z, z < nz → shiftZ up x f z = shiftZ up x g z

section
variable {c : Cfg} (h : Layout c) {q : Int × Int} (hq : IsRank c q)
include h hq

/-- **C42.** After a communication, whatever the order in which messages arrive and are
unpacked, whatever the old contents of guard cells and buffers, and for blocking and
non-blocking sends: the `k`-th upper guard row of every communicated field at every local
column holds the `k`-th row, at the same column, of the rank that owns the row following
this rank's last row along the field line – shifted in Z, once, exactly if the field is
field-aligned and the step crosses the branch cut – and is untouched if the field line ends
on a target there. -/
theorem C42_upper_guard_cells {α : Type} {j : Job}
    (hcorner : ¬ (j.corners = true ∧ j.doX = true ∧ j.doY = true)) (hY : j.doY = true)
    (hnd : j.vars.Nodup) (async : Bool) (aligned : Var → Bool)
    (shiftZ : Bool → Int → (Nat → α) → Nat → α) (hsh : ReadsRow j.nz shiftZ)
    (W : World α) (B : Int × Int → SendBufs α) (rbuf : RBuf → Nat → α) (es : List Event)
    (hes : Schedule (postedSlots c (connOf c q) j) [] es)
    {v : Var} (hv : v ∈ j.vars) {jx k : Int} {z : Nat} (x0 : 0 ≤ jx) (x1 : jx < c.LocalNx)
    (k0 : 0 ≤ k) (k1 : k < c.MYG) (hz : z < v.nz j.nz) :
    afterWait c (connOf c) j async aligned shiftZ W B rbuf q es ⟨v, jx, c.yend + 1 + k, z⟩ =
      (upNeighbour c (c.getGlobalXIndex q.1 jx) (c.getGlobalYIndexNoBoundaries q.2 c.yend)).elim
        (W q ⟨v, jx, c.yend + 1 + k, z⟩)
        (fun y => across aligned shiftZ
          (upTwist c (c.getGlobalXIndex q.1 jx) (c.getGlobalYIndexNoBoundaries q.2 c.yend)) true
          v jx (fun z => W (q.1, c.YPROC y) ⟨v, jx, c.ystart + k, z⟩) z) := by
  have hn := net_of_layout c h
  obtain ⟨s, hs, hall⟩ := C19_connections_follow_topology_partial c h q.1 q.2 hq.1 hq.2.1
    hq.2.2.1 hq.2.2.2
  have es' : connOf c q = s := by unfold connOf; rw [hs]
  rw [← es'] at hall
  obtain ⟨ud, _, ut, _⟩ := hall jx x0 x1
  obtain ⟨_, _, _, hM⟩ := h.sizes.split
  have st := fun z (hz : z < v.nz j.nz) => store_up hn hq hcorner hY async W B rbuf es hes hv x0 x1 k0 k1 hz
  have ey : c.yend + 1 + k = c.MYSUB + c.MYG + k := by unfold Cfg.yend; omega
  have eys : c.ystart + k = c.MYG + k := rfl
  rw [ey, eys]
  have row : c.getGlobalYIndexNoBoundaries q.2 c.yend = q.2 * c.MYSUB + (c.MYSUB - 1) := by
    unfold Cfg.getGlobalYIndexNoBoundaries Cfg.yend; omega
  unfold afterWait
  rw [twistShift_eq (px := q.1) shiftZ c h.sizes (connOf c q) (hn.okDown q hq) (hn.okUp q hq) j hnd aligned]
  rw [row] at ud ut ⊢
  have noLow : ¬ (0 ≤ c.MYSUB + c.MYG + k ∧ c.MYSUB + c.MYG + k < c.MYG ∧
      hasBranchCutLower (connOf c q) jx = true) := by omega
  have inUp : c.LocalNy - c.MYG ≤ c.MYSUB + c.MYG + k ∧ c.MYSUB + c.MYG + k < c.LocalNy := by
    unfold Cfg.LocalNy; omega
  simp only [if_neg noLow, inUp, x0, x1, hY, hv, true_and, and_true]
  rw [ut]
  cases hu : upNeighbour c (c.getGlobalXIndex q.1 jx) (q.2 * c.MYSUB + (c.MYSUB - 1)) with
  | none =>
    rw [hu] at ud
    have ud : (connOf c q).up.dest jx = -1 := ud
    have tf : hasBranchCutUpper (connOf c q) jx = false := by
      rw [hasBranchCutUpper_eq]
      unfold Side.twist Side.dest at *
      split
      · next hh => rw [if_pos hh] at ud; simp [ud]
      · next hh => rw [if_neg hh] at ud; simp [ud]
    rw [ut] at tf
    simp only [tf, Bool.false_eq_true, if_false, ite_self, Option.elim]
    rw [st z hz, if_pos ud]
  | some y =>
    rw [hu] at ud
    obtain ⟨r, r0, r1, ry⟩ := up_first h hq.2.2.1 hq.2.2.2 hu
    obtain ⟨_, _, _, _, _, hc⟩ := h.cuts
    have yp : c.YPROC y = r := yproc_first h hc r0 r1 ry
    have ud : (connOf c q).up.dest jx = c.PROC_NUM q.1 r := by rw [ud, ← yp]; rfl
    have ne : c.PROC_NUM q.1 r ≠ -1 := proc_num_ne h.sizes hq.1 hq.2.1 r0 r1
    have pos : (c.peX (c.PROC_NUM q.1 r), c.peY (c.PROC_NUM q.1 r)) = (q.1, r) :=
      pos_of_rank h.sizes (p := (q.1, r)) ⟨hq.1, hq.2.1, r0, r1⟩
    have st' : ∀ z, z < v.nz j.nz →
        (runEvents c (connOf c q) j (incoming c (connOf c) j async W B q) es ⟨W q, rbuf⟩).store
          ⟨v, jx, c.MYSUB + c.MYG + k, z⟩ = W (q.1, r) ⟨v, jx, c.MYG + k, z⟩ := by
      intro z hz
      rw [st z hz, ud, if_neg ne, pos]
    simp only [Option.elim, yp]
    unfold across
    by_cases h3 : v.is3D = true ∧ aligned v = true
    · rw [if_pos h3]
      by_cases ht : upTwist c (c.getGlobalXIndex q.1 jx) (q.2 * c.MYSUB + (c.MYSUB - 1)) = true
      · rw [if_pos ht, if_pos ⟨ht, h3⟩]
        have nzv : v.nz j.nz = j.nz := by unfold Var.nz; rw [if_pos h3.1]
        rw [nzv] at st' hz
        exact hsh true jx _ _ st' z hz
      · rw [if_neg ht, if_neg (fun hh => ht hh.1), st' z hz]
    · rw [if_neg h3, if_neg (fun hh => h3 hh.2), st' z hz]

/-- **C42.** The lower guard rows: guard row `k` (counted from the bottom) holds row
`MYSUB + k` – the `k`-th of the last `MYG` rows – of the owner of the preceding row. -/
theorem C42_lower_guard_cells {α : Type} {j : Job}
    (hcorner : ¬ (j.corners = true ∧ j.doX = true ∧ j.doY = true)) (hY : j.doY = true)
    (hnd : j.vars.Nodup) (async : Bool) (aligned : Var → Bool)
    (shiftZ : Bool → Int → (Nat → α) → Nat → α) (hsh : ReadsRow j.nz shiftZ)
    (W : World α) (B : Int × Int → SendBufs α) (rbuf : RBuf → Nat → α) (es : List Event)
    (hes : Schedule (postedSlots c (connOf c q) j) [] es)
    {v : Var} (hv : v ∈ j.vars) {jx k : Int} {z : Nat} (x0 : 0 ≤ jx) (x1 : jx < c.LocalNx)
    (k0 : 0 ≤ k) (k1 : k < c.MYG) (hz : z < v.nz j.nz) :
    afterWait c (connOf c) j async aligned shiftZ W B rbuf q es ⟨v, jx, c.ystart - 1 - k, z⟩ =
      (downNeighbour c (c.getGlobalXIndex q.1 jx)
          (c.getGlobalYIndexNoBoundaries q.2 c.ystart)).elim
        (W q ⟨v, jx, c.ystart - 1 - k, z⟩)
        (fun y => across aligned shiftZ
          (downTwist c (c.getGlobalXIndex q.1 jx)
            (c.getGlobalYIndexNoBoundaries q.2 c.ystart)) false
          v jx (fun z => W (q.1, c.YPROC y) ⟨v, jx, c.yend - k, z⟩) z) := by
  have hn := net_of_layout c h
  obtain ⟨s, hs, hall⟩ := C19_connections_follow_topology_partial c h q.1 q.2 hq.1 hq.2.1
    hq.2.2.1 hq.2.2.2
  have es' : connOf c q = s := by unfold connOf; rw [hs]
  rw [← es'] at hall
  obtain ⟨_, ud, _, ut⟩ := hall jx x0 x1
  obtain ⟨_, _, _, hM⟩ := h.sizes.split
  have eys : c.ystart = c.MYG := rfl
  have eye : c.yend - k = c.MYSUB + (c.MYG - 1 - k) := by unfold Cfg.yend; omega
  have st := fun z (hz : z < v.nz j.nz) => store_down (k := c.MYG - 1 - k) hn hq hcorner hY
    async W B rbuf es hes hv x0 x1 (by omega) (by omega) hz
  have row : c.getGlobalYIndexNoBoundaries q.2 c.ystart = q.2 * c.MYSUB := by
    unfold Cfg.getGlobalYIndexNoBoundaries Cfg.ystart; omega
  unfold afterWait
  rw [twistShift_eq (px := q.1) shiftZ c h.sizes (connOf c q) (hn.okDown q hq) (hn.okUp q hq) j hnd aligned]
  rw [row] at ud ut ⊢
  rw [eys, eye]
  have inLow : 0 ≤ c.MYG - 1 - k ∧ c.MYG - 1 - k < c.MYG := by omega
  have noUp : ¬ (c.LocalNy - c.MYG ≤ c.MYG - 1 - k ∧ c.MYG - 1 - k < c.LocalNy ∧
      hasBranchCutUpper (connOf c q) jx = true) := by unfold Cfg.LocalNy; omega
  simp only [if_neg noUp, inLow, x0, x1, hY, hv, true_and, and_true]
  rw [ut]
  cases hu : downNeighbour c (c.getGlobalXIndex q.1 jx) (q.2 * c.MYSUB) with
  | none =>
    rw [hu] at ud
    have ud : (connOf c q).down.dest jx = -1 := ud
    have tf : hasBranchCutLower (connOf c q) jx = false := by
      rw [hasBranchCutLower_eq]
      unfold Side.twist Side.dest at *
      split
      · next hh => rw [if_pos hh] at ud; simp [ud]
      · next hh => rw [if_neg hh] at ud; simp [ud]
    rw [ut] at tf
    simp only [tf, Bool.false_eq_true, if_false, ite_self, Option.elim]
    rw [st z hz, if_pos ud]
  | some y =>
    rw [hu] at ud
    obtain ⟨r, r0, r1, ry⟩ := down_last h hq.2.2.1 hq.2.2.2 hu
    obtain ⟨_, _, _, _, _, hc⟩ := h.cuts
    have yp : c.YPROC y = r := yproc_last h hc r0 r1 ry
    have ud : (connOf c q).down.dest jx = c.PROC_NUM q.1 r := by rw [ud, ← yp]; rfl
    have ne : c.PROC_NUM q.1 r ≠ -1 := proc_num_ne h.sizes hq.1 hq.2.1 r0 r1
    have pos : (c.peX (c.PROC_NUM q.1 r), c.peY (c.PROC_NUM q.1 r)) = (q.1, r) :=
      pos_of_rank h.sizes (p := (q.1, r)) ⟨hq.1, hq.2.1, r0, r1⟩
    have st' : ∀ z, z < v.nz j.nz →
        (runEvents c (connOf c q) j (incoming c (connOf c) j async W B q) es ⟨W q, rbuf⟩).store
          ⟨v, jx, c.MYG - 1 - k, z⟩ = W (q.1, r) ⟨v, jx, c.MYSUB + (c.MYG - 1 - k), z⟩ := by
      intro z hz
      rw [st z hz, ud, if_neg ne, pos]
    simp only [Option.elim, yp]
    unfold across
    by_cases h3 : v.is3D = true ∧ aligned v = true
    · rw [if_pos h3]
      by_cases ht : downTwist c (c.getGlobalXIndex q.1 jx) (q.2 * c.MYSUB) = true
      · rw [if_pos ht, if_pos ⟨ht, h3⟩]
        have nzv : v.nz j.nz = j.nz := by unfold Var.nz; rw [if_pos h3.1]
        rw [nzv] at st' hz
        exact hsh false jx _ _ st' z hz
      · rw [if_neg ht, if_neg (fun hh => ht hh.1), st' z hz]
    · rw [if_neg h3, if_neg (fun hh => h3 hh.2), st' z hz]

/-- **C42.** Nothing else changes: interior cells, and all cells of fields that are not
communicated. -/
theorem C42_other_cells_unchanged {α : Type} {j : Job}
    (hcorner : ¬ (j.corners = true ∧ j.doX = true ∧ j.doY = true))
    (hnd : j.vars.Nodup) (async : Bool) (aligned : Var → Bool)
    (shiftZ : Bool → Int → (Nat → α) → Nat → α)
    (W : World α) (B : Int × Int → SendBufs α) (rbuf : RBuf → Nat → α) (es : List Event)
    (hes : Schedule (postedSlots c (connOf c q) j) [] es) (d : Cell)
    (hd : (c.xstart ≤ d.x ∧ d.x ≤ c.xend) ∧ (c.ystart ≤ d.y ∧ d.y ≤ c.yend) ∨ d.v ∉ j.vars) :
    afterWait c (connOf c) j async aligned shiftZ W B rbuf q es d = W q d := by
  have hn := net_of_layout c h
  obtain ⟨_, _, _, hM⟩ := h.sizes.split
  unfold Cfg.xstart Cfg.xend Cfg.ystart Cfg.yend at hd
  unfold afterWait
  rw [twistShift_eq (px := q.1) shiftZ c h.sizes (connOf c q) (hn.okDown q hq) (hn.okUp q hq) j
    hnd aligned]
  have keep := store_inside hn hq hcorner async W B rbuf es hes d
    (hd.imp (fun hh => by omega) id)
  rcases hd with hd | hd
  · have n1 : ¬ (0 ≤ d.y ∧ d.y < c.MYG ∧ hasBranchCutLower (connOf c q) d.x = true) := by omega
    have n2 : ¬ (c.LocalNy - c.MYG ≤ d.y ∧ d.y < c.LocalNy ∧
        hasBranchCutUpper (connOf c q) d.x = true) := by unfold Cfg.LocalNy; omega
    simp only [n1, n2, if_false, ite_self, keep]
  · rw [if_neg (fun hh => hd hh.2.1), keep]

/-- **C42.** The X guard columns: the `k`-th inner guard column holds the `k`-th of the last
`MXG` interior columns of the rank inside, the `k`-th outer one the `k`-th interior column of
the rank outside (next rank in X, wrapping around exactly if X is periodic); at the ends of
a non-periodic X they are untouched.  `y` ranges over the interior rows, or over all
rows if corners are included. -/
theorem C42_x_guard_cells {α : Type} {j : Job}
    (hcorner : ¬ (j.corners = true ∧ j.doX = true ∧ j.doY = true)) (hX : j.doX = true)
    (hnd : j.vars.Nodup) (async : Bool) (aligned : Var → Bool)
    (shiftZ : Bool → Int → (Nat → α) → Nat → α)
    (W : World α) (B : Int × Int → SendBufs α) (rbuf : RBuf → Nat → α) (es : List Event)
    (hes : Schedule (postedSlots c (connOf c q) j) [] es)
    {v : Var} (hv : v ∈ j.vars) {k y : Int} {z : Nat} (k0 : 0 ≤ k) (k1 : k < c.MXG)
    (hy : (c.ystart ≤ y ∧ y ≤ c.yend) ∨ (j.corners = true ∧ 0 ≤ y ∧ y < c.LocalNy))
    (hz : z < v.nz j.nz) :
    afterWait c (connOf c) j async aligned shiftZ W B rbuf q es ⟨v, k, y, z⟩ =
      (if 0 < q.1 then W (q.1 - 1, q.2) ⟨v, c.MXSUB + k, y, z⟩
       else if c.periodicX then W (c.NXPE - 1, q.2) ⟨v, c.MXSUB + k, y, z⟩
       else W q ⟨v, k, y, z⟩) ∧
    afterWait c (connOf c) j async aligned shiftZ W B rbuf q es ⟨v, c.xend + 1 + k, y, z⟩ =
      (if q.1 < c.NXPE - 1 then W (q.1 + 1, q.2) ⟨v, c.xstart + k, y, z⟩
       else if c.periodicX then W (0, q.2) ⟨v, c.xstart + k, y, z⟩
       else W q ⟨v, c.xend + 1 + k, y, z⟩) := by
  have hn := net_of_layout c h
  obtain ⟨_, hMX, _, hM⟩ := h.sizes.split
  have g := h.sizes.myg
  obtain ⟨p0, p1, p2, p3⟩ := hq
  have hrow : (xRows c j).1 ≤ y ∧ y < (xRows c j).2 := by
    unfold xRows
    unfold Cfg.ystart Cfg.yend Cfg.LocalNy at hy
    unfold Cfg.LocalNy
    by_cases hc : j.corners = true
    · rw [if_pos hc]; simp only; omega
    · rw [if_neg hc]; simp only [hc, Bool.false_eq_true, false_and, or_false] at hy ⊢; omega
  obtain ⟨s1, s2⟩ := store_x hn ⟨p0, p1, p2, p3⟩ hcorner hX async W B rbuf es hes hv k0 k1
    hrow.1 hrow.2 hz
  -- no twist-shift here
  have notw : ∀ x : Int, twistShift c (connOf c q) j aligned shiftZ
      (runEvents c (connOf c q) j (incoming c (connOf c) j async W B q) es ⟨W q, rbuf⟩).store
        ⟨v, x, y, z⟩
      = (runEvents c (connOf c q) j (incoming c (connOf c) j async W B q) es ⟨W q, rbuf⟩).store
        ⟨v, x, y, z⟩ := by
    intro x
    rw [twistShift_eq (px := q.1) shiftZ c h.sizes (connOf c q) (hn.okDown q ⟨p0, p1, p2, p3⟩)
      (hn.okUp q ⟨p0, p1, p2, p3⟩) j hnd aligned]
    by_cases hY : j.doY = true
    · have hc : ¬ j.corners = true := fun hc => hcorner ⟨hc, hX, hY⟩
      simp only [hc, Bool.false_eq_true, false_and, or_false] at hy
      unfold Cfg.ystart Cfg.yend at hy
      have n1 : ¬ (0 ≤ y ∧ y < c.MYG ∧ hasBranchCutLower (connOf c q) x = true) := by omega
      have n2 : ¬ (c.LocalNy - c.MYG ≤ y ∧ y < c.LocalNy ∧
          hasBranchCutUpper (connOf c q) x = true) := by unfold Cfg.LocalNy; omega
      simp only [n1, n2, if_false, ite_self]
    · rw [if_neg (fun hh => hY hh.1)]
  unfold afterWait
  rw [notw, notw]
  have ex : c.xend + 1 + k = c.MXSUB + c.MXG + k := by unfold Cfg.xend; omega
  rw [ex, s1, s2]
  -- the destinations
  obtain ⟨a, b, kk, d, e, hcut⟩ := h.cuts
  have e1 := topology_eq h hcut (px := q.1) (py := q.2) p0 p1
  rw [connOf_eq h ⟨p0, p1, p2, p3⟩] at e1
  have io := topoEff_io c a b kk d e q.1 q.2
  rw [← Except.ok.inj e1] at io
  have pos : ∀ x, 0 ≤ x → x < c.NXPE → c.PROC_NUM x q.2 ≠ -1 ∧
      (c.peX (c.PROC_NUM x q.2), c.peY (c.PROC_NUM x q.2)) = (x, q.2) := fun x a b =>
    ⟨proc_num_ne h.sizes a b p2 p3, pos_of_rank h.sizes (p := (x, q.2)) ⟨a, b, p2, p3⟩⟩
  have out : ∀ x, (x < 0 ∨ c.NXPE ≤ x) → c.PROC_NUM x q.2 = -1 := by
    intro x hx; unfold Cfg.PROC_NUM; rw [if_pos (by omega)]
  have N := h.sizes.nxpe
  rw [io.1, io.2]
  unfold default_connections
  simp only
  constructor
  · by_cases hp : 0 < q.1
    · obtain ⟨m1, m2⟩ := pos (q.1 - 1) (by omega) (by omega)
      rw [if_pos hp, if_neg (c := c.periodicX = true ∧ q.1 = 0) (by omega), if_neg m1, m2]
    · rw [if_neg hp]
      by_cases hper : c.periodicX = true
      · obtain ⟨m1, m2⟩ := pos (c.NXPE - 1) (by omega) (by omega)
        rw [if_pos hper, if_pos (c := c.periodicX = true ∧ q.1 = 0) ⟨hper, by omega⟩, if_neg m1, m2]
      · rw [if_neg hper, if_neg (c := c.periodicX = true ∧ q.1 = 0) (fun hh => hper hh.1),
          if_pos (out _ (by omega))]
  · by_cases hp : q.1 < c.NXPE - 1
    · obtain ⟨m1, m2⟩ := pos (q.1 + 1) (by omega) (by omega)
      rw [if_pos hp, if_neg (c := c.periodicX = true ∧ q.1 = c.NXPE - 1) (by omega), if_neg m1, m2]
      rfl
    · rw [if_neg hp]
      by_cases hper : c.periodicX = true
      · obtain ⟨m1, m2⟩ := pos 0 (by omega) (by omega)
        rw [if_pos hper, if_pos (c := c.periodicX = true ∧ q.1 = c.NXPE - 1) ⟨hper, by omega⟩,
          if_neg m1, m2]
        rfl
      · rw [if_neg hper, if_neg (c := c.periodicX = true ∧ q.1 = c.NXPE - 1) (fun hh => hper hh.1),
          if_pos (out _ (by omega))]

/-- **C42, in terms of a global field.** Let the interior cells of all ranks hold the
values of a global field `F v x y z` (`x`, `y` global indices).  After the
communication the `k`-th upper guard row of an interior column holds the value of `F` at the
`k+1`-th row that follows this rank's last row along the field line (shifted in Z across the
branch cut if field-aligned), and is untouched if the field line ends on a target. -/
theorem C42_upper_guard_follows_field_line {α : Type} {j : Job}
    (hcorner : ¬ (j.corners = true ∧ j.doX = true ∧ j.doY = true)) (hY : j.doY = true)
    (hnd : j.vars.Nodup) (async : Bool) (aligned : Var → Bool)
    (shiftZ : Bool → Int → (Nat → α) → Nat → α) (hsh : ReadsRow j.nz shiftZ)
    (F : Var → Int → Int → Nat → α) (W : World α)
    (hF : ∀ p, IsRank c p → ∀ v ∈ j.vars, ∀ x y z, c.xstart ≤ x → x ≤ c.xend → c.ystart ≤ y →
      y ≤ c.yend → W p ⟨v, x, y, z⟩ =
        F v (c.getGlobalXIndex p.1 x) (c.getGlobalYIndexNoBoundaries p.2 y) z)
    (B : Int × Int → SendBufs α) (rbuf : RBuf → Nat → α) (es : List Event)
    (hes : Schedule (postedSlots c (connOf c q) j) [] es)
    {v : Var} (hv : v ∈ j.vars) {jx : Int} {k z : Nat} (x0 : c.xstart ≤ jx) (x1 : jx ≤ c.xend)
    (k1 : (k : Int) < c.MYG) (hz : z < v.nz j.nz) :
    afterWait c (connOf c) j async aligned shiftZ W B rbuf q es ⟨v, jx, c.yend + 1 + k, z⟩ =
      (followUp c (c.getGlobalXIndex q.1 jx) (k + 1)
          (c.getGlobalYIndexNoBoundaries q.2 c.yend)).elim
        (W q ⟨v, jx, c.yend + 1 + k, z⟩)
        (fun y => across aligned shiftZ
          (upTwist c (c.getGlobalXIndex q.1 jx) (c.getGlobalYIndexNoBoundaries q.2 c.yend)) true
          v jx (F v (c.getGlobalXIndex q.1 jx) y) z) := by
  have hn := net_of_layout c h
  have mg := hn.mygLe
  obtain ⟨_, hMX, _, hM⟩ := h.sizes.split
  have xg := h.sizes.mxg
  rw [C42_upper_guard_cells h hq hcorner hY hnd async aligned shiftZ hsh W B rbuf es hes hv
    (by unfold Cfg.xstart at x0; omega) (by unfold Cfg.xend at x1; unfold Cfg.LocalNx; omega)
    (by omega) k1 hz]
  have row : c.getGlobalYIndexNoBoundaries q.2 c.yend = q.2 * c.MYSUB + (c.MYSUB - 1) := by
    unfold Cfg.getGlobalYIndexNoBoundaries Cfg.yend; omega
  rw [followUp]
  cases hu : upNeighbour c (c.getGlobalXIndex q.1 jx)
      (c.getGlobalYIndexNoBoundaries q.2 c.yend) with
  | none => rfl
  | some y =>
    rw [row] at hu
    obtain ⟨r, r0, r1, ry⟩ := up_first h hq.2.2.1 hq.2.2.2 hu
    obtain ⟨_, _, _, _, _, hc⟩ := h.cuts
    have yp : c.YPROC y = r := yproc_first h hc r0 r1 ry
    have fb := follow_block h (x := c.getGlobalXIndex q.1 jx) r0 r1 k 0 (by omega) (by omega)
    rw [show r * c.MYSUB + 0 = y by rw [ry]; exact Int.add_zero _] at fb
    rw [Option.bind_some, fb]
    simp only [Option.elim, yp]
    congr 1
    funext z
    rw [hF (q.1, r) ⟨hq.1, hq.2.1, r0, r1⟩ v hv jx (c.ystart + k) z x0 x1 (by omega)
      (by unfold Cfg.ystart Cfg.yend; omega)]
    congr 1
    rw [ry]
    unfold Cfg.getGlobalYIndexNoBoundaries Cfg.ystart
    simp only; omega

/-- **C42, in terms of a global field**, lower guard rows (counted away from the
interior). -/
theorem C42_lower_guard_follows_field_line {α : Type} {j : Job}
    (hcorner : ¬ (j.corners = true ∧ j.doX = true ∧ j.doY = true)) (hY : j.doY = true)
    (hnd : j.vars.Nodup) (async : Bool) (aligned : Var → Bool)
    (shiftZ : Bool → Int → (Nat → α) → Nat → α) (hsh : ReadsRow j.nz shiftZ)
    (F : Var → Int → Int → Nat → α) (W : World α)
    (hF : ∀ p, IsRank c p → ∀ v ∈ j.vars, ∀ x y z, c.xstart ≤ x → x ≤ c.xend → c.ystart ≤ y →
      y ≤ c.yend → W p ⟨v, x, y, z⟩ =
        F v (c.getGlobalXIndex p.1 x) (c.getGlobalYIndexNoBoundaries p.2 y) z)
    (B : Int × Int → SendBufs α) (rbuf : RBuf → Nat → α) (es : List Event)
    (hes : Schedule (postedSlots c (connOf c q) j) [] es)
    {v : Var} (hv : v ∈ j.vars) {jx : Int} {k z : Nat} (x0 : c.xstart ≤ jx) (x1 : jx ≤ c.xend)
    (k1 : (k : Int) < c.MYG) (hz : z < v.nz j.nz) :
    afterWait c (connOf c) j async aligned shiftZ W B rbuf q es ⟨v, jx, c.ystart - 1 - k, z⟩ =
      (followDown c (c.getGlobalXIndex q.1 jx) (k + 1)
          (c.getGlobalYIndexNoBoundaries q.2 c.ystart)).elim
        (W q ⟨v, jx, c.ystart - 1 - k, z⟩)
        (fun y => across aligned shiftZ
          (downTwist c (c.getGlobalXIndex q.1 jx) (c.getGlobalYIndexNoBoundaries q.2 c.ystart))
          false v jx (F v (c.getGlobalXIndex q.1 jx) y) z) := by
  have hn := net_of_layout c h
  have mg := hn.mygLe
  obtain ⟨_, hMX, _, hM⟩ := h.sizes.split
  have xg := h.sizes.mxg
  rw [C42_lower_guard_cells h hq hcorner hY hnd async aligned shiftZ hsh W B rbuf es hes hv
    (by unfold Cfg.xstart at x0; omega) (by unfold Cfg.xend at x1; unfold Cfg.LocalNx; omega)
    (by omega) k1 hz]
  have row : c.getGlobalYIndexNoBoundaries q.2 c.ystart = q.2 * c.MYSUB := by
    unfold Cfg.getGlobalYIndexNoBoundaries Cfg.ystart; omega
  rw [followDown]
  cases hu : downNeighbour c (c.getGlobalXIndex q.1 jx)
      (c.getGlobalYIndexNoBoundaries q.2 c.ystart) with
  | none => rfl
  | some y =>
    rw [row] at hu
    obtain ⟨r, r0, r1, ry⟩ := down_last h hq.2.2.1 hq.2.2.2 hu
    obtain ⟨_, _, _, _, _, hc⟩ := h.cuts
    have yp : c.YPROC y = r := yproc_last h hc r0 r1 ry
    have fb := follow_block_down h (x := c.getGlobalXIndex q.1 jx) r0 r1 k (c.MYSUB - 1)
      (by omega) (by omega)
    rw [ry] at yp ⊢
    rw [Option.bind_some, fb]
    simp only [Option.elim, yp]
    congr 1
    funext z
    rw [hF (q.1, r) ⟨hq.1, hq.2.1, r0, r1⟩ v hv jx (c.yend - k) z x0 x1
      (by unfold Cfg.ystart Cfg.yend; omega) (by omega)]
    congr 1
    unfold Cfg.getGlobalYIndexNoBoundaries Cfg.yend
    simp only; omega

end

/-! ### The hypotheses can be met -/

/-- A schedule exists for every list of requests (arrive one by one, unpack at once). -/
theorem schedule_exists : ∀ l : List Nat,
    Schedule l [] (l.flatMap fun n => [Event.arrive n, Event.unpack n])
  | [] => .done
  | n :: l => by
    have ih := schedule_exists l
    refine .arrive n List.mem_cons_self ?_
    rw [List.erase_cons_head]
    refine .unpack n List.mem_cons_self ?_
    rw [List.erase_cons_head]
    exact ih

/-- The theorem applies to the double null of `ConnWitness`: rank (0,0), one field, X and Y
exchange. -/
example : ∃ es, Schedule (postedSlots doubleNull (connOf doubleNull (0, 0))
      ⟨[⟨0, true⟩], 4, true, true, false⟩) [] es ∧ IsRank doubleNull (0, 0) ∧
    (postedSlots doubleNull (connOf doubleNull (0, 0))
      ⟨[⟨0, true⟩], 4, true, true, false⟩).length > 1 := by
  exact ⟨_, schedule_exists _, by unfold IsRank; decide, by decide⟩

/-- Not all schedules are like that: two messages may arrive before the first is
unpacked, and be unpacked in the other order. -/
example : Schedule [0, 1] [] [.arrive 1, .arrive 0, .unpack 0, .unpack 1] :=
  .arrive 1 (by decide) (.arrive 0 (by decide) (.unpack 0 (by decide) (.unpack 1 (by decide) .done)))

/-- A reversal of the row is a shift that reads only the row. -/
example : ReadsRow (α := Int) 4 (fun _ _ f z => f (3 - z)) :=
  fun _ _ _ _ hfg z hz => hfg _ (by omega)

/-- **C42, violated for repeated fields.** A field-aligned field listed twice in the group is
shifted twice across the branch cut: with a shift that adds one, a guard cell that should
be 1 is 2.  (`FieldGroup::makeUnique` exists but `communicate` does not call it.) -/
theorem C42_repeated_field_violated :
    twistShift singleNull (connOf singleNull (0, 1)) ⟨[⟨0, true⟩], 1, false, true, false⟩
        (fun _ => true) (fun _ _ f z => f z + 1) (fun _ => (0 : Int)) ⟨⟨0, true⟩, 0, 0, 0⟩ = 1 ∧
    twistShift singleNull (connOf singleNull (0, 1)) ⟨[⟨0, true⟩, ⟨0, true⟩], 1, false, true, false⟩
        (fun _ => true) (fun _ _ f z => f z + 1) (fun _ => (0 : Int)) ⟨⟨0, true⟩, 0, 0, 0⟩ = 2 := by
  decide

end Verif.Comm
