import Verif.Region.Model
import Mathlib.Data.Int.ModEq
import Mathlib.Tactic.Ring
import Mathlib.Tactic.Linarith
/-!
# C01, C02: flat indices, coordinates and offsets

Specification: the flat index of point `(x, y, z)` on a grid with `ny`, `nz` is `(x*ny + y)*nz + z`.
-/

namespace Verif.Region

/-- Specification: row-major flat index. -/
def flat (ny nz x y z : Int) : Int := (x * ny + y) * nz + z

/-- Specification: the index object of a grid point. -/
def pointInd (ny nz x y z : Int) : Ind := { ind := flat ny nz x y z, ny := ny, nz := nz }

/-- A grid point with `x ≥ 0`, `0 ≤ y < ny`, `0 ≤ z < nz`. -/
structure InGrid (ny nz x y z : Int) : Prop where
  x0 : 0 ≤ x
  y0 : 0 ≤ y
  y1 : y < ny
  z0 : 0 ≤ z
  z1 : z < nz

theorem flat_nonneg {ny nz x y z : Int} (h : InGrid ny nz x y z) : 0 ≤ flat ny nz x y z := by
  obtain ⟨hx, hy, hy1, hz, hz1⟩ := h
  have : 0 ≤ x * ny := Int.mul_nonneg hx (by omega)
  have : 0 ≤ (x * ny + y) * nz := Int.mul_nonneg (by omega) (by omega)
  unfold flat; omega

theorem flat_ediv_nz {ny nz x y z : Int} (h : InGrid ny nz x y z) :
    flat ny nz x y z / nz = x * ny + y := by
  obtain ⟨hx, hy, hy1, hz, hz1⟩ := h
  unfold flat
  rw [Int.add_comm, Int.add_mul_ediv_right _ _ (by omega), Int.ediv_eq_zero_of_lt hz hz1]
  omega

theorem flat_emod_nz {ny nz x y z : Int} (h : InGrid ny nz x y z) :
    flat ny nz x y z % nz = z := by
  obtain ⟨hx, hy, hy1, hz, hz1⟩ := h
  unfold flat
  rw [Int.add_comm, Int.add_mul_emod_self_right, Int.emod_eq_of_lt hz hz1]

theorem ind_x_eq {i : Ind} (hi : 0 ≤ i.ind) (hz : 0 < i.nz) : i.x = i.ind / i.nz / i.ny := by
  unfold Ind.x
  rw [Int.tdiv_eq_ediv_of_nonneg hi, Int.tdiv_eq_ediv_of_nonneg (Int.ediv_nonneg hi (by omega))]
theorem ind_y_eq {i : Ind} (hi : 0 ≤ i.ind) (hz : 0 < i.nz) : i.y = i.ind / i.nz % i.ny := by
  unfold Ind.y
  rw [Int.tdiv_eq_ediv_of_nonneg hi, Int.tmod_eq_emod_of_nonneg (Int.ediv_nonneg hi (by omega))]
theorem ind_z_eq {i : Ind} (hi : 0 ≤ i.ind) : i.z = i.ind % i.nz := by
  unfold Ind.z
  rw [Int.tmod_eq_emod_of_nonneg hi]

/-- **C01** (one direction).  The index built for point `(x,y,z)` reports exactly `x`, `y`, `z`. -/
theorem C01_point_coordinates {ny nz x y z : Int} (h : InGrid ny nz x y z) :
    (pointInd ny nz x y z).x = x ∧ (pointInd ny nz x y z).y = y ∧ (pointInd ny nz x y z).z = z := by
  have h0 := flat_nonneg h
  have hz : 0 < nz := by have := h.z0; have := h.z1; omega
  have hy : 0 < ny := by have := h.y0; have := h.y1; omega
  refine ⟨?_, ?_, ?_⟩
  · rw [ind_x_eq (by exact h0) (by exact hz)]
    show flat ny nz x y z / nz / ny = x
    rw [flat_ediv_nz h, Int.add_comm, Int.add_mul_ediv_right _ _ (by omega),
      Int.ediv_eq_zero_of_lt h.y0 h.y1]
    omega
  · rw [ind_y_eq (by exact h0) (by exact hz)]
    show flat ny nz x y z / nz % ny = y
    rw [flat_ediv_nz h, Int.add_comm, Int.add_mul_emod_self_right, Int.emod_eq_of_lt h.y0 h.y1]
  · rw [ind_z_eq (by exact h0)]
    exact flat_emod_nz h

/-- **C01** (other direction).  Every non-negative flat index lies at the in-range point given by its
coordinates: the coordinates determine the index. -/
theorem C01_index_from_coordinates (i : Ind) (hi : 0 ≤ i.ind) (hy : 0 < i.ny) (hz : 0 < i.nz) :
    InGrid i.ny i.nz i.x i.y i.z ∧ i = pointInd i.ny i.nz i.x i.y i.z := by
  rw [ind_x_eq hi hz, ind_y_eq hi hz, ind_z_eq hi]
  refine ⟨⟨?_, ?_, ?_, ?_, ?_⟩, ?_⟩
  · exact Int.ediv_nonneg (Int.ediv_nonneg hi (by omega)) (by omega)
  · exact Int.emod_nonneg _ (by omega)
  · exact Int.emod_lt_of_pos _ hy
  · exact Int.emod_nonneg _ (by omega)
  · exact Int.emod_lt_of_pos _ hz
  · unfold pointInd flat
    ext <;> simp only
    have h1 := Int.mul_ediv_add_emod i.ind i.nz
    have h2 := Int.mul_ediv_add_emod (i.ind / i.nz) i.ny
    have : (i.ind / i.nz / i.ny * i.ny + i.ind / i.nz % i.ny) = i.ind / i.nz := by linarith
    rw [this]; linarith

/-- **C01** (no aliasing).  Distinct in-range points have distinct flat indices. -/
theorem C01_no_alias {ny nz x y z x' y' z' : Int} (h : InGrid ny nz x y z)
    (h' : InGrid ny nz x' y' z') (e : flat ny nz x y z = flat ny nz x' y' z') :
    x = x' ∧ y = y' ∧ z = z' := by
  have a := C01_point_coordinates h
  have b := C01_point_coordinates h'
  unfold pointInd at a b
  rw [e] at a
  exact ⟨a.1.symm.trans b.1, a.2.1.symm.trans b.2.1, a.2.2.symm.trans b.2.2⟩

example : InGrid 5 7 2 4 6 ∧ (pointInd 5 7 2 4 6).ind = 104 := by
  refine ⟨⟨?_, ?_, ?_, ?_, ?_⟩, ?_⟩ <;> decide

/-! ### C02 offsets -/

/-- **C02** `xp`/`xm` move x only (for any target `x`). -/
theorem C02_xp {ny nz x y z dx : Int} :
    (pointInd ny nz x y z).xp dx = pointInd ny nz (x + dx) y z ∧
    (pointInd ny nz x y z).xm dx = pointInd ny nz (x - dx) y z := by
  constructor <;> ext <;> simp [Ind.xp, Ind.xm, pointInd, flat] <;> ring

/-- **C02** `yp`/`ym` move y only. -/
theorem C02_yp {ny nz x y z dy : Int} :
    (pointInd ny nz x y z).yp dy = pointInd ny nz x (y + dy) z ∧
    (pointInd ny nz x y z).ym dy = pointInd ny nz x (y - dy) z := by
  constructor <;> ext <;> simp [Ind.yp, Ind.ym, pointInd, flat] <;> ring

/-- **C02** at `CHECK >= 4`, `yp` returns exactly when the target is in the y range. -/
theorem C02_ypChecked {ny nz x y z dy : Int} (h : InGrid ny nz x y z) :
    (0 ≤ y + dy ∧ y + dy < ny → (pointInd ny nz x y z).ypChecked dy = .ok (pointInd ny nz x (y + dy) z)) ∧
    (¬ (0 ≤ y + dy ∧ y + dy < ny) → ∃ m, (pointInd ny nz x y z).ypChecked dy = .error (.exc m)) := by
  have hy := (C01_point_coordinates h).2.1
  have y0 := h.y0
  have y1 := h.y1
  constructor
  · intro ht
    unfold Ind.ypChecked
    rw [hy, if_neg (by show ¬ (y + dy < 0 ∨ y + dy ≥ ny); omega),
      if_neg (by show ¬ ¬ ((dy.natAbs : Int) < ny); omega), C02_yp.1]
  · intro ht
    unfold Ind.ypChecked
    rw [hy, if_pos (by show (y + dy < 0 ∨ y + dy ≥ ny); omega)]
    exact ⟨_, rfl⟩

/-- Specification of a periodic move in z. -/
def zShift (nz z d : Int) : Int := (z + d) % nz

theorem zShift_inGrid {ny nz x y z : Int} (h : InGrid ny nz x y z) (d : Int) :
    InGrid ny nz x y (zShift nz z d) := by
  have hz : 0 < nz := by have := h.z0; have := h.z1; omega
  exact ⟨h.x0, h.y0, h.y1, Int.emod_nonneg _ (by omega), Int.emod_lt_of_pos _ hz⟩

/-- The reduced offset of `zp`/`zm`. -/
def redDz (nz d : Int) : Int := if d ≤ nz then d else d.tmod nz

theorem zp_mk (a ny nz d : Int) : (Ind.mk a ny nz).zp d = Ind.mk
    (if (a + redDz nz d).tmod nz < redDz nz d then a - nz + redDz nz d else a + redDz nz d) ny nz := rfl
theorem zm_mk (a ny nz d : Int) : (Ind.mk a ny nz).zm d = Ind.mk
    (if a.tmod nz < redDz nz d then a + nz - redDz nz d else a - redDz nz d) ny nz := rfl

/-- The reduction `dz <= nz ? dz : dz % nz` keeps the offset in `[0, nz]` and congruent to it. -/
theorem reduce_dz {nz d : Int} (hz : 0 < nz) (hd : 0 ≤ d) :
    0 ≤ redDz nz d ∧ redDz nz d ≤ nz ∧ ∀ a, (a + redDz nz d) % nz = (a + d) % nz := by
  unfold redDz
  split
  · rename_i h; exact ⟨hd, h, fun _ => rfl⟩
  · rw [Int.tmod_eq_emod_of_nonneg hd]
    have := Int.emod_lt_of_pos d hz
    have := Int.emod_nonneg d (show nz ≠ 0 by omega)
    refine ⟨by omega, by omega, fun a => ?_⟩
    rw [Int.add_emod_emod]

/-- **C02** `zp(d)` keeps x and y and moves z by `+d` modulo `nz`, for every `d ≥ 0`. -/
theorem C02_zp {ny nz x y z d : Int} (h : InGrid ny nz x y z) (hd : 0 ≤ d) :
    (pointInd ny nz x y z).zp d = pointInd ny nz x y (zShift nz z d) := by
  have hz : 0 < nz := by have := h.z0; have := h.z1; omega
  obtain ⟨e0, e1, econg⟩ := reduce_dz hz hd
  unfold zShift pointInd
  rw [zp_mk, ← econg z]
  generalize redDz nz d = e at *
  have h0 := flat_nonneg h
  have hm : (flat ny nz x y z + e).tmod nz = (z + e) % nz := by
    rw [Int.tmod_eq_emod_of_nonneg (by omega), Int.add_emod, flat_emod_nz h, Int.add_emod_emod]
  ext <;> simp only
  rw [hm]
  have z0 := h.z0
  have z1 := h.z1
  by_cases hlt : z + e < nz
  · rw [Int.emod_eq_of_lt (by omega) hlt, if_neg (by omega)]
    unfold flat; ring
  · have : (z + e) % nz = z + e - nz := by
      rw [← Int.sub_emod_right]
      exact Int.emod_eq_of_lt (by omega) (by omega)
    rw [this, if_pos (by omega)]
    unfold flat; ring

/-- **C02** `zm(d)` keeps x and y and moves z by `-d` modulo `nz`, for every `d ≥ 0`. -/
theorem C02_zm {ny nz x y z d : Int} (h : InGrid ny nz x y z) (hd : 0 ≤ d) :
    (pointInd ny nz x y z).zm d = pointInd ny nz x y (zShift nz z (-d)) := by
  have hz : 0 < nz := by have := h.z0; have := h.z1; omega
  obtain ⟨e0, e1, econg⟩ := reduce_dz hz hd
  have econg' : (z - d) % nz = (z - redDz nz d) % nz := by
    have h1 := econg 0
    simp only [Int.zero_add] at h1
    exact Int.ModEq.sub (Int.ModEq.refl (n := nz) z) h1.symm
  unfold zShift pointInd
  rw [zm_mk, ← Int.sub_eq_add_neg, econg']
  generalize redDz nz d = e at *
  have h0 := flat_nonneg h
  have hm : (flat ny nz x y z).tmod nz = z := by
    rw [Int.tmod_eq_emod_of_nonneg (by omega), flat_emod_nz h]
  ext <;> simp only
  rw [hm]
  have z0 := h.z0
  have z1 := h.z1
  by_cases hlt : z < e
  · have : (z - e) % nz = z - e + nz := by
      rw [← Int.add_emod_right]
      exact Int.emod_eq_of_lt (by omega) (by omega)
    rw [this, if_pos hlt]
    unfold flat; ring
  · rw [Int.emod_eq_of_lt (by omega) (by omega), if_neg hlt]
    unfold flat; ring

/-- **C02** `zm(d)` undoes `zp(d)` and `zp(d)` undoes `zm(d)`, on every index of the grid. -/
theorem C02_zp_zm_inverse (i : Ind) (hi : 0 ≤ i.ind) (hy : 0 < i.ny) (hz : 0 < i.nz) (d : Int)
    (hd : 0 ≤ d) : (i.zp d).zm d = i ∧ (i.zm d).zp d = i := by
  obtain ⟨hg, he⟩ := C01_index_from_coordinates i hi hy hz
  have z0 := hg.z0
  have z1 := hg.z1
  have key : ∀ a, zShift i.nz (zShift i.nz i.z a) (-a) = i.z := by
    intro a
    unfold zShift
    rw [Int.emod_add_emod, Int.add_neg_cancel_right, Int.emod_eq_of_lt z0 z1]
  constructor
  · conv_lhs => rw [he]
    rw [C02_zp hg hd, C02_zm (zShift_inGrid hg d) hd, key, ← he]
  · conv_lhs => rw [he]
    rw [C02_zm hg hd, C02_zp (zShift_inGrid hg (-d)) hd]
    have := key (-d)
    rw [Int.neg_neg] at this
    rw [this, ← he]

/-- **C02** `offset(dx,dy,dz)`, for any signs, is the combined move with z periodic. -/
theorem C02_offset {ny nz x y z : Int} (h : InGrid ny nz x y z) (dx dy dz : Int) :
    (pointInd ny nz x y z).offset dx dy dz = pointInd ny nz (x + dx) (y + dy) (zShift nz z dz) := by
  unfold Ind.offset
  simp only
  split
  · rw [C02_zp h (by omega), C02_yp.1, C02_xp.1]
  · rw [C02_zm h (by omega), C02_yp.1, C02_xp.1, Int.neg_neg]

example : InGrid 4 8 1 2 6 ∧ (pointInd 4 8 1 2 6).zp 19 = pointInd 4 8 1 2 1 ∧
    (pointInd 4 8 1 2 6).zm 8 = pointInd 4 8 1 2 6 := by
  refine ⟨⟨?_, ?_, ?_, ?_, ?_⟩, ?_, ?_⟩ <;> decide

end Verif.Region
