/-
C39: every accepted layout carries an indexer.
-/
import Verif.Indexer.Guard
import Verif.Indexer.Example

namespace Verif.Indexer
open Verif.Region Verif.MeshRegions Verif.Comm Verif.Mesh

/-- The local sizes of every rank of a layout. -/
def localOf (c : Cfg) (nz : Nat) : Local :=
  ⟨c.LocalNx, c.LocalNy, nz, c.xstart, c.xend, c.ystart, c.yend, 0, nz - 1, 64⟩

/-- **C39.** The hypotheses of the theorems about guard cells are met on every accepted layout, by every stencil that covers the interior: an indexer
of a `Field3D` exists. -/
theorem C39_indexer_exists (c : Cfg) (h : Layout c) (nz : Nat) (hnz : 0 < nz) (corners : Bool) (st : List Stencil)
    (cover : ∀ i, ∃ x ∈ st, x.test i = true) : ∃ W : Ranks, Nonempty (OnMesh c W nz) := by
  obtain ⟨_, hMX, _, hM⟩ := h.sizes.split
  have gx := h.sizes.mxg
  have gy := h.sizes.myg
  have v : Valid (localOf c nz) := by
    unfold localOf Cfg.LocalNx Cfg.LocalNy Cfg.xstart Cfg.xend Cfg.ystart Cfg.yend
    constructor <;> simp only <;> omega
  obtain ⟨N, hN, _, hn, _⟩ := C45_default_3D (localOf c nz) v
  have hB : ∀ q, ∃ B, boundaries (localOf c nz) (placeOf c corners q) .ind3D ((nz : Int) - 1) nz N.nobndry = .ok B ∧
      BoundariesOk (localOf c nz) (placeOf c corners q) nz ((nz : Int) - 1) (localOf c nz).inZ B ∧
      RegionsOk (fieldRegions N B) := by
    intro q
    obtain ⟨N', B, hN', hB, hr⟩ := C39_mesh_regions_3D (localOf c nz) v (placeOf c corners q)
    obtain rfl : N = N' := by rw [hN] at hN'; injection hN'
    obtain ⟨B', hB', hok⟩ := C45_boundaries_3D (localOf c nz) v (placeOf c corners q) N hN
    obtain rfl : B = B' := by rw [hB] at hB'; injection hB'
    exact ⟨B, hB, hok, hr⟩
  choose B hB1 hB2 hB3 using hB
  let pos : Nat → Int × Int := fun r => (c.peX r, c.peY r)
  let ins : List (Regions × List Stencil) := (List.range (c.NXPE * c.NYPE).toNat).map fun r => (fieldRegions N (B (pos r)), st)
  obtain ⟨W, hW⟩ := C39_ranks_exist ins
    (by intro R hR; obtain ⟨r, _, rfl⟩ := List.mem_map.1 hR; exact hB3 _)
    (by intro R hR i _; obtain ⟨r, _, rfl⟩ := List.mem_map.1 hR; exact cover i)
  refine ⟨W, ⟨⟨localOf c nz, corners, fun q => fieldRegions N (B q), fun _ => st, v, rfl, rfl, rfl, rfl, rfl, rfl, ?_,
    (localOf c nz).inZ, ?_, ?_, ?_, ?_, ?_, ?_⟩⟩⟩
  · intro q hq
    obtain ⟨r0, r1, r2, r3⟩ := (C16_proc_num_bijection c h.sizes.nxpe h.sizes.nype).1 q.1 q.2 hq.1 hq.2.1 hq.2.2.1 hq.2.2.2
    rw [hW]
    show ins[(c.PROC_NUM q.1 q.2).toNat]? = _
    have hl : (c.PROC_NUM q.1 q.2).toNat < (c.NXPE * c.NYPE).toNat := by omega
    simp only [ins, List.getElem?_map, List.getElem?_range hl, Option.map_some, pos, Int.toNat_of_nonneg r0, r2, r3]
  · intro z hz; unfold Local.inZ localOf at hz; simp only at hz; omega
  · intro q _; exact hn
  · intro q _; exact (hB2 q).lower
  · intro q _; exact (hB2 q).upper
  · intro q _; exact (hB2 q).inner
  · intro q _; exact (hB2 q).outer

end Verif.Indexer
