/-
C39: the regions of a mesh satisfy what the indexer needs.
-/
import Verif.Indexer.Props
import Verif.Mesh.RegionsBndry

namespace Verif.Indexer
open Verif.Region Verif.MeshRegions

theorem disjoint_pts {ny nz : Int} {r s : Region} {P Q : Int → Int → Int → Prop} (hr : Rep ny nz r P) (hs : Rep ny nz s Q)
    (hP : Inside ny nz P) (hQ : Inside ny nz Q) (hd : ∀ x y z, P x y z → ¬ Q x y z) : ∀ n, n ∈ pts r → n ∉ pts s := by
  intro n hn hm
  obtain ⟨i, hi, rfl⟩ := List.mem_map.1 hn
  obtain ⟨x, y, z, hp, rfl⟩ := (hr i).1 hi
  exact hd x y z hp ((mem_pts hs hQ (hP _ _ _ hp)).1 hm)

theorem nodup_pts {ny nz : Int} {r : Region} {P : Int → Int → Int → Prop} (h : Is ny nz r P) : (pts r).Nodup :=
  List.pairwise_map.2 (h.order.imp (fun hlt => ne_of_lt hlt))

/-- The regions that the indexer of a `Field3D` (or `Field2D`) reads. -/
def fieldRegions (N : Named) (B : Boundaries) : Regions := ⟨N.nobndry, B.inner, B.outer, B.lower, B.upper, false⟩

/-- The regions that the indexer of a `FieldPerp` reads; the Y boundaries are not used. -/
def perpRegions (N : Named) (B : Region × Region) : Regions := ⟨N.nobndry, B.1, B.2, {}, {}, true⟩

theorem regionsOk_of {L : Local} {P : Place} (h : Valid L) {nz zmax : Int} {inZ : Int → Prop} {N : Named} {B : Boundaries}
    (hz : zmax < nz) (hn : Is L.LocalNy nz N.nobndry (fun x y z => L.inX x ∧ L.inY y ∧ inZ z))
    (hin : InStep N.nobndry) (hB : BoundariesOk L P nz zmax inZ B) : RegionsOk (fieldRegions N B) := by
  have hv := h
  obtain ⟨x0, x1, x2, y0, y1, y2, z0, z1, z2, mb⟩ := h
  have iI : Inside L.LocalNy nz (fun x y z => Inner L P x y ∧ 0 ≤ z ∧ z ≤ zmax) := by
    rintro x y z ⟨⟨_, _, hy⟩, _⟩; unfold Local.inY at hy; constructor <;> omega
  have iO : Inside L.LocalNy nz (fun x y z => Outer L P x y ∧ 0 ≤ z ∧ z ≤ zmax) := by
    rintro x y z ⟨⟨_, _, hy⟩, _⟩; unfold Local.inY at hy; constructor <;> omega
  have iL : Inside L.LocalNy nz (fun x y z => Lower L P x y ∧ 0 ≤ z ∧ z ≤ zmax) := by
    rintro x y z ⟨⟨hc, hy⟩, _⟩; have := column_range hv hc; unfold Local.anyX at this; constructor <;> omega
  have iU : Inside L.LocalNy nz (fun x y z => Upper L P x y ∧ 0 ≤ z ∧ z ≤ zmax) := by
    rintro x y z ⟨⟨hc, hy⟩, _⟩; have := column_range hv hc; unfold Local.anyX at this; constructor <;> omega
  refine ⟨nodup_pts hn, hin, ?_, ?_, ?_, ?_, ?_, ?_⟩
  · exact disjoint_pts hB.inner.mem hB.outer.mem iI iO (by rintro x y z ⟨⟨_, a, _⟩, _⟩ ⟨⟨_, b, _⟩, _⟩; omega)
  · exact disjoint_pts hB.lower.mem hB.inner.mem iL iI (by
      rintro x y z ⟨⟨_, a⟩, _⟩ ⟨⟨_, _, b⟩, _⟩; unfold Local.inY at b; omega)
  · exact disjoint_pts hB.lower.mem hB.outer.mem iL iO (by
      rintro x y z ⟨⟨_, a⟩, _⟩ ⟨⟨_, _, b⟩, _⟩; unfold Local.inY at b; omega)
  · exact disjoint_pts hB.lower.mem hB.upper.mem iL iU (by rintro x y z ⟨⟨_, a⟩, _⟩ ⟨⟨_, b⟩, _⟩; omega)
  · exact disjoint_pts hB.inner.mem hB.upper.mem iI iU (by
      rintro x y z ⟨⟨_, _, b⟩, _⟩ ⟨⟨_, a⟩, _⟩; unfold Local.inY at b; omega)
  · exact disjoint_pts hB.outer.mem hB.upper.mem iO iU (by
      rintro x y z ⟨⟨_, _, b⟩, _⟩ ⟨⟨_, a⟩, _⟩; unfold Local.inY at b; omega)

/-- **C39.** Every mesh's regions are fit for the indexer of a `Field3D`. -/
theorem C39_mesh_regions_3D (L : Local) (h : Valid L) (P : Place) : ∃ N B, default3D L = .ok N ∧
    boundaries L P .ind3D (L.LocalNz - 1) L.LocalNz N.nobndry = .ok B ∧ RegionsOk (fieldRegions N B) := by
  obtain ⟨N, hN, _, hn, _⟩ := C45_default_3D L h
  obtain ⟨B, hB, hok⟩ := C45_boundaries_3D L h P N hN
  refine ⟨N, B, hN, hB, regionsOk_of h (by omega) hn ?_ hok⟩
  have e := hN
  unfold default3D at e
  have y0 := h.y0; have y1 := h.y1; have y2 := h.y2; have z0 := h.z0; have z1 := h.z1; have z2 := h.z2
  have eb : ∀ xs xe ys ye zs ze, Region.ofBox .ind3D xs xe ys ye zs ze L.LocalNy L.LocalNz L.maxb =
      .ok (boxRegion xs xe ys ye zs ze L.LocalNy L.LocalNz L.maxb) :=
    fun xs xe ys ye zs ze => ofBox_eq xs xe ys ye zs ze L.LocalNy L.LocalNz L.maxb (by omega) (by omega) h.mb
  simp only [eb, bind, Except.bind, pure, Except.pure, Except.ok.injEq] at e
  rw [← e]
  exact iterate_map_ind _ _

/-- **C39.** And for a `Field2D`. -/
theorem C39_mesh_regions_2D (L : Local) (h : Valid L) (P : Place) : ∃ N B, default2D L = .ok N ∧
    boundaries L P .ind2D 0 1 N.nobndry = .ok B ∧ RegionsOk (fieldRegions N B) := by
  obtain ⟨N, hN, _, hn, _⟩ := C45_default_2D L h
  obtain ⟨B, hB, hok⟩ := C45_boundaries_2D L h P N hN
  refine ⟨N, B, hN, hB, regionsOk_of h (by omega) hn ?_ hok⟩
  have e := hN
  unfold default2D at e
  have y0 := h.y0; have y1 := h.y1; have y2 := h.y2
  have eb : ∀ xs xe ys ye ze, Region.ofBox .ind2D xs xe ys ye 0 ze L.LocalNy 1 L.maxb =
      .ok (boxRegion xs xe ys ye 0 ze L.LocalNy 1 L.maxb) :=
    fun xs xe ys ye ze => ofBox_2D xs xe ys ye ze L.LocalNy L.maxb (by omega) h.mb
  simp only [eb, bind, Except.bind, pure, Except.pure, Except.ok.injEq] at e
  rw [← e]
  exact iterate_map_ind _ _

/-- **C39.** And for a `FieldPerp`. -/
theorem C39_mesh_regions_perp (L : Local) (h : Valid L) (P : Place) : ∃ N B, defaultPerp L = .ok N ∧
    boundariesPerp L P = .ok B ∧ RegionsOk (perpRegions N B) := by
  obtain ⟨N, hN, _, hn, _⟩ := C45_default_perp L h
  obtain ⟨B, hB, hi, ho⟩ := C45_boundaries_perp L h P
  have hv := h
  obtain ⟨x0, x1, x2, y0, y1, y2, z0, z1, z2, mb⟩ := h
  refine ⟨N, B, hN, hB, nodup_pts hn, ?_, ?_, ?_, ?_, ?_, ?_, ?_⟩
  · have e := hN
    unfold defaultPerp at e
    have eb : ∀ xs xe ye zs ze, Region.ofBox .indPerp xs xe 0 ye zs ze 1 L.LocalNz L.maxb =
        .ok (boxRegion xs xe 0 ye zs ze 1 L.LocalNz L.maxb) :=
      fun xs xe ye zs ze => ofBox_perp xs xe ye zs ze L.LocalNz L.maxb (by omega) mb
    simp only [eb, bind, Except.bind, pure, Except.pure, Except.ok.injEq] at e
    rw [← e]
    exact iterate_map_ind _ _
  · refine disjoint_pts hi.mem ho.mem ?_ ?_ ?_
    · rintro x y z ⟨_, _, _, hz⟩; unfold Local.anyZ at hz; constructor <;> omega
    · rintro x y z ⟨_, _, _, hz⟩; unfold Local.anyZ at hz; constructor <;> omega
    · rintro x y z ⟨_, a, _⟩ ⟨_, b, _⟩; omega
  all_goals intro n hn hm
  all_goals first
    | (exact absurd hn (List.not_mem_nil))
    | (exact absurd hm (List.not_mem_nil))

end Verif.Indexer
