/-
C39: the hypotheses are met.
-/
import Verif.Indexer.Layout

namespace Verif.Indexer
open Verif.Region Verif.MeshRegions

/-- Any list of ranks with regions of a mesh, whose stencils cover their interior, can be numbered. -/
theorem C39_ranks_exist (ins : List (Regions × List Stencil)) (ok : ∀ R ∈ ins, RegionsOk R.1)
    (cover : ∀ R ∈ ins, ∀ i ∈ iterate R.1.nobndry.blocks, ∃ x ∈ R.2, x.test i = true) : ∃ W : Ranks, W.ins = ins := by
  have h : ∀ l : List (Regions × List Stencil), (∀ R ∈ l, R ∈ ins) → ∃ out : List Built, l.length = out.length ∧
      ∀ r : Nat, ∀ h1 : r < l.length, ∀ h2 : r < out.length, build (l[r]).1 (l[r]).2 = .ok (out[r]) := by
    intro l
    induction l with
    | nil => exact fun _ => ⟨[], rfl, by simp⟩
    | cons R l ih =>
      intro hl
      obtain ⟨out, h1, h2⟩ := ih (fun S hS => hl S (by simp [hS]))
      have hR := hl R (by simp)
      obtain ⟨b, hb⟩ := (C39_construction R.1 R.2 (ok R hR)).2 (Or.inr (cover R hR))
      refine ⟨b :: out, by simp [h1], ?_⟩
      intro r hr1 hr2
      cases r with
      | zero => simpa using hb
      | succ r => simpa using h2 r (by simpa using hr1) (by simpa using hr2)
  obtain ⟨out, h1, h2⟩ := h ins (fun _ hR => hR)
  exact ⟨⟨ins, out, ok, h1, h2⟩, rfl⟩

/-- A local mesh of 2 x 2 x 2 interior points with one X and one Y guard cell. -/
def smallMesh : Local := ⟨4, 4, 2, 1, 2, 1, 2, 0, 1, 64⟩

example : Valid smallMesh := by constructor <;> decide

/-- A five point stencil in X and Z. -/
def cross : List Stencil := [⟨fun _ => true, [⟨0, 0, 0⟩, ⟨1, 0, 0⟩, ⟨-1, 0, 0⟩, ⟨0, 0, 1⟩, ⟨0, 0, -1⟩]⟩]

/-- Two ranks side by side: the left one at the inner X boundary, the right one at the outer boundary. -/
example : ∃ (N : Named) (B B' : Boundaries) (W : Ranks), default3D smallMesh = .ok N ∧
    W.ins = [(fieldRegions N B, cross), (fieldRegions N B', cross)] := by
  have v : Valid smallMesh := by constructor <;> decide
  obtain ⟨N, B, hN, _, h1⟩ := C39_mesh_regions_3D smallMesh v
    ⟨true, false, true, true, false, true, ⟨-1, -1, 0⟩, ⟨-1, -1, 0⟩⟩
  obtain ⟨N', B', hN', _, h2⟩ := C39_mesh_regions_3D smallMesh v
    ⟨false, true, true, true, false, true, ⟨-1, -1, 0⟩, ⟨-1, -1, 0⟩⟩
  obtain rfl : N = N' := by rw [hN] at hN'; injection hN'
  obtain ⟨W, hW⟩ := C39_ranks_exist [(fieldRegions N B, cross), (fieldRegions N B', cross)]
    (by intro R hR; simp at hR; rcases hR with rfl | rfl <;> assumption)
    (by intro R hR i _; simp at hR; rcases hR with rfl | rfl <;> exact ⟨_, by simp [cross]; rfl, rfl⟩)
  exact ⟨N, B, B', W, hN, hW⟩

/-- **C45, violated.** With periodic X the X guard columns are copies of the columns at the other end, yet with corner cells the lower Y boundary
region of the first rank contains guard columns (boutmesh.cxx:2444-2451 do not test `periodicX`): here both the cell `(0, 0, 0)`
and the cell `(2, 0, 0)` that it is a copy of. -/
theorem C45_periodic_x_corner_violated : ∃ (N : Named) (B : Boundaries) (P : Place), default3D smallMesh = .ok N ∧
    P.periodicX = true ∧ P.firstX = true ∧ P.lastX = true ∧
    boundaries smallMesh P .ind3D 1 2 N.nobndry = .ok B ∧ pointInd 4 2 0 0 0 ∈ B.lower.indices ∧
    pointInd 4 2 2 0 0 ∈ B.lower.indices := by
  have v : Valid smallMesh := by constructor <;> decide
  obtain ⟨N, hN, _⟩ := C45_default_3D smallMesh v
  obtain ⟨B, hB, hok⟩ := C45_boundaries_3D smallMesh v
    ⟨true, true, true, true, true, true, ⟨-1, -1, 0⟩, ⟨-1, -1, 0⟩⟩ N hN
  refine ⟨N, B, _, hN, rfl, rfl, rfl, hB, (hok.lower.mem _).2 ⟨0, 0, 0, ?_, rfl⟩, (hok.lower.mem _).2 ⟨2, 0, 0, ?_, rfl⟩⟩
  · unfold Lower BndryColumn YSide.Neighbour Local.inX smallMesh; simp
  · unfold Lower BndryColumn YSide.Neighbour Local.inX smallMesh; simp

end Verif.Indexer
