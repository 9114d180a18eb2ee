/-
C45: the named regions of a mesh are the sets of points their names promise.
-/
import Verif.Mesh.Regions
import Mathlib.Tactic.SplitIfs
import Mathlib.Tactic.Ring

namespace Verif.MeshRegions
open Verif.Region

/-- The region consists of the points satisfying `P`, each once, in increasing order. -/
structure Is (ny nz : Int) (r : Region) (P : Int → Int → Int → Prop) : Prop where
  mem : ∀ i, i ∈ r.indices ↔ ∃ x y z, P x y z ∧ i = pointInd ny nz x y z
  order : r.indices.Pairwise (fun i j => i.ind < j.ind)

/-- As `Is`, without the order. -/
def Rep (ny nz : Int) (r : Region) (P : Int → Int → Int → Prop) : Prop :=
  ∀ i, i ∈ r.indices ↔ ∃ x y z, P x y z ∧ i = pointInd ny nz x y z

/-- All points are on the grid. -/
def Inside (ny nz : Int) (P : Int → Int → Int → Prop) : Prop := ∀ x y z, P x y z → InGrid ny nz x y z

theorem rep_box (xs xe ys ye zs ze ny nz maxb : Int) :
    Rep ny nz (boxRegion xs xe ys ye zs ze ny nz maxb)
      (fun x y z => (xs ≤ x ∧ x ≤ xe) ∧ (ys ≤ y ∧ y ≤ ye) ∧ (zs ≤ z ∧ z ≤ ze)) := by
  intro i
  refine (mem_xBox).trans ?_
  constructor
  · rintro ⟨x, y, z, h1, h2, h3, h4, h5, h6, e⟩
    exact ⟨x, y, z, ⟨⟨h1, h2⟩, ⟨h3, h4⟩, h5, h6⟩, e⟩
  · rintro ⟨x, y, z, ⟨⟨h1, h2⟩, ⟨h3, h4⟩, h5, h6⟩, e⟩
    exact ⟨x, y, z, h1, h2, h3, h4, h5, h6, e⟩

theorem box_increasing (xs xe ys ye zs ze ny nz maxb : Int) (hny : 0 < ny) (hnz : 0 < nz) (hmax : 0 < maxb)
    (hy0 : 0 ≤ ys) (hy1 : ye < ny) (hz0 : 0 ≤ zs) (hz1 : ze < nz) :
    (boxRegion xs xe ys ye zs ze ny nz maxb).indices.Pairwise (fun i j => i.ind < j.ind) := by
  obtain ⟨r, h1, h2⟩ := C03_box_region_increasing xs xe ys ye zs ze ny nz maxb hny hnz hmax hy0 hy1 hz0 hz1
  rw [ofBox_eq xs xe ys ye zs ze ny nz maxb hny hnz hmax] at h1
  injection h1 with h1
  exact h1 ▸ h2

theorem is_box (xs xe ys ye zs ze ny nz maxb : Int) (hny : 0 < ny) (hnz : 0 < nz) (hmax : 0 < maxb)
    (hy0 : 0 ≤ ys) (hy1 : ye < ny) (hz0 : 0 ≤ zs) (hz1 : ze < nz) :
    Is ny nz (boxRegion xs xe ys ye zs ze ny nz maxb)
      (fun x y z => (xs ≤ x ∧ x ≤ xe) ∧ (ys ≤ y ∧ y ≤ ye) ∧ (zs ≤ z ∧ z ≤ ze)) :=
  ⟨rep_box _ _ _ _ _ _ _ _ _, box_increasing _ _ _ _ _ _ _ _ _ hny hnz hmax hy0 hy1 hz0 hz1⟩

theorem ofBox_2D (xs xe ys ye ze ny maxb : Int) (hny : 0 < ny) (hmax : 0 < maxb) :
    Region.ofBox .ind2D xs xe ys ye 0 ze ny 1 maxb = .ok (boxRegion xs xe ys ye 0 ze ny 1 maxb) := by
  unfold Region.ofBox
  rw [createRegionIndices_eq xs xe ys ye 0 ze ny 1 hny (by omega)]
  simp [hmax, boxRegion]

theorem ofBox_perp (xs xe ye zs ze nz maxb : Int) (hnz : 0 < nz) (hmax : 0 < maxb) :
    Region.ofBox .indPerp xs xe 0 ye zs ze 1 nz maxb = .ok (boxRegion xs xe 0 ye zs ze 1 nz maxb) := by
  unfold Region.ofBox
  rw [createRegionIndices_eq xs xe 0 ye zs ze 1 nz (by omega) hnz]
  simp [hmax, boxRegion]

theorem rep_add {ny nz : Int} {r s : Region} {P Q : Int → Int → Int → Prop} (hr : Rep ny nz r P) (hs : Rep ny nz s Q) :
    Rep ny nz (r.add s) (fun x y z => P x y z ∨ Q x y z) := by
  intro i
  rw [C05_add, List.mem_append, hr i, hs i]
  constructor
  · rintro (⟨x, y, z, h, e⟩ | ⟨x, y, z, h, e⟩)
    · exact ⟨x, y, z, Or.inl h, e⟩
    · exact ⟨x, y, z, Or.inr h, e⟩
  · rintro ⟨x, y, z, h | h, e⟩
    · exact Or.inl ⟨x, y, z, h, e⟩
    · exact Or.inr ⟨x, y, z, h, e⟩

theorem mem_pts {ny nz : Int} {r : Region} {P : Int → Int → Int → Prop} (hr : Rep ny nz r P) (hP : Inside ny nz P)
    {x y z : Int} (hg : InGrid ny nz x y z) : flat ny nz x y z ∈ r.indices.map Ind.ind ↔ P x y z := by
  simp only [List.mem_map]
  constructor
  · rintro ⟨i, hi, e⟩
    obtain ⟨x', y', z', h, rfl⟩ := (hr i).1 hi
    obtain ⟨rfl, rfl, rfl⟩ := C01_no_alias (hP _ _ _ h) hg e
    exact h
  · exact fun h => ⟨_, (hr _).2 ⟨x, y, z, h, rfl⟩, rfl⟩

theorem is_mask {ny nz : Int} {r s : Region} {P Q : Int → Int → Int → Prop} (hr : Is ny nz r P) (hs : Rep ny nz s Q)
    (hP : Inside ny nz P) (hQ : Inside ny nz Q) : Is ny nz (r.mask s) (fun x y z => P x y z ∧ ¬ Q x y z) := by
  constructor
  · intro i
    rw [C05_mask, List.mem_filter, hr.mem i, decide_eq_true_eq]
    constructor
    · rintro ⟨⟨x, y, z, h, rfl⟩, hn⟩
      exact ⟨x, y, z, ⟨h, fun hq => hn ((mem_pts hs hQ (hP _ _ _ h)).2 hq)⟩, rfl⟩
    · rintro ⟨x, y, z, ⟨h, hn⟩, rfl⟩
      exact ⟨⟨x, y, z, h, rfl⟩, fun hq => hn ((mem_pts hs hQ (hP _ _ _ h)).1 hq)⟩
  · rw [C05_mask]
    exact hr.order.sublist List.filter_sublist

theorem is_unique {ny nz : Int} {r : Region} {P : Int → Int → Int → Prop} (hr : Rep ny nz r P) (hP : Inside ny nz P) :
    Is ny nz r.asUnique P := by
  obtain ⟨h1, h2, h3⟩ := C05_unique r
  refine ⟨fun i => ⟨fun hi => (hr i).1 (h3 i hi), ?_⟩, h1⟩
  rintro ⟨x, y, z, h, rfl⟩
  have hm := (h2 _).2 ((mem_pts hr hP (hP _ _ _ h)).2 h)
  obtain ⟨i, hi, e⟩ := List.mem_map.1 hm
  obtain ⟨x', y', z', h', rfl⟩ := (hr i).1 (h3 i hi)
  obtain ⟨rfl, rfl, rfl⟩ := C01_no_alias (hP _ _ _ h') (hP _ _ _ h) e
  exact hi

theorem Is.congr {ny nz : Int} {r : Region} {P Q : Int → Int → Int → Prop} (h : Is ny nz r P)
    (e : ∀ x y z, P x y z ↔ Q x y z) : Is ny nz r Q := by
  have : P = Q := by funext x y z; exact propext (e x y z)
  exact this ▸ h

theorem Rep.congr {ny nz : Int} {r : Region} {P Q : Int → Int → Int → Prop} (h : Rep ny nz r P)
    (e : ∀ x y z, P x y z ↔ Q x y z) : Rep ny nz r Q := by
  have : P = Q := by funext x y z; exact propext (e x y z)
  exact this ▸ h

/-- Concatenation of two increasing regions, the first before the second. -/
theorem is_add {ny nz : Int} {r s : Region} {P Q : Int → Int → Int → Prop} (hr : Is ny nz r P) (hs : Is ny nz s Q)
    (h : ∀ x y z x' y' z', P x y z → Q x' y' z' → flat ny nz x y z < flat ny nz x' y' z') :
    Is ny nz (r.add s) (fun x y z => P x y z ∨ Q x y z) := by
  refine ⟨rep_add hr.mem hs.mem, ?_⟩
  rw [C05_add, List.pairwise_append]
  refine ⟨hr.order, hs.order, ?_⟩
  intro i hi j hj
  obtain ⟨x, y, z, hp, rfl⟩ := (hr.mem i).1 hi
  obtain ⟨x', y', z', hq, rfl⟩ := (hs.mem j).1 hj
  exact h _ _ _ _ _ _ hp hq

/-! ## The default regions -/

/-- Local sizes make sense: the interior is a non-empty box within the local grid. -/
structure Valid (L : Local) : Prop where
  x0 : 0 ≤ L.xstart
  x1 : L.xstart ≤ L.xend
  x2 : L.xend < L.LocalNx
  y0 : 0 ≤ L.ystart
  y1 : L.ystart ≤ L.yend
  y2 : L.yend < L.LocalNy
  z0 : 0 ≤ L.zstart
  z1 : L.zstart ≤ L.zend
  z2 : L.zend < L.LocalNz
  mb : 0 < L.maxb

/-- In the interior range of a coordinate / in the local range of a coordinate. -/
def Local.inX (L : Local) (x : Int) : Prop := L.xstart ≤ x ∧ x ≤ L.xend
def Local.inY (L : Local) (y : Int) : Prop := L.ystart ≤ y ∧ y ≤ L.yend
def Local.inZ (L : Local) (z : Int) : Prop := L.zstart ≤ z ∧ z ≤ L.zend
def Local.anyX (L : Local) (x : Int) : Prop := 0 ≤ x ∧ x < L.LocalNx
def Local.anyY (L : Local) (y : Int) : Prop := 0 ≤ y ∧ y < L.LocalNy
def Local.anyZ (L : Local) (z : Int) : Prop := 0 ≤ z ∧ z < L.LocalNz

macro "region_pred" : tactic => `(tactic| (
  intro x y z
  (try simp only [iff_false])
  (try simp only [Local.inX, Local.inY, Local.inZ, Local.anyX, Local.anyY, Local.anyZ]) <;> omega))

macro "region_inside" : tactic => `(tactic| (
  rintro x y z hxyz
  (try simp only [Local.inX, Local.inY, Local.inZ, Local.anyX, Local.anyY, Local.anyZ] at hxyz)
  constructor <;> omega))

/-- **C45.** The default 3D regions: `RGN_ALL` is the whole local grid, `RGN_NOBNDRY` the interior, `RGN_NOX/NOY/NOZ` leave out the
guards in one direction, `RGN_GUARDS` is all minus the interior, `RGN_XGUARDS` etc. are the guard cells in one direction only, and
`RGN_NOCORNERS` has the points outside the interior in at most one direction. -/
theorem C45_default_3D (L : Local) (h : Valid L) : ∃ N, default3D L = .ok N ∧
    Is L.LocalNy L.LocalNz N.all (fun x y z => L.anyX x ∧ L.anyY y ∧ L.anyZ z) ∧
    Is L.LocalNy L.LocalNz N.nobndry (fun x y z => L.inX x ∧ L.inY y ∧ L.inZ z) ∧
    Is L.LocalNy L.LocalNz N.nox (fun x y z => L.inX x ∧ L.anyY y ∧ L.anyZ z) ∧
    Is L.LocalNy L.LocalNz N.noy (fun x y z => L.anyX x ∧ L.inY y ∧ L.anyZ z) ∧
    Is L.LocalNy L.LocalNz N.noz (fun x y z => L.anyX x ∧ L.anyY y ∧ L.inZ z) ∧
    Is L.LocalNy L.LocalNz N.guards (fun x y z => (L.anyX x ∧ L.anyY y ∧ L.anyZ z) ∧ ¬ (L.inX x ∧ L.inY y ∧ L.inZ z)) ∧
    Rep L.LocalNy L.LocalNz N.xguards (fun x y z => (L.anyX x ∧ ¬ L.inX x) ∧ L.inY y ∧ L.inZ z) ∧
    Rep L.LocalNy L.LocalNz N.yguards (fun x y z => L.inX x ∧ (L.anyY y ∧ ¬ L.inY y) ∧ L.inZ z) ∧
    Rep L.LocalNy L.LocalNz N.zguards (fun x y z => L.inX x ∧ L.inY y ∧ (L.anyZ z ∧ ¬ L.inZ z)) ∧
    Is L.LocalNy L.LocalNz N.nocorners (fun x y z => (L.anyX x ∧ L.anyY y ∧ L.anyZ z) ∧
      ((L.inX x ∧ L.inY y) ∨ (L.inX x ∧ L.inZ z) ∨ (L.inY y ∧ L.inZ z))) := by
  obtain ⟨x0, x1, x2, y0, y1, y2, z0, z1, z2, mb⟩ := h
  have e : ∀ xs xe ys ye zs ze, Region.ofBox .ind3D xs xe ys ye zs ze L.LocalNy L.LocalNz L.maxb =
      .ok (boxRegion xs xe ys ye zs ze L.LocalNy L.LocalNz L.maxb) :=
    fun xs xe ys ye zs ze => ofBox_eq xs xe ys ye zs ze L.LocalNy L.LocalNz L.maxb (by omega) (by omega) mb
  have b := fun xs xe ys ye zs ze => is_box xs xe ys ye zs ze L.LocalNy L.LocalNz L.maxb (by omega) (by omega) mb
  have rb := fun xs xe ys ye zs ze => rep_box xs xe ys ye zs ze L.LocalNy L.LocalNz L.maxb
  unfold default3D
  simp only [e, bind, Except.bind, pure, Except.pure]
  refine ⟨_, rfl, ?_, ?_, ?_, ?_, ?_, ?_, ?_, ?_, ?_, ?_⟩
  · exact (b _ _ _ _ _ _ (by omega) (by omega) (by omega) (by omega)).congr (by region_pred)
  · exact (b _ _ _ _ _ _ (by omega) (by omega) (by omega) (by omega)).congr (by region_pred)
  · exact (b _ _ _ _ _ _ (by omega) (by omega) (by omega) (by omega)).congr (by region_pred)
  · exact (b _ _ _ _ _ _ (by omega) (by omega) (by omega) (by omega)).congr (by region_pred)
  · exact (b _ _ _ _ _ _ (by omega) (by omega) (by omega) (by omega)).congr (by region_pred)
  · exact (is_mask (b _ _ _ _ _ _ (by omega) (by omega) (by omega) (by omega)) (rb _ _ _ _ _ _) (by region_inside)
      (by region_inside)).congr (by region_pred)
  · exact (rep_add (rb _ _ _ _ _ _) (rb _ _ _ _ _ _)).congr (by region_pred)
  · exact (rep_add (rb _ _ _ _ _ _) (rb _ _ _ _ _ _)).congr (by region_pred)
  · exact (rep_add (rb _ _ _ _ _ _) (rb _ _ _ _ _ _)).congr (by region_pred)
  · exact (is_unique (rep_add (rep_add (rep_add (rb _ _ _ _ _ _) (rep_add (rb _ _ _ _ _ _) (rb _ _ _ _ _ _)))
      (rep_add (rb _ _ _ _ _ _) (rb _ _ _ _ _ _))) (rep_add (rb _ _ _ _ _ _) (rb _ _ _ _ _ _))) (by region_inside)).congr
      (by region_pred)

/-- **C45.** The default 2D regions. -/
theorem C45_default_2D (L : Local) (h : Valid L) : ∃ N, default2D L = .ok N ∧
    Is L.LocalNy 1 N.all (fun x y z => L.anyX x ∧ L.anyY y ∧ z = 0) ∧
    Is L.LocalNy 1 N.nobndry (fun x y z => L.inX x ∧ L.inY y ∧ z = 0) ∧
    Is L.LocalNy 1 N.nox (fun x y z => L.inX x ∧ L.anyY y ∧ z = 0) ∧
    Is L.LocalNy 1 N.noy (fun x y z => L.anyX x ∧ L.inY y ∧ z = 0) ∧
    Is L.LocalNy 1 N.noz (fun x y z => L.anyX x ∧ L.anyY y ∧ z = 0) ∧
    Is L.LocalNy 1 N.guards (fun x y z => (L.anyX x ∧ L.anyY y ∧ z = 0) ∧ ¬ (L.inX x ∧ L.inY y)) ∧
    Rep L.LocalNy 1 N.xguards (fun x y z => (L.anyX x ∧ ¬ L.inX x) ∧ L.inY y ∧ z = 0) ∧
    Rep L.LocalNy 1 N.yguards (fun x y z => L.inX x ∧ (L.anyY y ∧ ¬ L.inY y) ∧ z = 0) ∧
    Rep L.LocalNy 1 N.zguards (fun _ _ _ => False) ∧
    Is L.LocalNy 1 N.nocorners (fun x y z => (L.anyX x ∧ L.anyY y ∧ z = 0) ∧ (L.inX x ∨ L.inY y)) := by
  obtain ⟨x0, x1, x2, y0, y1, y2, z0, z1, z2, mb⟩ := h
  have e : ∀ xs xe ys ye ze, Region.ofBox .ind2D xs xe ys ye 0 ze L.LocalNy 1 L.maxb =
      .ok (boxRegion xs xe ys ye 0 ze L.LocalNy 1 L.maxb) :=
    fun xs xe ys ye ze => ofBox_2D xs xe ys ye ze L.LocalNy L.maxb (by omega) mb
  have b := fun xs xe ys ye zs ze => is_box xs xe ys ye zs ze L.LocalNy 1 L.maxb (by omega) (by omega) mb
  have rb := fun xs xe ys ye zs ze => rep_box xs xe ys ye zs ze L.LocalNy 1 L.maxb
  unfold default2D
  simp only [e, bind, Except.bind, pure, Except.pure]
  refine ⟨_, rfl, ?_, ?_, ?_, ?_, ?_, ?_, ?_, ?_, ?_, ?_⟩
  · exact (b _ _ _ _ _ _ (by omega) (by omega) (by omega) (by omega)).congr (by region_pred)
  · exact (b _ _ _ _ _ _ (by omega) (by omega) (by omega) (by omega)).congr (by region_pred)
  · exact (b _ _ _ _ _ _ (by omega) (by omega) (by omega) (by omega)).congr (by region_pred)
  · exact (b _ _ _ _ _ _ (by omega) (by omega) (by omega) (by omega)).congr (by region_pred)
  · exact (b _ _ _ _ _ _ (by omega) (by omega) (by omega) (by omega)).congr (by region_pred)
  · exact (is_mask (b _ _ _ _ _ _ (by omega) (by omega) (by omega) (by omega)) (rb _ _ _ _ _ _) (by region_inside)
      (by region_inside)).congr (by region_pred)
  · exact (rep_add (rb _ _ _ _ _ _) (rb _ _ _ _ _ _)).congr (by region_pred)
  · exact (rep_add (rb _ _ _ _ _ _) (rb _ _ _ _ _ _)).congr (by region_pred)
  · exact (rep_add (rb _ _ _ _ _ _) (rb _ _ _ _ _ _)).congr (by region_pred)
  · exact (is_unique (rep_add (rep_add (rep_add (rb _ _ _ _ _ _) (rep_add (rb _ _ _ _ _ _) (rb _ _ _ _ _ _)))
      (rep_add (rb _ _ _ _ _ _) (rb _ _ _ _ _ _))) (rep_add (rb _ _ _ _ _ _) (rb _ _ _ _ _ _))) (by region_inside)).congr
      (by region_pred)

/-- **C45.** The default perpendicular regions. -/
theorem C45_default_perp (L : Local) (h : Valid L) : ∃ N, defaultPerp L = .ok N ∧
    Is 1 L.LocalNz N.all (fun x y z => L.anyX x ∧ y = 0 ∧ L.anyZ z) ∧
    Is 1 L.LocalNz N.nobndry (fun x y z => L.inX x ∧ y = 0 ∧ L.inZ z) ∧
    Is 1 L.LocalNz N.nox (fun x y z => L.inX x ∧ y = 0 ∧ L.anyZ z) ∧
    Is 1 L.LocalNz N.noy (fun x y z => L.anyX x ∧ y = 0 ∧ L.anyZ z) ∧
    Is 1 L.LocalNz N.noz (fun x y z => L.anyX x ∧ y = 0 ∧ L.inZ z) ∧
    Is 1 L.LocalNz N.guards (fun x y z => (L.anyX x ∧ y = 0 ∧ L.anyZ z) ∧ ¬ (L.inX x ∧ L.inZ z)) ∧
    Rep 1 L.LocalNz N.xguards (fun x y z => (L.anyX x ∧ ¬ L.inX x) ∧ y = 0 ∧ L.inZ z) ∧
    Rep 1 L.LocalNz N.yguards (fun _ _ _ => False) ∧
    Rep 1 L.LocalNz N.zguards (fun x y z => L.inX x ∧ y = 0 ∧ (L.anyZ z ∧ ¬ L.inZ z)) ∧
    Is 1 L.LocalNz N.nocorners (fun x y z => (L.anyX x ∧ y = 0 ∧ L.anyZ z) ∧ (L.inX x ∨ L.inZ z)) := by
  obtain ⟨x0, x1, x2, y0, y1, y2, z0, z1, z2, mb⟩ := h
  have e : ∀ xs xe ye zs ze, Region.ofBox .indPerp xs xe 0 ye zs ze 1 L.LocalNz L.maxb =
      .ok (boxRegion xs xe 0 ye zs ze 1 L.LocalNz L.maxb) :=
    fun xs xe ye zs ze => ofBox_perp xs xe ye zs ze L.LocalNz L.maxb (by omega) mb
  have b := fun xs xe ys ye zs ze => is_box xs xe ys ye zs ze 1 L.LocalNz L.maxb (by omega) (by omega) mb
  have rb := fun xs xe ys ye zs ze => rep_box xs xe ys ye zs ze 1 L.LocalNz L.maxb
  unfold defaultPerp
  simp only [e, bind, Except.bind, pure, Except.pure]
  refine ⟨_, rfl, ?_, ?_, ?_, ?_, ?_, ?_, ?_, ?_, ?_, ?_⟩
  · exact (b _ _ _ _ _ _ (by omega) (by omega) (by omega) (by omega)).congr (by region_pred)
  · exact (b _ _ _ _ _ _ (by omega) (by omega) (by omega) (by omega)).congr (by region_pred)
  · exact (b _ _ _ _ _ _ (by omega) (by omega) (by omega) (by omega)).congr (by region_pred)
  · exact (b _ _ _ _ _ _ (by omega) (by omega) (by omega) (by omega)).congr (by region_pred)
  · exact (b _ _ _ _ _ _ (by omega) (by omega) (by omega) (by omega)).congr (by region_pred)
  · exact (is_mask (b _ _ _ _ _ _ (by omega) (by omega) (by omega) (by omega)) (rb _ _ _ _ _ _) (by region_inside)
      (by region_inside)).congr (by region_pred)
  · exact (rep_add (rb _ _ _ _ _ _) (rb _ _ _ _ _ _)).congr (by region_pred)
  · exact (rep_add (rb _ _ _ _ _ _) (rb _ _ _ _ _ _)).congr (by region_pred)
  · exact (rep_add (rb _ _ _ _ _ _) (rb _ _ _ _ _ _)).congr (by region_pred)
  · exact (is_unique (rep_add (rep_add (rep_add (rb _ _ _ _ _ _) (rep_add (rb _ _ _ _ _ _) (rb _ _ _ _ _ _)))
      (rep_add (rb _ _ _ _ _ _) (rb _ _ _ _ _ _))) (rep_add (rb _ _ _ _ _ _) (rb _ _ _ _ _ _))) (by region_inside)).congr
      (by region_pred)

/-- Non-vacuity: two guard cells in X and Y, none in Z. -/
example : Valid ⟨8, 9, 4, 2, 5, 2, 6, 0, 3, 64⟩ := by constructor <;> decide

end Verif.MeshRegions
