/-
C45: boundary regions of a mesh, and index conversions.
-/
import Verif.Mesh.RegionsProps

namespace Verif.MeshRegions
open Verif.Region

/-- Column `x` has a neighbour on this Y side. -/
def YSide.Neighbour (s : YSide) (x : Int) : Prop := (s.indest ≥ 0 ∧ x < s.xsplit) ∨ (s.outdest ≥ 0 ∧ s.xsplit ≤ x)

/-- Columns of a Y boundary region: own columns without a neighbour; and, with corner cells on the edge of the domain in X, the guard
columns there if the two columns next to them have no neighbour. -/
def BndryColumn (L : Local) (P : Place) (s : YSide) (x : Int) : Prop :=
  (L.inX x ∧ ¬ s.Neighbour x) ∨
  (P.corners = true ∧ P.firstX = true ∧ (0 ≤ x ∧ x < L.xstart) ∧ L.xstart < L.xend ∧
    ¬ s.Neighbour L.xstart ∧ ¬ s.Neighbour (L.xstart + 1)) ∨
  (P.corners = true ∧ P.lastX = true ∧ (L.xend < x ∧ x < L.LocalNx) ∧ L.xstart < L.xend ∧
    ¬ s.Neighbour L.xend ∧ ¬ s.Neighbour (L.xend - 1))

theorem yColumns_spec (L : Local) (h : Valid L) (s : YSide) (x : Int) :
    ((yColumns L s).1 ≤ x ∧ x ≤ (yColumns L s).2 ↔ L.inX x ∧ ¬ s.Neighbour x) ∧
    L.xstart ≤ (yColumns L s).1 ∧ (yColumns L s).2 ≤ L.xend := by
  obtain ⟨x0, x1, x2, _⟩ := h
  unfold yColumns YSide.Neighbour Local.inX
  dsimp only
  generalize L.xstart = a at *
  generalize L.xend = b at *
  generalize L.LocalNx = n at *
  obtain ⟨i, o, sp⟩ := s
  dsimp only
  by_cases h1 : i ≥ 0 ∧ sp > a
  · by_cases h2 : o ≥ 0 ∧ sp < b + 1
    · rw [if_pos h1, if_pos h2]; split_ifs <;> omega
    · rw [if_pos h1, if_neg h2]; split_ifs <;> omega
  · by_cases h2 : o ≥ 0 ∧ sp < b + 1
    · rw [if_neg h1, if_pos h2]; split_ifs <;> omega
    · rw [if_neg h1, if_neg h2]; split_ifs <;> omega

theorem withCorners_spec (L : Local) (h : Valid L) (P : Place) (s : YSide) (x : Int) :
    ((withCorners L P (yColumns L s)).1 ≤ x ∧ x ≤ (withCorners L P (yColumns L s)).2) ↔ BndryColumn L P s x := by
  have k := fun x => (yColumns_spec L h s x).1
  obtain ⟨_, ka, kb⟩ := yColumns_spec L h s 0
  obtain ⟨x0, x1, x2, _⟩ := h
  unfold BndryColumn
  have k1 := k L.xstart
  have k2 := k (L.xstart + 1)
  have k3 := k L.xend
  have k4 := k (L.xend - 1)
  have kx := k x
  rw [← kx]
  have in1 : L.inX L.xstart := ⟨by omega, by omega⟩
  have in3 : L.inX L.xend := ⟨by omega, by omega⟩
  by_cases hlt : L.xstart < L.xend
  · have in2 : L.inX (L.xstart + 1) := ⟨by omega, by omega⟩
    have in4 : L.inX (L.xend - 1) := ⟨by omega, by omega⟩
    simp only [in1, in2, in3, in4, true_and] at k1 k2 k3 k4
    rw [← k1, ← k2, ← k3, ← k4]
    simp only [hlt, true_and]
    unfold withCorners
    dsimp only
    generalize yColumns L s = r at *
    obtain ⟨r1, r2⟩ := r
    dsimp only at *
    clear k k1 k2 k3 k4 kx in1 in2 in3 in4
    obtain ⟨f, l, _, _, _, c, _, _⟩ := P
    dsimp only
    cases c <;> cases f <;> cases l <;> simp only [true_and, Bool.false_eq_true, false_and, if_false, or_false, false_or] <;>
      split_ifs <;> omega
  · simp only [hlt, false_and, and_false, or_false]
    unfold withCorners
    dsimp only
    generalize yColumns L s = r at *
    obtain ⟨r1, r2⟩ := r
    dsimp only at *
    rw [if_neg (by rintro ⟨_, _, h1, h2⟩; omega)]
    by_cases hc : P.corners = true ∧ P.lastX = true ∧ r2 = L.xend ∧ r1 < L.xend
    · exfalso; obtain ⟨_, _, _, hc⟩ := hc; omega
    · rw [if_neg hc]

/-- The cells of the Y boundary regions. -/
def Lower (L : Local) (P : Place) (x y : Int) : Prop := BndryColumn L P P.down x ∧ 0 ≤ y ∧ y < L.ystart
def Upper (L : Local) (P : Place) (x y : Int) : Prop := BndryColumn L P P.up x ∧ L.yend < y ∧ y < L.LocalNy
/-- The cells of the X boundary regions. -/
def Inner (L : Local) (P : Place) (x y : Int) : Prop :=
  (P.firstX = true ∧ P.periodicX = false) ∧ (0 ≤ x ∧ x < L.xstart) ∧ L.inY y
def Outer (L : Local) (P : Place) (x y : Int) : Prop :=
  (P.lastX = true ∧ P.periodicX = false) ∧ (L.xend < x ∧ x < L.LocalNx) ∧ L.inY y

theorem column_range {L : Local} (h : Valid L) {P : Place} {s : YSide} {x : Int} (hc : BndryColumn L P s x) : L.anyX x := by
  obtain ⟨x0, x1, x2, _⟩ := h
  unfold BndryColumn Local.inX at hc
  unfold Local.anyX
  omega

/-- What the boundary regions contain. -/
structure BoundariesOk (L : Local) (P : Place) (nz zmax : Int) (inZ : Int → Prop) (B : Boundaries) : Prop where
  lowerInner : Is L.LocalNy nz B.lowerInner (fun x y z => P.firstY = true ∧ Lower L P x y ∧ 0 ≤ z ∧ z ≤ zmax)
  lowerOuter : Is L.LocalNy nz B.lowerOuter (fun x y z => P.firstY = false ∧ Lower L P x y ∧ 0 ≤ z ∧ z ≤ zmax)
  lower : Is L.LocalNy nz B.lower (fun x y z => Lower L P x y ∧ 0 ≤ z ∧ z ≤ zmax)
  upperInner : Is L.LocalNy nz B.upperInner (fun x y z => P.lastY = false ∧ Upper L P x y ∧ 0 ≤ z ∧ z ≤ zmax)
  upperOuter : Is L.LocalNy nz B.upperOuter (fun x y z => P.lastY = true ∧ Upper L P x y ∧ 0 ≤ z ∧ z ≤ zmax)
  upper : Is L.LocalNy nz B.upper (fun x y z => Upper L P x y ∧ 0 ≤ z ∧ z ≤ zmax)
  inner : Is L.LocalNy nz B.inner (fun x y z => Inner L P x y ∧ 0 ≤ z ∧ z ≤ zmax)
  outer : Is L.LocalNy nz B.outer (fun x y z => Outer L P x y ∧ 0 ≤ z ∧ z ≤ zmax)
  bndry : Is L.LocalNy nz B.bndry (fun x y z => (Lower L P x y ∨ Upper L P x y ∨ Inner L P x y ∨ Outer L P x y) ∧ 0 ≤ z ∧ z ≤ zmax)
  withX : Is L.LocalNy nz B.withX (fun x y z => (L.inX x ∧ L.inY y ∧ inZ z) ∨ ((Inner L P x y ∨ Outer L P x y) ∧ 0 ≤ z ∧ z ≤ zmax))
  withY : Is L.LocalNy nz B.withY (fun x y z => (L.inX x ∧ L.inY y ∧ inZ z) ∨ ((Lower L P x y ∨ Upper L P x y) ∧ 0 ≤ z ∧ z ≤ zmax))
  withAll : Is L.LocalNy nz B.withAll (fun x y z => (L.inX x ∧ L.inY y ∧ inZ z) ∨
    ((Lower L P x y ∨ Upper L P x y ∨ Inner L P x y ∨ Outer L P x y) ∧ 0 ≤ z ∧ z ≤ zmax))
  innerThin : 1 ≤ L.xstart → Is L.LocalNy nz B.innerThin (fun x y z => (Inner L P x y ∧ x = L.xstart - 1) ∧ 0 ≤ z ∧ z ≤ zmax)
  outerThin : L.xend + 1 < L.LocalNx → Is L.LocalNy nz B.outerThin (fun x y z => (Outer L P x y ∧ x = L.xend + 1) ∧ 0 ≤ z ∧ z ≤ zmax)

theorem rep_empty (ny nz : Int) : Rep ny nz {} (fun _ _ _ => False) := by
  intro i; simp

theorem or4 (A B C D Z : Prop) : (A ∧ Z ∨ B ∧ Z ∨ C ∧ Z ∨ D ∧ Z) ↔ ((A ∨ B ∨ C ∨ D) ∧ Z) := by tauto
theorem or3 (N A B Z : Prop) : ((N ∨ A ∧ Z) ∨ B ∧ Z) ↔ (N ∨ (A ∨ B) ∧ Z) := by tauto

theorem bndry_join {ny nz : Int} {r1 r2 r3 r4 r5 r6 rin rout : Region} {fY lY : Bool} {f l : Bool}
    {Lo Up In Ou : Int → Int → Int → Prop}
    (h1 : Rep ny nz r1 (fun x y z => fY = true ∧ Lo x y z)) (h2 : Rep ny nz r2 (fun x y z => fY = false ∧ Lo x y z))
    (h3 : Rep ny nz r3 Lo)
    (h4 : Rep ny nz r4 (fun x y z => lY = false ∧ Up x y z)) (h5 : Rep ny nz r5 (fun x y z => lY = true ∧ Up x y z))
    (h6 : Rep ny nz r6 Up) (hi : Rep ny nz rin In) (ho : Rep ny nz rout Ou)
    (nf : ¬ f = true → ∀ x y z, ¬ In x y z) (nl : ¬ l = true → ∀ x y z, ¬ Ou x y z) :
    Rep ny nz (List.foldl Region.add {} ([r1, r2, r3, r4, r5, r6] ++ (if f = true then [rin] else []) ++
      (if l = true then [rout] else []))) (fun x y z => Lo x y z ∨ Up x y z ∨ In x y z ∨ Ou x y z) := by
  have base := rep_add (rep_add (rep_add (rep_add (rep_add (rep_add (rep_empty ny nz) h1) h2) h3) h4) h5) h6
  by_cases hf : f = true <;> by_cases hl : l = true
  · rw [if_pos hf, if_pos hl]
    exact (rep_add (rep_add base hi) ho).congr (fun x y z => by tauto)
  · rw [if_pos hf, if_neg hl]
    exact (rep_add base hi).congr (fun x y z => by have := nl hl x y z; tauto)
  · rw [if_neg hf, if_pos hl]
    exact (rep_add base ho).congr (fun x y z => by have := nf hf x y z; tauto)
  · rw [if_neg hf, if_neg hl]
    exact base.congr (fun x y z => by have := nf hf x y z; have := nl hl x y z; tauto)

theorem boundaries_spec (L : Local) (h : Valid L) (P : Place) (t : IndType) (zmax nz : Int) (inZ : Int → Prop) (nobndry : Region)
    (hz0 : 0 ≤ zmax) (hz : zmax < nz) (hin : ∀ z, inZ z → 0 ≤ z ∧ z < nz)
    (e : ∀ xs xe ys ye ze, Region.ofBox t xs xe ys ye 0 ze L.LocalNy nz L.maxb = .ok (boxRegion xs xe ys ye 0 ze L.LocalNy nz L.maxb))
    (hn : Rep L.LocalNy nz nobndry (fun x y z => L.inX x ∧ L.inY y ∧ inZ z)) :
    ∃ B, boundaries L P t zmax nz nobndry = .ok B ∧ BoundariesOk L P nz zmax inZ B := by
  have hv := h
  obtain ⟨x0, x1, x2, y0, y1, y2, z0, z1, z2, mb⟩ := h
  have b := fun xs xe ys ye zs ze => is_box xs xe ys ye zs ze L.LocalNy nz L.maxb (by omega) (by omega) mb
  have lo := withCorners_spec L hv P P.down
  have up := withCorners_spec L hv P P.up
  have iI : Inside L.LocalNy nz (fun x y z => Inner L P x y ∧ 0 ≤ z ∧ z ≤ zmax) := by
    rintro x y z ⟨⟨_, _, hy⟩, _⟩; unfold Local.inY at hy; constructor <;> omega
  have iO : Inside L.LocalNy nz (fun x y z => Outer L P x y ∧ 0 ≤ z ∧ z ≤ zmax) := by
    rintro x y z ⟨⟨_, _, hy⟩, _⟩; unfold Local.inY at hy; constructor <;> omega
  have iL : Inside L.LocalNy nz (fun x y z => Lower L P x y ∧ 0 ≤ z ∧ z ≤ zmax) := by
    rintro x y z ⟨⟨hc, hy⟩, _⟩; have := column_range hv hc; unfold Local.anyX at this; constructor <;> omega
  have iU : Inside L.LocalNy nz (fun x y z => Upper L P x y ∧ 0 ≤ z ∧ z ≤ zmax) := by
    rintro x y z ⟨⟨hc, hy⟩, _⟩; have := column_range hv hc; unfold Local.anyX at this; constructor <;> omega
  have iN : Inside L.LocalNy nz (fun x y z => L.inX x ∧ L.inY y ∧ inZ z) := by
    rintro x y z ⟨hx, hy, hz⟩
    have := hin z hz
    unfold Local.inX at hx
    unfold Local.inY at hy
    constructor <;> omega
  -- the boxes
  have li : Is L.LocalNy nz (boxRegion (if !P.firstY then (-1, -2) else withCorners L P (yColumns L P.down)).1
      (if !P.firstY then (-1, -2) else withCorners L P (yColumns L P.down)).2 0 (L.ystart - 1) 0 zmax L.LocalNy nz L.maxb)
      (fun x y z => P.firstY = true ∧ Lower L P x y ∧ 0 ≤ z ∧ z ≤ zmax) := by
    refine (b _ _ _ _ _ _ (by omega) (by omega) (by omega) (by omega)).congr (fun x y z => ?_)
    unfold Lower
    rw [← lo x]
    cases P.firstY
    · simp only [Bool.not_false, if_true, Bool.false_eq_true, false_and, iff_false]; omega
    · simp only [Bool.not_true, Bool.false_eq_true, if_false, true_and]; omega
  have lo' : Is L.LocalNy nz (boxRegion (if !P.firstY then withCorners L P (yColumns L P.down) else (-1, -2)).1
      (if !P.firstY then withCorners L P (yColumns L P.down) else (-1, -2)).2 0 (L.ystart - 1) 0 zmax L.LocalNy nz L.maxb)
      (fun x y z => P.firstY = false ∧ Lower L P x y ∧ 0 ≤ z ∧ z ≤ zmax) := by
    refine (b _ _ _ _ _ _ (by omega) (by omega) (by omega) (by omega)).congr (fun x y z => ?_)
    unfold Lower
    rw [← lo x]
    cases P.firstY
    · simp only [Bool.not_false, if_true, true_and]; omega
    · simp only [Bool.not_true, Bool.false_eq_true, if_false, Bool.true_eq_false, false_and, iff_false]; omega
  have ll : Is L.LocalNy nz (boxRegion (withCorners L P (yColumns L P.down)).1 (withCorners L P (yColumns L P.down)).2
      0 (L.ystart - 1) 0 zmax L.LocalNy nz L.maxb) (fun x y z => Lower L P x y ∧ 0 ≤ z ∧ z ≤ zmax) := by
    refine (b _ _ _ _ _ _ (by omega) (by omega) (by omega) (by omega)).congr (fun x y z => ?_)
    unfold Lower
    rw [← lo x]; omega
  have ui : Is L.LocalNy nz (boxRegion (withCorners L P (if !P.lastY then yColumns L P.up else (-1, -2))).1
      (withCorners L P (if !P.lastY then yColumns L P.up else (-1, -2))).2 (L.yend + 1) (L.LocalNy - 1) 0 zmax L.LocalNy nz L.maxb)
      (fun x y z => P.lastY = false ∧ Upper L P x y ∧ 0 ≤ z ∧ z ≤ zmax) := by
    refine (b _ _ _ _ _ _ (by omega) (by omega) (by omega) (by omega)).congr (fun x y z => ?_)
    unfold Upper
    rw [← up x]
    cases P.lastY
    · simp only [Bool.not_false, if_true, true_and]; omega
    · simp only [Bool.not_true, Bool.false_eq_true, if_false, Bool.true_eq_false, false_and, iff_false]
      have : withCorners L P (-1, -2) = (-1, -2) := by
        unfold withCorners
        dsimp only
        rw [if_neg (by rintro ⟨_, _, hh, _⟩; omega), if_neg (by rintro ⟨_, _, hh, _⟩; omega)]
      rw [this]
      dsimp only
      omega
  have uo : Is L.LocalNy nz (boxRegion (if !P.lastY then (-1, -2) else withCorners L P (yColumns L P.up)).1
      (if !P.lastY then (-1, -2) else withCorners L P (yColumns L P.up)).2 (L.yend + 1) (L.LocalNy - 1) 0 zmax L.LocalNy nz L.maxb)
      (fun x y z => P.lastY = true ∧ Upper L P x y ∧ 0 ≤ z ∧ z ≤ zmax) := by
    refine (b _ _ _ _ _ _ (by omega) (by omega) (by omega) (by omega)).congr (fun x y z => ?_)
    unfold Upper
    rw [← up x]
    cases P.lastY
    · simp only [Bool.not_false, if_true, Bool.false_eq_true, false_and, iff_false]; omega
    · simp only [Bool.not_true, Bool.false_eq_true, if_false, true_and]; omega
  have uu : Is L.LocalNy nz (boxRegion (withCorners L P (yColumns L P.up)).1 (withCorners L P (yColumns L P.up)).2
      (L.yend + 1) (L.LocalNy - 1) 0 zmax L.LocalNy nz L.maxb) (fun x y z => Upper L P x y ∧ 0 ≤ z ∧ z ≤ zmax) := by
    refine (b _ _ _ _ _ _ (by omega) (by omega) (by omega) (by omega)).congr (fun x y z => ?_)
    unfold Upper
    rw [← up x]; omega
  -- x boundaries
  have xin : ∃ r, (if (P.firstX && !P.periodicX) = true then
        (Except.ok (boxRegion 0 (L.xstart - 1) L.ystart L.yend 0 zmax L.LocalNy nz L.maxb) : Out Region)
      else .ok (boxRegion 0 (-1) 0 0 0 0 L.LocalNy nz L.maxb)) = .ok r ∧
      Is L.LocalNy nz r (fun x y z => Inner L P x y ∧ 0 ≤ z ∧ z ≤ zmax) := by
    by_cases hf : (P.firstX && !P.periodicX) = true
    · rw [if_pos hf]
      refine ⟨_, rfl, (b _ _ _ _ _ _ (by omega) (by omega) (by omega) (by omega)).congr (fun x y z => ?_)⟩
      unfold Inner Local.inY
      simp only [Bool.and_eq_true, Bool.not_eq_true'] at hf
      simp only [hf.1, hf.2, true_and]; omega
    · rw [if_neg hf]
      refine ⟨_, rfl, (b _ _ _ _ _ _ (by omega) (by omega) (by omega) (by omega)).congr (fun x y z => ?_)⟩
      unfold Inner
      simp only [Bool.and_eq_true, Bool.not_eq_true'] at hf
      simp only [hf, false_and, iff_false]; omega
  have xout : ∃ r, (if (P.lastX && !P.periodicX) = true then
        (Except.ok (boxRegion (L.xend + 1) (L.LocalNx - 1) L.ystart L.yend 0 zmax L.LocalNy nz L.maxb) : Out Region)
      else .ok (boxRegion 0 (-1) 0 0 0 0 L.LocalNy nz L.maxb)) = .ok r ∧
      Is L.LocalNy nz r (fun x y z => Outer L P x y ∧ 0 ≤ z ∧ z ≤ zmax) := by
    by_cases hf : (P.lastX && !P.periodicX) = true
    · rw [if_pos hf]
      refine ⟨_, rfl, (b _ _ _ _ _ _ (by omega) (by omega) (by omega) (by omega)).congr (fun x y z => ?_)⟩
      unfold Outer Local.inY
      simp only [Bool.and_eq_true, Bool.not_eq_true'] at hf
      simp only [hf.1, hf.2, true_and]; omega
    · rw [if_neg hf]
      refine ⟨_, rfl, (b _ _ _ _ _ _ (by omega) (by omega) (by omega) (by omega)).congr (fun x y z => ?_)⟩
      unfold Outer
      simp only [Bool.and_eq_true, Bool.not_eq_true'] at hf
      simp only [hf, false_and, iff_false]; omega
  have xit : ∃ r, (if (P.firstX && !P.periodicX) = true then
        (Except.ok (boxRegion (L.xstart - 1) (L.xstart - 1) L.ystart L.yend 0 zmax L.LocalNy nz L.maxb) : Out Region)
      else .ok (boxRegion 0 (-1) 0 0 0 0 L.LocalNy nz L.maxb)) = .ok r ∧
      (1 ≤ L.xstart → Is L.LocalNy nz r (fun x y z => (Inner L P x y ∧ x = L.xstart - 1) ∧ 0 ≤ z ∧ z ≤ zmax)) := by
    by_cases hf : (P.firstX && !P.periodicX) = true
    · rw [if_pos hf]
      refine ⟨_, rfl, fun h1 => (b _ _ _ _ _ _ (by omega) (by omega) (by omega) (by omega)).congr (fun x y z => ?_)⟩
      unfold Inner Local.inY
      simp only [Bool.and_eq_true, Bool.not_eq_true'] at hf
      simp only [hf.1, hf.2, true_and]; omega
    · rw [if_neg hf]
      refine ⟨_, rfl, fun h1 => (b _ _ _ _ _ _ (by omega) (by omega) (by omega) (by omega)).congr (fun x y z => ?_)⟩
      unfold Inner
      simp only [Bool.and_eq_true, Bool.not_eq_true'] at hf
      simp only [hf, false_and, iff_false]; omega
  have xot : ∃ r, (if (P.lastX && !P.periodicX) = true then
        (Except.ok (boxRegion (L.xend + 1) (L.xend + 1) L.ystart L.yend 0 zmax L.LocalNy nz L.maxb) : Out Region)
      else .ok (boxRegion 0 (-1) 0 0 0 0 L.LocalNy nz L.maxb)) = .ok r ∧
      (L.xend + 1 < L.LocalNx → Is L.LocalNy nz r (fun x y z => (Outer L P x y ∧ x = L.xend + 1) ∧ 0 ≤ z ∧ z ≤ zmax)) := by
    by_cases hf : (P.lastX && !P.periodicX) = true
    · rw [if_pos hf]
      refine ⟨_, rfl, fun h1 => (b _ _ _ _ _ _ (by omega) (by omega) (by omega) (by omega)).congr (fun x y z => ?_)⟩
      unfold Outer Local.inY
      simp only [Bool.and_eq_true, Bool.not_eq_true'] at hf
      simp only [hf.1, hf.2, true_and]; omega
    · rw [if_neg hf]
      refine ⟨_, rfl, fun h1 => (b _ _ _ _ _ _ (by omega) (by omega) (by omega) (by omega)).congr (fun x y z => ?_)⟩
      unfold Outer
      simp only [Bool.and_eq_true, Bool.not_eq_true'] at hf
      simp only [hf, false_and, iff_false]; omega
  obtain ⟨rin, ein, hinn⟩ := xin
  obtain ⟨rout, eout, hout⟩ := xout
  obtain ⟨rit, eit, hit⟩ := xit
  obtain ⟨rot, eot, hot⟩ := xot
  unfold boundaries
  simp only [e, bind, Except.bind, pure, Except.pure, pick]
  rw [eit, ein, eot, eout]
  refine ⟨_, rfl, ?_⟩
  have bn := is_unique ((bndry_join (f := P.firstX && !P.periodicX) (l := P.lastX && !P.periodicX) li.mem lo'.mem ll.mem ui.mem uo.mem
    uu.mem hinn.mem hout.mem (fun hf x y z hi => hf (by simp [hi.1.1.1, hi.1.1.2]))
    (fun hf x y z hi => hf (by simp [hi.1.1.1, hi.1.1.2]))).congr (fun x y z => or4 _ _ _ _ _)) (by
    rintro x y z ⟨hl | hu | hi | ho, hz⟩
    · exact iL x y z ⟨hl, hz⟩
    · exact iU x y z ⟨hu, hz⟩
    · exact iI x y z ⟨hi, hz⟩
    · exact iO x y z ⟨ho, hz⟩)
  refine ⟨li, lo', ll, ui, uo, uu, hinn, hout, bn, ?_, ?_, ?_, hit, hot⟩
  · refine (is_unique (rep_add (rep_add hn hinn.mem) hout.mem) ?_).congr (fun x y z => or3 _ _ _ _)
    rintro x y z ((hh | hh) | hh)
    · exact iN x y z hh
    · exact iI x y z hh
    · exact iO x y z hh
  · refine (is_unique (rep_add (rep_add hn ll.mem) uu.mem) ?_).congr (fun x y z => or3 _ _ _ _)
    rintro x y z ((hh | hh) | hh)
    · exact iN x y z hh
    · exact iL x y z hh
    · exact iU x y z hh
  · refine (is_unique (rep_add hn bn.mem) ?_)
    rintro x y z (hh | ⟨hl | hu | hi | ho, hz⟩)
    · exact iN x y z hh
    · exact iL x y z ⟨hl, hz⟩
    · exact iU x y z ⟨hu, hz⟩
    · exact iI x y z ⟨hi, hz⟩
    · exact iO x y z ⟨ho, hz⟩

/-- **C45.** The 3D boundary regions. -/
theorem C45_boundaries_3D (L : Local) (h : Valid L) (P : Place) (N : Named) (hN : default3D L = .ok N) :
    ∃ B, boundaries L P .ind3D (L.LocalNz - 1) L.LocalNz N.nobndry = .ok B ∧
      BoundariesOk L P L.LocalNz (L.LocalNz - 1) L.inZ B := by
  obtain ⟨N', hN', _, hn, _⟩ := C45_default_3D L h
  rw [hN] at hN'
  injection hN' with hN'
  subst hN'
  have z0 := h.z0; have z1 := h.z1; have z2 := h.z2; have y0 := h.y0; have y1 := h.y1; have y2 := h.y2
  refine boundaries_spec L h P .ind3D _ _ _ _ (by omega) (by omega) (fun z hz => ?_)
    (fun xs xe ys ye ze => ofBox_eq _ _ _ _ _ _ _ _ _ (by omega) (by omega) h.mb) hn.mem
  unfold Local.inZ at hz
  omega

/-- **C45.** The 2D boundary regions. -/
theorem C45_boundaries_2D (L : Local) (h : Valid L) (P : Place) (N : Named) (hN : default2D L = .ok N) :
    ∃ B, boundaries L P .ind2D 0 1 N.nobndry = .ok B ∧ BoundariesOk L P 1 0 (fun z => z = 0) B := by
  obtain ⟨N', hN', _, hn, _⟩ := C45_default_2D L h
  rw [hN] at hN'
  injection hN' with hN'
  subst hN'
  have y0 := h.y0; have y1 := h.y1; have y2 := h.y2
  exact boundaries_spec L h P .ind2D _ _ _ _ (by omega) (by omega) (fun z hz => by omega)
    (fun xs xe ys ye ze => ofBox_2D _ _ _ _ _ _ _ (by omega) h.mb) hn.mem

/-- **C45.** The perpendicular boundary regions. -/
theorem C45_boundaries_perp (L : Local) (h : Valid L) (P : Place) : ∃ B, boundariesPerp L P = .ok B ∧
    Is 1 L.LocalNz B.1 (fun x y z => (P.firstX = true ∧ P.periodicX = false) ∧ (0 ≤ x ∧ x < L.xstart) ∧ y = 0 ∧ L.anyZ z) ∧
    Is 1 L.LocalNz B.2 (fun x y z => (P.lastX = true ∧ P.periodicX = false) ∧ (L.xend < x ∧ x < L.LocalNx) ∧ y = 0 ∧ L.anyZ z) := by
  obtain ⟨x0, x1, x2, y0, y1, y2, z0, z1, z2, mb⟩ := h
  have e : ∀ xs xe ye zs ze, Region.ofBox .indPerp xs xe 0 ye zs ze 1 L.LocalNz L.maxb =
      .ok (boxRegion xs xe 0 ye zs ze 1 L.LocalNz L.maxb) :=
    fun xs xe ye zs ze => ofBox_perp xs xe ye zs ze L.LocalNz L.maxb (by omega) mb
  have b := fun xs xe ys ye zs ze => is_box xs xe ys ye zs ze 1 L.LocalNz L.maxb (by omega) (by omega) mb
  unfold boundariesPerp
  simp only [e, bind, Except.bind, pure, Except.pure, pick]
  unfold Local.anyZ
  by_cases hf : (P.firstX && !P.periodicX) = true <;> by_cases hl : (P.lastX && !P.periodicX) = true
  all_goals
    first | rw [if_pos hf] | rw [if_neg hf]
    first | rw [if_pos hl] | rw [if_neg hl]
    refine ⟨_, rfl, (b _ _ _ _ _ _ (by omega) (by omega) (by omega) (by omega)).congr (fun x y z => ?_),
      (b _ _ _ _ _ _ (by omega) (by omega) (by omega) (by omega)).congr (fun x y z => ?_)⟩
    · simp only [Bool.and_eq_true, Bool.not_eq_true'] at hf
      simp only [hf, false_and, iff_false, and_self, true_and]; omega
    · simp only [Bool.and_eq_true, Bool.not_eq_true'] at hl
      simp only [hl, false_and, iff_false, and_self, true_and]; omega

/-- **C45 (violated).** A Y boundary at the edge of the domain should include the corner cells (if they are requested) whenever the first
own column has no neighbour.  With one column per rank it does not. -/
theorem C45_single_column_corner_violated : ∃ (L : Local) (P : Place), Valid L ∧ P.corners = true ∧ P.firstX = true ∧
    (∀ x, ¬ P.down.Neighbour x) ∧ ∀ x, x < L.xstart → ¬ BndryColumn L P P.down x := by
  refine ⟨⟨3, 3, 1, 1, 1, 1, 1, 0, 0, 64⟩, ⟨true, true, true, true, false, true, ⟨-1, -1, 0⟩, ⟨-1, -1, 0⟩⟩, ?_, rfl, rfl, ?_, ?_⟩
  · constructor <;> decide
  · intro x; simp [YSide.Neighbour]
  · intro x hx
    simp only [BndryColumn, Local.inX] at *
    omega

/-! ## Index conversions -/

/-- **C45.** The conversions between index types keep the coordinates. -/
theorem C45_conversions (L : Local) (x y z : Int) (h : InGrid L.LocalNy L.LocalNz x y z) :
    ind2Dto3D L (pointInd L.LocalNy 1 x y 0) z = pointInd L.LocalNy L.LocalNz x y z ∧
    ind3Dto2D L (pointInd L.LocalNy L.LocalNz x y z) = pointInd L.LocalNy 1 x y 0 ∧
    ind3DtoPerp L (pointInd L.LocalNy L.LocalNz x y z) = pointInd 1 L.LocalNz x 0 z ∧
    indPerpto3D L (pointInd 1 L.LocalNz x 0 z) y = pointInd L.LocalNy L.LocalNz x y z := by
  obtain ⟨cx, cy, cz⟩ := C01_point_coordinates h
  have hp : InGrid 1 L.LocalNz x 0 z := ⟨h.x0, by omega, by omega, h.z0, h.z1⟩
  obtain ⟨_, _, pz⟩ := C01_point_coordinates hp
  refine ⟨?_, ?_, ?_, ?_⟩
  · unfold ind2Dto3D pointInd flat
    simp
  · unfold ind3Dto2D
    have h0 := flat_nonneg h
    show (⟨(flat L.LocalNy L.LocalNz x y z).tdiv L.LocalNz, L.LocalNy, 1⟩ : Ind) = _
    rw [Int.tdiv_eq_ediv_of_nonneg h0, flat_ediv_nz h]
    unfold pointInd flat
    simp
  · unfold ind3DtoPerp
    rw [cx, cz]
    unfold pointInd flat
    simp
  · unfold indPerpto3D
    rw [pz]
    unfold pointInd flat
    ext <;> simp
    ring

/-- **C45.** The lookup table of `map3Dto2D` gives, for every point of the local grid, the 2D index at the same x and y. -/
theorem C45_lookup (L : Local) (h : Valid L) (N : Named) (hN : default3D L = .ok N) (x y z : Int)
    (hx : L.anyX x) (hy : L.anyY y) (hz : L.anyZ z) :
    lookup3Dto2D L N.all (flat L.LocalNy L.LocalNz x y z) = some (flat L.LocalNy 1 x y 0) := by
  obtain ⟨N', hN', hall, _⟩ := C45_default_3D L h
  rw [hN] at hN'
  injection hN' with hN'
  subst hN'
  have hin : InStep N.all := by
    have e := hN
    unfold default3D at e
    have y0 := h.y0; have y1 := h.y1; have y2 := h.y2; have z0 := h.z0; have z1 := h.z1; have z2 := h.z2
    have eb : ∀ xs xe ys ye zs ze, Region.ofBox .ind3D xs xe ys ye zs ze L.LocalNy L.LocalNz L.maxb =
        .ok (boxRegion xs xe ys ye zs ze L.LocalNy L.LocalNz L.maxb) :=
      fun xs xe ys ye zs ze => ofBox_eq xs xe ys ye zs ze L.LocalNy L.LocalNz L.maxb (by omega) (by omega) h.mb
    simp only [eb, bind, Except.bind, pure, Except.pure, Except.ok.injEq] at e
    rw [← e]
    exact iterate_map_ind _ _
  have g : InGrid L.LocalNy L.LocalNz x y z := ⟨hx.1, hy.1, hy.2, hz.1, hz.2⟩
  have key : ∀ (l : List Int) (f : Int → Option Int) (n v : Int), n ∈ l ∨ f n = some v →
      v = n.tdiv L.LocalNz →
      l.foldl (fun f m => fun n => if n = m then some (m.tdiv L.LocalNz) else f n) f n = some v := by
    intro l
    induction l with
    | nil => rintro f n v (hc | hc) _; · simp at hc
             · exact hc
    | cons a as ih =>
      intro f n v hc hv
      simp only [List.foldl_cons]
      refine ih _ n v ?_ hv
      by_cases ha : n = a
      · right; rw [if_pos ha, hv, ha]
      · rcases hc with hc | hc
        · left; simp only [List.mem_cons] at hc; tauto
        · right; rw [if_neg ha, hc]
  have hfold : lookup3Dto2D L N.all = (N.all.indices.map Ind.ind).foldl
      (fun f m => fun n => if n = m then some (m.tdiv L.LocalNz) else f n) (fun _ => none) := by
    have hi : (iterate N.all.blocks).map Ind.ind = N.all.indices.map Ind.ind := hin
    rw [← hi, List.foldl_map]
    rfl
  rw [hfold]
  refine key _ _ _ _ (Or.inl ?_) ?_
  · exact List.mem_map.2 ⟨_, (hall.mem _).2 ⟨x, y, z, ⟨hx, hy, hz⟩, rfl⟩, rfl⟩
  · rw [Int.tdiv_eq_ediv_of_nonneg (flat_nonneg g), flat_ediv_nz g]
    unfold flat; ring

end Verif.MeshRegions
