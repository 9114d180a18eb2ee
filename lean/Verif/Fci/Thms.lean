/-
C70: the field line maps of the FCI transform, its boundary regions and the parallel boundary conditions.
-/
import Verif.Fci.Props
import Mathlib.Data.Rat.Cast.Order
import Mathlib.Tactic.NormNum

namespace Verif.Fci
open Verif.GField (rng loop3 mem_rng mem_loop3)

variable {K : Type} [Field K] [LinearOrder K] [IsStrictOrderedRing K]

/-! ## Which points are in which region -/

/-- **C70.** With one guard cell in Y: the points of the two forward regions together are exactly the interior points whose forward
field line ends outside the domain, each once, and never in both; the same backward. -/
theorem C70_classified_partial (g : Grid) (geo : Geo K) (lines : Int → Line K) (h : g.ystart = 1) :
    let t := construct g geo lines
    ((t.fwdIn.map BPoint.p ++ t.fwdOut.map BPoint.p).Nodup ∧
      ∀ p, p ∈ t.fwdIn.map BPoint.p ++ t.fwdOut.map BPoint.p ↔ Interior g p ∧ ¬ Inside g (lines 1) p) ∧
    ((t.bwdIn.map BPoint.p ++ t.bwdOut.map BPoint.p).Nodup ∧
      ∀ p, p ∈ t.bwdIn.map BPoint.p ++ t.bwdOut.map BPoint.p ↔ Interior g p ∧ ¬ Inside g (lines (-1)) p) := by
  obtain ⟨a, b, c, d, _⟩ := construct_one g geo lines h
  have e : ∀ (m : Line K) (o : Int) (l : List Pt), (l.map (record g geo m o)).map BPoint.p = l := by
    intro m o l; rw [List.map_map]; exact List.map_id' l
  have key : ∀ m : Line K, (leaveIn g m ++ leaveOut g m).Nodup ∧
      ∀ p, p ∈ leaveIn g m ++ leaveOut g m ↔ Interior g p ∧ ¬ Inside g m p := by
    intro m
    refine ⟨List.nodup_append.2 ⟨leaveIn_nodup g m, leaveOut_nodup g m, ?_⟩, ?_⟩
    · intro p hp q hq e
      subst e
      exact (mem_leaveOut.1 hq).2.2 (mem_leaveIn.1 hp).2.2
    · intro p
      rw [List.mem_append, mem_leaveIn, mem_leaveOut]
      constructor
      · rintro (h | h) <;> exact ⟨h.1, h.2.1⟩
      · intro h
        by_cases hx : m.xt p < 0
        · exact Or.inl ⟨h.1, h.2, hx⟩
        · exact Or.inr ⟨h.1, h.2, hx⟩
  dsimp only
  rw [a, b, c, d, e, e, e, e]
  exact ⟨key _, key _⟩

/-- **C70.** Where a line that leaves is marked by a negative index (inner) or one beyond `xend` (outer), the regions are the sides. -/
theorem C70_sides_partial (g : Grid) (geo : Geo K) (lines : Int → Line K) (h : g.ystart = 1) (p : Pt)
    (hp : Interior g p) (hx : (lines 1).xt p < 0 ∨ g.xstart ≤ (lines 1).xt p) (h0 : 0 ≤ g.xstart) :
    (p ∈ (construct g geo lines).fwdIn.map BPoint.p ↔ (lines 1).xt p < g.xstart) ∧
    (p ∈ (construct g geo lines).fwdOut.map BPoint.p ↔ (g.xend : K) < (lines 1).xt p) := by
  obtain ⟨a, b, _⟩ := construct_one g geo lines h
  have e : ∀ (m : Line K) (o : Int) (l : List Pt), (l.map (record g geo m o)).map BPoint.p = l := by
    intro m o l; rw [List.map_map]; exact List.map_id' l
  have hs : (0 : K) ≤ g.xstart := by exact_mod_cast h0
  have he : (g.xstart : K) ≤ g.xend := by
    have : g.xstart ≤ g.xend := by have := hp.1; omega
    exact_mod_cast this
  rw [a, b, e, e, mem_leaveIn, mem_leaveOut]
  unfold Inside
  constructor
  · constructor
    · rintro ⟨_, _, h⟩; exact lt_of_lt_of_le h hs
    · intro hl
      refine ⟨hp, fun hc => absurd hc.1 (not_le.2 hl), ?_⟩
      rcases hx with hx | hx
      · exact hx
      · exact absurd hx (not_le.2 hl)
  · constructor
    · rintro ⟨_, h1, h2⟩
      rcases hx with hx | hx
      · exact absurd hx h2
      · exact not_le.1 fun hc => h1 ⟨hx, hc⟩
    · intro hl
      exact ⟨hp, fun hc => absurd hc.2 (not_le.2 hl), fun hc => absurd (lt_of_lt_of_le hc hs) (not_lt.2 (he.trans hl.le))⟩

/-- **C70, what fails.** A line that ends in the inner guard cells, at an index in `[0, xstart)`, is put in the outer region, for every
mesh, and so gets the boundary condition of the wrong wall. -/
theorem C70_inner_violated (g : Grid) (geo : Geo K) (lines : Int → Line K) (h : g.ystart = 1) (p : Pt)
    (hp : Interior g p) (h0 : 0 ≤ (lines 1).xt p) (h1 : (lines 1).xt p < g.xstart) :
    p ∈ (construct g geo lines).fwdOut.map BPoint.p ∧ p ∉ (construct g geo lines).fwdIn.map BPoint.p := by
  obtain ⟨a, b, _⟩ := construct_one g geo lines h
  have e : ∀ (m : Line K) (o : Int) (l : List Pt), (l.map (record g geo m o)).map BPoint.p = l := by
    intro m o l; rw [List.map_map]; exact List.map_id' l
  rw [a, b, e, e, mem_leaveIn, mem_leaveOut]
  exact ⟨⟨hp, fun hc => absurd hc.1 (not_le.2 h1), not_lt.2 h0⟩, fun hc => absurd hc.2.2 (not_lt.2 h0)⟩

/-! ## The slices -/

/-- Every record of a region is the record of its point. -/
theorem mem_map_record {g : Grid} {geo : Geo K} {m : Line K} {o : Int} {l : List Pt} {b : BPoint K}
    (h : b ∈ l.map (record g geo m o)) : b = record g geo m o b.p ∧ b.p ∈ l := by
  obtain ⟨p, hp, rfl⟩ := List.mem_map.1 h
  exact ⟨rfl, hp⟩

/-- The conditions that do not look at the opposite slice. -/
def Op.Plain (op : Op) : Prop := op = .dirichlet ∨ op = .neumann

theorem plain_value {op : Op} (h : op.Plain) (src : Src K) (dy f : Pt → K) (dir : Int) (s s' : Slices K) (b : BPoint K) :
    op.value src dy f dir s b = op.value src dy f dir s' b := by
  rcases h with rfl | rfl <;> rfl

open Classical in
/-- **C70.** With one guard cell in Y, after `calcParallelSlices` and `applyParallelBoundary` (Dirichlet or Neumann) both slices are
complete: for every interior point, the value one step along the field is the interpolation at the end of the line if that is
inside, and otherwise the value of the boundary condition. Nothing depends on what the memory held before. -/
theorem C70_slices_complete_partial (g : Grid) (geo : Geo K) (lines : Int → Line K) (h : g.ystart = 1) (M : Method K)
    (f : Pt → K) (junk : Slices K) (op : Op) (hop : op.Plain) (src : Src K) (dir : Int) (hd : dir = 1 ∨ dir = -1) (p : Pt)
    (hp : Interior g p) :
    let t := construct g geo lines
    applyAll op src geo.dy f t (calcSlices g t lines M f junk) dir (p.next dir) =
      if Inside g (lines dir) p then M (fun x z => f ⟨x, p.y + dir, z⟩) ((lines dir).xt p) ((lines dir).zt p)
      else op.value src geo.dy f dir (fun _ _ => 0) (record g geo (lines dir) dir p) := by
  obtain ⟨a, b, c, d, e⟩ := construct_one g geo lines h
  dsimp only
  unfold applyAll
  have hs : ∀ s, s = calcSlices g (construct g geo lines) lines M f junk → Inside g (lines dir) p →
      s dir (p.next dir) = M (fun x z => f ⟨x, p.y + dir, z⟩) ((lines dir).xt p) ((lines dir).zt p) := by
    intro s hs hi
    rw [hs]
    unfold calcSlices
    rw [next_next, e dir hd, if_pos]
    · rfl
    · exact ⟨mem_interior.2 hp, decide_eq_false fun hc => hc.2 hi⟩
  generalize hS : calcSlices g (construct g geo lines) lines M f junk = S
  replace hs := hs S hS.symm
  have hmem : ∀ m : Line K, ¬ Inside g m p → p ∈ leaveIn g m ∨ p ∈ leaveOut g m := by
    intro m hi
    by_cases hx : m.xt p < 0
    · exact Or.inl (mem_leaveIn.2 ⟨hp, hi, hx⟩)
    · exact Or.inr (mem_leaveOut.2 ⟨hp, hi, hx⟩)
  have none : ∀ (o : Int) (l : List Pt) (s : Slices K), (∀ q ∈ l, ¬ Inside g (lines o) q) → Inside g (lines o) p →
      op.apply src geo.dy f o (l.map (record g geo (lines o) o)) s o (p.next o) = s o (p.next o) := by
    intro o l s hl hi
    apply apply_none
    intro b hb eb
    obtain ⟨_, hb2⟩ := mem_map_record hb
    rw [next_inj eb] at hb2
    exact hl p hb2 hi
  have some : ∀ (o : Int) (_ : o ≠ 0) (l : List Pt) (s : Slices K),
      (s o (p.next o) = op.value src geo.dy f o (fun _ _ => 0) (record g geo (lines o) o p) ∨ p ∈ l) →
      op.apply src geo.dy f o (l.map (record g geo (lines o) o)) s o (p.next o) =
        op.value src geo.dy f o (fun _ _ => 0) (record g geo (lines o) o p) := by
    intro o ho l s hl
    apply apply_eq _ _ _ _ _ ho
    · intro b hb eb
      obtain ⟨hb1, hb2⟩ := mem_map_record hb
      rw [next_inj eb] at hb1
      rw [hb1]; exact plain_value hop _ _ _ _ _ _ _
    · rcases hl with hl | hl
      · exact Or.inl hl
      · exact Or.inr ⟨_, List.mem_map.2 ⟨p, hl, rfl⟩, rfl⟩
  have inL : ∀ o, ∀ q ∈ leaveIn g (lines o), ¬ Inside g (lines o) q := fun o q hq => (mem_leaveIn.1 hq).2.1
  have outL : ∀ o, ∀ q ∈ leaveOut g (lines o), ¬ Inside g (lines o) q := fun o q hq => (mem_leaveOut.1 hq).2.1
  rw [a, b, c, d]
  rcases hd with rfl | rfl
  · rw [apply_other _ _ _ _ _ _ (by decide)]
    by_cases hi : Inside g (lines 1) p
    · rw [if_pos hi, none 1 _ _ (outL 1) hi, apply_other _ _ _ _ _ _ (by decide), none 1 _ _ (inL 1) hi]
      exact hs hi
    · rw [if_neg hi]
      apply some 1 (by decide)
      rcases hmem (lines 1) hi with hm | hm
      · left
        rw [apply_other _ _ _ _ _ _ (by decide)]
        exact some 1 (by decide) _ _ (Or.inr hm)
      · exact Or.inr hm
  · by_cases hi : Inside g (lines (-1)) p
    · rw [if_pos hi, none (-1) _ _ (outL (-1)) hi, apply_other _ _ _ _ _ _ (by decide), none (-1) _ _ (inL (-1)) hi,
        apply_other _ _ _ _ _ _ (by decide)]
      exact hs hi
    · rw [if_neg hi]
      apply some (-1) (by decide)
      rcases hmem (lines (-1)) hi with hm | hm
      · left
        rw [apply_other _ _ _ _ _ _ (by decide)]
        exact some (-1) (by decide) _ _ (Or.inr hm)
      · exact Or.inr hm

/-- **C70, what fails with two guard cells.** The map of the second slice puts its points in the same region as the first: a point whose
line leaves only on the second step has its *first* slice overwritten by the boundary condition, although the line is still inside
there, and its *second* slice is never set. For every mesh, map, field and memory. -/
theorem C70_second_slice_violated (g : Grid) (geo : Geo K) (lines : Int → Line K) (h : g.ystart = 2) (M : Method K)
    (f : Pt → K) (junk : Slices K) (v : K) (p : Pt) (hp : Interior g p) (hdy : geo.dy p ≠ 0)
    (hi2 : ¬ Inside g (lines 2) p) (hx : (lines 2).xt p < 0) :
    let t := construct g geo lines
    let s := applyAll .dirichlet (.real v) geo.dy f t (calcSlices g t lines M f junk)
    (Inside g (lines 1) p → s 1 (p.next 1) = 2 * v - f p) ∧ s 2 (p.next 2) = junk 2 (p.next 2) := by
  classical
  obtain ⟨a, b, c, d, e⟩ := construct_two g geo lines h
  dsimp only
  constructor
  · intro hi1
    have hval : ∀ o, Op.value .dirichlet (Src.real v) geo.dy f 1 (fun _ _ => 0) (record g geo (lines o) o p) = 2 * v - f p := by
      intro o
      unfold Op.value dirichletVal record Src.on
      dsimp only
      field_simp
      ring
    unfold applyAll
    rw [apply_other _ _ _ _ _ _ (by decide)]
    apply apply_eq _ _ _ _ _ (by decide)
    · intro bb hb eb
      rw [b] at hb
      rcases List.mem_append.1 hb with hb | hb
      · obtain ⟨h1, h2⟩ := mem_map_record hb
        rw [next_inj eb] at h2
        exact absurd hi1 (mem_leaveOut.1 h2).2.1
      · obtain ⟨h1, h2⟩ := mem_map_record hb
        rw [next_inj eb] at h1
        rw [h1]; exact hval 2
    · left
      rw [apply_other _ _ _ _ _ _ (by decide)]
      apply apply_eq _ _ _ _ _ (by decide)
      · intro bb hb eb
        rw [a] at hb
        rcases List.mem_append.1 hb with hb | hb
        · obtain ⟨h1, h2⟩ := mem_map_record hb
          rw [next_inj eb] at h2
          exact absurd hi1 (mem_leaveIn.1 h2).2.1
        · obtain ⟨h1, h2⟩ := mem_map_record hb
          rw [next_inj eb] at h1
          rw [h1]; exact hval 2
      · right
        refine ⟨record g geo (lines 2) 2 p, ?_, rfl⟩
        rw [a]
        exact List.mem_append.2 (Or.inr (List.mem_map.2 ⟨p, mem_leaveIn.2 ⟨hp, hi2, hx⟩, rfl⟩))
  · unfold applyAll
    rw [apply_other _ _ _ _ _ _ (by decide), apply_other _ _ _ _ _ _ (by decide), apply_other _ _ _ _ _ _ (by decide),
      apply_other _ _ _ _ _ _ (by decide)]
    unfold calcSlices
    rw [next_next, e 2 (by decide), if_neg]
    rintro ⟨_, hc⟩
    exact absurd (decide_eq_false_iff_not.1 hc) (fun hn => hn ⟨mem_interior.2 hp, hi2⟩)

/-! ## The conditions -/

/-- **C70.** `dirichlet`: the straight line from the point to the slice value has the boundary value at the distance recorded. -/
theorem C70_dirichlet (f value dy length : K) (hl : length ≠ 0) (hdy : dy ≠ 0) :
    f + (dirichletVal f value dy length - f) * (length / dy) = value := by
  unfold dirichletVal
  field_simp
  ring

/-- **C70.** At the recorded distance, half a cell, the mean of the two is the boundary value. -/
theorem C70_dirichlet_half (g : Grid) (geo : Geo K) (m : Line K) (o : Int) (p : Pt) (src : Src K) (f : Pt → K) (dir : Int)
    (s : Slices K) (hdy : geo.dy p ≠ 0) :
    (f p + Op.value .dirichlet src geo.dy f dir s (record g geo m o p)) / 2 = src.on (record g geo m o p) := by
  unfold Op.value dirichletVal
  dsimp only
  rw [record_p]
  have : (record g geo m o p).length = 1 / 2 * geo.dy p := rfl
  rw [this]
  field_simp
  ring

/-- **C70.** `neumann`: the difference along the field is the boundary value, in the direction of increasing Y. -/
theorem C70_neumann (f value dy : K) (dir : Int) (hd : dir = 1 ∨ dir = -1) (hdy : dy ≠ 0) :
    (neumannVal f value dy dir - f) / (dir * dy) = value := by
  unfold neumannVal
  rcases hd with rfl | rfl
  · push_cast; field_simp; ring
  · push_cast; field_simp; ring

/-- **C70.** `dirichlet_O3` is exact for quadratics: if the opposite slice, the point and the boundary lie on `a + b s + c s²` then so
does the value set. -/
theorem C70_dirichlet_o3 (a b c dy length : K) (hl : 0 < length) (hdy : 0 < dy) :
    dirichletO3Val (a + b * (-dy) + c * (-dy) ^ 2) a (a + b * length + c * length ^ 2) dy length = a + b * dy + c * dy ^ 2 := by
  unfold dirichletO3Val
  dsimp only
  have h1 : dy * dy * length + dy * length * length ≠ 0 := by positivity
  rw [div_eq_iff h1]
  ring

/-- **C70, what fails.** `dirichlet_interp` does not even keep a constant: on a field equal to the boundary value everywhere, at half a
cell with unit spacing, it sets minus fourteen thirds of it. -/
theorem C70_dirichlet_interp_violated (v : K) : dirichletInterpVal v v v 1 (1 / 2) = -(14 / 3) * v := by
  unfold dirichletInterpVal
  norm_num
  ring

/-- **C70, what fails.** `dirichlet_O3` reads the opposite slice. At a point both of whose lines leave through the inner side it is applied
forward before the backward value is set, and so uses whatever was in memory there. -/
theorem C70_o3_order_violated (g : Grid) (geo : Geo K) (lines : Int → Line K) (h : g.ystart = 1) (M : Method K) (f : Pt → K)
    (junk : Slices K) (v : K) (p : Pt) (hp : Interior g p) (h0 : 0 ≤ g.xstart) (hx : (lines 1).xt p < 0)
    (hx' : (lines (-1)).xt p < 0) :
    let t := construct g geo lines
    applyAll .dirichletO3 (.real v) geo.dy f t (calcSlices g t lines M f junk) 1 (p.next 1) =
      dirichletO3Val (junk (-1) (p.next (-1))) (f p) v (geo.dy p) (1 / 2 * geo.dy p) := by
  classical
  obtain ⟨a, b, c, d, e⟩ := construct_one g geo lines h
  have hs : (0 : K) ≤ g.xstart := by exact_mod_cast h0
  have out : ∀ m : Line K, m.xt p < 0 → ¬ Inside g m p := fun m hm hc => absurd (hs.trans hc.1) (not_le.2 hm)
  dsimp only
  unfold applyAll
  rw [apply_other _ _ _ _ _ _ (by decide), apply_none, apply_other _ _ _ _ _ _ (by decide)]
  · apply apply_eq _ _ _ _ _ (by decide)
    · intro bb hb eb
      rw [a] at hb
      obtain ⟨h1, h2⟩ := mem_map_record hb
      rw [next_inj eb] at h1
      rw [h1]
      unfold Op.value
      dsimp only
      rw [record_p]
      have : calcSlices g (construct g geo lines) lines M f junk (-1) (p.next (-1)) = junk (-1) (p.next (-1)) := by
        unfold calcSlices
        rw [next_next, e (-1) (by decide), if_neg]
        rintro ⟨_, hc⟩
        exact absurd (decide_eq_false_iff_not.1 hc) (fun hn => hn ⟨mem_interior.2 hp, out _ hx'⟩)
      rw [this]
      rfl
    · right
      refine ⟨record g geo (lines 1) 1 p, ?_, rfl⟩
      rw [a]
      exact List.mem_map.2 ⟨p, mem_leaveIn.2 ⟨hp, out _ hx, hx⟩, rfl⟩
  · intro bb hb eb
    rw [b] at hb
    obtain ⟨_, h2⟩ := mem_map_record hb
    rw [next_inj eb] at h2
    exact (mem_leaveOut.1 h2).2.2 hx

/-- **C70.** `dirichlet_O3` forward at a point whose backward line is inside: the value set is on the quadratic through the backward
interpolated value, the point and the boundary, whichever side the line leaves by. -/
theorem C70_o3_complete_partial (g : Grid) (geo : Geo K) (lines : Int → Line K) (h : g.ystart = 1) (M : Method K) (f : Pt → K)
    (junk : Slices K) (src : Src K) (p : Pt) (hp : Interior g p) (hi : ¬ Inside g (lines 1) p) (hi' : Inside g (lines (-1)) p) :
    let t := construct g geo lines
    applyAll .dirichletO3 src geo.dy f t (calcSlices g t lines M f junk) 1 (p.next 1) =
      dirichletO3Val (M (fun x z => f ⟨x, p.y - 1, z⟩) ((lines (-1)).xt p) ((lines (-1)).zt p)) (f p)
        (src.on (record g geo (lines 1) 1 p)) (geo.dy p) (1 / 2 * geo.dy p) := by
  classical
  obtain ⟨a, b, c, d, e⟩ := construct_one g geo lines h
  dsimp only
  unfold applyAll
  have hS : calcSlices g (construct g geo lines) lines M f junk (-1) (p.next (-1)) =
      M (fun x z => f ⟨x, p.y - 1, z⟩) ((lines (-1)).xt p) ((lines (-1)).zt p) := by
    unfold calcSlices
    rw [next_next, e (-1) (by decide), if_pos ⟨mem_interior.2 hp, decide_eq_false fun hc => hc.2 hi'⟩]
    rfl
  generalize calcSlices g (construct g geo lines) lines M f junk = S at hS
  have val : ∀ s : Slices K, s (-1) (p.next (-1)) = S (-1) (p.next (-1)) →
      Op.value .dirichletO3 src geo.dy f 1 s (record g geo (lines 1) 1 p) =
        dirichletO3Val (M (fun x z => f ⟨x, p.y - 1, z⟩) ((lines (-1)).xt p) ((lines (-1)).zt p)) (f p)
          (src.on (record g geo (lines 1) 1 p)) (geo.dy p) (1 / 2 * geo.dy p) := by
    intro s hs
    unfold Op.value
    dsimp only
    rw [record_p, hs, hS]
    rfl
  have some : ∀ (l : List Pt) (s : Slices K), s (-1) (p.next (-1)) = S (-1) (p.next (-1)) →
      (s 1 (p.next 1) = Op.value .dirichletO3 src geo.dy f 1 S (record g geo (lines 1) 1 p) ∨ p ∈ l) →
      Op.apply .dirichletO3 src geo.dy f 1 (l.map (record g geo (lines 1) 1)) s 1 (p.next 1) =
        Op.value .dirichletO3 src geo.dy f 1 S (record g geo (lines 1) 1 p) := by
    intro l s hs hl
    apply apply_eq _ _ _ _ _ (by decide)
    · intro bb hb eb
      obtain ⟨hb1, _⟩ := mem_map_record hb
      rw [next_inj eb] at hb1
      rw [hb1, val s hs, val S rfl]
    · rcases hl with hl | hl
      · exact Or.inl hl
      · exact Or.inr ⟨_, List.mem_map.2 ⟨p, hl, rfl⟩, rfl⟩
  rw [apply_other _ _ _ _ _ _ (by decide), a, b, c, ← val S rfl]
  have hback : ∀ s : Slices K,
      Op.apply .dirichletO3 src geo.dy f (-1) ((leaveIn g (lines (-1))).map (record g geo (lines (-1)) (-1))) s (-1) (p.next (-1)) =
        s (-1) (p.next (-1)) := by
    intro s
    apply apply_none
    intro bb hb eb
    obtain ⟨_, hb2⟩ := mem_map_record hb
    rw [next_inj eb] at hb2
    exact (mem_leaveIn.1 hb2).2.1 hi'
  apply some
  · rw [hback, apply_other _ _ _ _ _ _ (by decide)]
  · by_cases hx : (lines 1).xt p < 0
    · left
      rw [apply_other _ _ _ _ _ _ (by decide)]
      exact some _ _ rfl (Or.inr (mem_leaveIn.2 ⟨hp, hi, hx⟩))
    · exact Or.inr (mem_leaveOut.2 ⟨hp, hi, hx⟩)

/-! ## The point on the boundary -/

/-- Positions that are affine in the indices. -/
def Affine (g : Grid) (R : Pt → K) (r0 rx rz : K) : Prop :=
  ∀ p : Pt, 0 ≤ p.z → p.z < g.nz → R p = r0 + rx * p.x + rz * p.z

theorem dX_affine {g : Grid} {R : Pt → K} {r0 rx rz : K} (h : Affine g R r0 rx rz) {p : Pt} (hz : 0 ≤ p.z ∧ p.z < g.nz) :
    dX R p = rx := by
  unfold dX
  rw [h p.xp hz.1 hz.2, h p.xm hz.1 hz.2]
  unfold Pt.xp Pt.xm
  dsimp only
  push_cast
  ring

theorem dZ_affine {g : Grid} {R : Pt → K} {r0 rx rz : K} (h : Affine g R r0 rx rz) {p : Pt} (hz : 0 ≤ p.z ∧ p.z < g.nz)
    (hn : 1 < g.nz) : dZ g R p = rz := by
  have hzp : p.z ≠ g.nz - 1 → R (g.zp p) = r0 + rx * p.x + rz * (p.z + 1) := by
    intro hne
    have e : g.zp p = ⟨p.x, p.y, p.z + 1⟩ := by unfold Grid.zp; rw [if_neg hne]
    rw [e, h _ (by dsimp only; omega) (by dsimp only; omega)]
    push_cast; ring
  have hzm : p.z ≠ 0 → R (g.zm p) = r0 + rx * p.x + rz * (p.z - 1) := by
    intro hne
    have e : g.zm p = ⟨p.x, p.y, p.z - 1⟩ := by unfold Grid.zm; rw [if_neg hne]
    rw [e, h _ (by dsimp only; omega) (by dsimp only; omega)]
    push_cast; ring
  unfold dZ
  by_cases h0 : p.z = 0
  · rw [if_pos h0, hzp (by omega), h p hz.1 hz.2]; ring
  · rw [if_neg h0]
    by_cases h1 : p.z = g.nz - 1
    · rw [if_pos h1, hzm h0, h p hz.1 hz.2]; ring
    · rw [if_neg h1, hzp h1, hzm h0]; ring

/-- **C70.** Where `R` and `Z` are affine in the X and Z indices, the recorded X and Z are the indices of the end of the field line:
`R` and `Z` there are `R_prime` and `Z_prime`. -/
theorem C70_end_of_line (g : Grid) (geo : Geo K) (m : Line K) (o : Int) (p : Pt) (r0 rx rz z0 zx zz : K)
    (hR : Affine g geo.R r0 rx rz) (hZ : Affine g geo.Z z0 zx zz) (hz : 0 ≤ p.z ∧ p.z < g.nz) (hn : 1 < g.nz)
    (hdet : rx * zz - rz * zx ≠ 0) :
    r0 + rx * (record g geo m o p).sx + rz * (record g geo m o p).sz = m.R' p ∧
    z0 + zx * (record g geo m o p).sx + zz * (record g geo m o p).sz = m.Z' p := by
  have e1 : (record g geo m o p).sx = p.x + hitX g geo m p := rfl
  have e2 : (record g geo m o p).sz = p.z + hitZ g geo m p := rfl
  rw [e1, e2]
  unfold hitX hitZ det
  rw [dX_affine hR hz, dX_affine hZ hz, dZ_affine hR hz hn, dZ_affine hZ hz hn, hR p hz.1 hz.2, hZ p hz.1 hz.2]
  have hu : (rx * zz - rz * zx) * (rx * zz - rz * zx)⁻¹ = 1 := mul_inv_cancel₀ hdet
  simp only [div_eq_mul_inv]
  generalize (rx * zz - rz * zx)⁻¹ = u at hu
  constructor
  · linear_combination (m.R' p - (r0 + rx * p.x + rz * p.z)) * hu
  · linear_combination (m.Z' p - (z0 + zx * p.x + zz * p.z)) * hu

/-- **C70, what fails.** The recorded Y is half way along the line and the recorded distance half a cell, but the recorded X and Z are
those of its end. So the point at which boundary values are evaluated lies on the straight field line (from the point to
`(x + dx, y + offset, z + dz)`) only if the line does not move in X and Z at all. -/
theorem C70_off_line_violated (g : Grid) (geo : Geo K) (m : Line K) (o : Int) (ho : o ≠ 0) (p : Pt) :
    (∃ τ : K, (record g geo m o p).sx = p.x + τ * hitX g geo m p ∧ (record g geo m o p).sy = p.y + τ * o ∧
      (record g geo m o p).sz = p.z + τ * hitZ g geo m p) ↔ hitX g geo m p = 0 ∧ hitZ g geo m p = 0 := by
  have e1 : (record g geo m o p).sx = p.x + hitX g geo m p := rfl
  have e2 : (record g geo m o p).sz = p.z + hitZ g geo m p := rfl
  have e3 : (record g geo m o p).sy = p.y + 1 / 2 * o := rfl
  rw [e1, e2, e3]
  have hoK : (o : K) ≠ 0 := by exact_mod_cast ho
  constructor
  · rintro ⟨τ, h1, h2, h3⟩
    have ht : τ = 1 / 2 := by
      have : (τ - 1 / 2) * (o : K) = 0 := by linear_combination -h2
      rcases mul_eq_zero.1 this with h | h
      · linear_combination h
      · exact absurd h hoK
    rw [ht] at h1 h3
    exact ⟨by linear_combination 2 * h1, by linear_combination 2 * h3⟩
  · rintro ⟨h1, h2⟩
    exact ⟨1 / 2, by rw [h1]; ring, rfl, by rw [h2]; ring⟩

/-! ## Integration -/

/-- The previous Z point of an interior point is an interior point. -/
theorem zm_interior {g : Grid} {p : Pt} (h : Interior g p) : Interior g (g.zm p) := by
  unfold Interior Grid.zm at *
  dsimp only
  refine ⟨h.1, h.2.1, ?_⟩
  split <;> omega

/-- **C70.** The Z neighbours used for the corners and the differences are the periodic ones. -/
theorem C70_z_periodic (g : Grid) (p : Pt) (h : Interior g p) :
    g.zm p = ⟨p.x, p.y, (p.z - 1) % g.nz⟩ ∧ g.zp p = ⟨p.x, p.y, (p.z + 1) % g.nz⟩ := by
  obtain ⟨_, _, h0, h1⟩ := h
  unfold Grid.zm Grid.zp
  constructor
  · congr 1
    split_ifs with hz
    · rw [hz, show (0 - 1 : Int) = (g.nz - 1) + g.nz * (-1) by ring, Int.add_mul_emod_self_left, Int.emod_eq_of_lt (by omega) (by omega)]
    · rw [Int.emod_eq_of_lt (by omega) (by omega)]
  · congr 1
    split_ifs with hz
    · rw [hz, show (g.nz - 1 + 1 : Int) = g.nz by ring, Int.emod_self]
    · rw [Int.emod_eq_of_lt (by omega) (by omega)]

/-- **C70.** `integrate` uses only corner values that were calculated: where it averages, the four corners are in the interior and none
of them is marked, so nothing depends on memory. -/
theorem C70_integrate_corners (g : Grid) (m : Line K) (offset : Int) (mask : Pt → Bool) (M : Method K) (f : Pt → K)
    (junk result : Pt → K) (p : Pt) (hp : Interior g p) (hm : mask p = false)
    (hc : ¬ (cornerOut g m p = true ∨ cornerOut g m p.xm = true ∨ cornerOut g m (g.zm p) = true ∨
        cornerOut g m (g.zm p).xm = true ∨ p.x = g.xstart)) :
    integrate g m offset mask M f junk result p =
      1 / 2 * (M (fun x z => f ⟨x, p.y + offset, z⟩) (m.xt p) (m.zt p) +
        1 / 4 * (M (fun x z => f ⟨x, p.y + offset, z⟩) (cornerMean g m.xt p) (cornerMean g m.zt p) +
          M (fun x z => f ⟨x, p.y + offset, z⟩) (cornerMean g m.xt p.xm) (cornerMean g m.zt p.xm) +
          M (fun x z => f ⟨x, p.y + offset, z⟩) (cornerMean g m.xt (g.zm p)) (cornerMean g m.zt (g.zm p)) +
          M (fun x z => f ⟨x, p.y + offset, z⟩) (cornerMean g m.xt (g.zm p).xm) (cornerMean g m.zt (g.zm p).xm))) := by
  unfold integrate
  rw [if_neg (by rw [hm]; decide)]
  dsimp only
  rw [if_neg hc]
  push Not at hc
  obtain ⟨c1, c2, c3, c4, hx⟩ := hc
  have xm : ∀ q, Interior g q → q.x ≠ g.xstart → Interior g q.xm := by
    intro q hq hne
    unfold Interior Pt.xm at *
    dsimp only
    refine ⟨by omega, hq.2⟩
  have hz := zm_interior hp
  have hzx : (g.zm p).x = p.x := rfl
  have use : ∀ q : Pt, q.y = p.y → Interior g q → cornerOut g m q ≠ true → corner g m offset M f junk q =
      M (fun x z => f ⟨x, p.y + offset, z⟩) (cornerMean g m.xt q) (cornerMean g m.zt q) := by
    intro q hy hq hn
    unfold corner
    rw [if_pos ⟨mem_interior.2 hq, by simpa using hn⟩, hy]
  rw [use p rfl hp c1, use p.xm rfl (xm p hp hx) c2, use (g.zm p) rfl hz c3, use (g.zm p).xm rfl (xm _ hz (by rw [hzx]; exact hx)) c4]

/-- **C70.** Hence `integrate` keeps a constant if the interpolation does, at every point whose line is inside. -/
theorem C70_integrate_constant (g : Grid) (m : Line K) (offset : Int) (mask : Pt → Bool) (M : Method K) (v : K)
    (hM : ∀ a b, M (fun _ _ => v) a b = v) (junk result : Pt → K) (p : Pt) (hp : Interior g p) (hm : mask p = false) :
    integrate g m offset mask M (fun _ => v) junk result p = v := by
  by_cases hc : cornerOut g m p = true ∨ cornerOut g m p.xm = true ∨ cornerOut g m (g.zm p) = true ∨
        cornerOut g m (g.zm p).xm = true ∨ p.x = g.xstart
  · unfold integrate
    rw [if_neg (by rw [hm]; decide)]
    dsimp only
    rw [if_pos hc]
    exact hM _ _
  · rw [C70_integrate_corners g m offset mask M _ junk result p hp hm hc]
    simp only [hM]
    ring

/-- **C70, what fails.** The corner check looks only for negative indices: a corner one of whose four lines has left through the outer
side is not marked, and its value is interpolated at a mean of indices inside and outside the domain. -/
theorem C70_outer_corner_violated (g : Grid) (m : Line K) (p : Pt)
    (h1 : 0 ≤ m.xt p) (h2 : (g.xend : K) < m.xt p.xp) (h3 : 0 ≤ m.xt (g.zp p).xp) (h4 : 0 ≤ m.xt (g.zp p)) (he : 0 ≤ g.xend) :
    cornerOut g m p = false := by
  unfold cornerOut
  rw [decide_eq_false_iff_not]
  have : (0 : K) ≤ g.xend := by exact_mod_cast he
  rintro ⟨_, h | h | h | h⟩
  · exact absurd h (not_lt.2 h1)
  · exact absurd h (not_lt.2 (this.trans h2.le))
  · exact absurd h (not_lt.2 h3)
  · exact absurd h (not_lt.2 h4)

/-- **C70.** Under a map that moves every point by the same amount, the corner of an interior point is taken to the middle between
the images of its four points, except across the end of the Z range. -/
theorem C70_corner_position_partial (g : Grid) (m : Line K) (a b : K) (hx : ∀ q, m.xt q = q.x + a) (hz : ∀ q, m.zt q = q.z + b)
    (p : Pt) (hp : p.z ≠ g.nz - 1) :
    cornerMean g m.xt p = p.x + 1 / 2 + a ∧ cornerMean g m.zt p = p.z + 1 / 2 + b := by
  unfold cornerMean
  rw [hx, hx, hx, hx, hz, hz, hz, hz]
  unfold Pt.xp Grid.zp
  dsimp only
  rw [if_neg hp]
  push_cast
  constructor <;> ring

/-- **C70, what fails.** At the last Z point the mean is taken of indices on both sides of the periodic boundary: the corner, which
should be at `nz - 1/2 + b`, is put at half that distance, on the other side of the domain. -/
theorem C70_corner_wrap_violated (g : Grid) (m : Line K) (b : K) (hz : ∀ q, m.zt q = q.z + b) (p : Pt) (hp : p.z = g.nz - 1) :
    cornerMean g m.zt p = ((g.nz : K) - 1) / 2 + b := by
  unfold cornerMean
  rw [hz, hz, hz, hz]
  unfold Pt.xp Grid.zp
  dsimp only
  rw [if_pos hp, hp]
  push_cast
  ring

/-! ## Examples -/

/-- **C70.** Which value each condition takes from where. A generated value for `dirichlet` is taken where the line meets the
boundary, half a cell along `y` and displaced in the plane; one for `neumann` is taken at the point the line starts from; a field's value
is always the one at that point. -/
theorem C70_boundary_values (g : Grid) (geo : Geo K) (m : Line K) (o : Int) (p : Pt) (atPoint v : Pt → K) (atPosition : K → K → K → K)
    (c : K) (f : Pt → K) (dir : Int) (s : Slices K) (hdir : dir = 1 ∨ dir = -1) (hdy : geo.dy p ≠ 0) :
    (∀ src : Src K, ∀ w : K,
      (src = .gen atPoint atPosition ∧ w = atPosition (p.x + hitX g geo m p) (p.y + 1 / 2 * o) (p.z + hitZ g geo m p) ∨
        src = .field v ∧ w = v p ∨ src = .real c ∧ w = c) →
      (f p + Op.value .dirichlet src geo.dy f dir s (record g geo m o p)) / 2 = w) ∧
    (∀ src : Src K, ∀ w : K,
      (src = .gen atPoint atPosition ∧ w = atPoint p ∨ src = .field v ∧ w = v p ∨ src = .real c ∧ w = c) →
      (Op.value .neumann src geo.dy f dir s (record g geo m o p) - f p) / (dir * geo.dy p) = w) := by
  constructor
  · rintro src w (⟨rfl, rfl⟩ | ⟨rfl, rfl⟩ | ⟨rfl, rfl⟩)
    all_goals
      rw [C70_dirichlet_half g geo m o p _ f dir s hdy]
      rfl
  · rintro src w (⟨rfl, rfl⟩ | ⟨rfl, rfl⟩ | ⟨rfl, rfl⟩)
    all_goals exact C70_neumann (f p) _ (geo.dy p) dir hdir hdy

/-- A mesh of 4 by 3 by 8 points. -/
def demoGrid : Grid := ⟨1, 4, 1, 3, 8⟩
/-- Lines that shift by two in X. -/
def demoLines : Int → Line ℚ := fun o =>
  { xt := fun p => if o * 2 + p.x < 1 then -1 else ((o * 2 + p.x : Int) : ℚ), zt := fun p => p.z, R' := fun p => p.x + 2 * o, Z' := fun p => p.z }

example : Interior demoGrid ⟨2, 2, 0⟩ ∧ Inside demoGrid (demoLines 1) ⟨2, 2, 0⟩ ∧ ¬ Inside demoGrid (demoLines (-1)) ⟨2, 2, 0⟩ ∧
    ¬ Inside demoGrid (demoLines 1) ⟨3, 2, 0⟩ ∧ (demoLines (-1)).xt ⟨2, 2, 0⟩ < 0 := by
  unfold Interior Inside demoGrid demoLines
  norm_num

/-- Lines that end in the guard cell and, on the second step, outside. -/
def demoShort : Int → Line ℚ := fun o =>
  { xt := fun p => if o = 2 then -1 else p.x - 1 / 2, zt := fun p => p.z, R' := fun p => p.x, Z' := fun p => p.z }

example : Interior demoGrid ⟨1, 2, 3⟩ ∧ 0 ≤ (demoShort 1).xt ⟨1, 2, 3⟩ ∧ (demoShort 1).xt ⟨1, 2, 3⟩ < demoGrid.xstart := by
  unfold Interior demoGrid demoShort
  norm_num

example : Interior { demoGrid with ystart := 2 } ⟨2, 2, 3⟩ ∧ Inside demoGrid (demoShort 1) ⟨2, 2, 3⟩ ∧
    ¬ Inside demoGrid (demoShort 2) ⟨2, 2, 3⟩ ∧ (demoShort 2).xt ⟨2, 2, 3⟩ < 0 := by
  unfold Interior Inside demoGrid demoShort
  norm_num

end Verif.Fci
