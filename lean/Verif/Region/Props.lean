import Verif.Region.Lemmas2
import Mathlib.Data.List.Chain
/-!
# C03-C06: rectangular regions, blocked iteration, region algebra, shifts

Specifications used: `pointInd` (the index object of a grid point, `IndProps.lean`), `rollSpec`
(numpy-style roll of one flat index: stay in the period, move by `s` modulo `p`), and plain list/set
vocabulary (`∈`, `Perm`, `Pairwise`, `filter`).
-/

namespace Verif.Region
open Region

/-! ## C03 -/

/-- **C03** A region built from a box: construction terminates without an out-of-bounds write, holds
exactly the indices of the box's points, and as many as the box has points. -/
theorem C03_box_region (xs xe ys ye zs ze ny nz maxb : Int) (hny : 0 < ny) (hnz : 0 < nz)
    (hmax : 0 < maxb) :
    ∃ r, Region.ofBox .ind3D xs xe ys ye zs ze ny nz maxb = .ok r ∧
      (∀ i, i ∈ r.indices ↔ ∃ x y z, xs ≤ x ∧ x ≤ xe ∧ ys ≤ y ∧ y ≤ ye ∧ zs ≤ z ∧ z ≤ ze ∧
        i = pointInd ny nz x y z) ∧
      r.indices.length = (xe - xs + 1).toNat * ((ye - ys + 1).toNat * (ze - zs + 1).toNat) ∧
      r.ny = ny ∧ r.nz = nz := by
  refine ⟨_, ofBox_eq xs xe ys ye zs ze ny nz maxb hny hnz hmax, ?_, ?_, rfl, rfl⟩
  · intro i; exact mem_xBox
  · exact xBox_length _ _ _ _ _ _

/-- **C03** When the box lies inside the grid, the indices are strictly increasing, so every point of
the box appears exactly once. -/
theorem C03_box_region_increasing (xs xe ys ye zs ze ny nz maxb : Int) (hny : 0 < ny) (hnz : 0 < nz)
    (hmax : 0 < maxb) (hy0 : 0 ≤ ys) (hy1 : ye < ny) (hz0 : 0 ≤ zs) (hz1 : ze < nz) :
    ∃ r, Region.ofBox .ind3D xs xe ys ye zs ze ny nz maxb = .ok r ∧
      r.indices.Pairwise (fun i j => i.ind < j.ind) := by
  refine ⟨_, ofBox_eq xs xe ys ye zs ze ny nz maxb hny hnz hmax, ?_⟩
  unfold boxRegion
  · by_cases hy : ys ≤ ye
    · by_cases hz : zs ≤ ze
      · apply xBox_pairwise <;> omega
      · simp only [show (ze - zs + 1).toNat = 0 by omega]
        simp [xBox, yPlane, zLine, List.flatMap_eq_nil_iff.2]
    · simp only [show (ye - ys + 1).toNat = 0 by omega]
      simp [xBox, yPlane, List.flatMap_eq_nil_iff.2]

/-- **C03** An inverted range in any direction gives the empty region (whatever `ny`, `nz`). -/
theorem C03_empty (xs xe ys ye zs ze ny nz maxb : Int) (hmax : 0 < maxb)
    (h : xe < xs ∨ ye < ys ∨ ze < zs) :
    ∃ r, Region.ofBox .ind3D xs xe ys ye zs ze ny nz maxb = .ok r ∧ r.indices = [] ∧ r.blocks = [] := by
  refine ⟨{ indices := [], blocks := getContiguousBlocks maxb [], ny := ny, nz := nz }, ?_, rfl, ?_⟩
  · unfold Region.ofBox createRegionIndices
    rw [if_pos (show xe + 1 ≤ xs ∨ ye + 1 ≤ ys ∨ ze + 1 ≤ zs by omega)]
    simp [hmax]
  · rw [getContiguousBlocks]

example : ∃ r, Region.ofBox .ind3D 1 2 0 1 2 3 2 4 3 = .ok r ∧
    r.indices.map Ind.ind = [10, 11, 14, 15, 18, 19, 22, 23] := ⟨_, rfl, by decide⟩

/-- What the constructor's checks promise for a 2D region: `nz = 1`, and all points have `z = 0`
(each point once). -/
def Ind2DPromise (r : Region) : Prop := r.indices.Pairwise (fun i j => i.ind ≠ j.ind)

/-- **C03, violated for `Ind2D`** (finding F9).  The constructor checks `zstart` twice and never `zend`,
so a 2D region with `zend = 1` is accepted and contains one storage cell twice. -/
theorem C03_ind2D_zend_unchecked :
    ∃ r, Region.ofBox .ind2D 0 0 0 1 0 1 2 1 = .ok r ∧ ¬ Ind2DPromise r := by
  refine ⟨_, rfl, ?_⟩
  unfold Ind2DPromise
  decide

/-- **C03** for 2D regions the promise does hold when the caller respects `zend = 0`. -/
theorem C03_ind2D_partial (xs xe ys ye ny : Int) (hny : 0 < ny) (hy0 : 0 ≤ ys) (hy1 : ye < ny) :
    ∃ r, Region.ofBox .ind2D xs xe ys ye 0 0 ny 1 = .ok r ∧ Ind2DPromise r ∧
      ∀ i, i ∈ r.indices ↔ ∃ x y, xs ≤ x ∧ x ≤ xe ∧ ys ≤ y ∧ y ≤ ye ∧ i = pointInd ny 1 x y 0 := by
  obtain ⟨r, h1, h2⟩ := C03_box_region_increasing xs xe ys ye 0 0 ny 1 64 hny (by decide) (by decide)
    hy0 hy1 (by decide) (by decide)
  obtain ⟨r', h1', h3, _⟩ := C03_box_region xs xe ys ye 0 0 ny 1 64 hny (by decide) (by decide)
  have e : r' = r := by rw [h1] at h1'; exact (Except.ok.inj h1').symm
  subst e
  refine ⟨r', ?_, ?_, ?_⟩
  · rw [← h1]; unfold Region.ofBox; simp [maxRegionBlockSize]
  · exact h2.imp (by intro a b h; omega)
  · intro i
    rw [h3]
    constructor
    · rintro ⟨x, y, z, a, b, c, d, e, f, rfl⟩
      exact ⟨x, y, a, b, c, d, by rw [show z = 0 by omega]⟩
    · rintro ⟨x, y, a, b, c, d, rfl⟩
      exact ⟨x, y, 0, a, b, c, d, by omega, by omega, rfl⟩

/-! ## C04 -/

/-- **C04** Blocked iteration visits exactly the flat indices of the region, in order and with
multiplicity, for any index list and any maximum block size. -/
theorem C04_blocked_iteration (l : List Ind) (maxb : Int) :
    (iterate (getContiguousBlocks maxb l)).map Ind.ind = l.map Ind.ind := iterate_map_ind maxb l

/-- **C04** When all indices carry the same grid sizes (every region of one mesh), the loop variable
itself is the index object of the list, grid sizes included. -/
theorem C04_blocked_iteration_exact (l : List Ind) (maxb ny nz : Int)
    (hu : ∀ i ∈ l, i.ny = ny ∧ i.nz = nz) : iterate (getContiguousBlocks maxb l) = l :=
  iterate_eq maxb ny nz l hu

/-- **C04** Every block is non-empty and no longer than the maximum block size, and blocks are only cut
where they are full or the indices are not consecutive. -/
theorem C04_block_sizes (l : List Ind) (maxb : Int) (hmax : 0 < maxb) :
    (∀ b ∈ getContiguousBlocks maxb l, 1 ≤ b.2.ind - b.1.ind ∧ b.2.ind - b.1.ind ≤ maxb) ∧
    (getContiguousBlocks maxb l).IsChain
      (fun b c => b.2.ind - b.1.ind = maxb ∨ c.1.ind ≠ b.2.ind) := by
  refine ⟨fun b hb => ?_, ?_⟩
  · have := blocks_size maxb l b hb; omega
  · have hsz := blocks_size maxb l
    rw [List.isChain_iff_forall_rel_of_append_cons_cons]
    intro b c l1 l2 h
    have hc := (List.isChain_iff_forall_rel_of_append_cons_cons.1 (blocks_greedy maxb l)) h
    have hb := hsz b (by rw [h]; simp)
    omega

/-- **C04** (threads).  However the blocks are dealt out to threads (`ts` lists each thread's blocks,
in any order), all threads together visit exactly the region's points, with multiplicity. -/
theorem C04_threads_cover (l : List Ind) (maxb : Int) (ts : List (List Block))
    (h : ts.flatten.Perm (getContiguousBlocks maxb l)) :
    ((ts.flatMap iterate).map Ind.ind).Perm (l.map Ind.ind) := by
  have e : ts.flatMap iterate = iterate ts.flatten := by
    unfold iterate
    clear h
    induction ts with
    | nil => rfl
    | cons t ts ih => simp [List.flatMap_append, List.flatMap_cons, ih]
  rw [e, ← iterate_map_ind maxb l]
  exact (List.Perm.flatMap_right _ h).map _

/-- **C04** (no data race).  If the region has no repeated point, no two threads ever visit the same
point, whatever the schedule. -/
theorem C04_threads_disjoint (l : List Ind) (maxb : Int) (hnd : (l.map Ind.ind).Nodup)
    (ts : List (List Block)) (h : ts.flatten.Perm (getContiguousBlocks maxb l)) :
    ts.Pairwise (fun a b => ∀ i ∈ iterate a, ∀ j ∈ iterate b, i.ind ≠ j.ind) := by
  have hp := C04_threads_cover l maxb ts h
  have hn : ((ts.flatMap iterate).map Ind.ind).Nodup := hp.nodup_iff.2 hnd
  rw [List.map_flatMap, List.Nodup, List.pairwise_flatMap] at hn
  refine hn.2.imp ?_
  intro a b hab i hi j hj
  exact hab _ (List.mem_map_of_mem hi) _ (List.mem_map_of_mem hj)

example : (getContiguousBlocks 3 [⟨0,2,4⟩, ⟨1,2,4⟩, ⟨2,2,4⟩, ⟨3,2,4⟩, ⟨7,2,4⟩, ⟨7,2,4⟩, ⟨2,2,4⟩]).map
    (fun b => (b.1.ind, b.2.ind)) = [(0, 3), (3, 4), (7, 8), (7, 8), (2, 3)] := by
  simp [getContiguousBlocks, takeBlock, Ind.succ]

/-! ## C05 -/

/-- **C05** `mask` removes exactly the points of the mask and keeps everything else, in order. -/
theorem C05_mask (r m : Region) :
    (r.mask m).indices = r.indices.filter (fun v => decide (v.ind ∉ m.indices.map Ind.ind)) := by
  unfold Region.mask Region.setIndices
  simp only
  apply List.filter_congr
  intro v _
  have := stdContains_sort m.indices v
  by_cases h : v.ind ∈ m.indices.map Ind.ind
  · simp [this.2 h, h]
  · have : stdContains (stdSort m.indices) v = false := by
      rw [← Bool.not_eq_true]; exact fun hh => h (this.1 hh)
    simp [this, h]

/-- **C05** `getIntersection` keeps exactly the common points, in order. -/
theorem C05_intersection (r o : Region) :
    (r.getIntersection o).indices = r.indices.filter (fun v => decide (v.ind ∈ o.indices.map Ind.ind)) := by
  unfold Region.getIntersection Region.setIndices
  simp only
  apply List.filter_congr
  intro v _
  have := stdContains_sort o.indices v
  by_cases h : v.ind ∈ o.indices.map Ind.ind
  · simp [this.2 h, h]
  · have : stdContains (stdSort o.indices) v = false := by
      rw [← Bool.not_eq_true]; exact fun hh => h (this.1 hh)
    simp [this, h]

/-- **C05** mask and intersection partition the region. -/
theorem C05_mask_intersection_partition (r o : Region) :
    ((r.mask o).indices ++ (r.getIntersection o).indices).Perm r.indices := by
  rw [C05_mask, C05_intersection]
  refine List.Perm.trans List.perm_append_comm ?_
  have := List.filter_append_perm (fun v : Ind => decide (v.ind ∈ o.indices.map Ind.ind)) r.indices
  refine List.Perm.trans ?_ this
  apply List.Perm.append_left
  apply List.Perm.of_eq
  apply List.filter_congr
  intro v _
  rw [decide_not]

/-- **C05** `sort` gives the sorted permutation. -/
theorem C05_sort (r : Region) :
    r.asSorted.indices.Perm r.indices ∧ r.asSorted.indices.Pairwise (fun i j => i.ind ≤ j.ind) :=
  ⟨stdSort_perm _, stdSort_sorted _⟩

/-- **C05** `unique` gives the strictly increasing list of the same points. -/
theorem C05_unique (r : Region) :
    r.asUnique.indices.Pairwise (fun i j => i.ind < j.ind) ∧
    (∀ n, n ∈ r.asUnique.indices.map Ind.ind ↔ n ∈ r.indices.map Ind.ind) ∧
    (∀ i ∈ r.asUnique.indices, i ∈ r.indices) := by
  refine ⟨stdUnique_strict _ (stdSort_sorted _), fun n => ?_, fun i hi => ?_⟩
  · simp only [List.mem_map]
    constructor
    · rintro ⟨i, hi, e⟩
      exact ⟨i, (stdSort_perm _).mem_iff.1 (stdUnique_subset _ i hi), e⟩
    · rintro ⟨i, hi, e⟩
      obtain ⟨j, hj, e'⟩ := stdUnique_covers (stdSort r.indices) i ((stdSort_perm _).mem_iff.2 hi)
      exact ⟨j, hj, e'.trans e⟩
  · exact (stdSort_perm _).mem_iff.1 (stdUnique_subset _ i hi)

/-- **C05** `+` concatenates. -/
theorem C05_add (a b : Region) : (a.add b).indices = a.indices ++ b.indices := rfl

/-- The operations a user can apply to a region object. -/
inductive Op where
  | setIndices (l : List Ind) | setBlocks (bs : List Block)
  | sort | unique | mask (m : Region) | intersect (o : Region) | add (o : Region)
  | offset (n : Int) | periodicShift (s p : Int)

/-- One operation. -/
def applyOp (r : Region) : Op → Out Region
  | .setIndices l => .ok (r.setIndices l)
  | .setBlocks bs => .ok (r.setBlocks bs)
  | .sort => .ok r.asSorted
  | .unique => .ok r.asUnique
  | .mask m => .ok (r.mask m)
  | .intersect o => .ok (r.getIntersection o)
  | .add o => .ok (r.add o)
  | .offset n => .ok (r.offset n)
  | .periodicShift s p => r.periodicShift s p

/-- A history of operations. -/
def applyOps (r : Region) : List Op → Out Region
  | [] => .ok r
  | o :: os => match applyOp r o with
    | .ok r' => applyOps r' os
    | .error e => .error e

/-- Blocks and indices describe the same sequence of points. -/
def InStep (r : Region) : Prop := (iterate r.blocks).map Ind.ind = r.indices.map Ind.ind

theorem periodicShift_inStep (r r' : Region) (s p : Int) (h : InStep r)
    (e : r.periodicShift s p = .ok r') : InStep r' := by
  induction hn : (-s).toNat using Nat.strongRecOn generalizing s with
  | _ n ih =>
    rw [periodicShift] at e
    split at e
    · simp only [Except.ok.injEq] at e; exact e ▸ h
    · split at e
      · split at e
        · exact ih _ (by omega) _ e rfl
        · simp at e
      · split at e
        · split at e
          · simp only [Except.ok.injEq] at e
            subst e
            simp [InStep, Region.setIndices, getContiguousBlocks, iterate]
          · simp at e
        · simp only [Except.ok.injEq] at e
          subst e
          exact iterate_map_ind _ _

/-- **C05** After any history of operations that returns normally, from a region whose blocks and
indices agree (in particular any freshly constructed one), blocked iteration still visits exactly the
index sequence. -/
theorem C05_history (ops : List Op) (r r' : Region) (h : InStep r) (e : applyOps r ops = .ok r') :
    InStep r' := by
  induction ops generalizing r with
  | nil => simp only [applyOps, Except.ok.injEq] at e; exact e ▸ h
  | cons o os ih =>
    rw [applyOps] at e
    split at e
    · rename_i r1 h1
      refine ih r1 ?_ e
      cases o <;> simp only [applyOp, Except.ok.injEq] at h1
      case setBlocks bs => subst h1; rfl
      case offset n =>
        unfold Region.offset at h1
        split at h1
        · exact h1 ▸ h
        · subst h1; exact iterate_map_ind _ _
      case periodicShift s p => exact periodicShift_inStep r r1 s p h h1
      all_goals subst h1; exact iterate_map_ind _ _
    · simp at e

/-- Every constructor produces a region whose blocks and indices agree. -/
theorem C05_constructors :
    (∀ t xs xe ys ye zs ze ny nz maxb r, Region.ofBox t xs xe ys ye zs ze ny nz maxb = .ok r → InStep r) ∧
    (∀ l maxb, InStep (Region.ofIndices l maxb)) ∧ (∀ bs, InStep (Region.ofBlocks bs)) := by
  refine ⟨?_, fun l maxb => iterate_map_ind _ _, fun bs => rfl⟩
  intro t xs xe ys ye zs ze ny nz maxb r h
  unfold Region.ofBox at h
  repeat' split at h
  all_goals first
    | (simp at h; done)
    | (simp only [Except.ok.injEq] at h; subst h; exact iterate_map_ind _ _)

example : ∃ r, applyOps (Region.ofIndices [⟨5,2,4⟩, ⟨3,2,4⟩, ⟨4,2,4⟩, ⟨3,2,4⟩])
      [.mask (Region.ofIndices [⟨4,2,4⟩]), .add (Region.ofIndices [⟨0,2,4⟩]), .offset 2] = .ok r ∧
    r.indices.map Ind.ind = [7, 5, 5, 2] := by
  refine ⟨_, rfl, ?_⟩
  have h := C05_mask (Region.ofIndices [⟨5,2,4⟩, ⟨3,2,4⟩, ⟨4,2,4⟩, ⟨3,2,4⟩]) (Region.ofIndices [⟨4,2,4⟩])
  simp only [Region.offset, Region.add, Region.setIndices, Region.ofIndices] at h ⊢
  simp [h]

/-! ## C06 -/

/-- **C06** `offset(n)` moves every point by `n`; `offset(-n)` undoes it. -/
theorem C06_offset (r : Region) (n : Int) :
    (r.offset n).indices.map Ind.ind = r.indices.map (fun i => i.ind + n) ∧
    ((r.offset n).offset (-n)).indices.map Ind.ind = r.indices.map Ind.ind := by
  have key : ∀ (r : Region) (n : Int),
      (r.offset n).indices.map Ind.ind = r.indices.map (fun i => i.ind + n) := by
    intro r n
    unfold Region.offset
    split
    · subst n; simp
    · simp [Region.setIndices, Function.comp_def]
  refine ⟨key r n, ?_⟩
  rw [key]
  have := congrArg (List.map (fun v => v + -n)) (key r n)
  simp only [List.map_map] at this
  calc (r.offset n).indices.map (fun i => i.ind + -n)
      = (r.offset n).indices.map ((fun v => v + -n) ∘ Ind.ind) := rfl
    _ = r.indices.map ((fun v => v + -n) ∘ fun i => i.ind + n) := this
    _ = r.indices.map Ind.ind := by
        apply List.map_congr_left; intro i _; simp only [Function.comp]; omega

/-- The full claim for `offset`: each moved index reports the coordinates of the moved point, i.e. it
keeps the grid sizes of the index it came from. -/
def OffsetKeepsGrid (r : Region) (n : Int) : Prop :=
  (r.offset n).indices = r.indices.map (fun i => { i with ind := i.ind + n })

/-- **C06, partial.**  The claim holds when the region object carries the grid sizes of its indices
(true for regions constructed from a box, kept by mask/intersection/periodicShift). -/
theorem C06_offset_coordinates_partial (r : Region) (n : Int)
    (h : ∀ i ∈ r.indices, i.ny = r.ny ∧ i.nz = r.nz) : OffsetKeepsGrid r n := by
  unfold OffsetKeepsGrid Region.offset
  split
  · subst n
    conv_lhs => rw [← List.map_id r.indices]
    apply List.map_congr_left
    intro i _; simp
  · simp only [Region.setIndices]
    apply List.map_congr_left
    intro i hi
    rw [(h i hi).1, (h i hi).2]

example : ∃ r, Region.ofBox .ind3D 0 1 0 1 0 2 2 3 = .ok r ∧ r.indices ≠ [] ∧
    ∀ i ∈ r.indices, i.ny = r.ny ∧ i.nz = r.nz := ⟨_, rfl, by decide, by decide⟩

/-- **C06, violated** (finding F1).  The results of `sort`, `unique` and `+` have lost `ny`, `nz`, so for
*every* such region with a point on a real grid (`ny > 0`) a non-zero offset breaks the claim. -/
theorem C06_offset_coordinates_violated (r o : Region) (n : Int) (hn : n ≠ 0)
    (h : ∃ i ∈ r.indices, 0 < i.ny) :
    ¬ OffsetKeepsGrid r.asSorted n ∧ ¬ OffsetKeepsGrid (r.add o) n := by
  obtain ⟨i, hi, hny⟩ := h
  have key : ∀ s : Region, s.ny = -1 → i ∈ s.indices → ¬ OffsetKeepsGrid s n := by
    intro s hs his hk
    unfold OffsetKeepsGrid Region.offset at hk
    rw [if_neg hn] at hk
    simp only [Region.setIndices] at hk
    have := (List.map_inj_left.1 hk) i his
    have := congrArg Ind.ny this
    simp only [hs] at this
    omega
  exact ⟨key _ rfl ((stdSort_perm _).mem_iff.2 hi), key _ rfl (List.mem_append_left _ hi)⟩

/-- **C06, violated**, seen through the public accessors: on a 2x2x3 grid the region
`box + box` offset by 1 contains flat index 4, which is the point (0,1,1), but it reports `x() = 4`. -/
theorem C06_offset_coordinates_violated_concrete :
    ∃ r, Region.ofBox .ind3D 0 0 0 1 0 1 2 3 = .ok r ∧
      ∃ i ∈ ((r.add r).offset 1).indices, i.ind = 4 ∧ i.x = 4 ∧ (pointInd 2 3 0 1 1).ind = 4 :=
  ⟨_, rfl, by decide⟩

/-- **C06** `periodicShift(s, p)` with any shift (positive, zero or negative) and positive period rolls
every index within its own period; grid sizes are kept. -/
theorem C06_periodicShift (r : Region) (s p : Int) (hp : 0 < p) (h0 : ∀ i ∈ r.indices, 0 ≤ i.ind) :
    ∃ r', r.periodicShift s p = .ok r' ∧
      r'.indices = r.indices.map (fun i => { i with ind := p * (i.ind / p) + (i.ind + s) % p }) := by
  obtain ⟨r', h1, h2, _⟩ := periodicShift_indices r s p hp h0
  exact ⟨r', h1, h2⟩

/-- **C06** Shifts compose additively; in particular `periodicShift(-s,p)` undoes `periodicShift(s,p)`. -/
theorem C06_periodicShift_compose (r : Region) (s t p : Int) (hp : 0 < p)
    (h0 : ∀ i ∈ r.indices, 0 ≤ i.ind) :
    ∃ r1 r2 r3, r.periodicShift s p = .ok r1 ∧ r1.periodicShift t p = .ok r2 ∧
      r.periodicShift (s + t) p = .ok r3 ∧ r2.indices = r3.indices ∧ (s + t = 0 → r2.indices = r.indices) := by
  obtain ⟨r1, h1, e1, _⟩ := periodicShift_indices r s p hp h0
  have h0' : ∀ i ∈ r1.indices, 0 ≤ i.ind := by
    intro i hi
    rw [e1, List.mem_map] at hi
    obtain ⟨j, hj, rfl⟩ := hi
    exact rollSpec_nonneg hp (h0 j hj)
  obtain ⟨r2, h2, e2, _⟩ := periodicShift_indices r1 t p hp h0'
  obtain ⟨r3, h3, e3, _⟩ := periodicShift_indices r (s + t) p hp h0
  have e : r2.indices = r3.indices := by
    rw [e2, e1, e3, List.map_map]
    apply List.map_congr_left
    intro i _
    simp only [Function.comp]
    rw [rollSpec_comp hp]
  refine ⟨r1, r2, r3, h1, h2, h3, e, fun h => ?_⟩
  rw [e, e3, h]
  conv_rhs => rw [← List.map_id r.indices]
  apply List.map_congr_left
  intro i _
  rw [rollSpec_zero]; rfl

/-- **C06** On a region without repetitions that consists of complete periods, `periodicShift` permutes
the points. -/
theorem C06_periodicShift_permutes (r : Region) (s p : Int) (hp : 0 < p)
    (h0 : ∀ i ∈ r.indices, 0 ≤ i.ind) (hnd : (r.indices.map Ind.ind).Nodup)
    (hfull : ∀ a ∈ r.indices.map Ind.ind, ∀ b, b / p = a / p → b ∈ r.indices.map Ind.ind) :
    ∃ r', r.periodicShift s p = .ok r' ∧ (r'.indices.map Ind.ind).Perm (r.indices.map Ind.ind) := by
  obtain ⟨r', h1, h2, _⟩ := periodicShift_indices r s p hp h0
  refine ⟨r', h1, ?_⟩
  have e : r'.indices.map Ind.ind = (r.indices.map Ind.ind).map (rollSpec s p) := by
    rw [h2, List.map_map, List.map_map]; rfl
  have inj : Function.Injective (rollSpec s p) := by
    intro a b hab
    have := congrArg (rollSpec (-s) p) hab
    rw [rollSpec_comp hp, rollSpec_comp hp, Int.add_right_neg, rollSpec_zero, rollSpec_zero] at this
    exact this
  rw [e]
  rw [List.perm_ext_iff_of_nodup (hnd.map inj) hnd]
  intro a
  simp only [List.mem_map (f := rollSpec s p)]
  constructor
  · rintro ⟨b, hb, rfl⟩
    exact hfull b hb _ (rollSpec_ediv hp)
  · intro ha
    refine ⟨rollSpec (-s) p a, hfull a ha _ (rollSpec_ediv hp), ?_⟩
    rw [rollSpec_comp hp, Int.add_left_neg, rollSpec_zero]

example : ∃ r, Region.ofBox .ind3D 0 1 0 1 0 2 2 3 = .ok r ∧ (∀ i ∈ r.indices, 0 ≤ i.ind) ∧
    (r.indices.map Ind.ind) = [0,1,2,3,4,5,6,7,8,9,10,11] := ⟨_, rfl, by decide, by decide⟩

/-- **C06** A negative shift with a non-positive period (other than through the early exit) recurses
without bound: the one input class where `periodicShift` has no result. -/
theorem C06_periodicShift_diverges (r : Region) (s p : Int) (hs : s < 0) (hp : p ≤ 0) :
    ∃ m, r.periodicShift s p = .error (.ub m) := by
  rw [periodicShift, if_neg (by omega), if_pos hs, dif_neg (by omega)]
  exact ⟨_, rfl⟩

end Verif.Region
