import Verif.Region.Model
import Verif.Region.IndProps
import Mathlib.Data.List.Basic
import Mathlib.Data.List.Nodup
import Mathlib.Data.List.Pairwise
import Mathlib.Tactic.Ring
import Mathlib.Tactic.Linarith
/-! Helper lemmas for the Region properties (C03-C06). -/

namespace Verif.Region

/-! ### createRegionIndices -/

section Fill
variable (xs xe ys ye zs ze ny nz : Int)

/-- The points of one z line, starting at `z`, `n` of them. -/
def zLine (x y z : Int) (n : Nat) : List Ind :=
  (List.range n).map fun (k : Nat) => pointInd ny nz x y (z + k)
/-- `n` lines starting at `y`. -/
def yPlane (x y : Int) (n : Nat) (zs : Int) (nzl : Nat) : List Ind :=
  (List.range n).flatMap fun (k : Nat) => zLine ny nz x (y + k) zs nzl
/-- `n` planes starting at `x`. -/
def xBox (x : Int) (n : Nat) (ys : Int) (nyl : Nat) (zs : Int) (nzl : Nat) : List Ind :=
  (List.range n).flatMap fun (k : Nat) => yPlane ny nz (x + k) ys nyl zs nzl

theorem zLine_succ (x y z : Int) (n : Nat) :
    zLine ny nz x y z (n+1) = pointInd ny nz x y z :: zLine ny nz x y (z+1) n := by
  unfold zLine
  rw [List.range_succ_eq_map]
  simp only [List.map_cons, List.map_map, Nat.cast_zero, Int.add_zero]
  congr 1
  apply List.map_congr_left
  intro k _
  simp only [Function.comp, Nat.cast_succ]
  congr 1; omega
theorem yPlane_succ (x y : Int) (n : Nat) (zs : Int) (nzl : Nat) :
    yPlane ny nz x y (n+1) zs nzl = zLine ny nz x y zs nzl ++ yPlane ny nz x (y+1) n zs nzl := by
  unfold yPlane
  rw [List.range_succ_eq_map]
  simp only [List.flatMap_cons, List.flatMap_map, Nat.cast_zero, Int.add_zero]
  congr 1
  apply List.flatMap_congr
  intro k _
  simp only [Nat.cast_succ]
  congr 1; omega
theorem xBox_succ (x : Int) (n : Nat) (ys : Int) (nyl : Nat) (zs : Int) (nzl : Nat) :
    xBox ny nz x (n+1) ys nyl zs nzl = yPlane ny nz x ys nyl zs nzl ++ xBox ny nz (x+1) n ys nyl zs nzl := by
  unfold xBox
  rw [List.range_succ_eq_map]
  simp only [List.flatMap_cons, List.flatMap_map, Nat.cast_zero, Int.add_zero]
  congr 1
  apply List.flatMap_congr
  intro k _
  simp only [Nat.cast_succ]
  congr 1; omega

/-- prefixing the result of an outcome -/
def pre (l : List Ind) (o : Out (List Ind)) : Out (List Ind) :=
  match o with
  | .ok r => .ok (l ++ r)
  | .error e => .error e

theorem pre_pre (a b : List Ind) (o : Out (List Ind)) : pre a (pre b o) = pre (a ++ b) o := by
  cases o <;> simp [pre]

/-- what the loop does once a z line is complete -/
def contY (R : Nat) (x y : Int) : Out (List Ind) :=
  if x = xe ∧ y = ye then .ok (List.replicate R { ind := -1, ny := ny, nz := nz })
  else if y + 1 > ye then fillLoop xs xe ys ye zs ze ny nz R (x + 1) ys zs
  else fillLoop xs xe ys ye zs ze ny nz R x (y + 1) zs
/-- what the loop does once a y plane is complete -/
def contX (R : Nat) (x : Int) : Out (List Ind) :=
  if x = xe then .ok (List.replicate R { ind := -1, ny := ny, nz := nz })
  else fillLoop xs xe ys ye zs ze ny nz R (x + 1) ys zs

theorem fill_z (c R : Nat) (x y z : Int) (hz : z + c = ze) :
    fillLoop xs xe ys ye zs ze ny nz (c + 1 + R) x y z =
      pre (zLine ny nz x y z (c+1)) (contY xs xe ys ye zs ze ny nz R x y) := by
  induction c generalizing z with
  | zero =>
    have hz' : z = ze := by simpa using hz
    subst hz'
    rw [show 0 + 1 + R = R + 1 by omega, fillLoop]
    unfold contY
    by_cases h1 : x = xe ∧ y = ye
    · rw [if_pos ⟨h1.1, h1.2, rfl⟩, if_pos h1, zLine_succ]
      simp [pre, zLine, pointInd, flat]
    · rw [if_neg (by tauto), if_neg h1]
      simp only [show z + 1 > z by omega, if_true]
      rw [zLine_succ]
      split <;> (rename_i h; rw [h]; simp [pre, zLine, pointInd, flat])
  | succ c ih =>
    rw [show c + 1 + 1 + R = (c + 1 + R) + 1 by omega, fillLoop]
    have hne : z ≠ ze := by push_cast at hz; omega
    rw [if_neg (by tauto), zLine_succ]
    simp only [show ¬ (z + 1 > ze) by push_cast at hz; omega, if_false]
    rw [ih (z+1) (by push_cast at hz; omega)]
    cases contY xs xe ys ye zs ze ny nz R x y <;> simp [pre, pointInd, flat]

theorem fill_y (b R c : Nat) (x y : Int) (hz : zs + c = ze) (hy : y + b = ye) :
    fillLoop xs xe ys ye zs ze ny nz ((b + 1) * (c + 1) + R) x y zs =
      pre (yPlane ny nz x y (b+1) zs (c+1)) (contX xs xe ys ye zs ze ny nz R x) := by
  induction b generalizing y with
  | zero =>
    have hy' : y = ye := by simpa using hy
    subst hy'
    rw [show (0 + 1) * (c + 1) + R = c + 1 + R by omega, fill_z _ _ _ _ _ _ _ _ _ _ _ _ _ hz]
    rw [yPlane_succ]
    have : yPlane ny nz x (y+1) 0 zs (c+1) = [] := by simp [yPlane]
    rw [this, List.append_nil]
    congr 1
    unfold contY contX
    simp
  | succ b ih =>
    rw [show (b + 1 + 1) * (c + 1) + R = c + 1 + ((b+1) * (c + 1) + R) by ring,
      fill_z _ _ _ _ _ _ _ _ _ _ _ _ _ hz]
    push_cast at hy
    have e : contY xs xe ys ye zs ze ny nz ((b+1) * (c + 1) + R) x y =
        fillLoop xs xe ys ye zs ze ny nz ((b+1) * (c + 1) + R) x (y+1) zs := by
      unfold contY
      rw [if_neg (by omega), if_neg (by omega)]
    rw [e, ih (y+1) (by omega), pre_pre, ← yPlane_succ]

theorem fill_x (a R b c : Nat) (x : Int) (hz : zs + c = ze) (hy : ys + b = ye) (hx : x + a = xe) :
    fillLoop xs xe ys ye zs ze ny nz ((a + 1) * ((b + 1) * (c + 1)) + R) x ys zs =
      pre (xBox ny nz x (a+1) ys (b+1) zs (c+1))
        (.ok (List.replicate R { ind := -1, ny := ny, nz := nz })) := by
  induction a generalizing x with
  | zero =>
    have hx' : x = xe := by simpa using hx
    subst hx'
    rw [show (0 + 1) * ((b + 1) * (c + 1)) + R = (b + 1) * (c + 1) + R by ring,
      fill_y _ _ _ _ _ _ _ _ _ _ _ _ _ hz hy]
    rw [xBox_succ]
    have : xBox ny nz (x+1) 0 ys (b+1) zs (c+1) = [] := by simp [xBox]
    rw [this, List.append_nil]
    congr 1
    unfold contX
    simp
  | succ a ih =>
    rw [show (a + 1 + 1) * ((b + 1) * (c + 1)) + R
        = (b + 1) * (c + 1) + ((a+1) * ((b+1) * (c + 1)) + R) by ring,
      fill_y _ _ _ _ _ _ _ _ _ _ _ _ _ hz hy]
    push_cast at hx
    have e : contX xs xe ys ye zs ze ny nz ((a+1) * ((b+1) * (c + 1)) + R) x =
        fillLoop xs xe ys ye zs ze ny nz ((a+1) * ((b+1) * (c + 1)) + R) (x+1) ys zs := by
      unfold contX
      rw [if_neg (by omega)]
    rw [e, ih (x+1) (by omega), pre_pre, ← xBox_succ]
end Fill

theorem createRegionIndices_eq (xs xe ys ye zs ze ny nz : Int) (hny : 0 < ny) (hnz : 0 < nz) :
    createRegionIndices xs xe ys ye zs ze ny nz =
      .ok (xBox ny nz xs (xe - xs + 1).toNat ys (ye - ys + 1).toNat zs (ze - zs + 1).toNat) := by
  unfold createRegionIndices
  split
  · rename_i h
    congr 1
    rcases h with h | h | h
    · rw [show (xe - xs + 1).toNat = 0 by omega]; simp [xBox]
    · rw [show (ye - ys + 1).toNat = 0 by omega]; simp [xBox, yPlane]
    · rw [show (ze - zs + 1).toNat = 0 by omega]; simp [xBox, yPlane, zLine]
  · rename_i h
    obtain ⟨a, ha⟩ : ∃ a : Nat, xs + a = xe := ⟨(xe - xs).toNat, by omega⟩
    obtain ⟨b, hb⟩ : ∃ b : Nat, ys + b = ye := ⟨(ye - ys).toNat, by omega⟩
    obtain ⟨c, hc⟩ : ∃ c : Nat, zs + c = ze := ⟨(ze - zs).toNat, by omega⟩
    have hlen : (xe - xs + 1) * (ye - ys + 1) * (ze - zs + 1)
        = (((a + 1) * ((b + 1) * (c + 1)) + 0 : Nat) : Int) := by
      subst ha hb hc; push_cast; ring
    have hpos : (0:Int) < ((a:Int) + 1) * ((b + 1) * (c + 1)) := by positivity
    have hl : (xe - xs + 1) * (ye - ys + 1) * (ze - zs + 1) > 0 := by rw [hlen]; push_cast; omega
    simp only [gt_iff_lt, hny, hnz, hl, not_true_eq_false, if_false]
    rw [hlen, Int.toNat_natCast]
    rw [fill_x _ _ _ _ _ _ _ _ _ _ _ _ _ hc hb ha]
    rw [show (xe - xs + 1).toNat = a + 1 by omega, show (ye - ys + 1).toNat = b + 1 by omega,
      show (ze - zs + 1).toNat = c + 1 by omega]
    simp [pre]

theorem mem_xBox {xs xe ys ye zs ze ny nz : Int} {i : Ind} :
    i ∈ xBox ny nz xs (xe - xs + 1).toNat ys (ye - ys + 1).toNat zs (ze - zs + 1).toNat ↔
    ∃ x y z, xs ≤ x ∧ x ≤ xe ∧ ys ≤ y ∧ y ≤ ye ∧ zs ≤ z ∧ z ≤ ze ∧ i = pointInd ny nz x y z := by
  simp only [xBox, yPlane, zLine, List.mem_flatMap, List.mem_map, List.mem_range]
  constructor
  · rintro ⟨a, ha, b, hb, c, hc, rfl⟩
    exact ⟨xs + a, ys + b, zs + c, by omega, by omega, by omega, by omega, by omega, by omega, rfl⟩
  · rintro ⟨x, y, z, h1, h2, h3, h4, h5, h6, rfl⟩
    refine ⟨(x - xs).toNat, by omega, (y - ys).toNat, by omega, (z - zs).toNat, by omega, ?_⟩
    rw [show xs + ((x - xs).toNat : Int) = x by omega, show ys + ((y - ys).toNat : Int) = y by omega,
      show zs + ((z - zs).toNat : Int) = z by omega]

theorem flat_lt {ny nz x y z x' y' z' : Int} (hy1 : 0 ≤ y) (hy2 : y < ny) (hy1' : 0 ≤ y')
    (hz1 : 0 ≤ z) (hz2 : z < nz) (hz1' : 0 ≤ z')
    (h : x < x' ∨ (x = x' ∧ (y < y' ∨ (y = y' ∧ z < z')))) :
    flat ny nz x y z < flat ny nz x' y' z' := by
  unfold flat
  have hny : 0 < ny := by omega
  have hnz : 0 < nz := by omega
  have step : ∀ A B : Int, A < B → A * nz + nz ≤ B * nz := by
    intro A B hAB
    have : (A + 1) * nz ≤ B * nz := Int.mul_le_mul_of_nonneg_right (by omega) (by omega)
    linarith [this, show (A + 1) * nz = A * nz + nz by ring]
  rcases h with h | ⟨rfl, h | ⟨rfl, h⟩⟩
  · have h1 : (x + 1) * ny ≤ x' * ny := Int.mul_le_mul_of_nonneg_right (by omega) (by omega)
    have h2 : x * ny + y < x' * ny + y' := by linarith [show (x + 1) * ny = x * ny + ny by ring]
    have := step _ _ h2
    omega
  · have := step (x * ny + y) (x * ny + y') (by omega)
    omega
  · omega

theorem xBox_pairwise {ny nz : Int} (xs : Int) (nx' : Nat) (ys : Int) (b : Nat) (zs : Int) (c : Nat)
    (hy0 : 0 ≤ ys) (hy1 : ys + b ≤ ny) (hz0 : 0 ≤ zs) (hz1 : zs + c ≤ nz) :
    (xBox ny nz xs nx' ys b zs c).Pairwise (fun i j => i.ind < j.ind) := by
  unfold xBox yPlane zLine
  rw [List.pairwise_flatMap]
  refine ⟨fun a _ => ?_, ?_⟩
  · rw [List.pairwise_flatMap]
    refine ⟨fun b' hb' => ?_, ?_⟩
    · rw [List.pairwise_map]
      refine List.Pairwise.imp_of_mem ?_ List.pairwise_lt_range
      intro p q hp hq hpq
      simp only [List.mem_range] at hp hq hb'
      apply flat_lt <;> omega
    · refine List.Pairwise.imp_of_mem ?_ List.pairwise_lt_range
      intro p q hp hq hpq
      simp only [List.mem_range] at hp hq
      simp only [List.mem_map, List.mem_range]
      rintro i ⟨k, hk, rfl⟩ j ⟨l, hl, rfl⟩
      apply flat_lt <;> omega
  · refine List.Pairwise.imp_of_mem ?_ List.pairwise_lt_range
    intro p q hp hq hpq
    simp only [List.mem_range] at hp hq
    simp only [List.mem_flatMap, List.mem_map, List.mem_range]
    rintro i ⟨m, hm, k, hk, rfl⟩ j ⟨n, hn, l, hl, rfl⟩
    apply flat_lt <;> omega

theorem xBox_length {ny nz : Int} (xs : Int) (a : Nat) (ys : Int) (b : Nat) (zs : Int) (c : Nat) :
    (xBox ny nz xs a ys b zs c).length = a * (b * c) := by
  have hz : ∀ x y, (zLine ny nz x y zs c).length = c := by intro x y; simp [zLine]
  have hy : ∀ x, (yPlane ny nz x ys b zs c).length = b * c := by
    intro x; simp [yPlane, List.length_flatMap, hz]
  simp [xBox, List.length_flatMap, hy]

/-! ### Blocks -/

theorem takeBlock_spec (maxb : Int) (prev : Ind) (count : Int) (l : List Ind) :
    ∃ run : List Ind, l = run ++ (takeBlock maxb prev count l).2 ∧
      run.map Ind.ind = (List.range run.length).map (fun (k : Nat) => prev.ind + 1 + (k : Int)) ∧
      (takeBlock maxb prev count l).1 = (prev :: run).getLast (by simp) ∧
      (takeBlock maxb prev count l).1.ind = prev.ind + run.length ∧
      (count + run.length ≤ max maxb count) ∧
      (∀ i rest, (takeBlock maxb prev count l).2 = i :: rest →
        count + run.length ≥ maxb ∨ i.ind ≠ (takeBlock maxb prev count l).1.ind + 1) := by
  induction l generalizing prev count with
  | nil => exact ⟨[], by simp [takeBlock]⟩
  | cons i rest ih =>
    unfold takeBlock
    split
    · rename_i hc
      split
      · rename_i hi
        obtain ⟨run, h1, h2, h3, h4, h5, h6⟩ := ih i (count + 1)
        refine ⟨i :: run, ?_, ?_, ?_, ?_, ?_, ?_⟩
        · rw [List.cons_append, ← h1]
        · simp only [List.map_cons, List.length_cons, List.range_succ_eq_map, h2, List.map_map,
            Nat.cast_zero, Int.add_zero]
          congr 1
          · omega
          · apply List.map_congr_left; intro k _; simp only [Function.comp, Nat.cast_succ]; omega
        · rw [h3]; simp [List.getLast_cons]
        · rw [h4]; simp only [List.length_cons]; push_cast; omega
        · simp only [List.length_cons]; push_cast; omega
        · intro j r hj
          have := h6 j r hj
          simp only [List.length_cons]; push_cast
          rcases this with h | h
          · left; omega
          · right; exact h
      · rename_i hi
        refine ⟨[], by simp, by simp, by simp, by simp, by simp, ?_⟩
        intro j r hj
        simp only [List.cons.injEq] at hj
        right; rw [← hj.1]; simp only; omega
    · rename_i hc
      refine ⟨[], by simp, by simp, by simp, by simp, by simp, ?_⟩
      intro j r _
      left; simp; omega

theorem blocks_cons (maxb : Int) (s : Ind) (rest : List Ind) :
    getContiguousBlocks maxb (s :: rest) =
      (s, (takeBlock maxb s 1 rest).1.succ) :: getContiguousBlocks maxb (takeBlock maxb s 1 rest).2 := by
  rw [getContiguousBlocks]

/-- Induction principle: peel one block off the index list. -/
theorem blocks_induct (maxb : Int) (P : List Ind → Prop) (h0 : P [])
    (h1 : ∀ s rest, P (takeBlock maxb s 1 rest).2 → P (s :: rest)) (l : List Ind) : P l := by
  induction hn : l.length using Nat.strongRecOn generalizing l with
  | _ n ih =>
    cases l with
    | nil => exact h0
    | cons s rest =>
      apply h1
      apply ih _ _ _ rfl
      have := takeBlock_length_le maxb s 1 rest
      simp at hn; omega

theorem blockPoints_take (maxb : Int) (s : Ind) (rest run : List Ind)
    (h2 : run.map Ind.ind = (List.range run.length).map (fun (k : Nat) => s.ind + 1 + (k : Int)))
    (h4 : (takeBlock maxb s 1 rest).1.ind = s.ind + run.length) :
    blockPoints (s, (takeBlock maxb s 1 rest).1.succ) =
      (s :: run).map (fun i => { ind := i.ind, ny := s.ny, nz := s.nz }) := by
  unfold blockPoints
  simp only [Ind.succ, h4]
  rw [show (s.ind + (run.length : Int) + 1 - s.ind).toNat = run.length + 1 by omega]
  rw [List.range_succ_eq_map]
  simp only [List.map_cons, Nat.cast_zero, Int.add_zero, List.map_map]
  congr 1
  have : run.map (fun i => ({ ind := i.ind, ny := s.ny, nz := s.nz } : Ind))
      = (run.map Ind.ind).map (fun v => ({ ind := v, ny := s.ny, nz := s.nz } : Ind)) := by
    rw [List.map_map]; rfl
  rw [this, h2, List.map_map]
  apply List.map_congr_left
  intro k _
  simp only [Function.comp, Nat.cast_succ]
  ext <;> simp <;> omega

theorem iterate_map_ind (maxb : Int) (l : List Ind) :
    (iterate (getContiguousBlocks maxb l)).map Ind.ind = l.map Ind.ind := by
  induction l using blocks_induct maxb with
  | h0 => simp [getContiguousBlocks, iterate]
  | h1 s rest ih =>
    obtain ⟨run, h1, h2, h3, h4, _⟩ := takeBlock_spec maxb s 1 rest
    rw [blocks_cons]
    unfold iterate at *
    rw [List.flatMap_cons, List.map_append, ih, blockPoints_take maxb s rest run h2 h4]
    conv_rhs => rw [h1]
    simp [Function.comp_def]

theorem iterate_eq (maxb ny nz : Int) (l : List Ind) (hu : ∀ i ∈ l, i.ny = ny ∧ i.nz = nz) :
    iterate (getContiguousBlocks maxb l) = l := by
  induction l using blocks_induct maxb with
  | h0 => simp [getContiguousBlocks, iterate]
  | h1 s rest ih =>
    obtain ⟨run, h1, h2, h3, h4, _⟩ := takeBlock_spec maxb s 1 rest
    have hrest : ∀ i ∈ (takeBlock maxb s 1 rest).2, i.ny = ny ∧ i.nz = nz := by
      intro i hi; apply hu; rw [h1]; simp [hi]
    have hrun : ∀ i ∈ s :: run, i.ny = ny ∧ i.nz = nz := by
      intro i hi; apply hu; rw [h1]; simp at hi ⊢; tauto
    rw [blocks_cons]
    have ih' := ih hrest
    unfold iterate at *
    rw [List.flatMap_cons, ih', blockPoints_take maxb s rest run h2 h4]
    conv_rhs => rw [h1]
    rw [← List.cons_append]
    congr 1
    conv_rhs => rw [← List.map_id (s :: run)]
    apply List.map_congr_left
    intro i hi
    have a := hrun i hi
    have b := hrun s (by simp)
    ext <;> simp [a, b]

theorem blocks_size (maxb : Int) (l : List Ind) :
    ∀ b ∈ getContiguousBlocks maxb l, b.1.ind < b.2.ind ∧ b.2.ind - b.1.ind ≤ max maxb 1 := by
  induction l using blocks_induct maxb with
  | h0 => simp [getContiguousBlocks]
  | h1 s rest ih =>
    obtain ⟨run, h1, h2, h3, h4, h5, _⟩ := takeBlock_spec maxb s 1 rest
    rw [blocks_cons]
    intro b hb
    rcases List.mem_cons.1 hb with rfl | hb
    · simp only [Ind.succ, h4]; omega
    · exact ih b hb

theorem blocks_head (maxb : Int) (l : List Ind) (b : Block) (bs : List Block)
    (h : getContiguousBlocks maxb l = b :: bs) : ∃ rest, l = b.1 :: rest := by
  cases l with
  | nil => simp [getContiguousBlocks] at h
  | cons s rest => rw [blocks_cons] at h; simp only [List.cons.injEq] at h; exact ⟨rest, by rw [← h.1]⟩

theorem blocks_greedy (maxb : Int) (l : List Ind) :
    (getContiguousBlocks maxb l).IsChain (fun b c => b.2.ind - b.1.ind ≥ maxb ∨ c.1.ind ≠ b.2.ind) := by
  induction l using blocks_induct maxb with
  | h0 => simp [getContiguousBlocks]
  | h1 s rest ih =>
    obtain ⟨run, h1, h2, h3, h4, h5, h6⟩ := takeBlock_spec maxb s 1 rest
    rw [blocks_cons]
    cases hb : getContiguousBlocks maxb (takeBlock maxb s 1 rest).2 with
    | nil => simp
    | cons c cs =>
      rw [hb] at ih
      rw [List.isChain_cons_cons]
      refine ⟨?_, ih⟩
      obtain ⟨r, hr⟩ := blocks_head _ _ _ _ hb
      have := h6 _ _ hr
      simp only [Ind.succ]
      rcases this with h | h
      · left; omega
      · right; exact h

end Verif.Region
