import Verif.Invert.Lap3DProps

/-! The rows of the matrix (C81). -/

namespace Verif.Lap3D

variable {P K : Type} [DecidableEq P] [Field K]

/-! ## Slices -/

theorem weights_up (g : Grid P K) (l p q : P) :
    q ∈ (weights g (upSlice g l) p).map Prod.fst ↔ InAbove g l p q := by
  unfold InAbove upSlice InSlice weights
  by_cases h : g.atUpper l = true
  · rw [if_pos h, if_pos h]; simp
  · rw [if_neg h, if_neg h]
    by_cases hw : g.wUp p = []
    · simp [hw]
    · simp [hw]

theorem weights_down (g : Grid P K) (l p q : P) :
    q ∈ (weights g (downSlice g l) p).map Prod.fst ↔ InBelow g l p q := by
  unfold InBelow downSlice InSlice weights
  by_cases h : g.atLower l = true
  · rw [if_pos h, if_pos h]; simp
  · rw [if_neg h, if_neg h]
    by_cases hw : g.wDown p = []
    · simp [hw]
    · simp [hw]

theorem sum_up (g : Grid P K) (x : P → K) (l p : P) :
    ((weights g (upSlice g l) p).map fun q => q.2 * x q.1).sum = above g x l p := by
  unfold above upSlice sliceVal weights
  by_cases h : g.atUpper l = true
  · rw [if_pos h, if_pos h]; simp
  · rw [if_neg h, if_neg h]
    by_cases hw : g.wUp p = []
    · simp [hw]
    · simp [hw]

theorem sum_down (g : Grid P K) (x : P → K) (l p : P) :
    ((weights g (downSlice g l) p).map fun q => q.2 * x q.1).sum = below g x l p := by
  unfold below downSlice sliceVal weights
  by_cases h : g.atLower l = true
  · rw [if_pos h, if_pos h]; simp
  · rw [if_neg h, if_neg h]
    by_cases hw : g.wDown p = []
    · simp [hw]
    · simp [hw]

theorem opCols_fst (g : Grid P K) (s : Slice) (col : P) (v : K) :
    (opCols g s col v).map Prod.fst = (weights g s col).map Prod.fst := by
  unfold opCols
  rw [List.map_map]; rfl

theorem opCols_sum (g : Grid P K) (s : Slice) (col : P) (v : K) (x : P → K) :
    ((opCols g s col v).map fun q => q.2 * x q.1).sum = v * ((weights g s col).map fun q => q.2 * x q.1).sum := by
  unfold opCols
  induction weights g s col with
  | nil => simp
  | cons a L ih =>
    simp only [List.map_cons, List.sum_cons] at ih ⊢
    rw [ih]; ring

/-- Columns a row of the interior may use. -/
def Cols (g : Grid P K) (l c : P) : Prop :=
  c ∈ plane g l ∨ (∃ p ∈ aboveCells g l, InAbove g l p c) ∨ ∃ p ∈ belowCells g l, InBelow g l p c

theorem cols_indexed {g : Grid P K} {pts : Finset P} (hp : Proper g pts) {l c : P} (hl : l ∈ g.nobndry)
    (h : Cols g l c) : c ∈ pts := by
  rcases h with h | ⟨p, h, hc⟩ | ⟨p, h, hc⟩
  · exact hp.planeCells l hl c h
  · exact ((hp.aboveIn l hl p h).2 c hc).1
  · exact ((hp.belowIn l hl p h).2 c hc).1

/-! ## The first loop -/

/-- The nine values in the plane. -/
def planeVals (g : Grid P K) (mt : Metric P K) (c : Coefs P K) (l : P) : List (P × K) :=
  ((insertOps g mt c l).take 9).flatMap fun op => match op with
    | .assemble => []
    | .put _ _ col _ val => [(col, val)]

theorem planeVals_fst (g : Grid P K) (mt : Metric P K) (c : Coefs P K) (l : P) :
    (planeVals g mt c l).map Prod.fst = plane g l := rfl

/-- The statements in the planes above and below write zero. -/
def zeroOps (g : Grid P K) (l : P) : List (Op P K) :=
  [.put (upSlice g l) l (g.yp l) .insert 0,
   .put (downSlice g l) l (g.ym l) .insert 0,
   .put (upSlice g l) l (g.yp (g.xp l)) .insert 0,
   .put (downSlice g l) l (g.ym (g.xp l)) .insert 0,
   .put (upSlice g l) l (g.yp (g.xm l)) .insert 0,
   .put (downSlice g l) l (g.ym (g.xm l)) .insert 0,
   .put (upSlice g l) l (g.zp (g.yp l)) .insert 0,
   .put (upSlice g l) l (g.zm (g.yp l)) .insert 0,
   .put (downSlice g l) l (g.zp (g.ym l)) .insert 0,
   .put (downSlice g l) l (g.zm (g.ym l)) .insert 0]

theorem insertOps_split (g : Grid P K) (mt : Metric P K) (c : Coefs P K) (l : P) :
    insertOps g mt c l = ((planeVals g mt c l).map fun q => Op.put .here l q.1 .insert q.2) ++ zeroOps g l := rfl

theorem allCols_plane (g : Grid P K) (l : P) (pv : List (P × K)) :
    allCols g (pv.map fun q => Op.put .here l q.1 .insert q.2) = pv := by
  unfold allCols
  rw [List.flatMap_map]
  induction pv with
  | nil => rfl
  | cons q pv ih => rw [List.flatMap_cons, ih]; simp [opCols, weights]

theorem allCols_zero (g : Grid P K) (l : P) (q : P × K) (h : q ∈ allCols g (zeroOps g l)) :
    q.2 = 0 ∧ ((∃ p ∈ aboveCells g l, InAbove g l p q.1) ∨ ∃ p ∈ belowCells g l, InBelow g l p q.1) := by
  have key : ∀ s p, q ∈ opCols g s p (0 : K) → q.2 = 0 ∧ q.1 ∈ (weights g s p).map Prod.fst := by
    intro s p hq
    refine ⟨?_, ?_⟩
    · unfold opCols at hq
      obtain ⟨a, _, rfl⟩ := List.mem_map.1 hq
      simp
    · rw [← opCols_fst g s p 0]; exact List.mem_map_of_mem hq
  simp only [allCols, zeroOps, List.flatMap_cons, List.flatMap_nil, List.append_nil, List.mem_append] at h
  rcases h with h | h | h | h | h | h | h | h | h | h <;> obtain ⟨h0, hm⟩ := key _ _ h <;> refine ⟨h0, ?_⟩
  · exact Or.inl ⟨_, by simp [aboveCells], (weights_up g l _ _).1 hm⟩
  · exact Or.inr ⟨_, by simp [belowCells], (weights_down g l _ _).1 hm⟩
  · exact Or.inl ⟨_, by simp [aboveCells], (weights_up g l _ _).1 hm⟩
  · exact Or.inr ⟨_, by simp [belowCells], (weights_down g l _ _).1 hm⟩
  · exact Or.inl ⟨_, by simp [aboveCells], (weights_up g l _ _).1 hm⟩
  · exact Or.inr ⟨_, by simp [belowCells], (weights_down g l _ _).1 hm⟩
  · exact Or.inl ⟨_, by simp [aboveCells], (weights_up g l _ _).1 hm⟩
  · exact Or.inl ⟨_, by simp [aboveCells], (weights_up g l _ _).1 hm⟩
  · exact Or.inr ⟨_, by simp [belowCells], (weights_down g l _ _).1 hm⟩
  · exact Or.inr ⟨_, by simp [belowCells], (weights_down g l _ _).1 hm⟩

theorem zero_complete (g : Grid P K) (l c : P)
    (h : (∃ p ∈ aboveCells g l, InAbove g l p c) ∨ ∃ p ∈ belowCells g l, InBelow g l p c) :
    c ∈ (allCols g (zeroOps g l)).map Prod.fst := by
  simp only [allCols, zeroOps, List.flatMap_cons, List.flatMap_nil, List.append_nil, List.map_append, List.mem_append,
    opCols_fst, weights_up, weights_down]
  rcases h with ⟨p, hp, h⟩ | ⟨p, hp, h⟩
  · simp only [aboveCells, List.mem_cons, List.not_mem_nil, or_false] at hp
    rcases hp with rfl | rfl | rfl | rfl | rfl <;> tauto
  · simp only [belowCells, List.mem_cons, List.not_mem_nil, or_false] at hp
    rcases hp with rfl | rfl | rfl | rfl | rfl <;> tauto

/-- After the first loop a row holds the nine values in the plane and nothing else. -/
theorem row_insert (g : Grid P K) (pts : Finset P) (hp : Proper g pts) (mt : Metric P K) (c : Coefs P K) (l : P)
    (hl : l ∈ g.nobndry) (r : P → K) (hr : ∀ p, r p ≠ 0 → Cols g l p) :
    (insertOps g mt c l).foldl (rowStep g l) r = indic (planeVals g mt c l) := by
  have hins : ∀ op ∈ insertOps g mt c l, ∃ s col v, op = .put s l col .insert v := by
    rw [insertOps_split]
    intro op ho
    rcases List.mem_append.1 ho with h | h
    · obtain ⟨q, _, rfl⟩ := List.mem_map.1 h
      exact ⟨_, _, _, rfl⟩
    · simp only [zeroOps, List.mem_cons, List.not_mem_nil, or_false] at h
      rcases h with rfl | rfl | rfl | rfl | rfl | rfl | rfl | rfl | rfl | rfl <;> exact ⟨_, _, _, rfl⟩
  have hall : allCols g (insertOps g mt c l) = planeVals g mt c l ++ allCols g (zeroOps g l) := by
    rw [insertOps_split]
    unfold allCols
    rw [List.flatMap_append]
    congr 1
    exact allCols_plane g l _
  have hnd : ((planeVals g mt c l).map Prod.fst).Nodup := by rw [planeVals_fst]; exact hp.planeDiff l hl
  rw [foldl_insert g l _ r hins, hall, putCols_insert g.indexed (indic (planeVals g mt c l))]
  · funext p
    by_cases hm : p ∈ (planeVals g mt c l ++ allCols g (zeroOps g l)).map Prod.fst
    · rw [if_pos hm]
    · rw [if_neg hm]
      rw [List.map_append, List.mem_append, not_or] at hm
      rw [indic_off _ _ hm.1]
      by_contra h0
      rcases hr p h0 with h | h
      · rw [planeVals_fst] at hm; exact hm.1 h
      · exact hm.2 (zero_complete g l p h)
  · intro q hq
    rcases List.mem_append.1 hq with h | h
    · refine ⟨(hp.numbered _).2 (hp.planeCells l hl _ ?_), (indic_on _ hnd q h).symm⟩
      rw [← planeVals_fst g mt c l]; exact List.mem_map_of_mem h
    · obtain ⟨h0, hY⟩ := allCols_zero g l q h
      have hpl : q.1 ∈ pts ∧ q.1 ∉ plane g l := by
        rcases hY with ⟨p, hpp, hq⟩ | ⟨p, hpp, hq⟩
        · exact (hp.aboveIn l hl p hpp).2 _ hq
        · exact (hp.belowIn l hl p hpp).2 _ hq
      refine ⟨(hp.numbered _).2 hpl.1, ?_⟩
      rw [h0, indic_off]
      rw [planeVals_fst]; exact hpl.2

/-! ## The second loop -/

theorem dot_addOp (g : Grid P K) (pts : Finset P) (l : P) (s : Slice) (p : P) (v : K) (r x : P → K)
    (hi : ∀ q ∈ (weights g s p).map Prod.fst, g.indexed q = true ∧ q ∈ pts) :
    dot pts (rowStep g l r (.put s l p .add v)) x = dot pts r x + v * ((weights g s p).map fun q => q.2 * x q.1).sum := by
  simp only [rowStep, if_true]
  rw [dot_addCols pts g.indexed x _ r, opCols_sum]
  intro q hq
  refine hi q.1 ?_
  rw [← opCols_fst g s p v]; exact List.mem_map_of_mem hq

theorem dot_addUp (g : Grid P K) (pts : Finset P) (hp : Proper g pts) (l : P) (hl : l ∈ g.nobndry) (p : P)
    (hpa : p ∈ aboveCells g l) (v : K) (r x : P → K) :
    dot pts (rowStep g l r (.put (upSlice g l) l p .add v)) x = dot pts r x + v * above g x l p := by
  rw [dot_addOp, sum_up]
  intro q hq
  have := ((hp.aboveIn l hl p hpa).2 q ((weights_up g l p q).1 hq)).1
  exact ⟨(hp.numbered q).2 this, this⟩

theorem dot_addDown (g : Grid P K) (pts : Finset P) (hp : Proper g pts) (l : P) (hl : l ∈ g.nobndry) (p : P)
    (hpa : p ∈ belowCells g l) (v : K) (r x : P → K) :
    dot pts (rowStep g l r (.put (downSlice g l) l p .add v)) x = dot pts r x + v * below g x l p := by
  rw [dot_addOp, sum_down]
  intro q hq
  have := ((hp.belowIn l hl p hpa).2 q ((weights_down g l p q).1 hq)).1
  exact ⟨(hp.numbered q).2 this, this⟩

/-- The members hold what was asked for. -/
structure Holds (c : Coefs P K) (w : Wanted P K) : Prop where
  A : c.A = w.A
  C1 : c.C1 = w.C1
  C2 : c.C2 = w.C2
  D : c.D = w.D
  Ex : c.Ex = w.Ex
  Ez : c.Ez = w.Ez
  unsetC : c.issetC = false → c.C2 = fun _ => 1
  unsetD : c.issetD = false → c.D = fun _ => 1
  unsetE : c.issetE = false → c.Ex = (fun _ => 0) ∧ c.Ez = fun _ => 0

/-- A row of the interior is the equation. -/
theorem row_equation [CharZero K] (g : Grid P K) (pts : Finset P) (hp : Proper g pts) (mt : Metric P K)
    (hk : Consts mt) (c : Coefs P K) (w : Wanted P K) (hc : Holds c w) (l : P) (hl : l ∈ g.nobndry) (r x : P → K)
    (hr : ∀ p, r p ≠ 0 → Cols g l p) :
    dot pts ((addOps g mt c l).foldl (rowStep g l) ((insertOps g mt c l).foldl (rowStep g l) r)) x =
      lhs g mt w x l := by
  have hD : ∀ a, (if c.issetD = true then a * c.D l else a) = a * c.D l := by
    intro a
    cases h : c.issetD with
    | true => simp
    | false => rw [hc.unsetD h]; simp
  have hC : ∀ a q1 q2 q3, (if c.issetC = true then a + (q1 * mt.DDX c.C2 l + q2 * mt.DDY c.C2 l +
      q3 * mt.DDZ c.C2 l) / c.C1 l else a) = a + (q1 * mt.DDX c.C2 l + q2 * mt.DDY c.C2 l +
      q3 * mt.DDZ c.C2 l) / c.C1 l := by
    intro a q1 q2 q3
    cases h : c.issetC with
    | true => simp
    | false => rw [hc.unsetC h, hk.x, hk.y, hk.z]; simp
  have hE1 : ∀ a, (if c.issetE = true then a + c.Ex l else a) = a + c.Ex l := by
    intro a
    cases h : c.issetE with
    | true => simp
    | false => rw [(hc.unsetE h).1]; simp
  have hE2 : ∀ a, (if c.issetE = true then a + c.Ez l else a) = a + c.Ez l := by
    intro a
    cases h : c.issetE with
    | true => simp
    | false => rw [(hc.unsetE h).2]; simp
  rw [row_insert g pts hp mt c l hl r hr]
  have ha1 : g.yp l ∈ aboveCells g l := by simp [aboveCells]
  have ha2 : g.yp (g.xp l) ∈ aboveCells g l := by simp [aboveCells]
  have ha3 : g.yp (g.xm l) ∈ aboveCells g l := by simp [aboveCells]
  have ha4 : g.zp (g.yp l) ∈ aboveCells g l := by simp [aboveCells]
  have ha5 : g.zm (g.yp l) ∈ aboveCells g l := by simp [aboveCells]
  have hb1 : g.ym l ∈ belowCells g l := by simp [belowCells]
  have hb2 : g.ym (g.xp l) ∈ belowCells g l := by simp [belowCells]
  have hb3 : g.ym (g.xm l) ∈ belowCells g l := by simp [belowCells]
  have hb4 : g.zp (g.ym l) ∈ belowCells g l := by simp [belowCells]
  have hb5 : g.zm (g.ym l) ∈ belowCells g l := by simp [belowCells]
  unfold addOps
  simp only [List.foldl_cons, List.foldl_nil]
  rw [dot_addDown g pts hp l hl _ hb5, dot_addDown g pts hp l hl _ hb4, dot_addUp g pts hp l hl _ ha5,
    dot_addUp g pts hp l hl _ ha4, dot_addDown g pts hp l hl _ hb3, dot_addUp g pts hp l hl _ ha3,
    dot_addDown g pts hp l hl _ hb2, dot_addUp g pts hp l hl _ ha2, dot_addDown g pts hp l hl _ hb1,
    dot_addUp g pts hp l hl _ ha1]
  rw [dot_indic pts x (planeVals g mt c l) (fun q hq => hp.planeCells l hl _ (by
    rw [← planeVals_fst g mt c l]; exact List.mem_map_of_mem hq))]
  simp only [planeVals, insertOps, List.take, List.flatMap_cons, List.flatMap_nil, List.map_cons, List.map_nil,
    List.sum_cons, List.sum_nil, List.cons_append, List.nil_append, hD, hC, hE1, hE2]
  rw [hc.A, hc.C1, hc.C2, hc.D, hc.Ex, hc.Ez]
  unfold lhs laplacePerp gradPerpDot dXX dYY dZZ dXY dXZ dYZ dX dY dZ
  generalize above g x l (g.yp l) = u1
  generalize above g x l (g.yp (g.xp l)) = u2
  generalize above g x l (g.yp (g.xm l)) = u3
  generalize above g x l (g.zp (g.yp l)) = u4
  generalize above g x l (g.zm (g.yp l)) = u5
  generalize below g x l (g.ym l) = d1
  generalize below g x l (g.ym (g.xp l)) = d2
  generalize below g x l (g.ym (g.xm l)) = d3
  generalize below g x l (g.zp (g.ym l)) = d4
  generalize below g x l (g.zm (g.ym l)) = d5
  cases mt.nonuniform with
  | true => simp only [if_true]; ring
  | false => simp only [Bool.false_eq_true, if_false]; ring

end Verif.Lap3D
