import Verif.Invert.Lap3DRow

/-! Histories of calls (C81). -/

namespace Verif.Lap3D

variable {P K : Type} [DecidableEq P] [Field K]

/-! ## Which columns a row gets -/

theorem putCol_other (idx : P → Bool) (md : Mode) (r : P → K) (q : P × K) (c : P) (h : c ≠ q.1) :
    putCol idx md r q c = r c := by
  unfold putCol
  split
  · dsimp only; rw [if_neg h]
  · rfl

theorem putCols_other (idx : P → Bool) (md : Mode) (c : P) : ∀ (pv : List (P × K)) (r : P → K),
    c ∉ pv.map Prod.fst → pv.foldl (putCol idx md) r c = r c
  | [], _, _ => rfl
  | q :: pv, r, h => by
    rw [List.map_cons, List.mem_cons, not_or] at h
    rw [List.foldl_cons, putCols_other idx md c pv _ h.2, putCol_other idx md r q c h.1]

theorem foldl_support (g : Grid P K) (l c : P) : ∀ (ops : List (Op P K)) (r : P → K),
    c ∉ (allCols g ops).map Prod.fst → ops.foldl (rowStep g l) r c = r c
  | [], _, _ => rfl
  | op :: ops, r, h => by
    unfold allCols at h
    rw [List.flatMap_cons, List.map_append, List.mem_append, not_or] at h
    rw [List.foldl_cons, foldl_support g l c ops _ h.2]
    cases op with
    | assemble => rfl
    | put s row col md v =>
      simp only [rowStep]
      split
      · exact putCols_other g.indexed md c _ r h.1
      · rfl

theorem addCols_cols (g : Grid P K) (mt : Metric P K) (co : Coefs P K) (l c : P)
    (h : c ∈ (allCols g (addOps g mt co l)).map Prod.fst) : Cols g l c := by
  simp only [allCols, addOps, List.flatMap_cons, List.flatMap_nil, List.append_nil, List.map_append, List.mem_append,
    opCols_fst, weights_up, weights_down] at h
  rcases h with h | h | h | h | h | h | h | h | h | h
  · exact Or.inr (Or.inl ⟨_, by simp [aboveCells], h⟩)
  · exact Or.inr (Or.inr ⟨_, by simp [belowCells], h⟩)
  · exact Or.inr (Or.inl ⟨_, by simp [aboveCells], h⟩)
  · exact Or.inr (Or.inr ⟨_, by simp [belowCells], h⟩)
  · exact Or.inr (Or.inl ⟨_, by simp [aboveCells], h⟩)
  · exact Or.inr (Or.inr ⟨_, by simp [belowCells], h⟩)
  · exact Or.inr (Or.inl ⟨_, by simp [aboveCells], h⟩)
  · exact Or.inr (Or.inl ⟨_, by simp [aboveCells], h⟩)
  · exact Or.inr (Or.inr ⟨_, by simp [belowCells], h⟩)
  · exact Or.inr (Or.inr ⟨_, by simp [belowCells], h⟩)

/-! ## updateMatrix3D -/

theorem insertOps_ok (g : Grid P K) (pts : Finset P) (hp : Proper g pts) (mt : Metric P K) (c : Coefs P K) (l : P)
    (hl : l ∈ g.nobndry) : OkOps g .insert (insertOps g mt c l) := by
  have hin : ∀ p, p ∈ pts → g.indexed p = true := fun p h => (hp.numbered p).2 h
  have hP : ∀ p ∈ plane g l, g.indexed p = true := fun p h => hin p (hp.planeCells l hl p h)
  have hA : ∀ p ∈ aboveCells g l, g.indexed p = true := fun p h => hin p (hp.aboveIn l hl p h).1
  have hB : ∀ p ∈ belowCells g l, g.indexed p = true := fun p h => hin p (hp.belowIn l hl p h).1
  have hl' := hP l (by simp [plane])
  unfold insertOps
  refine okOps_cons hl' hl' (okOps_cons hl' (hP _ (by simp [plane])) (okOps_cons hl' (hP _ (by simp [plane]))
    (okOps_cons hl' (hP _ (by simp [plane])) (okOps_cons hl' (hP _ (by simp [plane])) (okOps_cons hl'
    (hP _ (by simp [plane])) (okOps_cons hl' (hP _ (by simp [plane])) (okOps_cons hl' (hP _ (by simp [plane]))
    (okOps_cons hl' (hP _ (by simp [plane])) ?_))))))))
  refine okOps_cons hl' (hA _ (by simp [aboveCells])) (okOps_cons hl' (hB _ (by simp [belowCells]))
    (okOps_cons hl' (hA _ (by simp [aboveCells])) (okOps_cons hl' (hB _ (by simp [belowCells]))
    (okOps_cons hl' (hA _ (by simp [aboveCells])) (okOps_cons hl' (hB _ (by simp [belowCells]))
    (okOps_cons hl' (hA _ (by simp [aboveCells])) (okOps_cons hl' (hA _ (by simp [aboveCells]))
    (okOps_cons hl' (hB _ (by simp [belowCells])) (okOps_cons hl' (hB _ (by simp [belowCells])) okOps_nil)))))))))

theorem addOps_ok (g : Grid P K) (pts : Finset P) (hp : Proper g pts) (mt : Metric P K) (c : Coefs P K) (l : P)
    (hl : l ∈ g.nobndry) : OkOps g .add (addOps g mt c l) := by
  have hin : ∀ p, p ∈ pts → g.indexed p = true := fun p h => (hp.numbered p).2 h
  have hA : ∀ p ∈ aboveCells g l, g.indexed p = true := fun p h => hin p (hp.aboveIn l hl p h).1
  have hB : ∀ p ∈ belowCells g l, g.indexed p = true := fun p h => hin p (hp.belowIn l hl p h).1
  have hl' := hin l (hp.planeCells l hl l (by simp [plane]))
  unfold addOps
  refine okOps_cons hl' (hA _ (by simp [aboveCells])) (okOps_cons hl' (hB _ (by simp [belowCells]))
    (okOps_cons hl' (hA _ (by simp [aboveCells])) (okOps_cons hl' (hB _ (by simp [belowCells]))
    (okOps_cons hl' (hA _ (by simp [aboveCells])) (okOps_cons hl' (hB _ (by simp [belowCells]))
    (okOps_cons hl' (hA _ (by simp [aboveCells])) (okOps_cons hl' (hA _ (by simp [aboveCells]))
    (okOps_cons hl' (hB _ (by simp [belowCells])) (okOps_cons hl' (hB _ (by simp [belowCells])) okOps_nil)))))))))

theorem update_ok (g : Grid P K) (pts : Finset P) (hp : Proper g pts) (mt : Metric P K) (c : Coefs P K) (m : PMat P K)
    (hm : m.mode = none ∨ m.mode = some .insert) :
    ∃ m', runOps g m (updateOps g mt c) = .ok m' ∧ m'.mode = none := by
  obtain ⟨m1, h1, _⟩ := runOps_ok g .insert _ m
    (okOps_flatMap g .insert g.nobndry _ fun l hl => insertOps_ok g pts hp mt c l hl) hm
  obtain ⟨m2, h2, _⟩ := runOps_ok g .add _ { m1 with mode := none }
    (okOps_flatMap g .add g.nobndry _ fun l hl => addOps_ok g pts hp mt c l hl) (Or.inl rfl)
  refine ⟨{ m2 with mode := none }, ?_, rfl⟩
  unfold updateOps
  rw [List.append_assoc, List.append_assoc, runOps_append, h1]
  dsimp only
  rw [List.cons_append, List.nil_append, runOps_cons]
  have : exec g m1 .assemble = .ok { m1 with mode := none } := rfl
  rw [this]
  dsimp only
  rw [runOps_append, h2]
  rfl

theorem update_row (g : Grid P K) (mt : Metric P K) (c : Coefs P K) (m m' : PMat P K) (hnd : g.nobndry.Nodup)
    (h : runOps g m (updateOps g mt c) = .ok m') (l : P) :
    m'.ent l = if l ∈ g.nobndry then
      (addOps g mt c l).foldl (rowStep g l) ((insertOps g mt c l).foldl (rowStep g l) (m.ent l)) else m.ent l := by
  rw [runOps_row g l _ m m' h]
  unfold updateOps
  rw [List.foldl_append, List.foldl_append, List.foldl_append]
  simp only [List.foldl_cons, List.foldl_nil, rowStep]
  by_cases hl : l ∈ g.nobndry
  · rw [if_pos hl, foldl_flatMap_own g l _ (fun i => insertOps_row g mt c i) _ _ hnd hl,
      foldl_flatMap_own g l _ (fun i => addOps_row g mt c i) _ _ hnd hl]
  · rw [if_neg hl, foldl_flatMap_other g l _ (fun i => insertOps_row g mt c i) _ _ hl,
      foldl_flatMap_other g l _ (fun i => addOps_row g mt c i) _ _ hl]

/-! ## The constructor -/

theorem bndry_row (g : Grid P K) (pts : Finset P) (hin : ∀ p, p ∈ pts → g.indexed p = true) (gr : Bool) (i nb : P)
    (hne : nb ≠ i) (hi : i ∈ pts) (hnb : nb ∈ pts) (d sgn : K) (x : P → K) :
    dot pts ((bndryOps gr i nb d sgn).foldl (rowStep g i) (fun _ => 0)) x =
      if gr then sgn * (x i - x nb) / d else (x i + x nb) / 2 := by
  have two : ∀ v1 v2 : K, dot pts ([Op.put .here i i .insert v1, .put .here i nb .insert v2].foldl (rowStep g i)
      (fun _ => 0)) x = v1 * x i + v2 * x nb := by
    intro v1 v2
    have hnd : (([(i, v1), (nb, v2)] : List (P × K)).map Prod.fst).Nodup := by
      simp only [List.map_cons, List.map_nil, List.nodup_cons, List.mem_cons, List.not_mem_nil, or_false]
      exact ⟨fun e => hne e.symm, fun e => e, List.nodup_nil⟩
    have hall : allCols g [Op.put .here i i .insert v1, .put .here i nb .insert v2] = [(i, v1), (nb, v2)] := by
      simp [allCols, opCols, weights]
    rw [foldl_insert g i, hall, putCols_insert g.indexed (indic [(i, v1), (nb, v2)])]
    · have : (fun c => if c ∈ ([(i, v1), (nb, v2)] : List (P × K)).map Prod.fst then indic [(i, v1), (nb, v2)] c
          else 0) = indic [(i, v1), (nb, v2)] := by
        funext c
        split
        · rfl
        · rename_i h; rw [indic_off _ _ h]
      rw [this, dot_indic]
      · simp
      · intro q hq
        simp only [List.mem_cons, List.not_mem_nil, or_false] at hq
        rcases hq with rfl | rfl
        · exact hi
        · exact hnb
    · intro q hq
      refine ⟨?_, (indic_on _ hnd q hq).symm⟩
      simp only [List.mem_cons, List.not_mem_nil, or_false] at hq
      rcases hq with rfl | rfl
      · exact hin _ hi
      · exact hin _ hnb
    · intro op ho
      simp only [List.mem_cons, List.not_mem_nil, or_false] at ho
      rcases ho with rfl | rfl <;> exact ⟨_, _, _, rfl⟩
  unfold bndryOps
  cases gr with
  | true => rw [if_pos rfl, if_pos rfl, two]; ring
  | false => rw [if_neg (by simp), if_neg (by simp), two]; ring

theorem bndryOps_ok (g : Grid P K) (gr : Bool) (i nb : P) (d sgn : K) (hi : g.indexed i = true)
    (hn : g.indexed nb = true) : OkOps g .insert (bndryOps gr i nb d sgn) := by
  unfold bndryOps
  split <;> exact okOps_cons hi hi (okOps_cons hi hn okOps_nil)

/-- Where a cell is. -/
theorem region_facts {g : Grid P K} {pts : Finset P} (hp : Proper g pts) :
    (∀ i ∈ g.innerX, i ∉ g.nobndry ∧ i ∉ g.outerX ∧ i ∉ g.lowerY ∧ i ∉ g.upperY) ∧
    (∀ i ∈ g.outerX, i ∉ g.nobndry ∧ i ∉ g.innerX ∧ i ∉ g.lowerY ∧ i ∉ g.upperY) ∧
    (∀ i ∈ g.lowerY, i ∉ g.nobndry ∧ i ∉ g.innerX ∧ i ∉ g.outerX ∧ i ∉ g.upperY) ∧
    (∀ i ∈ g.upperY, i ∉ g.nobndry ∧ i ∉ g.innerX ∧ i ∉ g.outerX ∧ i ∉ g.lowerY) ∧
    g.nobndry.Nodup ∧ g.innerX.Nodup ∧ g.outerX.Nodup ∧ g.lowerY.Nodup ∧ g.upperY.Nodup := by
  have h := hp.once
  simp only [List.nodup_append, List.mem_append] at h
  obtain ⟨⟨⟨⟨n1, n2, d2⟩, n3, d3⟩, n4, d4⟩, n5, d5⟩ := h
  refine ⟨fun i hi => ⟨fun e => d2 i e i hi rfl, fun e => d3 i (Or.inr hi) i e rfl,
      fun e => d4 i (Or.inl (Or.inr hi)) i e rfl, fun e => d5 i (Or.inl (Or.inl (Or.inr hi))) i e rfl⟩,
    fun i hi => ⟨fun e => d3 i (Or.inl e) i hi rfl, fun e => d3 i (Or.inr e) i hi rfl,
      fun e => d4 i (Or.inr hi) i e rfl, fun e => d5 i (Or.inl (Or.inr hi)) i e rfl⟩,
    fun i hi => ⟨fun e => d4 i (Or.inl (Or.inl e)) i hi rfl, fun e => d4 i (Or.inl (Or.inr e)) i hi rfl,
      fun e => d4 i (Or.inr e) i hi rfl, fun e => d5 i (Or.inr hi) i e rfl⟩,
    fun i hi => ⟨fun e => d5 i (Or.inl (Or.inl (Or.inl e))) i hi rfl,
      fun e => d5 i (Or.inl (Or.inl (Or.inr e))) i hi rfl, fun e => d5 i (Or.inl (Or.inr e)) i hi rfl,
      fun e => d5 i (Or.inr e) i hi rfl⟩, n1, n2, n3, n4, n5⟩

/-- What the boundary rows give. -/
structure BndryRows (g : Grid P K) (mt : Metric P K) (pts : Finset P) (fl : AllFlags) (ent : P → P → K) : Prop where
  inner : ∀ i ∈ g.innerX, ∀ x, dot pts (ent i) x =
    if fl.inner.grad then (x (g.xp i) - x i) / (mt.dx i * mt.sg11 i) else (x (g.xp i) + x i) / 2
  outer : ∀ i ∈ g.outerX, ∀ x, dot pts (ent i) x =
    if fl.outer.grad then (x i - x (g.xm i)) / (mt.dx i * mt.sg11 i) else (x i + x (g.xm i)) / 2
  lower : ∀ i ∈ g.lowerY, ∀ x, dot pts (ent i) x =
    if fl.lower.grad then (x (g.yp i) - x i) / (mt.dy i * mt.sg22 i) else (x (g.yp i) + x i) / 2
  upper : ∀ i ∈ g.upperY, ∀ x, dot pts (ent i) x =
    if fl.upper.grad then (x i - x (g.ym i)) / (mt.dy i * mt.sg22 i) else (x i + x (g.ym i)) / 2

theorem in_pts {g : Grid P K} {pts : Finset P} (hp : Proper g pts) :
    (∀ i ∈ g.nobndry, i ∈ pts) ∧ (∀ i ∈ g.innerX, i ∈ pts) ∧ (∀ i ∈ g.outerX, i ∈ pts) ∧ (∀ i ∈ g.lowerY, i ∈ pts) ∧
      ∀ i ∈ g.upperY, i ∈ pts := by
  refine ⟨fun i h => ?_, fun i h => ?_, fun i h => ?_, fun i h => ?_, fun i h => ?_⟩ <;>
  · rw [hp.regions]; simp only [List.mem_append]; tauto

theorem setup_run (g : Grid P K) (pts : Finset P) (hp : Proper g pts) (mt : Metric P K) (fl : AllFlags) :
    ∃ m, runOps g { ent := fun _ _ => 0, mode := none } (setupOps g mt fl) = .ok m ∧
      (m.mode = none ∨ m.mode = some .insert) ∧ (∀ l ∈ g.nobndry, m.ent l = fun _ => 0) ∧
      BndryRows g mt pts fl m.ent := by
  have hin : ∀ p, p ∈ pts → g.indexed p = true := fun p h => (hp.numbered p).2 h
  obtain ⟨p0, p1, p2, p3, p4⟩ := in_pts hp
  obtain ⟨f1, f2, f3, f4, n0, n1, n2, n3, n4⟩ := region_facts hp
  have hok : OkOps g .insert (setupOps g mt fl) := by
    unfold setupOps
    refine okOps_append (okOps_append (okOps_append ?_ ?_) ?_) ?_
    · exact okOps_flatMap g .insert _ _ fun i hi => bndryOps_ok g _ i _ _ _ (hin _ (p1 i hi)) (hin _ (hp.innerNb i hi).1)
    · exact okOps_flatMap g .insert _ _ fun i hi => bndryOps_ok g _ i _ _ _ (hin _ (p2 i hi)) (hin _ (hp.outerNb i hi).1)
    · exact okOps_flatMap g .insert _ _ fun i hi => bndryOps_ok g _ i _ _ _ (hin _ (p3 i hi)) (hin _ (hp.lowerNb i hi).1)
    · exact okOps_flatMap g .insert _ _ fun i hi => bndryOps_ok g _ i _ _ _ (hin _ (p4 i hi)) (hin _ (hp.upperNb i hi).1)
  obtain ⟨m, hm, hmode⟩ := runOps_ok g .insert _ { ent := fun _ _ => 0, mode := none } hok (Or.inl rfl)
  have row : ∀ l, m.ent l = (setupOps g mt fl).foldl (rowStep g l) (fun _ => 0) := fun l => runOps_row g l _ _ m hm
  have o1 : ∀ i, OnRow i (bndryOps fl.inner.grad i (g.xp i) (mt.dx i * mt.sg11 i) (-1)) := fun i => bndryOps_row _ _ _ _ _
  have o2 : ∀ i, OnRow i (bndryOps fl.outer.grad i (g.xm i) (mt.dx i * mt.sg11 i) 1) := fun i => bndryOps_row _ _ _ _ _
  have o3 : ∀ i, OnRow i (bndryOps fl.lower.grad i (g.yp i) (mt.dy i * mt.sg22 i) (-1)) := fun i => bndryOps_row _ _ _ _ _
  have o4 : ∀ i, OnRow i (bndryOps fl.upper.grad i (g.ym i) (mt.dy i * mt.sg22 i) 1) := fun i => bndryOps_row _ _ _ _ _
  refine ⟨m, hm, hmode, fun l hl => ?_, ⟨fun i hi x => ?_, fun i hi x => ?_, fun i hi x => ?_, fun i hi x => ?_⟩⟩
  · rw [row l]
    unfold setupOps
    rw [List.foldl_append, List.foldl_append, List.foldl_append]
    rw [foldl_flatMap_other g l _ o1 _ _ fun e => (f1 l e).1 hl, foldl_flatMap_other g l _ o2 _ _ fun e => (f2 l e).1 hl,
      foldl_flatMap_other g l _ o3 _ _ fun e => (f3 l e).1 hl, foldl_flatMap_other g l _ o4 _ _ fun e => (f4 l e).1 hl]
  · rw [row i]
    unfold setupOps
    rw [List.foldl_append, List.foldl_append, List.foldl_append]
    rw [foldl_flatMap_own g i _ o1 _ _ n1 hi, foldl_flatMap_other g i _ o2 _ _ (f1 i hi).2.1,
      foldl_flatMap_other g i _ o3 _ _ (f1 i hi).2.2.1, foldl_flatMap_other g i _ o4 _ _ (f1 i hi).2.2.2]
    rw [bndry_row g pts hin _ i _ (hp.innerNb i hi).2 (p1 i hi) (hp.innerNb i hi).1]
    cases fl.inner.grad <;> simp only [if_true, Bool.false_eq_true, if_false] <;> ring
  · rw [row i]
    unfold setupOps
    rw [List.foldl_append, List.foldl_append, List.foldl_append]
    rw [foldl_flatMap_other g i _ o1 _ _ (f2 i hi).2.1, foldl_flatMap_own g i _ o2 _ _ n2 hi,
      foldl_flatMap_other g i _ o3 _ _ (f2 i hi).2.2.1, foldl_flatMap_other g i _ o4 _ _ (f2 i hi).2.2.2]
    rw [bndry_row g pts hin _ i _ (hp.outerNb i hi).2 (p2 i hi) (hp.outerNb i hi).1]
    cases fl.outer.grad <;> simp only [if_true, Bool.false_eq_true, if_false] <;> ring
  · rw [row i]
    unfold setupOps
    rw [List.foldl_append, List.foldl_append, List.foldl_append]
    rw [foldl_flatMap_other g i _ o1 _ _ (f3 i hi).2.1, foldl_flatMap_other g i _ o2 _ _ (f3 i hi).2.2.1,
      foldl_flatMap_own g i _ o3 _ _ n3 hi, foldl_flatMap_other g i _ o4 _ _ (f3 i hi).2.2.2]
    rw [bndry_row g pts hin _ i _ (hp.lowerNb i hi).2 (p3 i hi) (hp.lowerNb i hi).1]
    cases fl.lower.grad <;> simp only [if_true, Bool.false_eq_true, if_false] <;> ring
  · rw [row i]
    unfold setupOps
    rw [List.foldl_append, List.foldl_append, List.foldl_append]
    rw [foldl_flatMap_other g i _ o1 _ _ (f4 i hi).2.1, foldl_flatMap_other g i _ o2 _ _ (f4 i hi).2.2.1,
      foldl_flatMap_other g i _ o3 _ _ (f4 i hi).2.2.2, foldl_flatMap_own g i _ o4 _ _ n4 hi]
    rw [bndry_row g pts hin _ i _ (hp.upperNb i hi).2 (p4 i hi) (hp.upperNb i hi).1]
    cases fl.upper.grad <;> simp only [if_true, Bool.false_eq_true, if_false] <;> ring

/-! ## The right-hand side -/

theorem setBndry_eq (f : Flags) (x0 : P → K) : ∀ (cells : List P) (r : P → K) (p : P),
    setBndry f x0 cells r p = if p ∈ cells then (if f.rhs then r p else if f.set then x0 p else 0) else r p
  | [], r, p => by rfl
  | i :: cells, r, p => by
    have ih := setBndry_eq f x0 cells
    have step : setBndry f x0 (i :: cells) r = setBndry f x0 cells
        (if f.rhs then r else fun p => if p = i then (if f.set then x0 i else 0) else r p) := rfl
    rw [step, ih]
    cases f.rhs with
    | true => simp
    | false =>
      simp only [Bool.false_eq_true, if_false, List.mem_cons]
      by_cases hc : p ∈ cells
      · rw [if_pos hc, if_pos (Or.inr hc)]
      · rw [if_neg hc]
        by_cases hi : p = i
        · rw [if_pos hi, if_pos (Or.inl hi), hi]
        · rw [if_neg hi, if_neg (by rintro (e | e); exacts [hi e, hc e])]

theorem rhs_val (g : Grid P K) (pts : Finset P) (hp : Proper g pts) (fl : AllFlags) (b x0 : P → K) :
    (∀ l ∈ g.nobndry, rhsOf g fl b x0 l = b l) ∧ (∀ i ∈ g.innerX, rhsOf g fl b x0 i = bndryVal fl.inner b x0 i) ∧
    (∀ i ∈ g.outerX, rhsOf g fl b x0 i = bndryVal fl.outer b x0 i) ∧
    (∀ i ∈ g.lowerY, rhsOf g fl b x0 i = bndryVal fl.lower b x0 i) ∧
    (∀ i ∈ g.upperY, rhsOf g fl b x0 i = bndryVal fl.upper b x0 i) := by
  obtain ⟨f1, f2, f3, f4, -⟩ := region_facts hp
  unfold rhsOf
  simp only [setBndry_eq]
  refine ⟨fun l hl => ?_, fun i hi => ?_, fun i hi => ?_, fun i hi => ?_, fun i hi => ?_⟩
  · rw [if_neg fun e => (f4 l e).1 hl, if_neg fun e => (f3 l e).1 hl, if_neg fun e => (f2 l e).1 hl,
      if_neg fun e => (f1 l e).1 hl]
  · obtain ⟨-, a, b, c⟩ := f1 i hi
    rw [if_neg c, if_neg b, if_neg a, if_pos hi]; rfl
  · obtain ⟨-, a, b, c⟩ := f2 i hi
    simp only [if_neg c, if_neg b, if_neg a, if_pos hi]; rfl
  · obtain ⟨-, a, b, c⟩ := f3 i hi
    simp only [if_neg c, if_neg b, if_neg a, if_pos hi]; rfl
  · obtain ⟨-, a, b, c⟩ := f4 i hi
    simp only [if_neg c, if_neg b, if_neg a, if_pos hi]; rfl

/-! ## The invariant -/

structure Inv (g : Grid P K) (mt : Metric P K) (pts : Finset P) (fl0 : AllFlags) (w : Wanted P K) (fl : AllFlags)
    (s : Solver P K) : Prop where
  mode : s.mat.mode = none ∨ s.mat.mode = some .insert
  cols : ∀ l ∈ g.nobndry, ∀ p, s.mat.ent l p ≠ 0 → Cols g l p
  fresh : s.updateRequired = false → ∀ l ∈ g.nobndry, ∀ x, dot pts (s.mat.ent l) x = lhs g mt w x l
  holds : Holds s.coefs w
  rows : BndryRows g mt pts fl0 s.mat.ent
  flags : s.flags = fl

theorem construct_inv (g : Grid P K) (pts : Finset P) (hp : Proper g pts) (mt : Metric P K) (fl : AllFlags) :
    ∃ s, construct g mt fl = .ok s ∧ Inv g mt pts fl Wanted.initial fl s := by
  obtain ⟨m, hm, hmode, hz, hb⟩ := setup_run g pts hp mt fl
  unfold construct
  rw [hm]
  refine ⟨_, rfl, ⟨hmode, fun l hl p h => ?_, fun h => (by cases h), ⟨rfl, rfl, rfl, rfl, rfl, rfl, fun _ => rfl,
    fun _ => rfl, fun _ => ⟨rfl, rfl⟩⟩, hb, rfl⟩⟩
  exact absurd (by dsimp only; rw [hz l hl]) h

theorem refresh_inv [CharZero K] (g : Grid P K) (pts : Finset P) (hp : Proper g pts) (mt : Metric P K) (hk : Consts mt)
    (fl0 fl : AllFlags) (w : Wanted P K) (s : Solver P K) (h : Inv g mt pts fl0 w fl s) :
    ∃ s', refresh g mt s = .ok s' ∧ Inv g mt pts fl0 w fl s' ∧ s'.updateRequired = false := by
  obtain ⟨f1, f2, f3, f4, n0, -⟩ := region_facts hp
  unfold refresh
  by_cases hu : s.updateRequired = true
  · rw [if_pos hu]
    obtain ⟨m, hm, hmode⟩ := update_ok g pts hp mt s.coefs s.mat h.mode
    rw [hm]
    have row := update_row g mt s.coefs s.mat m n0 hm
    refine ⟨_, rfl, ⟨Or.inl hmode, fun l hl p hne => ?_, fun _ l hl x => ?_, h.holds, ?_, h.flags⟩, rfl⟩
    · dsimp only at hne
      rw [row l, if_pos hl] at hne
      by_cases hm : p ∈ (allCols g (addOps g mt s.coefs l)).map Prod.fst
      · exact addCols_cols g mt s.coefs l p hm
      · rw [foldl_support g l p _ _ hm, row_insert g pts hp mt s.coefs l hl _ (h.cols l hl)] at hne
        by_contra hc
        refine hne (indic_off _ _ ?_)
        rw [planeVals_fst]
        exact fun e => hc (Or.inl e)
    · dsimp only
      rw [row l, if_pos hl]
      exact row_equation g pts hp mt hk s.coefs w h.holds l hl _ x (h.cols l hl)
    · have keep : ∀ i, i ∉ g.nobndry → m.ent i = s.mat.ent i := fun i hi => by rw [row i, if_neg hi]
      refine ⟨fun i hi x => ?_, fun i hi x => ?_, fun i hi x => ?_, fun i hi x => ?_⟩
      · dsimp only; rw [keep i (f1 i hi).1]; exact h.rows.inner i hi x
      · dsimp only; rw [keep i (f2 i hi).1]; exact h.rows.outer i hi x
      · dsimp only; rw [keep i (f3 i hi).1]; exact h.rows.lower i hi x
      · dsimp only; rw [keep i (f4 i hi).1]; exact h.rows.upper i hi x
  · rw [if_neg hu]
    exact ⟨s, rfl, h, by simpa using hu⟩

theorem setCoef_inv (g : Grid P K) (pts : Finset P) (mt : Metric P K) (fl0 fl : AllFlags) (w : Wanted P K)
    (s : Solver P K) (h : Inv g mt pts fl0 w fl s) (which : Coef) (is2d : Bool) (v : P → K)
    (hn : NotC1Flat (Call.setCoef which is2d v)) :
    Inv g mt pts fl0 (w.after (.setCoef which is2d v)) fl (setCoef which is2d v s) := by
  have H := h.holds
  cases which with
  | A => exact ⟨h.mode, h.cols, (fun e => by cases e), ⟨rfl, H.C1, H.C2, H.D, H.Ex, H.Ez, H.unsetC, H.unsetD, H.unsetE⟩,
      h.rows, h.flags⟩
  | C => exact ⟨h.mode, h.cols, (fun e => by cases e), ⟨H.A, rfl, rfl, H.D, H.Ex, H.Ez, (fun e => by cases e), H.unsetD,
      H.unsetE⟩, h.rows, h.flags⟩
  | C1 =>
    have : is2d = false := hn
    subst this
    exact ⟨h.mode, h.cols, (fun e => by cases e), ⟨H.A, rfl, H.C2, H.D, H.Ex, H.Ez, (fun e => by cases e), H.unsetD,
      H.unsetE⟩, h.rows, h.flags⟩
  | C2 => exact ⟨h.mode, h.cols, (fun e => by cases e), ⟨H.A, H.C1, rfl, H.D, H.Ex, H.Ez, (fun e => by cases e), H.unsetD,
      H.unsetE⟩, h.rows, h.flags⟩
  | D => exact ⟨h.mode, h.cols, (fun e => by cases e), ⟨H.A, H.C1, H.C2, rfl, H.Ex, H.Ez, H.unsetC, (fun e => by cases e),
      H.unsetE⟩, h.rows, h.flags⟩
  | Ex => exact ⟨h.mode, h.cols, (fun e => by cases e), ⟨H.A, H.C1, H.C2, H.D, rfl, H.Ez, H.unsetC, H.unsetD,
      (fun e => by cases e)⟩, h.rows, h.flags⟩
  | Ez => exact ⟨h.mode, h.cols, (fun e => by cases e), ⟨H.A, H.C1, H.C2, H.D, H.Ex, rfl, H.unsetC, H.unsetD,
      (fun e => by cases e)⟩, h.rows, h.flags⟩

theorem calls_inv [CharZero K] (g : Grid P K) (pts : Finset P) (hp : Proper g pts) (mt : Metric P K) (hk : Consts mt)
    (fl0 : AllFlags) : ∀ (cs : List (Call P K)) (w : Wanted P K) (fl : AllFlags) (s : Solver P K),
    Inv g mt pts fl0 w fl s → (∀ c ∈ cs, NotC1Flat c) →
    ∃ s', calls g mt s cs = .ok s' ∧ Inv g mt pts fl0 (cs.foldl Wanted.after w) (flagsAfter fl cs) s'
  | [], w, fl, s, h, _ => ⟨s, rfl, h⟩
  | c :: cs, w, fl, s, h, hn => by
    have hn' : ∀ c ∈ cs, NotC1Flat c := fun c hc => hn c (List.mem_cons_of_mem _ hc)
    have hc := hn c (List.mem_cons_self ..)
    cases c with
    | setCoef which is2d v =>
      obtain ⟨s', h1, h2⟩ := calls_inv g pts hp mt hk fl0 cs _ fl _ (setCoef_inv g pts mt fl0 fl w s h which is2d v hc) hn'
      exact ⟨s', h1, h2⟩
    | setFlags f =>
      obtain ⟨s', h1, h2⟩ := calls_inv g pts hp mt hk fl0 cs w f { s with flags := f }
        ⟨h.mode, h.cols, h.fresh, h.holds, h.rows, rfl⟩ hn'
      exact ⟨s', h1, h2⟩
    | solve b x0 =>
      obtain ⟨s1, e1, i1, -⟩ := refresh_inv g pts hp mt hk fl0 fl w s h
      obtain ⟨s', h1, h2⟩ := calls_inv g pts hp mt hk fl0 cs w fl s1 i1 hn'
      refine ⟨s', ?_, h2⟩
      unfold calls
      simp only [call]
      rw [e1]
      exact h1

theorem kind_after (fl0 : AllFlags) : ∀ (cs : List (Call P K)) (fl : AllFlags), (∀ c ∈ cs, KeepsKind fl0 c) →
    KeepsKind fl0 (.setFlags fl : Call P K) → KeepsKind fl0 (.setFlags (flagsAfter fl cs) : Call P K)
  | [], _, _, h => h
  | c :: cs, fl, hc, h => by
    have hc' : ∀ c ∈ cs, KeepsKind fl0 c := fun c hm => hc c (List.mem_cons_of_mem _ hm)
    have h0 := hc c (List.mem_cons_self ..)
    cases c with
    | setCoef which is2d v => exact kind_after fl0 cs fl hc' h
    | setFlags f => exact kind_after fl0 cs f hc' h0
    | solve b x0 => exact kind_after fl0 cs fl hc' h

end Verif.Lap3D
