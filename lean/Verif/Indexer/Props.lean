/-
C39: the global numbering is a bijection.
-/
import Verif.Indexer.Model
import Mathlib.Data.List.Nodup

namespace Verif.Indexer
open Verif.Region

/-! ## Specification -/

/-- Flat indices of a region. -/
def pts (r : Region) : List Int := r.indices.map Ind.ind

/-- The stencil used at interior point `i` reaches the flat index `n`. -/
def Reaches (st : List Stencil) (i : Ind) (n : Int) : Prop :=
  ∃ part, getStencilPart st i = .ok part ∧ ∃ o ∈ part, (addOff i o).ind = n

/-- `n` belongs to one of the boundary regions that matter for the field type. -/
def InBoundary (R : Regions) (n : Int) : Prop :=
  n ∈ pts R.innerX ∨ n ∈ pts R.outerX ∨ (R.perp = false ∧ (n ∈ pts R.lowerY ∨ n ∈ pts R.upperY))

/-- The unknowns of a rank: the interior points, and the boundary points that the stencil of some interior point reaches. -/
def Unknown (R : Regions) (st : List Stencil) (n : Int) : Prop :=
  n ∈ pts R.nobndry ∨ (InBoundary R n ∧ ∃ i ∈ iterate R.nobndry.blocks, Reaches st i n)

/-- What the mesh guarantees about its regions: the interior has no repeated point, its blocks and indices agree, and the boundary regions are disjoint
from each other. -/
structure RegionsOk (R : Regions) : Prop where
  nodup : (pts R.nobndry).Nodup
  inStep : InStep R.nobndry
  innerOuter : ∀ n, n ∈ pts R.innerX → n ∉ pts R.outerX
  lowerInner : ∀ n, n ∈ pts R.lowerY → n ∉ pts R.innerX
  lowerOuter : ∀ n, n ∈ pts R.lowerY → n ∉ pts R.outerX
  lowerUpper : ∀ n, n ∈ pts R.lowerY → n ∉ pts R.upperY
  innerUpper : ∀ n, n ∈ pts R.innerX → n ∉ pts R.upperY
  outerUpper : ∀ n, n ∈ pts R.outerX → n ∉ pts R.upperY

/-! ## The candidate set -/

theorem any_ind {l : List Ind} {i : Ind} : l.any (fun j => decide (j.ind = i.ind)) = true ↔ i.ind ∈ l.map Ind.ind := by
  simp only [List.any_eq_true, decide_eq_true_eq, List.mem_map]

/-- The set stays without repetition, and grows by the inserted point. -/
theorem insertIndex_spec (s : List Ind × List Ind) (i : Ind) (h : (s.1.map Ind.ind).Nodup) :
    ((insertIndex s i).1.map Ind.ind).Nodup ∧
    (∀ n, n ∈ (insertIndex s i).1.map Ind.ind ↔ n ∈ s.1.map Ind.ind ∨ n = i.ind) ∧
    (∀ j ∈ (insertIndex s i).2, j ∈ s.2 ∨ j = i) := by
  unfold insertIndex
  by_cases hc : s.1.any (fun j => decide (j.ind = i.ind)) = true
  · rw [if_pos hc]
    refine ⟨h, fun n => ?_, fun j hj => Or.inl hj⟩
    constructor
    · exact Or.inl
    · rintro (hn | rfl)
      · exact hn
      · exact any_ind.1 hc
  · rw [if_neg hc]
    have hc' : i.ind ∉ s.1.map Ind.ind := fun hm => hc (any_ind.2 hm)
    refine ⟨?_, fun n => ?_, fun j hj => ?_⟩
    · simp only [List.map_append, List.map_cons, List.map_nil]
      rw [List.nodup_append]
      refine ⟨h, by simp, ?_⟩
      intro a ha b hb
      simp only [List.mem_singleton] at hb
      subst hb
      intro e
      exact hc' (e ▸ ha)
    · simp
    · simpa using hj

theorem insertAll_spec (l : List Ind) (s : List Ind × List Ind) (h : (s.1.map Ind.ind).Nodup) :
    ((l.foldl insertIndex s).1.map Ind.ind).Nodup ∧
    (∀ n, n ∈ (l.foldl insertIndex s).1.map Ind.ind ↔ n ∈ s.1.map Ind.ind ∨ n ∈ l.map Ind.ind) := by
  induction l generalizing s with
  | nil => simp [h]
  | cons i is ih =>
    obtain ⟨h1, h2, _⟩ := insertIndex_spec s i h
    obtain ⟨h3, h4⟩ := ih _ h1
    refine ⟨h3, fun n => ?_⟩
    simp only [List.foldl_cons, h4, h2, List.map_cons, List.mem_cons, or_assoc]

/-- Inserting points that are there already adds nothing. -/
theorem insertAll_present (l : List Ind) (all new : List Ind) (h : ∀ i ∈ l, i.ind ∈ all.map Ind.ind) :
    l.foldl insertIndex (all, new) = (all, new) := by
  induction l with
  | nil => rfl
  | cons i is ih =>
    simp only [List.foldl_cons]
    have : insertIndex (all, new) i = (all, new) := by
      unfold insertIndex
      rw [if_pos (any_ind.2 (h i (by simp)))]
    rw [this]
    exact ih (fun j hj => h j (by simp [hj]))

/-- **C39.** The `while` loop over candidates runs at most one round and changes nothing, since all candidates are in the set
already. -/
theorem C39_loop (fuel : Nat) (cand all : List Ind) (h : ∀ i ∈ cand, i.ind ∈ all.map Ind.ind) :
    again (fuel + 2) cand all = .ok all := by
  unfold again
  split
  · rw [insertAll_present cand all [] h]
    unfold again
    simp
  · rfl

/-- The offsets of one point. -/
theorem insertOffs_spec (i : Ind) (part : List Off) (s : List Ind × List Ind) (h : (s.1.map Ind.ind).Nodup)
    (hs : ∀ j ∈ s.2, j.ind ∈ s.1.map Ind.ind) :
    ((part.foldl (fun s j => insertIndex s (addOff i j)) s).1.map Ind.ind).Nodup ∧
    (∀ n, n ∈ (part.foldl (fun s j => insertIndex s (addOff i j)) s).1.map Ind.ind ↔
      n ∈ s.1.map Ind.ind ∨ ∃ o ∈ part, (addOff i o).ind = n) ∧
    (∀ j ∈ (part.foldl (fun s j => insertIndex s (addOff i j)) s).2,
      j.ind ∈ (part.foldl (fun s j => insertIndex s (addOff i j)) s).1.map Ind.ind) := by
  induction part generalizing s with
  | nil => exact ⟨h, by simp, hs⟩
  | cons o os ih =>
    obtain ⟨h1, h2, h3⟩ := insertIndex_spec s (addOff i o) h
    obtain ⟨h4, h5, h6⟩ := ih (insertIndex s (addOff i o)) h1 (by
      intro j hj
      rw [h2]
      rcases h3 j hj with hj | rfl
      · exact Or.inl (hs j hj)
      · exact Or.inr rfl)
    refine ⟨h4, fun n => ?_, h6⟩
    simp only [List.foldl_cons]
    rw [h5, h2]
    constructor
    · rintro ((hn | rfl) | ⟨o', ho', e⟩)
      · exact Or.inl hn
      · exact Or.inr ⟨o, by simp, rfl⟩
      · exact Or.inr ⟨o', by simp [ho'], e⟩
    · rintro (hn | ⟨o', ho', e⟩)
      · exact Or.inl (Or.inl hn)
      · rcases List.mem_cons.1 ho' with rfl | ho'
        · exact Or.inl (Or.inr e.symm)
        · exact Or.inr ⟨o', ho', e⟩

theorem collect_spec (st : List Stencil) (is : List Ind) (s s' : List Ind × List Ind) (h : (s.1.map Ind.ind).Nodup)
    (hs : ∀ j ∈ s.2, j.ind ∈ s.1.map Ind.ind) (e : collect st is s = .ok s') :
    (s'.1.map Ind.ind).Nodup ∧ (∀ n, n ∈ s'.1.map Ind.ind ↔ n ∈ s.1.map Ind.ind ∨ ∃ i ∈ is, Reaches st i n) ∧
    (∀ j ∈ s'.2, j.ind ∈ s'.1.map Ind.ind) := by
  induction is generalizing s with
  | nil =>
    simp only [collect, Except.ok.injEq] at e
    subst e
    exact ⟨h, by simp, hs⟩
  | cons i is ih =>
    rw [collect] at e
    split at e
    · cases e
    · rename_i part hp
      obtain ⟨h1, h2, h3⟩ := insertOffs_spec i part s h hs
      obtain ⟨h4, h5, h6⟩ := ih _ h1 h3 e
      refine ⟨h4, fun n => ?_, h6⟩
      rw [h5, h2]
      constructor
      · rintro ((hn | ho) | ⟨j, hj, hr⟩)
        · exact Or.inl hn
        · exact Or.inr ⟨i, by simp, part, hp, ho⟩
        · exact Or.inr ⟨j, by simp [hj], hr⟩
      · rintro (hn | ⟨j, hj, hr⟩)
        · exact Or.inl (Or.inl hn)
        · rcases List.mem_cons.1 hj with rfl | hj
          · obtain ⟨part', hp', ho⟩ := hr
            rw [hp] at hp'
            obtain rfl : part = part' := by injection hp'
            exact Or.inl (Or.inr ho)
          · exact Or.inr ⟨j, hj, hr⟩

/-- The constructor succeeds exactly if every interior point has a stencil (or no stencil is given). -/
theorem collect_ok_iff (st : List Stencil) (is : List Ind) (s : List Ind × List Ind) :
    (∃ s', collect st is s = .ok s') ↔ ∀ i ∈ is, ∃ x ∈ st, x.test i = true := by
  induction is generalizing s with
  | nil => simp [collect]
  | cons i is ih =>
    rw [collect]
    unfold getStencilPart
    cases hf : st.find? (fun s => s.test i) with
    | none =>
      simp only [List.mem_cons, forall_eq_or_imp, reduceCtorEq, exists_false, false_iff, not_and]
      intro hx
      rw [List.find?_eq_none] at hf
      obtain ⟨x, hx, ht⟩ := hx
      exact absurd ht (hf x hx)
    | some x =>
      simp only [ih, List.mem_cons, forall_eq_or_imp]
      constructor
      · exact fun hh => ⟨⟨x, List.mem_of_find?_eq_some hf, by simpa using List.find?_some hf⟩, hh⟩
      · exact fun hh => hh.2

theorem cand_spec (R : Regions) (st : List Stencil) (hok : RegionsOk R) (cand : Region)
    (e : allCandidate R st = .ok cand) :
    (pts cand).Nodup ∧ (∀ n, n ∉ pts R.nobndry → (n ∈ pts cand ↔ ∃ i ∈ iterate R.nobndry.blocks, Reaches st i n)) := by
  unfold allCandidate at e
  split at e
  · split at e
    · cases e
    · rename_i s hs
      obtain ⟨h1, h2⟩ := insertAll_spec R.nobndry.indices ([], []) (by simp)
      obtain ⟨h3, h4, h5⟩ := collect_spec st _ ((R.nobndry.indices.foldl insertIndex ([], [])).1, []) _ h1 (by simp) hs
      rw [C39_loop 0 s.2 s.1 h5] at e
      simp only [Except.ok.injEq] at e
      subst e
      have hp : (pts (Region.ofIndices (Region.stdSort s.1))).Perm (s.1.map Ind.ind) := (stdSort_perm s.1).map _
      refine ⟨hp.nodup_iff.2 h3, fun n hn => ?_⟩
      rw [hp.mem_iff, h4, h2]
      simp only [List.map_nil, List.not_mem_nil, false_or]
      constructor
      · rintro (hn' | hr)
        · exact absurd hn' hn
        · exact hr
      · exact Or.inr
  · rename_i hl
    simp only [Except.ok.injEq] at e
    subst e
    have : st = [] := List.eq_nil_of_length_eq_zero (by omega)
    subst this
    refine ⟨by simp [pts], fun n _ => ?_⟩
    simp only [pts, List.map_nil, List.not_mem_nil, false_iff, not_exists, not_and]
    rintro i _ ⟨part, hp, _⟩
    simp [getStencilPart] at hp

/-! ## The regions -/

theorem mem_inter {a o : Region} {n : Int} : n ∈ pts (a.getIntersection o) ↔ n ∈ pts a ∧ n ∈ pts o := by
  unfold pts
  rw [C05_intersection]
  simp only [List.mem_map, List.mem_filter, decide_eq_true_eq]
  constructor
  · rintro ⟨i, ⟨hi, hj⟩, rfl⟩
    exact ⟨⟨i, hi, rfl⟩, hj⟩
  · rintro ⟨⟨i, hi, rfl⟩, hj⟩
    exact ⟨i, ⟨hi, hj⟩, rfl⟩

theorem mem_mask {a o : Region} {n : Int} : n ∈ pts (a.mask o) ↔ n ∈ pts a ∧ n ∉ pts o := by
  unfold pts
  rw [C05_mask]
  simp only [List.mem_map, List.mem_filter, decide_eq_true_eq]
  constructor
  · rintro ⟨i, ⟨hi, hj⟩, rfl⟩
    exact ⟨⟨i, hi, rfl⟩, hj⟩
  · rintro ⟨⟨i, hi, rfl⟩, hj⟩
    exact ⟨i, ⟨hi, hj⟩, rfl⟩

theorem pts_filter_nodup {l : List Ind} (p : Ind → Bool) (h : (l.map Ind.ind).Nodup) : ((l.filter p).map Ind.ind).Nodup :=
  h.sublist (List.Sublist.map _ List.filter_sublist)

theorem inter_nodup {a o : Region} (h : (pts a).Nodup) : (pts (a.getIntersection o)).Nodup := by
  unfold pts; rw [C05_intersection]; exact pts_filter_nodup _ h

theorem mask_nodup {a o : Region} (h : (pts a).Nodup) : (pts (a.mask o)).Nodup := by
  unfold pts; rw [C05_mask]; exact pts_filter_nodup _ h

theorem pts_add (a b : Region) : pts (a.add b) = pts a ++ pts b := by
  unfold pts; rw [C05_add, List.map_append]

theorem pts_sorted (a : Region) : (pts a.asSorted).Perm (pts a) := (C05_sort a).1.map _

theorem pts_empty : pts {} = [] := rfl

/-- **C39.** The points a rank numbers are exactly its unknowns, each once, in increasing order of the local index. -/
theorem C39_unknowns (R : Regions) (st : List Stencil) (hok : RegionsOk R) (b : Built) (e : build R st = .ok b) :
    (∀ n, n ∈ pts b.all ↔ Unknown R st n) ∧ (pts b.all).Pairwise (· < ·) := by
  unfold build at e
  split at e
  · cases e
  · rename_i cand hc
    simp only [Except.ok.injEq] at e
    subst e
    obtain ⟨hcn, hcm⟩ := cand_spec R st hok cand hc
    have hbn := mask_nodup (o := R.nobndry) hcn
    have mem : ∀ n, n ∈ pts (buildFrom R cand).all ↔ Unknown R st n := by
      intro n
      unfold buildFrom
      simp only
      rw [(pts_sorted _).mem_iff, pts_add, pts_add, pts_add, pts_add]
      simp only [List.mem_append]
      unfold Unknown InBoundary
      by_cases hn : n ∈ pts R.nobndry
      · simp [hn]
      · rw [← hcm n hn]
        cases hp : R.perp
        · simp only [Bool.false_eq_true, if_false, mem_inter, mem_mask, hn, not_false_eq_true, and_true, false_or, true_and]
          tauto
        · simp only [if_true, pts_empty, mem_inter, mem_mask, hn, not_false_eq_true, and_true, false_or, List.not_mem_nil,
            Bool.true_eq_false, false_and, or_false]
          tauto
    refine ⟨mem, ?_⟩
    have nd : (pts (buildFrom R cand).all).Nodup := by
      unfold buildFrom
      simp only
      rw [(pts_sorted _).nodup_iff, pts_add, pts_add, pts_add, pts_add]
      have n1 := inter_nodup (o := R.innerX) hbn
      have n2 := inter_nodup (o := R.outerX) hbn
      have n3 := inter_nodup (o := R.lowerY) hbn
      have n4 := inter_nodup (o := R.upperY) hbn
      have notin : ∀ n, ∀ o : Region, n ∈ pts ((cand.mask R.nobndry).getIntersection o) → n ∉ pts R.nobndry ∧ n ∈ pts o :=
        fun n o hm => ⟨(mem_mask.1 (mem_inter.1 hm).1).2, (mem_inter.1 hm).2⟩
      cases hp : R.perp
      · simp only [Bool.false_eq_true, if_false]
        simp only [List.nodup_append, List.mem_append]
        refine ⟨hok.nodup, ⟨⟨⟨n3, n1, ?_⟩, n2, ?_⟩, n4, ?_⟩, ?_⟩
        · rintro a ha c hc rfl
          exact hok.lowerInner a (notin _ _ ha).2 (notin _ _ hc).2
        · rintro a (ha | ha) c hc rfl
          · exact hok.lowerOuter a (notin _ _ ha).2 (notin _ _ hc).2
          · exact hok.innerOuter a (notin _ _ ha).2 (notin _ _ hc).2
        · rintro a ((ha | ha) | ha) c hc rfl
          · exact hok.lowerUpper a (notin _ _ ha).2 (notin _ _ hc).2
          · exact hok.innerUpper a (notin _ _ ha).2 (notin _ _ hc).2
          · exact hok.outerUpper a (notin _ _ ha).2 (notin _ _ hc).2
        · rintro a ha c (((hc | hc) | hc) | hc) rfl <;> exact (notin _ _ hc).1 ha
      · simp only [if_true, pts_empty, List.nil_append, List.append_nil]
        simp only [List.nodup_append, List.mem_append]
        refine ⟨hok.nodup, ⟨n1, n2, ?_⟩, ?_⟩
        · rintro a ha c hc rfl
          exact hok.innerOuter a (notin _ _ ha).2 (notin _ _ hc).2
        · rintro a ha c (hc | hc) rfl <;> exact (notin _ _ hc).1 ha
    have so : (pts (buildFrom R cand).all).Pairwise (· ≤ ·) := by
      have := (C05_sort (R.nobndry.add (((((if R.perp then ({} : Region) else (cand.mask R.nobndry).getIntersection R.lowerY).add
        ((cand.mask R.nobndry).getIntersection R.innerX)).add ((cand.mask R.nobndry).getIntersection R.outerX)).add
        (if R.perp then ({} : Region) else (cand.mask R.nobndry).getIntersection R.upperY))))).2
      exact List.pairwise_map.2 this
    exact (so.and nd).imp (fun ⟨h1, h2⟩ => lt_of_le_of_ne h1 h2)

/-- **C39.** Construction fails only by the exception of a point without a stencil. -/
theorem C39_construction (R : Regions) (st : List Stencil) (hok : RegionsOk R) :
    (∃ b, build R st = .ok b) ↔ (st = [] ∨ ∀ i ∈ iterate R.nobndry.blocks, ∃ x ∈ st, x.test i = true) := by
  unfold build allCandidate
  by_cases hl : st.length > 0
  · rw [if_pos hl]
    have hne : st ≠ [] := by rintro rfl; simp at hl
    simp only [hne, false_or]
    rw [← collect_ok_iff st (iterate R.nobndry.blocks) ((R.nobndry.indices.foldl insertIndex ([], [])).1, [])]
    cases hs : collect st (iterate R.nobndry.blocks) ((R.nobndry.indices.foldl insertIndex ([], [])).1, []) with
    | error e => simp
    | ok s =>
      obtain ⟨h1, _⟩ := insertAll_spec R.nobndry.indices ([], []) (by simp)
      obtain ⟨_, _, h5⟩ := collect_spec st _ ((R.nobndry.indices.foldl insertIndex ([], [])).1, []) _ h1 (by simp) hs
      simp [C39_loop 0 s.2 s.1 h5]
  · rw [if_neg hl]
    have : st = [] := List.eq_nil_of_length_eq_zero (by omega)
    simp [this]

/-! ## The numbers -/

theorem fold_spec (l : List Int) (f : Int → Int) (c : Int) (h : l.Nodup) :
    (∀ n, n ∉ l → (l.foldl (fun s n => (setAt s.1 n s.2, s.2 + 1)) (f, c)).1 n = f n) ∧
    (∀ k : Nat, ∀ hk : k < l.length, (l.foldl (fun s n => (setAt s.1 n s.2, s.2 + 1)) (f, c)).1 l[k] = c + k) := by
  induction l generalizing f c with
  | nil => simp
  | cons a as ih =>
    rw [List.nodup_cons] at h
    obtain ⟨h1, h2⟩ := ih (setAt f a c) (c + 1) h.2
    simp only [List.foldl_cons]
    refine ⟨fun n hn => ?_, fun k hk => ?_⟩
    · rw [h1 n (by simp at hn; exact hn.2), setAt, if_neg (by simp at hn; exact hn.1)]
    · cases k with
      | zero => simp [h1 a h.1, setAt]
      | succ k =>
        have := h2 k (by simpa using hk)
        simp only [List.getElem_cons_succ]
        rw [this]
        push_cast
        ring

/-- The numbers on a rank: consecutive, in the order of the points. -/
theorem number_spec (sc : Int) (r : Region) (hin : InStep r) (hnd : (pts r).Nodup) :
    (number sc r).globalStart = sc - (pts r).length ∧ (number sc r).globalEnd = sc - 1 ∧
    (∀ n, n ∉ pts r → (number sc r).indices n = -1) ∧
    (∀ k : Nat, ∀ hk : k < (pts r).length, (number sc r).indices (pts r)[k] = sc - (pts r).length + k) := by
  have hl : (r.size : Int) = (pts r).length := by simp [pts, Region.size]
  have hfold : (number sc r).indices =
      ((pts r).foldl (fun s n => (setAt s.1 n s.2, s.2 + 1)) ((fun _ => -1 : Int → Int), sc - (pts r).length)).1 := by
    unfold number
    simp only
    rw [show sc - 1 - (r.size : Int) + 1 = sc - (pts r).length by rw [hl]; ring]
    have hi : (iterate r.blocks).map Ind.ind = pts r := hin
    rw [← hi, List.foldl_map]
  refine ⟨?_, rfl, ?_⟩
  · show sc - 1 - (r.size : Int) + 1 = _
    rw [hl]; ring
  · rw [hfold]
    exact fold_spec (pts r) (fun _ => -1) _ hnd

/-- Numbers before rank `r`. -/
def before (bs : List Built) (r : Nat) : Int := (((bs.take r).map (fun b => ((pts b.all).length : Int))).sum)

theorem scan_eq (bs : List Built) (r : Nat) (b : Built) (h : bs[r]? = some b) :
    scan bs r = before bs r + (pts b.all).length := by
  unfold scan before
  have : (fun b : Built => (b.all.size : Int)) = fun b => ((pts b.all).length : Int) := by
    funext b; simp [pts, Region.size]
  rw [this, List.take_add_one, h]
  simp

theorem before_mono (bs : List Built) : ∀ r r' : Nat, r ≤ r' → before bs r ≤ before bs r' := by
  intro r r' h
  induction h with
  | refl => exact le_refl _
  | step _ ih =>
    rename_i m _
    refine le_trans ih ?_
    unfold before
    rw [List.take_add_one]
    simp only [List.map_append, List.sum_append]
    cases bs[m]? with
    | none => simp
    | some b => simp

theorem before_split (bs : List Built) (g : Int) : ∀ m : Nat, 0 ≤ g → g < before bs m →
    ∃ r : Nat, ∃ b, bs[r]? = some b ∧ before bs r ≤ g ∧ g < before bs r + (pts b.all).length := by
  intro m
  induction m with
  | zero => intro h0 h1; simp [before] at h1; omega
  | succ m ih =>
    intro h0 h1
    by_cases hg : g < before bs m
    · exact ih h0 hg
    · cases hb : bs[m]? with
      | none =>
        exfalso
        have : before bs (m + 1) = before bs m := by unfold before; rw [List.take_add_one, hb]; simp
        omega
      | some b =>
        refine ⟨m, b, hb, by omega, ?_⟩
        have : before bs (m + 1) = before bs m + (pts b.all).length := by
          unfold before; rw [List.take_add_one, hb]; simp
        omega

/-- The ranks of a communicator: their regions, their stencils, and what each constructed. -/
structure Ranks where
  ins : List (Regions × List Stencil)
  out : List Built
  ok : ∀ R ∈ ins, RegionsOk R.1
  len : ins.length = out.length
  built : ∀ r : Nat, ∀ h1 : r < ins.length, ∀ h2 : r < out.length, build (ins[r]).1 (ins[r]).2 = .ok (out[r])

/-- The number of point `n` on rank `r`, before communication. -/
def Ranks.num (W : Ranks) (r : Nat) (n : Int) : Int :=
  match W.out[r]? with
  | some b => (numbers W.out r b).indices n
  | none => -1

/-- `n` is an unknown of rank `r`. -/
def Ranks.IsUnknown (W : Ranks) (r : Nat) (n : Int) : Prop := ∃ R, W.ins[r]? = some R ∧ Unknown R.1 R.2 n

/-- The number of unknowns of all ranks. -/
def Ranks.total (W : Ranks) : Int := before W.out W.out.length

theorem Ranks.rank (W : Ranks) (r : Nat) (n : Int) (h : W.IsUnknown r n) :
    ∃ b, W.out[r]? = some b ∧ n ∈ pts b.all := by
  obtain ⟨R, hR, hu⟩ := h
  obtain ⟨h1, e⟩ := List.getElem?_eq_some_iff.1 hR
  have h2 : r < W.out.length := W.len ▸ h1
  have hb := W.built r h1 h2
  rw [e] at hb
  refine ⟨W.out[r], by simp [h2], ?_⟩
  exact ((C39_unknowns R.1 R.2 (W.ok R (List.mem_of_getElem? hR)) _ hb).1 n).2 hu

theorem Ranks.all_ok (W : Ranks) (r : Nat) (b : Built) (h : W.out[r]? = some b) :
    InStep b.all ∧ (pts b.all).Pairwise (· < ·) ∧ ∀ n, n ∈ pts b.all ↔ W.IsUnknown r n := by
  obtain ⟨h2, e⟩ := List.getElem?_eq_some_iff.1 h
  have h1 : r < W.ins.length := W.len.symm ▸ h2
  have hb := W.built r h1 h2
  rw [e] at hb
  have hR : W.ins[r]? = some W.ins[r] := by simp [h1]
  obtain ⟨u1, u2⟩ := C39_unknowns _ _ (W.ok _ (List.mem_of_getElem? hR)) _ hb
  refine ⟨?_, u2, fun n => (u1 n).trans ⟨fun hu => ⟨_, hR, hu⟩, fun ⟨R, hR', hu⟩ => ?_⟩⟩
  · unfold build at hb
    split at hb
    · cases hb
    · simp only [Except.ok.injEq] at hb
      rw [← hb]
      exact iterate_map_ind _ _
  · rw [hR] at hR'
    injection hR' with hR'
    exact hR' ▸ hu

theorem Ranks.num_at (W : Ranks) (r : Nat) (b : Built) (h : W.out[r]? = some b) (k : Nat) (hk : k < (pts b.all).length) :
    W.num r (pts b.all)[k] = before W.out r + k := by
  obtain ⟨h1, h2, _⟩ := W.all_ok r b h
  unfold Ranks.num
  rw [h]
  simp only
  unfold numbers
  rw [(number_spec _ b.all h1 (h2.imp (fun hlt => ne_of_lt hlt))).2.2.2 k hk, scan_eq _ r b h]
  ring

/-- **C39.** Over all ranks, the numbers of the unknowns are a bijection onto `[0, N)`: every unknown has a number in that
range, and every number in that range belongs to exactly one unknown of one rank. -/
theorem C39_bijection (W : Ranks) :
    (∀ r n, W.IsUnknown r n → 0 ≤ W.num r n ∧ W.num r n < W.total) ∧
    (∀ g, 0 ≤ g → g < W.total → ∃ r n, W.IsUnknown r n ∧ W.num r n = g) ∧
    (∀ r n r' n', W.IsUnknown r n → W.IsUnknown r' n' → W.num r n = W.num r' n' → r = r' ∧ n = n') := by
  have loc : ∀ r n, W.IsUnknown r n → ∃ b, W.out[r]? = some b ∧ ∃ k : Nat, ∃ hk : k < (pts b.all).length,
      (pts b.all)[k] = n ∧ W.num r n = before W.out r + k := by
    intro r n h
    obtain ⟨b, hb, hn⟩ := W.rank r n h
    obtain ⟨k, hk, e⟩ := List.getElem_of_mem hn
    refine ⟨b, hb, k, hk, e, ?_⟩
    rw [← e]
    exact W.num_at r b hb k hk
  have nonneg : ∀ r, 0 ≤ before W.out r := fun r => by
    have := before_mono W.out 0 r (Nat.zero_le r)
    simpa [before] using this
  have next : ∀ r b, W.out[r]? = some b → before W.out r + (pts b.all).length = before W.out (r + 1) := by
    intro r b hb
    unfold before
    rw [List.take_add_one, hb]
    simp
  refine ⟨?_, ?_, ?_⟩
  · intro r n h
    obtain ⟨b, hb, k, hk, _, e⟩ := loc r n h
    have h1 := nonneg r
    have h2 := next r b hb
    have h3 := before_mono W.out (r + 1) W.out.length (List.getElem?_eq_some_iff.1 hb).1
    unfold Ranks.total
    constructor <;> omega
  · intro g h0 h1
    obtain ⟨r, b, hb, h2, h3⟩ := before_split W.out g _ h0 h1
    have hk : (g - before W.out r).toNat < (pts b.all).length := by omega
    refine ⟨r, (pts b.all)[(g - before W.out r).toNat], ?_, ?_⟩
    · exact ((W.all_ok r b hb).2.2 _).1 (List.getElem_mem _)
    · rw [W.num_at r b hb _ hk]; omega
  · intro r n r' n' h h' e
    obtain ⟨b, hb, k, hk, e1, e2⟩ := loc r n h
    obtain ⟨b', hb', k', hk', e1', e2'⟩ := loc r' n' h'
    have hn := next r b hb
    have hn' := next r' b' hb'
    have hr : r = r' := by
      rcases Nat.lt_trichotomy r r' with hlt | heq | hgt
      · have := before_mono W.out (r + 1) r' hlt
        omega
      · exact heq
      · have := before_mono W.out (r' + 1) r hgt
        omega
    subst hr
    rw [hb] at hb'
    injection hb' with hb'
    subst hb'
    refine ⟨rfl, ?_⟩
    have : k = k' := by omega
    subst this
    rw [← e1, ← e1']

/-- **C39.** All other points of a rank keep the number -1, and the numbers of a rank increase with the local index. -/
theorem C39_order (W : Ranks) (r : Nat) :
    (∀ n, ¬ W.IsUnknown r n → W.num r n = -1) ∧
    (∀ n n', W.IsUnknown r n → W.IsUnknown r n' → n < n' → W.num r n < W.num r n') := by
  constructor
  · intro n h
    unfold Ranks.num
    cases hb : W.out[r]? with
    | none => rfl
    | some b =>
      obtain ⟨h1, h2, h3⟩ := W.all_ok r b hb
      exact (number_spec _ b.all h1 (h2.imp (fun hlt => ne_of_lt hlt))).2.2.1 n (fun hm => h ((h3 n).1 hm))
  · intro n n' h h' hlt
    obtain ⟨b, hb, hn⟩ := W.rank r n h
    obtain ⟨b', hb', hn'⟩ := W.rank r n' h'
    rw [hb] at hb'
    injection hb' with hb'
    subst hb'
    obtain ⟨k, hk, rfl⟩ := List.getElem_of_mem hn
    obtain ⟨k', hk', rfl⟩ := List.getElem_of_mem hn'
    rw [W.num_at r b hb k hk, W.num_at r b hb k' hk']
    have hp := (W.all_ok r b hb).2.1
    by_contra hc
    have hle : k' ≤ k := by omega
    rcases Nat.lt_or_eq_of_le hle with hl | he
    · have := List.pairwise_iff_getElem.1 hp k' k hk' hk hl
      omega
    · subst he; omega

/-- **C39.** `isLocal` on a field of numbers: true for exactly the non-negative indices that hold the number of one of this rank's
unknowns. -/
theorem C39_isLocal (W : Ranks) (r : Nat) (b : Built) (hb : W.out[r]? = some b) (f : Int → Int) (i : Ind) :
    isLocal (numbers W.out r b) f i = true ↔ 0 ≤ i.ind ∧ ∃ n, W.IsUnknown r n ∧ W.num r n = f i.ind := by
  obtain ⟨h1, h2, h3⟩ := W.all_ok r b hb
  obtain ⟨s1, s2, _⟩ := number_spec (scan W.out r) b.all h1 (h2.imp (fun hlt => ne_of_lt hlt))
  have hs := scan_eq W.out r b hb
  unfold isLocal numbers
  rw [s1, s2, hs]
  by_cases hi : i.ind < 0
  · rw [if_pos hi]; simp; omega
  · rw [if_neg hi]
    simp only [decide_eq_true_eq]
    constructor
    · rintro ⟨ha, hc⟩
      refine ⟨by omega, ?_⟩
      have hk : (f i.ind - before W.out r).toNat < (pts b.all).length := by omega
      refine ⟨(pts b.all)[(f i.ind - before W.out r).toNat], (h3 _).1 (List.getElem_mem _), ?_⟩
      rw [W.num_at r b hb _ hk]; omega
    · rintro ⟨_, n, hu, e⟩
      have hn := (h3 n).2 hu
      obtain ⟨k, hk, rfl⟩ := List.getElem_of_mem hn
      rw [W.num_at r b hb k hk] at e
      constructor <;> omega

end Verif.Indexer
