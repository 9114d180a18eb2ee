import Verif.Invert.LapXYProps
import Mathlib.Tactic.FieldSimp

/-! # LaplaceXY: every row of the assembled system is the intended equation -/

namespace Verif.LapXY

variable {K : Type} [Field K]

/-- Row cells in the order in which `setCoefs` and `solve` visit them. -/
def rowOrder (fv : Bool) (m : LMesh) : List Cell :=
  ((upto m.xstart m.xend).flatMap fun x => (upto m.ystart m.yend).map fun y => (x, y))
    ++ (if m.firstX then (upto m.ystart m.yend).map fun y => (m.xstart - 1, y) else [])
    ++ (if m.lastX then (upto m.ystart m.yend).map fun y => (m.xend + 1, y) else [])
    ++ ((m.lower.filter m.inX).map fun x => (x, m.ystart - 1))
    ++ ((m.upper.filter m.inX).map fun x => (x, m.yend + 1))
    ++ m.corners fv m.hasLower (m.ystart - 1)
    ++ m.corners fv m.hasUpper (m.yend + 1)

theorem map_if {α β : Type} (f : α → β) (p : Bool) (a : List α) :
    (if p then a else []).map f = if p then a.map f else [] := by
  cases p <;> rfl

theorem rowsWritten_order (o : Opts) (m : LMesh) (q : Coefs K) :
    (rowsWritten o m q).map Prod.fst = rowOrder o.finiteVolume m := by
  unfold rowsWritten rowOrder
  simp only [List.map_append, List.map_flatMap, List.map_map, map_if]
  simp only [Function.comp_def, List.map_id']

theorem rhsWritten_order (o : Opts) (m : LMesh) (rhs x0 : Cell → K) :
    (rhsWritten o m rhs x0).map Prod.fst = rowOrder o.finiteVolume m := by
  unfold rhsWritten rowOrder
  simp only [List.map_append, List.map_flatMap, List.map_map, map_if]
  simp only [Function.comp_def, List.map_id']

theorem mem_colIf (p : Bool) (x a b : Int) (c : Cell) :
    c ∈ (if p then (upto a b).map fun y => ((x, y) : Cell) else []) ↔
      p = true ∧ c.1 = x ∧ a ≤ c.2 ∧ c.2 ≤ b := by
  obtain ⟨x', y'⟩ := c
  cases p
  · simp
  · simp only [if_true, List.mem_map, mem_upto, Prod.mk.injEq, true_and]
    constructor
    · rintro ⟨y, h, rfl, rfl⟩; exact ⟨rfl, h⟩
    · rintro ⟨rfl, h⟩; exact ⟨y', h, rfl, rfl⟩

theorem mem_line (m : LMesh) (l : List Int) (yy : Int) (c : Cell) :
    c ∈ (l.filter m.inX).map (fun x => ((x, yy) : Cell)) ↔
      c.2 = yy ∧ c.1 ∈ l ∧ m.xstart ≤ c.1 ∧ c.1 ≤ m.xend := by
  obtain ⟨x, y⟩ := c
  simp only [List.mem_map, List.mem_filter, Prod.mk.injEq, inX_iff]
  constructor
  · rintro ⟨x', ⟨h1, h2⟩, rfl, rfl⟩; exact ⟨rfl, h1, h2⟩
  · rintro ⟨rfl, h1, h2⟩; exact ⟨x, ⟨h1, h2⟩, rfl, rfl⟩

/-- The rows written are the rows numbered. -/
theorem mem_rowOrder (fv : Bool) (m : LMesh) (hm : m.Ok) (c : Cell) :
    c ∈ rowOrder fv m ↔ c ∈ rowCells fv m := by
  have h1 := hm.xne
  have box : ((m.xstart ≤ c.1 ∧ c.1 ≤ m.xend ∧ m.ystart ≤ c.2 ∧ c.2 ≤ m.yend)
      ∨ (m.firstX = true ∧ c.1 = m.xstart - 1 ∧ m.ystart ≤ c.2 ∧ c.2 ≤ m.yend))
      ∨ (m.lastX = true ∧ c.1 = m.xend + 1 ∧ m.ystart ≤ c.2 ∧ c.2 ≤ m.yend) ↔
      (m.xs ≤ c.1 ∧ c.1 ≤ m.xe ∧ m.ystart ≤ c.2 ∧ c.2 ≤ m.yend) := by
    unfold LMesh.xs LMesh.xe
    cases m.firstX <;> cases m.lastX <;>
      simp only [true_and, false_and, or_false, if_true, Bool.false_eq_true, if_false] <;> omega
  rw [mem_rowCells, ← box]
  unfold rowOrder
  simp only [List.mem_append, mem_box, mem_colIf, mem_line]
  constructor
  · rintro ((((h | h) | h) | h) | h)
    · exact Or.inr (Or.inr (Or.inr (Or.inr h)))
    · exact Or.inl h
    · exact Or.inr (Or.inr (Or.inl h))
    · exact Or.inr (Or.inl h)
    · exact Or.inr (Or.inr (Or.inr (Or.inl h)))
  · rintro (h | h | h | h | h)
    · exact Or.inl (Or.inl (Or.inl (Or.inr h)))
    · exact Or.inl (Or.inr h)
    · exact Or.inl (Or.inl (Or.inr h))
    · exact Or.inr h
    · exact Or.inl (Or.inl (Or.inl (Or.inl h)))

theorem nodup_colIf (p : Bool) (x a b : Int) :
    (if p then (upto a b).map fun y => ((x, y) : Cell) else []).Nodup := by
  cases p
  · simp
  · exact (nodup_upto _ _).map (fun i j h => by simpa using h)

theorem nodup_rowOrder (fv : Bool) (m : LMesh) (hm : m.Ok) : (rowOrder fv m).Nodup := by
  have hx := hm.xne
  have hy := hm.yne
  unfold rowOrder
  rw [List.nodup_append, List.nodup_append, List.nodup_append, List.nodup_append,
    List.nodup_append, List.nodup_append]
  refine ⟨⟨⟨⟨⟨⟨nodup_box _ _ _ _, nodup_colIf _ _ _ _, ?_⟩, nodup_colIf _ _ _ _, ?_⟩,
    nodup_line _ _ _ hm.lower, ?_⟩, nodup_line _ _ _ hm.upper, ?_⟩, nodup_corners m hx _ _ _, ?_⟩,
    nodup_corners m hx _ _ _, ?_⟩
  all_goals
    rintro ⟨x, y⟩ h1 ⟨x', y'⟩ h2 heq
    simp only [Prod.mk.injEq] at heq
    obtain ⟨rfl, rfl⟩ := heq
    simp only [List.mem_append, mem_box, mem_colIf, mem_line, mem_corners] at h1 h2
    omega

/-- `VecSetValues`: with distinct indices each entry keeps what was written. -/
theorem vecEntry_mem (old : Int → K) (L : List (Int × K)) (hn : (L.map Prod.fst).Nodup)
    (i : Int) (hi : 0 ≤ i) (v : K) (h : (i, v) ∈ L) : vecEntry old L i = v := by
  unfold vecEntry
  induction L using List.reverseRecOn with
  | nil => cases h
  | append_singleton l e ih =>
    rw [List.map_append, List.nodup_append] at hn
    rw [List.foldl_append]
    simp only [List.foldl_cons, List.foldl_nil]
    rcases List.mem_append.mp h with h | h
    · rw [if_neg, ih hn.1 h]
      rintro ⟨h1, -⟩
      exact hn.2.2 i (List.mem_map.mpr ⟨(i, v), h, rfl⟩) e.1 (by simp) h1.symm
    · rw [List.mem_singleton] at h
      subst h
      rw [if_pos ⟨rfl, hi⟩]

/-- Distinct rows over all processors, for any list of row cells per processor. -/
theorem nodup_rows (w : World) (fv : Bool) (hw : w.Ok fv) :
    ((List.range w.nproc).flatMap fun r =>
      (rowOrder fv (w.mesh r)).map fun c => w.globalIndex fv r c).Nodup := by
  rw [List.nodup_flatMap]
  have key : ∀ r, r < w.nproc → ∀ s, s < w.nproc → ∀ c ∈ rowOrder fv (w.mesh r),
      ∀ d ∈ rowOrder fv (w.mesh s),
      w.globalIndex fv r c = w.globalIndex fv s d → (r, c) = (s, d) := by
    intro r hr s hs c hc d hd h
    rw [mem_rowOrder _ _ (hw.mesh r hr)] at hc
    rw [mem_rowOrder _ _ (hw.mesh s hs)] at hd
    rw [globalIndex_own w fv hw r hr c hc, globalIndex_own w fv hw s hs d hd] at h
    exact owned_inj w fv hw.mesh (r, c) (s, d) hr hs hc hd h
  refine ⟨?_, ?_⟩
  · intro r hr
    rw [List.mem_range] at hr
    refine List.Nodup.map_on ?_ (nodup_rowOrder fv _ (hw.mesh r hr))
    intro c hc d hd h
    have := key r hr r hr c hc d hd h
    simpa using this
  · have hn : (List.range w.nproc).Nodup := List.nodup_range
    refine List.Pairwise.imp_of_mem ?_ hn
    intro r s hr hs hne
    rw [List.mem_range] at hr hs
    simp only [Function.onFun, List.disjoint_left, List.mem_map]
    rintro i ⟨c, hc, rfl⟩ ⟨d, hd, h⟩
    have := key r hr s hs c hc d hd h.symm
    simp only [Prod.mk.injEq] at this
    exact hne this.1

/-- The matrix as a list of rows. -/
def rowGroups (w : World) (o : Opts) (q : Nat → Coefs K) : List (Int × List (Int × K)) :=
  (List.range w.nproc).flatMap fun r => (rowsWritten o (w.mesh r) (q r)).map fun p =>
    (w.globalIndex o.finiteVolume r p.1,
      p.2.map fun e => (w.globalIndex o.finiteVolume r e.1, e.2))

theorem matOps_groups (w : World) (o : Opts) (q : Nat → Coefs K) :
    matOps w o q = (rowGroups w o q).flatMap fun g => g.2.map fun e => (g.1, e.1, e.2) := by
  unfold matOps rowGroups rankOps
  rw [List.flatMap_assoc]
  congr 1
  funext r
  rw [List.flatMap_map]
  simp only [List.map_map]
  rfl

theorem rowGroups_nodup (w : World) (o : Opts) (q : Nat → Coefs K) (hw : w.Ok o.finiteVolume) :
    ((rowGroups w o q).map Prod.fst).Nodup := by
  have := nodup_rows w o.finiteVolume hw
  unfold rowGroups
  rw [List.map_flatMap]
  convert this using 3 with r
  rw [← rowsWritten_order o (w.mesh r) (q r), List.map_map, List.map_map]
  rfl

theorem vecOps_nodup (w : World) (o : Opts) (rhs x0 : Nat → Cell → K) (hw : w.Ok o.finiteVolume) :
    ((vecOps w o rhs x0).map Prod.fst).Nodup := by
  have := nodup_rows w o.finiteVolume hw
  unfold vecOps
  rw [List.map_flatMap]
  convert this using 3 with r
  rw [← rhsWritten_order o (w.mesh r) (rhs r) (x0 r), List.map_map, List.map_map]
  rfl

/-- Value at a cell, as seen from processor `r`, of a vector over the rows. -/
def look (w : World) (o : Opts) (xs : Int → K) (r : Nat) (c : Cell) : K :=
  xs (w.globalIndex o.finiteVolume r c)

/-- Every row of the solved system, as an equation between the values at the cells of its
stencil, provided the columns of the row are different rows of the system. -/
theorem row_equation (w : World) (o : Opts) (q : Nat → Coefs K) (old : Int → K)
    (rhs x0 : Nat → Cell → K) (xs : Int → K) (hw : w.Ok o.finiteVolume)
    (hk : KspSolved w o q old rhs x0 xs) (r : Nat) (hr : r < w.nproc) (c : Cell) (st : Stencil K)
    (b : K) (hst : (c, st) ∈ rowsWritten o (w.mesh r) (q r))
    (hb : (c, b) ∈ rhsWritten o (w.mesh r) (rhs r) (x0 r))
    (own : Cell → Nat × Cell)
    (hown : ∀ e ∈ st, (w.mesh r).Inside e.1 ∧ w.Owns o.finiteVolume r e.1 (own e.1))
    (hdist : (st.map fun e => own e.1).Nodup) :
    (st.map fun e => e.2 * look w o xs r e.1).sum = b := by
  have hc : c ∈ rowCells o.finiteVolume (w.mesh r) := by
    rw [← mem_rowOrder _ _ (hw.mesh r hr), ← rowsWritten_order o (w.mesh r) (q r)]
    exact List.mem_map.mpr ⟨(c, st), hst, rfl⟩
  have hgi := globalIndex_own w _ hw r hr c hc
  have hrange := owned_range w _ hw.mesh r hr c hc
  have hnn := istart_nonneg w o.finiteVolume hw.mesh r (by omega)
  have hup := istart_mono w o.finiteVolume hw.mesh (r + 1) w.nproc (by omega) (by omega)
  obtain ⟨i, hi⟩ : ∃ i : Nat, (i : Int) = w.globalIndex o.finiteVolume r c :=
    ⟨(w.globalIndex o.finiteVolume r c).toNat, by omega⟩
  have h := hk i (by omega)
  rw [hi] at h
  rw [vecEntry_mem old _ (vecOps_nodup w o rhs x0 hw) _ (by omega) b ?_] at h
  · rw [← h]
    have hent : ∀ j : Nat, entry (matOps w o q) (w.globalIndex o.finiteVolume r c) (j : Int)
        = entry ((st.map fun e => (w.globalIndex o.finiteVolume r e.1, e.2)).map fun e =>
            (w.globalIndex o.finiteVolume r c, e.1, e.2))
            (w.globalIndex o.finiteVolume r c) (j : Int) := by
      intro j
      rw [entry_filter, matOps_groups,
        filter_groups _ (rowGroups_nodup w o q hw) _
          (st.map fun e => (w.globalIndex o.finiteVolume r e.1, e.2))]
      unfold rowGroups
      rw [List.mem_flatMap]
      exact ⟨r, by simpa using hr, List.mem_map.mpr ⟨(c, st), hst, rfl⟩⟩
    rw [Finset.sum_congr rfl (fun j _ => by rw [hent j]), row_sum]
    · rw [List.map_map]; rfl
    · omega
    · rw [List.map_map]
      have : (st.map fun e => own e.1).Nodup := hdist
      have hmap : st.map (Prod.fst ∘ fun e : Cell × K => (w.globalIndex o.finiteVolume r e.1, e.2))
          = (st.map fun e => own e.1).map fun p =>
              localIndex o.finiteVolume (w.mesh p.1) p.2 + w.istart o.finiteVolume p.1 := by
        rw [List.map_map]
        apply List.map_congr_left
        intro e he
        exact globalIndex_owner w _ r e.1 (hown e he).1 (own e.1) (hown e he).2
      rw [hmap]
      refine List.Nodup.map_on ?_ this
      intro p hp p' hp' heq
      simp only [List.mem_map] at hp hp'
      obtain ⟨e, he, rfl⟩ := hp
      obtain ⟨e', he', rfl⟩ := hp'
      exact owned_inj w _ hw.mesh _ _ (hown e he).2.1 (hown e' he').2.1 (hown e he).2.2.1
        (hown e' he').2.2.1 heq
    · intro e he
      simp only [List.mem_map] at he
      obtain ⟨e', he', rfl⟩ := he
      have ho := (hown e' he').2
      have h1 := globalIndex_owner w _ r e'.1 (hown e' he').1 (own e'.1) ho
      have h2 := owned_range w o.finiteVolume hw.mesh _ ho.1 _ ho.2.1
      have h3 := istart_nonneg w o.finiteVolume hw.mesh (own e'.1).1 (by have := ho.1; omega)
      have h4 := istart_mono w o.finiteVolume hw.mesh ((own e'.1).1 + 1) w.nproc
        (by have := ho.1; omega) (by omega)
      simp only
      omega
  · unfold vecOps
    rw [List.mem_flatMap]
    exact ⟨r, by simpa using hr, List.mem_map.mpr ⟨(c, b), hb, rfl⟩⟩

/-! ## The copy back -/

theorem foldl_some {α β : Type} [DecidableEq α] (g : α → β) (L : List (α × α)) (c : α) (v : Option β)
    (hsrc : ∀ p ∈ L, p.1 = c → p.2 = c) (hex : v = some (g c) ∨ ∃ p ∈ L, p.1 = c) :
    L.foldl (fun v p => if p.1 = c then some (g p.2) else v) v = some (g c) := by
  induction L generalizing v with
  | nil =>
    rcases hex with h | ⟨p, hp, -⟩
    · exact h
    · cases hp
  | cons p L ih =>
    rw [List.foldl_cons]
    apply ih
    · intro p' hp'; exact hsrc p' (List.mem_cons_of_mem _ hp')
    · by_cases hpc : p.1 = c
      · left; rw [if_pos hpc, hsrc p List.mem_cons_self hpc]
      · rw [if_neg hpc]
        rcases hex with h | ⟨p', hp', hpc'⟩
        · left; exact h
        · rcases List.mem_cons.mp hp' with h | h
          · subst h; exact absurd hpc' hpc
          · right; exact ⟨p', h, hpc'⟩

/-- In the finite difference form the iterators include the first corner cells
(boutmesh.cxx L2858-2865 with `include_corner_cells`, which the constructor demands,
laplacexy.cxx L67-73). -/
def CornersVisited (fv : Bool) (m : LMesh) : Prop :=
  (∀ c ∈ m.corners fv m.hasLower (m.ystart - 1), c.1 ∈ m.lower) ∧
  (∀ c ∈ m.corners fv m.hasUpper (m.yend + 1), c.1 ∈ m.upper)

/-- A cell with a row gets the solved value of its row. -/
theorem result_row (w : World) (o : Opts) (xs : Int → K) (r : Nat)
    (hm : (w.mesh r).Ok) (hv : CornersVisited o.finiteVolume (w.mesh r)) (c : Cell)
    (hc : c ∈ rowCells o.finiteVolume (w.mesh r)) :
    result w o xs r c = some (xs (w.globalIndex o.finiteVolume r c)) := by
  unfold result
  refine foldl_some (fun c => xs (w.globalIndex o.finiteVolume r c)) _ c none ?_ (Or.inr ?_)
  · rintro ⟨⟨x, y⟩, ⟨x', y'⟩⟩ hp heq
    simp only at heq
    subst heq
    rw [mem_rowCells, mem_corners, mem_corners] at hc
    have a1 := xs_le (w.mesh r)
    have a2 := xe_ge (w.mesh r)
    have a3 := hm.xne
    have a4 := hm.yne
    unfold resultWrites at hp
    simp only [List.mem_append, List.mem_flatMap, List.mem_map, List.mem_ite_nil_right, mem_upto,
      List.mem_reverse, Prod.mk.injEq, List.mem_filter] at hp
    rcases hp with (((⟨x1, -, y1, -, ⟨rfl, rfl⟩, rfl, rfl⟩
      | ⟨hf, y1, hy1, x1, hx1, ⟨rfl, rfl⟩, rfl, rfl⟩)
      | ⟨hf, y1, hy1, x1, hx1, ⟨rfl, rfl⟩, rfl, rfl⟩)
      | ⟨x1, hx1, y1, hy1, ⟨rfl, rfl⟩, rfl, rfl⟩)
      | ⟨x1, hx1, y1, hy1, ⟨rfl, rfl⟩, rfl, rfl⟩
    · rfl
    all_goals
      simp only at hc
      rw [Prod.mk.injEq]
      omega
  · have hc' := hc
    rw [mem_rowCells] at hc
    have b := hm
    obtain ⟨x, y⟩ := c
    obtain ⟨b1, b2, b3, b4, b5, b6, -, -⟩ := b
    unfold resultWrites
    simp only [List.mem_append, List.mem_flatMap, List.mem_map, List.mem_ite_nil_right, mem_upto,
      List.mem_reverse, List.mem_filter]
    rcases hc with ⟨h1, h2, h3⟩ | h | ⟨h1, h2, h3⟩ | h | ⟨h1, h2, h3, h4⟩
    · simp only at h1 h2 h3
      refine ⟨((x, y), (x, (w.mesh r).ystart - 1)), Or.inl (Or.inr ⟨x, ⟨h2, ?_⟩, y, ?_, rfl⟩), rfl⟩
      · simp; omega
      · omega
    · have hl := hv.1 _ h
      rw [mem_corners] at h
      simp only at hl h
      refine ⟨((x, y), (x, (w.mesh r).ystart - 1)), Or.inl (Or.inr ⟨x, ⟨hl, ?_⟩, y, ?_, rfl⟩), rfl⟩
      · simp [h.1]; omega
      · omega
    · simp only at h1 h2 h3
      refine ⟨((x, y), (x, (w.mesh r).yend + 1)), Or.inr ⟨x, ⟨h2, ?_⟩, y, ?_, rfl⟩, rfl⟩
      · simp; omega
      · omega
    · have hl := hv.2 _ h
      rw [mem_corners] at h
      simp only at hl h
      refine ⟨((x, y), (x, (w.mesh r).yend + 1)), Or.inr ⟨x, ⟨hl, ?_⟩, y, ?_, rfl⟩, rfl⟩
      · simp [h.1]; omega
      · omega
    · simp only at h1 h2 h3 h4
      unfold LMesh.xs at h1
      unfold LMesh.xe at h2
      by_cases hx1 : x < (w.mesh r).xstart
      · have hf : (w.mesh r).firstX = true := by
          by_contra hf
          rw [if_neg hf] at h1; omega
        rw [if_pos hf] at h1
        refine ⟨((x, y), ((w.mesh r).xstart - 1, y)),
          Or.inl (Or.inl (Or.inl (Or.inr ⟨hf, y, by omega, x, by omega, rfl⟩))), rfl⟩
      · by_cases hx2 : (w.mesh r).xend < x
        · have hf : (w.mesh r).lastX = true := by
            by_contra hf
            rw [if_neg hf] at h2; omega
          rw [if_pos hf] at h2
          refine ⟨((x, y), ((w.mesh r).xend + 1, y)),
            Or.inl (Or.inl (Or.inr ⟨hf, y, by omega, x, by omega, rfl⟩)), rfl⟩
        · exact ⟨((x, y), (x, y)),
            Or.inl (Or.inl (Or.inl (Or.inl ⟨x, by omega, y, by omega, rfl⟩))), rfl⟩

/-- After `communicate`, any cell with an owner shows the solved value of its row. -/
theorem communicated_look (w : World) (o : Opts) (xs : Int → K) (hw : w.Ok o.finiteVolume)
    (hv : ∀ r, r < w.nproc → CornersVisited o.finiteVolume (w.mesh r)) (r : Nat) (c : Cell)
    (hin : (w.mesh r).Inside c) (p : Nat × Cell) (hp : w.Owns o.finiteVolume r c p) :
    communicated w o xs r c = some (look w o xs r c) := by
  unfold look
  rw [globalIndex_owner w _ r c hin p hp,
    ← globalIndex_own w _ hw p.1 hp.1 p.2 hp.2.1]
  have := result_row w o xs p.1 (hw.mesh _ hp.1) (hv _ hp.1) p.2 hp.2.1
  unfold communicated
  rcases hp.2.2 with h | ⟨h, h'⟩
  · obtain ⟨s, d⟩ := p; rw [h]; exact this
  · subst h'; rw [h]; exact this

end Verif.LapXY
