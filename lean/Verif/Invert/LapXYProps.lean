import Verif.Invert.LapXY
import Mathlib.Data.List.Nodup
import Mathlib.Tactic.Linarith
import Mathlib.Tactic.SplitIfs
import Mathlib.Algebra.GroupWithZero.Action.Defs

/-! # LaplaceXY: numbering and assembly lemmas -/

namespace Verif.LapXY

theorem mem_upto {a b i : Int} : i ∈ upto a b ↔ a ≤ i ∧ i ≤ b := by
  unfold upto
  simp only [List.mem_map, List.mem_range]
  constructor
  · rintro ⟨k, hk, rfl⟩; omega
  · rintro ⟨h1, h2⟩; exact ⟨(i - a).toNat, by omega, by omega⟩

theorem nodup_upto (a b : Int) : (upto a b).Nodup := by
  unfold upto
  refine (List.nodup_range).map ?_
  intro i j h
  simp only at h
  omega

theorem length_upto (a b : Int) : (upto a b).length = (b + 1 - a).toNat := by
  simp [upto]

/-- The counter after numbering. -/
theorem number_fst (l : List Cell) (k : Int) (f : Cell → Int) :
    (number l k f).1 = k + l.length := by
  induction l generalizing k f with
  | nil => simp [number]
  | cons c cs ih => rw [number, ih]; simp; omega

theorem number_other (l : List Cell) (k : Int) (f : Cell → Int) (c : Cell) (h : c ∉ l) :
    (number l k f).2 c = f c := by
  induction l generalizing k f with
  | nil => rfl
  | cons d ds ih =>
    rw [number, ih]
    · simp only [List.mem_cons, not_or] at h
      rw [if_neg h.1]
    · simp only [List.mem_cons, not_or] at h
      exact h.2

/-- Without repetitions a cell gets its position in the list. -/
theorem number_mem (l : List Cell) (k : Int) (f : Cell → Int) (hn : l.Nodup) (c : Cell)
    (h : c ∈ l) : ∃ n : Nat, l[n]? = some c ∧ (number l k f).2 c = k + n := by
  induction l generalizing k f with
  | nil => cases h
  | cons d ds ih =>
    rw [List.nodup_cons] at hn
    rw [number]
    by_cases hd : c = d
    · subst hd
      refine ⟨0, by simp, ?_⟩
      rw [number_other _ _ _ _ hn.1]
      simp
    · have hm : c ∈ ds := by
        rcases List.mem_cons.mp h with h | h
        · exact absurd h hd
        · exact h
      obtain ⟨n, h1, h2⟩ := ih (k + 1) (fun e => if e = d then k else f e) hn.2 hm
      refine ⟨n + 1, by simpa using h1, ?_⟩
      rw [h2]; push_cast; ring

/-- Conditions on the mesh of one processor. -/
structure LMesh.Ok (m : LMesh) : Prop where
  xlo : 1 ≤ m.xstart
  xhi : m.xend + 1 < m.LocalNx
  xne : m.xstart ≤ m.xend
  ylo : 1 ≤ m.ystart
  yhi : m.yend + 1 < m.LocalNy
  yne : m.ystart ≤ m.yend
  lower : m.lower.Nodup
  upper : m.upper.Nodup

theorem inX_iff (m : LMesh) (x : Int) : m.inX x = true ↔ m.xstart ≤ x ∧ x ≤ m.xend := by
  simp [LMesh.inX]

theorem xs_le (m : LMesh) : m.xstart - 1 ≤ m.xs ∧ m.xs ≤ m.xstart := by
  unfold LMesh.xs; split <;> omega

theorem xe_ge (m : LMesh) : m.xend ≤ m.xe ∧ m.xe ≤ m.xend + 1 := by
  unfold LMesh.xe; split <;> omega

theorem mem_corners (m : LMesh) (fv has : Bool) (y : Int) (c : Cell) :
    c ∈ m.corners fv has y ↔ fv = false ∧ has = true ∧ c.2 = y ∧
      ((m.firstX = true ∧ c.1 = m.xstart - 1) ∨ (m.lastX = true ∧ c.1 = m.xend + 1)) := by
  obtain ⟨x, y'⟩ := c
  unfold LMesh.corners
  cases fv <;> cases has <;> cases m.firstX <;> cases m.lastX <;>
    simp [Prod.ext_iff] <;> omega

theorem mem_box (a b c d : Int) (p : Cell) :
    p ∈ ((upto a b).flatMap fun x => (upto c d).map fun y => ((x, y) : Cell)) ↔
      a ≤ p.1 ∧ p.1 ≤ b ∧ c ≤ p.2 ∧ p.2 ≤ d := by
  obtain ⟨x, y⟩ := p
  simp only [List.mem_flatMap, List.mem_map, mem_upto, Prod.mk.injEq]
  constructor
  · rintro ⟨x', ⟨h1, h2⟩, y', ⟨h3, h4⟩, rfl, rfl⟩
    exact ⟨h1, h2, h3, h4⟩
  · rintro ⟨h1, h2, h3, h4⟩
    exact ⟨x, ⟨h1, h2⟩, y, ⟨h3, h4⟩, rfl, rfl⟩

/-- Which cells get a row. -/
theorem mem_rowCells (fv : Bool) (m : LMesh) (c : Cell) :
    c ∈ rowCells fv m ↔
      (c.2 = m.ystart - 1 ∧ c.1 ∈ m.lower ∧ m.xstart ≤ c.1 ∧ c.1 ≤ m.xend)
      ∨ c ∈ m.corners fv m.hasLower (m.ystart - 1)
      ∨ (c.2 = m.yend + 1 ∧ c.1 ∈ m.upper ∧ m.xstart ≤ c.1 ∧ c.1 ≤ m.xend)
      ∨ c ∈ m.corners fv m.hasUpper (m.yend + 1)
      ∨ (m.xs ≤ c.1 ∧ c.1 ≤ m.xe ∧ m.ystart ≤ c.2 ∧ c.2 ≤ m.yend) := by
  obtain ⟨x, y⟩ := c
  unfold rowCells
  simp only [List.mem_append, mem_box, or_assoc]
  have e1 : ∀ (l : List Int) (yy : Int),
      ((x, y) : Cell) ∈ (l.filter m.inX).map (fun x => ((x, yy) : Cell)) ↔
        y = yy ∧ x ∈ l ∧ m.xstart ≤ x ∧ x ≤ m.xend := by
    intro l yy
    simp only [List.mem_map, List.mem_filter, Prod.mk.injEq, inX_iff]
    constructor
    · rintro ⟨x', ⟨h1, h2⟩, rfl, rfl⟩; exact ⟨rfl, h1, h2⟩
    · rintro ⟨rfl, h1, h2⟩; exact ⟨x, ⟨h1, h2⟩, rfl, rfl⟩
  rw [e1, e1]

theorem nodup_corners (m : LMesh) (hm : m.xstart ≤ m.xend) (fv has : Bool) (y : Int) :
    (m.corners fv has y).Nodup := by
  unfold LMesh.corners
  cases fv <;> cases has <;> cases m.firstX <;> cases m.lastX <;> simp
  omega

theorem nodup_box (a b c d : Int) :
    ((upto a b).flatMap fun x => (upto c d).map fun y => ((x, y) : Cell)).Nodup := by
  rw [List.nodup_flatMap]
  refine ⟨fun x _ => (nodup_upto _ _).map (fun i j h => by simpa using h), ?_⟩
  refine (nodup_upto a b).imp ?_
  intro x x' hne
  simp only [Function.onFun, List.disjoint_left, List.mem_map]
  rintro p ⟨y, _, rfl⟩ ⟨y', _, h⟩
  simp only [Prod.mk.injEq] at h
  exact hne h.1.symm

theorem nodup_line (l : List Int) (p : Int → Bool) (y : Int) (h : l.Nodup) :
    ((l.filter p).map fun x => ((x, y) : Cell)).Nodup :=
  (h.filter _).map (fun i j h => by simpa using h)

/-- No cell is numbered twice. -/
theorem nodup_rowCells (fv : Bool) (m : LMesh) (hm : m.Ok) : (rowCells fv m).Nodup := by
  have hx := hm.xne
  have hy := hm.yne
  unfold rowCells
  rw [List.nodup_append, List.nodup_append, List.nodup_append, List.nodup_append]
  refine ⟨⟨⟨⟨nodup_line _ _ _ hm.lower, nodup_corners m hx _ _ _, ?_⟩,
    nodup_line _ _ _ hm.upper, ?_⟩, nodup_corners m hx _ _ _, ?_⟩, nodup_box _ _ _ _, ?_⟩
  all_goals
    rintro ⟨x, y⟩ h1 ⟨x', y'⟩ h2 heq
    simp only [Prod.mk.injEq] at heq
    obtain ⟨rfl, rfl⟩ := heq
    simp only [List.mem_append, mem_box, mem_corners, List.mem_map, List.mem_filter, Prod.mk.injEq,
      inX_iff] at h1 h2
  · obtain ⟨x1, ⟨-, h3⟩, rfl, h4⟩ := h1
    obtain ⟨-, -, -, h5⟩ := h2
    omega
  · obtain ⟨x2, -, rfl, h6⟩ := h2
    rcases h1 with ⟨x1, -, -, h4⟩ | ⟨-, -, h4, -⟩ <;> omega
  · obtain ⟨-, -, h6, h7⟩ := h2
    rcases h1 with (⟨x1, -, -, h4⟩ | ⟨-, -, h4, -⟩) | ⟨x1, ⟨-, h8⟩, rfl, h4⟩ <;> omega
  · rcases h1 with ((⟨x1, -, -, h4⟩ | ⟨-, -, h4, -⟩) | ⟨x1, -, -, h4⟩) | ⟨-, -, h4, -⟩ <;> omega

theorem length_box (a b c d : Int) (h1 : a ≤ b + 1) (h2 : c ≤ d + 1) :
    ((((upto a b).flatMap fun x => (upto c d).map fun y => ((x, y) : Cell)).length : Nat) : Int)
      = (b + 1 - a) * (d + 1 - c) := by
  rw [List.length_flatMap]
  simp only [List.length_map, length_upto, List.map_const', List.sum_replicate, smul_eq_mul]
  push_cast
  rw [Int.toNat_of_nonneg (by omega), Int.toNat_of_nonneg (by omega)]

/-- `ASSERT1(ind == localN)` (laplacexy.cxx L155) never fails. -/
theorem length_rowCells (fv : Bool) (m : LMesh) (hm : m.Ok) :
    ((rowCells fv m).length : Int) = localSize fv m := by
  have hx := hm.xne
  have hy := hm.yne
  have a1 := xs_le m
  have a2 := xe_ge m
  unfold rowCells
  simp only [List.length_append, List.length_map]
  push_cast
  rw [length_box _ _ _ _ (by omega) (by omega)]
  unfold localSize LMesh.corners LMesh.xs LMesh.xe
  generalize ((m.lower.filter m.inX).length : Int) = a
  generalize ((m.upper.filter m.inX).length : Int) = b
  cases fv <;> cases m.hasLower <;> cases m.hasUpper <;> cases m.firstX <;> cases m.lastX <;>
    simp <;> ring

theorem localSize_nonneg (fv : Bool) (m : LMesh) (hm : m.Ok) : 0 ≤ localSize fv m := by
  rw [← length_rowCells fv m hm]; omega

/-- Local numbering: position in the list. -/
theorem localIndex_mem (fv : Bool) (m : LMesh) (hm : m.Ok) (c : Cell) (h : c ∈ rowCells fv m) :
    ∃ n : Nat, (rowCells fv m)[n]? = some c ∧ localIndex fv m c = n ∧
      (n : Int) < localSize fv m := by
  obtain ⟨n, h1, h2⟩ := number_mem (rowCells fv m) 0 (fun _ => -1) (nodup_rowCells fv m hm) c h
  refine ⟨n, h1, by rw [localIndex, h2]; ring, ?_⟩
  rw [← length_rowCells fv m hm]
  have : n < (rowCells fv m).length := by
    by_contra hc
    rw [List.getElem?_eq_none (by omega)] at h1
    cases h1
  exact_mod_cast this

/-! ## The run as a whole -/

/-- The meshes are sensible and no cell with a row is overwritten by the communication. -/
structure World.Ok (w : World) (fv : Bool) : Prop where
  mesh : ∀ r, r < w.nproc → (w.mesh r).Ok
  own : ∀ r, r < w.nproc → ∀ c ∈ rowCells fv (w.mesh r), w.partner r c = none

/-- Who owns the row of a cell as seen from processor `r`. -/
def World.Owns (w : World) (fv : Bool) (r : Nat) (c : Cell) (p : Nat × Cell) : Prop :=
  p.1 < w.nproc ∧ p.2 ∈ rowCells fv (w.mesh p.1) ∧
    (w.partner r c = some p ∨ (w.partner r c = none ∧ p = (r, c)))

theorem istart_mono (w : World) (fv : Bool) (hw : ∀ r, r < w.nproc → (w.mesh r).Ok) :
    ∀ r s, r ≤ s → s ≤ w.nproc → w.istart fv r ≤ w.istart fv s := by
  intro r s h
  induction h with
  | refl => intro _; omega
  | step h ih =>
    intro hs
    have := ih (by omega)
    rw [World.istart]
    have := localSize_nonneg fv _ (hw _ hs)
    omega

/-- Range of the rows of one processor. -/
theorem owned_range (w : World) (fv : Bool) (hw : ∀ r, r < w.nproc → (w.mesh r).Ok) (r : Nat)
    (hr : r < w.nproc) (c : Cell) (hc : c ∈ rowCells fv (w.mesh r)) :
    w.istart fv r ≤ localIndex fv (w.mesh r) c + w.istart fv r ∧
      localIndex fv (w.mesh r) c + w.istart fv r < w.istart fv (r + 1) := by
  obtain ⟨n, -, h2, h3⟩ := localIndex_mem fv _ (hw r hr) c hc
  rw [World.istart, h2]
  omega

theorem istart_nonneg (w : World) (fv : Bool) (hw : ∀ r, r < w.nproc → (w.mesh r).Ok) (r : Nat)
    (hr : r ≤ w.nproc) : 0 ≤ w.istart fv r := by
  have := istart_mono w fv hw 0 r (by omega) hr
  rw [World.istart] at this
  exact this

/-- Different owned cells have different rows. -/
theorem owned_inj (w : World) (fv : Bool) (hw : ∀ r, r < w.nproc → (w.mesh r).Ok) (p q : Nat × Cell)
    (hp : p.1 < w.nproc) (hq : q.1 < w.nproc) (hpc : p.2 ∈ rowCells fv (w.mesh p.1))
    (hqc : q.2 ∈ rowCells fv (w.mesh q.1))
    (h : localIndex fv (w.mesh p.1) p.2 + w.istart fv p.1
      = localIndex fv (w.mesh q.1) q.2 + w.istart fv q.1) : p = q := by
  obtain ⟨r, c⟩ := p
  obtain ⟨s, d⟩ := q
  simp only at *
  have a1 := owned_range w fv hw r hp c hpc
  have a2 := owned_range w fv hw s hq d hqc
  have hrs : r = s := by
    rcases Nat.lt_trichotomy r s with hlt | heq | hgt
    · have := istart_mono w fv hw (r + 1) s (by omega) (by omega); omega
    · exact heq
    · have := istart_mono w fv hw (s + 1) r (by omega) (by omega); omega
  subst hrs
  obtain ⟨n, h1, h2, -⟩ := localIndex_mem fv _ (hw r hp) c hpc
  obtain ⟨k, h3, h4, -⟩ := localIndex_mem fv _ (hw r hp) d hqc
  have : n = k := by omega
  subst this
  rw [h1] at h3
  cases h3
  rfl

/-- Cells with a row are inside the local arrays. -/
theorem rowCells_inside (fv : Bool) (m : LMesh) (hm : m.Ok) (c : Cell) (h : c ∈ rowCells fv m) :
    ¬(c.1 < 0 ∨ m.LocalNx ≤ c.1 ∨ c.2 < 0 ∨ m.LocalNy ≤ c.2) := by
  rw [mem_rowCells, mem_corners, mem_corners] at h
  have a1 := xs_le m
  have a2 := xe_ge m
  obtain ⟨b1, b2, b3, b4, b5, b6, -, -⟩ := hm
  omega

/-- The index of an owned cell. -/
theorem globalIndex_own (w : World) (fv : Bool) (hw : w.Ok fv) (r : Nat) (hr : r < w.nproc)
    (c : Cell) (hc : c ∈ rowCells fv (w.mesh r)) :
    w.globalIndex fv r c = localIndex fv (w.mesh r) c + w.istart fv r := by
  unfold World.globalIndex
  dsimp only
  rw [if_neg (rowCells_inside fv _ (hw.mesh r hr) c hc)]
  unfold World.indexXY
  rw [hw.own r hr c hc]

/-- Cells inside the local arrays. -/
def LMesh.Inside (m : LMesh) (c : Cell) : Prop :=
  0 ≤ c.1 ∧ c.1 < m.LocalNx ∧ 0 ≤ c.2 ∧ c.2 < m.LocalNy

/-- Every processor sees the same row number for a cell. -/
theorem globalIndex_owner (w : World) (fv : Bool) (r : Nat) (c : Cell)
    (hin : (w.mesh r).Inside c) (p : Nat × Cell) (hp : w.Owns fv r c p) :
    w.globalIndex fv r c = localIndex fv (w.mesh p.1) p.2 + w.istart fv p.1 := by
  unfold World.globalIndex LMesh.Inside at *
  dsimp only
  rw [if_neg (by omega)]
  unfold World.indexXY
  rcases hp.2.2 with h | ⟨h, h'⟩
  · obtain ⟨s, d⟩ := p; rw [h]
  · subst h'; rw [h]

variable {K : Type} [Field K]

/-! ## Assembly -/

theorem entry_snoc (l : List (Int × Int × K)) (op : Int × Int × K) (i j : Int) :
    entry (l ++ [op]) i j
      = if op.1 = i ∧ op.2.1 = j ∧ 0 ≤ i ∧ 0 ≤ j then op.2.2 else entry l i j := by
  unfold entry
  rw [List.foldl_append]
  rfl

/-- Only the calls naming a row matter for it. -/
theorem entry_filter (l : List (Int × Int × K)) (i j : Int) :
    entry l i j = entry (l.filter fun op => decide (op.1 = i)) i j := by
  induction l using List.reverseRecOn with
  | nil => rfl
  | append_singleton l op ih =>
    rw [entry_snoc, List.filter_append]
    by_cases h : op.1 = i
    · rw [List.filter_singleton]
      simp only [h, decide_true, cond_true]
      rw [entry_snoc, ih]
      simp only [h]
    · rw [List.filter_singleton]
      simp only [h, decide_false, cond_false, List.append_nil, false_and, if_false]
      exact ih

/-- In a list of groups with distinct rows, the calls naming a row are those of its group. -/
theorem filter_groups (L : List (Int × List (Int × K))) (hn : (L.map Prod.fst).Nodup)
    (i : Int) (st : List (Int × K)) (h : (i, st) ∈ L) :
    (L.flatMap fun g => g.2.map fun e => (g.1, e.1, e.2)).filter (fun op => decide (op.1 = i))
      = st.map fun e => (i, e.1, e.2) := by
  have none : ∀ L' : List (Int × List (Int × K)), i ∉ L'.map Prod.fst →
      (L'.flatMap fun g => g.2.map fun e => (g.1, e.1, e.2)).filter
        (fun op => decide (op.1 = i)) = [] := by
    intro L' hL'
    rw [List.filter_eq_nil_iff]
    intro op hop
    simp only [List.mem_flatMap, List.mem_map] at hop
    obtain ⟨g, hg, e, -, rfl⟩ := hop
    simp only [decide_eq_true_eq]
    intro hgi
    exact hL' (List.mem_map.mpr ⟨g, hg, hgi⟩)
  induction L with
  | nil => cases h
  | cons g L ih =>
    rw [List.map_cons, List.nodup_cons] at hn
    rw [List.flatMap_cons, List.filter_append]
    rcases List.mem_cons.mp h with h | h
    · subst h
      rw [none L hn.1, List.append_nil, List.filter_eq_self.mpr]
      intro op hop
      simp only [List.mem_map] at hop
      obtain ⟨e, -, rfl⟩ := hop
      simp
    · rw [ih hn.2 h]
      have : g.1 ≠ i := by
        intro hg
        exact hn.1 (List.mem_map.mpr ⟨(i, st), h, hg.symm⟩)
      rw [List.filter_eq_nil_iff.mpr, List.nil_append]
      intro op hop
      simp only [List.mem_map] at hop
      obtain ⟨e, -, rfl⟩ := hop
      simpa using this

theorem entry_col_zero (i : Int) (st : List (Int × K)) (d : Int) (h : d ∉ st.map Prod.fst) :
    entry (st.map fun e => (i, e.1, e.2)) i d = 0 := by
  induction st using List.reverseRecOn with
  | nil => rfl
  | append_singleton l e ih =>
    rw [List.map_append, List.map_singleton, entry_snoc]
    simp only [List.map_append, List.mem_append, List.map_singleton, List.mem_singleton,
      not_or] at h
    rw [if_neg (by simp only; intro hc; exact h.2 hc.2.1.symm), ih h.1]

/-- One row with distinct columns, times a vector. -/
theorem row_sum (N : Nat) (i : Int) (hi : 0 ≤ i) (st : List (Int × K)) (x : Int → K)
    (hn : (st.map Prod.fst).Nodup) (hr : ∀ e ∈ st, 0 ≤ e.1 ∧ e.1 < (N : Int)) :
    (∑ j ∈ Finset.range N, entry (st.map fun e => (i, e.1, e.2)) i (j : Int) * x (j : Int))
      = (st.map fun e => e.2 * x e.1).sum := by
  induction st using List.reverseRecOn with
  | nil => simp [entry]
  | append_singleton l e ih =>
    rw [List.map_append, List.map_singleton, List.nodup_append] at hn
    have hl := ih hn.1 (fun e he => hr e (List.mem_append_left _ he))
    have he := hr e (by simp)
    have hnot : e.1 ∉ l.map Prod.fst := fun hc => hn.2.2 _ hc _ (by simp) rfl
    rw [List.map_append, List.map_append, List.sum_append, ← hl]
    simp only [List.map_singleton, List.sum_singleton]
    obtain ⟨k, hk⟩ : ∃ k : Nat, (k : Int) = e.1 := ⟨e.1.toNat, by omega⟩
    have hkN : k ∈ Finset.range N := by rw [Finset.mem_range]; omega
    rw [← Finset.add_sum_erase _ _ hkN, ← Finset.add_sum_erase _ _ hkN]
    rw [entry_snoc, hk, entry_col_zero i l e.1 hnot, if_pos ⟨rfl, rfl, hi, he.1⟩]
    have : ∀ j ∈ (Finset.range N).erase k,
        entry (l.map (fun e => (i, e.1, e.2)) ++ [(i, e.1, e.2)]) i (j : Int) * x (j : Int)
          = entry (l.map fun e => (i, e.1, e.2)) i (j : Int) * x (j : Int) := by
      intro j hj
      rw [Finset.mem_erase] at hj
      rw [entry_snoc, if_neg]
      rintro ⟨-, h2, -⟩
      simp only at h2
      omega
    rw [Finset.sum_congr rfl this]
    ring

end Verif.LapXY
