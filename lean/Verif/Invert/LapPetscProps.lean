import Verif.Invert.LapPetsc
import Mathlib.Tactic.LinearCombination

/-! # Closed forms for the model of `LaplacePetsc`: numbering and assembly -/

namespace Verif.LapPetsc

/-- First local X index with rows on processor `p`. -/
def Grid.lo (g : Grid) (p : Nat) : Nat := if p = 0 then 0 else g.xs

/-- One past the last local X index with rows on processor `p`. -/
def Grid.hi (g : Grid) (p : Nat) : Nat := g.xs + g.mx + (if p + 1 = g.P then g.xs else 0)

/-- The number of X points of the whole plane, boundaries included. -/
def Grid.gnx (g : Grid) : Nat := g.P * g.mx + 2 * g.xs

theorem Istart_succ (g : Grid) (p : Nat) : g.Istart (p + 1) = g.Iend p := by
  simp [Grid.Istart, Grid.Iend, List.range_succ]

theorem Istart_lt (g : Grid) (p : Nat) (hp : p < g.P) :
    g.Istart p = (g.lo p + p * g.mx) * g.nz := by
  induction p with
  | zero => simp [Grid.Istart, Grid.lo]
  | succ q ih =>
    rw [Istart_succ, Grid.Iend, ih (by omega)]
    have h1 : ¬ (q + 1 = g.P) := by omega
    by_cases hq : q = 0
    · subst hq
      have h2 : ¬ (1 = g.P) := by omega
      simp [Grid.localN, Grid.lo, Grid.firstX, Grid.lastX, h2]
      ring
    · simp [Grid.localN, Grid.lo, Grid.firstX, Grid.lastX, h1, hq]
      ring

theorem Iend_lt (g : Grid) (p : Nat) (hp : p < g.P) :
    g.Iend p = (g.hi p + p * g.mx) * g.nz := by
  rw [Grid.Iend, Istart_lt g p hp]
  unfold Grid.localN Grid.lo Grid.hi Grid.firstX Grid.lastX
  by_cases h0 : p = 0
  · subst h0
    by_cases h1 : 0 + 1 = g.P
    · simp only [h1, decide_true, if_true]; ring
    · simp only [h1, decide_true, decide_false, if_true, if_false, Bool.false_eq_true]; ring
  · by_cases h1 : p + 1 = g.P
    · simp only [h0, h1, decide_true, decide_false, if_true, if_false, Bool.false_eq_true]; ring
    · simp only [h0, h1, decide_false, if_false, Bool.false_eq_true]; ring

theorem size_eq (g : Grid) (hP : 0 < g.P) : g.size = g.gnx * g.nz := by
  have h : g.P = (g.P - 1) + 1 := by omega
  rw [Grid.size]
  conv => lhs; rw [h]
  rw [Istart_succ, Iend_lt g _ (by omega)]
  unfold Grid.hi Grid.gnx
  rw [if_pos (by omega)]
  congr 1
  obtain ⟨k, hk⟩ : ∃ k, g.P = k + 1 := ⟨g.P - 1, h⟩
  rw [hk]
  simp
  ring

theorem column_eq (g : Grid) (p : Nat) (hp : p < g.P) (hz : 0 < g.nz) (x z a b : Int) :
    column g p x z a b = (x + (p : Int) * (g.mx : Int) + a) * (g.nz : Int)
      + wrapZ g.nz (z + b) := by
  unfold column
  rw [Istart_lt g p hp, Nat.mul_div_cancel _ hz]
  dsimp only
  unfold Grid.firstX Grid.lo
  by_cases h0 : p = 0
  · subst h0; simp
  · simp [h0]
    left; ring

theorem Istart_mod (g : Grid) (p : Nat) (hp : p < g.P) : g.Istart p % g.nz = 0 := by
  rw [Istart_lt g p hp]; exact Nat.mul_mod_left _ _

/-! ## The numbered loops -/

section
variable {α β : Type}

theorem numbered_append (body : Int → α → β) (i : Int) (a b : List α) :
    numbered body i (a ++ b)
      = ((numbered body i a).1 ++ (numbered body (numbered body i a).2 b).1,
         (numbered body (numbered body i a).2 b).2) := by
  induction a generalizing i with
  | nil => simp [numbered]
  | cons c cs ih =>
    rw [List.cons_append, numbered, ih]
    simp [numbered]

theorem numbered_zloop (body : Int → Int × Int → β) (i x : Int) (m : Nat) :
    numbered body i ((List.range m).map fun (z : Nat) => (x, (z : Int)))
      = ((List.range m).map fun (z : Nat) => body (i + (z : Int)) (x, (z : Int)),
         i + (m : Int)) := by
  induction m with
  | zero => simp [numbered]
  | succ n ih =>
    rw [List.range_succ, List.map_append, numbered_append, ih, List.map_append]
    simp [numbered]
    ring

theorem cells_succ (g : Grid) (a : Int) (n : Nat) :
    cells g a (n + 1) = cells g a n
      ++ (List.range g.nz).map fun (z : Nat) => (a + (n : Int), (z : Int)) := by
  unfold cells
  rw [List.range_succ, List.flatMap_append]
  simp

theorem mem_cells (g : Grid) (a : Int) (n : Nat) (c : Int × Int) :
    c ∈ cells g a n ↔ a ≤ c.1 ∧ c.1 < a + (n : Int) ∧ 0 ≤ c.2 ∧ c.2 < (g.nz : Int) := by
  obtain ⟨x, z⟩ := c
  unfold cells
  simp only [List.mem_flatMap, List.mem_map, List.mem_range, Prod.mk.injEq]
  constructor
  · rintro ⟨k, hk, w, hw, h1, h2⟩
    omega
  · rintro ⟨h1, h2, h3, h4⟩
    exact ⟨(x - a).toNat, by omega, z.toNat, by omega, by omega, by omega⟩

theorem numbered_cells (g : Grid) (body : Int → Int × Int → β) (i a : Int) (n : Nat) :
    numbered body i (cells g a n)
      = ((cells g a n).map fun c => body (i + (c.1 - a) * (g.nz : Int) + c.2) c,
         i + (n : Int) * (g.nz : Int)) := by
  induction n with
  | zero => simp [cells, numbered]
  | succ n ih =>
    rw [cells_succ, numbered_append, ih, numbered_zloop, List.map_append, List.map_map]
    dsimp only
    congr 1
    · congr 1
      apply List.map_congr_left
      intro z _
      simp only [Function.comp_apply]
      congr 1
      ring
    · push_cast
      ring

end

/-- The cells of all three loops of a processor. -/
def allCells (g : Grid) (p : Nat) : List (Int × Int) :=
  innerCells g p ++ mainCells g ++ outerCells g p

theorem mem_inner (g : Grid) (p : Nat) (c : Int × Int) :
    c ∈ innerCells g p ↔ p = 0 ∧ 0 ≤ c.1 ∧ c.1 < (g.xs : Int) ∧ 0 ≤ c.2 ∧ c.2 < (g.nz : Int) := by
  unfold innerCells Grid.firstX
  by_cases h : p = 0
  · subst h; simp [mem_cells]
  · simp [h]

theorem mem_main (g : Grid) (c : Int × Int) :
    c ∈ mainCells g ↔ (g.xs : Int) ≤ c.1 ∧ c.1 < (g.xs : Int) + (g.mx : Int)
      ∧ 0 ≤ c.2 ∧ c.2 < (g.nz : Int) := by
  unfold mainCells; rw [mem_cells]

theorem mem_outer (g : Grid) (p : Nat) (c : Int × Int) :
    c ∈ outerCells g p ↔ p + 1 = g.P ∧ (g.xs : Int) + (g.mx : Int) ≤ c.1
      ∧ c.1 < (g.mx : Int) + 2 * (g.xs : Int) ∧ 0 ≤ c.2 ∧ c.2 < (g.nz : Int) := by
  unfold outerCells Grid.lastX
  by_cases h : p + 1 = g.P
  · simp only [h, decide_true, if_true, true_and, mem_cells, Grid.xend, Grid.LocalNx]
    omega
  · simp [h]

/-- The row of a cell. -/
def rowIdx (g : Grid) (p : Nat) (c : Int × Int) : Int :=
  (c.1 + (p : Int) * (g.mx : Int)) * (g.nz : Int) + c.2

section
variable {β : Type}

theorem loop_inner (g : Grid) (p : Nat) (hp : p < g.P) (body : Int → Int × Int → β) :
    numbered body (g.Istart p) (innerCells g p)
      = ((innerCells g p).map fun c => body (rowIdx g p c) c,
         ((g.xs : Int) + (p : Int) * (g.mx : Int)) * (g.nz : Int)) := by
  rw [Istart_lt g p hp]
  unfold innerCells Grid.firstX Grid.lo
  by_cases h : p = 0
  · subst h
    simp only [decide_true, if_true, numbered_cells]
    congr 1
    · apply List.map_congr_left
      intro c _
      congr 1
      unfold rowIdx
      push_cast
      ring
    · push_cast; ring
  · simp [h, numbered]

theorem loop_main (g : Grid) (p : Nat) (body : Int → Int × Int → β) :
    numbered body (((g.xs : Int) + (p : Int) * (g.mx : Int)) * (g.nz : Int)) (mainCells g)
      = ((mainCells g).map fun c => body (rowIdx g p c) c,
         ((g.xs : Int) + (g.mx : Int) + (p : Int) * (g.mx : Int)) * (g.nz : Int)) := by
  unfold mainCells
  rw [numbered_cells]
  congr 1
  · apply List.map_congr_left
    intro c _
    congr 1
    unfold rowIdx
    ring
  · ring

theorem loop_outer (g : Grid) (p : Nat) (hp : p < g.P) (body : Int → Int × Int → β) :
    numbered body (((g.xs : Int) + (g.mx : Int) + (p : Int) * (g.mx : Int)) * (g.nz : Int))
        (outerCells g p)
      = ((outerCells g p).map fun c => body (rowIdx g p c) c, (g.Iend p : Int)) := by
  rw [Iend_lt g p hp]
  unfold outerCells Grid.lastX Grid.hi
  by_cases h : p + 1 = g.P
  · simp only [h, decide_true, if_true, numbered_cells]
    congr 1
    · apply List.map_congr_left
      intro c _
      congr 1
      unfold rowIdx Grid.xend
      ring
    · have e : (g.LocalNx - (g.xend + 1)).toNat = g.xs := by
        unfold Grid.LocalNx Grid.xend; omega
      rw [e]; push_cast; ring
  · simp [h, numbered]

end

section
variable {K : Type} [Field K]

/-- Rows written by `p`, without the counter. -/
def rowsOf (g : Grid) (o : Opts) (f : Flds K) (p : Nat) : List (Row K) :=
  ((innerCells g p).map fun c =>
      mkRow g p f (innerCalls o f) (bndryRhs o.innerFlags f) (rowIdx g p c) c)
    ++ ((mainCells g).map fun c => mkRow g p f (mainCalls g o f) f.b (rowIdx g p c) c)
    ++ ((outerCells g p).map fun c =>
      mkRow g p f (outerCalls o f) (bndryRhs o.outerFlags f) (rowIdx g p c) c)

theorem procRows_eq (g : Grid) (o : Opts) (f : Flds K) (p : Nat) (hp : p < g.P) :
    procRows g o f p = .ok (rowsOf g o f p) := by
  unfold procRows
  rw [if_neg (by rw [Istart_mod g p hp]; simp)]
  dsimp only
  rw [loop_inner g p hp]
  dsimp only
  rw [loop_main g p]
  dsimp only
  rw [loop_outer g p hp]
  simp [rowsOf]

/-- The copy on one processor in closed form. -/
theorem copyBack_eq (g : Grid) (p : Nat) (hp : p < g.P) (xs : Int → K) :
    copyBack g p xs = .ok ((allCells g p).foldl
      (fun (s : Int → Int → K) c x z => if x = c.1 ∧ z = c.2 then xs (rowIdx g p c) else s x z)
      (fun _ _ => 0)) := by
  unfold copyBack
  dsimp only
  rw [loop_inner g p hp]
  dsimp only
  rw [loop_main g p]
  dsimp only
  rw [loop_outer g p hp]
  rw [if_neg (by simp)]
  unfold allCells
  rw [← List.map_append, ← List.map_append, List.foldl_map]

theorem mem_allCells (g : Grid) (p : Nat) (c : Int × Int) :
    c ∈ allCells g p ↔ ((g.lo p : Int) ≤ c.1 ∧ c.1 < (g.hi p : Int)
      ∧ 0 ≤ c.2 ∧ c.2 < (g.nz : Int)) := by
  unfold allCells
  simp only [List.mem_append, mem_inner, mem_main, mem_outer]
  have hl : (p = 0 ∧ g.lo p = 0) ∨ (p ≠ 0 ∧ g.lo p = g.xs) := by
    unfold Grid.lo; by_cases h : p = 0 <;> simp [h]
  have hh : (p + 1 = g.P ∧ g.hi p = g.xs + g.mx + g.xs)
      ∨ (p + 1 ≠ g.P ∧ g.hi p = g.xs + g.mx) := by
    unfold Grid.hi; by_cases h : p + 1 = g.P <;> simp [h]
  generalize g.lo p = l at *
  generalize g.hi p = u at *
  omega

theorem copy_fold (xs : Int → K) (r : Int × Int → Int) (cs : List (Int × Int))
    (s : Int → Int → K) (x z : Int) :
    (cs.foldl (fun (s : Int → Int → K) c x z =>
        if x = c.1 ∧ z = c.2 then xs (r c) else s x z) s) x z
      = if (x, z) ∈ cs then xs (r (x, z)) else s x z := by
  induction cs generalizing s with
  | nil => simp
  | cons c cs ih =>
    rw [List.foldl_cons, ih]
    by_cases h : (x, z) ∈ cs
    · simp [h]
    · rw [if_neg h]
      by_cases hc : x = c.1 ∧ z = c.2
      · have : c = (x, z) := by rw [hc.1, hc.2]
        rw [if_pos hc, this, if_pos (by simp)]
      · rw [if_neg hc, if_neg]
        simp only [List.mem_cons, h, or_false]
        intro e
        apply hc
        rw [← e]
        exact ⟨rfl, rfl⟩

theorem copyAll_eq (g : Grid) (xs : Int → K) (n : Nat) (hn : n ≤ g.P) :
    ∃ sol, copyAll g xs n = .ok sol ∧ ∀ p < n, ∀ x z : Int,
      sol p x z = if (g.lo p : Int) ≤ x ∧ x < (g.hi p : Int) ∧ 0 ≤ z ∧ z < (g.nz : Int)
        then xs (rowIdx g p (x, z)) else 0 := by
  induction n with
  | zero => exact ⟨_, rfl, fun p hp => absurd hp (Nat.not_lt_zero p)⟩
  | succ m ih =>
    obtain ⟨sol, h1, h2⟩ := ih (by omega)
    refine ⟨_, by simp only [copyAll, bind, Except.bind]; rw [h1]; dsimp only; rw [copyBack_eq g m (by omega)]; rfl, ?_⟩
    intro p hp x z
    by_cases hpm : p = m
    · subst hpm
      rw [if_pos rfl, copy_fold]
      simp only [mem_allCells]
    · rw [if_neg hpm]
      exact h2 p (by omega) x z

end

end Verif.LapPetsc
