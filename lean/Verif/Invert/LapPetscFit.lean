import Verif.Invert.LapPetscAsm
import Mathlib.Tactic.Linarith

/-! # The preallocated space of `LaplacePetsc` suffices -/

namespace Verif.LapPetsc

/-- The sizes the solver can work with: enough points in Z for the neighbours in Z to be
different points, enough guard cells for the stencil, and enough points in X on each processor.
Nothing else is required of the decomposition. -/
def Fits (g : Grid) (fourth : Bool) : Prop :=
  1 ≤ g.P ∧ 1 ≤ g.mx ∧
    if fourth then 5 ≤ g.nz ∧ 2 ≤ g.xs ∧ (4 ≤ g.mx ∨ (g.P = 1 ∧ 4 ≤ g.mx + g.xs))
    else 3 ≤ g.nz ∧ 1 ≤ g.xs ∧ (2 ≤ g.mx ∨ g.P = 1)

theorem last_write (L : List (Int × Nat × Nat)) (k : Int) (Q : Nat × Nat → Prop) (a : Nat × Nat)
    (h : Q a ∨ ∃ w ∈ L, w.1 = k) (hall : ∀ w ∈ L, w.1 = k → Q w.2) :
    Q (L.foldl (fun acc w => if w.1 = k then w.2 else acc) a) := by
  induction L generalizing a with
  | nil =>
    rcases h with h | ⟨w, hw, _⟩
    · exact h
    · simp at hw
  | cons v L ih =>
    rw [List.foldl_cons]
    apply ih _ _ (fun w hw => hall w (by simp [hw]))
    by_cases hv : v.1 = k
    · left; rw [if_pos hv]; exact hall v (by simp) hv
    · rw [if_neg hv]
      rcases h with h | ⟨w, hw, he⟩
      · exact Or.inl h
      · rcases List.mem_cons.1 hw with e | hw'
        · subst e; exact absurd he hv
        · exact Or.inr ⟨w, hw', he⟩

theorem nnz2 (g : Grid) (p : Nat) (k : Int) (h0 : 0 ≤ k) (hk : k < (g.localN p : Int))
    (hn : 2 * g.nz ≤ g.localN p) :
    let c := nnz g false p k
    (k < (g.nz : Int) → 6 ≤ c.1 ∧ (p ≠ 0 → 3 ≤ c.2))
      ∧ ((g.localN p : Int) - g.nz ≤ k → 6 ≤ c.1 ∧ (p + 1 ≠ g.P → 3 ≤ c.2))
      ∧ ((g.nz : Int) ≤ k → k < (g.localN p : Int) - g.nz → 9 ≤ c.1) := by
  intro c
  refine last_write (nnzWrites g false p) k
    (fun c : Nat × Nat => (k < (g.nz : Int) → 6 ≤ c.1 ∧ (p ≠ 0 → 3 ≤ c.2))
      ∧ ((g.localN p : Int) - g.nz ≤ k → 6 ≤ c.1 ∧ (p + 1 ≠ g.P → 3 ≤ c.2))
      ∧ ((g.nz : Int) ≤ k → k < (g.localN p : Int) - g.nz → 9 ≤ c.1)) (0, 0) ?_ ?_
  · right
    unfold nnzWrites
    simp only [Bool.false_eq_true, if_false]
    by_cases c1 : k < (g.nz : Int)
    · refine ⟨(k, 6, if g.firstX p then 0 else 3), ?_, rfl⟩
      rw [List.mem_append]; left
      rw [List.mem_flatMap]
      exact ⟨k.toNat, by rw [List.mem_range]; omega, by
        have : ((k.toNat : Nat) : Int) = k := by omega
        rw [this]; simp⟩
    · by_cases c2 : (g.localN p : Int) - g.nz ≤ k
      · refine ⟨(k, 6, if g.lastX p then 0 else 3), ?_, rfl⟩
        rw [List.mem_append]; left
        rw [List.mem_flatMap]
        exact ⟨((g.localN p : Int) - 1 - k).toNat, by rw [List.mem_range]; omega, by
          have : ((((g.localN p : Int) - 1 - k).toNat : Nat) : Int) = (g.localN p : Int) - 1 - k := by
            omega
          rw [this]; simp⟩
      · refine ⟨(k, 9, 0), ?_, rfl⟩
        rw [List.mem_append]; right
        rw [List.mem_flatMap]
        exact ⟨(k - g.nz).toNat, by rw [List.mem_range]; omega, by
          have : (((k - g.nz).toNat : Nat) : Int) = k - g.nz := by omega
          rw [this]; simp⟩
  · intro w hw he
    unfold nnzWrites at hw
    simp only [Bool.false_eq_true, if_false] at hw
    simp only [List.mem_append, List.mem_flatMap, List.mem_range, List.mem_cons,
      List.not_mem_nil, or_false] at hw
    rcases hw with ⟨i, hi, e | e⟩ | ⟨i, hi, e | e⟩ <;> subst e <;> dsimp only at he ⊢
    · unfold Grid.firstX
      generalize g.localN p = N at *
      by_cases hp : p = 0 <;> simp [hp] <;> omega
    · unfold Grid.lastX
      by_cases hp : p + 1 = g.P <;> simp [hp] <;> omega
    · omega
    · omega

theorem nnz4 (g : Grid) (p : Nat) (k : Int) (h0 : 0 ≤ k) (hk : k < (g.localN p : Int))
    (hn : 4 * g.nz ≤ g.localN p) :
    let c := nnz g true p k
    (k < (g.nz : Int) → 15 ≤ c.1 ∧ (p ≠ 0 → 10 ≤ c.2))
      ∧ ((g.nz : Int) ≤ k → k < 2 * (g.nz : Int) → 20 ≤ c.1 ∧ (p ≠ 0 → 5 ≤ c.2))
      ∧ ((g.localN p : Int) - g.nz ≤ k → 15 ≤ c.1 ∧ (p + 1 ≠ g.P → 10 ≤ c.2))
      ∧ ((g.localN p : Int) - 2 * g.nz ≤ k → k < (g.localN p : Int) - g.nz →
          20 ≤ c.1 ∧ (p + 1 ≠ g.P → 5 ≤ c.2))
      ∧ (2 * (g.nz : Int) ≤ k → k < (g.localN p : Int) - 2 * g.nz → 25 ≤ c.1) := by
  intro c
  refine last_write (nnzWrites g true p) k
    (fun c : Nat × Nat => (k < (g.nz : Int) → 15 ≤ c.1 ∧ (p ≠ 0 → 10 ≤ c.2))
      ∧ ((g.nz : Int) ≤ k → k < 2 * (g.nz : Int) → 20 ≤ c.1 ∧ (p ≠ 0 → 5 ≤ c.2))
      ∧ ((g.localN p : Int) - g.nz ≤ k → 15 ≤ c.1 ∧ (p + 1 ≠ g.P → 10 ≤ c.2))
      ∧ ((g.localN p : Int) - 2 * g.nz ≤ k → k < (g.localN p : Int) - g.nz →
          20 ≤ c.1 ∧ (p + 1 ≠ g.P → 5 ≤ c.2))
      ∧ (2 * (g.nz : Int) ≤ k → k < (g.localN p : Int) - 2 * g.nz → 25 ≤ c.1)) (0, 0) ?_ ?_
  · right
    unfold nnzWrites
    simp only [if_true]
    by_cases c1 : k < (g.nz : Int)
    · refine ⟨(k, 15, if g.firstX p then 0 else 10), ?_, rfl⟩
      rw [List.mem_append, List.mem_append]; left; left
      rw [List.mem_flatMap]
      exact ⟨k.toNat, by rw [List.mem_range]; omega, by
        have : ((k.toNat : Nat) : Int) = k := by omega
        rw [this]; simp⟩
    · by_cases c2 : (g.localN p : Int) - g.nz ≤ k
      · refine ⟨(k, 15, if g.lastX p then 0 else 10), ?_, rfl⟩
        rw [List.mem_append, List.mem_append]; left; left
        rw [List.mem_flatMap]
        exact ⟨((g.localN p : Int) - 1 - k).toNat, by rw [List.mem_range]; omega, by
          have : ((((g.localN p : Int) - 1 - k).toNat : Nat) : Int) = (g.localN p : Int) - 1 - k := by
            omega
          rw [this]; simp⟩
      · by_cases c3 : k < 2 * (g.nz : Int)
        · refine ⟨(k, 20, if g.firstX p then 0 else 5), ?_, rfl⟩
          rw [List.mem_append, List.mem_append]; left; right
          rw [List.mem_flatMap]
          exact ⟨(k - g.nz).toNat, by rw [List.mem_range]; omega, by
            have : (((k - g.nz).toNat : Nat) : Int) = k - g.nz := by omega
            rw [this]; simp⟩
        · by_cases c4 : (g.localN p : Int) - 2 * g.nz ≤ k
          · refine ⟨(k, 20, if g.lastX p then 0 else 5), ?_, rfl⟩
            rw [List.mem_append, List.mem_append]; left; right
            rw [List.mem_flatMap]
            exact ⟨((g.localN p : Int) - 1 - k - g.nz).toNat, by rw [List.mem_range]; omega, by
              have : ((((g.localN p : Int) - 1 - k - g.nz).toNat : Nat) : Int)
                  = (g.localN p : Int) - 1 - k - g.nz := by omega
              rw [this]; simp⟩
          · refine ⟨(k, 25, 0), ?_, rfl⟩
            rw [List.mem_append]; right
            rw [List.mem_flatMap]
            exact ⟨(k - 2 * g.nz).toNat, by rw [List.mem_range]; omega, by
              have : (((k - 2 * g.nz).toNat : Nat) : Int) = k - 2 * g.nz := by omega
              rw [this]; simp⟩
  · intro w hw he
    unfold nnzWrites at hw
    simp only [if_true] at hw
    simp only [List.mem_append, List.mem_flatMap, List.mem_range, List.mem_cons,
      List.not_mem_nil, or_false] at hw
    rcases hw with (⟨i, hi, e | e⟩ | ⟨i, hi, e | e⟩) | ⟨i, hi, e | e⟩ <;> subst e <;>
      dsimp only at he ⊢
    · unfold Grid.firstX
      generalize g.localN p = N at *
      by_cases hp : p = 0 <;> simp [hp] <;> omega
    · unfold Grid.lastX
      by_cases hp : p + 1 = g.P <;> simp [hp] <;> omega
    · unfold Grid.firstX
      generalize g.localN p = N at *
      by_cases hp : p = 0 <;> simp [hp] <;> omega
    · unfold Grid.lastX
      by_cases hp : p + 1 = g.P <;> simp [hp] <;> omega
    · omega
    · omega

theorem localN_eq (g : Grid) (p : Nat) (hp : p < g.P) :
    (g.localN p : Int) = ((g.hi p : Int) - (g.lo p : Int)) * (g.nz : Int) := by
  have h : g.Iend p = g.Istart p + g.localN p := rfl
  rw [Iend_lt g p hp, Istart_lt g p hp] at h
  have : ((g.hi p + p * g.mx) * g.nz : Int) = (g.lo p + p * g.mx) * g.nz + g.localN p := by
    exact_mod_cast h
  linear_combination -this

theorem wrap_range (n : Nat) (z b : Int) (hz : 0 ≤ z ∧ z < (n : Int)) (hb : -(n : Int) ≤ b ∧ b ≤ n) :
    0 ≤ wrapZ n (z + b) ∧ wrapZ n (z + b) < (n : Int) := by
  unfold wrapZ
  by_cases h1 : z + b < 0
  · rw [if_pos h1]; omega
  · rw [if_neg h1]
    by_cases h2 : z + b > (n : Int) - 1
    · rw [if_pos h2]; omega
    · rw [if_neg h2]; omega

theorem mul_pos_of (n a : Int) (hn : 0 ≤ n) (ha : 1 ≤ a) : n ≤ a * n := by nlinarith

/-- A column is in the diagonal block exactly when its X index is owned. -/
theorem inDiag_col (g : Grid) (p : Nat) (hp : p < g.P) (x w : Int)
    (hw : 0 ≤ w ∧ w < (g.nz : Int)) :
    inDiag g p ((x + (p : Int) * (g.mx : Int)) * (g.nz : Int) + w)
      = (decide ((g.lo p : Int) ≤ x) && decide (x < (g.hi p : Int))) := by
  unfold inDiag
  rw [Istart_lt g p hp, Iend_lt g p hp]
  have e1 : (((g.lo p + p * g.mx) * g.nz : Nat) : Int)
      ≤ (x + (p : Int) * (g.mx : Int)) * (g.nz : Int) + w ↔ (g.lo p : Int) ≤ x := by
    push_cast
    constructor
    · intro h
      by_contra hx
      have := mul_pos_of (g.nz : Int) ((g.lo p : Int) - x) (by omega) (by omega)
      nlinarith
    · intro h
      nlinarith
  have e2 : (x + (p : Int) * (g.mx : Int)) * (g.nz : Int) + w
      < (((g.hi p + p * g.mx) * g.nz : Nat) : Int) ↔ x < (g.hi p : Int) := by
    push_cast
    constructor
    · intro h
      by_contra hx
      have : 0 ≤ (x - (g.hi p : Int)) * (g.nz : Int) := by
        apply mul_nonneg <;> omega
      nlinarith
    · intro h
      have := mul_pos_of (g.nz : Int) ((g.hi p : Int) - x) (by omega) (by omega)
      nlinarith
  simp only [e1, e2]

/-- Number of rows of `p` in X. -/
theorem block (n r z : Int) (hz : 0 ≤ z ∧ z < n) (j : Int) :
    (r * n + z < j * n ↔ r < j) ∧ (j * n ≤ r * n + z ↔ j ≤ r) := by
  have h : r * n + z < j * n ↔ r < j := by
    constructor
    · intro h
      by_contra hx
      have : 0 ≤ (r - j) * n := by apply mul_nonneg <;> omega
      nlinarith
    · intro h
      have := mul_pos_of n (j - r) (by omega) (by omega)
      nlinarith
  exact ⟨h, by rw [← not_lt, h, not_lt]⟩

theorem lo_cases (g : Grid) (p : Nat) :
    (p = 0 ∧ g.lo p = 0) ∨ (p ≠ 0 ∧ g.lo p = g.xs) := by
  unfold Grid.lo; by_cases h : p = 0 <;> simp [h]

theorem hi_cases (g : Grid) (p : Nat) :
    (p + 1 = g.P ∧ g.hi p = g.xs + g.mx + g.xs) ∨ (p + 1 ≠ g.P ∧ g.hi p = g.xs + g.mx) := by
  unfold Grid.hi; by_cases h : p + 1 = g.P <;> simp [h]

theorem lo_hi (g : Grid) (p : Nat) : g.lo p + g.mx ≤ g.hi p := by
  rcases lo_cases g p with h | h <;> rcases hi_cases g p with h' | h' <;> omega

/-- Preallocation in terms of the local X index, second order. -/
theorem cap2 (g : Grid) (hf : Fits g false) (p : Nat) (hp : p < g.P) (x z : Int)
    (hx : (g.lo p : Int) ≤ x ∧ x < (g.hi p : Int)) (hz : 0 ≤ z ∧ z < (g.nz : Int)) :
    let c := nnz g false p (rowIdx g p (x, z) - (g.Istart p : Int))
    6 ≤ c.1 ∧ (x = g.lo p → p ≠ 0 → 3 ≤ c.2) ∧ (x = g.hi p - 1 → p + 1 ≠ g.P → 3 ≤ c.2)
      ∧ ((g.lo p : Int) < x → x < g.hi p - 1 → 9 ≤ c.1) := by
  intro c
  obtain ⟨hP, hm, h3, h4, h5⟩ := hf
  have hN := localN_eq g p hp
  have e : rowIdx g p (x, z) - (g.Istart p : Int) = (x - g.lo p) * (g.nz : Int) + z := by
    rw [Istart_lt g p hp]; unfold rowIdx; push_cast; ring
  have hR : (2 : Int) ≤ (g.hi p : Int) - g.lo p := by
    rcases lo_cases g p with h | h <;> rcases hi_cases g p with h' | h' <;> omega
  generalize hr : x - (g.lo p : Int) = r at *
  generalize hRR : (g.hi p : Int) - g.lo p = R at *
  have b1 := block (g.nz : Int) r z hz 1
  have b2 := block (g.nz : Int) r z hz (R - 1)
  have b3 := block (g.nz : Int) r z hz R
  have b0 := block (g.nz : Int) r z hz 0
  have n1 := block (g.nz : Int) R 0 (by omega) 2
  rw [sub_mul, ← hN] at b2
  rw [← hN] at b3 n1
  have g0 : 0 ≤ r * (g.nz : Int) + z := by have := b0.2.2 (by omega); omega
  have g1 : r * (g.nz : Int) + z < (g.localN p : Int) := b3.1.2 (by omega)
  have g2 : 2 * g.nz ≤ g.localN p := by have := n1.2.2 hR; omega
  have key := nnz2 g p (rowIdx g p (x, z) - (g.Istart p : Int)) (by rw [e]; exact g0)
    (by rw [e]; exact g1) g2
  dsimp only at key
  rw [show nnz g false p (rowIdx g p (x, z) - (g.Istart p : Int)) = c from rfl, e] at key
  clear_value c
  obtain ⟨l1, l2, l3⟩ := key
  have k1 : r < 1 → _ := fun h => l1 (by have := b1.1.2 h; omega)
  have k2 : R - 1 ≤ r → _ := fun h => l2 (by have := b2.2.2 h; omega)
  have k3 : 1 ≤ r → r < R - 1 → _ := fun h h' =>
    l3 (by have := b1.2.2 h; omega) (by have := b2.1.2 h'; omega)
  clear l1 l2 l3 b0 b1 b2 b3 n1 g0 g1 g2 e hN h3 h4 h5 hm hP
  refine ⟨?_, ?_, ?_, ?_⟩
  · by_cases c1 : r < 1
    · exact (k1 (by omega)).1
    · by_cases c2 : R - 1 ≤ r
      · exact (k2 (by omega)).1
      · have := k3 (by omega) (by omega)
        omega
  · intro h1 h2
    exact (k1 (by omega)).2 h2
  · intro h1 h2
    exact (k2 (by omega)).2 h2
  · intro h1 h2
    exact k3 (by omega) (by omega)

/-- Preallocation in terms of the local X index, fourth order. -/
theorem cap4 (g : Grid) (hf : Fits g true) (p : Nat) (hp : p < g.P) (x z : Int)
    (hx : (g.lo p : Int) ≤ x ∧ x < (g.hi p : Int)) (hz : 0 ≤ z ∧ z < (g.nz : Int)) :
    let c := nnz g true p (rowIdx g p (x, z) - (g.Istart p : Int))
    15 ≤ c.1 ∧ (x = g.lo p → p ≠ 0 → 10 ≤ c.2) ∧ (x = g.hi p - 1 → p + 1 ≠ g.P → 10 ≤ c.2)
      ∧ (x = g.lo p + 1 → p ≠ 0 → 5 ≤ c.2) ∧ (x = g.hi p - 2 → p + 1 ≠ g.P → 5 ≤ c.2)
      ∧ ((g.lo p : Int) < x → x < g.hi p - 1 → 20 ≤ c.1)
      ∧ ((g.lo p : Int) + 1 < x → x < g.hi p - 2 → 25 ≤ c.1) := by
  intro c
  obtain ⟨hP, hm, h3, h4, h5⟩ := hf
  have hN := localN_eq g p hp
  have e : rowIdx g p (x, z) - (g.Istart p : Int) = (x - g.lo p) * (g.nz : Int) + z := by
    rw [Istart_lt g p hp]; unfold rowIdx; push_cast; ring
  have hR : (4 : Int) ≤ (g.hi p : Int) - g.lo p := by
    rcases lo_cases g p with h | h <;> rcases hi_cases g p with h' | h' <;> omega
  generalize hr : x - (g.lo p : Int) = r at *
  generalize hRR : (g.hi p : Int) - g.lo p = R at *
  have b1 := block (g.nz : Int) r z hz 1
  have b12 := block (g.nz : Int) r z hz 2
  have b2 := block (g.nz : Int) r z hz (R - 1)
  have b22 := block (g.nz : Int) r z hz (R - 2)
  have b3 := block (g.nz : Int) r z hz R
  have b0 := block (g.nz : Int) r z hz 0
  have n1 := block (g.nz : Int) R 0 (by omega) 4
  rw [sub_mul, ← hN] at b2 b22
  rw [← hN] at b3 n1
  have g0 : 0 ≤ r * (g.nz : Int) + z := by have := b0.2.2 (by omega); omega
  have g1 : r * (g.nz : Int) + z < (g.localN p : Int) := b3.1.2 (by omega)
  have g2 : 4 * g.nz ≤ g.localN p := by have := n1.2.2 hR; omega
  have key := nnz4 g p (rowIdx g p (x, z) - (g.Istart p : Int)) (by rw [e]; exact g0)
    (by rw [e]; exact g1) g2
  dsimp only at key
  rw [show nnz g true p (rowIdx g p (x, z) - (g.Istart p : Int)) = c from rfl, e] at key
  clear_value c
  obtain ⟨l1, l2, l3, l4, l5⟩ := key
  have k1 : r < 1 → _ := fun h => l1 (by have := b1.1.2 h; omega)
  have k2 : 1 ≤ r → r < 2 → _ := fun h h' =>
    l2 (by have := b1.2.2 h; omega) (by have := b12.1.2 h'; omega)
  have k3 : R - 1 ≤ r → _ := fun h => l3 (by have := b2.2.2 h; omega)
  have k4 : R - 2 ≤ r → r < R - 1 → _ := fun h h' =>
    l4 (by have := b22.2.2 h; omega) (by have := b2.1.2 h'; omega)
  have k5 : 2 ≤ r → r < R - 2 → _ := fun h h' =>
    l5 (by have := b12.2.2 h; omega) (by have := b22.1.2 h'; omega)
  clear l1 l2 l3 l4 l5 b0 b1 b12 b2 b22 b3 n1 g0 g1 g2 e hN h3 h4 h5 hm hP
  have hcase : r < 1 ∨ (1 ≤ r ∧ r < 2) ∨ R - 1 ≤ r ∨ (R - 2 ≤ r ∧ r < R - 1)
      ∨ (2 ≤ r ∧ r < R - 2) := by omega
  refine ⟨?_, ?_, ?_, ?_, ?_, ?_, ?_⟩
  · rcases hcase with h | h | h | h | h
    · exact (k1 (by omega)).1
    · have := (k2 (by omega) (by omega)).1; omega
    · exact (k3 (by omega)).1
    · have := (k4 (by omega) (by omega)).1; omega
    · have := k5 (by omega) (by omega); omega
  · intro h1 h2
    exact (k1 (by omega)).2 h2
  · intro h1 h2
    exact (k3 (by omega)).2 h2
  · intro h1 h2
    exact (k2 (by omega) (by omega)).2 h2
  · intro h1 h2
    exact (k4 (by omega) (by omega)).2 h2
  · intro h1 h2
    rcases hcase with h | h | h | h | h
    · omega
    · exact (k2 (by omega) (by omega)).1
    · omega
    · exact (k4 (by omega) (by omega)).1
    · have := k5 (by omega) (by omega); omega
  · intro h1 h2
    exact k5 (by omega) (by omega)

end Verif.LapPetsc
