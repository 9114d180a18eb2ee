import Verif.Invert.SptThms
import Mathlib.Tactic.FieldSimp

/-! # C58: boundary widths and the constant in X -/

namespace Verif.Laplace

open Verif.Fourier Verif.Cyclic Finset Complex
open scoped Classical

/-- **C58.** The pipelined solver copies `x0` into as many rows as the matrix has boundary rows unless one side alone asks for a width of one. -/
theorem C58_widths_agree (s : LapSetup) (hi : has s.flags.inner INVERT_BNDRY_ONE = false) (ho : has s.flags.outer INVERT_BNDRY_ONE = false) : s.WidthsAgree := by
  intro q _
  constructor
  · intro _
    rw [inbndry, if_neg (by rw [hi]; simp)]
    rfl
  · intro _
    rw [outbndry, if_neg (by rw [ho]; simp)]
    rfl

/-- The same as what the user asks for: one row if both sides are to have one or there is one guard cell, else all the guard cells. -/
theorem C58_widths (s : LapSetup) (q : Nat) : sptWidth (s.geom q).xstart s.flags =
    if has s.flags.global INVERT_BOTH_BNDRY_ONE = true ∨ (s.geom q).xstart < 2 then 1 else (s.geom q).xstart := rfl

/-- **C58.** `INVERT_KX_ZERO` in the serial solver: in the mode `kz = 0` the result is the solution of the tridiagonal system minus a constant on the points
between the boundaries, such that their sum is zero; other modes, and all modes without the flag, are the solution itself. -/
theorem C58_kx_zero (s : LapSetup) (hw : s.WellFormed) (lap : Lapack) (rhs x0 : Nat → Int → Nat → ℝ) (kz : Nat) (X : Nat → ℂ)
    (h : s.triMode lap rhs x0 kz = .ok X) : ∃ rows x, s.matrix rhs x0 0 kz = .ok rows ∧ lap (s.N 0) rows = .ok x ∧
      ((has s.flags.global INVERT_KX_ZERO = true ∧ kz = 0) →
        (∑ i ∈ range ((s.geom 0).xend - (s.geom 0).xstart + 1).toNat, X ((s.geom 0).xstart.toNat + i)) = 0 ∧
        ∃ k : ℂ, ∀ j : Nat, X j = if (s.geom 0).xstart ≤ (j : Int) ∧ (j : Int) ≤ (s.geom 0).xend then x j - k else x j) ∧
      (¬ (has s.flags.global INVERT_KX_ZERO = true ∧ kz = 0) → X = x) := by
  obtain ⟨hP, _, _, _, hg⟩ := hw
  obtain ⟨h1, h2, -⟩ := hg 0 (by omega)
  unfold LapSetup.triMode at h
  split at h
  · cases h
  · rename_i rows hrows
    split at h
    · cases h
    · rename_i x hx
      refine ⟨rows, x, hrows, hx, ?_, ?_⟩
      · intro hk
        rw [if_pos hk] at h
        have hX := Except.ok.inj h
        generalize hn : ((s.geom 0).xend - (s.geom 0).xstart + 1).toNat = n at hX ⊢
        have hnz : (((s.geom 0).xend - (s.geom 0).xstart + 1 : ℤ) : ℂ) = (n : ℂ) := by
          have : ((s.geom 0).xend - (s.geom 0).xstart + 1 : ℤ) = (n : ℤ) := by omega
          rw [this]; simp
        refine ⟨?_, _, fun j => by rw [← hX]⟩
        have hin : ∀ i ∈ range n, X ((s.geom 0).xstart.toNat + i) = x ((s.geom 0).xstart.toNat + i) -
            (∑ i ∈ range n, x ((s.geom 0).xstart.toNat + i)) / (n : ℂ) := by
          intro i hi
          have := mem_range.1 hi
          rw [← hX]
          dsimp only
          rw [if_pos (by constructor <;> omega), hnz]
        rw [sum_congr rfl hin, sum_sub_distrib, sum_const, card_range, nsmul_eq_mul]
        have hn0 : (n : ℂ) ≠ 0 := by
          have : n ≠ 0 := by omega
          exact_mod_cast this
        field_simp
        ring
      · intro hk
        rw [if_neg hk] at h
        exact (Except.ok.inj h).symm

end Verif.Laplace
