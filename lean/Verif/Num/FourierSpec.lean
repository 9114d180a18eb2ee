import Mathlib.Analysis.SpecialFunctions.Trigonometric.Basic
import Mathlib.Algebra.BigOperators.Intervals

/-!
# Specification of the Fourier operations in Z

What the operations should mean is said in terms of waves, without any Fourier
transform: a row of `n` points is the sampling at `t = 0, 1, …, n-1` of a finite
sum of sines and cosines of period `n` (wave numbers below `n/2`) plus, when `n`
is even, a multiple of the sawtooth `(-1)^z`.
-/

namespace Verif.Fourier

open Finset

/-- The sum of waves with cosine amplitudes `a` and sine amplitudes `b` and wave
numbers `m` with `2*m < n`, as a function of a real position `t` measured in
cells. -/
noncomputable def waves (n : Nat) (a b : Nat → ℝ) (t : ℝ) : ℝ :=
  a 0 + ∑ m ∈ Ico 1 ((n + 1) / 2),
    (a m * Real.cos (2 * Real.pi * m * t / n) + b m * Real.sin (2 * Real.pi * m * t / n))

/-- The sawtooth of amplitude `N`, which exists only on an even number of points. -/
noncomputable def sawtooth (n : Nat) (N : ℝ) (z : Nat) : ℝ :=
  if n % 2 = 0 then N * (-1) ^ z else 0

/-- The row `f` of `n` points is made of these waves. -/
def IsRow (n : Nat) (f : Nat → ℝ) (a b : Nat → ℝ) (N : ℝ) : Prop :=
  ∀ z, z < n → f z = waves n a b z + sawtooth n N z

/-- Keep only the amplitudes of the wave numbers satisfying `P`. -/
noncomputable def keep (P : Nat → Prop) [DecidablePred P] (a : Nat → ℝ) (m : Nat) : ℝ :=
  if P m then a m else 0

/-- A sum of the sine waves which vanish at both ends of `len` points `0 … len-1`. -/
noncomputable def sines (len : Nat) (b : Nat → ℝ) (t : ℝ) : ℝ :=
  ∑ m ∈ Ico 1 (len - 1), b m * Real.sin (Real.pi * m * t / ((len : ℝ) - 1))

end Verif.Fourier
