import Verif.Num.FourierRow
import Mathlib.Analysis.SpecialFunctions.Trigonometric.Deriv
import Mathlib.Tactic.SplitIfs

/-!
# C53: Fourier operations in Z
-/

namespace Verif.Fourier

open Finset

/-- `irfft` undoes `rfft`, on any number of points. -/
theorem C53_roundtrip (n : Nat) (f : Nat → ℝ) (z : Nat) (hz : z < n) :
    irfft n (rfft n f) z = f z := irfft_rfft f z hz

/-- Every row of points is made of waves (so the theorems about `IsRow` below are
about every row). -/
theorem C53_every_row_is_waves (n : Nat) (hn : 0 < n) (f : Nat → ℝ) :
    ∃ a b N, IsRow n f a b N := exists_isRow hn f

/-- `rfft` reads off the amplitudes of the waves. -/
theorem C53_rfft_reads_amplitudes (n : Nat) (hn : 0 < n) (f a b : Nat → ℝ) (N : ℝ)
    (hf : IsRow n f a b N) (k : Nat) (hk : 2 * k ≤ n) :
    rfft n f k = if k = 0 then (a 0 : ℂ) else if 2 * k = n then (N : ℂ)
      else ⟨a k / 2, -b k / 2⟩ := rfft_of_isRow hn hf k hk

/-- `rfft` undoes `irfft` on the coefficients which a real row can have: the
imaginary part of the mean and (even `n`) of the Nyquist mode is lost, everything
else is kept. -/
theorem C53_rfft_irfft (n : Nat) (hn : 0 < n) (c : Nat → ℂ) (k : Nat) (hk : 2 * k ≤ n) :
    rfft n (irfft n c) k = if k = 0 ∨ 2 * k = n then ((c k).re : ℂ) else c k := by
  rw [rfft_of_isRow hn (fun z _ => irfft_isRow hn c z) k hk]
  by_cases h0 : k = 0
  · rw [if_pos h0, if_pos (Or.inl h0), if_pos rfl, h0]
  · rw [if_neg h0]
    by_cases h1 : 2 * k = n
    · rw [if_pos h1, if_pos (Or.inr h1), show n / 2 = k by omega]
    · rw [if_neg h1, if_neg h0, if_neg (by omega)]
      apply Complex.ext <;> dsimp only <;> ring

theorem waves_shift (n : Nat) (hn : 0 < n) (a b : Nat → ℝ) (x : Nat → ℝ) (s t : ℝ)
    (hx : ∀ m : Nat, x m = 2 * Real.pi * m * s / n) :
    waves n (fun m => if m = 0 then a 0 else a m * Real.cos (x m) - b m * Real.sin (x m))
      (fun m => b m * Real.cos (x m) + a m * Real.sin (x m)) t = waves n a b (t - s) := by
  unfold waves
  dsimp only
  rw [if_pos rfl]
  congr 1
  refine sum_congr rfl fun m hm => ?_
  rw [mem_Ico] at hm
  rw [if_neg (by omega)]
  have : (2 * Real.pi * m * (t - s) / n : ℝ) = 2 * Real.pi * m * t / n - x m := by
    rw [hx]; ring
  rw [this, Real.cos_sub, Real.sin_sub]
  ring

/-- The two phases in one form: multiplication by `cos x ∓ i sin x` moves the waves
by `± s` cells. -/
theorem shiftRow_minus {n : Nat} (hn : 0 < n) {f a b : Nat → ℝ} {N : ℝ}
    (hf : IsRow n f a b N) (L s : ℝ) (z : Nat) :
    shiftRow n (fun jz => phaseMinus (kwave L jz * s)) f z
      = waves n a b (z - s * n / L) + sawtooth n (N * Real.cos (Real.pi * n * s / L)) z := by
  have hn' : (n : ℝ) ≠ 0 := by exact_mod_cast hn.ne'
  unfold shiftRow
  rw [mult_isRow hn hf _ (fun k => if 1 ≤ k then phaseMinus (kwave L k * s) else 1)]
  · congr 1
    · rw [← waves_shift n hn a b (fun m => kwave L m * s) (s * n / L) z]
      · apply waves_congr
        · simp
        · intro m h1 h2
          rw [if_pos h1, if_neg (by omega), if_neg (by omega)]
          simp only [phaseMinus]
          constructor <;> ring
      · intro m
        unfold kwave
        field_simp
    · apply sawtooth_congr
      intro h2
      rw [if_pos (by omega)]
      simp only [phaseMinus, kwave]
      have : ((n / 2 : Nat) : ℝ) = n / 2 := by
        rw [Nat.cast_div (by omega) (by norm_num)]; norm_num
      rw [this]; congr 2; ring
  · intro k _
    split_ifs
    · rfl
    · rw [mul_one]

theorem shiftRow_plus {n : Nat} (hn : 0 < n) {f a b : Nat → ℝ} {N : ℝ}
    (hf : IsRow n f a b N) (L s : ℝ) (z : Nat) :
    shiftRow n (fun jz => phasePlus (kwave L jz * s)) f z
      = waves n a b (z + s * n / L) + sawtooth n (N * Real.cos (Real.pi * n * s / L)) z := by
  have h : (fun jz => phasePlus (kwave L jz * s)) = fun jz => phaseMinus (kwave L jz * (-s)) := by
    funext jz
    simp [phasePlus, phaseMinus]
  rw [h, shiftRow_minus hn hf]
  congr 2
  · ring
  · rw [show Real.pi * n * -s / L = -(Real.pi * n * s / L) by ring, Real.cos_neg]

theorem shiftZ_eq {n : Nat} {f a b : Nat → ℝ} {N : ℝ}
    (hf : IsRow n f a b N) (L s : ℝ) (z : Nat) (hz : z < n) :
    shiftZ n L s f z
      = waves n a b (z - s * n / L) + sawtooth n (N * Real.cos (Real.pi * n * s / L)) z := by
  by_cases h1 : n = 1
  · subst h1
    have hz0 : z = 0 := by omega
    subst hz0
    unfold shiftZ
    rw [if_pos rfl, hf 0 (by omega)]
    simp [waves, sawtooth]
  · rw [← shiftRow_minus (by omega) hf L s z]
    unfold shiftZ
    rw [if_neg h1]
    rfl

/-- **Shift in Z.**  `shiftZ` by an angle `s` evaluates the waves of the row `s`
further back (`s / (zlength/n)` cells); the sawtooth of an even number of points is
multiplied by the cosine of its phase. -/
theorem C53_shift (n : Nat) (f a b : Nat → ℝ) (N : ℝ) (hf : IsRow n f a b N)
    (zlength s : ℝ) (z : Nat) (hz : z < n) :
    shiftZ n zlength s f z
      = waves n a b (z - s * n / zlength)
        + sawtooth n (N * Real.cos (Real.pi * n * s / zlength)) z :=
  shiftZ_eq hf zlength s z hz

theorem waves_periodic (n : Nat) (hn : 0 < n) (a b : Nat → ℝ) (t : ℝ) (j : Int) :
    waves n a b (t + j * n) = waves n a b t := by
  have hn' : (n : ℝ) ≠ 0 := by exact_mod_cast hn.ne'
  unfold waves
  congr 1
  refine sum_congr rfl fun m _ => ?_
  have : (2 * Real.pi * m * (t + j * n) / n : ℝ)
      = 2 * Real.pi * m * t / n + ((m * j : Int) : ℝ) * (2 * Real.pi) := by
    push_cast; field_simp
  rw [this, Real.cos_add_int_mul_two_pi, Real.sin_add_int_mul_two_pi]

/-- Shifting by a whole number `j` of cells moves the values along the row,
cyclically, and changes nothing else: on any number of points, even or odd. -/
theorem C53_shift_whole_cells (n : Nat) (f : Nat → ℝ) (zlength : ℝ) (hL : zlength ≠ 0)
    (j : Int) (z : Nat) (hz : z < n) :
    shiftZ n zlength (j * (zlength / n)) f z = f (((z : Int) - j) % n).toNat := by
  have hn : 0 < n := by omega
  have hn' : (n : ℝ) ≠ 0 := by exact_mod_cast hn.ne'
  obtain ⟨a, b, N, hf⟩ := exists_isRow hn f
  have hr0 : 0 ≤ ((z : Int) - j) % n := Int.emod_nonneg _ (by omega)
  have hr1 : ((z : Int) - j) % n < n := Int.emod_lt_of_pos _ (by omega)
  have hdm := Int.emod_add_mul_ediv ((z : Int) - j) n
  generalize hq : ((z : Int) - j) / n = q at hdm
  generalize hrr : ((z : Int) - j) % n = r at hr0 hr1 hdm
  obtain ⟨w, rfl⟩ := Int.eq_ofNat_of_zero_le hr0
  rw [shiftZ_eq hf _ _ z hz, Int.toNat_natCast, hf w (by omega)]
  have hzw : (z : ℝ) - j = w + q * n := by
    have : ((z : Int) - j : Int) = (w : Int) + q * n := by rw [← hdm]; ring
    have := congrArg (Int.cast : Int → ℝ) this
    push_cast at this
    exact this
  congr 1
  · rw [← waves_periodic n hn a b w q, ← hzw]
    congr 1
    field_simp
  · unfold sawtooth
    split_ifs with h2
    · have e1 : (Real.pi * n * (j * (zlength / n)) / zlength : ℝ) = j * Real.pi := by
        field_simp
      rw [e1, Real.cos_int_mul_pi, mul_assoc]
      congr 1
      have hpar : (Even j ↔ (Even z ↔ Even w)) := by
        have : (z : Int) - j = w + n * q := hdm.symm
        have hne : Even ((n : Int) * q) := by
          apply Even.mul_right
          exact ⟨n / 2, by omega⟩
        have e : (j : Int) = z - w - n * q := by omega
        rw [e, Int.even_sub, Int.even_sub]
        simp [hne]
      by_cases hj : Even j
      · rw [hj.neg_one_zpow, one_mul]
        have := hpar.1 hj
        by_cases hz' : Even z
        · rw [hz'.neg_one_pow, (this.1 hz').neg_one_pow]
        · have hw' : ¬ Even w := fun h => hz' (this.2 h)
          rw [(Nat.not_even_iff_odd.1 hz').neg_one_pow, (Nat.not_even_iff_odd.1 hw').neg_one_pow]
      · rw [(Int.not_even_iff_odd.1 hj).neg_one_zpow]
        have : ¬ (Even z ↔ Even w) := fun h => hj (hpar.2 h)
        by_cases hz' : Even z
        · have hw' : ¬ Even w := fun h => this ⟨fun _ => h, fun _ => hz'⟩
          rw [hz'.neg_one_pow, (Nat.not_even_iff_odd.1 hw').neg_one_pow]; norm_num
        · have hw' : Even w := by
            by_contra h
            exact this ⟨fun h' => absurd h' hz', fun h' => absurd h' h⟩
          rw [(Nat.not_even_iff_odd.1 hz').neg_one_pow, hw'.neg_one_pow]; norm_num
    · rfl

/-- The waves of a shifted row. -/
theorem shiftZ_isRow {n : Nat} {f a b : Nat → ℝ} {N : ℝ} (hf : IsRow n f a b N) (L s : ℝ) :
    ∃ a' b', IsRow n (shiftZ n L s f) a' b' (N * Real.cos (Real.pi * n * s / L))
      ∧ a' 0 = a 0 ∧ ∀ t, waves n a' b' t = waves n a b (t - s * n / L) := by
  rcases Nat.eq_zero_or_pos n with h0 | hn
  · subst h0
    exact ⟨a, b, fun z hz => absurd hz (by omega), rfl, fun t => by simp⟩
  have hn' : (n : ℝ) ≠ 0 := by exact_mod_cast hn.ne'
  refine ⟨_, _, fun z hz => ?_, ?_, fun t => waves_shift n hn a b (fun m => kwave L m * s) (s * n / L) t ?_⟩
  · rw [shiftZ_eq hf L s z hz]
    congr 1
    rw [waves_shift n hn a b (fun m => kwave L m * s) (s * n / L) z]
    intro m; unfold kwave; field_simp
  · rw [if_pos rfl]
  · intro m; unfold kwave; field_simp

/-- Two shifts: the waves move by the sum, the sawtooth is multiplied by both
cosines (and not by the cosine of the sum). -/
theorem C53_shift_shift (n : Nat) (f a b : Nat → ℝ) (N : ℝ) (hf : IsRow n f a b N)
    (zlength s s' : ℝ) (z : Nat) (hz : z < n) :
    shiftZ n zlength s' (shiftZ n zlength s f) z
      = waves n a b (z - (s + s') * n / zlength)
        + sawtooth n (N * Real.cos (Real.pi * n * s / zlength)
            * Real.cos (Real.pi * n * s' / zlength)) z := by
  obtain ⟨a', b', h1, _, h2⟩ := shiftZ_isRow hf zlength s
  rw [shiftZ_eq h1 zlength s' z hz, h2]
  congr 2; ring

/-- On an odd number of points, and on an even number for a row without sawtooth,
shifting forth and back gives the row again (the twist-shift of the guard cells on
the two sides of a branch cut is such a pair). -/
theorem C53_shift_back (n : Nat) (f a b : Nat → ℝ) (N : ℝ) (hf : IsRow n f a b N)
    (hN : n % 2 = 1 ∨ N = 0) (zlength s : ℝ) (z : Nat) (hz : z < n) :
    shiftZ n zlength (-s) (shiftZ n zlength s f) z = f z := by
  rw [C53_shift_shift n f a b N hf zlength s (-s) z hz, hf z hz]
  congr 1
  · rw [add_neg_cancel, zero_mul, zero_div, sub_zero]
  · rcases hN with h | h
    · unfold sawtooth; rw [if_neg (by omega), if_neg (by omega)]
    · subst h; simp

/-- The mean of the row does not change. -/
theorem C53_shift_mean (n : Nat) (f : Nat → ℝ) (zlength s : ℝ) :
    ∑ z ∈ range n, shiftZ n zlength s f z = ∑ z ∈ range n, f z := by
  rcases Nat.eq_zero_or_pos n with h0 | hn
  · subst h0; simp
  obtain ⟨a, b, N, hf⟩ := exists_isRow hn f
  obtain ⟨a', b', h1, h2, _⟩ := shiftZ_isRow hf zlength s
  have hn' : (n : ℂ) ≠ 0 := by exact_mod_cast hn.ne'
  have key : ∀ (g a b : Nat → ℝ) (N : ℝ), IsRow n g a b N → ∑ z ∈ range n, g z = n * a 0 := by
    intro g a b N hg
    have := rfft_of_isRow hn hg 0 (by omega)
    rw [if_pos rfl] at this
    unfold rfft r2c at this
    simp only [Nat.cast_zero, mul_zero, zero_mul, zero_div, neg_zero, Complex.exp_zero,
      mul_one] at this
    push_cast at this
    field_simp at this
    exact_mod_cast this
  rw [key _ _ _ _ hf, key _ _ _ _ h1, h2]

end Verif.Fourier
