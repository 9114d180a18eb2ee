import Verif.Num.FourierProps
import Mathlib.Algebra.Order.Floor.Ring

namespace Verif.Fourier

open Complex Finset

theorem wave_ee (n : Nat) (a b : ℝ) (m z : Nat) :
    ((a * Real.cos (2 * Real.pi * m * z / n) + b * Real.sin (2 * Real.pi * m * z / n) : ℝ) : ℂ)
      = (⟨a / 2, -b / 2⟩ : ℂ) * ee n ((m : Int) * z) + (⟨a / 2, b / 2⟩ : ℂ) * ee n (-(m : Int) * z) := by
  rw [show -(m : Int) * z = -((m : Int) * z) by ring, ← ee_conj, ee_eq_trig]
  have : (2 * Real.pi * (((m : Int) * (z : Int) : Int) : ℝ) / n : ℝ) = 2 * Real.pi * m * z / n := by
    push_cast; ring
  rw [this]
  generalize Real.cos _ = c
  generalize Real.sin _ = s
  apply Complex.ext
  · simp only [ofReal_re, add_re, mul_re, conj_re, conj_im]; ring
  · simp only [ofReal_im, add_im, mul_im, conj_re, conj_im]; ring

theorem dvd_small {n : Nat} {d : Int} (h1 : -(n : Int) < d) (h2 : d < n) :
    (n : Int) ∣ d ↔ d = 0 := by
  constructor
  · intro h; exact Int.eq_zero_of_abs_lt_dvd h (abs_lt.2 ⟨h1, h2⟩)
  · rintro rfl; exact dvd_zero _

/-- The unnormalised transform of one wave. -/
theorem r2c_wave {n : Nat} (hn : 0 < n) (a b : ℝ) (m k : Nat) (hm1 : 1 ≤ m) (hm : 2 * m < n)
    (hk : 2 * k ≤ n) :
    ∑ z ∈ range n,
      ((a * Real.cos (2 * Real.pi * m * z / n) + b * Real.sin (2 * Real.pi * m * z / n) : ℝ) : ℂ)
        * ee n (-(k : Int) * z)
      = if m = k then n * (⟨a / 2, -b / 2⟩ : ℂ) else 0 := by
  have : ∀ z ∈ range n,
      ((a * Real.cos (2 * Real.pi * m * z / n) + b * Real.sin (2 * Real.pi * m * z / n) : ℝ) : ℂ)
        * ee n (-(k : Int) * z)
      = (⟨a / 2, -b / 2⟩ : ℂ) * ee n (((m : Int) - k) * z)
        + (⟨a / 2, b / 2⟩ : ℂ) * ee n ((-(m : Int) - k) * z) := by
    intro z _
    rw [wave_ee, show ((m : Int) - k) * z = (m : Int) * z + -(k : Int) * z by ring,
      show (-(m : Int) - k) * z = -(m : Int) * z + -(k : Int) * z by ring, ee_add, ee_add]
    ring
  rw [sum_congr rfl this, sum_add_distrib, ← mul_sum, ← mul_sum, ee_sum hn, ee_sum hn]
  simp only [dvd_small (n := n) (d := (m : Int) - k) (by omega) (by omega),
    dvd_small (n := n) (d := -(m : Int) - k) (by omega) (by omega)]
  rw [if_neg (show ¬ (-(m : Int) - k = 0) by omega), mul_zero, add_zero]
  by_cases h : m = k
  · rw [if_pos h, if_pos (by omega), mul_comm]
  · rw [if_neg h, if_neg (by omega), mul_zero]

/-- `rfft` reads off the amplitudes of the waves. -/
theorem rfft_of_isRow {n : Nat} (hn : 0 < n) {f : Nat → ℝ} {a b : Nat → ℝ} {N : ℝ}
    (hf : IsRow n f a b N) (k : Nat) (hk : 2 * k ≤ n) :
    rfft n f k
      = if k = 0 then (a 0 : ℂ)
        else if 2 * k = n then (N : ℂ)
        else ⟨a k / 2, -b k / 2⟩ := by
  have h0 : (n : ℂ) ≠ 0 := by exact_mod_cast hn.ne'
  unfold rfft
  rw [r2c_ee]
  have e : ∀ z ∈ range n, (f z : ℂ) * ee n (-(k : Int) * z)
      = (a 0 : ℂ) * ee n (-(k : Int) * z)
        + ∑ m ∈ Ico 1 ((n + 1) / 2),
          ((a m * Real.cos (2 * Real.pi * m * z / n)
            + b m * Real.sin (2 * Real.pi * m * z / n) : ℝ) : ℂ) * ee n (-(k : Int) * z)
        + (sawtooth n N z : ℂ) * ee n (-(k : Int) * z) := by
    intro z hz
    rw [hf z (mem_range.1 hz)]
    unfold waves
    rw [ofReal_add, ofReal_add, ofReal_sum, add_mul, add_mul, sum_mul]
  rw [sum_congr rfl e, sum_add_distrib, sum_add_distrib, ← mul_sum, ee_sum hn, sum_comm]
  have e2 : ∀ m ∈ Ico 1 ((n + 1) / 2), ∑ z ∈ range n,
      ((a m * Real.cos (2 * Real.pi * m * z / n)
            + b m * Real.sin (2 * Real.pi * m * z / n) : ℝ) : ℂ) * ee n (-(k : Int) * z)
      = if m = k then n * (⟨a m / 2, -b m / 2⟩ : ℂ) else 0 := by
    intro m hm
    rw [mem_Ico] at hm
    exact r2c_wave hn _ _ m k hm.1 (by omega) hk
  rw [sum_congr rfl e2, sum_ite_eq' (Ico 1 ((n + 1) / 2)) k]
  have e3 : ∑ z ∈ range n, (sawtooth n N z : ℂ) * ee n (-(k : Int) * z)
      = if 2 * k = n then (n : ℂ) * N else 0 := by
    rcases Nat.even_or_odd' n with ⟨h, he | ho⟩
    · have : ∀ z ∈ range n, (sawtooth n N z : ℂ) * ee n (-(k : Int) * z)
          = (N : ℂ) * ee n (((h : Int) - k) * z) := by
        intro z _
        unfold sawtooth
        rw [if_pos (by omega), ofReal_mul, ← ee_half he hn,
          show ((h : Int) - k) * z = (h : Int) * z + -(k : Int) * z by ring, ee_add]
        ring
      rw [sum_congr rfl this, ← mul_sum, ee_sum hn]
      simp only [dvd_small (n := n) (d := (h : Int) - k) (by omega) (by omega)]
      by_cases hh : 2 * k = n
      · rw [if_pos hh, if_pos (by omega), mul_comm]
      · rw [if_neg hh, if_neg (by omega), mul_zero]
    · rw [if_neg (by omega)]
      refine sum_eq_zero fun z _ => ?_
      unfold sawtooth
      rw [if_neg (by omega), ofReal_zero, zero_mul]
  rw [e3]
  simp only [dvd_small (n := n) (d := -(k : Int)) (by omega) (by omega), mem_Ico]
  by_cases hk0 : k = 0
  · rw [if_pos hk0, if_pos (by omega), if_neg (show ¬ (1 ≤ k ∧ k < (n + 1) / 2) by omega),
      if_neg (show ¬ 2 * k = n by omega)]
    push_cast; field_simp; ring
  · rw [if_neg hk0, if_neg (show ¬ (-(k : Int) = 0) by omega)]
    by_cases hN : 2 * k = n
    · rw [if_pos hN, if_pos hN, if_neg (show ¬ (1 ≤ k ∧ k < (n + 1) / 2) by omega)]
      push_cast; field_simp; ring
    · rw [if_neg hN, if_neg hN, if_pos (show 1 ≤ k ∧ k < (n + 1) / 2 by omega)]
      push_cast; field_simp; ring

/-- Every row is made of waves. -/
theorem exists_isRow {n : Nat} (hn : 0 < n) (f : Nat → ℝ) : ∃ a b N, IsRow n f a b N :=
  ⟨_, _, _, fun z hz => by rw [← irfft_rfft f z hz]; exact irfft_isRow hn _ z⟩

theorem waves_congr {n : Nat} {a b a' b' : Nat → ℝ} (h0 : a 0 = a' 0)
    (h : ∀ m, 1 ≤ m → 2 * m < n → a m = a' m ∧ b m = b' m) (t : ℝ) :
    waves n a b t = waves n a' b' t := by
  unfold waves
  rw [h0]
  congr 1
  refine sum_congr rfl fun m hm => ?_
  rw [mem_Ico] at hm
  obtain ⟨h1, h2⟩ := h m hm.1 (by omega)
  rw [h1, h2]

theorem sawtooth_congr {n : Nat} {N N' : ℝ} (h : n % 2 = 0 → N = N') (z : Nat) :
    sawtooth n N z = sawtooth n N' z := by
  unfold sawtooth
  by_cases h2 : n % 2 = 0
  · rw [if_pos h2, if_pos h2, h h2]
  · rw [if_neg h2, if_neg h2]

/-- What the pattern "transform, multiply every mode by a number, transform back"
does to the waves. -/
theorem mult_isRow {n : Nat} (hn : 0 < n) {f : Nat → ℝ} {a b : Nat → ℝ} {N : ℝ}
    (hf : IsRow n f a b N) (c : Nat → ℂ) (p : Nat → ℂ)
    (hc : ∀ k, 2 * k ≤ n → c k = rfft n f k * p k) (z : Nat) :
    irfft n c z
      = waves n (fun m => if m = 0 then a 0 * (p 0).re else a m * (p m).re + b m * (p m).im)
          (fun m => b m * (p m).re - a m * (p m).im) z
        + sawtooth n (N * (p (n / 2)).re) z := by
  rw [irfft_isRow hn]
  congr 1
  · apply waves_congr
    · rw [if_pos rfl, if_pos rfl, hc 0 (by omega), rfft_of_isRow hn hf 0 (by omega), if_pos rfl,
        re_ofReal_mul]
    · intro m h1 h2
      rw [if_neg (by omega), if_neg (by omega), hc m (by omega), rfft_of_isRow hn hf m (by omega),
        if_neg (by omega), if_neg (by omega), mul_re, mul_im]
      dsimp only
      constructor <;> ring
  · apply sawtooth_congr
    intro h2
    rw [hc (n / 2) (by omega), rfft_of_isRow hn hf (n / 2) (by omega), if_neg (by omega),
      if_pos (by omega), re_ofReal_mul]

end Verif.Fourier
