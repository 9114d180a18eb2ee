import Verif.Num.Fourier
import Verif.Num.FourierSpec
import Mathlib.RingTheory.RootsOfUnity.Complex
import Mathlib.Tactic.Ring
import Mathlib.Tactic.FieldSimp
import Mathlib.Tactic.LinearCombination
import Mathlib.Tactic.Linarith
import Mathlib.Tactic.NormNum

namespace Verif.Fourier

open Complex Finset

/-- `exp(2πi m z / n)`. -/
noncomputable def ee (n : Nat) (m : Int) : ℂ := exp (2 * Real.pi * I * m / n)

theorem ee_add (n : Nat) (m k : Int) : ee n (m + k) = ee n m * ee n k := by
  unfold ee; rw [← exp_add]; congr 1; push_cast; ring

theorem ee_zero (n : Nat) : ee n 0 = 1 := by simp [ee]

theorem ee_mul_nat (n : Nat) (m : Int) (z : Nat) : ee n (m * z) = ee n m ^ z := by
  unfold ee; rw [← exp_nat_mul]; congr 1; push_cast; ring

theorem ee_eq_one_iff {n : Nat} (hn : 0 < n) (m : Int) : ee n m = 1 ↔ (n : Int) ∣ m := by
  have h0 : (n : ℂ) ≠ 0 := by exact_mod_cast hn.ne'
  unfold ee
  rw [exp_eq_one_iff]
  have hpi : (2 * Real.pi * I : ℂ) ≠ 0 := by
    simp [Real.pi_ne_zero]
  constructor
  · rintro ⟨k, hk⟩
    refine ⟨k, ?_⟩
    have : (m : ℂ) = n * k := by
      field_simp at hk
      exact hk
    exact_mod_cast this
  · rintro ⟨k, rfl⟩
    refine ⟨k, ?_⟩
    push_cast
    field_simp

theorem ee_period {n : Nat} (hn : 0 < n) (m : Int) : ee n (m + n) = ee n m := by
  rw [ee_add, (ee_eq_one_iff hn n).2 (dvd_refl _), mul_one]

/-- Sum of a geometric series of roots of unity. -/
theorem ee_sum {n : Nat} (hn : 0 < n) (m : Int) :
    ∑ z ∈ range n, ee n (m * z) = if (n : Int) ∣ m then (n : ℂ) else 0 := by
  by_cases h : (n : Int) ∣ m
  · rw [if_pos h]
    have h1 : ee n m = 1 := (ee_eq_one_iff hn m).2 h
    simp [ee_mul_nat, h1]
  · rw [if_neg h]
    have h1 : ee n m ≠ 1 := fun h' => h ((ee_eq_one_iff hn m).1 h')
    have h2 : ee n m ^ n = 1 := by
      rw [← ee_mul_nat]
      exact (ee_eq_one_iff hn _).2 (Dvd.intro_left _ rfl)
    simp only [ee_mul_nat]
    rw [geom_sum_eq h1, h2]; simp

theorem ee_eq_trig (n : Nat) (m : Int) :
    ee n m = ⟨Real.cos (2 * Real.pi * m / n), Real.sin (2 * Real.pi * m / n)⟩ := by
  unfold ee
  have : (2 * Real.pi * I * m / n : ℂ) = ((2 * Real.pi * m / n : ℝ) : ℂ) * I := by
    push_cast; ring
  rw [this, exp_mul_I, ← ofReal_cos, ← ofReal_sin]
  generalize Real.cos _ = c
  generalize Real.sin _ = s
  apply Complex.ext <;> simp

theorem ee_conj (n : Nat) (m : Int) : (starRingEnd ℂ) (ee n m) = ee n (-m) := by
  rw [ee_eq_trig, ee_eq_trig]
  have : (2 * Real.pi * ((-m : Int) : ℝ) / n : ℝ) = -(2 * Real.pi * m / n) := by
    push_cast; ring
  rw [this, Real.cos_neg, Real.sin_neg]
  rfl

theorem r2c_ee (n : Nat) (f : Nat → ℝ) (k : Nat) :
    r2c n f k = ∑ z ∈ range n, (f z : ℂ) * ee n (-(k : Int) * z) := by
  unfold r2c ee
  refine sum_congr rfl fun z _ => ?_
  congr 2; push_cast; ring

theorem c2r_ee (n : Nat) (c : Nat → ℂ) (z : Nat) :
    c2r n c z = (∑ k ∈ range n, hermitian n c k * ee n ((k : Int) * z)).re := by
  unfold c2r ee
  congr 1
  refine sum_congr rfl fun k _ => ?_
  congr 2; push_cast; ring

/-- The coefficient at `n - k` is the conjugate of the one at `k`. -/
theorem r2c_conj {n : Nat} (hn : 0 < n) (f : Nat → ℝ) (k : Nat) (hk : k ≤ n) :
    (starRingEnd ℂ) (r2c n f (n - k)) = r2c n f k := by
  rw [r2c_ee, r2c_ee, map_sum]
  refine sum_congr rfl fun z _ => ?_
  rw [map_mul, conj_ofReal, ee_conj]
  congr 1
  have : -(-((n - k : Nat) : Int) * z) = -(k : Int) * z + n * z := by
    push_cast [hk]; ring
  rw [this, ee_add, (ee_eq_one_iff hn _).2 (Dvd.intro _ rfl), mul_one]

theorem rfft_conj {n : Nat} (hn : 0 < n) (f : Nat → ℝ) (k : Nat) (hk : k ≤ n) :
    (starRingEnd ℂ) (rfft n f (n - k)) = rfft n f k := by
  unfold rfft
  rw [map_mul, r2c_conj hn f k hk, conj_ofReal]

theorem r2c_n {n : Nat} (hn : 0 < n) (f : Nat → ℝ) : r2c n f n = r2c n f 0 := by
  rw [r2c_ee, r2c_ee]
  refine sum_congr rfl fun z _ => ?_
  congr 1
  rw [(ee_eq_one_iff hn _).2 ⟨-z, by ring⟩]; simp [ee_zero]

theorem real_of_conj {c : ℂ} (h : (starRingEnd ℂ) c = c) : ((c.re : ℝ) : ℂ) = c :=
  conj_eq_iff_re.1 h

theorem hermitian_rfft {n : Nat} (hn : 0 < n) (f : Nat → ℝ) (k : Nat) (hk : k < n) :
    hermitian n (rfft n f) k = rfft n f k := by
  unfold hermitian
  by_cases h0 : k = 0 ∨ 2 * k = n
  · rw [if_pos h0]
    apply real_of_conj
    rcases h0 with h | h
    · subst h
      have := rfft_conj hn f n (le_refl n)
      rw [Nat.sub_self] at this
      rw [this]; unfold rfft; rw [r2c_n hn]
    · have := rfft_conj hn f k hk.le
      rwa [show n - k = k by omega] at this
  · rw [if_neg h0]
    by_cases h1 : 2 * k < n
    · rw [if_pos h1]
    · rw [if_neg h1]; exact rfft_conj hn f k hk.le

/-- `irfft` undoes `rfft`. -/
theorem irfft_rfft {n : Nat} (f : Nat → ℝ) (z : Nat) (hz : z < n) :
    irfft n (rfft n f) z = f z := by
  have hn : 0 < n := by omega
  have h0 : (n : ℂ) ≠ 0 := by exact_mod_cast hn.ne'
  unfold irfft
  rw [c2r_ee]
  have : ∑ k ∈ range n, hermitian n (rfft n f) k * ee n ((k : Int) * z) = (f z : ℂ) := by
    calc _ = ∑ k ∈ range n, rfft n f k * ee n ((k : Int) * z) :=
          sum_congr rfl fun k hk => by rw [hermitian_rfft hn f k (mem_range.1 hk)]
      _ = ∑ k ∈ range n, ∑ w ∈ range n, (f w : ℂ) * (1 / n) * ee n (((z : Int) - w) * k) := by
          refine sum_congr rfl fun k _ => ?_
          unfold rfft
          rw [r2c_ee, sum_mul, sum_mul]
          refine sum_congr rfl fun w _ => ?_
          rw [show ((z : Int) - w) * k = (-(k : Int) * w) + (k : Int) * z by ring, ee_add]
          push_cast; ring
      _ = ∑ w ∈ range n, (f w : ℂ) * (1 / n) * ∑ k ∈ range n, ee n (((z : Int) - w) * k) := by
          rw [sum_comm]
          refine sum_congr rfl fun w _ => ?_
          rw [mul_sum]
      _ = ∑ w ∈ range n, (f w : ℂ) * (1 / n) * (if w = z then (n : ℂ) else 0) := by
          refine sum_congr rfl fun w hw => ?_
          rw [ee_sum hn]
          have hw := mem_range.1 hw
          have : ((n : Int) ∣ (z : Int) - w) ↔ w = z := by
            constructor
            · intro h
              have := Int.eq_zero_of_abs_lt_dvd h (by rw [abs_lt]; constructor <;> omega)
              omega
            · rintro rfl; simp
          simp only [this]
      _ = (f z : ℂ) := by
          rw [sum_eq_single z]
          · rw [if_pos rfl]; field_simp
          · intro w _ hw; rw [if_neg hw, mul_zero]
          · intro h; exact absurd (mem_range.2 hz) h
  rw [this]; exact ofReal_re _

/-- Half-angle bookkeeping: the pairs `k`, `n-k`. -/
theorem hermitian_pair {n : Nat} (hn : 0 < n) (c : Nat → ℂ) (z m : Nat) (h1 : 1 ≤ m)
    (h2 : 2 * m < n) :
    (hermitian n c m * ee n ((m : Int) * z)
      + hermitian n c (n - m) * ee n (((n - m : Nat) : Int) * z)).re
      = 2 * (c m).re * Real.cos (2 * Real.pi * m * z / n)
        + -2 * (c m).im * Real.sin (2 * Real.pi * m * z / n) := by
  have e1 : hermitian n c m = c m := by
    unfold hermitian; rw [if_neg (by omega), if_pos h2]
  have e2 : hermitian n c (n - m) = (starRingEnd ℂ) (c m) := by
    unfold hermitian; rw [if_neg (by omega), if_neg (by omega)]
    congr 2; omega
  have e3 : ee n (((n - m : Nat) : Int) * z) = (starRingEnd ℂ) (ee n ((m : Int) * z)) := by
    rw [ee_conj]
    have : (((n - m : Nat) : Int) * z) = -((m : Int) * z) + n * z := by
      push_cast [show m ≤ n by omega]; ring
    rw [this, ee_add, (ee_eq_one_iff hn _).2 (Dvd.intro _ rfl), mul_one]
  rw [e1, e2, e3, ee_eq_trig]
  simp only [add_re, mul_re, conj_re, conj_im]
  have : (2 * Real.pi * (((m : Int) * (z : Int) : Int) : ℝ) / n : ℝ) = 2 * Real.pi * m * z / n := by
    push_cast; ring
  rw [this]; ring

theorem ee_half {n h : Nat} (hn : n = 2 * h) (hp : 0 < n) (z : Nat) :
    ee n ((h : Int) * z) = (((-1 : ℝ) ^ z : ℝ) : ℂ) := by
  rw [ee_mul_nat]
  have : ee n (h : Int) = -1 := by
    unfold ee
    have h0 : (h : ℂ) ≠ 0 := by
      have : h ≠ 0 := by omega
      exact_mod_cast this
    have : (2 * Real.pi * I * ((h : Int) : ℂ) / n : ℂ) = Real.pi * I := by
      subst hn; push_cast; field_simp
    rw [this, exp_pi_mul_I]
  rw [this]; push_cast; rfl

/-- `irfft` as a sum of waves. -/
theorem irfft_isRow {n : Nat} (hn : 0 < n) (c : Nat → ℂ) (z : Nat) :
    irfft n c z
      = waves n (fun m => if m = 0 then (c 0).re else 2 * (c m).re)
          (fun m => -2 * (c m).im) z
        + sawtooth n (c (n / 2)).re z := by
  unfold irfft
  rw [c2r_ee]
  set g : Nat → ℂ := fun k => hermitian n c k * ee n ((k : Int) * z) with hg
  have hg0 : (g 0).re = (c 0).re := by
    simp [hg, hermitian, ee_zero]
  have hrefl : ∀ M, 2 * M < n → ∑ k ∈ Ico (n - M) n, g k = ∑ m ∈ Ico 1 (M + 1), g (n - m) := by
    intro M hM
    refine sum_nbij' (fun k => n - k) (fun m => n - m) ?_ ?_ ?_ ?_ ?_
    · intro k hk; rw [mem_Ico] at hk ⊢; omega
    · intro k hk; rw [mem_Ico] at hk ⊢; omega
    · intro k hk; rw [mem_Ico] at hk; omega
    · intro k hk; rw [mem_Ico] at hk; omega
    · intro k hk; rw [mem_Ico] at hk
      congr 1; omega
  have hpairs : ∀ M, 2 * M < n →
      (∑ k ∈ Ico 1 (M + 1), g k + ∑ k ∈ Ico (n - M) n, g k).re
        = ∑ m ∈ Ico 1 (M + 1), (2 * (c m).re * Real.cos (2 * Real.pi * m * z / n)
          + -2 * (c m).im * Real.sin (2 * Real.pi * m * z / n)) := by
    intro M hM
    rw [hrefl M hM, ← sum_add_distrib, re_sum]
    refine sum_congr rfl fun m hm => ?_
    rw [mem_Ico] at hm
    exact hermitian_pair hn c z m hm.1 (by omega)
  have hw : ∀ M, (n + 1) / 2 = M + 1 → 
      waves n (fun m => if m = 0 then (c 0).re else 2 * (c m).re)
          (fun m => -2 * (c m).im) z = (c 0).re +
      ∑ m ∈ Ico 1 (M + 1), (2 * (c m).re * Real.cos (2 * Real.pi * m * z / n)
          + -2 * (c m).im * Real.sin (2 * Real.pi * m * z / n)) := by
    intro M hM
    unfold waves
    dsimp only
    rw [hM, if_pos rfl]
    congr 1
    refine sum_congr rfl fun m hm => ?_
    rw [mem_Ico] at hm
    rw [if_neg (by omega)]
  rcases Nat.even_or_odd' n with ⟨h, he | ho⟩
  · have hM : (n + 1) / 2 = (h - 1) + 1 := by omega
    rw [hw _ hM, ← hpairs (h - 1) (by omega)]
    have hs : ∑ k ∈ range n, g k
        = g 0 + (∑ k ∈ Ico 1 (h - 1 + 1), g k + ∑ k ∈ Ico (n - (h - 1)) n, g k) + g h := by
      rw [range_eq_Ico, sum_eq_sum_Ico_succ_bot hn,
        ← sum_Ico_consecutive g (show 0 + 1 ≤ h by omega) (show h ≤ n by omega),
        sum_eq_sum_Ico_succ_bot (show h < n by omega)]
      rw [show n - (h - 1) = h + 1 by omega, show h - 1 + 1 = h by omega]
      ring
    have hgh : (g h).re = sawtooth n (c (n / 2)).re z := by
      unfold sawtooth
      rw [if_pos (by omega), show n / 2 = h by omega]
      simp only [hg, hermitian]
      rw [if_pos (Or.inr he.symm), ee_half he hn z, re_ofReal_mul, ofReal_re]
    rw [hs, add_re, add_re, hg0, hgh]
  · have hM : (n + 1) / 2 = h + 1 := by omega
    rw [hw _ hM, ← hpairs h (by omega)]
    have hs : ∑ k ∈ range n, g k
        = g 0 + (∑ k ∈ Ico 1 (h + 1), g k + ∑ k ∈ Ico (n - h) n, g k) := by
      rw [range_eq_Ico, sum_eq_sum_Ico_succ_bot hn,
        ← sum_Ico_consecutive g (show 0 + 1 ≤ h + 1 by omega) (show h + 1 ≤ n by omega),
        show n - h = h + 1 by omega]
    have hgh : sawtooth n (c (n / 2)).re z = 0 := by
      unfold sawtooth; rw [if_neg (by omega)]
    rw [hs, hgh, add_re, hg0, add_zero]

end Verif.Fourier
