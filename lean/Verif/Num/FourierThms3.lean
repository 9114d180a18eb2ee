import Verif.Num.FourierThms2

/-!
# C53 continued: sine transform, witnesses
-/

namespace Verif.Fourier

open Finset

theorem waves_sines {len : Nat} (h : 2 ≤ len) (b : Nat → ℝ) (t : ℝ) :
    waves (2 * (len - 1)) (fun _ => 0) b t = sines len b t := by
  unfold waves sines
  rw [show (2 * (len - 1) + 1) / 2 = len - 1 by omega, zero_add]
  refine sum_congr rfl fun m _ => ?_
  rw [zero_mul, zero_add]
  congr 2
  have : ((2 * (len - 1) : Nat) : ℝ) = 2 * ((len : ℝ) - 1) := by
    rw [Nat.cast_mul, Nat.cast_sub (by omega)]; norm_num
  rw [this, show 2 * Real.pi * m * t = 2 * (Real.pi * m * t) by ring,
    mul_div_mul_left _ _ (by norm_num : (2 : ℝ) ≠ 0)]

theorem waves_neg (n : Nat) (a b : Nat → ℝ) (t : ℝ) :
    waves n a b t - waves n a b (-t) = 2 * waves n (fun _ => 0) b t := by
  unfold waves
  rw [add_sub_add_left_eq_sub, ← sum_sub_distrib, zero_add, mul_sum]
  refine sum_congr rfl fun m _ => ?_
  rw [show (2 * Real.pi * m * -t / n : ℝ) = -(2 * Real.pi * m * t / n) by ring,
    Real.cos_neg, Real.sin_neg]
  ring

/-- The odd extension is made of sine waves. -/
theorem dstBuf_isRow {len : Nat} (h : 2 ≤ len) (f : Nat → ℝ) :
    ∃ b, IsRow (2 * (len - 1)) (dstBuf len f) (fun _ => 0) b 0 := by
  have hP : 0 < 2 * (len - 1) := by omega
  obtain ⟨a, b, N, hf⟩ := exists_isRow hP (dstBuf len f)
  refine ⟨b, fun z hz => ?_⟩
  have odd : dstBuf len f z = -(dstBuf len f ((2 * (len - 1) - z) % (2 * (len - 1)))) := by
    by_cases h0 : z = 0
    · subst h0; simp [dstBuf]
    · rw [Nat.mod_eq_of_lt (by omega)]
      unfold dstBuf
      by_cases h1 : z = len - 1
      · rw [if_pos (Or.inr h1), if_pos (Or.inr (by omega)), neg_zero]
      · rw [if_neg (by omega), if_neg (show ¬ (2 * (len - 1) - z = 0 ∨ 2 * (len - 1) - z = len - 1) by omega)]
        by_cases h2 : z < len - 1
        · rw [if_pos h2, if_neg (show ¬ (2 * (len - 1) - z < len - 1) by omega), neg_neg]
          congr 1; omega
        · rw [if_neg h2, if_pos (show 2 * (len - 1) - z < len - 1 by omega)]
  set w := (2 * (len - 1) - z) % (2 * (len - 1)) with hw
  have hwlt : w < 2 * (len - 1) := Nat.mod_lt _ hP
  have e1 := hf z hz
  have e2 := hf w hwlt
  have hwave : waves (2 * (len - 1)) a b w = waves (2 * (len - 1)) a b (-z) := by
    by_cases h0 : z = 0
    · have : w = 0 := by rw [hw, h0]; simp
      rw [this, h0]; simp
    · have : w = 2 * (len - 1) - z := Nat.mod_eq_of_lt (by omega)
      rw [← waves_periodic _ hP a b (-z) 1, this, Nat.cast_sub (by omega)]
      congr 1; push_cast; ring
  have hsaw : sawtooth (2 * (len - 1)) N w = sawtooth (2 * (len - 1)) N z := by
    unfold sawtooth
    rw [if_pos (by omega), if_pos (by omega)]
    congr 1
    by_cases h0 : z = 0
    · have : w = 0 := by rw [hw, h0]; simp
      rw [this, h0]
    · have : w = 2 * (len - 1) - z := Nat.mod_eq_of_lt (by omega)
      rcases Nat.even_or_odd z with he | ho
      · rw [he.neg_one_pow]
        apply Even.neg_one_pow
        obtain ⟨k, hk⟩ := he
        exact ⟨len - 1 - k, by omega⟩
      · rw [ho.neg_one_pow]
        apply Odd.neg_one_pow
        obtain ⟨k, hk⟩ := ho
        exact ⟨len - 1 - k - 1, by omega⟩
  have hn := waves_neg (2 * (len - 1)) a b z
  have hs0 : sawtooth (2 * (len - 1)) 0 z = 0 := by unfold sawtooth; split_ifs <;> simp
  rw [hs0]
  linarith

/-- `DST` of a row gives the amplitudes of its sine waves. -/
theorem dst_of_isRow {len : Nat} (f b : Nat → ℝ)
    (hf : IsRow (2 * (len - 1)) (dstBuf len f) (fun _ => 0) b 0) (i : Nat) (h1 : 1 ≤ i)
    (h2 : i < len - 1) : dst len f i = b i := by
  have hP : 0 < 2 * (len - 1) := by omega
  have hr := rfft_of_isRow hP hf i (by omega)
  rw [if_neg (by omega), if_neg (by omega)] at hr
  unfold rfft at hr
  unfold dst
  rw [if_neg (by omega)]
  have him := congrArg Complex.im hr
  rw [mul_comm, Complex.im_ofReal_mul] at him
  have hc : ((2 * (len - 1) : Nat) : ℝ) = 2 * ((len : ℝ) - 1) := by
    rw [Nat.cast_mul, Nat.cast_sub (by omega)]; norm_num
  have hpos : (len : ℝ) - 1 ≠ 0 := by
    have : (2 : ℝ) < len := by exact_mod_cast (show 2 < len by omega)
    intro h; linarith
  rw [hc] at him
  dsimp only at him
  field_simp at him ⊢
  linarith

theorem dstRev_eq {len : Nat} (c : Nat → ℝ) (i : Nat) (h1 : 1 ≤ i) (h2 : i < len - 1) :
    dstRev len c i = sines len c i := by
  have hP : 0 < 2 * (len - 1) := by omega
  unfold dstRev
  rw [if_neg (by omega)]
  have := irfft_isRow hP (dstRevBuf len c) i
  unfold irfft at this
  rw [this, ← waves_sines (by omega)]
  have hs : sawtooth (2 * (len - 1)) (dstRevBuf len c (2 * (len - 1) / 2)).re i = 0 := by
    rw [show 2 * (len - 1) / 2 = len - 1 by omega]
    unfold dstRevBuf sawtooth
    simp
  rw [hs, add_zero]
  apply waves_congr
  · simp [dstRevBuf]
  · intro m hm1 hm2
    have e : dstRevBuf len c m = ⟨0, -(c m) / 2⟩ := by
      unfold dstRevBuf; rw [if_neg (by omega), if_pos (by omega)]
    rw [if_neg (by omega), e]
    constructor <;> ring

/-- **Sine transform.**  `DST_rev` builds the sum of sines with the given amplitudes
at the interior points and zero at both ends. -/
theorem C53_dst_rev_sines (len : Nat) (c : Nat → ℝ) (i : Nat) :
    (1 ≤ i → i < len - 1 → dstRev len c i = sines len c i)
      ∧ dstRev len c 0 = 0 ∧ dstRev len c (len - 1) = 0 := by
  refine ⟨dstRev_eq c i, ?_, ?_⟩
  · unfold dstRev; rw [if_pos (Or.inl rfl)]
  · unfold dstRev; rw [if_pos (Or.inr rfl)]

/-- `DST` followed by `DST_rev` gives back the interior points of the row. -/
theorem C53_dst_roundtrip (len : Nat) (f : Nat → ℝ) (i : Nat) (h1 : 1 ≤ i) (h2 : i < len - 1) :
    dstRev len (dst len f) i = f i := by
  obtain ⟨b, hb⟩ := dstBuf_isRow (show 2 ≤ len by omega) f
  have hs : sines len (dst len f) i = sines len b i := by
    unfold sines
    refine sum_congr rfl fun m hm => ?_
    rw [mem_Ico] at hm
    rw [dst_of_isRow f b hb m hm.1 hm.2]
  have hi := hb i (by omega)
  have hs0 : sawtooth (2 * (len - 1)) 0 i = 0 := by unfold sawtooth; split_ifs <;> simp
  rw [dstRev_eq _ i h1 h2, hs, ← waves_sines (by omega)]
  rw [hs0, add_zero] at hi
  rw [← hi]
  unfold dstBuf
  rw [if_neg (by omega), if_pos h2]

/-- `DST` reads off the amplitudes of a row of sines: it undoes `DST_rev`. -/
theorem C53_dst_of_sines (len : Nat) (f c : Nat → ℝ)
    (hf : ∀ i, 1 ≤ i → i < len - 1 → f i = sines len c i) (m : Nat) (h1 : 1 ≤ m)
    (h2 : m < len - 1) : dst len f m = c m := by
  refine dst_of_isRow f c (fun z hz => ?_) m h1 h2
  have hP : 0 < 2 * (len - 1) := by omega
  have hs0 : sawtooth (2 * (len - 1)) 0 z = 0 := by unfold sawtooth; split_ifs <;> simp
  rw [hs0, add_zero]
  have hc : ((2 * (len - 1) : Nat) : ℝ) = 2 * ((len : ℝ) - 1) := by
    rw [Nat.cast_mul, Nat.cast_sub (by omega)]; norm_num
  have hpos : (len : ℝ) - 1 ≠ 0 := by
    have : (2 : ℝ) < len := by exact_mod_cast (show 2 < len by omega)
    intro h; linarith
  unfold dstBuf
  by_cases h0 : z = 0 ∨ z = len - 1
  · rw [if_pos h0, waves_sines (by omega)]
    unfold sines
    refine (sum_eq_zero fun k _ => ?_).symm
    rcases h0 with h0 | h0
    · subst h0; simp
    · subst h0
      rw [Nat.cast_sub (by omega), Nat.cast_one, mul_div_assoc, div_self hpos, mul_one,
        mul_comm Real.pi, Real.sin_nat_mul_pi, mul_zero]
  · rw [if_neg h0]
    by_cases h3 : z < len - 1
    · rw [if_pos h3, hf z (by omega) h3, waves_sines (by omega)]
    · rw [if_neg h3, hf _ (by omega) (by omega), ← waves_sines (by omega)]
      have e : (((2 * (len - 1) - z : Nat)) : ℝ) = -(z : ℝ) + (1 : Int) * ((2 * (len - 1) : Nat) : ℝ) := by
        rw [Nat.cast_sub (by omega)]; push_cast; ring
      rw [e, waves_periodic _ hP]
      have := waves_neg (2 * (len - 1)) (fun _ => 0) c z
      linarith

/-! ## Which slice cells are written, and witnesses -/

/-- `calcParallelSlices` writes exactly the rows `y + off` above and below the points
off the Y guard cells, and nothing for a field-aligned field. -/
theorem C53_slice_written (m : ShiftedMetric) (f : ZField) (off x y : Int) (z : Nat) :
    (m.slice f off x y z).isSome = true ↔
      f.aligned = false ∧ off ≠ 0 ∧ -m.ystart ≤ off ∧ off ≤ m.ystart ∧ 0 ≤ x ∧ x < m.xsize
        ∧ m.ystart ≤ y - off ∧ y - off ≤ m.yend := by
  unfold ShiftedMetric.slice
  cases hA : f.aligned
  · rw [if_neg (by simp)]
    by_cases h : off ∈ m.offsets ∧ 0 ≤ x ∧ x < m.xsize ∧ m.ystart ≤ y - off ∧ y - off ≤ m.yend
    · rw [if_pos h]
      have := (mem_offsets m off).1 h.1
      simp only [Option.isSome_some, true_iff]
      exact ⟨trivial, this.1, this.2.1, this.2.2, h.2⟩
    · rw [if_neg h]
      simp only [Option.isSome_none, Bool.false_eq_true, false_iff]
      rintro ⟨_, h1, h2, h3, h4⟩
      exact h ⟨(mem_offsets m off).2 ⟨h1, h2, h3⟩, h4⟩
  · simp

/-- A mesh with two points in Z and a shift of a quarter turn everywhere. -/
noncomputable def exMetric : ShiftedMetric where
  nz := 2
  zlength := 2 * Real.pi
  zShift := fun _ _ => Real.pi / 2
  xsize := 1
  ystart := 1
  yend := 2

/-- The sawtooth field `1, -1`. -/
noncomputable def exField : ZField := ⟨fun _ _ z => (-1) ^ z, false⟩

theorem exField_isRow (x y : Int) : IsRow 2 (exField.vals x y) (fun _ => 0) (fun _ => 0) 1 := by
  intro z _
  simp [exField, waves, sawtooth]

/-- With an even number of points the round trip through field-aligned coordinates
is not the identity: the sawtooth `1, -1` shifted by a quarter turn comes back as
`0, 0`. -/
theorem C53_aligned_roundtrip_violated :
    ∃ g h, exMetric.toFieldAligned exField = some g ∧ exMetric.fromFieldAligned g = some h
      ∧ exField.vals 0 1 0 = 1 ∧ h.vals 0 1 0 = 0 := by
  obtain ⟨g, hg, hga, _⟩ := C53_toFieldAligned exMetric (by decide) exField rfl
    (fun _ _ _ => 0) (fun _ _ _ => 0) (fun _ _ => 1) exField_isRow
  obtain ⟨h, hh⟩ : ∃ h, exMetric.fromFieldAligned g = some h := by
    unfold ShiftedMetric.fromFieldAligned
    rw [if_pos hga]; exact ⟨_, rfl⟩
  refine ⟨g, h, hg, hh, by simp [exField], ?_⟩
  rw [C53_aligned_roundtrip exMetric (by decide) exField g h hg hh 0 1 _ _ 1 (exField_isRow 0 1) 0
    (by decide)]
  have e : Real.pi * ((exMetric.nz : Nat) : ℝ) * exMetric.zShift 0 1 / exMetric.zlength
      = Real.pi / 2 := by
    simp only [exMetric]
    have := Real.pi_ne_zero
    push_cast
    field_simp
  rw [e, Real.cos_pi_div_two]
  simp [waves, sawtooth]

/-- A row of five points which is not a plain constant: `1 + 2 cos(2πz/5)`. -/
example : IsRow 5 (fun z => 1 + 2 * Real.cos (2 * Real.pi * z / 5))
    (fun m => if m = 0 then 1 else if m = 1 then 2 else 0) (fun _ => 0) 0 := by
  intro z _
  unfold waves sawtooth
  rw [show (5 + 1) / 2 = 3 by norm_num, sum_Ico_succ_top (by norm_num), sum_Ico_succ_top (by norm_num)]
  simp

/-- The hypotheses of the slice theorem are met on the example mesh. -/
example : (exMetric.slice exField 1 0 2 1).isSome = true := by
  rw [C53_slice_written]
  simp [exField, exMetric]

end Verif.Fourier
