import Verif.Num.FourierThms
import Mathlib.Tactic.NormNum.OfScientific

/-!
# C53 continued: field-aligned transforms, filters, spectral derivatives, sine transform
-/

namespace Verif.Fourier

open Finset

/-! ## ShiftedMetric -/

/-- One row shifted with either phase, as a row of waves. -/
theorem shiftRow_isRow {n : Nat} (hn : 0 < n) {f a b : Nat → ℝ} {N : ℝ} (hf : IsRow n f a b N)
    (L s : ℝ) :
    ∃ a' b', IsRow n (shiftRow n (fun jz => phasePlus (kwave L jz * s)) f) a' b'
        (N * Real.cos (Real.pi * n * s / L))
      ∧ ∀ t, waves n a' b' t = waves n a b (t + s * n / L) := by
  have hn' : (n : ℝ) ≠ 0 := by exact_mod_cast hn.ne'
  have hx : ∀ m : Nat, kwave L m * -s = 2 * Real.pi * m * (-s * n / L) / n := by
    intro m; unfold kwave; field_simp
  refine ⟨_, _, fun z hz => ?_,
    fun t => (waves_shift n hn a b (fun m => kwave L m * (-s)) (-s * n / L) t hx).trans ?_⟩
  · rw [shiftRow_plus hn hf L s z]
    congr 1
    rw [waves_shift n hn a b (fun m => kwave L m * (-s)) (-s * n / L) z hx]
    congr 1; ring
  · congr 1; ring

theorem isRow_one (f : Nat → ℝ) {a b : Nat → ℝ} {N : ℝ} (hf : IsRow 1 f a b N) : f 0 = a 0 := by
  rw [hf 0 (by omega)]; simp [waves, sawtooth]

/-- **To field-aligned coordinates.**  The value at `(x, y, z)` is the value of the
waves of the row `(x, y)` at `z + zShift(x,y)`. -/
theorem C53_toFieldAligned (m : ShiftedMetric) (hn : 0 < m.nz) (f : ZField)
    (hdir : f.aligned = false) (a b : Int → Int → Nat → ℝ) (N : Int → Int → ℝ)
    (hf : ∀ x y, IsRow m.nz (f.vals x y) (a x y) (b x y) (N x y)) :
    ∃ g, m.toFieldAligned f = some g ∧ g.aligned = true ∧ ∀ x y z, z < m.nz →
      g.vals x y z = waves m.nz (a x y) (b x y) (z + m.zShift x y * m.nz / m.zlength)
        + sawtooth m.nz (N x y * Real.cos (Real.pi * m.nz * m.zShift x y / m.zlength)) z := by
  refine ⟨m.shiftField f m.toPhs true, ?_, ?_, ?_⟩
  · unfold ShiftedMetric.toFieldAligned; rw [hdir]; rfl
  · unfold ShiftedMetric.shiftField; split_ifs <;> rfl
  · intro x y z hz
    unfold ShiftedMetric.shiftField
    split_ifs with h1
    · have hz0 : z = 0 := by omega
      subst hz0
      have := hf x y
      rw [h1] at this ⊢
      dsimp only
      rw [isRow_one _ this]; simp [waves, sawtooth]
    · exact shiftRow_plus hn (hf x y) m.zlength (m.zShift x y) z

/-- **From field-aligned coordinates**: the waves are read at `z - zShift(x,y)`. -/
theorem C53_fromFieldAligned (m : ShiftedMetric) (hn : 0 < m.nz) (f : ZField)
    (hdir : f.aligned = true) (a b : Int → Int → Nat → ℝ) (N : Int → Int → ℝ)
    (hf : ∀ x y, IsRow m.nz (f.vals x y) (a x y) (b x y) (N x y)) :
    ∃ g, m.fromFieldAligned f = some g ∧ g.aligned = false ∧ ∀ x y z, z < m.nz →
      g.vals x y z = waves m.nz (a x y) (b x y) (z - m.zShift x y * m.nz / m.zlength)
        + sawtooth m.nz (N x y * Real.cos (Real.pi * m.nz * m.zShift x y / m.zlength)) z := by
  refine ⟨m.shiftField f m.fromPhs false, ?_, ?_, ?_⟩
  · unfold ShiftedMetric.fromFieldAligned; rw [hdir]; rfl
  · unfold ShiftedMetric.shiftField; split_ifs <;> rfl
  · intro x y z hz
    unfold ShiftedMetric.shiftField
    split_ifs with h1
    · have hz0 : z = 0 := by omega
      subst hz0
      have := hf x y
      rw [h1] at this ⊢
      dsimp only
      rw [isRow_one _ this]; simp [waves, sawtooth]
    · exact shiftRow_minus hn (hf x y) m.zlength (m.zShift x y) z

/-- The transforms refuse a field of the wrong direction type. -/
theorem C53_direction_checked (m : ShiftedMetric) (f : ZField) :
    (m.toFieldAligned f = none ↔ f.aligned = true)
      ∧ (m.fromFieldAligned f = none ↔ f.aligned = false) := by
  unfold ShiftedMetric.toFieldAligned ShiftedMetric.fromFieldAligned
  cases f.aligned <;> simp

/-- Rows of a field taken to aligned coordinates. -/
theorem toFieldAligned_rows (m : ShiftedMetric) (hn : 0 < m.nz) (f g : ZField)
    (hg : m.toFieldAligned f = some g) (x y : Int) (a b : Nat → ℝ) (N : ℝ)
    (hf : IsRow m.nz (f.vals x y) a b N) :
    ∃ a' b', IsRow m.nz (g.vals x y) a' b'
        (N * Real.cos (Real.pi * m.nz * m.zShift x y / m.zlength))
      ∧ ∀ t, waves m.nz a' b' t = waves m.nz a b (t + m.zShift x y * m.nz / m.zlength) := by
  unfold ShiftedMetric.toFieldAligned at hg
  split_ifs at hg with hd
  obtain rfl := Option.some.inj hg
  unfold ShiftedMetric.shiftField
  split_ifs with h1
  · refine ⟨a, b, ?_, ?_⟩
    · intro z hz
      dsimp only
      rw [hf z hz]; simp [h1, sawtooth]
    · intro t; rw [h1]; simp [waves]
  · exact shiftRow_isRow hn hf m.zlength (m.zShift x y)

/-- Forth and back: exact on the waves; the sawtooth of an even number of points
comes back multiplied by the squared cosine of its phase. -/
theorem C53_aligned_roundtrip (m : ShiftedMetric) (hn : 0 < m.nz) (f g h : ZField)
    (hg : m.toFieldAligned f = some g) (hh : m.fromFieldAligned g = some h)
    (x y : Int) (a b : Nat → ℝ) (N : ℝ) (hf : IsRow m.nz (f.vals x y) a b N)
    (z : Nat) (hz : z < m.nz) :
    h.vals x y z = waves m.nz a b z
      + sawtooth m.nz (N * Real.cos (Real.pi * m.nz * m.zShift x y / m.zlength) ^ 2) z := by
  obtain ⟨a', b', h1, h2⟩ := toFieldAligned_rows m hn f g hg x y a b N hf
  unfold ShiftedMetric.fromFieldAligned at hh
  split_ifs at hh with hd
  obtain rfl := Option.some.inj hh
  unfold ShiftedMetric.shiftField
  split_ifs with hz1
  · have hz0 : z = 0 := by omega
    subst hz0
    dsimp only
    rw [h1 0 (by omega), h2]
    rw [hz1]; simp [waves, sawtooth]
  · have := shiftRow_minus hn h1 m.zlength (m.zShift x y) z
    refine this.trans ?_
    rw [h2]
    congr 2 <;> ring

/-- `fromFieldAligned(toFieldAligned(f)) == f` exactly, for an odd number of points
in Z, or when the field has no sawtooth component. -/
theorem C53_aligned_roundtrip_exact (m : ShiftedMetric) (hn : 0 < m.nz) (f g h : ZField)
    (hg : m.toFieldAligned f = some g) (hh : m.fromFieldAligned g = some h)
    (x y : Int) (hodd : m.nz % 2 = 1 ∨ ∃ a b, IsRow m.nz (f.vals x y) a b 0)
    (z : Nat) (hz : z < m.nz) :
    h.vals x y z = f.vals x y z := by
  rcases hodd with ho | ⟨a, b, hf⟩
  · obtain ⟨a, b, N, hf⟩ := exists_isRow hn (f.vals x y)
    rw [C53_aligned_roundtrip m hn f g h hg hh x y a b N hf z hz, hf z hz]
    unfold sawtooth; rw [if_neg (by omega), if_neg (by omega)]
  · rw [C53_aligned_roundtrip m hn f g h hg hh x y a b 0 hf z hz, hf z hz, zero_mul]

theorem mem_offsets (m : ShiftedMetric) (off : Int) :
    off ∈ m.offsets ↔ off ≠ 0 ∧ -m.ystart ≤ off ∧ off ≤ m.ystart := by
  unfold ShiftedMetric.offsets
  simp only [List.mem_append, List.mem_map, List.mem_range]
  constructor
  · rintro (⟨i, h1, rfl⟩ | ⟨i, h1, rfl⟩) <;> omega
  · rintro ⟨h0, h1, h2⟩
    rcases lt_or_gt_of_ne h0 with h | h
    · right; exact ⟨(-off - 1).toNat, by omega, by omega⟩
    · left; exact ⟨(off - 1).toNat, by omega, by omega⟩

/-- **Parallel slices.**  For every grid point `(x, y)` off the Y guard cells and
every offset up to the number of Y guard cells, the slice holds at
`(x, y + off, z)` the value of the field in row `(x, y + off)` on the field line
through `(x, y, z)`: the waves of that row read at
`z - (zShift(x,y) - zShift(x,y+off))`. -/
theorem C53_parallel_slice (m : ShiftedMetric) (hn : 0 < m.nz) (f : ZField)
    (hdir : f.aligned = false) (x y off : Int) (hx : 0 ≤ x ∧ x < m.xsize)
    (hy : m.ystart ≤ y ∧ y ≤ m.yend) (ho : off ≠ 0 ∧ -m.ystart ≤ off ∧ off ≤ m.ystart)
    (a b : Nat → ℝ) (N : ℝ) (hf : IsRow m.nz (f.vals x (y + off)) a b N) (z : Nat) :
    m.slice f off x (y + off) z = some
      (waves m.nz a b (z - (m.zShift x y - m.zShift x (y + off)) * m.nz / m.zlength)
        + sawtooth m.nz
          (N * Real.cos (Real.pi * m.nz * (m.zShift x y - m.zShift x (y + off)) / m.zlength)) z) := by
  unfold ShiftedMetric.slice
  rw [hdir, if_neg (by simp), add_sub_cancel_right,
    if_pos ⟨(mem_offsets m off).2 ho, hx.1, hx.2, hy.1, hy.2⟩]
  congr 1
  exact shiftRow_minus hn hf m.zlength (m.zShift x y - m.zShift x (y + off)) z

/-- A slice is what one gets by taking the field to aligned coordinates, stepping
along `y`, and coming back at the starting point: for an odd number of points in Z
or a field without sawtooth. -/
theorem C53_slice_is_aligned_neighbour (m : ShiftedMetric) (hn : 1 < m.nz) (f g : ZField)
    (hg : m.toFieldAligned f = some g) (x y off : Int) (hx : 0 ≤ x ∧ x < m.xsize)
    (hy : m.ystart ≤ y ∧ y ≤ m.yend) (ho : off ≠ 0 ∧ -m.ystart ≤ off ∧ off ≤ m.ystart)
    (hodd : m.nz % 2 = 1 ∨ ∃ a b, IsRow m.nz (f.vals x (y + off)) a b 0)
    (z : Nat) (hz : z < m.nz) :
    m.slice f off x (y + off) z
      = some (shiftRow m.nz (m.fromPhs x y) (g.vals x (y + off)) z) := by
  have hn0 : 0 < m.nz := by omega
  have hdir : f.aligned = false := by
    unfold ShiftedMetric.toFieldAligned at hg
    cases h : f.aligned
    · rfl
    · rw [h] at hg; simp at hg
  have main : ∀ a b N, IsRow m.nz (f.vals x (y + off)) a b N → (m.nz % 2 = 1 ∨ N = 0) →
      m.slice f off x (y + off) z
        = some (shiftRow m.nz (m.fromPhs x y) (g.vals x (y + off)) z) := by
    intro a b N hf hN
    obtain ⟨a', b', h1, h2⟩ := toFieldAligned_rows m hn0 f g hg x (y + off) a b N hf
    rw [C53_parallel_slice m hn0 f hdir x y off hx hy ho a b N hf z]
    congr 1
    have := shiftRow_minus hn0 h1 m.zlength (m.zShift x y) z
    refine Eq.trans ?_ this.symm
    rw [h2]
    congr 1
    · congr 1; ring
    · rcases hN with h | h
      · unfold sawtooth; rw [if_neg (by omega), if_neg (by omega)]
      · subst h; simp
  rcases hodd with h | ⟨a, b, hf⟩
  · obtain ⟨a, b, N, hf⟩ := exists_isRow hn0 (f.vals x (y + off))
    exact main a b N hf (Or.inl h)
  · exact main a b 0 hf (Or.inr rfl)

/-! ## Filters -/

theorem mult_real {n : Nat} (hn : 0 < n) {f a b : Nat → ℝ} {N : ℝ} (hf : IsRow n f a b N)
    (c : Nat → ℂ) (P : Nat → Prop) [DecidablePred P]
    (hc : ∀ k, 2 * k ≤ n → c k = if P k then rfft n f k else 0) (z : Nat) :
    irfft n c z = waves n (keep P a) (keep P b) z
      + sawtooth n (if P (n / 2) then N else 0) z := by
  rw [mult_isRow hn hf c (fun k => if P k then 1 else 0)]
  · congr 1
    · apply waves_congr
      · unfold keep; split_ifs <;> simp
      · intro m h1 _
        unfold keep
        rw [if_neg (by omega)]
        split_ifs <;> simp
    · apply sawtooth_congr
      intro _
      split_ifs <;> simp
  · intro k hk
    rw [hc k hk]
    split_ifs <;> simp

/-- `filter(f, N0)` keeps exactly the waves of wave number `N0` (for `2*N0 = n` the
sawtooth), for every `N0`. -/
theorem C53_filter (n : Nat) (hn : 0 < n) (f a b : Nat → ℝ) (N : ℝ) (hf : IsRow n f a b N)
    (N0 : Int) (z : Nat) :
    filterRow n N0 f z
      = waves n (keep (fun m => (m : Int) = N0) a) (keep (fun m => (m : Int) = N0) b) z
        + sawtooth n (if 2 * N0 = n then N else 0) z := by
  unfold filterRow
  rw [mult_real hn hf _ (fun m => (m : Int) = N0)]
  · congr 1
    apply sawtooth_congr
    intro h2
    split_ifs <;> first | rfl | omega
  · intro k _
    by_cases h : (k : Int) = N0
    · rw [if_neg (by simpa using h), if_pos h]
    · rw [if_pos h, if_neg h]

/-- `lowPass(f, zmax, keep_zonal)` with `zmax ≥ 0` keeps exactly the waves of wave
number at most `zmax`, the mean only if asked. -/
theorem C53_lowPass (n : Nat) (hn : 0 < n) (f a b : Nat → ℝ) (N : ℝ) (hf : IsRow n f a b N)
    (zmax : Int) (h0 : 0 ≤ zmax) (kz : Bool) :
    ∃ g, lowPassRow n zmax kz f = some g ∧ ∀ z, z < n →
      g z = waves n (keep (fun m => (m : Int) ≤ zmax ∧ (m = 0 → kz = true)) a)
          (keep (fun m => (m : Int) ≤ zmax ∧ (m = 0 → kz = true)) b) z
        + sawtooth n (if (n : Int) ≤ 2 * zmax then N else 0) z := by
  unfold lowPassRow
  by_cases hc : ((((n / 2 : Nat) : Int) ≤ zmax ∨ zmax < 0) ∧ kz = true)
  · rw [if_pos hc]
    refine ⟨f, rfl, fun z hz => ?_⟩
    rw [hf z hz]
    congr 1
    · apply waves_congr
      · unfold keep; rw [if_pos ⟨by omega, fun _ => hc.2⟩]
      · intro m h1 h2
        unfold keep
        have : (m : Int) ≤ zmax ∧ (m = 0 → kz = true) := ⟨by omega, fun _ => hc.2⟩
        rw [if_pos this, if_pos this]; exact ⟨rfl, rfl⟩
    · apply sawtooth_congr
      intro h2
      rw [if_pos (by omega)]
  · rw [if_neg hc, if_neg (by omega)]
    refine ⟨_, rfl, fun z hz => ?_⟩
    rw [mult_real hn hf _ (fun m => (m : Int) ≤ zmax ∧ (m = 0 → kz = true))]
    · congr 1
      apply sawtooth_congr
      intro h2
      by_cases h3 : (n : Int) ≤ 2 * zmax
      · rw [if_pos h3, if_pos ⟨by omega, fun h => by omega⟩]
      · rw [if_neg h3, if_neg (fun h => by omega)]
    · intro k _
      by_cases h1 : kz = false ∧ k = 0
      · rw [if_pos h1, if_neg (fun h => by simp [h1.1] at h; exact h.2 h1.2)]
      · rw [if_neg h1]
        have hkz : k = 0 → kz = true := fun h => by
          cases hk' : kz
          · exact absurd ⟨hk', h⟩ h1
          · rfl
        by_cases h2 : zmax + 1 ≤ (k : Int)
        · rw [if_pos h2, if_neg (fun h => by omega)]
        · rw [if_neg h2, if_pos ⟨by omega, hkz⟩]

/-- A negative `zmax` means "no limit" when the zonal mode is kept… -/
theorem C53_lowPass_negative_keep (n : Nat) (f : Nat → ℝ) (zmax : Int) (h : zmax < 0) :
    lowPassRow n zmax true f = some f := by
  unfold lowPassRow; rw [if_pos ⟨Or.inr h, rfl⟩]

/-- … but without the zonal mode `zmax = -1` removes everything, and any smaller
`zmax` makes the loop write before the start of the coefficient array. -/
theorem C53_lowPass_negative_violated (n : Nat) (hn : 0 < n) (f : Nat → ℝ) :
    (∃ g, lowPassRow n (-1) false f = some g ∧ ∀ z, z < n → g z = 0)
      ∧ ∀ zmax : Int, zmax < -1 → lowPassRow n zmax false f = none := by
  constructor
  · unfold lowPassRow
    rw [if_neg (by simp), if_neg (by omega)]
    refine ⟨_, rfl, fun z hz => ?_⟩
    have hc : (fun jz : Nat => if false = false ∧ jz = 0 then (0 : ℂ)
        else if (-1 : Int) + 1 ≤ (jz : Int) then 0 else rfft n f jz) = fun _ => 0 := by
      funext jz
      by_cases h : jz = 0
      · rw [if_pos ⟨rfl, h⟩]
      · rw [if_neg (fun h' => h h'.2), if_pos (by omega)]
    rw [hc, irfft_isRow hn]
    simp [waves, sawtooth]
  · intro zmax h
    unfold lowPassRow
    rw [if_neg (by simp), if_pos (by omega)]

/-! ## Spectral derivatives -/

/-- Number of wave numbers removed by `fft_derivs_filter`. -/
theorem kfilter_spec (n : Nat) (filt : ℝ) :
    0 ≤ kfilter n filt ∧ kfilter n filt ≤ ((n / 2 : Nat) : Int)
      ∧ (filt ≤ 0 → kfilter n filt = 0)
      ∧ (0 ≤ filt → filt ≤ 1 → kfilter n filt = ⌊filt * n / 2⌋) := by
  unfold kfilter
  dsimp only
  refine ⟨?_, ?_, ?_, ?_⟩
  · split_ifs <;> omega
  · split_ifs <;> omega
  · intro h
    by_cases h0 : 0 ≤ filt * n / 2
    · have : filt * n / 2 ≤ 0 := by
        have : filt * n ≤ 0 := mul_nonpos_of_nonpos_of_nonneg h (Nat.cast_nonneg n)
        linarith
      have e : filt * n / 2 = 0 := le_antisymm this h0
      rw [e, Int.floor_zero, Int.ceil_zero, ite_self]
      rw [if_neg (lt_irrefl 0), if_neg (by omega)]
    · rw [if_neg h0]
      have : ⌈filt * n / 2⌉ ≤ 0 := Int.ceil_le.2 (by push_cast; linarith [not_le.1 h0])
      split_ifs <;> omega
  · intro h1 h2
    have h0 : 0 ≤ filt * n / 2 := by
      have : 0 ≤ filt * n := mul_nonneg h1 (Nat.cast_nonneg n)
      linarith
    rw [if_pos h0]
    have hf0 : 0 ≤ ⌊filt * n / 2⌋ := Int.floor_nonneg.2 h0
    have hf1 : ⌊filt * n / 2⌋ ≤ ((n / 2 : Nat) : Int) := by
      have : ⌊filt * n / 2⌋ ≤ ⌊(n : ℝ) / 2⌋ := by
        apply Int.floor_le_floor
        have : filt * n ≤ 1 * n := mul_le_mul_of_nonneg_right h2 (Nat.cast_nonneg n)
        linarith
      have e : ⌊(n : ℝ) / 2⌋ = ((n / 2 : Nat) : Int) := by
        have := Int.floor_div_natCast (n : ℝ) 2
        rw [Int.floor_natCast] at this
        rw [show ((2 : Nat) : ℝ) = 2 by norm_num] at this
        rw [this]; omega
      omega
    split_ifs <;> omega

theorem hasDerivAt_waves (n : Nat) (a b : Nat → ℝ) (t : ℝ) :
    HasDerivAt (waves n a b)
      (waves n (fun m => if m = 0 then 0 else b m * (m * (2 * Real.pi / n)))
        (fun m => -(a m) * (m * (2 * Real.pi / n))) t) t := by
  unfold waves
  dsimp only
  rw [if_pos rfl, zero_add]
  refine HasDerivAt.const_add (a 0) ?_
  apply HasDerivAt.fun_sum
  intro m hm
  rw [mem_Ico] at hm
  rw [if_neg (by omega)]
  have hlin : HasDerivAt (fun t : ℝ => 2 * Real.pi * m * t / n) (m * (2 * Real.pi / n)) t := by
    have := ((hasDerivAt_id' t).const_mul (2 * Real.pi * m)).div_const (n : ℝ)
    exact this.congr_deriv (by ring)
  have h1 := (hlin.cos).const_mul (a m)
  have h2 := (hlin.sin).const_mul (b m)
  exact (h1.fun_add h2).congr_deriv (by ring)

theorem fftDeriv_eq {n : Nat} (hn : 0 < n) {f a b : Nat → ℝ} {N : ℝ} (hf : IsRow n f a b N)
    (filt : ℝ) (z : Nat) :
    fftDeriv n filt f z
      = waves n
          (fun m => if m = 0 then 0
            else keep (fun m => (m : Int) ≤ ((n / 2 : Nat) : Int) - kfilter n filt) b m
              * (m * (2 * Real.pi / n)))
          (fun m => -(keep (fun m => (m : Int) ≤ ((n / 2 : Nat) : Int) - kfilter n filt) a m)
              * (m * (2 * Real.pi / n))) z := by
  unfold fftDeriv
  rw [mult_isRow hn hf _ (fun jz => if (jz : Int) ≤ ((n / 2 : Nat) : Int) - kfilter n filt
    then ⟨0, (jz : ℝ) * (2 * Real.pi / n)⟩ else 0)]
  · have : ∀ w, sawtooth n (N * (if ((n / 2 : Nat) : Int) ≤ ((n / 2 : Nat) : Int) - kfilter n filt
        then (⟨0, ((n / 2 : Nat) : ℝ) * (2 * Real.pi / n)⟩ : ℂ) else 0).re) w = 0 := by
      intro w
      unfold sawtooth
      split_ifs <;> simp
    rw [this, add_zero]
    apply waves_congr
    · rw [if_pos rfl, if_pos rfl]
      split_ifs <;> simp
    · intro m h1 _
      unfold keep
      rw [if_neg (show ¬ m = 0 by omega), if_neg (show ¬ m = 0 by omega)]
      split_ifs <;> simp
  · intro k _
    split_ifs <;> simp

/-- **First derivative.**  Without filtering the `FFT` method returns the exact
derivative of the waves through the points; the sawtooth contributes nothing. -/
theorem C53_fft_derivative (n : Nat) (hn : 0 < n) (f a b : Nat → ℝ) (N : ℝ)
    (hf : IsRow n f a b N) (filt : ℝ) (hfilt : filt ≤ 0) (z : Nat) :
    HasDerivAt (waves n a b) (fftDeriv n filt f z) z := by
  rw [fftDeriv_eq hn hf, (kfilter_spec n filt).2.2.1 hfilt]
  refine (hasDerivAt_waves n a b z).congr_deriv ?_
  apply waves_congr
  · rfl
  · intro m h1 h2
    unfold keep
    rw [if_neg (by omega), if_neg (by omega), if_pos (show (m : Int) ≤ ((n / 2 : Nat) : Int) - 0 by omega),
      if_pos (show (m : Int) ≤ ((n / 2 : Nat) : Int) - 0 by omega)]
    exact ⟨rfl, rfl⟩

/-- With `fft_derivs_filter` a fraction in `[0, 1]`, the method returns the exact
derivative of the waves up to wave number `n/2 - ⌊filter*n/2⌋`; the waves above it
are dropped. -/
theorem C53_fft_derivative_filtered (n : Nat) (hn : 0 < n) (f a b : Nat → ℝ) (N : ℝ)
    (hf : IsRow n f a b N) (filt : ℝ) (h0 : 0 ≤ filt) (h1 : filt ≤ 1) (z : Nat) :
    HasDerivAt
      (waves n (keep (fun m => (m : Int) ≤ ((n / 2 : Nat) : Int) - ⌊filt * n / 2⌋) a)
        (keep (fun m => (m : Int) ≤ ((n / 2 : Nat) : Int) - ⌊filt * n / 2⌋) b))
      (fftDeriv n filt f z) z := by
  rw [fftDeriv_eq hn hf, (kfilter_spec n filt).2.2.2 h0 h1]
  exact hasDerivAt_waves n _ _ z

/-- **Second derivative.**  The `FFT` method returns the exact second derivative of
the waves, and for the sawtooth `-π²` times it. -/
theorem C53_fft_second_derivative (n : Nat) (hn : 0 < n) (f a b : Nat → ℝ) (N : ℝ)
    (hf : IsRow n f a b N) (z : Nat) :
    ∃ d : ℝ → ℝ, (∀ t, HasDerivAt (waves n a b) (d t) t)
      ∧ HasDerivAt d (fftDeriv2 n f z - sawtooth n (-(Real.pi ^ 2) * N) z) z := by
  have hn' : (n : ℝ) ≠ 0 := by exact_mod_cast hn.ne'
  refine ⟨_, fun t => hasDerivAt_waves n a b t, ?_⟩
  refine (hasDerivAt_waves n _ _ (z : ℝ)).congr_deriv ?_
  unfold fftDeriv2
  rw [mult_isRow hn hf _ (fun jz => if jz ≤ n / 2
    then ((-((jz : ℝ) * (2 * Real.pi / n)) * ((jz : ℝ) * (2 * Real.pi / n)) : ℝ) : ℂ) else 0)]
  · have : sawtooth n (N * (if n / 2 ≤ n / 2 then
        ((-(((n / 2 : Nat) : ℝ) * (2 * Real.pi / n)) * (((n / 2 : Nat) : ℝ) * (2 * Real.pi / n)) : ℝ) : ℂ)
        else 0).re) z = sawtooth n (-(Real.pi ^ 2) * N) z := by
      apply sawtooth_congr
      intro h2
      rw [if_pos (le_refl _), Complex.ofReal_re]
      have : ((n / 2 : Nat) : ℝ) = n / 2 := by
        rw [Nat.cast_div (by omega) (by norm_num)]; norm_num
      rw [this]; field_simp
    rw [this, add_sub_cancel_right]
    apply waves_congr
    · simp
    · intro m h1 h2
      simp only [if_neg (show ¬ m = 0 by omega), if_pos (show m ≤ n / 2 by omega),
        Complex.ofReal_re, Complex.ofReal_im]
      constructor <;> ring
  · intro k hk
    rw [if_pos (by omega), if_pos (by omega)]

end Verif.Fourier
