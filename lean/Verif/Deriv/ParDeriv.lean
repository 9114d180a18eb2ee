import Verif.Deriv.DispatchProps
import Verif.Num.FourierThms2

/-!
# C65: the two ways of taking a Y derivative

`bout::derivatives::index::DDY`, `D2DY2`, `D4DY4` (`include/bout/index_derivs_interface.hxx` L199-244): a field that has
parallel slices is differenced across them (direction `YOrthogonal`); one that has none is taken to field-aligned
coordinates, differenced along `y`, and taken back.  With shifted metrics both are meant to be the derivative along the
field line.

Simplification: one cell location (no staggering), one processor, the regions are the points off the Y guard cells.
-/
namespace Verif.Deriv
open Verif.Num Verif.Fourier

/-- index_derivs_interface.hxx:203-206 with `populateStencil<YOrthogonal, None, ..>` (`include/bout/stencils.hxx` L44-72):
`s.m = f.ynext(-1)[i.minus]`, `s.p = f.ynext(1)[i.plus]`, and so on: the neighbour at `y + off` is read from the slice of
offset `off`.  `nan` where the slice holds nothing. -/
noncomputable def ddySlices (sm : ShiftedMetric) (func : Stencil ℝ → ℝ) (wide : Bool) (nan : ℝ) (f : ZField)
    (x y : Int) (z : Nat) : ℝ :=
  standard func .none wide nan (fun j => if j = y then f.vals x y z else (sm.slice f (j - y) x j z).getD nan) y

/-- index_derivs_interface.hxx:207-212: `fromFieldAligned(standardDerivative(toFieldAligned(f)))`.  `none` is a failed
assertion on the direction type. -/
noncomputable def ddyAligned (sm : ShiftedMetric) (func : Stencil ℝ → ℝ) (wide : Bool) (nan : ℝ) (f : ZField) :
    Option ZField :=
  match sm.toFieldAligned f with
  | none => none
  | some g => sm.fromFieldAligned
      ⟨fun x y z => standard func .none wide nan (fun j => g.vals x j z) y, true⟩

theorem hermitian_comb (n : Nat) (s t : ℝ) (c d : Nat → ℂ) (k : Nat) :
    hermitian n (fun j => s * c j + t * d j) k = s * hermitian n c k + t * hermitian n d k := by
  unfold hermitian
  by_cases h : k = 0 ∨ 2 * k = n
  · rw [if_pos h, if_pos h, if_pos h]; simp
  · rw [if_neg h, if_neg h, if_neg h]
    by_cases h2 : 2 * k < n
    · rw [if_pos h2, if_pos h2, if_pos h2]
    · rw [if_neg h2, if_neg h2, if_neg h2]; simp

theorem c2r_comb (n : Nat) (s t : ℝ) (c d : Nat → ℂ) (z : Nat) :
    c2r n (fun j => s * c j + t * d j) z = s * c2r n c z + t * c2r n d z := by
  unfold c2r
  have : (∑ k ∈ Finset.range n, hermitian n (fun j => s * c j + t * d j) k
        * Complex.exp (2 * Real.pi * Complex.I * k * z / n))
      = s * (∑ k ∈ Finset.range n, hermitian n c k * Complex.exp (2 * Real.pi * Complex.I * k * z / n))
        + t * (∑ k ∈ Finset.range n, hermitian n d k * Complex.exp (2 * Real.pi * Complex.I * k * z / n)) := by
    rw [Finset.mul_sum, Finset.mul_sum, ← Finset.sum_add_distrib]
    refine Finset.sum_congr rfl fun k _ => ?_
    rw [hermitian_comb]; ring
  rw [this, Complex.add_re, Complex.re_ofReal_mul, Complex.re_ofReal_mul]

theorem rfft_comb (n : Nat) (s t : ℝ) (f g : Nat → ℝ) (k : Nat) :
    rfft n (fun z => s * f z + t * g z) k = s * rfft n f k + t * rfft n g k := by
  unfold rfft r2c
  have : (∑ z ∈ Finset.range n, ((s * f z + t * g z : ℝ) : ℂ) * Complex.exp (-(2 * Real.pi * Complex.I * k * z / n)))
      = s * (∑ z ∈ Finset.range n, (f z : ℂ) * Complex.exp (-(2 * Real.pi * Complex.I * k * z / n)))
        + t * (∑ z ∈ Finset.range n, (g z : ℂ) * Complex.exp (-(2 * Real.pi * Complex.I * k * z / n))) := by
    rw [Finset.mul_sum, Finset.mul_sum, ← Finset.sum_add_distrib]
    refine Finset.sum_congr rfl fun z _ => ?_
    push_cast; ring
  rw [this]; ring

/-- Shifting a row is linear. -/
theorem shiftRow_comb (n : Nat) (phs : Nat → ℂ) (s t : ℝ) (f g : Nat → ℝ) (z : Nat) :
    shiftRow n phs (fun z => s * f z + t * g z) z = s * shiftRow n phs f z + t * shiftRow n phs g z := by
  unfold shiftRow irfft
  rw [← c2r_comb]
  congr 1
  funext jz
  by_cases h : 1 ≤ jz
  · rw [if_pos h, if_pos h, if_pos h, rfft_comb]; ring
  · rw [if_neg h, if_neg h, if_neg h, rfft_comb]

theorem shiftRow_five (n : Nat) (phs : Nat → ℂ) (c0 c1 c2 c3 c4 : ℝ) (f0 f1 f2 f3 f4 : Nat → ℝ) (z : Nat) :
    shiftRow n phs (fun z => c0 * f0 z + c1 * f1 z + c2 * f2 z + c3 * f3 z + c4 * f4 z) z
      = c0 * shiftRow n phs f0 z + c1 * shiftRow n phs f1 z + c2 * shiftRow n phs f2 z + c3 * shiftRow n phs f3 z
        + c4 * shiftRow n phs f4 z := by
  have e1 : (fun z => c0 * f0 z + c1 * f1 z + c2 * f2 z + c3 * f3 z + c4 * f4 z)
      = fun z => 1 * (fun z => c0 * f0 z + c1 * f1 z + c2 * f2 z + c3 * f3 z) z + c4 * f4 z := by
    funext z; ring
  have e2 : (fun z => c0 * f0 z + c1 * f1 z + c2 * f2 z + c3 * f3 z)
      = fun z => 1 * (fun z => c0 * f0 z + c1 * f1 z + c2 * f2 z) z + c3 * f3 z := by funext z; ring
  have e3 : (fun z => c0 * f0 z + c1 * f1 z + c2 * f2 z)
      = fun z => 1 * (fun z => c0 * f0 z + c1 * f1 z) z + c2 * f2 z := by funext z; ring
  rw [e1, shiftRow_comb, e2, shiftRow_comb, e3, shiftRow_comb, shiftRow_comb]; ring

/-- The built-in methods that are linear in the field. -/
def linearMethods : List Impl := [.ddxC2, .ddxC4, .d2C2, .d2C4, .d4C2]

/-- A linear method is a weighted sum of the points of its stencil; the narrow ones do not use the outer points. -/
theorem linear_weights {m : Impl} (hm : m ∈ linearMethods) :
    ∃ (func : Stencil ℝ → ℝ) (c0 c1 c2 c3 c4 : ℝ), m.std = some func ∧ (m.wide = false → c0 = 0 ∧ c4 = 0) ∧
      ∀ s, func s = c0 * s.mm + c1 * s.m + c2 * s.c + c3 * s.p + c4 * s.pp := by
  simp only [linearMethods, List.mem_cons, List.not_mem_nil, or_false] at hm
  rcases hm with rfl | rfl | rfl | rfl | rfl
  · exact ⟨DDX_C2, 0, -1/2, 0, 1/2, 0, rfl, fun _ => ⟨rfl, rfl⟩, fun s => by unfold DDX_C2; ring⟩
  · exact ⟨DDX_C4, 1/12, -8/12, 0, 8/12, -1/12, rfl, fun h => by simp [Impl.wide, Impl.meta] at h,
      fun s => by unfold DDX_C4; ring⟩
  · exact ⟨D2DX2_C2, 0, 1, -2, 1, 0, rfl, fun _ => ⟨rfl, rfl⟩, fun s => by unfold D2DX2_C2; ring⟩
  · exact ⟨D2DX2_C4, -1/12, 16/12, -30/12, 16/12, -1/12, rfl, fun h => by simp [Impl.wide, Impl.meta] at h,
      fun s => by unfold D2DX2_C4; ring⟩
  · exact ⟨D4DX4_C2, 1, -4, 6, -4, 1, rfl, fun h => by simp [Impl.wide, Impl.meta] at h,
      fun s => by unfold D4DX4_C2; ring⟩

/-- An unstaggered linear stencil, written out. -/
theorem standard_linear {func : Stencil ℝ → ℝ} {c0 c1 c2 c3 c4 : ℝ} {wide : Bool} (hw : wide = false → c0 = 0 ∧ c4 = 0)
    (hf : ∀ s, func s = c0 * s.mm + c1 * s.m + c2 * s.c + c3 * s.p + c4 * s.pp) (nan : ℝ) (v : Int → ℝ) (i : Int) :
    standard func .none wide nan v i
      = c0 * v (i - 2) + c1 * v (i - 1) + c2 * v i + c3 * v (i + 1) + c4 * v (i + 2) := by
  unfold standard
  rw [hf]
  cases wide
  · obtain ⟨rfl, rfl⟩ := hw rfl
    simp only [populate]; ring
  · simp only [populate]; simp

/-- **Both ways give the same Y derivative.**  For the linear methods, on every shifted-metric grid with more guard cells
than the method needs and every field with no sawtooth in Z (in particular, every field on an odd number of Z points), the
derivative across parallel slices is, at every point off the Y guard cells, the one taken in field-aligned coordinates. -/
theorem C65_slices_or_aligned (sm : ShiftedMetric) (hn : 1 < sm.nz) (m : Impl) (hm : m ∈ linearMethods)
    (hguard : (m.meta.nGuards : Int) ≤ sm.ystart) (func : Stencil ℝ → ℝ) (hfunc : m.std = some func) (nan nan' : ℝ)
    (f : ZField) (hf : f.aligned = false) (x y : Int) (hx : 0 ≤ x ∧ x < sm.xsize) (hy : sm.ystart ≤ y ∧ y ≤ sm.yend)
    (hsaw : sm.nz % 2 = 1 ∨ ∀ j, ∃ a b, IsRow sm.nz (f.vals x j) a b 0) :
    ∃ r, ddyAligned sm func m.wide nan f = some r ∧ r.aligned = false ∧
      ∀ z < sm.nz, ddySlices sm func m.wide nan' f x y z = r.vals x y z := by
  obtain ⟨func', c0, c1, c2, c3, c4, h1, hw, hlin⟩ := linear_weights hm
  rw [hfunc] at h1
  cases h1
  have hsaw' : ∀ j, sm.nz % 2 = 1 ∨ ∃ a b, IsRow sm.nz (f.vals x j) a b 0 := fun j => hsaw.imp id (fun h => h j)
  have hn1 : sm.nz ≠ 1 := by omega
  have hg : ∃ g, sm.toFieldAligned f = some g ∧ g.aligned = true := by
    refine ⟨sm.shiftField f sm.toPhs true, ?_, ?_⟩
    · unfold ShiftedMetric.toFieldAligned; rw [hf]; simp
    · unfold ShiftedMetric.shiftField; rw [if_neg hn1]
  obtain ⟨g, hg, hga⟩ := hg
  have hr : ddyAligned sm func m.wide nan f
      = some (sm.shiftField ⟨fun x y z => standard func .none m.wide nan (fun j => g.vals x j z) y, true⟩ sm.fromPhs
          false) := by
    unfold ddyAligned; rw [hg]; dsimp only; unfold ShiftedMetric.fromFieldAligned; rw [if_pos rfl]
  refine ⟨_, hr, ?_, ?_⟩
  · unfold ShiftedMetric.shiftField; rw [if_neg hn1]
  intro z hz
  unfold ddySlices
  rw [standard_linear hw hlin]
  have e0 : (sm.shiftField ⟨fun x y z => standard func .none m.wide nan (fun j => g.vals x j z) y, true⟩ sm.fromPhs
      false).vals x y z
      = shiftRow sm.nz (sm.fromPhs x y) (fun z => standard func .none m.wide nan (fun j => g.vals x j z) y) z := by
    unfold ShiftedMetric.shiftField; rw [if_neg hn1]
  rw [e0]
  have e1 : (fun z => standard func .none m.wide nan (fun j => g.vals x j z) y)
      = fun z => c0 * g.vals x (y - 2) z + c1 * g.vals x (y - 1) z + c2 * g.vals x y z + c3 * g.vals x (y + 1) z
        + c4 * g.vals x (y + 2) z := by
    funext z; rw [standard_linear hw hlin]
  rw [e1, shiftRow_five]
  have hc : shiftRow sm.nz (sm.fromPhs x y) (g.vals x y) z = f.vals x y z := by
    have := C53_aligned_roundtrip_exact sm (by omega) f g (sm.shiftField g sm.fromPhs false) hg
      (by unfold ShiftedMetric.fromFieldAligned; rw [if_pos hga]) x y (hsaw' y) z hz
    rw [← this]; unfold ShiftedMetric.shiftField; rw [if_neg hn1]
  have hs : ∀ off : Int, off ≠ 0 → -sm.ystart ≤ off → off ≤ sm.ystart →
      (sm.slice f off x (y + off) z).getD nan' = shiftRow sm.nz (sm.fromPhs x y) (g.vals x (y + off)) z := by
    intro off h0 h1 h2
    rw [C53_slice_is_aligned_neighbour sm hn f g hg x y off hx hy ⟨h0, h1, h2⟩ (hsaw' _) z hz]; rfl
  have hone : 1 ≤ sm.ystart := by
    have : 1 ≤ m.meta.nGuards := by
      simp only [linearMethods, List.mem_cons, List.not_mem_nil, or_false] at hm
      rcases hm with rfl | rfl | rfl | rfl | rfl <;> decide
    omega
  have hp := hs 1 (by omega) (by omega) (by omega)
  have hmn := hs (-1) (by omega) (by omega) (by omega)
  have t1 : y + -1 = y - 1 := by ring
  have t2 : y + -2 = y - 2 := by ring
  rw [t1] at hmn
  have d1 : y + 1 - y = 1 := by ring
  have d2 : y - 1 - y = -1 := by ring
  have d3 : y + 2 - y = 2 := by ring
  have d4 : y - 2 - y = -2 := by ring
  rw [if_neg (show ¬(y - 2 = y) by omega), if_neg (show ¬(y - 1 = y) by omega), if_pos rfl,
    if_neg (show ¬(y + 1 = y) by omega), if_neg (show ¬(y + 2 = y) by omega), d1, d2, d3, d4, hp, hmn, hc]
  cases hwide : m.wide
  · obtain ⟨rfl, rfl⟩ := hw hwide
    ring
  · have htwo : 2 ≤ sm.ystart := by
      have : 2 ≤ m.meta.nGuards := by
        simp only [linearMethods, List.mem_cons, List.not_mem_nil, or_false] at hm
        rcases hm with rfl | rfl | rfl | rfl | rfl <;> first | decide | (exfalso; revert hwide; decide)
      omega
    have hpp := hs 2 (by omega) (by omega) (by omega)
    have hmm := hs (-2) (by omega) (by omega) (by omega)
    rw [t2] at hmm
    rw [hpp, hmm]

/-- The hypotheses are met: a grid of three Z points with shear, two guard cells, and a field that varies in all
directions; the fourth-order method. -/
example : ∃ r, ddyAligned ⟨3, 1, fun x y => x * y, 8, 2, 9⟩ DDX_C4 (Impl.wide .ddxC4) 0
      ⟨fun x y z => x + y * z, false⟩ = some r ∧ r.aligned = false ∧
    ∀ z < 3, ddySlices ⟨3, 1, fun x y => x * y, 8, 2, 9⟩ DDX_C4 (Impl.wide .ddxC4) 7
      ⟨fun x y z => x + y * z, false⟩ 4 5 z = r.vals 4 5 z :=
  C65_slices_or_aligned ⟨3, 1, fun x y => x * y, 8, 2, 9⟩ (by decide) .ddxC4 (by decide) (by decide) DDX_C4 rfl 0 7
    ⟨fun x y z => x + y * z, false⟩ rfl 4 5 (by decide) (by decide) (Or.inl (by decide))

end Verif.Deriv
