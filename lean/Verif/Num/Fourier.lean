import Mathlib.Analysis.SpecialFunctions.Trigonometric.Basic
import Mathlib.Analysis.SpecialFunctions.Complex.Log
import Mathlib.Algebra.BigOperators.Intervals

/-!
# Fourier operations in the Z direction

Model of the code which goes through `rfft`/`irfft`:

* `src/invert/fft_fftw.cxx` (`rfft`, `irfft`, `DST`, `DST_rev`);
* `src/mesh/parallel/shiftedmetric.cxx` (`ShiftedMetric`);
* `src/field/field3d.cxx` L604-732 (`filter`, `lowPass`, `shiftZ`);
* `src/mesh/index_derivs.cxx` L421-547 (the `FFT` derivative methods).

The two FFTW plans `fftw_plan_dft_r2c_1d` and `fftw_plan_dft_c2r_1d` are not
part of /repo: they are represented by the transform their manual specifies
(`r2c`, `c2r` below).  Real and complex arithmetic is exact.  A row of `n`
points in Z is a function on `Nat` of which only the arguments `z < n` are
read or meaningful.
-/

namespace Verif.Fourier

open Complex Finset

/-- FFTW's unnormalised real-to-complex transform
`out_k = Σ_z in_z exp(-2πi k z / n)`, which `src/invert/fft_fftw.cxx` L144 plans
and L155 executes. -/
noncomputable def r2c (n : Nat) (inp : Nat → ℝ) (k : Nat) : ℂ :=
  ∑ z ∈ range n, (inp z : ℂ) * exp (-(2 * Real.pi * I * k * z / n))

/-- The Hermitian array of which FFTW's complex-to-real transform is the
inverse transform: only entries `0 … n/2` are read, the others are their
conjugates, and the imaginary parts of entry 0 and (`n` even) `n/2` are
ignored (FFTW manual, "The 1d Real-data DFT"). -/
noncomputable def hermitian (n : Nat) (c : Nat → ℂ) (k : Nat) : ℂ :=
  if k = 0 ∨ 2 * k = n then ((c k).re : ℂ)
  else if 2 * k < n then c k
  else (starRingEnd ℂ) (c (n - k))

/-- FFTW's unnormalised complex-to-real transform
(`src/invert/fft_fftw.cxx` L213 plans it, L226 executes it). -/
noncomputable def c2r (n : Nat) (c : Nat → ℂ) (z : Nat) : ℝ :=
  (∑ k ∈ range n, hermitian n c k * exp (2 * Real.pi * I * k * z / n)).re

/-- `rfft` (`src/invert/fft_fftw.cxx` L107-168): execute the plan and scale by
`fac = 1.0 / n`.  The static plan cache is not modelled: plans depend on the
length alone. -/
noncomputable def rfft (n : Nat) (inp : Nat → ℝ) (k : Nat) : ℂ :=
  r2c n inp k * ((1 / n : ℝ) : ℂ)

/-- `irfft` (`src/invert/fft_fftw.cxx` L170-233): execute the plan, no
normalisation. -/
noncomputable def irfft (n : Nat) (c : Nat → ℂ) (z : Nat) : ℝ :=
  c2r n c z

/-- `DST` (`src/invert/fft_fftw.cxx` L390-447).  The odd extension is built in a
buffer of `2*(length-1)` entries; `fin[0]` and `fin[length-1]` are zeroed. -/
noncomputable def dstBuf (len : Nat) (inp : Nat → ℝ) (j : Nat) : ℝ :=
  if j = 0 ∨ j = len - 1 then 0
  else if j < len - 1 then inp j
  else -(inp (2 * (len - 1) - j))

/-- `DST` result (`src/invert/fft_fftw.cxx` L438-445); `out` is complex with zero
imaginary part, so only the real part is recorded. -/
noncomputable def dst (len : Nat) (inp : Nat → ℝ) (i : Nat) : ℝ :=
  if i = 0 ∨ i = len - 1 then 0
  else -(r2c (2 * (len - 1)) (dstBuf len inp) i).im / ((len : ℝ) - 1)

/-- `DST_rev` (`src/invert/fft_fftw.cxx` L449-509): entry `j` of the buffer handed
to the complex-to-real plan.  Entries above `length-1` are written by the code
but not read by the plan. -/
noncomputable def dstRevBuf (len : Nat) (inp : Nat → ℝ) (j : Nat) : ℂ :=
  if j = 0 ∨ j = len - 1 then 0
  else if j < len - 1 then ⟨0, -(inp j) / 2⟩
  else ⟨0, inp (2 * (len - 1) - j) / 2⟩

/-- `DST_rev` result (`src/invert/fft_fftw.cxx` L500-507). -/
noncomputable def dstRev (len : Nat) (inp : Nat → ℝ) (i : Nat) : ℝ :=
  if i = 0 ∨ i = len - 1 then 0
  else c2r (2 * (len - 1)) (dstRevBuf len inp) i

/-! ## Shifts -/

/-- `dcomplex(cos(x), -sin(x))` as written in `shiftedmetric.cxx` L72-73,
L116-117 and `field3d.cxx` L715. -/
noncomputable def phaseMinus (x : ℝ) : ℂ := ⟨Real.cos x, -Real.sin x⟩

/-- `dcomplex(cos(x), sin(x))` as in `shiftedmetric.cxx` L74. -/
noncomputable def phasePlus (x : ℝ) : ℂ := ⟨Real.cos x, Real.sin x⟩

/-- `BoutReal kwave = jz * 2.0 * PI / zlength` (`shiftedmetric.cxx` L71, L114;
`field3d.cxx` L714). -/
noncomputable def kwave (zlength : ℝ) (jz : Nat) : ℝ := jz * 2 * Real.pi / zlength

/-- `ShiftedMetric::shiftZ(const BoutReal*, const dcomplex*, BoutReal*)`
(`shiftedmetric.cxx` L202-227): multiply modes `1 … nmodes-1` by the phases,
mode 0 is left alone. -/
noncomputable def shiftRow (n : Nat) (phs : Nat → ℂ) (inp : Nat → ℝ) : Nat → ℝ :=
  irfft n fun jz => if 1 ≤ jz then rfft n inp jz * phs jz else rfft n inp jz

/-- `shiftZ(Field3D& var, int jx, int jy, double zangle)` on the row at
`(jx, jy)` (`field3d.cxx` L700-724). -/
noncomputable def shiftZ (n : Nat) (zlength : ℝ) (zangle : ℝ) (row : Nat → ℝ) :
    Nat → ℝ :=
  if n = 1 then row
  else irfft n fun jz =>
    if 1 ≤ jz then rfft n row jz * phaseMinus (kwave zlength jz * zangle)
    else rfft n row jz

/-- A `Field3D` on one processor: its values at local `(x, y, z)` and whether its
Y direction type is `Aligned`. -/
structure ZField where
  vals : Int → Int → Nat → ℝ
  aligned : Bool

/-- The part of `ShiftedMetric` and its mesh which the transforms read. -/
structure ShiftedMetric where
  /-- `mesh.LocalNz` -/
  nz : Nat
  zlength : ℝ
  /-- the `zShift` field -/
  zShift : Int → Int → ℝ
  xsize : Int
  ystart : Int
  yend : Int

/-- `fromAlignedPhs` (`shiftedmetric.cxx` L72-73). -/
noncomputable def ShiftedMetric.fromPhs (m : ShiftedMetric) (x y : Int) (jz : Nat) : ℂ :=
  phaseMinus (kwave m.zlength jz * m.zShift x y)

/-- `toAlignedPhs` (`shiftedmetric.cxx` L74). -/
noncomputable def ShiftedMetric.toPhs (m : ShiftedMetric) (x y : Int) (jz : Nat) : ℂ :=
  phasePlus (kwave m.zlength jz * m.zShift x y)

/-- `parallel_slice_phases[..].phase_shift` (`shiftedmetric.cxx` L105-119). -/
noncomputable def ShiftedMetric.slicePhs (m : ShiftedMetric) (off : Int) (x y : Int)
    (jz : Nat) : ℂ :=
  phaseMinus (kwave m.zlength jz * (m.zShift x y - m.zShift x (y + off)))

/-- `ShiftedMetric::shiftZ(const Field3D&, const Tensor&, YDirectionType, region)`
(`shiftedmetric.cxx` L156-175), for region `RGN_ALL`. -/
noncomputable def ShiftedMetric.shiftField (m : ShiftedMetric) (f : ZField)
    (phs : Int → Int → Nat → ℂ) (aligned : Bool) : ZField :=
  if m.nz = 1 then { f with aligned := aligned }
  else { vals := fun x y => shiftRow m.nz (phs x y) (f.vals x y), aligned := aligned }

/-- `ShiftedMetric::toFieldAligned` (`shiftedmetric.cxx` L127-130); `none` is the
failed `ASSERT2` on the direction. -/
noncomputable def ShiftedMetric.toFieldAligned (m : ShiftedMetric) (f : ZField) :
    Option ZField :=
  if f.aligned then none else some (m.shiftField f m.toPhs true)

/-- `ShiftedMetric::fromFieldAligned` (`shiftedmetric.cxx` L142-145). -/
noncomputable def ShiftedMetric.fromFieldAligned (m : ShiftedMetric) (f : ZField) :
    Option ZField :=
  if f.aligned then some (m.shiftField f m.fromPhs false) else none

/-- The offsets for which slices are stored (`shiftedmetric.cxx` L89-101):
`{+1, …, +ystart, -1, …, -ystart}`. -/
def ShiftedMetric.offsets (m : ShiftedMetric) : List Int :=
  (List.range m.ystart.toNat).map (fun (i : Nat) => (i : Int) + 1)
    ++ (List.range m.ystart.toNat).map fun (i : Nat) => -((i : Int) + 1)

/-- `ShiftedMetric::calcParallelSlices` (`shiftedmetric.cxx` L229-249): the value
stored in `f.ynext(off)` at `(x, y, z)`, `none` where nothing is written.  The
loop runs over `RGN_NOY` and writes at `iy + y_offset`; field-aligned fields get no
slices. -/
noncomputable def ShiftedMetric.slice (m : ShiftedMetric) (f : ZField) (off : Int)
    (x y : Int) (z : Nat) : Option ℝ :=
  if f.aligned then none
  else if off ∈ m.offsets ∧ 0 ≤ x ∧ x < m.xsize ∧ m.ystart ≤ y - off ∧ y - off ≤ m.yend then
    some (shiftRow m.nz (m.slicePhs off x (y - off)) (f.vals x y) z)
  else none

/-! ## Filters -/

/-- `filter(const Field3D&, int N0)` on one row (`field3d.cxx` L604-647). -/
noncomputable def filterRow (n : Nat) (N0 : Int) (row : Nat → ℝ) : Nat → ℝ :=
  irfft n fun jz => if (jz : Int) ≠ N0 then 0 else rfft n row jz

/-- `lowPass(const Field3D&, int zmax, bool keep_zonal)` on one row
(`field3d.cxx` L650-692).  `none`: the zeroing loop, which starts at
`jz = zmax + 1`, writes in front of the coefficient array. -/
noncomputable def lowPassRow (n : Nat) (zmax : Int) (keep_zonal : Bool) (row : Nat → ℝ) :
    Option (Nat → ℝ) :=
  if (((n / 2 : Nat) : Int) ≤ zmax ∨ zmax < 0) ∧ keep_zonal = true then some row
  else if zmax + 1 < 0 then none
  else some (irfft n fun jz =>
    if keep_zonal = false ∧ jz = 0 then 0
    else if zmax + 1 ≤ (jz : Int) then 0
    else rfft n row jz)

/-! ## Spectral derivatives -/

/-- `kfilter` of `FFTDerivativeType::standard` (`index_derivs.cxx` L439-446):
`static_cast<int>(fft_derivs_filter * ncz / 2)` clamped to `[0, ncz/2]`.  The
cast truncates toward zero. -/
noncomputable def kfilter (n : Nat) (filt : ℝ) : Int :=
  let k : Int := if 0 ≤ filt * n / 2 then ⌊filt * n / 2⌋ else ⌈filt * n / 2⌉
  let k := if k < 0 then 0 else k
  if ((n / 2 : Nat) : Int) < k then ((n / 2 : Nat) : Int) else k

/-- `FFTDerivativeType::standard` on one row (`index_derivs.cxx` L422-479); this is
the derivative with respect to the Z index (the caller divides by `dz`). -/
noncomputable def fftDeriv (n : Nat) (filt : ℝ) (row : Nat → ℝ) : Nat → ℝ :=
  irfft n fun jz =>
    if (jz : Int) ≤ ((n / 2 : Nat) : Int) - kfilter n filt then
      rfft n row jz * ⟨0, (jz : ℝ) * (2 * Real.pi / n)⟩
    else 0

/-- `FFT2ndDerivativeType::standard` on one row (`index_derivs.cxx` L490-538). -/
noncomputable def fftDeriv2 (n : Nat) (row : Nat → ℝ) : Nat → ℝ :=
  irfft n fun jz =>
    if jz ≤ n / 2 then
      rfft n row jz *
        ((-((jz : ℝ) * (2 * Real.pi / n)) * ((jz : ℝ) * (2 * Real.pi / n)) : ℝ) : ℂ)
    else 0

end Verif.Fourier
