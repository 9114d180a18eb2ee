import Verif.Field.PerpIndexThms

/-! # C94: what the code gets wrong, and concrete cases -/
namespace Verif.PerpIndex

/-- 16 rows in a double null with the upper target in the middle. -/
def wide : Decomp := ⟨8, 2, 8, true⟩
/-- The same mesh on four rows of processors. -/
def narrow : Decomp := ⟨4, 2, 8, true⟩

/-- **C94 is violated: small subdomains.** With subdomains of at most two widths of guard cells the processors just before the
upper target count themselves past it: a slice at row 4 stored by one of them (index 10) is, for two rows of processors, a slice
at a guard row or none, row 4's true index 6 is nobody's, and indices of its guard rows are also those of interior rows of the
next. -/
theorem C94_small_violated :
    globalIndex narrow (bndryOf narrow 4 1) 1 2 = 10 ∧ globalIndex wide (bndryOf wide 2 0) 0 6 = 6
    ∧ setFromGlobal wide (bndryOf wide 2 0) 0 10 = 10 ∧ wide.myg + wide.mysub ≤ 10
    ∧ (∀ pe ∈ [0, 1, 2, 3], setFromGlobal narrow (bndryOf narrow 4 pe) pe 6 = -1)
    ∧ setFromGlobal narrow (bndryOf narrow 4 1) 1 14 = 6 ∧ setFromGlobal narrow (bndryOf narrow 4 2) 2 14 = 2 := by decide

/-- **C94 is violated: files without the index.** The default is meant to be a grid cell; on every row of processors but the first
whose subdomain is larger than the guard cells it is negative. -/
theorem C94_default_violated (d : Decomp) (b : Bndry) (pe : Int) (hpe : 0 < pe) (hm : d.myg < d.mysub) (hg : 0 ≤ d.myg) :
    load d b pe none (-1) < 0 := by
  have : 1 * d.mysub ≤ pe * d.mysub := mul_le_mul_of_nonneg_right (by omega) (by omega)
  simp only [load, toLocalNoBndry, if_true]
  omega

/-- `C94_meaning_partial`, `C94_owner_partial`: the hypotheses hold, below and above the upper target. -/
theorem C94_meaning_example :
    Fits wide 2 ∧ globalIndex wide (bndryOf wide 2 0) 0 6 = 6 ∧ globalIndex wide (bndryOf wide 2 1) 1 2 = 14
    ∧ globalIndex wide (bndryOf wide 2 0) 0 10 = 10 ∧ globalIndex wide (bndryOf wide 2 1) 1 1 = 13 :=
  ⟨⟨by decide, by decide, by decide, fun _ => ⟨1, by decide, by decide, by decide⟩⟩, by decide, by decide, by decide, by decide⟩

/-- `C94_roundtrip`: a slice at a guard row is kept where there is a boundary and dropped elsewhere. -/
theorem C94_roundtrip_example :
    load wide ⟨true, false⟩ 0 (store wide ⟨true, false⟩ 0 1) 5 = 1 ∧ load wide ⟨false, false⟩ 1 (store wide ⟨false, false⟩ 1 1) 5 = -1 := by
  decide

end Verif.PerpIndex
