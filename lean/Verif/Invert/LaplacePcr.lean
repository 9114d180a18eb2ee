import Verif.Invert.LaplaceSolve
import Verif.Invert.LaplaceSolvers
import Verif.Invert.PcrThomas
import Mathlib.Data.Nat.Prime.Basic
import Mathlib.Algebra.Order.Ring.GeomSum
import Mathlib.NumberTheory.Divisors

/-!
# The parallel cyclic reduction solvers solve the systems built by `tridagMatrix`
-/

namespace Verif.Laplace

open Verif.Fourier Verif.Cyclic Finset Complex
open scoped Classical

/-- `is_pow2` says what its name does. -/
theorem isPow2_iff (x : Nat) : isPow2 x = true ↔ ∃ k, x = 2 ^ k := by
  unfold isPow2
  rw [Bool.and_eq_true, bne_iff_ne, beq_iff_eq]
  exact Nat.ne_zero_and_sub_one_eq_zero_iff_isPowerOfTwo

/-- The two checks of the constructors. -/
theorem pow2_split {P n : Nat} (h1 : isPow2 P = true) (h2 : isPow2 (P * n) = true) : ∃ M N, P = 2 ^ M ∧ n = 2 ^ N := by
  obtain ⟨M, hM⟩ := (isPow2_iff P).mp h1
  obtain ⟨k, hk⟩ := (isPow2_iff _).mp h2
  obtain ⟨N, -, hN⟩ := (Nat.dvd_prime_pow Nat.prime_two).mp (Dvd.intro_left P hk)
  exact ⟨M, N, hM, hN⟩

theorem setRows_at {P : Nat → Prop} {v : Nat → Coef3} {rows : Nat → Row ℂ} {j : Nat} (h : P j) :
    setRows P v rows j = { a := (v j).a, b := (v j).b, c := (v j).c, r := (rows j).r } := by unfold setRows; rw [if_pos h]

/-- Boundary rows do not refer to points further out. -/
theorem innerRows_inward {g : Geom} {co : LapCoef} {fl : LapFlags} {kz : Nat} {kw : ℝ}
    {rows r : Nat → Row ℂ} (h : innerRows g co fl kz kw rows = .ok r) (j : Nat)
    (hj : (j : Int) < inbndry g.xstart fl) : (r j).a = 0 := by
  have hon : ∀ v w, setRows (fun ix : Nat => (ix : Int) < inbndry g.xstart fl) v w j
      = { a := (v j).a, b := (v j).b, c := (v j).c, r := (w j).r } := fun v w => setRows_at hj
  unfold innerRows at h
  dsimp only at h
  split_ifs at h <;> first
    | (injection h with h; rw [← h, hon])
    | (split at h
       · cases h
       · injection h with h; rw [← h, hon])

theorem outerRows_inward {g : Geom} {co : LapCoef} {fl : LapFlags} {per : Bool} {kz : Nat} {kw : ℝ}
    {rows r : Nat → Row ℂ} (h : outerRows g co fl per kz kw rows = .ok r) (j : Nat)
    (hj : xe g per - xs g per - (j : Int) < outbndry g.xstart fl) (hj' : xe g per - xs g per - (j : Int) < inbndry g.xstart fl)
    (hle : (j : Int) ≤ xe g per - xs g per) : (r j).c = 0 := by
  have hon : ∀ v w, setRows (fun p : Nat => xe g per - xs g per - (p : Int) < outbndry g.xstart fl
      ∧ (p : Int) ≤ xe g per - xs g per) v w j
      = { a := (v j).a, b := (v j).b, c := (v j).c, r := (w j).r } := fun v w => setRows_at ⟨hj, hle⟩
  have hon' : ∀ v w, setRows (fun p : Nat => xe g per - xs g per - (p : Int) < inbndry g.xstart fl
      ∧ (p : Int) ≤ xe g per - xs g per) v w j
      = { a := (v j).a, b := (v j).b, c := (v j).c, r := (w j).r } := fun v w => setRows_at ⟨hj', hle⟩
  unfold outerRows at h
  dsimp only at h
  split_ifs at h <;> first
    | (injection h with h; rw [← h, hon])
    | (injection h with h; rw [← h, hon'])
    | (split at h
       · cases h
       · injection h with h; first | rw [← h, hon] | rw [← h, hon'])

/-- The rows of a processor. -/
theorem line_rows {s : LapSetup} (hw : s.WellFormed) (hper : s.periodicX = false) (hu : s.Uniform) {q : Nat} (hq : q < s.P) :
    s.N q = s.line.rows q := by
  obtain ⟨h1, h2, h3, h4, h5⟩ := hw.2.2.2.2 q hq
  obtain ⟨u1, u2⟩ := hu q hq
  have ex : xs (s.geom q) false = if q = 0 then 0 else (s.geom q).xstart := by
    unfold xs
    by_cases c : q = 0
    · rw [if_pos c, h4.mpr c]; simp
    · have : (s.geom q).firstX = false := by rw [← Bool.not_eq_true]; intro h; exact c (h4.mp h)
      rw [if_neg c, this]; simp
  have ee : xe (s.geom q) false = if q + 1 = s.P then (s.geom q).localNx - 1 else (s.geom q).xend := by
    unfold xe
    by_cases c : q + 1 = s.P
    · rw [if_pos c, h5.mpr c]; simp
    · have : (s.geom q).lastX = false := by rw [← Bool.not_eq_true]; intro h; exact c (h5.mp h)
      rw [if_neg c, this]; simp
  have er : s.line.rows q = (if q = 0 then (s.geom 0).xstart.toNat else 0) + ((s.geom 0).xend - (s.geom 0).xstart + 1).toNat
      + (if q + 1 = s.P then (s.geom 0).xstart.toNat else 0) := by
    unfold Pcr.Line.rows Pcr.Line.off Pcr.Line.first Pcr.Line.last LapSetup.line
    simp only [beq_iff_eq]
  unfold LapSetup.N
  rw [hper, ex, ee, er]
  split_ifs <;> omega

theorem solves_congr {P : Nat} {N N' : Nat → Nat} {per : Bool} {co : Nat → Nat → Row ℂ} {x : Nat → Nat → ℂ} (hP : 1 ≤ P)
    (h : ∀ q, q < P → N q = N' q) (hs : Solves P N' per co x) : Solves P N per co x := by
  intro q hq j hj
  have hh := hs q hq j (by rw [← h q hq]; exact hj)
  have e1 : prevVal P N per x q j = prevVal P N' per x q j := by
    unfold prevVal
    rw [h (q - 1) (by omega), h (P - 1) (by omega)]
  have e2 : nextVal P N per x q j = nextVal P N' per x q j := by
    unfold nextVal
    rw [h q hq]
  rw [e1, e2]
  exact hh

/-- The rows handed to the solver. -/
theorem rows_of_ok {s : LapSetup} {rhs x0 : Nat → Int → Nat → ℝ} {q kz : Nat} (h : ∃ r, s.matrix rhs x0 q kz = .ok r) :
    s.matrix rhs x0 q kz = .ok (s.rows rhs x0 q kz) := by
  obtain ⟨r, hr⟩ := h
  unfold LapSetup.rows
  rw [hr]

/-- What `LaplacePCR::solve` returns solves, mode by mode, the systems built by `tridagMatrix`. -/
theorem pcr_view {s : LapSetup} (hw : s.WellFormed) (hper : s.periodicX = false) (hu : s.Uniform) {junk : Nat → Nat → Nat → ℂ}
    {rhs x0 : Nat → Int → Nat → ℝ} {x : Nat → Nat → Nat → ℝ} (h : s.pcrSolve junk rhs x0 = .ok x) :
    ∃ (co : Nat → Nat → Nat → Row ℂ) (X : Nat → Nat → Nat → ℂ),
      (∀ q, q < s.P → ∀ kz, kz ≤ s.maxmode → s.matrix rhs x0 q kz = .ok (co q kz))
      ∧ (∀ kz, kz ≤ s.maxmode →
          Solves s.P s.N s.periodicX (fun q j => co q kz j) (fun q j => X q kz j))
      ∧ x = fun q j => irfft s.n (s.back X q j) := by
  unfold LapSetup.pcrSolve at h
  split_ifs at h with h1 h2 hm hp
  obtain ⟨M, N, hM, hN⟩ := pow2_split (by simpa using h1) (by simpa using h2)
  refine ⟨s.rows rhs x0, _, fun q hq kz hkz => rows_of_ok (hm q hq kz (by omega)), ?_, (Except.ok.inj h).symm⟩
  intro kz hkz
  rw [hper]
  exact solves_congr hw.1 (fun q hq => line_rows hw hper hu hq) (s.line.pcr_solves hM hN _ (junk kz) (hp kz (by omega)))

/-- With as many boundary rows as guard cells, all boundary rows refer to points further in only. -/
theorem rows_inward {s : LapSetup} (hw : s.WellFormed) (hper : s.periodicX = false) (hu : s.Uniform) (hf : s.FullWidth)
    {rhs x0 : Nat → Int → Nat → ℝ} {kz : Nat} (hm : ∀ q, q < s.P → ∃ r, s.matrix rhs x0 q kz = .ok r) :
    s.line.Inward (fun q j => s.rows rhs x0 q kz j) := by
  obtain ⟨f1, f2⟩ := hf
  have hP := hw.1
  have hrl : s.line.rows (s.line.P - 1) = s.N (s.P - 1) := (line_rows hw hper hu (q := s.P - 1) (by omega)).symm
  have h0 := hw.2.2.2.2 0 (by omega)
  have hl := hw.2.2.2.2 (s.P - 1) (by omega)
  obtain ⟨u1, u2⟩ := hu (s.P - 1) (by omega)
  have hx : (s.line.xstart : Int) = (s.geom 0).xstart := by
    show (((s.geom 0).xstart.toNat : Nat) : Int) = _
    omega
  have hfirst : (s.geom 0).firstX = true := h0.2.2.2.1.mpr rfl
  have hlast : (s.geom (s.P - 1)).lastX = true := hl.2.2.2.2.mpr (by omega)
  have hxe : xe (s.geom (s.P - 1)) false = (s.geom (s.P - 1)).localNx - 1 := by unfold xe; rw [hlast]; simp
  have hxs0 : xs (s.geom 0) false = 0 := by unfold xs; rw [hfirst]; simp
  have hxs : xs (s.geom (s.P - 1)) false = 0 ∨ xs (s.geom (s.P - 1)) false = (s.geom (s.P - 1)).xstart := by
    unfold xs; split_ifs <;> simp
  constructor
  · intro ix hix hix2
    show (s.rows rhs x0 0 kz ix).a = 0
    have hr := rows_of_ok (hm 0 (by omega))
    generalize s.rows rhs x0 0 kz = r at hr ⊢
    unfold LapSetup.matrix tridagMatrix at hr
    dsimp only at hr
    rw [hper, if_pos rfl, if_pos hfirst] at hr
    split at hr
    · cases hr
    · rename_i r1 hr1
      have hi : (r1 ix).a = 0 := innerRows_inward hr1 ix (by omega)
      split_ifs at hr with hl0
      · have e : s.P - 1 = 0 := by
          have := h0.2.2.2.2.mp hl0; omega
        rw [e] at hxe
        rw [outerRows_off hr ix (by omega) (by omega)]
        exact hi
      · rw [← Except.ok.inj hr]; exact hi
  · intro ix hix hix2
    show (s.rows rhs x0 (s.P - 1) kz ix).c = 0
    have hNe : (s.N (s.P - 1) : Int) = xe (s.geom (s.P - 1)) false - xs (s.geom (s.P - 1)) false + 1 := by
      unfold LapSetup.N; rw [hper]; omega
    rw [hrl] at hix hix2
    have hr := rows_of_ok (hm (s.P - 1) (by omega))
    generalize s.rows rhs x0 (s.P - 1) kz = r at hr ⊢
    unfold LapSetup.matrix tridagMatrix at hr
    dsimp only at hr
    rw [hper, if_pos rfl] at hr
    split at hr
    · cases hr
    · rw [if_pos hlast] at hr
      exact outerRows_inward hr ix (by rw [u1]; omega) (by rw [u1]; omega) (by omega)

/-- What `LaplacePCR_THOMAS::solve` returns solves, mode by mode, the systems built by `tridagMatrix`. -/
theorem pcrThomas_view {s : LapSetup} (hw : s.WellFormed) (hper : s.periodicX = false) (hu : s.Uniform) (hn : 2 ≤ s.line.n)
    (hf : s.FullWidth) {junk : Nat → Nat → Nat → ℂ}
    {rhs x0 : Nat → Int → Nat → ℝ} {x : Nat → Nat → Nat → ℝ} (h : s.pcrThomasSolve junk rhs x0 = .ok x) :
    ∃ (co : Nat → Nat → Nat → Row ℂ) (X : Nat → Nat → Nat → ℂ),
      (∀ q, q < s.P → ∀ kz, kz ≤ s.maxmode → s.matrix rhs x0 q kz = .ok (co q kz))
      ∧ (∀ kz, kz ≤ s.maxmode →
          Solves s.P s.N s.periodicX (fun q j => co q kz j) (fun q j => X q kz j))
      ∧ x = fun q j => irfft s.n (s.back X q j) := by
  unfold LapSetup.pcrThomasSolve at h
  split_ifs at h with h1 h2 hm hp
  obtain ⟨M, N, hM, hN⟩ := pow2_split (by simpa using h1) (by simpa using h2)
  refine ⟨s.rows rhs x0, _, fun q hq kz hkz => rows_of_ok (hm q hq kz (by omega)), ?_, (Except.ok.inj h).symm⟩
  intro kz hkz
  rw [hper]
  have hx : 1 ≤ s.line.xstart := by
    have := (hw.2.2.2.2 0 (by have := hw.1; omega)).1
    show 1 ≤ (s.geom 0).xstart.toNat
    omega
  exact solves_congr hw.1 (fun q hq => line_rows hw hper hu hq) (s.line.pcrThomas_solves hM hn hx _
    (rows_inward hw hper hu hf (fun q hq => hm q hq kz (by omega))) (junk kz) (hp kz (by omega)))

end Verif.Laplace
