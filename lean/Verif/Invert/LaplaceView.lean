import Verif.Invert.LaplaceSolve
import Verif.Invert.LaplaceSolvers
import Verif.Invert.LaplacePcr

/-!
# All tridiagonal solvers solve the same systems
-/

namespace Verif.Laplace

open Verif.Fourier Verif.Cyclic Finset Complex
open scoped Classical

/-- With agreeing widths the right-hand side is that of the cyclic solver. -/
theorem sptMatrix_eq {s : LapSetup} (hb : s.WidthsAgree) (b x0 : Nat → Int → Nat → ℝ) {q : Nat} (hq : q < s.P) (kz : Nat) :
    s.sptMatrix b x0 q kz = s.matrix b x0 q kz := by
  unfold LapSetup.sptMatrix LapSetup.matrix
  congr 1
  funext j
  obtain ⟨h1, h2⟩ := hb q hq
  unfold LapSetup.sptRhs LapSetup.bk
  dsimp only
  by_cases ho : has s.flags.outer INVERT_SET = true ∧ (s.geom q).lastX = true ∧
      (s.geom q).localNx - sptWidth (s.geom q).xstart s.flags ≤ s.ix q j
  · rw [if_pos ho, if_pos]
    right
    rw [h2 ho.1]
    exact ⟨by omega, ho.1, ho.2.1⟩
  · rw [if_neg ho]
    by_cases hi : has s.flags.inner INVERT_SET = true ∧ (s.geom q).firstX = true ∧
      s.ix q j < sptWidth (s.geom q).xstart s.flags
    · rw [if_pos hi, if_pos]
      left
      rw [h1 hi.1]
      exact ⟨hi.2.2, hi.1, hi.2.1⟩
    · rw [if_neg hi, if_neg]
      rintro (⟨a, b, c⟩ | ⟨a, b, c⟩)
      · rw [h1 b] at a; exact hi ⟨b, c, a⟩
      · rw [h2 b] at a; exact ho ⟨b, c, by omega⟩

theorem N_pos {s : LapSetup} (hw : s.WellFormed) {q : Nat} (hq : q < s.P) : 1 ≤ s.N q := by
  obtain ⟨h1, h2, h3, h4, h5⟩ := hw.2.2.2.2 q hq
  unfold LapSetup.N xe xs
  split_ifs <;> omega

/-- The point before a processor boundary has the operator's row. -/
theorem last_ix {s : LapSetup} (hw : s.WellFormed) {q : Nat} (hq : q + 1 < s.P) :
    s.ix q (s.N q - 1) = (s.geom q).xend := by
  obtain ⟨h1, h2, h3, h4, h5⟩ := hw.2.2.2.2 q (by omega)
  have hl : (s.geom q).lastX = false := by
    cases h : (s.geom q).lastX
    · rfl
    · have := h5.1 h; omega
  unfold LapSetup.ix LapSetup.N xe
  rw [if_pos (by simp [hl])]
  unfold xs
  split_ifs <;> omega

/-- **C58.** What `LaplaceSPT::solve` returns solves, mode by mode, the systems built by `tridagMatrix`. -/
theorem spt_view {s : LapSetup} (hw : s.WellFormed) (hc : s.GuardsAgree) (hb : s.WidthsAgree) {jg ju : Nat → Nat → Nat → ℂ} {k : Nat}
    {rhs x0 : Nat → Int → Nat → ℝ} {x : Nat → Nat → Nat → ℝ} (h : s.sptSolve jg ju k rhs x0 = .ok x) :
    ∃ (co : Nat → Nat → Nat → Row ℂ) (X : Nat → Nat → Nat → ℂ),
      (∀ q, q < s.P → ∀ kz, kz ≤ s.maxmode → s.matrix rhs x0 q kz = .ok (co q kz))
      ∧ (∀ kz, kz ≤ s.maxmode →
          Solves s.P s.N s.periodicX (fun q j => co q kz j) (fun q j => X q kz j))
      ∧ x = fun q j => irfft s.n (s.back X q j) := by
  unfold LapSetup.sptSolve at h
  by_cases hper : s.periodicX = true
  · rw [if_pos hper] at h; cases h
  rw [if_neg hper] at h
  have hper' : s.periodicX = false := by simpa using hper
  split_ifs at h with hm hs
  refine ⟨fun q kz => (s.sptSys rhs x0 kz q).row, _, ?_, ?_, (Except.ok.inj h).symm⟩
  · intro q hq kz hkz
    obtain ⟨r, hr⟩ := hm q hq kz (by omega)
    dsimp only [LapSetup.sptSys]
    rw [← sptMatrix_eq hb rhs x0 hq kz, hr]
  · intro kz hkz
    obtain ⟨X, hX⟩ := hs kz (by omega)
    simp only [hX]
    rw [hper']
    unfold LapSetup.sptMode at hX
    split at hX
    · cases hX
    · rename_i st hst
      have hP : 2 ≤ s.P := by
        have h1 := hw.1
        by_contra hc
        have e : s.P = 1 := by omega
        unfold Spt.solveMode Spt.start at hst
        rw [if_pos e] at hst
        cases hst
      have hn : ∀ q, q < s.P → 1 ≤ (s.sptSys rhs x0 kz q).n := fun q hq => N_pos hw hq
      split at hX
      · cases hX
      · cases hX
      · rename_i st' hn'
        have hk := (Spt.C58_spt_finishes s.P hP (s.sptSys rhs x0 kz) hn _ _ k st st' true hst hn').1 rfl
        have hst' : st' = st := by
          obtain ⟨i1, i2⟩ : _ ∧ _ := by
            unfold Spt.solveMode at hst
            split at hst
            · cases hst
            · rename_i s0 h0
              exact Spt.calls_inv s.P hP (s.sptSys rhs x0 kz) hn s0 (Spt.start_inv s.P hP _ hn _ _ s0 h0) k st hst
          obtain ⟨ip, -⟩ := i2 (by omega)
          unfold Spt.next at hn'
          rw [if_pos (by omega)] at hn'
          exact (Prod.mk.inj (Except.ok.inj hn')).2.symm
        obtain rfl := Except.ok.inj hX
        rw [hst']
        refine Spt.C58_spt_solves s.P hP (s.sptSys rhs x0 kz) hn ?_ _ _ k hk st hst
        intro q hq
        obtain ⟨r, hr⟩ := hm q (by omega) kz (by omega)
        have hl := last_ix hw hq
        obtain ⟨g1, g2, g3, g4, g5⟩ := hw.2.2.2.2 q (by omega)
        have e1 : (s.sptSys rhs x0 kz q).row = r := by dsimp only [LapSetup.sptSys]; rw [hr]
        rw [e1]
        have e2 : r (s.N q - 1) = s.interiorRow rhs q kz (s.N q - 1) :=
          matrix_interior hw hper' (x0 := x0) (by omega) (by rw [← sptMatrix_eq hb rhs x0 (by omega) kz]; exact hr) _
            (by rw [hl]; omega) (by rw [hl])
        show s.guardC (q + 1) kz = (r (s.N q - 1)).c
        rw [e2, hc q hq kz hkz]
        unfold LapSetup.interiorRow
        dsimp only
        rw [hl]

/-- **C58.** What any of the solvers returns solves, mode by mode, the systems built by `tridagMatrix`. -/
theorem LapSetup.Returned.view {s : LapSetup} {rhs x0 : Nat → Int → Nat → ℝ} {x : Nat → Nat → Nat → ℝ}
    (h : s.Returned rhs x0 x) (hw : s.WellFormed) :
    ∃ (co : Nat → Nat → Nat → Row ℂ) (X : Nat → Nat → Nat → ℂ),
      (∀ q, q < s.P → ∀ kz, kz ≤ s.maxmode → s.matrix rhs x0 q kz = .ok (co q kz))
      ∧ (∀ kz, kz ≤ s.maxmode →
          Solves s.P s.N s.periodicX (fun q j => co q kz j) (fun q j => X q kz j))
      ∧ x = fun q j => irfft s.n (s.back X q j) := by
  cases h with
  | cyclic hg tiny h0 order hord h => exact solve_view hw.1 h0 hord h
  | spt hg hc hb jg ju k h => exact spt_view hw hc hb h
  | pcr hg hper hu junk h => exact pcr_view hw hper hu h
  | pcrThomas hg hper hu hn hf junk h => exact pcrThomas_view hw hper hu hn hf h
  | tri hg hper hkx lap hl h =>
    unfold LapSetup.triSolve at h
    split_ifs at h with hP hm
    have hP : s.P = 1 := by omega
    have hm' : ∀ kz, kz ≤ s.maxmode → ∃ rows X, s.matrix rhs x0 0 kz = .ok rows ∧ lap (s.N 0) rows = .ok X ∧
        s.triMode lap rhs x0 kz = .ok X := by
      intro kz hkz
      obtain ⟨X, hX⟩ := hm kz (by omega)
      have hX' := hX
      unfold LapSetup.triMode at hX
      split at hX
      · cases hX
      · rename_i rows hr
        split at hX
        · cases hX
        · rename_i u hu
          rw [if_neg (by simp [hkx])] at hX
          exact ⟨rows, u, hr, hu, by rw [hX', ← Except.ok.inj hX]⟩
    refine ⟨s.rows rhs x0, _, ?_, ?_, (Except.ok.inj h).symm⟩
    · intro q hq kz hkz
      obtain rfl : q = 0 := by omega
      obtain ⟨rows, X, hr, -, -⟩ := hm' kz hkz
      unfold LapSetup.rows
      rw [hr]
    · intro kz hkz
      obtain ⟨rows, X, hr, hX, hmode⟩ := hm' kz hkz
      simp only [hmode]
      have e : s.rows rhs x0 0 kz = rows := by unfold LapSetup.rows; rw [hr]
      have hs := hl _ _ _ hX
      rw [hper, hP]
      intro q hq j hj
      obtain rfl : q = 0 := by omega
      have := hs 0 (by omega) j hj
      dsimp only at this ⊢
      rw [e]
      exact this

end Verif.Laplace
