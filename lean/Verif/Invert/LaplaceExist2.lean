import Verif.Invert.LaplacePeriodic

/-!
# C54: existence in periodic X, and two wrong outer conditions
-/

namespace Verif.Laplace

open Verif.Fourier Verif.Cyclic Finset Complex
open scoped Classical

/-- In periodic X no boundary condition can fail. -/
theorem matrix_periodic_ok {s : LapSetup} (hper : s.periodicX = true)
    (rhs x0 : Nat → Int → Nat → ℝ) (q kz : Nat) : ∃ r, s.matrix rhs x0 q kz = .ok r := by
  unfold LapSetup.matrix tridagMatrix
  dsimp only
  rw [if_neg (by simp [hper])]
  split_ifs <;> exact ⟨_, rfl⟩

/-- **Existence, periodic X.** -/
theorem C54_helmholtz_periodic_succeeds {s : LapSetup} (hw : s.WellFormed)
    (hper : s.periodicX = true) {δ : ℝ} (hδ : 0 < δ) (hδ1 : δ ≤ 1) (hh : Helmholtz s δ)
    (h3 : s.P = 1 → (s.geom 0).xstart + 1 < (s.geom 0).xend)
    {tiny : ℂ → Prop} (h0 : ∀ v, v = 0 → tiny v)
    (htiny : ∀ v, tiny v → ‖v‖ < δ) (order : Nat → List Nat) (rhs x0 : Nat → Int → Nat → ℝ) :
    ∃ x, s.solve tiny order rhs x0 = .ok x := by
  obtain ⟨hP, hn, hmm, hsh, hg⟩ := id hw
  have hN : ∀ q, s.N q = ((s.geom q).xend - (s.geom q).xstart + 1).toNat := by
    intro q
    unfold LapSetup.N xs xe; rw [if_pos (Or.inr hper), if_pos (Or.inr hper)]
  have hrows : ∀ q, q < s.P → ∀ k, s.matrix rhs x0 q k = .ok (s.rows rhs x0 q k) := by
    intro q hq k
    obtain ⟨r, hr⟩ := matrix_periodic_ok hper rhs x0 q k
    unfold LapSetup.rows
    rw [hr]
  obtain ⟨X, hX⟩ := C22_dominant_succeeds hδ htiny (P := s.P) (Nsys := s.maxmode + 1) (N := s.N)
    (periodic := s.periodicX) (co := s.rows rhs x0) (order := order) h0 hP (by
      intro q hq
      have := hh.rows q hq
      rw [hN]; omega) (by
      intro hP1
      have := h3 hP1
      rw [hN]; omega) (by
      intro k _ q hq j hj
      left
      dsimp only
      obtain ⟨g1, g2, g3, _, _⟩ := hg q hq
      rw [matrix_periodic hw hper hq (hrows q hq k) j hj]
      by_cases hc : k = 0 ∧ q = 0 ∧ j = 0
      · rw [if_pos hc]
        unfold Row.gap
        simpa using hδ1
      · rw [if_neg hc]
        have hix : s.ix q j = (s.geom q).xstart + j := by
          unfold LapSetup.ix xs; rw [if_pos (Or.inr hper)]
        rw [hN] at hj
        refine le_trans ?_ (interior_gap hsh rhs q k j (by omega) (by omega) (hh.g13 q hq _)
          ((hh.pos q hq _).2.2.2) (hh.d q hq _) (hh.peclet q hq _)
          ((hh.a q hq _).trans (by linarith)))
        have := hh.a q hq (s.ix q j)
        linarith)
  unfold LapSetup.solve
  rw [if_pos (fun q _ k _ => matrix_periodic_ok hper rhs x0 q k), hX]
  exact ⟨_, rfl⟩

/-- The example of `LaplaceExist`, closed in X. -/
noncomputable def exPeriodic : LapSetup := { exSetup with periodicX := true }

theorem exPeriodic_wellFormed : exPeriodic.WellFormed := exSetup_wellFormed

theorem exPeriodic_helmholtz : Helmholtz exPeriodic 1 := by
  obtain ⟨h1, h2, h3, h4, h5, h6, h7, h8, h9, h10, h11⟩ := exSetup_helmholtz
  exact ⟨h1, h2, h3, h4, h5, h6, h7, h8, h9, h10, h11⟩

/-- The periodic theorems are not vacuous; for the right-hand side `A = -1` the returned
field is not the solution 1. -/
example : ∃ x, exPeriodic.solve (fun v => ‖v‖ < 1 / 2) (fun _ => [1, 0]) (fun _ _ _ => -1)
    (fun _ _ _ => 0) = .ok x ∧ ∃ q j z, x q j z ≠ 1 := by
  have h0 : ∀ v : ℂ, v = 0 → ‖v‖ < 1 / 2 := fun v hv => by rw [hv, norm_zero]; norm_num
  obtain ⟨x, hx⟩ := C54_helmholtz_periodic_succeeds exPeriodic_wellFormed rfl
    (by norm_num : (0 : ℝ) < 1) le_rfl exPeriodic_helmholtz (fun h => by simp [exPeriodic, exSetup] at h)
    h0 (fun v hv => by linarith) (fun _ => [1, 0]) (fun _ _ _ => -1) (fun _ _ _ => 0)
  refine ⟨x, hx, ?_⟩
  obtain ⟨q, j, z, _, _, _, h⟩ := (C54_periodic_helmholtz_violated exPeriodic_wellFormed rfl (.cyclic rfl _ h0 _
    (fun q hq => by show ([1, 0] : List Nat).Perm [0, 1]; exact List.Perm.swap 0 1 []) hx) (fun _ _ _ => rfl)).2
  exact ⟨q, j, z, h⟩

/-! ## Wrong outer conditions -/

/-- **Violated: outer `DC_GRADPAR`, `DC_GRADPARINV`, `DC_LAP`.**  Given as outer flags they do
nothing: the matrix is the one without them. -/
theorem C54_outer_dc_flags_violated (g : Geom) (co : LapCoef) (per : Bool) (kz : Nat) (kw : ℝ)
    (rows : Nat → Row ℂ) (G f : Nat)
    (hf : f = INVERT_DC_GRADPAR ∨ f = INVERT_DC_GRADPARINV ∨ f = INVERT_DC_LAP) :
    outerRows g co { global := G, inner := 0, outer := f } per kz kw rows
      = outerRows g co { global := G, inner := 0, outer := 0 } per kz kw rows := by
  have hbit : ∀ b, b = INVERT_BNDRY_ONE ∨ b = INVERT_DC_GRAD ∨ b = INVERT_AC_GRAD ∨ b = INVERT_AC_LAP
      ∨ b = INVERT_SET ∨ b = INVERT_RHS ∨ b = (INVERT_RHS ||| INVERT_SET) →
      has f b = has 0 b := by
    rcases hf with rfl | rfl | rfl <;> rintro b (rfl | rfl | rfl | rfl | rfl | rfl | rfl) <;> decide
  have hb : outbndry g.xstart { global := G, inner := 0, outer := f }
      = outbndry g.xstart { global := G, inner := 0, outer := 0 } := by
    unfold outbndry
    dsimp only
    rw [hbit INVERT_BNDRY_ONE (by simp)]
  have hi : inbndry g.xstart { global := G, inner := 0, outer := f }
      = inbndry g.xstart { global := G, inner := 0, outer := 0 } := rfl
  unfold outerRows
  dsimp only
  rw [hb, hi, hbit INVERT_DC_GRAD (by simp), hbit INVERT_AC_GRAD (by simp),
    hbit INVERT_AC_LAP (by simp), hbit INVERT_SET (by simp), hbit INVERT_RHS (by simp),
    hbit (INVERT_RHS ||| INVERT_SET) (by simp)]

/-- **Violated: the outer mean follows the inner flags.**  With the value condition asked for
outside and `DC_GRADPARINV` inside, the last row of the mean is
`sqrt(g_22) x` continuous instead of the value condition. -/
theorem C54_outer_follows_inner_violated (g : Geom) (co : LapCoef) (kw : ℝ)
    (rows : Nat → Row ℂ) (G p : Nat) (hx : 1 ≤ g.xstart)
    (hp : (p : Int) = xe g false - xs g false) :
    ∃ r, outerRows g co { global := G, inner := INVERT_DC_GRADPARINV, outer := 0 } false 0 kw rows
        = .ok r
      ∧ (r p).a = ((Real.sqrt (g.gd22 (p - 1)) : ℝ) : ℂ)
      ∧ (r p).b = ((-Real.sqrt (g.gd22 p) : ℝ) : ℂ) := by
  have hi := inb_le hx { global := G, inner := INVERT_DC_GRADPARINV, outer := 0 }
  have e1 : ∀ b, has 0 b = false := by intro b; unfold has; simp
  have e2 : has INVERT_DC_GRADPARINV INVERT_DC_GRADPAR = false := by decide
  have e3 : has INVERT_DC_GRADPARINV INVERT_DC_GRADPARINV = true := by decide
  unfold outerRows
  dsimp only
  simp only [e1, e2, e3, if_true, Bool.false_eq_true, if_false, false_and]
  refine ⟨_, rfl, ?_, ?_⟩
  · rw [setRows_on]
    · simp
    · exact ⟨by omega, by omega⟩
  · rw [setRows_on]
    · simp
    · exact ⟨by omega, by omega⟩

end Verif.Laplace
