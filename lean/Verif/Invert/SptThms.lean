import Verif.Invert.LaplaceWide
import Verif.Invert.LaplaceView
import Verif.Invert.SptExist

/-!
# C58: the pipelined and the serial Laplacian solver

That what they return satisfies the equation and the boundary conditions is in the C54 theorems, which hold of every `Returned`
value (`LaplaceView.lean`).  Here: when the pipelined solver finds a solution, when the guard cells agree, and that the solvers
return the same.
-/

namespace Verif.Laplace

open Verif.Fourier Verif.Cyclic Finset Complex
open scoped Classical

/-- Metric and coefficients have been communicated in X: in the `xstart` cells on either side of a processor boundary both
processors hold the same values. -/
def LapSetup.Communicated (s : LapSetup) : Prop :=
  ∀ q, q + 1 < s.P → ∀ d : Int, -(s.geom q).xstart ≤ d → d < (s.geom q).xstart →
    let l := (s.geom q).xend + 1 + d
    let r := (s.geom (q + 1)).xstart + d
    (s.geom (q + 1)).g11 r = (s.geom q).g11 l ∧ (s.geom (q + 1)).g33 r = (s.geom q).g33 l ∧
    (s.geom (q + 1)).g13 r = (s.geom q).g13 l ∧ (s.geom (q + 1)).G1 r = (s.geom q).G1 l ∧
    (s.geom (q + 1)).G3 r = (s.geom q).G3 l ∧ (s.geom (q + 1)).dx r = (s.geom q).dx l ∧
    (s.geom (q + 1)).torsion r = (s.geom q).torsion l ∧
    (s.coef (q + 1)).C1 r = (s.coef q).C1 l ∧ (s.coef (q + 1)).C2 r = (s.coef q).C2 l ∧ (s.coef (q + 1)).D r = (s.coef q).D l

/-- **C58.** With two or more guard cells, communicated, the coefficient the pipelined solver uses for the cell before a processor's
first point is the neighbour's. -/
theorem C58_guards_agree {s : LapSetup} (hw : s.WellFormed) (hc : s.Communicated) (h2 : ∀ q, q < s.P → 2 ≤ (s.geom q).xstart) :
    s.GuardsAgree := by
  intro q hq kz _
  obtain ⟨a1, a2, a3, -, -⟩ := hw.2.2.2.2 q (by omega)
  obtain ⟨b1, b2, b3, -, -⟩ := hw.2.2.2.2 (q + 1) hq
  have hx := h2 q (by omega)
  have hx' := h2 (q + 1) hq
  have c0 := hc q hq (-1) (by omega) (by omega)
  have cm := hc q hq (-2) (by omega) (by omega)
  have cp := hc q hq 0 (by omega) (by omega)
  dsimp only at c0 cm cp
  have e1 : (s.geom q).xend + 1 + -1 = (s.geom q).xend := by omega
  have e2 : (s.geom q).xend + 1 + -2 = (s.geom q).xend - 1 := by omega
  have e3 : (s.geom q).xend + 1 + 0 = (s.geom q).xend + 1 := by omega
  have f1 : (s.geom (q + 1)).xstart + -1 = (s.geom (q + 1)).xstart - 1 := by omega
  have f2 : (s.geom (q + 1)).xstart + -2 = (s.geom (q + 1)).xstart - 1 - 1 := by omega
  have f3 : (s.geom (q + 1)).xstart + 0 = (s.geom (q + 1)).xstart - 1 + 1 := by omega
  rw [e1, f1] at c0
  rw [e2, f2] at cm
  rw [e3, f3] at cp
  obtain ⟨m1, m2, m3, m4, m5, m6, m7, m8, m9, m10⟩ := c0
  obtain ⟨-, -, -, -, -, n6, -, -, n9, -⟩ := cm
  obtain ⟨-, -, -, -, -, p6, -, -, p9, -⟩ := cp
  unfold LapSetup.guardC tridagCoefs
  dsimp only
  rw [m1, m3, m4, m6, m8, m10, n6, n9, p6, p9]
  have i1 : (0 < (s.geom (q + 1)).xstart - 1 ∧ (s.geom (q + 1)).xstart - 1 < (s.geom (q + 1)).localNx - 1) := by omega
  have i2 : (0 < (s.geom q).xend ∧ (s.geom q).xend < (s.geom q).localNx - 1) := by omega
  rw [if_pos i1, if_pos i2]
  have i3 : (s.opts.nonuniform = true ∧ (s.geom (q + 1)).xstart - 1 ≠ 0 ∧ (s.geom (q + 1)).xstart - 1 ≠ (s.geom (q + 1)).localNx - 1) ↔
      (s.opts.nonuniform = true ∧ (s.geom q).xend ≠ 0 ∧ (s.geom q).xend ≠ (s.geom q).localNx - 1) := by
    constructor
    · exact fun h => ⟨h.1, by omega, by omega⟩
    · exact fun h => ⟨h.1, by omega, by omega⟩
  simp only [i3]

/-- **C58, violated with one guard cell.** With a single guard cell the coefficient of the guard cell lacks the term from the
gradient of C (and the one from a non-uniform grid): with constant metric and a C that differs on the two sides of the last point it
is not the neighbour's, although everything has been communicated. -/
theorem C58_one_guard_violated {s : LapSetup} (hw : s.WellFormed) (hc : s.Communicated) (q : Nat) (hq : q + 1 < s.P)
    (h1 : (s.geom (q + 1)).xstart = 1) (hu : s.opts.nonuniform = false) (hg : (s.geom q).g11 (s.geom q).xend ≠ 0)
    (hdx : (s.geom q).dx (s.geom q).xend ≠ 0) (hC1 : (s.coef q).C1 (s.geom q).xend ≠ 0)
    (hC : (s.coef q).C2 ((s.geom q).xend + 1) ≠ (s.coef q).C2 ((s.geom q).xend - 1)) : ¬ s.GuardsAgree := by
  intro h
  replace h := h q hq 0 (Nat.zero_le _)
  obtain ⟨a1, a2, a3, -, -⟩ := hw.2.2.2.2 q (by omega)
  have c0 := hc q hq (-1) (by omega) (by omega)
  dsimp only at c0
  have e1 : (s.geom q).xend + 1 + -1 = (s.geom q).xend := by omega
  have f1 : (s.geom (q + 1)).xstart + -1 = 0 := by omega
  rw [e1, f1] at c0
  obtain ⟨m1, m2, m3, m4, m5, m6, m7, m8, m9, m10⟩ := c0
  unfold LapSetup.guardC tridagCoefs at h
  dsimp only at h
  have f2 : (s.geom (q + 1)).xstart - 1 = 0 := by omega
  rw [f2, m1, m4, m6, m10, hu, if_neg (show ¬ ((0 : Int) < 0 ∧ _) by omega),
    if_pos (show 0 < (s.geom q).xend ∧ (s.geom q).xend < (s.geom q).localNx - 1 by omega)] at h
  have hr := congrArg Complex.re h
  simp only [Bool.false_eq_true, false_and, if_false, mul_zero, add_zero] at hr
  have h2 : (2 : ℝ) * (s.geom q).dx (s.geom q).xend ≠ 0 := mul_ne_zero two_ne_zero hdx
  have h3 := add_left_cancel hr
  rw [div_left_inj' h2] at h3
  have h4 : (s.geom q).g11 (s.geom q).xend * (((s.coef q).C2 ((s.geom q).xend + 1) - (s.coef q).C2 ((s.geom q).xend - 1)) /
      (2 * (s.geom q).dx (s.geom q).xend * (s.coef q).C1 (s.geom q).xend)) = 0 := by linarith
  rcases mul_eq_zero.1 h4 with z | z
  · exact hg z
  · rcases div_eq_zero_iff.1 z with z | z
    · exact hC (sub_eq_zero.1 z)
    · exact mul_ne_zero h2 hC1 z

/-- **C58.** A Helmholtz-type problem with any boundary width is solved by the pipelined solver on any number of processors from
two, whatever is in uninitialised memory and however often the slice is moved along, as long as it is often enough. -/
theorem C58_spt_helmholtz_succeeds {s : LapSetup} (hw : s.WellFormed) (hper : s.periodicX = false) (hP : 2 ≤ s.P)
    {θ β : ℝ} (hθ : 0 < θ) (hθ1 : θ ≤ 1) (hβ : 0 < β) (hh : HelmholtzWide s θ β) (hc : s.GuardsAgree) (hb : s.WidthsAgree)
    (rhs x0 : Nat → Int → Nat → ℝ) (jg ju : Nat → Nat → Nat → ℂ) (k : Nat) (hk : 2 * s.P - 2 ≤ k) :
    ∃ x, s.sptSolve jg ju k rhs x0 = .ok x := by
  obtain ⟨hrows, hN, k0, k1, hd⟩ := wide_rows hw hper hθ1 hβ hh rhs x0
  have hm : ∀ q, q < s.P → ∀ kz, s.sptMatrix rhs x0 q kz = .ok (s.rows rhs x0 q kz) := by
    intro q hq kz
    rw [sptMatrix_eq hb rhs x0 hq kz]
    exact hrows q hq kz
  have hrow : ∀ q, q < s.P → ∀ kz, (s.sptSys rhs x0 kz q).row = s.rows rhs x0 q kz := by
    intro q hq kz
    dsimp only [LapSetup.sptSys]
    rw [hm q hq kz]
  have hs : ∀ kz, kz < s.maxmode + 1 → ∃ X, s.sptMode (jg kz) (ju kz) k rhs x0 kz = .ok X := by
    intro kz hkz
    obtain ⟨d0, d1, -, hcls⟩ := hd kz
    dsimp only at hcls
    have hn : ∀ q, q < s.P → 1 ≤ (s.sptSys rhs x0 kz q).n := fun q hq => N_pos hw hq
    have hdom : ∀ q, q < s.P → ∀ j, j < s.N q → Spt.Dom (s.rows rhs x0 q kz j) := by
      intro q hq j hj
      obtain ⟨w1, w2⟩ := (hcls q hq j hj).weak hθ.le
      exact ⟨w1, norm_pos_iff.1 (lt_of_lt_of_le hβ w2)⟩
    -- two consecutive rows
    have hstep : ∀ q j q' j', q < s.P → j < s.N q → q' < s.P → j' < s.N q' →
        blockCls s.P s.N k0 k1 q j ≤ 2 →
        (blockCls s.P s.N k0 k1 q' j' = 2 → blockCls s.P s.N k0 k1 q j = 1 ∨ blockCls s.P s.N k0 k1 q j = 2) →
        Spt.Good (s.rows rhs x0 q kz j) (s.rows rhs x0 q' kz j') := by
      intro q j q' j' hq hj hq' hj' h2 hpair
      have hc1 := hcls q hq j hj
      have hc2 := hcls q' hq' j' hj'
      have hle' : blockCls s.P s.N k0 k1 q' j' ≤ 2 := by unfold blockCls; split_ifs <;> omega
      have strict : ∀ w : Row ℂ, Cls θ β 1 w → ‖w.a‖ + ‖w.c‖ < ‖w.b‖ := by
        intro w hw
        have h1 := hw.1
        have h2 : β ≤ ‖w.b‖ := hw.2
        nlinarith
      rcases (by omega : blockCls s.P s.N k0 k1 q' j' = 0 ∨ blockCls s.P s.N k0 k1 q' j' = 1 ∨ blockCls s.P s.N k0 k1 q' j' = 2) with e | e | e
      · rw [e] at hc2
        left
        have h1 : (s.rows rhs x0 q' kz j').a = 0 := hc2.1
        rw [h1, norm_zero]
        exact lt_of_lt_of_le hβ hc2.2.2
      · rw [e] at hc2
        left
        have := strict _ hc2
        have := norm_nonneg (s.rows rhs x0 q' kz j').c
        linarith
      · right
        rcases hpair e with e' | e'
        · rw [e'] at hc1
          exact Or.inl (strict _ hc1)
        · rw [e'] at hc1
          exact Or.inr hc1.1
    have cle : ∀ q j, blockCls s.P s.N k0 k1 q j ≤ 2 := by
      intro q j; unfold blockCls; split_ifs <;> omega
    obtain ⟨st, hst⟩ := Spt.C58_spt_succeeds s.P hP (s.sptSys rhs x0 kz) hn
      (by
        intro q hq
        have e2 := matrix_interior hw hper (q := q) (kz := kz) (by omega) (hrows q (by omega) kz) (s.N q - 1)
          (by rw [last_ix hw hq]; exact (hw.2.2.2.2 q (by omega)).2.1) (by rw [last_ix hw hq])
        rw [hrow q (by omega) kz]
        show s.guardC (q + 1) kz = (s.rows rhs x0 q kz (s.N q - 1)).c
        rw [e2, hc q hq kz (by omega)]
        unfold LapSetup.interiorRow
        dsimp only
        rw [last_ix hw hq])
      (by
        intro q hq j hj
        rw [hrow q hq kz]
        exact hdom q hq j hj)
      (by
        intro q hq j hj
        replace hj : j + 1 < s.N q := hj
        rw [hrow q hq kz]
        refine hstep q j q (j + 1) hq (by omega) hq hj (cle _ _) ?_
        intro h
        by_contra hcon
        have h0 : blockCls s.P s.N k0 k1 q j = 0 := by
          have := cle q j; omega
        unfold blockCls at h h0
        split_ifs at h h0 with g1 g2 g3 g4 <;> omega)
      (by
        intro q hq
        rw [hrow q (by omega) kz, hrow (q + 1) hq kz]
        have hNq := hN q (by omega)
        have hNq' := hN (q + 1) hq
        refine hstep q (s.N q - 1) (q + 1) 0 (by omega) (by omega) hq (by omega) (cle _ _) ?_
        intro h
        unfold blockCls at h
        rw [if_neg (by omega)] at h
        by_cases g2 : q + 1 + 1 = s.P ∧ s.N (q + 1) ≤ 0 + k1
        swap
        · rw [if_neg g2] at h; omega
        obtain ⟨g2a, g2b⟩ := g2
        have : s.P - 1 = q + 1 := by omega
        rw [this] at d1
        omega)
      (jg kz) (ju kz) k
    unfold LapSetup.sptMode
    rw [hst]
    dsimp only
    have hfin := fun b t => Spt.C58_spt_finishes s.P hP (s.sptSys rhs x0 kz) hn (jg kz) (ju kz) k st t b hst
    have hnx : ∃ t, Spt.next s.P (s.sptSys rhs x0 kz) st = .ok (true, t) := by
      have hi : st.proc < 0 := by
        have hst' := hst
        unfold Spt.solveMode at hst'
        split at hst'
        · cases hst'
        · rename_i s0 h0
          obtain ⟨-, i2⟩ := Spt.calls_inv s.P hP (s.sptSys rhs x0 kz) hn s0 (Spt.start_inv s.P hP _ hn _ _ s0 h0) k st hst'
          have := (i2 (by omega)).1
          omega
      unfold Spt.next
      rw [if_pos hi]
      exact ⟨st, rfl⟩
    obtain ⟨t, ht⟩ := hnx
    rw [ht]
    exact ⟨_, rfl⟩
  unfold LapSetup.sptSolve
  rw [if_neg (by simp [hper]), if_pos (fun q hq kz _ => ⟨_, hm q hq kz⟩), if_pos hs]
  exact ⟨_, rfl⟩

/-! ## The solvers agree -/

/-- The same problem given to a solver that passes the other value of `includeguards`. -/
def LapSetup.withGuards (s : LapSetup) (b : Bool) : LapSetup := { s with flags := { s.flags with guards := b } }

/-- The outer boundary condition does not read the metric at a row number. -/
def LapFlags.PlainOuter (f : LapFlags) : Prop :=
  has f.outer INVERT_SET = false ∧ has f.outer INVERT_RHS = false ∧ has f.inner INVERT_DC_GRADPAR = false ∧
    has f.inner INVERT_DC_GRADPARINV = false ∧ has f.inner INVERT_DC_LAP = false

theorem outerRows_guards {g : Geom} {co : LapCoef} {fl : LapFlags} {per : Bool} {kz : Nat} {kw : ℝ} {rows : Nat → Row ℂ} (b : Bool)
    (h : fl.PlainOuter ∨ xs g per = 0) :
    outerRows g co { fl with guards := b } per kz kw rows = outerRows g co fl per kz kw rows := by
  have e1 : inbndry g.xstart { fl with guards := b } = inbndry g.xstart fl := rfl
  have e2 : outbndry g.xstart { fl with guards := b } = outbndry g.xstart fl := rfl
  unfold outerRows
  rw [e1, e2]
  dsimp only
  rcases h with ⟨h1, h2, h3, h4, h5⟩ | h
  · simp only [h1, h2, h3, h4, h5, Bool.false_eq_true, or_false, and_false, if_false]
  · rw [h]
    simp only [ite_self]

theorem matrix_guards {s : LapSetup} (hw : s.WellFormed) (hper : s.periodicX = false) (b : Bool)
    (h : s.flags.PlainOuter ∨ s.P = 1) (rhs x0 : Nat → Int → Nat → ℝ) (q kz : Nat) (hq : q < s.P) :
    (s.withGuards b).matrix rhs x0 q kz = s.matrix rhs x0 q kz := by
  have hbk : (s.withGuards b).bk rhs x0 q kz = s.bk rhs x0 q kz := rfl
  unfold LapSetup.matrix
  rw [hbk]
  show tridagMatrix s.opts (s.geom q) (s.coef q) { s.flags with guards := b } s.periodicX kz (kz * 2 * Real.pi / s.zlength) _ = _
  have hout : ∀ rows, outerRows (s.geom q) (s.coef q) { s.flags with guards := b } s.periodicX kz (kz * 2 * Real.pi / s.zlength) rows =
      outerRows (s.geom q) (s.coef q) s.flags s.periodicX kz (kz * 2 * Real.pi / s.zlength) rows := by
    intro rows
    refine outerRows_guards b (h.imp id fun hP => ?_)
    obtain ⟨-, -, -, hf, -⟩ := hw.2.2.2.2 q hq
    unfold xs
    rw [if_neg (by simp [hper, hf.2 (by omega)])]
  have hin : ∀ rows, innerRows (s.geom q) (s.coef q) { s.flags with guards := b } kz (kz * 2 * Real.pi / s.zlength) rows =
      innerRows (s.geom q) (s.coef q) s.flags kz (kz * 2 * Real.pi / s.zlength) rows := fun _ => rfl
  unfold tridagMatrix
  simp only [hout, hin]

/-- **C58.** All solvers return the same field: for a Helmholtz-type problem two returned fields, from whichever solvers, for
whatever message order, pivot threshold, uninitialised memory and number of calls, are equal at every point solved for, if the outer
condition is one of those that do not read the metric by row number, or there is a single processor in X. -/
theorem C58_solvers_agree {s : LapSetup} (hw : s.WellFormed) (hper : s.periodicX = false)
    {θ β : ℝ} (hθ : 0 < θ) (hθ1 : θ ≤ 1) (hβ : 0 < β) (hh : HelmholtzWide s θ β) (b : Bool) (hf : s.flags.PlainOuter ∨ s.P = 1 ∨ b = s.flags.guards)
    {rhs x0 : Nat → Int → Nat → ℝ} {x y : Nat → Nat → Nat → ℝ} (hx : s.Returned rhs x0 x) (hy : (s.withGuards b).Returned rhs x0 y)
    (q : Nat) (hq : q < s.P) (j : Nat) (hj : j < s.N q) : x q j = y q j := by
  obtain ⟨hrows, hN, k0, k1, hd⟩ := wide_rows hw hper hθ1 hβ hh rhs x0
  obtain ⟨co, X, c1, c2, rfl⟩ := hx.view hw
  obtain ⟨co', Y, d1, d2, rfl⟩ := hy.view hw
  have hmat : ∀ q, q < s.P → ∀ kz, (s.withGuards b).matrix rhs x0 q kz = s.matrix rhs x0 q kz := by
    intro q hq kz
    rcases hf with hf | hf | hf
    · exact matrix_guards hw hper b (Or.inl hf) rhs x0 q kz hq
    · exact matrix_guards hw hper b (Or.inr hf) rhs x0 q kz hq
    · rw [hf]; rfl
  have hXY : ∀ kz, kz ≤ s.maxmode → X q kz j = Y q kz j := by
    intro kz hkz
    have ns := block_nonsingular (periodic := s.periodicX) hθ hβ hN (hd kz)
    have hz := ns (fun q j => X q kz j - Y q kz j) (by
      intro q hq j hj
      have e1 : co q kz = s.rows rhs x0 q kz := by
        have := c1 q hq kz hkz
        rw [hrows q hq kz] at this
        exact (Except.ok.inj this).symm
      have e2 : co' q kz = s.rows rhs x0 q kz := by
        have := d1 q hq kz hkz
        rw [hmat q hq kz, hrows q hq kz] at this
        exact (Except.ok.inj this).symm
      have h1 := c2 kz hkz q hq j hj
      have h2 : (co' q kz j).Holds (prevVal s.P s.N s.periodicX (fun q j => Y q kz j) q j) (Y q kz j)
        (nextVal s.P s.N s.periodicX (fun q j => Y q kz j) q j) := d2 kz hkz q hq j hj
      rw [e2] at h2
      dsimp only at h1
      rw [e1] at h1
      have ep : prevVal s.P s.N s.periodicX (fun q j => X q kz j - Y q kz j) q j =
          prevVal s.P s.N s.periodicX (fun q j => X q kz j) q j - prevVal s.P s.N s.periodicX (fun q j => Y q kz j) q j := by
        unfold prevVal; split_ifs <;> simp
      have en : nextVal s.P s.N s.periodicX (fun q j => X q kz j - Y q kz j) q j =
          nextVal s.P s.N s.periodicX (fun q j => X q kz j) q j - nextVal s.P s.N s.periodicX (fun q j => Y q kz j) q j := by
        unfold nextVal; split_ifs <;> simp
      rw [ep, en]
      unfold Row.Holds Row.hom at *
      dsimp only
      linear_combination h1 - h2) q hq j hj
    exact sub_eq_zero.1 hz
  have hb : s.back X q j = (s.withGuards b).back Y q j := by
    funext kz
    unfold LapSetup.back
    show _ = if has s.flags.global INVERT_ZERO_DC ∧ kz = 0 then 0
      else if s.maxmode + 1 ≤ kz then 0
      else if s.periodicX ∧ kz = 0 then Y q 0 j - ((s.withGuards b).average Y : ℂ)
      else Y q kz j
    by_cases e : s.maxmode + 1 ≤ kz
    · rw [if_pos e, if_pos e]
    · rw [hXY kz (by omega)]
      simp only [hper, Bool.false_eq_true, false_and, if_false]
  show irfft s.n (s.back X q j) = irfft s.n ((s.withGuards b).back Y q j)
  rw [hb]

/-! ## Instances -/

theorem helmholtz_guards {s : LapSetup} {θ β : ℝ} (h : HelmholtzWide s θ β) (b : Bool) : HelmholtzWide (s.withGuards b) θ β := by
  constructor
  · exact h.zlen
  · exact h.pos
  · exact h.g13
  · exact h.d
  · exact h.a
  · exact h.peclet
  · exact h.res
  · exact h.half
  · exact h.grad
  · exact h.widthIn
  · exact h.widthOut
  · exact h.rows
  · exact h.f1
  · exact h.f2
  · exact h.f3

theorem exWide_helmholtz : HelmholtzWide exWide (1 / 201) (1 / 2) := by
  constructor
  · simp [exWide, exSetup]
  · intro q _ j; simp only [exWide, exGeom]; norm_num
  · intro q _ j; rfl
  · intro q _ j; simp [exWide, exSetup]
  · intro q _ j; simp only [exWide, exSetup]; norm_num
  · intro q _ j
    simp only [five, exWide, exSetup, exGeom]
    norm_num
  · intro q _ j
    simp only [five, exWide, exSetup, exGeom]
    norm_num
  · norm_num
  · intro q _ j; simp only [exWide, exGeom]; norm_num
  · decide
  · decide
  · intro q _; simp [exWide]
  · decide
  · decide
  · decide

/-- Two processors with two boundary cells each: the pipelined and the cyclic reduction solver both return, and the same. -/
example (rhs x0 : Nat → Int → Nat → ℝ) (jg ju : Nat → Nat → Nat → ℂ) :
    ∃ x y, exWide.solve (fun v => ‖v‖ < 1 / 201 * (1 / 201 * (1 / 2))) (fun _ => [1, 0]) rhs x0 = .ok x ∧
      (exWide.withGuards true).sptSolve jg ju 7 rhs x0 = .ok y ∧ ∀ q, q < 2 → ∀ j, j < exWide.N q → x q j = y q j := by
  have h0 : ∀ v : ℂ, v = 0 → ‖v‖ < 1 / 201 * (1 / 201 * (1 / 2)) := fun v hv => by rw [hv, norm_zero]; norm_num
  have hc : (exWide.withGuards true).GuardsAgree := by
    refine C58_guards_agree exWide_wellFormed ?_ (fun q _ => by show (2 : Int) ≤ 2; omega)
    intro q hq d _ _
    exact ⟨rfl, rfl, rfl, rfl, rfl, rfl, rfl, rfl, rfl, rfl⟩
  have hb : (exWide.withGuards true).WidthsAgree := fun q _ => ⟨fun _ => rfl, fun _ => rfl⟩
  obtain ⟨x, hx⟩ := C54_helmholtz_wide_succeeds exWide_wellFormed rfl (by norm_num) (by norm_num) (by norm_num) exWide_helmholtz
    h0 (fun v hv => hv) (fun _ => [1, 0]) rhs x0
  obtain ⟨y, hy⟩ := C58_spt_helmholtz_succeeds (s := exWide.withGuards true) exWide_wellFormed rfl (by decide) (by norm_num) (by norm_num)
    (by norm_num) (helmholtz_guards exWide_helmholtz true) hc hb rhs x0 jg ju 7 (by decide)
  refine ⟨x, y, hx, hy, fun q hq j hj => ?_⟩
  exact C58_solvers_agree exWide_wellFormed rfl (by norm_num) (by norm_num) (by norm_num) exWide_helmholtz true
    (Or.inl (by unfold LapFlags.PlainOuter; decide)) (.cyclic rfl _ h0 _ (fun q hq => by
      show ([1, 0] : List Nat).Perm [0, 1]; exact List.Perm.swap 0 1 []) hx) (.spt rfl hc hb _ _ _ hy) q hq j hj

/-- The setup in which the pipelined solver is wrong: two processors, one guard cell, C growing linearly. -/
noncomputable def exOneGuard : LapSetup :=
  { exSetup with
    opts := { allTerms := true, nonuniform := false, incIntShear := false }
    flags := { global := 0, inner := 0, outer := 3, guards := true }
    coef := fun q => { A := fun _ => -1, C1 := fun i => 10 + 3 * q + i, C2 := fun i => 10 + 3 * q + i, D := fun _ => 1 } }

theorem exOneGuard_wellFormed : exOneGuard.WellFormed := by
  obtain ⟨h1, h2, h3, h4, h5⟩ := exSetup_wellFormed
  exact ⟨h1, h2, h3, rfl, h5⟩

example : exOneGuard.Communicated ∧ ¬ exOneGuard.GuardsAgree := by
  have hc : exOneGuard.Communicated := by
    intro q hq d _ _
    have hq0 : q = 0 := by have : q + 1 < 2 := hq; omega
    subst hq0
    simp only [exOneGuard, exSetup, exGeom]
    refine ⟨trivial, trivial, trivial, trivial, trivial, trivial, trivial, ?_, ?_, trivial⟩ <;> (push_cast; ring)
  refine ⟨hc, C58_one_guard_violated exOneGuard_wellFormed hc 0 (by decide) rfl rfl ?_ ?_ ?_ ?_⟩ <;>
    (simp only [exOneGuard, exSetup, exGeom]; norm_num)

end Verif.Laplace
