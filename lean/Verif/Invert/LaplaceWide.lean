import Verif.Invert.LaplaceExist
import Verif.Cyclic.Block

/-!
# C54: existence with several boundary cells

The usual case: as many boundary rows as guard cells (`MXG = 2`).
-/

namespace Verif.Laplace

open Verif.Fourier Verif.Cyclic Finset Complex
open scoped Classical

/-- Inner boundary rows do not couple outwards. -/
theorem innerRows_a {g : Geom} {co : LapCoef} {fl : LapFlags} {kz : Nat} {kw : ℝ}
    {rows r : Nat → Row ℂ} (h : innerRows g co fl kz kw rows = .ok r) (j : Nat)
    (hj : (j : Int) < inbndry g.xstart fl) : (r j).a = 0 := by
  have hon : ∀ v w, setRows (fun ix : Nat => (ix : Int) < inbndry g.xstart fl) v w j
      = { a := (v j).a, b := (v j).b, c := (v j).c, r := (w j).r } := fun v w => setRows_on hj
  unfold innerRows at h
  dsimp only at h
  split_ifs at h <;> first
    | (injection h with h; rw [← h, hon])
    | (split at h
       · cases h
       · injection h with h; rw [← h, hon])

/-- Outer boundary rows do not couple outwards. -/
theorem outerRows_c {g : Geom} {co : LapCoef} {fl : LapFlags} {per : Bool} {kz : Nat} {kw : ℝ}
    (hf1 : has fl.inner INVERT_DC_GRADPAR = false) (hf2 : has fl.inner INVERT_DC_GRADPARINV = false)
    (hf3 : has fl.inner INVERT_DC_LAP = false)
    {rows r : Nat → Row ℂ} (h : outerRows g co fl per kz kw rows = .ok r) (j : Nat)
    (hj : xe g per - xs g per - (j : Int) < outbndry g.xstart fl
      ∧ (j : Int) ≤ xe g per - xs g per) : (r j).c = 0 := by
  have hon : ∀ v w, setRows (fun p : Nat => xe g per - xs g per - (p : Int) < outbndry g.xstart fl
      ∧ (p : Int) ≤ xe g per - xs g per) v w j
      = { a := (v j).a, b := (v j).b, c := (v j).c, r := (w j).r } := fun v w => setRows_on hj
  unfold outerRows at h
  dsimp only at h
  rw [hf1, hf2, hf3] at h
  simp only [Bool.false_eq_true, if_false] at h
  split_ifs at h <;> (injection h with h; rw [← h, hon])

/-- The diagonals of the inner boundary rows. -/
theorem innerRows_b {g : Geom} {co : LapCoef} {fl : LapFlags} {kz : Nat} {kw β : ℝ}
    (hf1 : has fl.inner INVERT_DC_GRADPAR = false) (hf2 : has fl.inner INVERT_DC_GRADPARINV = false)
    {rows r : Nat → Row ℂ} (h : innerRows g co fl kz kw rows = .ok r) (j : Nat)
    (hj : (j : Int) < inbndry g.xstart fl) (hβ : β ≤ 1 / 2)
    (hg : β ≤ 1 / Real.sqrt (g.gd11 j) / g.dx j) : β ≤ ‖(r j).b‖ := by
  have hon : ∀ v w, setRows (fun ix : Nat => (ix : Int) < inbndry g.xstart fl) v w j
      = { a := (v j).a, b := (v j).b, c := (v j).c, r := (w j).r } := fun v w => setRows_on hj
  have hG : β ≤ ‖((-1 / Real.sqrt (g.gd11 j) / g.dx j : ℝ) : ℂ)‖ := by
    rw [Complex.norm_real, Real.norm_eq_abs, neg_div, neg_div, abs_neg]
    exact hg.trans (le_abs_self _)
  have h1 : β ≤ ‖(1 : ℂ)‖ := by rw [norm_one]; linarith
  have h2 : β ≤ ‖(-1 : ℂ)‖ := by rw [norm_neg]; exact h1
  have h3 : β ≤ ‖((1 / 2 : ℝ) : ℂ)‖ := by
    rw [Complex.norm_real, Real.norm_eq_abs, abs_of_pos (by norm_num)]; exact hβ
  unfold innerRows at h
  dsimp only at h
  rw [hf1, hf2] at h
  simp only [Bool.false_eq_true, if_false] at h
  split_ifs at h <;> first
    | (injection h with h; rw [← h, hon]; first | exact hG | exact h1 | exact h2 | exact h3)
    | (split at h
       · cases h
       · injection h with h; rw [← h, hon]; exact h1)

/-- The diagonals of the outer boundary rows. -/
theorem outerRows_b {g : Geom} {co : LapCoef} {fl : LapFlags} {per : Bool} {kz : Nat} {kw β : ℝ}
    (hf1 : has fl.inner INVERT_DC_GRADPAR = false) (hf2 : has fl.inner INVERT_DC_GRADPARINV = false)
    (hf3 : has fl.inner INVERT_DC_LAP = false)
    {rows r : Nat → Row ℂ} (h : outerRows g co fl per kz kw rows = .ok r) (j : Nat)
    (hj : xe g per - xs g per - (j : Int) < outbndry g.xstart fl
      ∧ (j : Int) ≤ xe g per - xs g per) (hβ : β ≤ 1 / 2)
    (hg : ∀ i : Int, β ≤ 1 / Real.sqrt (g.gd11 i) / g.dx i) : β ≤ ‖(r j).b‖ := by
  have hon : ∀ v w, setRows (fun p : Nat => xe g per - xs g per - (p : Int) < outbndry g.xstart fl
      ∧ (p : Int) ≤ xe g per - xs g per) v w j
      = { a := (v j).a, b := (v j).b, c := (v j).c, r := (w j).r } := fun v w => setRows_on hj
  have hG : ∀ i : Int, β ≤ ‖((1 / Real.sqrt (g.gd11 i) / g.dx i : ℝ) : ℂ)‖ := by
    intro i
    rw [Complex.norm_real, Real.norm_eq_abs]
    exact (hg i).trans (le_abs_self _)
  have h1 : β ≤ ‖(1 : ℂ)‖ := by rw [norm_one]; linarith
  have h2 : β ≤ ‖(-1 : ℂ)‖ := by rw [norm_neg]; exact h1
  have h3 : β ≤ ‖((1 / 2 : ℝ) : ℂ)‖ := by
    rw [Complex.norm_real, Real.norm_eq_abs, abs_of_pos (by norm_num)]; exact hβ
  unfold outerRows at h
  dsimp only at h
  rw [hf1, hf2, hf3] at h
  simp only [Bool.false_eq_true, if_false] at h
  split_ifs at h <;> (injection h with h; rw [← h, hon]; first | exact hG _ | exact h1 | exact h2 | exact h3)

/-- A Helmholtz-type problem with any number of boundary cells, all of them solved for:
dominant in proportion `θ`, all diagonals at least `β`. -/
structure HelmholtzWide (s : LapSetup) (θ β : ℝ) : Prop where
  zlen : 0 < s.zlength
  pos : ∀ q, q < s.P → (s.geom q).Positive
  g13 : ∀ q, q < s.P → ∀ j, (s.geom q).g13 j = 0
  d : ∀ q, q < s.P → ∀ j, 0 ≤ (s.coef q).D j
  a : ∀ q, q < s.P → ∀ j, (s.coef q).A j ≤ -β
  peclet : ∀ q, q < s.P → ∀ j,
    |(five s.opts (s.geom q) j (some ((s.coef q).C1, (s.coef q).C2)) (some (s.coef q).D)).c4|
      ≤ (five s.opts (s.geom q) j (some ((s.coef q).C1, (s.coef q).C2)) (some (s.coef q).D)).c1
  res : ∀ q, q < s.P → ∀ j,
    θ * (2 * (five s.opts (s.geom q) j (some ((s.coef q).C1, (s.coef q).C2)) (some (s.coef q).D)).c1
        - (s.coef q).A j) ≤ -(s.coef q).A j
  half : β ≤ 1 / 2
  grad : ∀ q, q < s.P → ∀ j, β ≤ 1 / Real.sqrt ((s.geom q).gd11 j) / (s.geom q).dx j
  widthIn : inbndry (s.geom 0).xstart s.flags = (s.geom 0).xstart
  widthOut : outbndry (s.geom (s.P - 1)).xstart s.flags = (s.geom (s.P - 1)).xstart
  rows : ∀ q, q < s.P → (s.geom q).xstart < (s.geom q).xend
  f1 : has s.flags.inner INVERT_DC_GRADPAR = false
  f2 : has s.flags.inner INVERT_DC_GRADPARINV = false
  f3 : has s.flags.inner INVERT_DC_LAP = false

/-- The interior row is dominant in proportion. -/
theorem interior_strict {s : LapSetup} (hs : s.opts.incIntShear = false)
    (rhs : Nat → Int → Nat → ℝ) (q k j : Nat) (h1 : 0 < s.ix q j)
    (h2 : s.ix q j < (s.geom q).localNx - 1) (hg13 : (s.geom q).g13 (s.ix q j) = 0)
    (hg33 : 0 ≤ (s.geom q).g33 (s.ix q j)) (hD : 0 ≤ (s.coef q).D (s.ix q j)) {θ : ℝ}
    (hθ1 : θ ≤ 1)
    (hpe : |(five s.opts (s.geom q) (s.ix q j) (some ((s.coef q).C1, (s.coef q).C2))
        (some (s.coef q).D)).c4|
      ≤ (five s.opts (s.geom q) (s.ix q j) (some ((s.coef q).C1, (s.coef q).C2))
        (some (s.coef q).D)).c1) (hA : (s.coef q).A (s.ix q j) ≤ 0)
    (hres : θ * (2 * (five s.opts (s.geom q) (s.ix q j) (some ((s.coef q).C1, (s.coef q).C2))
        (some (s.coef q).D)).c1 - (s.coef q).A (s.ix q j)) ≤ -(s.coef q).A (s.ix q j)) :
    ‖(s.interiorRow rhs q k j).a‖ + ‖(s.interiorRow rhs q k j).c‖
      ≤ (1 - θ) * ‖(s.interiorRow rhs q k j).b‖
    ∧ -(s.coef q).A (s.ix q j) ≤ ‖(s.interiorRow rhs q k j).b‖ := by
  unfold LapSetup.interiorRow
  dsimp only
  rw [tridagCoefs_eq h1 h2 hs]
  set v := five s.opts (s.geom q) (s.ix q j) (some ((s.coef q).C1, (s.coef q).C2))
    (some (s.coef q).D) with hv
  have hc3 : v.c3 = 0 := by rw [hv]; unfold five; simp [hg13]
  have hc2 : 0 ≤ v.c2 := by rw [hv]; unfold five; exact mul_nonneg hg33 hD
  have hc1 : 0 ≤ v.c1 := le_trans (abs_nonneg _) hpe
  set A := (s.coef q).A (s.ix q j)
  set kw := (k : ℝ) * 2 * Real.pi / s.zlength
  rw [hc3, mul_zero, mul_zero]
  have hp := abs_le.1 hpe
  have ea : ‖(⟨v.c1 - v.c4, 0⟩ : ℂ)‖ ≤ v.c1 - v.c4 := by
    refine (norm_le_parts _ _).trans ?_
    rw [abs_zero, add_zero, abs_of_nonneg (by linarith)]
  have ec : ‖(⟨v.c1 + v.c4, 0⟩ : ℂ)‖ ≤ v.c1 + v.c4 := by
    refine (norm_le_parts _ _).trans ?_
    rw [abs_zero, add_zero, abs_of_nonneg (by linarith)]
  have hk2 := mul_nonneg (sq_nonneg kw) hc2
  have eb : 2 * v.c1 + kw ^ 2 * v.c2 - A
      ≤ ‖(⟨-2 * v.c1 - kw ^ 2 * v.c2, kw * v.c5⟩ : ℂ) + (A : ℂ)‖ := by
    have e : (⟨-2 * v.c1 - kw ^ 2 * v.c2, kw * v.c5⟩ : ℂ) + (A : ℂ)
        = ⟨-2 * v.c1 - kw ^ 2 * v.c2 + A, kw * v.c5⟩ := by
      apply Complex.ext <;> simp
    rw [e]
    refine le_trans ?_ (re_le_norm _ _)
    rw [abs_of_nonpos (by linarith)]
    linarith
  have h3 : (1 - θ) * (2 * v.c1 + kw ^ 2 * v.c2 - A)
      ≤ (1 - θ) * ‖(⟨-2 * v.c1 - kw ^ 2 * v.c2, kw * v.c5⟩ : ℂ) + (A : ℂ)‖ :=
    mul_le_mul_of_nonneg_left eb (by linarith)
  have h4 : 0 ≤ (1 - θ) * (kw ^ 2 * v.c2) := mul_nonneg (by linarith) hk2
  exact ⟨by nlinarith, by linarith⟩

/-- The matrices of a Helmholtz-type problem with any boundary width. -/
theorem wide_rows_at {s : LapSetup} (hw : s.WellFormed) (hper : s.periodicX = false)
    {θ β : ℝ} (hθ1 : θ ≤ 1) (hβ : 0 < β) (hh : HelmholtzWide s θ β)
    (rhs x0 : Nat → Int → Nat → ℝ) :
    (∀ q, q < s.P → ∀ k, s.matrix rhs x0 q k = .ok (s.rows rhs x0 q k)) ∧ (∀ q, q < s.P → 2 ≤ s.N q) ∧
      ∀ k, BlockDominant θ β s.P s.N (s.geom 0).xstart.toNat (s.geom (s.P - 1)).xstart.toNat (fun q j => s.rows rhs x0 q k j) := by
  obtain ⟨hP, hn, hmm, hsh, hg⟩ := id hw
  have hkw : ∀ k : Nat, 0 ≤ (k : ℝ) * 2 * Real.pi / s.zlength := by
    intro k
    have := hh.zlen
    have := Real.pi_pos
    positivity
  have hA0 : ∀ q, q < s.P → ∀ i, (s.coef q).A i ≤ 0 := fun q hq i => (hh.a q hq i).trans (by linarith)
  have hxs : ∀ q, q < s.P → xs (s.geom q) s.periodicX = if q = 0 then 0 else (s.geom q).xstart := by
    intro q hq
    obtain ⟨_, _, _, hgf, _⟩ := hg q hq
    unfold xs
    by_cases hq0 : q = 0
    · rw [if_pos hq0, if_neg]; simp [hper, hgf.2 hq0]
    · rw [if_neg hq0, if_pos]
      left
      rw [← Bool.not_eq_true]
      exact fun h => hq0 (hgf.1 h)
  have hxe : ∀ q, q < s.P → xe (s.geom q) s.periodicX
      = if q + 1 = s.P then (s.geom q).localNx - 1 else (s.geom q).xend := by
    intro q hq
    obtain ⟨_, _, _, _, hgl⟩ := hg q hq
    unfold xe
    by_cases hq0 : q + 1 = s.P
    · rw [if_pos hq0, if_neg]; simp [hper, hgl.2 hq0]
    · rw [if_neg hq0, if_pos]
      left
      rw [← Bool.not_eq_true]
      exact fun h => hq0 (hgl.1 h)
  have hNq : ∀ q, q < s.P → ((s.N q : Nat) : Int)
      = xe (s.geom q) s.periodicX - xs (s.geom q) s.periodicX + 1 := by
    intro q hq
    have h1 := hxs q hq
    have h2 := hxe q hq
    have h3 := hh.rows q hq
    obtain ⟨h4, _, h5, _, _⟩ := hg q hq
    unfold LapSetup.N
    split_ifs at h1 h2 <;> omega
  set k0 := ((s.geom 0).xstart).toNat with hk0
  set k1 := ((s.geom (s.P - 1)).xstart).toNat with hk1
  have hk0' : (k0 : Int) = (s.geom 0).xstart := by have := (hg 0 (by omega)).1; omega
  have hk1' : (k1 : Int) = (s.geom (s.P - 1)).xstart := by
    have := (hg (s.P - 1) (by omega)).1; omega
  have hmat : ∀ q, q < s.P → ∀ k, ∃ r, s.matrix rhs x0 q k = .ok r
      ∧ (q = 0 → ∀ j, j < k0 → EndOk (r j) ∧ (r j).a = 0 ∧ β ≤ ‖(r j).b‖)
      ∧ (q + 1 = s.P → ∀ j, j < s.N q → s.N q ≤ j + k1 → EndOk (r j) ∧ (r j).c = 0 ∧ β ≤ ‖(r j).b‖) := by
    intro q hq k
    obtain ⟨hg1, hg2, hg3, hgf, hgl⟩ := hg q hq
    have h1 := hxs q hq
    have h2 := hxe q hq
    have h3 := hh.rows q hq
    have hN := hNq q hq
    have hi := inb_le hg1 s.flags
    have ho := outb_le hg1 s.flags
    unfold LapSetup.matrix tridagMatrix
    dsimp only
    rw [hper, if_pos rfl, ← hper]
    set base := baseRows s.opts (s.geom q) (s.coef q) s.periodicX (k * 2 * Real.pi / s.zlength)
      (s.bk rhs x0 q k)
    have hin : ∃ r1, (if (s.geom q).firstX = true then innerRows (s.geom q) (s.coef q) s.flags k
        (k * 2 * Real.pi / s.zlength) base else .ok base) = .ok r1
        ∧ (q = 0 → ∀ j, j < k0 → EndOk (r1 j) ∧ (r1 j).a = 0 ∧ β ≤ ‖(r1 j).b‖) := by
      by_cases hf : (s.geom q).firstX = true
      · rw [if_pos hf]
        have hq0 := hgf.1 hf
        obtain ⟨r, hr, _⟩ := innerRows_end (kz := k) (hkw k) (hh.pos q hq) hh.f1 hh.f2 (hA0 q hq)
          base 0 (by push_cast; omega)
        refine ⟨r, hr, fun _ j hj => ?_⟩
        have hj' : (j : Int) < inbndry (s.geom q).xstart s.flags := by
          rw [hq0, hh.widthIn]; omega
        obtain ⟨r', hr', he⟩ := innerRows_end (kz := k) (hkw k) (hh.pos q hq) hh.f1 hh.f2 (hA0 q hq)
          base j hj'
        rw [hr] at hr'
        cases hr'
        exact ⟨he, innerRows_a hr j hj', innerRows_b hh.f1 hh.f2 hr j hj' hh.half (hh.grad q hq j)⟩
      · rw [if_neg hf]
        exact ⟨base, rfl, fun h => absurd (hgf.2 h) hf⟩
    obtain ⟨r1, hr1, he1⟩ := hin
    rw [hr1]
    dsimp only
    by_cases hl : (s.geom q).lastX = true
    · rw [if_pos hl]
      have hlast := hgl.1 hl
      have hqP : s.P - 1 = q := by omega
      rw [hqP] at hk1'
      have hwo := hh.widthOut
      rw [hqP] at hwo
      have hNpos : 1 ≤ s.N q := by
        split_ifs at h1 h2 <;> omega
      obtain ⟨r, hr, _⟩ := outerRows_end (co := s.coef q) (kz := k) (per := s.periodicX) (hkw k)
        (hh.pos q hq) hh.f1 hh.f2 hh.f3 r1 (s.N q - 1) (by omega)
      refine ⟨r, hr, fun hq0 j hj => ?_, fun _ j hj hj2 => ?_⟩
      · have h1' : xs (s.geom q) s.periodicX = 0 := by rw [h1, if_pos hq0]
        have h2' : xe (s.geom q) s.periodicX = (s.geom q).localNx - 1 := by rw [h2, if_pos hlast]
        have hk0q : (k0 : Int) = (s.geom q).xstart := by rw [hk0', hq0]
        rw [outerRows_off hr j (by omega) (by omega)]
        exact he1 hq0 j hj
      · have hj' : xe (s.geom q) s.periodicX - xs (s.geom q) s.periodicX - (j : Int)
            < outbndry (s.geom q).xstart s.flags
            ∧ (j : Int) ≤ xe (s.geom q) s.periodicX - xs (s.geom q) s.periodicX := by omega
        obtain ⟨r', hr', he⟩ := outerRows_end (co := s.coef q) (kz := k) (per := s.periodicX) (hkw k)
          (hh.pos q hq) hh.f1 hh.f2 hh.f3 r1 j hj'
        rw [hr] at hr'
        cases hr'
        exact ⟨he, outerRows_c hh.f1 hh.f2 hh.f3 hr j hj',
          outerRows_b hh.f1 hh.f2 hh.f3 hr j hj' hh.half (hh.grad q hq)⟩
    · rw [if_neg hl]
      exact ⟨r1, rfl, he1, fun h => absurd (hgl.2 h) hl⟩
  have hrows : ∀ q, q < s.P → ∀ k, s.matrix rhs x0 q k = .ok (s.rows rhs x0 q k) := by
    intro q hq k
    obtain ⟨r, hr, _⟩ := hmat q hq k
    unfold LapSetup.rows
    rw [hr]
  refine ⟨hrows, (by
      intro q hq
      have h1 := hxs q hq
      have h2 := hxe q hq
      have h3 := hh.rows q hq
      have hN := hNq q hq
      obtain ⟨h4, _, h5, _, _⟩ := hg q hq
      split_ifs at h1 h2 <;> omega), (by
      intro k
      refine ⟨?_, ?_, ?_, ?_⟩
      · have h1 := hxs 0 (by omega)
        have h2 := hxe 0 (by omega)
        have h3 := hh.rows 0 (by omega)
        have hN := hNq 0 (by omega)
        obtain ⟨h4, _, h5, _, _⟩ := hg 0 (by omega)
        split_ifs at h1 h2 <;> omega
      · have h1 := hxs (s.P - 1) (by omega)
        have h2 := hxe (s.P - 1) (by omega)
        have h3 := hh.rows (s.P - 1) (by omega)
        have hN := hNq (s.P - 1) (by omega)
        obtain ⟨h4, _, h5, _, _⟩ := hg (s.P - 1) (by omega)
        split_ifs at h1 h2 <;> omega
      · intro hP1
        have e : s.P - 1 = 0 := by omega
        rw [e] at hk1'
        have h1 := hxs 0 (by omega)
        have h2 := hxe 0 (by omega)
        have h3 := hh.rows 0 (by omega)
        have hN := hNq 0 (by omega)
        obtain ⟨h4, _, h5, _, _⟩ := hg 0 (by omega)
        split_ifs at h1 h2 <;> omega
      · intro q hq j hj
        dsimp only
        obtain ⟨r, hr, he1, he2⟩ := hmat q hq k
        have er : s.rows rhs x0 q k = r := by
          have := hrows q hq k
          rw [hr] at this
          exact (Except.ok.inj this).symm
        rw [er]
        have h1 := hxs q hq
        have h2 := hxe q hq
        have h3 := hh.rows q hq
        have hN := hNq q hq
        obtain ⟨h4, _, h5, _, _⟩ := hg q hq
        have hix : s.ix q j = xs (s.geom q) s.periodicX + j := rfl
        by_cases c0 : q = 0 ∧ j < k0
        · have e : blockCls s.P s.N k0 k1 q j = 0 := if_pos c0
          rw [e]
          obtain ⟨⟨g1, _⟩, g2, hb⟩ := he1 c0.1 j c0.2
          unfold Row.gap at g1
          rw [g2, norm_zero] at g1
          exact ⟨g2, by linarith, hb⟩
        · by_cases c1 : q + 1 = s.P ∧ s.N q ≤ j + k1
          · have e : blockCls s.P s.N k0 k1 q j = 2 := by
              unfold blockCls; rw [if_neg c0, if_pos c1]
            rw [e]
            obtain ⟨⟨g1, _⟩, g2, hb⟩ := he2 c1.1 j hj c1.2
            unfold Row.gap at g1
            rw [g2, norm_zero] at g1
            exact ⟨g2, by linarith, hb⟩
          · have e : blockCls s.P s.N k0 k1 q j = 1 := by
              unfold blockCls; rw [if_neg c0, if_neg c1]
            rw [e]
            have hk0q : q = 0 → (k0 : Int) = (s.geom q).xstart := fun h => by rw [hk0', h]
            have hk1q : q + 1 = s.P → (k1 : Int) = (s.geom q).xstart := fun h => by
              rw [hk1', show s.P - 1 = q by omega]
            have hb1 : (s.geom q).xstart ≤ s.ix q j := by
              by_cases hq0 : q = 0
              · have := hk0q hq0
                rw [if_pos hq0] at h1; omega
              · rw [if_neg hq0] at h1; omega
            have hb2 : s.ix q j ≤ (s.geom q).xend := by
              by_cases hq0 : q + 1 = s.P
              · have := hk1q hq0
                rw [if_pos hq0] at h2; omega
              · rw [if_neg hq0] at h2; omega
            rw [matrix_interior hw hper hq hr j hb1 hb2]
            obtain ⟨t1, t2⟩ := interior_strict hsh rhs q k j (by omega) (by omega) (hh.g13 q hq _)
              ((hh.pos q hq _).2.2.2) (hh.d q hq _) hθ1 (hh.peclet q hq _) (hA0 q hq _)
              (hh.res q hq _)
            have := hh.a q hq (s.ix q j)
            exact ⟨t1, by linarith⟩)⟩

theorem wide_rows {s : LapSetup} (hw : s.WellFormed) (hper : s.periodicX = false)
    {θ β : ℝ} (hθ1 : θ ≤ 1) (hβ : 0 < β) (hh : HelmholtzWide s θ β)
    (rhs x0 : Nat → Int → Nat → ℝ) :
    (∀ q, q < s.P → ∀ k, s.matrix rhs x0 q k = .ok (s.rows rhs x0 q k)) ∧ (∀ q, q < s.P → 2 ≤ s.N q) ∧
      ∃ k0 k1, ∀ k, BlockDominant θ β s.P s.N k0 k1 (fun q j => s.rows rhs x0 q k j) :=
  let h := wide_rows_at hw hper hθ1 hβ hh rhs x0
  ⟨h.1, h.2.1, _, _, h.2.2⟩

/-- **Existence, any boundary width.**  A Helmholtz-type problem on any number of processors,
with as many boundary rows as guard cells, is solved whatever the right-hand side and the
boundary flags (of value, gradient, decay or cylinder type). -/
theorem C54_helmholtz_wide_succeeds {s : LapSetup} (hw : s.WellFormed) (hper : s.periodicX = false)
    {θ β : ℝ} (hθ : 0 < θ) (hθ1 : θ ≤ 1) (hβ : 0 < β) (hh : HelmholtzWide s θ β) {tiny : ℂ → Prop} (h0 : ∀ v, v = 0 → tiny v)
    (htiny : ∀ v, tiny v → ‖v‖ < θ * (θ * β)) (order : Nat → List Nat)
    (rhs x0 : Nat → Int → Nat → ℝ) : ∃ x, s.solve tiny order rhs x0 = .ok x := by
  obtain ⟨hrows, hN, k0, k1, hd⟩ := wide_rows hw hper hθ1 hβ hh rhs x0
  obtain ⟨X, hX⟩ := C22_block_succeeds hθ hθ1 hβ (P := s.P) (Nsys := s.maxmode + 1) (N := s.N)
    (periodic := s.periodicX) (co := s.rows rhs x0) (order := order) h0 htiny hw.1 hN (fun k _ => hd k)
  unfold LapSetup.solve
  rw [if_pos (fun q hq k _ => ⟨_, hrows q hq k⟩), hX]
  exact ⟨_, rfl⟩

/-- The example of `LaplaceExist` with two boundary cells. -/
noncomputable def exWide : LapSetup :=
  { exSetup with geom := fun q => { exGeom q with localNx := 7, xstart := 2, xend := 4 } }

theorem exWide_wellFormed : exWide.WellFormed := by
  refine ⟨by decide, by decide, by decide, rfl, ?_⟩
  intro q hq
  have hq' : q < 2 := hq
  refine ⟨by simp [exWide, exGeom], by simp [exWide, exGeom], by simp [exWide, exGeom],
    by simp [exWide, exGeom], ?_⟩
  simp only [exWide, exSetup, exGeom, decide_eq_true_eq]
  omega

/-- The hypotheses are met with two boundary cells on each side. -/
example (rhs x0 : Nat → Int → Nat → ℝ) :
    ∃ x, exWide.solve (fun v => ‖v‖ < 1 / 201 * (1 / 201 * (1 / 2))) (fun _ => [1, 0]) rhs x0 = .ok x := by
  refine C54_helmholtz_wide_succeeds exWide_wellFormed rfl (θ := 1 / 201) (β := 1 / 2)
    (by norm_num) (by norm_num) (by norm_num) ?_ (fun v hv => by rw [hv, norm_zero]; norm_num)
    (fun v hv => hv) _ rhs x0
  constructor
  · simp [exWide, exSetup]
  · intro q _ j; simp only [exWide, exGeom]; norm_num
  · intro q _ j; rfl
  · intro q _ j; simp [exWide, exSetup]
  · intro q _ j; simp only [exWide, exSetup]; norm_num
  · intro q _ j
    simp only [five, exWide, exSetup, exGeom]
    norm_num
  · intro q _ j
    simp only [five, exWide, exSetup, exGeom]
    norm_num
  · norm_num
  · intro q _ j; simp only [exWide, exGeom]; norm_num
  · decide
  · decide
  · intro q _; simp [exWide]
  · decide
  · decide
  · decide

end Verif.Laplace
