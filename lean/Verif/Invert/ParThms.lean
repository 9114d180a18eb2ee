import Verif.Invert.ParProps

/-!
# C55: the parallel inversions solve the equations they state
-/

namespace Verif.Par

open Verif.Fourier Verif.Cyclic Finset Complex
open Verif.Laplace (cw cw_congr cw_add cw_smul cw_deriv deriv_cw waves_eq_cw irfft_cw leftOf rightOf diffZ
  prevVal_left nextVal_right Five cw_row)

/-- Two outcomes of mode-by-mode equality. -/
theorem cw_rows {n : Nat} {c : Nat → ℂ} {r : Nat → ℝ} (h : ∀ k, k ≤ n / 2 → c k = rfft n r k) :
    cw n c = cw n (rfft n r) :=
  cw_congr (by rw [h 0 (Nat.zero_le _)]) fun m _ h2 => h m (by omega)

/-- The entries of `InvertParCR`, applied to amplitudes, are the operator applied to the
waves. -/
theorem coefPar_operator {n : Nat} (hn : 0 < n) (nu : Bool) (g : Geom) (co : Coefs) (L : ℝ) (y : Int)
    (hg : 0 < g.g22 y) (Fm F Fp : Nat → ℂ) (t : ℝ) :
    cw n (fun k => (coefPar nu g co y (k * 2 * Real.pi / L)).1 * Fm k
        + (coefPar nu g co y (k * 2 * Real.pi / L)).2.1 * F k
        + (coefPar nu g co y (k * 2 * Real.pi / L)).2.2 * Fp k) t
      = parOperator nu g co (n / L) y (cw n Fm) (cw n F) (cw n Fp) t := by
  let v : Five :=
    { c1 := co.B y / g.g22 y / (g.dy y) ^ 2
      c2 := co.D y
      c3 := co.C y / (2 * g.dy y)
      c4 := (co.E y + sg g y * co.B y + (if nu then co.B y / g.g22 y * g.d1dy y else 0)) / (2 * g.dy y)
      c5 := 0 }
  have key : (fun k : Nat => (coefPar nu g co y (k * 2 * Real.pi / L)).1 * Fm k
        + (coefPar nu g co y (k * 2 * Real.pi / L)).2.1 * F k
        + (coefPar nu g co y (k * 2 * Real.pi / L)).2.2 * Fp k)
      = fun k : Nat => ((⟨v.c1 - v.c4, -(k * 2 * Real.pi / L) * v.c3⟩ : ℂ) * Fm k
        + (⟨-2 * v.c1 - (k * 2 * Real.pi / L) ^ 2 * v.c2, (k * 2 * Real.pi / L) * v.c5⟩ : ℂ) * F k
        + (⟨v.c1 + v.c4, (k * 2 * Real.pi / L) * v.c3⟩ : ℂ) * Fp k) + (co.A y : ℂ) * F k := by
    funext k
    have e1 : ∀ x y : ℝ, (⟨x, y⟩ : ℂ) = (x : ℂ) + (y : ℂ) * I := fun x y => by
      apply Complex.ext <;> simp
    have hh : (0.5 : ℝ) = 1 / 2 := by norm_num
    unfold coefPar
    simp only [e1, v, hh]
    cases nu <;> simp only [if_true, if_false, Bool.false_eq_true] <;> push_cast <;> ring
  rw [key, cw_add n _ _ t, cw_smul, cw_row hn L v Fm F Fp t]
  have hx : deriv (diffY (g.dy y) (cw n Fm) (cw n Fp)) t
      = (deriv (cw n Fp) t - deriv (cw n Fm) t) / (2 * g.dy y) := by
    have := ((cw_deriv n Fp t).sub (cw_deriv n Fm t)).div_const (2 * g.dy y)
    rw [deriv_cw, deriv_cw]
    exact this.deriv
  have hsq : 1 / Real.sqrt (g.g22 y) * (1 / Real.sqrt (g.g22 y)) = 1 / g.g22 y := by
    rw [div_mul_div_comm, Real.mul_self_sqrt hg.le]; norm_num
  unfold parOperator grad2par2 diffYY diffZ
  rw [hx]
  unfold diffY
  simp only [v, sg]
  generalize deriv (fun u => (n / L : ℝ) * deriv (cw n F) u) t = a1
  generalize deriv (cw n Fp) t = a3
  generalize deriv (cw n Fm) t = a4
  generalize 1 / Real.sqrt (g.g22 (y + 1)) = sp
  generalize 1 / Real.sqrt (g.g22 (y - 1)) = sm
  generalize hs0 : 1 / Real.sqrt (g.g22 y) = s0 at hsq ⊢
  have hdiv : ∀ u : ℝ, u / Real.sqrt (g.g22 y) = u * s0 := fun u => by rw [← hs0]; ring
  have hdivg : ∀ u : ℝ, u / g.g22 y = u * (s0 * s0) := fun u => by rw [hsq]; ring
  rw [hdiv, hdivg]
  cases nu <;> simp only [if_true, if_false, Bool.false_eq_true] <;> ring

/-- **C55 (InvertPar).**  On any number of processors along a flux surface, open or
closed, for any order of message arrival and whatever earlier surfaces left in the
work arrays: whenever `InvertParCR::solve` returns, its result `x` satisfies
`(A + B Grad2_par2 + C D2DYDZ + D D2DZ2 + E DDY) x = rhs`
at every Y index off the targets, for the waves through the points of each row; the
rows before and after are taken across processor boundaries, and moved by the twist
angle across the branch cut of a closed surface. -/
theorem C55_par (s : Surface) (hw : s.WellFormed) (tiny : ℂ → Prop) [DecidablePred tiny]
    (h0 : ∀ v, v = 0 → tiny v) (order : Nat → List Nat)
    (hord : ∀ q, q < s.P → (order q).Perm (List.range s.P)) (stale : Nat → Nat → Nat → Row ℂ)
    (rhs : Nat → Int → Nat → ℝ) (x : Nat → Nat → Nat → ℝ)
    (h : s.solve .par tiny order stale rhs = .ok x)
    (a b : Nat → Nat → Nat → ℝ) (M : Nat → Nat → ℝ)
    (hx : ∀ q j, IsRow s.n (x q j) (a q j) (b q j) (M q j))
    (q j : Nat) (hq : q < s.P) (h1 : s.localYstart q ≤ s.iy q j) (h2 : s.iy q j ≤ (s.geom q).yend)
    (hg : 0 < (s.geom q).g22 (s.iy q j))
    (ar br : Nat → ℝ) (Nr : ℝ) (hr : IsRow s.n (rhs q (s.iy q j)) ar br Nr) (t : ℝ) :
    let W := fun q j => waves s.n (a q j) (b q j)
    parOperator s.nonuniform (s.geom q) (s.coef q) (s.n / s.zlength) (s.iy q j)
      (s.below W q j) (W q j) (s.above W q j) t = waves s.n ar br t := by
  dsimp only
  obtain ⟨hP, hn, _⟩ := id hw
  obtain ⟨X, hX, rfl⟩ := solve_view hP h0 hord h
  have hW : (fun q j => waves s.n (a q j) (b q j)) = fun q j => cw s.n fun k => X q k j :=
    funext fun q => funext fun j => result_waves hn _ (hx q j)
  rw [hW, ← cw_below hn, ← cw_above hn, waves_eq_cw hn hr, result_waves hn _ (hx q j),
    ← coefPar_operator hn _ _ _ _ _ hg]
  refine congrFun (cw_rows fun k hk => ?_) t
  exact mode_row hw hX hq h1 h2 k hk

/-- Linearity of `irfft` for real factors. -/
theorem irfft_row {n : Nat} (hn : 0 < n) (a b c : ℝ) (F G H : Nat → ℂ) (z : Nat) :
    irfft n (fun k => (a : ℂ) * F k + (b : ℂ) * G k + (c : ℂ) * H k) z
      = a * irfft n F z + b * irfft n G z + c * irfft n H z := by
  rw [irfft_cw hn, irfft_cw hn, irfft_cw hn, irfft_cw hn, cw_add n _ _ (z : ℝ), cw_add n _ _ (z : ℝ),
    cw_smul, cw_smul, cw_smul]
  unfold sawtooth
  split_ifs
  · simp only [add_re, re_ofReal_mul]; ring
  · ring

/-- Pointwise: the matrix entries of `InvertParDivCR` are `A + Div_par_K_Grad_par`. -/
theorem coefDiv_operator (g : Geom) (co : Coefs) (y : Int) (R : Num.YRank) (C : Num.Col ℝ)
    (hJ : C.J = g.J) (hdy : C.dy = g.dy) (hg : C.g22 = g.g22) :
    (coefDiv g co y).1.re * C.f (y - 1) + (coefDiv g co y).2.1.re * C.f y
        + (coefDiv g co y).2.2.re * C.f (y + 1)
      = co.A y * C.f y + Num.divParKGradPar R true C co.B y := by
  have hh : (0.5 : ℝ) = 1 / 2 := by norm_num
  unfold coefDiv Num.divParKGradPar
  simp only [ofReal_re, if_true, true_or, hJ, hdy, hg, hh, div_eq_mul_inv, mul_inv]
  ring

/-- The entries of `InvertParDivCR` are real. -/
theorem coefDiv_real (g : Geom) (co : Coefs) (y : Int) :
    (coefDiv g co y).1 = ((coefDiv g co y).1.re : ℂ) ∧ (coefDiv g co y).2.1 = ((coefDiv g co y).2.1.re : ℂ)
      ∧ (coefDiv g co y).2.2 = ((coefDiv g co y).2.2.re : ℂ) := by
  unfold coefDiv
  exact ⟨rfl, rfl, rfl⟩

theorem phaseMinus_zero : phaseMinus 0 = 1 := by
  unfold phaseMinus; apply Complex.ext <;> simp

theorem phasePlus_zero : phasePlus 0 = 1 := by
  unfold phasePlus; apply Complex.ext <;> simp

/-- **C55 (InvertParDiv).**  Whenever `InvertParDivCR::solve` returns, on an open surface
or a closed one without twist, at every point off the targets the result satisfies
`A x + Div_par(B Grad_par x) = rhs`, where the divergence is that of
`FV::Div_par_K_Grad_par` (model of C29) applied to the column through the point. -/
theorem C55_div (s : Surface) (hw : s.WellFormed) (tiny : ℂ → Prop) [DecidablePred tiny]
    (h0 : ∀ v, v = 0 → tiny v) (order : Nat → List Nat)
    (hord : ∀ q, q < s.P → (order q).Perm (List.range s.P)) (stale : Nat → Nat → Nat → Row ℂ)
    (rhs : Nat → Int → Nat → ℝ) (x : Nat → Nat → Nat → ℝ)
    (h : s.solve .div tiny order stale rhs = .ok x) (hts : s.closed = true → s.ts = 0)
    (q j : Nat) (hq : q < s.P) (h1 : s.localYstart q ≤ s.iy q j) (h2 : s.iy q j ≤ (s.geom q).yend)
    (z : Nat) (hz : z < s.n) (R : Num.YRank) (C : Num.Col ℝ) (hJ : C.J = (s.geom q).J)
    (hdy : C.dy = (s.geom q).dy) (hg : C.g22 = (s.geom q).g22)
    (hf : C.f (s.iy q j) = x q j z)
    (hl : C.f (s.iy q j - 1) = x (leftOf s.P s.N q j).1 (leftOf s.P s.N q j).2 z)
    (hr : C.f (s.iy q j + 1) = x (rightOf s.P s.N q j).1 (rightOf s.P s.N q j).2 z) :
    (s.coef q).A (s.iy q j) * x q j z + Num.divParKGradPar R true C (s.coef q).B (s.iy q j)
      = rhs q (s.iy q j) z := by
  obtain ⟨hP, hn, _⟩ := id hw
  obtain ⟨X, hX, rfl⟩ := solve_view hP h0 hord h
  rw [← hf, ← coefDiv_operator (s.geom q) (s.coef q) (s.iy q j) R C hJ hdy hg, hf, hl, hr,
    ← irfft_row hn, ← C53_roundtrip s.n (rhs q (s.iy q j)) z hz]
  rw [irfft_cw hn, irfft_cw hn]
  have key : ∀ k, k ≤ s.n / 2 →
      (((coefDiv (s.geom q) (s.coef q) (s.iy q j)).1.re : ℝ) : ℂ)
          * X (leftOf s.P s.N q j).1 k (leftOf s.P s.N q j).2
        + (((coefDiv (s.geom q) (s.coef q) (s.iy q j)).2.1.re : ℝ) : ℂ) * X q k j
        + (((coefDiv (s.geom q) (s.coef q) (s.iy q j)).2.2.re : ℝ) : ℂ)
          * X (rightOf s.P s.N q j).1 k (rightOf s.P s.N q j).2
        = rfft s.n (rhs q (s.iy q j)) k := by
    intro k hk
    rw [← mode_row hw hX hq h1 h2 k hk]
    obtain ⟨e1, e2, e3⟩ := coefDiv_real (s.geom q) (s.coef q) (s.iy q j)
    have hm : (if s.closed = true ∧ q = 0 ∧ j = 0 then phaseMinus (s.kw k * s.ts) else 1) = 1 := by
      split_ifs with hc
      · rw [hts hc.1, mul_zero, phaseMinus_zero]
      · rfl
    have hp : (if s.closed = true ∧ q + 1 = s.P ∧ j + 1 = s.N q then phasePlus (s.kw k * s.ts) else 1)
        = 1 := by
      split_ifs with hc
      · rw [hts hc.1, mul_zero, phasePlus_zero]
      · rfl
    unfold Surface.ampBelow Surface.ampAbove Surface.entries
    dsimp only
    rw [hm, hp, mul_one, mul_one, ← e1, ← e2, ← e3]
  rw [cw_rows key, key (s.n / 2) le_rfl]

/-- **C55 (InvertParDiv, closed surface with twist).**  The same for the waves through the
points of each row, the rows across the branch cut moved by the twist angle. -/
theorem C55_div_twist (s : Surface) (hw : s.WellFormed) (tiny : ℂ → Prop) [DecidablePred tiny]
    (h0 : ∀ v, v = 0 → tiny v) (order : Nat → List Nat)
    (hord : ∀ q, q < s.P → (order q).Perm (List.range s.P)) (stale : Nat → Nat → Nat → Row ℂ)
    (rhs : Nat → Int → Nat → ℝ) (x : Nat → Nat → Nat → ℝ)
    (h : s.solve .div tiny order stale rhs = .ok x)
    (a b : Nat → Nat → Nat → ℝ) (M : Nat → Nat → ℝ)
    (hx : ∀ q j, IsRow s.n (x q j) (a q j) (b q j) (M q j))
    (q j : Nat) (hq : q < s.P) (h1 : s.localYstart q ≤ s.iy q j) (h2 : s.iy q j ≤ (s.geom q).yend)
    (ar br : Nat → ℝ) (Nr : ℝ) (hr : IsRow s.n (rhs q (s.iy q j)) ar br Nr) (t : ℝ)
    (R : Num.YRank) (C : Num.Col ℝ) (hJ : C.J = (s.geom q).J)
    (hdy : C.dy = (s.geom q).dy) (hg : C.g22 = (s.geom q).g22) :
    let W := fun q j => waves s.n (a q j) (b q j)
    C.f (s.iy q j) = W q j t → C.f (s.iy q j - 1) = s.below W q j t →
    C.f (s.iy q j + 1) = s.above W q j t →
    (s.coef q).A (s.iy q j) * W q j t + Num.divParKGradPar R true C (s.coef q).B (s.iy q j)
      = waves s.n ar br t := by
  dsimp only
  obtain ⟨hP, hn, _⟩ := id hw
  obtain ⟨X, hX, rfl⟩ := solve_view hP h0 hord h
  have hW : (fun q j => waves s.n (a q j) (b q j)) = fun q j => cw s.n fun k => X q k j :=
    funext fun q => funext fun j => result_waves hn _ (hx q j)
  intro hf hl hu
  rw [hW, ← cw_below hn] at hl
  rw [hW, ← cw_above hn] at hu
  rw [← hf, ← coefDiv_operator (s.geom q) (s.coef q) (s.iy q j) R C hJ hdy hg, hf, hl, hu,
    result_waves hn _ (hx q j), waves_eq_cw hn hr, ← cw_smul, ← cw_smul, ← cw_smul,
    ← cw_add s.n _ _ t, ← cw_add s.n _ _ t]
  refine congrFun (cw_rows fun k hk => ?_) t
  rw [← mode_row hw hX hq h1 h2 k hk]
  obtain ⟨e1, e2, e3⟩ := coefDiv_real (s.geom q) (s.coef q) (s.iy q j)
  unfold Surface.entries
  dsimp only
  rw [← e1, ← e2, ← e3]

/-- Rows at the lower target. -/
theorem row_lower {s : Surface} (hw : s.WellFormed) (kind : Kind) (stale : Nat → Nat → Nat → Row ℂ)
    (rhs : Nat → Int → Nat → ℝ) (hopen : s.closed = false) (k j : Nat)
    (hj : (j : Int) < (s.geom 0).ystart) :
    s.row kind stale rhs 0 k j = { a := 0, b := 1, c := -1, r := 0 }
      ∧ j < s.N 0 ∧ (j + 1 ≠ s.N 0 ∨ 0 + 1 ≠ s.P ∨ s.closed = true) := by
  obtain ⟨hP, _, hg⟩ := hw
  obtain ⟨g1, g2⟩ := hg 0 (by omega)
  have hf : s.firstY 0 = true := by unfold Surface.firstY; simp [hopen]
  have hl : s.lastY 0 = true ↔ 0 + 1 = s.P := by unfold Surface.lastY; simp [hopen]
  have hsz : (s.geom 0).ystart ≤ s.size 0
      ∧ (s.lastY 0 = true → 2 * (s.geom 0).ystart ≤ s.size 0) := by
    unfold Surface.size
    rw [if_pos hf]
    constructor
    · split_ifs <;> omega
    · intro h; rw [if_pos h]; split_ifs <;> omega
  refine ⟨?_, by unfold Surface.N; omega, ?_⟩
  · unfold Surface.row
    dsimp only
    rw [hopen, if_neg (by simp), if_neg, if_pos ⟨hf, hj⟩]
    rintro ⟨hl', h3, _⟩
    have := hsz.2 hl'
    omega
  · by_cases h1 : 0 + 1 = s.P
    · have := hsz.2 (hl.2 h1)
      left
      unfold Surface.N
      omega
    · exact Or.inr (Or.inl h1)

/-- Rows at the upper target. -/
theorem row_upper {s : Surface} (hw : s.WellFormed) (kind : Kind) (stale : Nat → Nat → Nat → Row ℂ)
    (rhs : Nat → Int → Nat → ℝ) (hopen : s.closed = false) (q k j : Nat) (hq : q + 1 = s.P)
    (hj : s.size q - (s.geom q).ystart ≤ (j : Int)) (hj' : (j : Int) < s.size q) :
    s.row kind stale rhs q k j = { a := -1, b := 1, c := 0, r := 0 }
      ∧ j < s.N q ∧ (j ≠ 0 ∨ q ≠ 0 ∨ s.closed = true) := by
  obtain ⟨hP, _, hg⟩ := hw
  obtain ⟨g1, g2⟩ := hg q (by omega)
  have hl : s.lastY q = true := by unfold Surface.lastY; simp [hopen, hq]
  refine ⟨?_, by unfold Surface.N; omega, ?_⟩
  · unfold Surface.row
    dsimp only
    rw [hopen, if_neg (by simp), if_pos ⟨hl, hj, hj'⟩]
  · by_cases h1 : q = 0
    · have hf : s.firstY q = true := by unfold Surface.firstY; simp [hopen, h1]
      left
      unfold Surface.size at hj
      rw [if_pos hf, if_pos hl] at hj
      split_ifs at hj <;> omega
    · exact Or.inr (Or.inl h1)

/-- Rows with the same amplitudes are the same. -/
theorem irfft_eq {n : Nat} (hn : 0 < n) {c d : Nat → ℂ} (h : ∀ k, k ≤ n / 2 → c k = d k) :
    irfft n c = irfft n d := by
  funext z
  rw [irfft_cw hn, irfft_cw hn, h (n / 2) le_rfl,
    cw_congr (by rw [h 0 (Nat.zero_le _)]) fun m _ h2 => h m (by omega)]

/-- **C55 (targets).**  On an open surface the result has zero gradient through each
target: every guard row below the first interior row equals the row above it
(for a field at the lower Y face, the row on the target itself belongs to the
boundary), every guard row above the last interior row equals the row below it. -/
theorem C55_targets (s : Surface) (hw : s.WellFormed) (kind : Kind) (tiny : ℂ → Prop) [DecidablePred tiny]
    (h0 : ∀ v, v = 0 → tiny v) (order : Nat → List Nat)
    (hord : ∀ q, q < s.P → (order q).Perm (List.range s.P)) (stale : Nat → Nat → Nat → Row ℂ)
    (rhs : Nat → Int → Nat → ℝ) (x : Nat → Nat → Nat → ℝ)
    (h : s.solve kind tiny order stale rhs = .ok x) (hopen : s.closed = false) (q j : Nat)
    (hq : q < s.P) (hj : j < s.N q) :
    (q = 0 → s.iy q j < s.localYstart q →
      x q j = x (rightOf s.P s.N q j).1 (rightOf s.P s.N q j).2) ∧
    (q + 1 = s.P → (s.geom q).yend < s.iy q j →
      x q j = x (leftOf s.P s.N q j).1 (leftOf s.P s.N q j).2) := by
  obtain ⟨hP, hn, hg⟩ := id hw
  obtain ⟨g1, g2⟩ := hg q hq
  obtain ⟨X, hX, rfl⟩ := solve_view hP h0 hord h
  constructor
  · rintro rfl hlow
    have hf : s.firstY 0 = true := by unfold Surface.firstY; simp [hopen]
    have hjy : (j : Int) < (s.geom 0).ystart := by
      unfold Surface.iy Surface.y0 at hlow
      rw [if_pos hf] at hlow
      omega
    refine irfft_eq hn fun k hk => ?_
    have := hX k hk 0 hq j hj
    obtain ⟨e, _, hr⟩ := row_lower hw kind stale rhs hopen k j hjy
    dsimp only at this
    rw [e] at this
    unfold Row.Holds at this
    rw [nextVal_right hr] at this
    dsimp only at this
    linear_combination this
  · intro hl' hup
    have hl : s.lastY q = true := by unfold Surface.lastY; simp [hopen, hl']
    have hjs : (j : Int) < s.size q := by unfold Surface.N at hj; omega
    have hjy : s.size q - (s.geom q).ystart ≤ (j : Int) := by
      unfold Surface.iy Surface.y0 Surface.localYstart Geom.yend at hup
      unfold Surface.size
      rw [if_pos hl]
      cases hf : s.firstY q <;> cases hy : s.ylow <;> simp [hf, hy] at hup ⊢ <;> omega
    refine irfft_eq hn fun k hk => ?_
    have := hX k hk q hq j hj
    obtain ⟨e, _, hr⟩ := row_upper hw kind stale rhs hopen q k j hl' hjy hjs
    dsimp only at this
    rw [e] at this
    unfold Row.Holds at this
    rw [prevVal_left hr] at this
    dsimp only at this
    linear_combination this

/-- Every local Y index off the guard cells, and at the targets the guard cells too, is
solved for, once: the row number of local index `y` is `y - local_ystart + y0`. -/
theorem C55_rows_cover (s : Surface) (hw : s.WellFormed) (q : Nat) (hq : q < s.P) (y : Int)
    (h1 : (s.geom q).ystart ≤ y) (h2 : y ≤ (s.geom q).yend) :
    ∃ j, j < s.N q ∧ s.iy q j = y ∧ ∀ j', s.iy q j' = y → j' = j := by
  obtain ⟨hP, hn, hg⟩ := id hw
  obtain ⟨g1, g2⟩ := hg q hq
  have hb : 0 ≤ y - s.localYstart q + s.y0 q ∧ y - s.localYstart q + s.y0 q < s.size q := by
    unfold Surface.y0 Surface.localYstart Surface.size
    unfold Geom.yend at h2
    cases hf : s.firstY q <;> cases hy : s.ylow <;> cases hl : s.lastY q <;> simp <;> omega
  refine ⟨(y - s.localYstart q + s.y0 q).toNat, by unfold Surface.N; omega, ?_, ?_⟩
  · unfold Surface.iy; omega
  · intro j' hj'
    unfold Surface.iy at hj'
    omega

end Verif.Par
