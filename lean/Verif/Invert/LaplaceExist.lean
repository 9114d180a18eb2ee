import Verif.Invert.LaplaceOuter
import Verif.Cyclic.Dominant

/-!
# C54: inversion of Helmholtz-type operators always succeeds
-/

namespace Verif.Laplace

open Verif.Fourier Verif.Cyclic Finset Complex
open scoped Classical

theorem norm_le_parts (x y : ℝ) : ‖(⟨x, y⟩ : ℂ)‖ ≤ |x| + |y| := by
  have := Complex.norm_le_abs_re_add_abs_im (⟨x, y⟩ : ℂ)
  simpa using this

theorem re_le_norm (x y : ℝ) : |x| ≤ ‖(⟨x, y⟩ : ℂ)‖ := by
  have := Complex.abs_re_le_norm (⟨x, y⟩ : ℂ)
  simpa using this

/-- The interior row of an operator without mixed derivative, whose second-derivative
coefficient outweighs the first-derivative one, has gap at least `-A`. -/
theorem interior_gap {s : LapSetup} (hs : s.opts.incIntShear = false)
    (rhs : Nat → Int → Nat → ℝ) (q k j : Nat) (h1 : 0 < s.ix q j)
    (h2 : s.ix q j < (s.geom q).localNx - 1) (hg13 : (s.geom q).g13 (s.ix q j) = 0)
    (hg33 : 0 ≤ (s.geom q).g33 (s.ix q j)) (hD : 0 ≤ (s.coef q).D (s.ix q j))
    (hpe : |(five s.opts (s.geom q) (s.ix q j) (some ((s.coef q).C1, (s.coef q).C2))
        (some (s.coef q).D)).c4|
      ≤ (five s.opts (s.geom q) (s.ix q j) (some ((s.coef q).C1, (s.coef q).C2))
        (some (s.coef q).D)).c1) (hA : (s.coef q).A (s.ix q j) ≤ 0) :
    -((s.coef q).A (s.ix q j)) ≤ (s.interiorRow rhs q k j).gap := by
  unfold LapSetup.interiorRow
  dsimp only
  rw [tridagCoefs_eq h1 h2 hs]
  set v := five s.opts (s.geom q) (s.ix q j) (some ((s.coef q).C1, (s.coef q).C2))
    (some (s.coef q).D) with hv
  have hc3 : v.c3 = 0 := by rw [hv]; unfold five; simp [hg13]
  have hc2 : 0 ≤ v.c2 := by rw [hv]; unfold five; exact mul_nonneg hg33 hD
  have hc1 : 0 ≤ v.c1 := le_trans (abs_nonneg _) hpe
  set A := (s.coef q).A (s.ix q j)
  set kw := (k : ℝ) * 2 * Real.pi / s.zlength
  unfold Row.gap
  dsimp only
  rw [hc3, mul_zero, mul_zero]
  have hp := abs_le.1 hpe
  have ea : ‖(⟨v.c1 - v.c4, 0⟩ : ℂ)‖ ≤ v.c1 - v.c4 := by
    refine (norm_le_parts _ _).trans ?_
    rw [abs_zero, add_zero, abs_of_nonneg (by linarith)]
  have ec : ‖(⟨v.c1 + v.c4, 0⟩ : ℂ)‖ ≤ v.c1 + v.c4 := by
    refine (norm_le_parts _ _).trans ?_
    rw [abs_zero, add_zero, abs_of_nonneg (by linarith)]
  have eb : 2 * v.c1 + kw ^ 2 * v.c2 - A
      ≤ ‖(⟨-2 * v.c1 - kw ^ 2 * v.c2, kw * v.c5⟩ : ℂ) + (A : ℂ)‖ := by
    have e : (⟨-2 * v.c1 - kw ^ 2 * v.c2, kw * v.c5⟩ : ℂ) + (A : ℂ)
        = ⟨-2 * v.c1 - kw ^ 2 * v.c2 + A, kw * v.c5⟩ := by
      apply Complex.ext <;> simp
    rw [e]
    refine le_trans ?_ (re_le_norm _ _)
    rw [abs_of_nonpos (by nlinarith [sq_nonneg kw, mul_nonneg (sq_nonneg kw) hc2])]
    linarith
  nlinarith [mul_nonneg (sq_nonneg kw) hc2]

/-- An end row `b x + c y = v` with real `|c| ≤ |b|`, `b ≠ 0`. -/
def EndOk (r : Row ℂ) : Prop := 0 ≤ r.gap ∧ r.b ≠ 0

theorem endOk_inner {b c : ℝ} {v : ℂ} (h : |c| ≤ |b|) (hb : b ≠ 0) :
    EndOk { a := 0, b := (b : ℂ), c := (c : ℂ), r := v } := by
  refine ⟨?_, by simpa using hb⟩
  unfold Row.gap
  dsimp only
  rw [norm_zero, Complex.norm_real, Complex.norm_real, Real.norm_eq_abs, Real.norm_eq_abs]
  linarith

theorem endOk_outer {a b : ℝ} {v : ℂ} (h : |a| ≤ |b|) (hb : b ≠ 0) :
    EndOk { a := (a : ℂ), b := (b : ℂ), c := 0, r := v } := by
  refine ⟨?_, by simpa using hb⟩
  unfold Row.gap
  dsimp only
  rw [norm_zero, Complex.norm_real, Complex.norm_real, Real.norm_eq_abs, Real.norm_eq_abs]
  linarith

theorem exp_abs_le {t : ℝ} (ht : t ≤ 0) : |-Real.exp t| ≤ |(1 : ℝ)| := by
  rw [abs_neg, abs_one, abs_of_pos (Real.exp_pos _)]
  exact Real.exp_le_one_iff.2 ht

/-- The metric of a processor is positive. -/
def Geom.Positive (g : Geom) : Prop :=
  ∀ j, 0 < g.dx j ∧ 0 < g.gd11 j ∧ 0 < g.g11 j ∧ 0 ≤ g.g33 j

theorem innerRows_end {g : Geom} {co : LapCoef} {fl : LapFlags} {kz : Nat} {kw : ℝ} (hkw : 0 ≤ kw)
    (hp : g.Positive) (hf1 : has fl.inner INVERT_DC_GRADPAR = false)
    (hf2 : has fl.inner INVERT_DC_GRADPARINV = false) (hA : ∀ i, co.A i ≤ 0) (rows : Nat → Row ℂ)
    (j : Nat) (hj : (j : Int) < inbndry g.xstart fl) :
    ∃ r, innerRows g co fl kz kw rows = .ok r ∧ EndOk (r j) := by
  have hon : ∀ v w, setRows (fun ix : Nat => (ix : Int) < inbndry g.xstart fl) v w j
      = { a := (v j).a, b := (v j).b, c := (v j).c, r := (w j).r } := fun v w => setRows_on hj
  obtain ⟨hdx, hg1, hg2, hg3⟩ := hp j
  have hs1 : 0 < Real.sqrt (g.gd11 j) := Real.sqrt_pos.2 hg1
  have hs2 : 0 < Real.sqrt (g.g11 j) := Real.sqrt_pos.2 hg2
  have hpos : -1 / Real.sqrt (g.gd11 j) / g.dx j ≠ 0 := by
    have : 0 < 1 / Real.sqrt (g.gd11 j) / g.dx j := by positivity
    rw [neg_div, neg_div]; exact neg_ne_zero.2 this.ne'
  have habs : |1 / Real.sqrt (g.gd11 j) / g.dx j| ≤ |-1 / Real.sqrt (g.gd11 j) / g.dx j| := by
    rw [neg_div, neg_div, abs_neg]
  have one : EndOk (Row.mk 0 ((-1 : ℝ) : ℂ) ((1 : ℝ) : ℂ) ((0 : ℝ) : ℂ)) :=
    endOk_inner (by norm_num) (by norm_num)
  have hGrad : ∀ v : ℂ, EndOk { a := 0, b := -1, c := 1, r := v } := by
    intro v
    have := endOk_inner (b := -1) (c := 1) (v := v) (by norm_num) (by norm_num)
    simpa using this
  have hCyl : ∀ v : ℂ, ∀ e : ℂ, e = 1 ∨ e = -1 → EndOk { a := 0, b := 1, c := e, r := v } := by
    intro v e he
    rcases he with rfl | rfl
    · have := endOk_inner (b := 1) (c := 1) (v := v) (by norm_num) (by norm_num)
      simpa using this
    · have := endOk_inner (b := 1) (c := -1) (v := v) (by norm_num) (by norm_num)
      simpa using this
  have hExp : ∀ v : ℂ, ∀ t : ℝ, t ≤ 0 →
      EndOk { a := 0, b := 1, c := ((-Real.exp t : ℝ) : ℂ), r := v } := by
    intro v t ht
    have := endOk_inner (b := 1) (c := -Real.exp t) (v := v) (exp_abs_le ht) (by norm_num)
    rw [ofReal_one] at this
    exact this
  unfold innerRows
  dsimp only
  rw [hf1, hf2]
  simp only [Bool.false_eq_true, if_false]
  have hk : dcLapK co (inbndry g.xstart fl) = .ok (Real.sqrt (-(co.A (inbndry g.xstart fl)))) := by
    unfold dcLapK
    rw [if_neg]
    have := hA (inbndry g.xstart fl)
    linarith
  rw [hk]
  dsimp only
  split_ifs <;> refine ⟨_, rfl, ?_⟩ <;> rw [hon] <;> dsimp only
  all_goals first
    | exact endOk_inner habs hpos
    | exact hGrad _
    | exact hCyl _ _ (Or.inl rfl)
    | exact hCyl _ _ (Or.inr rfl)
    | (refine hExp _ _ ?_
       rw [neg_mul, neg_div]
       exact neg_nonpos.2 (div_nonneg (mul_nonneg (Real.sqrt_nonneg _) hdx.le) hs2.le))
    | (refine hExp _ _ ?_
       have : 0 ≤ Real.sqrt (g.g33 j / g.g11 j) * kw * g.dx j :=
         mul_nonneg (mul_nonneg (Real.sqrt_nonneg _) hkw) hdx.le
       nlinarith)
    | exact endOk_inner (by norm_num) (by norm_num)

theorem outerRows_end {g : Geom} {co : LapCoef} {fl : LapFlags} {per : Bool} {kz : Nat} {kw : ℝ}
    (hkw : 0 ≤ kw)
    (hp : g.Positive) (hf1 : has fl.inner INVERT_DC_GRADPAR = false)
    (hf2 : has fl.inner INVERT_DC_GRADPARINV = false)
    (hf3 : has fl.inner INVERT_DC_LAP = false) (rows : Nat → Row ℂ)
    (j : Nat) (hj : xe g per - xs g per - (j : Int) < outbndry g.xstart fl
      ∧ (j : Int) ≤ xe g per - xs g per) :
    ∃ r, outerRows g co fl per kz kw rows = .ok r ∧ EndOk (r j) := by
  have hon : ∀ v w, setRows (fun p : Nat => xe g per - xs g per - (p : Int) < outbndry g.xstart fl
      ∧ (p : Int) ≤ xe g per - xs g per) v w j
      = { a := (v j).a, b := (v j).b, c := (v j).c, r := (w j).r } := fun v w => setRows_on hj
  have hpos : ∀ i : Int, 1 / Real.sqrt (g.gd11 i) / g.dx i ≠ 0 := by
    intro i
    obtain ⟨hdx, hg1, _, _⟩ := hp i
    have hs1 : 0 < Real.sqrt (g.gd11 i) := Real.sqrt_pos.2 hg1
    have : 0 < 1 / Real.sqrt (g.gd11 i) / g.dx i := by positivity
    exact this.ne'
  have habs : ∀ i : Int, |-1 / Real.sqrt (g.gd11 i) / g.dx i| ≤ |1 / Real.sqrt (g.gd11 i) / g.dx i| := by
    intro i
    rw [neg_div, neg_div, abs_neg]
  have hGrad : ∀ v : ℂ, EndOk { a := 1, b := -1, c := 0, r := v } := by
    intro v
    have := endOk_outer (a := 1) (b := -1) (v := v) (by norm_num) (by norm_num)
    simpa using this
  have hExp : ∀ v : ℂ, ∀ t : ℝ, t ≤ 0 →
      EndOk { a := ((-Real.exp t : ℝ) : ℂ), b := 1, c := 0, r := v } := by
    intro v t ht
    have := endOk_outer (b := 1) (a := -Real.exp t) (v := v) (exp_abs_le ht) (by norm_num)
    rw [ofReal_one] at this
    exact this
  unfold outerRows
  dsimp only
  rw [hf1, hf2, hf3]
  simp only [Bool.false_eq_true, if_false]
  split_ifs <;> refine ⟨_, rfl, ?_⟩ <;> rw [hon] <;> dsimp only
  all_goals first
    | exact endOk_outer (habs _) (hpos _)
    | exact hGrad _
    | (refine hExp _ _ ?_
       obtain ⟨hdx, _, _, _⟩ := hp (xs g per + j)
       have : 0 ≤ Real.sqrt (g.g33 (xs g per + j) / g.g11 (xs g per + j)) * kw * g.dx (xs g per + j) :=
         mul_nonneg (mul_nonneg (Real.sqrt_nonneg _) hkw) hdx.le
       nlinarith)
    | exact endOk_outer (by norm_num) (by norm_num)

/-- A problem of Helmholtz type: positive metric without `g13`, `D ≥ 0`, `A ≤ -δ`, grid
fine enough that the first derivative in X does not dominate the second, one boundary
cell solved for on each side, no parallel boundary conditions. -/
structure Helmholtz (s : LapSetup) (δ : ℝ) : Prop where
  zlen : 0 < s.zlength
  pos : ∀ q, q < s.P → (s.geom q).Positive
  g13 : ∀ q, q < s.P → ∀ j, (s.geom q).g13 j = 0
  d : ∀ q, q < s.P → ∀ j, 0 ≤ (s.coef q).D j
  a : ∀ q, q < s.P → ∀ j, (s.coef q).A j ≤ -δ
  peclet : ∀ q, q < s.P → ∀ j,
    |(five s.opts (s.geom q) j (some ((s.coef q).C1, (s.coef q).C2)) (some (s.coef q).D)).c4|
      ≤ (five s.opts (s.geom q) j (some ((s.coef q).C1, (s.coef q).C2)) (some (s.coef q).D)).c1
  width : ∀ q, q < s.P → (s.geom q).xstart = 1
  rows : ∀ q, q < s.P → (s.geom q).xstart < (s.geom q).xend
  f1 : has s.flags.inner INVERT_DC_GRADPAR = false
  f2 : has s.flags.inner INVERT_DC_GRADPARINV = false
  f3 : has s.flags.inner INVERT_DC_LAP = false

/-- **Existence.**  For a Helmholtz-type problem on any number of processors the
inversion returns a solution, whatever the right-hand side and the boundary flags (of
value, gradient, decay or cylinder type). -/
theorem C54_helmholtz_succeeds {s : LapSetup} (hw : s.WellFormed) (hper : s.periodicX = false)
    {δ : ℝ} (hδ : 0 < δ) (hh : Helmholtz s δ) {tiny : ℂ → Prop} (h0 : ∀ v, v = 0 → tiny v)
    (htiny : ∀ v, tiny v → ‖v‖ < δ) (order : Nat → List Nat) (rhs x0 : Nat → Int → Nat → ℝ) :
    ∃ x, s.solve tiny order rhs x0 = .ok x := by
  obtain ⟨hP, hn, hmm, hsh, hg⟩ := id hw
  have hkw : ∀ k : Nat, 0 ≤ (k : ℝ) * 2 * Real.pi / s.zlength := by
    intro k
    have := hh.zlen
    have := Real.pi_pos
    positivity
  have hA0 : ∀ q, q < s.P → ∀ i, (s.coef q).A i ≤ 0 := fun q hq i => (hh.a q hq i).trans (by linarith)
  have hwidthi : ∀ q, q < s.P → inbndry (s.geom q).xstart s.flags = 1 := by
    intro q hq
    have := inb_le (hg q hq).1 s.flags
    have := hh.width q hq
    omega
  have hwidtho : ∀ q, q < s.P → outbndry (s.geom q).xstart s.flags = 1 := by
    intro q hq
    have := outb_le (hg q hq).1 s.flags
    have := hh.width q hq
    omega
  -- first and last rows
  have hxs : ∀ q, q < s.P → xs (s.geom q) s.periodicX = if q = 0 then 0 else 1 := by
    intro q hq
    obtain ⟨_, _, _, hgf, _⟩ := hg q hq
    have hx1 := hh.width q hq
    unfold xs
    by_cases hq0 : q = 0
    · rw [if_pos hq0, if_neg]; simp [hper, hgf.2 hq0]
    · rw [if_neg hq0, if_pos, hx1]
      left
      rw [← Bool.not_eq_true]
      exact fun h => hq0 (hgf.1 h)
  have hxe : ∀ q, q < s.P → xe (s.geom q) s.periodicX
      = if q + 1 = s.P then (s.geom q).localNx - 1 else (s.geom q).xend := by
    intro q hq
    obtain ⟨_, _, _, _, hgl⟩ := hg q hq
    unfold xe
    by_cases hq0 : q + 1 = s.P
    · rw [if_pos hq0, if_neg]; simp [hper, hgl.2 hq0]
    · rw [if_neg hq0, if_pos]
      left
      rw [← Bool.not_eq_true]
      exact fun h => hq0 (hgl.1 h)
  have hNq : ∀ q, q < s.P → ((s.N q : Nat) : Int)
      = xe (s.geom q) s.periodicX - xs (s.geom q) s.periodicX + 1 := by
    intro q hq
    have h1 := hxs q hq
    have h2 := hxe q hq
    have h3 := hh.rows q hq
    have h4 := hh.width q hq
    obtain ⟨_, _, h5, _, _⟩ := hg q hq
    unfold LapSetup.N
    split_ifs at h1 h2 <;> omega
  -- all matrices are made
  have hmat : ∀ q, q < s.P → ∀ k, ∃ r, s.matrix rhs x0 q k = .ok r
      ∧ (q = 0 → EndOk (r 0)) ∧ (q + 1 = s.P → EndOk (r (s.N q - 1))) := by
    intro q hq k
    obtain ⟨hg1, hg2, hg3, hgf, hgl⟩ := hg q hq
    have h1 := hxs q hq
    have h2 := hxe q hq
    have h3 := hh.rows q hq
    have h4 := hh.width q hq
    have hN := hNq q hq
    have hi1 := hwidthi q hq
    have ho1 := hwidtho q hq
    unfold LapSetup.matrix tridagMatrix
    dsimp only
    rw [hper, if_pos rfl, ← hper]
    set base := baseRows s.opts (s.geom q) (s.coef q) s.periodicX (k * 2 * Real.pi / s.zlength)
      (s.bk rhs x0 q k)
    have hin : ∃ r1, (if (s.geom q).firstX = true then innerRows (s.geom q) (s.coef q) s.flags k
        (k * 2 * Real.pi / s.zlength) base else .ok base) = .ok r1 ∧ (q = 0 → EndOk (r1 0)) := by
      by_cases hf : (s.geom q).firstX = true
      · rw [if_pos hf]
        obtain ⟨r, hr, he⟩ := innerRows_end (kz := k) (hkw k) (hh.pos q hq) hh.f1 hh.f2 (hA0 q hq)
          base 0 (by rw [hi1]; norm_num)
        exact ⟨r, hr, fun _ => he⟩
      · rw [if_neg hf]
        exact ⟨base, rfl, fun h => absurd (hgf.2 h) hf⟩
    obtain ⟨r1, hr1, he1⟩ := hin
    rw [hr1]
    dsimp only
    by_cases hl : (s.geom q).lastX = true
    · rw [if_pos hl]
      have hlast := hgl.1 hl
      have hNpos : 3 ≤ s.N q := by
        split_ifs at h1 h2 <;> omega
      have hcast : ((s.N q - 1 : Nat) : Int) = (s.N q : Int) - 1 := by omega
      obtain ⟨r, hr, he⟩ := outerRows_end (co := s.coef q) (kz := k) (per := s.periodicX) (hkw k)
        (hh.pos q hq) hh.f1 hh.f2 hh.f3 r1 (s.N q - 1) (by rw [ho1]; omega)
      refine ⟨r, hr, fun hq0 => ?_, fun _ => he⟩
      rw [outerRows_off hr 0 (by rw [ho1]; push_cast; omega) (by rw [hi1]; push_cast; omega)]
      exact he1 hq0
    · rw [if_neg hl]
      exact ⟨r1, rfl, he1, fun h => absurd (hgl.2 h) hl⟩
  have hall : ∀ q, q < s.P → ∀ kz, kz < s.maxmode + 1 → ∃ r, s.matrix rhs x0 q kz = .ok r := by
    intro q hq k _
    obtain ⟨r, hr, _⟩ := hmat q hq k
    exact ⟨r, hr⟩
  have hrows : ∀ q, q < s.P → ∀ k, s.matrix rhs x0 q k = .ok (s.rows rhs x0 q k) := by
    intro q hq k
    obtain ⟨r, hr, _⟩ := hmat q hq k
    unfold LapSetup.rows
    rw [hr]
  have hdist := C22_dominant_succeeds hδ htiny (P := s.P) (Nsys := s.maxmode + 1) (N := s.N)
    (periodic := s.periodicX) (co := s.rows rhs x0) (order := order) h0 hP (by
      intro q hq
      have h1 := hxs q hq
      have h2 := hxe q hq
      have h3 := hh.rows q hq
      have h4 := hh.width q hq
      have hN := hNq q hq
      obtain ⟨_, _, h5, _, _⟩ := hg q hq
      split_ifs at h1 h2 <;> omega) (by
      intro hP1
      have hq : 0 < s.P := by omega
      have h1 := hxs 0 hq
      have h2 := hxe 0 hq
      have h3 := hh.rows 0 hq
      have h4 := hh.width 0 hq
      have hN := hNq 0 hq
      obtain ⟨_, _, h5, _, _⟩ := hg 0 hq
      split_ifs at h1 h2 <;> omega) (by
      intro k _ q hq j hj
      dsimp only
      obtain ⟨r, hr, he1, he2⟩ := hmat q hq k
      have er : s.rows rhs x0 q k = r := by
        have := hrows q hq k
        rw [hr] at this
        exact (Except.ok.inj this).symm
      have h1 := hxs q hq
      have h2 := hxe q hq
      have h3 := hh.rows q hq
      have h4 := hh.width q hq
      have hN := hNq q hq
      obtain ⟨_, _, h5, _, _⟩ := hg q hq
      have hix : s.ix q j = xs (s.geom q) s.periodicX + j := rfl
      by_cases he : EndRow s.P s.N q j
      · right
        refine ⟨hper, he, ?_⟩
        rw [er]
        rcases he with ⟨e1, e2⟩ | ⟨e1, e2⟩
        · rw [e2]; exact he1 e1
        · rw [show j = s.N q - 1 by omega]; exact he2 e1
      · left
        unfold EndRow at he
        have hi1 : (s.geom q).xstart ≤ s.ix q j := by split_ifs at h1 h2 <;> omega
        have hi2 : s.ix q j ≤ (s.geom q).xend := by split_ifs at h1 h2 <;> omega
        rw [er, matrix_interior hw hper hq hr j hi1 hi2]
        refine le_trans ?_ (interior_gap hsh rhs q k j (by omega) (by omega) (hh.g13 q hq _)
          ((hh.pos q hq _).2.2.2) (hh.d q hq _) (hh.peclet q hq _) (hA0 q hq _))
        have := hh.a q hq (s.ix q j)
        linarith)
  obtain ⟨X, hX⟩ := hdist
  unfold LapSetup.solve
  rw [if_pos hall, hX]
  exact ⟨_, rfl⟩

/-! ## A concrete problem

Two processors with three X points each, eight Z points, `Delp2(x) - x = rhs` in slab
geometry with value conditions inside and zero gradient outside. -/

noncomputable def exGeom (q : Nat) : Geom :=
  { localNx := 5, xstart := 1, xend := 3, firstX := decide (q = 0), lastX := decide (q = 1)
    dx := fun _ => 1 / 10, g11 := fun _ => 1, g33 := fun _ => 1, g13 := fun _ => 0
    G1 := fun _ => 0, G3 := fun _ => 0, gd11 := fun _ => 1, gd22 := fun _ => 1
    torsion := fun _ => 0 }

noncomputable def exSetup : LapSetup :=
  { P := 2, n := 8, zlength := 1, maxmode := 4, periodicX := false
    opts := { allTerms := true, nonuniform := true, incIntShear := false }
    flags := { global := 0, inner := 0, outer := 3 }
    geom := exGeom
    coef := fun _ => { A := fun _ => -1, C1 := fun _ => 1, C2 := fun _ => 1, D := fun _ => 1 } }

theorem exSetup_wellFormed : exSetup.WellFormed := by
  refine ⟨by decide, by decide, by decide, rfl, ?_⟩
  intro q hq
  have hq' : q < 2 := hq
  refine ⟨by simp [exSetup, exGeom], by simp [exSetup, exGeom], by simp [exSetup, exGeom],
    by simp [exSetup, exGeom], ?_⟩
  simp only [exSetup, exGeom, decide_eq_true_eq]
  omega

theorem exSetup_helmholtz : Helmholtz exSetup 1 := by
  constructor
  · simp [exSetup]
  · intro q _ j; simp only [exSetup, exGeom]; norm_num
  · intro q _ j; rfl
  · intro q _ j; simp [exSetup]
  · intro q _ j; simp [exSetup]
  · intro q _ j
    simp only [five, exSetup, exGeom]
    norm_num
  · intro q _; rfl
  · intro q _; simp [exSetup, exGeom]
  · decide
  · decide
  · decide

/-- Every right-hand side is inverted, so the hypotheses of the theorems on the solution
are met. -/
example (rhs x0 : Nat → Int → Nat → ℝ) :
    ∃ x, exSetup.solve (fun v => ‖v‖ < 1 / 2) (fun _ => [1, 0]) rhs x0 = .ok x :=
  C54_helmholtz_succeeds exSetup_wellFormed rfl (by norm_num : (0 : ℝ) < 1) exSetup_helmholtz
    (fun v hv => by rw [hv, norm_zero]; norm_num) (fun v hv => by linarith) _ rhs x0

end Verif.Laplace
