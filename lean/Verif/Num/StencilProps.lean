import Verif.Num.Stencil
import Mathlib.Algebra.Polynomial.Derivative
import Mathlib.Algebra.Polynomial.Eval.Degree
import Mathlib.Tactic.FieldSimp
import Mathlib.Tactic.Linarith
import Mathlib.Tactic.Positivity
import Mathlib.Tactic.LinearCombination

/-! # C30: the stencils differentiate polynomials of their order exactly -/
namespace Verif.Num

variable {K : Type} [Field K] [LinearOrder K] [IsStrictOrderedRing K]

open Polynomial

/-! ## Specification: a polynomial sampled on a uniform grid -/

/-- Position of point `i` of a field at its location: cell centres are at `x0 + i h`, the lower faces half a cell
below. -/
def pos (x0 h : K) (low : Bool) (i : Int) : K := if low then x0 + (i : K) * h - h / 2 else x0 + (i : K) * h

/-- The field obtained by sampling `P`. -/
def sample (P : K[X]) (x0 h : K) (low : Bool) (i : Int) : K := P.eval (pos x0 h low i)

/-- The location of the input and of the output of a staggered derivative (`low` at both for an unstaggered one). -/
def inLow : Stagger → Bool → Bool
  | .none, l => l
  | .c2l, _ => false
  | .l2c, _ => true
/-- Location of the output. -/
def outLow : Stagger → Bool → Bool
  | .none, l => l
  | .c2l, _ => true
  | .l2c, _ => false

/-! ## Values of a polynomial of low degree -/

omit [LinearOrder K] [IsStrictOrderedRing K] in
theorem eval5 (P : K[X]) (hP : P.natDegree ≤ 5) (x : K) :
    P.eval x = P.coeff 0 + P.coeff 1 * x + P.coeff 2 * x ^ 2 + P.coeff 3 * x ^ 3 + P.coeff 4 * x ^ 4 +
      P.coeff 5 * x ^ 5 := by
  rw [eval_eq_sum_range' (n := 6) (by omega)]
  simp [Finset.sum_range_succ]

omit [LinearOrder K] [IsStrictOrderedRing K] in
theorem deriv5 (P : K[X]) (hP : P.natDegree ≤ 5) (x : K) :
    P.derivative.eval x = P.coeff 1 + 2 * P.coeff 2 * x + 3 * P.coeff 3 * x ^ 2 + 4 * P.coeff 4 * x ^ 3 +
      5 * P.coeff 5 * x ^ 4 := by
  rw [eval5 _ ((natDegree_derivative_le P).trans (by omega))]
  simp only [coeff_derivative]
  rw [coeff_eq_zero_of_natDegree_lt (show P.natDegree < 5 + 1 by omega)]
  push_cast
  ring

omit [LinearOrder K] [IsStrictOrderedRing K] in
theorem deriv5_2 (P : K[X]) (hP : P.natDegree ≤ 5) (x : K) :
    P.derivative.derivative.eval x = 2 * P.coeff 2 + 6 * P.coeff 3 * x + 12 * P.coeff 4 * x ^ 2 +
      20 * P.coeff 5 * x ^ 3 := by
  rw [deriv5 _ ((natDegree_derivative_le P).trans (by omega))]
  simp only [coeff_derivative]
  rw [coeff_eq_zero_of_natDegree_lt (show P.natDegree < 5 + 1 by omega)]
  push_cast
  ring

omit [LinearOrder K] [IsStrictOrderedRing K] in
theorem deriv5_4 (P : K[X]) (hP : P.natDegree ≤ 5) (x : K) :
    P.derivative.derivative.derivative.derivative.eval x = 24 * P.coeff 4 + 120 * P.coeff 5 * x := by
  rw [deriv5_2 _ ((natDegree_derivative_le _).trans (((Nat.sub_le_sub_right (natDegree_derivative_le P) 1)).trans
    (by omega)))]
  simp only [coeff_derivative]
  rw [coeff_eq_zero_of_natDegree_lt (show P.natDegree < 5 + 1 by omega),
    coeff_eq_zero_of_natDegree_lt (show P.natDegree < 5 + 1 + 1 by omega)]
  push_cast
  ring

omit [LinearOrder K] [IsStrictOrderedRing K] in
theorem coeff_zero_of {P : K[X]} {d k : Nat} (h : P.natDegree ≤ d) (hk : d < k) : P.coeff k = 0 :=
  coeff_eq_zero_of_natDegree_lt (by omega)

/-! ## Unstaggered methods -/

omit [LinearOrder K] [IsStrictOrderedRing K] in
/-- The points of an unstaggered stencil at index `i`, whatever the location. -/
theorem populate_sample_none (P : K[X]) (x0 h nan : K) (low : Bool) (i : Int) :
    populate .none true nan (sample P x0 h low) i =
      let x := pos x0 h low i
      ⟨P.eval (x - 2 * h), P.eval (x - h), P.eval x, P.eval (x + h), P.eval (x + 2 * h)⟩ := by
  unfold populate sample pos
  cases low <;> simp only [if_true, Bool.false_eq_true, if_false] <;> push_cast <;> congr 2 <;> ring

omit [LinearOrder K] [IsStrictOrderedRing K] in
theorem populate_sample_narrow (P : K[X]) (x0 h nan : K) (low : Bool) (i : Int) :
    populate .none false nan (sample P x0 h low) i =
      let x := pos x0 h low i
      ⟨nan, P.eval (x - h), P.eval x, P.eval (x + h), nan⟩ := by
  unfold populate sample pos
  cases low <;> simp only [if_true, Bool.false_eq_true, if_false] <;> push_cast <;> congr 2 <;> ring

/-- **C30.** Central first derivatives: `C2` is exact on quadratics and `C4` on quartics, at every point of every
uniform grid (the stencil value divided by the spacing is the derivative).  `nan` is the content of the points the
registered number of guard cells leaves out. -/
theorem C30_first_central (P : K[X]) (x0 h nan : K) (hh : h ≠ 0) (low : Bool) (i : Int) :
    (P.natDegree ≤ 2 → standard DDX_C2 .none false nan (sample P x0 h low) i / h = P.derivative.eval (pos x0 h low i)) ∧
    (P.natDegree ≤ 4 → standard DDX_C4 .none true nan (sample P x0 h low) i / h = P.derivative.eval (pos x0 h low i)) := by
  constructor
  · intro hP
    unfold standard
    rw [populate_sample_narrow]
    simp only [DDX_C2, eval5 P (show P.natDegree ≤ 5 by omega), deriv5 P (show P.natDegree ≤ 5 by omega),
      coeff_zero_of hP (show 2 < 3 by omega), coeff_zero_of hP (show 2 < 4 by omega),
      coeff_zero_of hP (show 2 < 5 by omega)]
    field_simp
    ring
  · intro hP
    unfold standard
    rw [populate_sample_none]
    simp only [DDX_C4, eval5 P (show P.natDegree ≤ 5 by omega), deriv5 P (show P.natDegree ≤ 5 by omega),
      coeff_zero_of hP (show 4 < 5 by omega)]
    field_simp
    ring

/-- **C30.** The smoothing method `S2` is exact on cubics. -/
theorem C30_first_S2 (P : K[X]) (hP : P.natDegree ≤ 3) (x0 h nan : K) (hh : h ≠ 0) (low : Bool) (i : Int) :
    standard DDX_S2 .none true nan (sample P x0 h low) i / h = P.derivative.eval (pos x0 h low i) := by
  unfold standard
  rw [populate_sample_none]
  simp only [DDX_S2, eval5 P (show P.natDegree ≤ 5 by omega), deriv5 P (show P.natDegree ≤ 5 by omega),
    coeff_zero_of hP (show 3 < 4 by omega), coeff_zero_of hP (show 3 < 5 by omega)]
  generalize (SIGN _ : K) = s
  field_simp
  ring

/-- **C30.** The weighted method `W2` is a convex combination of the one-sided and central differences, so it lies
between the two one-sided slopes. -/
theorem C30_W2_between (f : Stencil K) :
    min (f.c - f.m) (f.p - f.c) ≤ DDX_CWENO2 f ∧ DDX_CWENO2 f ≤ max (f.c - f.m) (f.p - f.c) := by
  have hw : (0 : K) < WENO_SMALL := by unfold WENO_SMALL; norm_num
  have key : ∀ al ar ac dl dr : K, 0 < al → 0 < ar → 0 < ac →
      min dl dr ≤ (al * dl + ar * dr + ac * (1/2 * (dl + dr))) / (al + ar + ac) ∧
      (al * dl + ar * dr + ac * (1/2 * (dl + dr))) / (al + ar + ac) ≤ max dl dr := by
    intro al ar ac dl dr h1 h2 h3
    have hs : 0 < al + ar + ac := by positivity
    rw [le_div_iff₀ hs, div_le_iff₀ hs]
    have m1 := min_le_left dl dr
    have m2 := min_le_right dl dr
    have m3 := le_max_left dl dr
    have m4 := le_max_right dl dr
    generalize min dl dr = mn at *
    generalize max dl dr = mx at *
    constructor
    · nlinarith [mul_le_mul_of_nonneg_left m1 h1.le, mul_le_mul_of_nonneg_left m2 h2.le,
        mul_le_mul_of_nonneg_left m1 h3.le, mul_le_mul_of_nonneg_left m2 h3.le]
    · nlinarith [mul_le_mul_of_nonneg_left m3 h1.le, mul_le_mul_of_nonneg_left m4 h2.le,
        mul_le_mul_of_nonneg_left m3 h3.le, mul_le_mul_of_nonneg_left m4 h3.le]
  have hpos : ∀ x : K, 0 ≤ x → ∀ c : K, 0 < c → 0 < c / ((WENO_SMALL + x) * (WENO_SMALL + x)) := by
    intro x hx c hc
    have : 0 < WENO_SMALL + x := by linarith
    positivity
  unfold DDX_CWENO2
  simp only
  have e : 1/2 * (f.p - f.m) = 1/2 * ((f.c - f.m) + (f.p - f.c)) := by ring
  rw [e]
  exact key _ _ _ _ _ (hpos _ (mul_self_nonneg _) _ (by norm_num)) (hpos _ (mul_self_nonneg _) _ (by norm_num))
    (hpos _ (by
      have := mul_self_nonneg (f.p - 2 * f.c + f.m)
      have := mul_self_nonneg (f.p - f.m)
      linarith) _ (by norm_num))

/-- **C30.** `W2` is exact on linear functions. -/
theorem C30_first_W2 (P : K[X]) (hP : P.natDegree ≤ 1) (x0 h nan : K) (hh : h ≠ 0) (low : Bool) (i : Int) :
    standard DDX_CWENO2 .none false nan (sample P x0 h low) i / h = P.derivative.eval (pos x0 h low i) := by
  unfold standard
  have hb := C30_W2_between (populate .none false nan (sample P x0 h low) i)
  have e1 : (populate .none false nan (sample P x0 h low) i).c - (populate .none false nan (sample P x0 h low) i).m =
      P.derivative.eval (pos x0 h low i) * h := by
    rw [populate_sample_narrow]
    simp only [eval5 P (show P.natDegree ≤ 5 by omega), deriv5 P (show P.natDegree ≤ 5 by omega),
      coeff_zero_of hP (show 1 < 2 by omega), coeff_zero_of hP (show 1 < 3 by omega),
      coeff_zero_of hP (show 1 < 4 by omega), coeff_zero_of hP (show 1 < 5 by omega)]
    ring
  have e2 : (populate .none false nan (sample P x0 h low) i).p - (populate .none false nan (sample P x0 h low) i).c =
      P.derivative.eval (pos x0 h low i) * h := by
    rw [populate_sample_narrow]
    simp only [eval5 P (show P.natDegree ≤ 5 by omega), deriv5 P (show P.natDegree ≤ 5 by omega),
      coeff_zero_of hP (show 1 < 2 by omega), coeff_zero_of hP (show 1 < 3 by omega),
      coeff_zero_of hP (show 1 < 4 by omega), coeff_zero_of hP (show 1 < 5 by omega)]
    ring
  rw [e1, e2, min_self, max_self] at hb
  rw [le_antisymm hb.2 hb.1, mul_div_cancel_right₀ _ hh]

/-- **C30.** Central second derivatives: `C2` is exact on cubics, `C4` on quintics; fourth derivative `C2` on
quintics. -/
theorem C30_higher_central (P : K[X]) (x0 h nan : K) (hh : h ≠ 0) (low : Bool) (i : Int) :
    (P.natDegree ≤ 3 → standard D2DX2_C2 .none false nan (sample P x0 h low) i / h ^ 2 =
      P.derivative.derivative.eval (pos x0 h low i)) ∧
    (P.natDegree ≤ 5 → standard D2DX2_C4 .none true nan (sample P x0 h low) i / h ^ 2 =
      P.derivative.derivative.eval (pos x0 h low i)) ∧
    (P.natDegree ≤ 5 → standard D4DX4_C2 .none true nan (sample P x0 h low) i / h ^ 4 =
      P.derivative.derivative.derivative.derivative.eval (pos x0 h low i)) := by
  refine ⟨fun hP => ?_, fun hP => ?_, fun hP => ?_⟩
  · unfold standard
    rw [populate_sample_narrow]
    simp only [D2DX2_C2, eval5 P (show P.natDegree ≤ 5 by omega), deriv5_2 P (show P.natDegree ≤ 5 by omega),
      coeff_zero_of hP (show 3 < 4 by omega), coeff_zero_of hP (show 3 < 5 by omega)]
    field_simp
    ring
  · unfold standard
    rw [populate_sample_none]
    simp only [D2DX2_C4, eval5 P hP, deriv5_2 P hP]
    field_simp
    ring
  · unfold standard
    rw [populate_sample_none]
    simp only [D4DX4_C2, eval5 P hP, deriv5_4 P hP]
    field_simp
    ring

/-- **C30.** Upwind methods applied to a sampled polynomial give velocity times derivative: `C2` on quadratics, `C4` on
quartics, `U1` on linear functions, `U2` on quadratics, `U3` on cubics, `W3` on quadratics, for every velocity. -/
theorem C30_upwind (P : K[X]) (x0 h nan : K) (hh : h ≠ 0) (low : Bool) (v : Int → K) (i : Int) :
    (P.natDegree ≤ 2 → flowValue VDDX_C2 false nan v (sample P x0 h low) i / h =
      v i * P.derivative.eval (pos x0 h low i)) ∧
    (P.natDegree ≤ 4 → flowValue VDDX_C4 true nan v (sample P x0 h low) i / h =
      v i * P.derivative.eval (pos x0 h low i)) ∧
    (P.natDegree ≤ 1 → flowValue VDDX_U1 false nan v (sample P x0 h low) i / h =
      v i * P.derivative.eval (pos x0 h low i)) ∧
    (P.natDegree ≤ 2 → flowValue VDDX_U2 true nan v (sample P x0 h low) i / h =
      v i * P.derivative.eval (pos x0 h low i)) ∧
    (P.natDegree ≤ 3 → flowValue VDDX_U3 true nan v (sample P x0 h low) i / h =
      v i * P.derivative.eval (pos x0 h low i)) ∧
    (P.natDegree ≤ 2 → flowValue VDDX_WENO3 true nan v (sample P x0 h low) i / h =
      v i * P.derivative.eval (pos x0 h low i)) := by
  refine ⟨fun hP => ?_, fun hP => ?_, fun hP => ?_, fun hP => ?_, fun hP => ?_, fun hP => ?_⟩
  · unfold flowValue
    rw [populate_sample_narrow]
    simp only [VDDX_C2, eval5 P (show P.natDegree ≤ 5 by omega), deriv5 P (show P.natDegree ≤ 5 by omega),
      coeff_zero_of hP (show 2 < 3 by omega), coeff_zero_of hP (show 2 < 4 by omega),
      coeff_zero_of hP (show 2 < 5 by omega)]
    field_simp
    ring
  · unfold flowValue
    rw [populate_sample_none]
    simp only [VDDX_C4, eval5 P (show P.natDegree ≤ 5 by omega), deriv5 P (show P.natDegree ≤ 5 by omega),
      coeff_zero_of hP (show 4 < 5 by omega)]
    field_simp
    ring
  · unfold flowValue
    rw [populate_sample_narrow]
    simp only [VDDX_U1, eval5 P (show P.natDegree ≤ 5 by omega), deriv5 P (show P.natDegree ≤ 5 by omega),
      coeff_zero_of hP (show 1 < 2 by omega), coeff_zero_of hP (show 1 < 3 by omega),
      coeff_zero_of hP (show 1 < 4 by omega), coeff_zero_of hP (show 1 < 5 by omega)]
    by_cases hv : v i ≥ 0
    · rw [if_pos hv]; field_simp; ring
    · rw [if_neg hv]; field_simp; ring
  · unfold flowValue
    rw [populate_sample_none]
    simp only [VDDX_U2, eval5 P (show P.natDegree ≤ 5 by omega), deriv5 P (show P.natDegree ≤ 5 by omega),
      coeff_zero_of hP (show 2 < 3 by omega), coeff_zero_of hP (show 2 < 4 by omega),
      coeff_zero_of hP (show 2 < 5 by omega)]
    by_cases hv : v i ≥ 0
    · rw [if_pos hv]; field_simp; ring
    · rw [if_neg hv]; field_simp; ring
  · unfold flowValue
    rw [populate_sample_none]
    simp only [VDDX_U3, eval5 P (show P.natDegree ≤ 5 by omega), deriv5 P (show P.natDegree ≤ 5 by omega),
      coeff_zero_of hP (show 3 < 4 by omega), coeff_zero_of hP (show 3 < 5 by omega)]
    by_cases hv : v i ≥ 0
    · rw [if_pos hv]; field_simp; ring
    · rw [if_neg hv]; field_simp; ring
  · unfold flowValue
    have h3 : ∀ (f : Stencil K) (u : K), -f.mm + 3 * f.m - 3 * f.c + f.p = 0 → -f.m + 3 * f.c - 3 * f.p + f.pp = 0 →
        VDDX_WENO3 u f = u * (1/2 * (f.p - f.m)) := by
      intro f u h1 h2
      unfold VDDX_WENO3
      by_cases hu : u > 0
      · simp only [if_pos hu, h1, mul_zero, sub_zero]
      · simp only [if_neg hu, h2, mul_zero, sub_zero]
    rw [populate_sample_none, h3]
    · simp only [eval5 P (show P.natDegree ≤ 5 by omega), deriv5 P (show P.natDegree ≤ 5 by omega),
        coeff_zero_of hP (show 2 < 3 by omega), coeff_zero_of hP (show 2 < 4 by omega),
        coeff_zero_of hP (show 2 < 5 by omega)]
      field_simp
      ring
    · simp only [eval5 P (show P.natDegree ≤ 5 by omega), coeff_zero_of hP (show 2 < 3 by omega),
        coeff_zero_of hP (show 2 < 4 by omega), coeff_zero_of hP (show 2 < 5 by omega)]
      ring
    · simp only [eval5 P (show P.natDegree ≤ 5 by omega), coeff_zero_of hP (show 2 < 3 by omega),
        coeff_zero_of hP (show 2 < 4 by omega), coeff_zero_of hP (show 2 < 5 by omega)]
      ring

/-- **C30.** The split method `W3` for first derivatives is exact on quadratics. -/
theorem C30_first_W3 (P : K[X]) (hP : P.natDegree ≤ 2) (x0 h nan : K) (hh : h ≠ 0) (low : Bool) (i : Int) :
    standard DDX_CWENO3 .none true nan (sample P x0 h low) i / h = P.derivative.eval (pos x0 h low i) := by
  have h3 : ∀ (f : Stencil K) (u : K), -f.mm + 3 * f.m - 3 * f.c + f.p = 0 → -f.m + 3 * f.c - 3 * f.p + f.pp = 0 →
      VDDX_WENO3 u f = u * (1/2 * (f.p - f.m)) := by
    intro f u h1 h2
    unfold VDDX_WENO3
    by_cases hu : u > 0
    · simp only [if_pos hu, h1, mul_zero, sub_zero]
    · simp only [if_neg hu, h2, mul_zero, sub_zero]
  have key : ∀ f : Stencil K, -f.mm + 3 * f.m - 3 * f.c + f.p = 0 → -f.m + 3 * f.c - 3 * f.p + f.pp = 0 →
      DDX_CWENO3 f = 1/2 * (f.p - f.m) := by
    intro f h1 h2
    have hma : ∀ ma : K, VDDX_WENO3 (1/2) ⟨f.mm + ma, f.m + ma, f.c + ma, f.p + ma, f.pp + ma⟩ +
        VDDX_WENO3 (-(1/2)) ⟨ma - f.mm, ma - f.m, ma - f.c, ma - f.p, ma - f.pp⟩ = 1/2 * (f.p - f.m) := by
      intro ma
      rw [h3 ⟨f.mm + ma, f.m + ma, f.c + ma, f.p + ma, f.pp + ma⟩ _ (by simp only; linear_combination h1)
        (by simp only; linear_combination h2),
        h3 ⟨ma - f.mm, ma - f.m, ma - f.c, ma - f.p, ma - f.pp⟩ _ (by simp only; linear_combination -h1)
        (by simp only; linear_combination -h2)]
      ring
    unfold DDX_CWENO3
    exact hma _
  unfold standard
  rw [populate_sample_none, key]
  · simp only [eval5 P (show P.natDegree ≤ 5 by omega), deriv5 P (show P.natDegree ≤ 5 by omega),
      coeff_zero_of hP (show 2 < 3 by omega), coeff_zero_of hP (show 2 < 4 by omega),
      coeff_zero_of hP (show 2 < 5 by omega)]
    field_simp
    ring
  · simp only [eval5 P (show P.natDegree ≤ 5 by omega), coeff_zero_of hP (show 2 < 3 by omega),
      coeff_zero_of hP (show 2 < 4 by omega), coeff_zero_of hP (show 2 < 5 by omega)]
    ring
  · simp only [eval5 P (show P.natDegree ≤ 5 by omega), coeff_zero_of hP (show 2 < 3 by omega),
      coeff_zero_of hP (show 2 < 4 by omega), coeff_zero_of hP (show 2 < 5 by omega)]
    ring

/-! ## Staggered methods -/

/-- The four points of a staggered stencil lie symmetrically about the output location. -/
theorem populate_sample_stag (P : K[X]) (x0 h nan : K) (st : Stagger) (hst : st ≠ .none) (l : Bool) (i : Int) :
    let s := populate st true nan (sample P x0 h (inLow st l)) i
    let x := pos x0 h (outLow st l) i
    s.mm = P.eval (x - 3 * h / 2) ∧ s.m = P.eval (x - h / 2) ∧ s.p = P.eval (x + h / 2) ∧
      s.pp = P.eval (x + 3 * h / 2) := by
  cases st
  · exact absurd rfl hst
  · simp only [populate, sample, pos, inLow, outLow, if_true, Bool.false_eq_true, if_false]
    refine ⟨?_, ?_, ?_, ?_⟩ <;> congr 1 <;> push_cast <;> ring
  · simp only [populate, sample, pos, inLow, outLow, if_true, Bool.false_eq_true, if_false]
    refine ⟨?_, ?_, ?_, ?_⟩ <;> congr 1 <;> push_cast <;> ring

theorem populate_sample_stag_narrow (P : K[X]) (x0 h nan : K) (st : Stagger) (hst : st ≠ .none) (l : Bool) (i : Int) :
    let s := populate st false nan (sample P x0 h (inLow st l)) i
    let x := pos x0 h (outLow st l) i
    s.m = P.eval (x - h / 2) ∧ s.p = P.eval (x + h / 2) := by
  cases st
  · exact absurd rfl hst
  · simp only [populate, sample, pos, inLow, outLow, if_true, Bool.false_eq_true, if_false]
    refine ⟨?_, ?_⟩ <;> congr 1 <;> push_cast <;> ring
  · simp only [populate, sample, pos, inLow, outLow, if_true, Bool.false_eq_true, if_false]
    refine ⟨?_, ?_⟩ <;> congr 1 <;> push_cast <;> ring

/-- **C30.** Staggered derivatives in both directions (centre to lower face, lower face to centre): `C2` exact on
quadratics, `C4` on quartics, second derivative `C2` on cubics, evaluated at the output location. -/
theorem C30_staggered (P : K[X]) (x0 h nan : K) (hh : h ≠ 0) (st : Stagger) (hst : st ≠ .none) (l : Bool) (i : Int) :
    (P.natDegree ≤ 2 → standard DDX_C2_stag st false nan (sample P x0 h (inLow st l)) i / h =
      P.derivative.eval (pos x0 h (outLow st l) i)) ∧
    (P.natDegree ≤ 4 → standard DDX_C4_stag st true nan (sample P x0 h (inLow st l)) i / h =
      P.derivative.eval (pos x0 h (outLow st l) i)) ∧
    (P.natDegree ≤ 3 → standard D2DX2_C2_stag st true nan (sample P x0 h (inLow st l)) i / h ^ 2 =
      P.derivative.derivative.eval (pos x0 h (outLow st l) i)) := by
  refine ⟨fun hP => ?_, fun hP => ?_, fun hP => ?_⟩
  · obtain ⟨e1, e2⟩ := populate_sample_stag_narrow P x0 h nan st hst l i
    unfold standard DDX_C2_stag
    rw [e1, e2]
    simp only [eval5 P (show P.natDegree ≤ 5 by omega), deriv5 P (show P.natDegree ≤ 5 by omega),
      coeff_zero_of hP (show 2 < 3 by omega), coeff_zero_of hP (show 2 < 4 by omega),
      coeff_zero_of hP (show 2 < 5 by omega)]
    field_simp
    ring
  · obtain ⟨e1, e2, e3, e4⟩ := populate_sample_stag P x0 h nan st hst l i
    unfold standard DDX_C4_stag
    rw [e1, e2, e3, e4]
    simp only [eval5 P (show P.natDegree ≤ 5 by omega), deriv5 P (show P.natDegree ≤ 5 by omega),
      coeff_zero_of hP (show 4 < 5 by omega)]
    field_simp
    ring
  · obtain ⟨e1, e2, e3, e4⟩ := populate_sample_stag P x0 h nan st hst l i
    unfold standard D2DX2_C2_stag
    rw [e1, e2, e3, e4]
    simp only [eval5 P (show P.natDegree ≤ 5 by omega), deriv5_2 P (show P.natDegree ≤ 5 by omega),
      coeff_zero_of hP (show 3 < 4 by omega), coeff_zero_of hP (show 3 < 5 by omega)]
    field_simp
    ring

/-- **C30.** Staggered upwind methods with a velocity on the faces of the field's cells: `C2` is exact for a linear
velocity and quadratic field, `C4` for a cubic velocity and quartic field.  The field is at the output location. -/
theorem C30_staggered_upwind_central (P V : K[X]) (x0 h nan : K) (hh : h ≠ 0) (st : Stagger) (hst : st ≠ .none)
    (l : Bool) (i : Int) :
    (P.natDegree ≤ 2 → V.natDegree ≤ 1 →
      flowStencil VDDX_C2_stag st false nan (sample V x0 h (inLow st l)) (sample P x0 h (outLow st l)) i / h =
        V.eval (pos x0 h (outLow st l) i) * P.derivative.eval (pos x0 h (outLow st l) i)) ∧
    (P.natDegree ≤ 4 → V.natDegree ≤ 3 →
      flowStencil VDDX_C4_stag st true nan (sample V x0 h (inLow st l)) (sample P x0 h (outLow st l)) i / h =
        V.eval (pos x0 h (outLow st l) i) * P.derivative.eval (pos x0 h (outLow st l) i)) := by
  refine ⟨fun hP hV => ?_, fun hP hV => ?_⟩
  · obtain ⟨e1, e2⟩ := populate_sample_stag_narrow V x0 h nan st hst l i
    unfold flowStencil VDDX_C2_stag
    rw [e1, e2, populate_sample_narrow]
    simp only [eval5 P (show P.natDegree ≤ 5 by omega), deriv5 P (show P.natDegree ≤ 5 by omega),
      eval5 V (show V.natDegree ≤ 5 by omega),
      coeff_zero_of hP (show 2 < 3 by omega), coeff_zero_of hP (show 2 < 4 by omega),
      coeff_zero_of hP (show 2 < 5 by omega), coeff_zero_of hV (show 1 < 2 by omega),
      coeff_zero_of hV (show 1 < 3 by omega), coeff_zero_of hV (show 1 < 4 by omega),
      coeff_zero_of hV (show 1 < 5 by omega)]
    field_simp
    ring
  · obtain ⟨e1, e2, e3, e4⟩ := populate_sample_stag V x0 h nan st hst l i
    unfold flowStencil VDDX_C4_stag
    rw [e1, e2, e3, e4, populate_sample_none]
    simp only [eval5 P (show P.natDegree ≤ 5 by omega), deriv5 P (show P.natDegree ≤ 5 by omega),
      eval5 V (show V.natDegree ≤ 5 by omega), coeff_zero_of hP (show 4 < 5 by omega),
      coeff_zero_of hV (show 3 < 4 by omega), coeff_zero_of hV (show 3 < 5 by omega)]
    field_simp
    ring

/-- **C30.** Staggered `U1` and `U2` with a uniform velocity give velocity times derivative, on linear functions and on
quadratics. -/
theorem C30_staggered_upwind (P : K[X]) (x0 h nan v : K) (hh : h ≠ 0) (st : Stagger) (hst : st ≠ .none)
    (l : Bool) (i : Int) :
    (P.natDegree ≤ 1 → flowStencil VDDX_U1_stag st false nan (fun _ => v) (sample P x0 h (outLow st l)) i / h =
        v * P.derivative.eval (pos x0 h (outLow st l) i)) ∧
    (P.natDegree ≤ 2 → flowStencil VDDX_U2_stag st true nan (fun _ => v) (sample P x0 h (outLow st l)) i / h =
        v * P.derivative.eval (pos x0 h (outLow st l) i)) := by
  refine ⟨fun hP => ?_, fun hP => ?_⟩
  · unfold flowStencil
    rw [populate_sample_narrow]
    have e1 : (populate st false nan (fun _ => v) i).m = v := by cases st <;> rfl
    have e2 : (populate st false nan (fun _ => v) i).p = v := by cases st <;> rfl
    unfold VDDX_U1_stag
    simp only [e1, e2, eval5 P (show P.natDegree ≤ 5 by omega), deriv5 P (show P.natDegree ≤ 5 by omega),
      coeff_zero_of hP (show 1 < 2 by omega), coeff_zero_of hP (show 1 < 3 by omega),
      coeff_zero_of hP (show 1 < 4 by omega), coeff_zero_of hP (show 1 < 5 by omega)]
    by_cases hv : v ≥ 0
    · rw [if_pos hv, if_pos hv]; field_simp; ring
    · rw [if_neg hv, if_neg hv]; field_simp; ring
  · unfold flowStencil
    rw [populate_sample_none]
    have e1 : (populate st true nan (fun _ => v) i).m = v := by cases st <;> rfl
    have e2 : (populate st true nan (fun _ => v) i).p = v := by cases st <;> rfl
    unfold VDDX_U2_stag
    simp only [e1, e2, eval5 P (show P.natDegree ≤ 5 by omega), deriv5 P (show P.natDegree ≤ 5 by omega),
      coeff_zero_of hP (show 2 < 3 by omega), coeff_zero_of hP (show 2 < 4 by omega),
      coeff_zero_of hP (show 2 < 5 by omega)]
    by_cases hv : v ≥ 0
    · rw [if_pos hv, if_pos hv]; field_simp; ring
    · rw [if_neg hv, if_neg hv]; field_simp; ring

end Verif.Num
