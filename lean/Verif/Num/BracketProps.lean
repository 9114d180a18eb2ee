import Verif.Num.Bracket
import Mathlib.Tactic.NormNum
import Mathlib.Algebra.Field.Rat

/-! # C46: the Arakawa bracket -/
namespace Verif.Num

variable {K : Type} [Field K]

/-! ## Specification -/

/-- `h` is the Arakawa bracket of `f` and `g` on the points `xs <= x <= xe`, `0 <= z < nz`, periodic in z:
twelve times the cell area times `h` is `J++ + J+x + Jx+`, the three second-order forms of
`(df/dz)(dg/dx) - (df/dx)(dg/dz)`. -/
def IsBracket (xs xe nz : Int) (dx dz : Int → K) (f g h : Int → Int → K) : Prop :=
  ∀ x z, xs ≤ x → x ≤ xe → 0 ≤ z → z < nz →
    let u := (z + 1) % nz
    let d := (z - 1) % nz
    12 * dx x * dz x * h x z =
      ((f x u - f x d) * (g (x + 1) z - g (x - 1) z) - (f (x + 1) z - f (x - 1) z) * (g x u - g x d)) +
      ((g (x + 1) z * (f (x + 1) u - f (x + 1) d) - g (x - 1) z * (f (x - 1) u - f (x - 1) d)) -
        (g x u * (f (x + 1) u - f (x - 1) u) - g x d * (f (x + 1) d - f (x - 1) d))) +
      ((f x u * (g (x + 1) u - g (x - 1) u) - f x d * (g (x + 1) d - g (x - 1) d)) -
        (f (x + 1) z * (g (x + 1) u - g (x + 1) d) - f (x - 1) z * (g (x - 1) u - g (x - 1) d)))

/-- A usable mesh: at least two points in z, non-zero spacing, not one of the degenerate global sizes. -/
structure Perp.Ok (M : Perp K) : Prop where
  nz : 2 ≤ M.ncz
  gx : M.GlobalNx ≠ 1
  gz : M.GlobalNz ≠ 1
  dx : ∀ x, M.xstart ≤ x → x ≤ M.xend → M.dx x ≠ 0
  dz : ∀ x, M.xstart ≤ x → x ≤ M.xend → M.dz x ≠ 0
  twelve : (12 : K) ≠ 0

theorem isBracket_of (M : Perp K) (ok : M.Ok) (f g h : Int → Int → K) (term : Int → Int → Int → Int → K)
    (ht : ∀ x z, term x z (zNext M.ncz z) (zPrev M.ncz z) = arakawaTerms f g x z (zNext M.ncz z) (zPrev M.ncz z))
    (hv : ∀ x z, M.xstart ≤ x → x ≤ M.xend → 0 ≤ z → z < M.ncz →
        h x z = term x z (zNext M.ncz z) (zPrev M.ncz z) * (1 / (12 * M.dz x * M.dx x))) :
    IsBracket M.xstart M.xend M.ncz M.dx M.dz f g h := by
  intro x z h1 h2 h3 h4
  dsimp only
  rw [hv x z h1 h2 h3 h4, ht]
  have hdx := ok.dx x h1 h2
  have hdz := ok.dz x h1 h2
  have h12 := ok.twelve
  have e : 12 * M.dx x * M.dz x * (arakawaTerms f g x z (zNext M.ncz z) (zPrev M.ncz z) * (1 / (12 * M.dz x * M.dx x))) =
      arakawaTerms f g x z (zNext M.ncz z) (zPrev M.ncz z) := by
    have h' : 12 * M.dz x * M.dx x ≠ 0 := mul_ne_zero (mul_ne_zero h12 hdz) hdx
    have : 12 * M.dx x * M.dz x = 12 * M.dz x * M.dx x := by ring
    rw [this, mul_comm, mul_assoc, one_div, inv_mul_cancel₀ h', mul_one]
  rw [e]
  unfold arakawaTerms zNext zPrev
  ring

/-- **C46.** `bracket(f, g, BRACKET_ARAKAWA)` of two `Field3D` is the Arakawa bracket at every interior point and leaves the other
points of the result alone. -/
theorem C46_arakawa (M : Perp K) (ok : M.Ok) (f g r : Int → Int → K) :
    ∃ h, bracket33 M f g r = some h ∧ IsBracket M.xstart M.xend M.ncz M.dx M.dz f g h ∧
      ∀ x z, ¬ (M.xstart ≤ x ∧ x ≤ M.xend ∧ 0 ≤ z ∧ z < M.ncz) → h x z = r x z := by
  unfold bracket33
  rw [if_neg (by rintro (e | e); exacts [ok.gx e, ok.gz e])]
  obtain ⟨h, e, hv, ho⟩ := bracketLoop_value (zSplit M.ncz) M.xstart M.xend M.ncz M.dx M.dz (arakawaTerms f g) r
    (zInside_split ok.nz) (zSplit_spec ok.nz)
  exact ⟨h, e, isBracket_of M ok f g h _ (fun _ _ => rfl) hv, ho⟩

/-- **C46.** `BRACKET_ARAKAWA_OLD` computes the same field. -/
theorem C46_arakawa_old (M : Perp K) (ok : M.Ok) (f g r : Int → Int → K) : bracket33Old M f g r = bracket33 M f g r := by
  unfold bracket33 bracket33Old
  rw [if_neg (by rintro (e | e); exacts [ok.gx e, ok.gz e]), if_neg (by rintro (e | e); exacts [ok.gx e, ok.gz e])]
  obtain ⟨h, e, hv, ho⟩ := bracketLoop_value (zSplit M.ncz) M.xstart M.xend M.ncz M.dx M.dz (arakawaTerms f g) r
    (zInside_split ok.nz) (zSplit_spec ok.nz)
  obtain ⟨h', e', hv', ho'⟩ := bracketLoop_value (zWhole M.ncz) M.xstart M.xend M.ncz M.dx M.dz (arakawaTerms f g) r
    (zInside_whole (by have := ok.nz; omega)) zWhole_spec
  rw [e, e']
  congr 1
  funext x z
  by_cases hx : M.xstart ≤ x ∧ x ≤ M.xend ∧ 0 ≤ z ∧ z < M.ncz
  · rw [hv x z hx.1 hx.2.1 hx.2.2.1 hx.2.2.2, hv' x z hx.1 hx.2.1 hx.2.2.1 hx.2.2.2]
  · rw [ho x z hx, ho' x z hx]

/-- **C46.** With a `Field2D` as second or first argument the bracket is the one of the same field extended constantly in z. -/
theorem C46_arakawa_2D (M : Perp K) (ok : M.Ok) (f : Int → Int → K) (g : Int → K) (r : Int → Int → K) :
    (∃ h, bracket32 M f g r = some h ∧ IsBracket M.xstart M.xend M.ncz M.dx M.dz f (fun x _ => g x) h) ∧
    bracket32Old M f g r = bracket32 M f g r ∧
    ∃ h, bracket23 M g f r = some h ∧ IsBracket M.xstart M.xend M.ncz M.dx M.dz (fun x _ => g x) f h := by
  obtain ⟨h, e, hv, ho⟩ := bracketLoop_value (zSplit M.ncz) M.xstart M.xend M.ncz M.dx M.dz
    (fun jx _ jzp jzm => arakawaTerms2 f g jx jzp jzm) r (zInside_split ok.nz) (zSplit_spec ok.nz)
  obtain ⟨h', e', hv', ho'⟩ := bracketLoop_value (zWhole M.ncz) M.xstart M.xend M.ncz M.dx M.dz (arakawaTerms2Old f g) r
    (zInside_whole (by have := ok.nz; omega)) zWhole_spec
  have hb : IsBracket M.xstart M.xend M.ncz M.dx M.dz f (fun x _ => g x) h :=
    isBracket_of M ok f _ h _ (fun x z => by unfold arakawaTerms arakawaTerms2; ring) hv
  refine ⟨⟨h, e, hb⟩, ?_, ?_⟩
  · unfold bracket32 bracket32Old
    rw [e, e']
    congr 1
    funext x z
    by_cases hx : M.xstart ≤ x ∧ x ≤ M.xend ∧ 0 ≤ z ∧ z < M.ncz
    · rw [hv x z hx.1 hx.2.1 hx.2.2.1 hx.2.2.2, hv' x z hx.1 hx.2.1 hx.2.2.1 hx.2.2.2]
      congr 1
      unfold arakawaTerms2 arakawaTerms2Old; ring
    · rw [ho x z hx, ho' x z hx]
  · refine ⟨fun x z => -h x z, by unfold bracket23 bracket32; rw [e]; rfl, ?_⟩
    intro x z h1 h2 h3 h4
    have := hb x z h1 h2 h3 h4
    dsimp only at this ⊢
    linear_combination -this

/-- **C46.** The bracket is antisymmetric: `[f, g] = -[g, f]`. -/
theorem C46_antisymmetric (M : Perp K) (ok : M.Ok) (f g r : Int → Int → K) :
    ∃ h h', bracket33 M f g r = some h ∧ bracket33 M g f r = some h' ∧
      ∀ x z, M.xstart ≤ x → x ≤ M.xend → 0 ≤ z → z < M.ncz → h x z = -h' x z := by
  obtain ⟨h, e, hb, -⟩ := C46_arakawa M ok f g r
  obtain ⟨h', e', hb', -⟩ := C46_arakawa M ok g f r
  refine ⟨h, h', e, e', ?_⟩
  intro x z h1 h2 h3 h4
  have a := hb x z h1 h2 h3 h4
  have b := hb' x z h1 h2 h3 h4
  dsimp only at a b
  have hne : 12 * M.dx x * M.dz x ≠ 0 := mul_ne_zero (mul_ne_zero ok.twelve (ok.dx x h1 h2)) (ok.dz x h1 h2)
  apply mul_left_cancel₀ hne
  linear_combination a + b

/-- **C46.** The bracket with a constant is zero. -/
theorem C46_constant (M : Perp K) (ok : M.Ok) (f : Int → Int → K) (c : K) (r : Int → Int → K) :
    ∃ h, bracket33 M f (fun _ _ => c) r = some h ∧
      ∀ x z, M.xstart ≤ x → x ≤ M.xend → 0 ≤ z → z < M.ncz → h x z = 0 := by
  obtain ⟨h, e, hb, -⟩ := C46_arakawa M ok f (fun _ _ => c) r
  refine ⟨h, e, ?_⟩
  intro x z h1 h2 h3 h4
  have a := hb x z h1 h2 h3 h4
  dsimp only at a
  have hne : 12 * M.dx x * M.dz x ≠ 0 := mul_ne_zero (mul_ne_zero ok.twelve (ok.dx x h1 h2)) (ok.dz x h1 h2)
  apply mul_left_cancel₀ hne
  linear_combination a

/-- **C46.** Accuracy: if around an interior point (also across the seam in z) `f` is a quadratic polynomial and `g` an affine one,
with `dx`, `dz` the spacing, the bracket is exactly `(df/dz)(dg/dx) - (df/dx)(dg/dz)` there. -/
theorem C46_exact (M : Perp K) (ok : M.Ok) (f g r : Int → Int → K) (x z : Int) (hx : M.xstart ≤ x) (hx' : x ≤ M.xend)
    (hz : 0 ≤ z) (hz' : z < M.ncz) (a0 ax az axx axz azz b0 bx bz : K)
    (hf : ∀ i k : Int, |i| ≤ 1 → |k| ≤ 1 → f (x + i) ((z + k) % M.ncz) =
      a0 + ax * (i * M.dx x) + az * (k * M.dz x) + axx * (i * M.dx x) ^ 2 + axz * (i * M.dx x) * (k * M.dz x) +
        azz * (k * M.dz x) ^ 2)
    (hg : ∀ i k : Int, |i| ≤ 1 → |k| ≤ 1 → g (x + i) ((z + k) % M.ncz) = b0 + bx * (i * M.dx x) + bz * (k * M.dz x)) :
    ∃ h, bracket33 M f g r = some h ∧ h x z = az * bx - ax * bz := by
  obtain ⟨h, e, hb, -⟩ := C46_arakawa M ok f g r
  refine ⟨h, e, ?_⟩
  have a := hb x z hx hx' hz hz'
  dsimp only at a
  have hc : z % M.ncz = z := Int.emod_eq_of_lt hz hz'
  have f00 := hf 1 0 (by decide) (by decide)
  have f01 := hf (-1) 0 (by decide) (by decide)
  have f10 := hf 0 1 (by decide) (by decide)
  have f11 := hf 0 (-1) (by decide) (by decide)
  have f20 := hf 1 1 (by decide) (by decide)
  have f21 := hf 1 (-1) (by decide) (by decide)
  have f30 := hf (-1) 1 (by decide) (by decide)
  have f31 := hf (-1) (-1) (by decide) (by decide)
  have g00 := hg 1 0 (by decide) (by decide)
  have g01 := hg (-1) 0 (by decide) (by decide)
  have g10 := hg 0 1 (by decide) (by decide)
  have g11 := hg 0 (-1) (by decide) (by decide)
  have g20 := hg 1 1 (by decide) (by decide)
  have g21 := hg 1 (-1) (by decide) (by decide)
  have g30 := hg (-1) 1 (by decide) (by decide)
  have g31 := hg (-1) (-1) (by decide) (by decide)
  simp only [Int.add_zero, hc, ← Int.sub_eq_add_neg, Int.cast_one, Int.cast_neg, Int.cast_zero] at f00 f01 f10 f11 f20 f21 f30 f31 g00 g01 g10 g11 g20 g21 g30 g31
  rw [f00, f01, f10, f11, f20, f21, f30, f31, g00, g01, g10, g11, g20, g21, g30, g31] at a
  have hne : 12 * M.dx x * M.dz x ≠ 0 := mul_ne_zero (mul_ne_zero ok.twelve (ok.dx x hx hx')) (ok.dz x hx hx')
  apply mul_left_cancel₀ hne
  rw [a]
  ring

/-! ## Conservation -/

/-- Summing over z does not depend on where the torus is cut. -/
theorem sum_shift {n : Int} (_hn : 0 < n) (φ : Int → K) :
    ∑ z ∈ Finset.Ico 0 n, φ ((z + 1) % n) = ∑ z ∈ Finset.Ico 0 n, φ z := by
  refine Finset.sum_nbij' (fun z => (z + 1) % n) (fun z => (z - 1) % n) ?_ ?_ ?_ ?_ ?_
  · intro z hz
    rw [Finset.mem_Ico] at hz ⊢
    exact ⟨Int.emod_nonneg _ (by omega), Int.emod_lt_of_pos _ (by omega)⟩
  · intro z hz
    rw [Finset.mem_Ico] at hz ⊢
    exact ⟨Int.emod_nonneg _ (by omega), Int.emod_lt_of_pos _ (by omega)⟩
  · intro z hz
    rw [Finset.mem_Ico] at hz
    show ((z + 1) % n - 1) % n = z
    rw [Int.emod_sub_emod, Int.add_sub_cancel, Int.emod_eq_of_lt hz.1 hz.2]
  · intro z hz
    rw [Finset.mem_Ico] at hz
    show ((z - 1) % n + 1) % n = z
    rw [Int.emod_add_emod, Int.sub_add_cancel, Int.emod_eq_of_lt hz.1 hz.2]
  · intro z _; rfl

theorem prev_next {n z : Int} (hz : 0 ≤ z) (hn : z < n) : ((z + 1) % n - 1) % n = z := by
  rw [Int.emod_sub_emod, Int.add_sub_cancel, Int.emod_eq_of_lt hz hn]

/-- A sum of a function of `z` and its lower neighbour, shifted up by one. -/
theorem sum_prev {n : Int} (hn : 0 < n) (ψ : Int → Int → K) :
    ∑ z ∈ Finset.Ico 0 n, ψ z ((z - 1) % n) = ∑ z ∈ Finset.Ico 0 n, ψ ((z + 1) % n) z := by
  rw [← sum_shift hn (fun z => ψ z ((z - 1) % n))]
  refine Finset.sum_congr rfl ?_
  intro z hz
  rw [Finset.mem_Ico] at hz
  rw [prev_next hz.1 hz.2]

/-- The flux of the weighted quantity across the face between columns `x` and `x + 1`, with weight `w a b` for a pair of values. -/
def araFlux (nz : Int) (w : K → K → K) (f g : Int → Int → K) (x : Int) : K :=
  ∑ z ∈ Finset.Ico 0 nz,
    ((f x ((z + 1) % nz) - f x ((z - 1) % nz) + f (x + 1) ((z + 1) % nz) - f (x + 1) ((z - 1) % nz)) * w (g x z) (g (x + 1) z) +
     (f x ((z + 1) % nz) - f (x + 1) z) * w (g x z) (g (x + 1) ((z + 1) % nz)) +
     (f (x + 1) z - f x ((z - 1) % nz)) * w (g x z) (g (x + 1) ((z - 1) % nz)))

/-- The bracket of one column, in flux form. -/
theorem column_flux (nz : Int) (hn : 0 < nz) (w : K → K → K) (hw : ∀ a b, w a b = w b a)
    (f g T : Int → Int → K) (x : Int)
    (hT : ∀ z, 0 ≤ z → z < nz → T x z =
      (f x ((z + 1) % nz) - f x ((z - 1) % nz) + f (x + 1) ((z + 1) % nz) - f (x + 1) ((z - 1) % nz)) * w (g x z) (g (x + 1) z) -
      (f x ((z + 1) % nz) - f x ((z - 1) % nz) + f (x - 1) ((z + 1) % nz) - f (x - 1) ((z - 1) % nz)) * w (g x z) (g (x - 1) z) -
      (f (x + 1) z - f (x - 1) z + f (x + 1) ((z + 1) % nz) - f (x - 1) ((z + 1) % nz)) * w (g x z) (g x ((z + 1) % nz)) +
      (f (x + 1) z - f (x - 1) z + f (x + 1) ((z - 1) % nz) - f (x - 1) ((z - 1) % nz)) * w (g x z) (g x ((z - 1) % nz)) +
      (f x ((z + 1) % nz) - f (x + 1) z) * w (g x z) (g (x + 1) ((z + 1) % nz)) -
      (f (x - 1) z - f x ((z - 1) % nz)) * w (g x z) (g (x - 1) ((z - 1) % nz)) -
      (f x ((z + 1) % nz) - f (x - 1) z) * w (g x z) (g (x - 1) ((z + 1) % nz)) +
      (f (x + 1) z - f x ((z - 1) % nz)) * w (g x z) (g (x + 1) ((z - 1) % nz))) :
    ∑ z ∈ Finset.Ico 0 nz, T x z = araFlux nz w f g x - araFlux nz w f g (x - 1) := by
  have e1 := sum_prev hn (fun z d => (f (x + 1) z - f (x - 1) z + f (x + 1) d - f (x - 1) d) * w (g x z) (g x d))
  have e2 := sum_prev hn (fun z d => (f (x - 1) z - f x d) * w (g x z) (g (x - 1) d))
  have e3 := sum_prev hn (fun z d => (f x z - f (x - 1) d) * w (g x d) (g (x - 1) z))
  rw [Finset.sum_congr rfl (fun z hz => hT z (Finset.mem_Ico.1 hz).1 (Finset.mem_Ico.1 hz).2)]
  unfold araFlux
  simp only [Int.sub_add_cancel]
  rw [← Finset.sum_sub_distrib]
  rw [← sub_eq_zero, ← Finset.sum_sub_distrib]
  have key : ∀ (A B C D E F : Int → K),
      ∑ z ∈ Finset.Ico 0 nz, A z = ∑ z ∈ Finset.Ico 0 nz, B z →
      ∑ z ∈ Finset.Ico 0 nz, C z = ∑ z ∈ Finset.Ico 0 nz, D z →
      ∑ z ∈ Finset.Ico 0 nz, E z = ∑ z ∈ Finset.Ico 0 nz, F z →
      ∑ z ∈ Finset.Ico 0 nz, (A z - B z - (C z - D z) + (E z - F z)) = 0 := by
    intro A B C D E F h1 h2 h3
    rw [Finset.sum_add_distrib, Finset.sum_sub_distrib, Finset.sum_sub_distrib, Finset.sum_sub_distrib, Finset.sum_sub_distrib,
      h1, h2, h3]
    ring
  rw [← key _ _ _ _ _ _ e1 e2 e3]
  refine Finset.sum_congr rfl ?_
  intro z _
  rw [hw (g (x - 1) z) (g x z), hw (g (x - 1) z) (g x ((z + 1) % nz)), hw (g (x - 1) z) (g x ((z - 1) % nz)),
    hw (g x ((z + 1) % nz)) (g x z), hw (g x ((z + 1) % nz)) (g (x - 1) z)]
  ring

theorem sum_telescope (W : Int → K) (a : Int) (n : Nat) :
    ∑ x ∈ Finset.Icc a (a - 1 + n), (W x - W (x - 1)) = W (a - 1 + n) - W (a - 1) := by
  induction n with
  | zero => rw [Finset.Icc_eq_empty (by simp)]; simp
  | succ n ih =>
    have e : Finset.Icc a (a - 1 + ((n + 1 : Nat) : Int)) = insert (a + n) (Finset.Icc a (a - 1 + n)) := by
      ext x
      simp only [Finset.mem_Icc, Finset.mem_insert]
      omega
    rw [e, Finset.sum_insert (by rw [Finset.mem_Icc]; omega), ih]
    have e1 : a - 1 + ((n + 1 : Nat) : Int) = a + n := by omega
    have e2 : a + (n : Int) - 1 = a - 1 + n := by omega
    rw [e1, e2]
    ring

/-- The sums over the interior of one rank of the bracket, of `g` times the bracket and of `f` times the bracket are differences of
fluxes through its two X faces. -/
theorem rank_flux {xs xe nz : Int} (hn : 0 < nz) (hx : xs ≤ xe + 1) {dx dz : Int → K} {f g h : Int → Int → K}
    (hb : IsBracket xs xe nz dx dz f g h) :
    (12 * ∑ x ∈ Finset.Icc xs xe, ∑ z ∈ Finset.Ico 0 nz, dx x * dz x * h x z =
      araFlux nz (fun a b => a + b) f g xe - araFlux nz (fun a b => a + b) f g (xs - 1)) ∧
    (12 * ∑ x ∈ Finset.Icc xs xe, ∑ z ∈ Finset.Ico 0 nz, dx x * dz x * (g x z * h x z) =
      araFlux nz (fun a b => a * b) f g xe - araFlux nz (fun a b => a * b) f g (xs - 1)) ∧
    (12 * ∑ x ∈ Finset.Icc xs xe, ∑ z ∈ Finset.Ico 0 nz, dx x * dz x * (f x z * h x z) =
      -(araFlux nz (fun a b => a * b) g f xe - araFlux nz (fun a b => a * b) g f (xs - 1))) := by
  have tele : ∀ W : Int → K, ∑ x ∈ Finset.Icc xs xe, (W x - W (x - 1)) = W xe - W (xs - 1) := by
    intro W
    have := sum_telescope W xs (xe + 1 - xs).toNat
    have e : xs - 1 + ((xe + 1 - xs).toNat : Int) = xe := by omega
    rw [e] at this
    exact this
  refine ⟨?_, ?_, ?_⟩
  · rw [← tele, Finset.mul_sum]
    refine Finset.sum_congr rfl ?_
    intro x hx
    rw [Finset.mem_Icc] at hx
    rw [Finset.mul_sum, ← column_flux nz hn (fun a b => a + b) (fun a b => add_comm a b) f g
      (fun x z => 12 * (dx x * dz x * h x z)) x]
    intro z h1 h2
    have a := hb x z hx.1 hx.2 h1 h2
    dsimp only at a ⊢
    linear_combination a
  · rw [← tele, Finset.mul_sum]
    refine Finset.sum_congr rfl ?_
    intro x hx
    rw [Finset.mem_Icc] at hx
    rw [Finset.mul_sum, ← column_flux nz hn (fun a b => a * b) (fun a b => mul_comm a b) f g
      (fun x z => 12 * (dx x * dz x * (g x z * h x z))) x]
    intro z h1 h2
    have a := hb x z hx.1 hx.2 h1 h2
    dsimp only at a ⊢
    linear_combination g x z * a
  · rw [← tele, Finset.mul_sum, ← Finset.sum_neg_distrib]
    refine Finset.sum_congr rfl ?_
    intro x hx
    rw [Finset.mem_Icc] at hx
    rw [Finset.mul_sum, ← column_flux nz hn (fun a b => a * b) (fun a b => mul_comm a b) g f
      (fun x z => -(12 * (dx x * dz x * (f x z * h x z)))) x, ← Finset.sum_neg_distrib]
    · refine Finset.sum_congr rfl ?_
      intro z _
      ring
    intro z h1 h2
    have a := hb x z hx.1 hx.2 h1 h2
    dsimp only at a ⊢
    linear_combination -(f x z) * a

/-- The flux depends on two columns only. -/
theorem faceFlux_congr {nz : Int} (hn : 0 < nz) (w : K → K → K) (f g f' g' : Int → Int → K) (x x' : Int)
    (h : ∀ z, 0 ≤ z → z < nz → f x z = f' x' z ∧ f (x + 1) z = f' (x' + 1) z ∧ g x z = g' x' z ∧ g (x + 1) z = g' (x' + 1) z) :
    araFlux nz w f g x = araFlux nz w f' g' x' := by
  unfold araFlux
  refine Finset.sum_congr rfl ?_
  intro z hz
  rw [Finset.mem_Ico] at hz
  have a := h z hz.1 hz.2
  have b := h ((z + 1) % nz) (Int.emod_nonneg _ (by omega)) (Int.emod_lt_of_pos _ hn)
  have c := h ((z - 1) % nz) (Int.emod_nonneg _ (by omega)) (Int.emod_lt_of_pos _ hn)
  rw [a.2.1, a.2.2.1, a.2.2.2, b.1, b.2.1, b.2.2.2, c.1, c.2.1, c.2.2.2]

/-- No flux through a face with the same constant `f` on both sides. -/
theorem faceFlux_wall {nz : Int} (hn : 0 < nz) (w : K → K → K) (f g : Int → Int → K) (x : Int) (c : K)
    (h : ∀ z, 0 ≤ z → z < nz → f x z = c ∧ f (x + 1) z = c) : araFlux nz w f g x = 0 := by
  unfold araFlux
  refine Finset.sum_eq_zero ?_
  intro z hz
  rw [Finset.mem_Ico] at hz
  have a := h z hz.1 hz.2
  have b := h ((z + 1) % nz) (Int.emod_nonneg _ (by omega)) (Int.emod_lt_of_pos _ hn)
  have c' := h ((z - 1) % nz) (Int.emod_nonneg _ (by omega)) (Int.emod_lt_of_pos _ hn)
  rw [a.2, b.1, b.2, c'.1, c'.2]
  ring

/-- No flux of a quantity which is the same constant on both sides, whatever the flow. -/
theorem faceFlux_const {nz : Int} (hn : 0 < nz) (f g : Int → Int → K) (x : Int) (c : K)
    (h : ∀ z, 0 ≤ z → z < nz → g x z = c ∧ g (x + 1) z = c) : araFlux nz (fun a b => a * b) f g x = 0 := by
  have e1 := sum_prev hn (fun z d => f x d)
  have e2 := sum_prev hn (fun z d => f (x + 1) d)
  have s1 := sum_shift hn (f x)
  have s2 := sum_shift hn (f (x + 1))
  have : araFlux nz (fun a b => a * b) f g x = ∑ z ∈ Finset.Ico 0 nz,
      c * c * (2 * (f x ((z + 1) % nz) - f x ((z - 1) % nz)) + (f (x + 1) ((z + 1) % nz) - f (x + 1) ((z - 1) % nz))) := by
    unfold araFlux
    refine Finset.sum_congr rfl ?_
    intro z hz
    rw [Finset.mem_Ico] at hz
    have a := h z hz.1 hz.2
    have b := h ((z + 1) % nz) (Int.emod_nonneg _ (by omega)) (Int.emod_lt_of_pos _ hn)
    have c' := h ((z - 1) % nz) (Int.emod_nonneg _ (by omega)) (Int.emod_lt_of_pos _ hn)
    dsimp only
    rw [a.1, a.2, b.2, c'.2]
    ring
  rw [this, ← Finset.mul_sum, Finset.sum_add_distrib, ← Finset.mul_sum, Finset.sum_sub_distrib, Finset.sum_sub_distrib, s1, s2,
    e1, e2]
  ring

/-- `p` ranks in a row in X, each with its fields on its interior and one guard column on either side: guard columns hold the
neighbour's values. -/
def GuardsFilled (p : Nat) (xs xe nz : Int) (f : Nat → Int → Int → K) : Prop :=
  ∀ r, r + 1 < p → ∀ z, 0 ≤ z → z < nz → f r (xe + 1) z = f (r + 1) xs z ∧ f (r + 1) (xs - 1) z = f r xe z

/-- The domain is periodic in X: the first and the last rank are neighbours too. -/
def PeriodicX (p : Nat) (xs xe nz : Int) (f : Nat → Int → Int → K) : Prop :=
  ∀ z, 0 ≤ z → z < nz → f (p - 1) (xe + 1) z = f 0 xs z ∧ f 0 (xs - 1) z = f (p - 1) xe z

/-- The two columns on either side of each wall have one constant value. -/
def FlatAtWalls (p : Nat) (xs xe nz : Int) (f : Nat → Int → Int → K) : Prop :=
  (∃ c, ∀ z, 0 ≤ z → z < nz → f 0 (xs - 1) z = c ∧ f 0 xs z = c) ∧
  ∃ c, ∀ z, 0 ≤ z → z < nz → f (p - 1) xe z = c ∧ f (p - 1) (xe + 1) z = c

/-- The integral over the whole domain: sum over ranks, interior columns and z of the cell area times `q`. -/
def integral (p : Nat) (xs xe nz : Int) (dx dz : Nat → Int → K) (q : Nat → Int → Int → K) : K :=
  ∑ r ∈ Finset.range p, ∑ x ∈ Finset.Icc xs xe, ∑ z ∈ Finset.Ico 0 nz, dx r x * dz r x * q r x z

theorem sum_ranks (p : Nat) (hp : 0 < p) (A B : Nat → K) (h : ∀ r, r + 1 < p → A r = B (r + 1)) :
    ∑ r ∈ Finset.range p, (A r - B r) = A (p - 1) - B 0 := by
  obtain ⟨q, rfl⟩ : ∃ q, p = q + 1 := ⟨p - 1, by omega⟩
  rw [Nat.add_sub_cancel]
  induction q with
  | zero => simp
  | succ q ih =>
    rw [Finset.sum_range_succ, ih (by omega) (fun r hr => h r (by omega)), h q (by omega)]
    ring

/-- **C46.** Conservation.  On any number of ranks whose guard columns are filled, with X periodic or `f` flat at the walls, the
integrals of `[f, g]`, of `f [f, g]` and of `g [f, g]` computed with the code's bracket are exactly zero. -/
theorem C46_conservation (p : Nat) (hp : 0 < p) (xs xe nz : Int) (M : Nat → Perp K) (f g : Nat → Int → Int → K)
    (r0 : Nat → Int → Int → K) (hok : ∀ r, r < p → (M r).Ok)
    (hM : ∀ r, r < p → (M r).xstart = xs ∧ (M r).xend = xe ∧ (M r).ncz = nz) (hx : xs ≤ xe)
    (gf : GuardsFilled p xs xe nz f) (gg : GuardsFilled p xs xe nz g)
    (hw : (PeriodicX p xs xe nz f ∧ PeriodicX p xs xe nz g) ∨ FlatAtWalls p xs xe nz f) :
    ∃ h : Nat → Int → Int → K, (∀ r, r < p → bracket33 (M r) (f r) (g r) (r0 r) = some (h r)) ∧
      integral p xs xe nz (fun r => (M r).dx) (fun r => (M r).dz) h = 0 ∧
      integral p xs xe nz (fun r => (M r).dx) (fun r => (M r).dz) (fun r x z => f r x z * h r x z) = 0 ∧
      integral p xs xe nz (fun r => (M r).dx) (fun r => (M r).dz) (fun r x z => g r x z * h r x z) = 0 := by
  have hn : 0 < nz := by
    have := (hok 0 hp).nz
    rw [(hM 0 hp).2.2] at this
    omega
  have h12 : (12 : K) ≠ 0 := (hok 0 hp).twelve
  have hex : ∀ r, ∃ h, r < p → bracket33 (M r) (f r) (g r) (r0 r) = some h ∧
      IsBracket xs xe nz (M r).dx (M r).dz (f r) (g r) h := by
    intro r
    by_cases hr : r < p
    · obtain ⟨h, e, hb, -⟩ := C46_arakawa (M r) (hok r hr) (f r) (g r) (r0 r)
      rw [(hM r hr).1, (hM r hr).2.1, (hM r hr).2.2] at hb
      exact ⟨h, fun _ => ⟨e, hb⟩⟩
    · exact ⟨fun _ _ => 0, fun h => absurd h hr⟩
  choose h hh using hex
  refine ⟨h, fun r hr => (hh r hr).1, ?_⟩
  -- fluxes match between ranks and cancel at the ends
  have inner : ∀ (w : K → K → K) (a b : Nat → Int → Int → K), GuardsFilled p xs xe nz a → GuardsFilled p xs xe nz b →
      ∀ r, r + 1 < p → araFlux nz w (a r) (b r) xe = araFlux nz w (a (r + 1)) (b (r + 1)) (xs - 1) := by
    intro w a b ha hb r hr
    apply faceFlux_congr hn
    intro z h1 h2
    rw [Int.sub_add_cancel]
    exact ⟨(ha r hr z h1 h2).2.symm, (ha r hr z h1 h2).1, (hb r hr z h1 h2).2.symm, (hb r hr z h1 h2).1⟩
  have per : ∀ (w : K → K → K) (a b : Nat → Int → Int → K), PeriodicX p xs xe nz a → PeriodicX p xs xe nz b →
      araFlux nz w (a (p - 1)) (b (p - 1)) xe = araFlux nz w (a 0) (b 0) (xs - 1) := by
    intro w a b ha hb
    apply faceFlux_congr hn
    intro z h1 h2
    rw [Int.sub_add_cancel]
    exact ⟨(ha z h1 h2).2.symm, (ha z h1 h2).1, (hb z h1 h2).2.symm, (hb z h1 h2).1⟩
  have ends : (∀ w : K → K → K, araFlux nz w (f (p - 1)) (g (p - 1)) xe - araFlux nz w (f 0) (g 0) (xs - 1) = 0) ∧
      araFlux nz (fun a b => a * b) (g (p - 1)) (f (p - 1)) xe - araFlux nz (fun a b => a * b) (g 0) (f 0) (xs - 1) = 0 := by
    rcases hw with ⟨pf, pg⟩ | ⟨⟨c, hc⟩, c', hc'⟩
    · exact ⟨fun w => sub_eq_zero.2 (per w f g pf pg), sub_eq_zero.2 (per _ g f pg pf)⟩
    · have hc0 : ∀ z, 0 ≤ z → z < nz → f 0 (xs - 1) z = c ∧ f 0 (xs - 1 + 1) z = c := by
        intro z h1 h2
        rw [Int.sub_add_cancel]
        exact hc z h1 h2
      refine ⟨fun w => ?_, ?_⟩
      · rw [faceFlux_wall hn w _ _ xe c' hc', faceFlux_wall hn w _ _ (xs - 1) c hc0, sub_zero]
      · rw [faceFlux_const hn _ _ xe c' hc', faceFlux_const hn _ _ (xs - 1) c hc0, sub_zero]
  have main : ∀ (q : Nat → Int → Int → K) (A B : Nat → K), (∀ r, r + 1 < p → A r = B (r + 1)) → A (p - 1) - B 0 = 0 →
      (∀ r, r < p → 12 * ∑ x ∈ Finset.Icc xs xe, ∑ z ∈ Finset.Ico 0 nz, (M r).dx x * (M r).dz x * q r x z = A r - B r) →
      integral p xs xe nz (fun r => (M r).dx) (fun r => (M r).dz) q = 0 := by
    intro q A B h1 h2 h3
    have : 12 * integral p xs xe nz (fun r => (M r).dx) (fun r => (M r).dz) q = 0 := by
      unfold integral
      rw [Finset.mul_sum, Finset.sum_congr rfl (fun r hr => h3 r (Finset.mem_range.1 hr)), sum_ranks p hp A B h1, h2]
    exact (mul_eq_zero.1 this).resolve_left h12
  refine ⟨?_, ?_, ?_⟩
  · exact main h _ _ (inner _ f g gf gg) (ends.1 _) (fun r hr => (rank_flux hn (by omega) (hh r hr).2).1)
  · refine main _ (fun r => -araFlux nz (fun a b => a * b) (g r) (f r) xe)
      (fun r => -araFlux nz (fun a b => a * b) (g r) (f r) (xs - 1)) ?_ ?_ ?_
    · intro r hr
      rw [inner _ g f gg gf r hr]
    · linear_combination -ends.2
    · intro r hr
      rw [(rank_flux hn (by omega) (hh r hr).2).2.2]
      ring
  · exact main _ _ _ (inner _ f g gf gg) (ends.1 _) (fun r hr => (rank_flux hn (by omega) (hh r hr).2).2.1)

/-- A mesh and fields that meet the hypotheses, with two ranks and `f` flat at the walls. -/
def exPerp : Perp ℚ := ⟨1, 4, 5, 8, 5, fun _ => 1/2, fun _ => 1/4⟩
/-- `f`: zero near the walls of the eight global columns. -/
def exF : Nat → Int → Int → ℚ := fun r x z =>
  if 2 ≤ x + 4 * r ∧ x + 4 * r ≤ 7 then (z * z * z - 4 * z : Int) * (x + 4 * r) else 0
/-- `g`. -/
def exG : Nat → Int → Int → ℚ := fun r x z => (x + 4 * r) * (x + 4 * r) + z

example : exPerp.Ok where
  nz := by decide
  gx := by decide
  gz := by decide
  dx := fun _ _ _ => by norm_num [exPerp]
  dz := fun _ _ _ => by norm_num [exPerp]
  twelve := by norm_num

example : GuardsFilled 2 1 4 5 exF ∧ GuardsFilled 2 1 4 5 exG ∧ FlatAtWalls 2 1 4 5 exF := by
  refine ⟨?_, ?_, ⟨0, ?_⟩, ⟨0, ?_⟩⟩
  · intro r hr z _ _
    have : r = 0 := by omega
    subst this
    unfold exF
    norm_num
  · intro r hr z _ _
    have : r = 0 := by omega
    subst this
    unfold exG
    norm_num
  · intro z _ _; unfold exF; norm_num
  · intro z _ _; unfold exF; norm_num

/-- The bracket of the example is not zero everywhere. -/
example : ∃ h, bracket33 exPerp (exF 0) (exG 0) (fun _ _ => 0) = some h ∧ h 3 1 ≠ 0 := by
  refine ⟨_, rfl, ?_⟩
  decide +kernel

/-- **C46.** `bracket(Field3D, Field2D, BRACKET_ARAKAWA)` lacks the early return of the `Field3D, Field3D` version: with one point in
z it reads outside the field. -/
theorem C46_single_z_violated :
    ∃ (M : Perp ℚ), M.ncz = 1 ∧ M.GlobalNz = 1 ∧ bracket32 M (fun _ _ => 0) (fun _ => 0) (fun _ _ => 0) = none ∧
      bracket33 M (fun _ _ => 0) (fun _ _ => 0) (fun _ _ => 0) ≠ none := by
  refine ⟨⟨2, 5, 1, 8, 1, fun _ => 1, fun _ => 1⟩, rfl, rfl, by decide +kernel, ?_⟩
  unfold bracket33
  rw [if_pos (Or.inr rfl)]
  simp

end Verif.Num
