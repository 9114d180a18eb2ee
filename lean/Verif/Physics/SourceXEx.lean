import Verif.Physics.SourceXThms

/-! # C95: what the code gets wrong, and concrete cases -/
namespace Verif.SourceX

variable {P : Type}

/-- **C95 is violated: narrow layers.** `TanH` divides infinities as soon as the exponential of the argument or its inverse
overflows: sources and sinks whose width is small compared with the distance from `slength` are not numbers, where they should
be 0 or 1. -/
theorem C95_overflow_violated (M a : ℝ) (hM : 1 ≤ M) (h : M < Real.exp |a|) : tanH M (.num a) = .nan := by
  rcases le_total 0 a with h0 | h0
  · rw [abs_of_nonneg h0] at h
    have e : expF M (.num a) = .pinf := by show rnd M _ = _; unfold rnd; rw [if_pos h]
    simp only [tanH, e]
    rfl
  · rw [abs_of_nonpos h0] at h
    have p0 := Real.exp_pos a
    have h1 : Real.exp a ≤ 1 := Real.exp_le_one_iff.2 h0
    have e : expF M (.num a) = .num (Real.exp a) := rnd_ok (by linarith) (by linarith)
    have e2 : div M (.num 1) (.num (Real.exp a)) = .pinf := by
      show (if Real.exp a = 0 then _ else rnd M (1 / Real.exp a)) = _
      rw [if_neg p0.ne', one_div, ← Real.exp_neg]
      unfold rnd; rw [if_pos h]
    simp only [tanH, e, e2]
    rfl

/-- The same for a source: width 0.001, at the far side of the domain, in double precision (below `exp(710)`). -/
theorem C95_source_violated (M : ℝ) (hM : 1000 ≤ M) (h : M < Real.exp 1000) :
    sourceTanhx M (⟨fun _ => 1, id⟩ : Grid Unit) 0.001 0 () = .nan := by
  have e : div M (.num (1 - 0)) (.num 0.001) = .num 1000 := by
    rw [div_ok (by norm_num) (by norm_num; linarith) (by norm_num; linarith)]; norm_num
  show mul M (.num 0.5) (sub M (.num 1) (tanH M (div M (.num (1 - 0)) (.num 0.001)))) = _
  rw [e, C95_overflow_violated M 1000 (by linarith) (by rw [abs_of_pos (by norm_num)]; exact h)]
  rfl

theorem tanh_bounds {z : ℝ} (hz : 0 ≤ z) : 0 ≤ Real.tanh z ∧ Real.tanh z ≤ z := by
  rw [Real.tanh_eq_sinh_div_cosh]
  have hc := Real.cosh_pos z
  refine ⟨div_nonneg (Real.sinh_nonneg_iff.2 hz) hc.le, ?_⟩
  rw [div_le_iff₀ hc]
  have key : ∀ y, 0 ≤ y → 0 ≤ y * Real.cosh y - Real.sinh y := by
    have hmono : MonotoneOn (fun y : ℝ => y * Real.cosh y - Real.sinh y) (Set.Ici 0) := by
      refine monotoneOn_of_deriv_nonneg (convex_Ici 0) (by fun_prop) (by fun_prop) ?_
      intro y hy
      rw [interior_Ici] at hy
      have hd : HasDerivAt (fun y : ℝ => y * Real.cosh y - Real.sinh y) (y * Real.sinh y) y :=
        (((hasDerivAt_id y).mul (Real.hasDerivAt_cosh y)).sub (Real.hasDerivAt_sinh y)).congr_deriv (by simp)
      rw [hd.deriv]
      exact mul_nonneg (le_of_lt hy) (Real.sinh_nonneg_iff.2 (le_of_lt hy))
    intro y hy
    have := hmono (Set.mem_Ici.2 le_rfl) (Set.mem_Ici.2 hy) hy
    simpa using this
  have := key z hz
  linarith

/-- **C95 is violated: `mask_x` does not mask.** `GlobalX` runs from 0 to 1 but is divided by 40 as if it counted points: everywhere
in the domain the result is the field itself up to one part in 6400, at the boundaries exactly. -/
theorem C95_mask_violated (M : ℝ) (hM : 3 ≤ M) (G : Grid P) (f : P → ℝ) (p : P) (hx : 0 ≤ G.globalX (G.src p))
    (hx1 : G.globalX (G.src p) ≤ 1) (hf : |f (G.src p)| ≤ M) :
    ∃ c : ℝ, maskX M G f p = .num (c * f (G.src p)) ∧ 1 - 1 / 6400 ≤ c ∧ c ≤ 1
      ∧ (G.globalX (G.src p) = 0 ∨ G.globalX (G.src p) = 1 → c = 1) := by
  set x := G.globalX (G.src p) with hxd
  have hexp : ∀ z : ℝ, 0 ≤ z → z ≤ 1 / 40 → Real.exp |z| + 1 ≤ M := by
    intro z h0 h1
    rw [abs_of_nonneg h0]
    have : Real.exp z ≤ 1 / (1 - z) := by
      have h2 := Real.add_one_le_exp (-z)
      rw [le_div_iff₀ (by linarith)]
      have h3 : Real.exp z * Real.exp (-z) = 1 := by rw [← Real.exp_add]; simp
      have h4 := Real.exp_pos z
      nlinarith
    have h5 : 1 / (1 - z) ≤ 2 := by rw [div_le_iff₀ (by linarith)]; linarith
    linarith
  have a0 : 0 ≤ x / 40 := by linarith
  have a1 : x / 40 ≤ 1 / 40 := by linarith
  have b0 : 0 ≤ (1 - x) / 40 := by linarith
  have b1 : (1 - x) / 40 ≤ 1 / 40 := by linarith
  obtain ⟨t0, t1⟩ := tanh_bounds a0
  obtain ⟨u0, u1⟩ := tanh_bounds b0
  set t := Real.tanh (x / 40)
  set u := Real.tanh ((1 - x) / 40)
  have ht : tanH M (div M (.num x) (.num 40)) = .num t := by
    rw [div_ok (by norm_num) (by linarith) (by linarith), tanH_num (hexp _ a0 a1)]
  have hu : tanH M (div M (.num (1 - x)) (.num 40)) = .num u := by
    rw [div_ok (by norm_num) (by linarith) (by linarith), tanH_num (hexp _ b0 b1)]
  have htu0 : 0 ≤ t * u := mul_nonneg t0 u0
  have htu : t * u ≤ 1 / 6400 := by
    have h1 : t * u ≤ x / 40 * ((1 - x) / 40) := mul_le_mul t1 u1 u0 a0
    nlinarith [sq_nonneg (x - 1 / 2)]
  refine ⟨1 - t * u, ?_, by linarith, by linarith, ?_⟩
  · show mul M (sub M (.num 1) (mul M (tanH M (div M (.num x) (.num 40))) (tanH M (div M (.num (1 - x)) (.num 40)))))
      (.num (f (G.src p))) = _
    rw [ht, hu]
    have e1 : mul M (.num t) (.num u) = .num (t * u) := rnd_ok (by linarith) (by linarith)
    have e2 : sub M (.num 1) (.num (t * u)) = .num (1 - t * u) := by
      show rnd M (1 + -(t * u)) = _
      rw [rnd_ok (by linarith) (by linarith)]; rfl
    rw [e1, e2]
    exact times_num (by linarith) (by linarith) hf
  · rintro (h | h)
    · have : t = 0 := by simp only [t, h]; simp
      rw [this]; ring
    · have : u = 0 := by simp only [u, h]; simp
      rw [this]; ring

/-- `C95_source_partial`, `C95_sinks_partial`: a moderate width meets the hypotheses. -/
theorem C95_source_example :
    Real.exp |((1 : ℝ) - 0.5) / 0.5| + 1 ≤ 4 ∧ |(2 : ℝ)| ≤ 4 := by
  refine ⟨?_, by norm_num⟩
  rw [show ((1 : ℝ) - 0.5) / 0.5 = 1 by norm_num, abs_one]
  have := Real.exp_one_lt_d9
  linarith

/-- `C95_gauss_partial`: likewise. -/
theorem C95_gauss_example :
    ((1 : ℝ) - 0.5) ^ 2 ≤ 4 ∧ ((1 : ℝ) - 0.5) ^ 2 / |0.5| ≤ 4 ∧ ((1 : ℝ) - 0.5) ^ 2 / 0.5 ^ 2 ≤ 4 := by
  refine ⟨by norm_num, ?_, by norm_num⟩
  rw [abs_of_pos (by norm_num)]; norm_num

end Verif.SourceX
