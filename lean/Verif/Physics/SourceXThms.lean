import Verif.Physics.SourceX

/-! # C95: theorems about radial sources and sinks -/
namespace Verif.SourceX

theorem rnd_ok {M x : ℝ} (h1 : x ≤ M) (h2 : -M ≤ x) : rnd M x = .num x := by
  unfold rnd; rw [if_neg (not_lt.2 h1), if_neg (not_lt.2 h2)]

theorem div_ok {M x y : ℝ} (hy : y ≠ 0) (h1 : x / y ≤ M) (h2 : -M ≤ x / y) : div M (.num x) (.num y) = .num (x / y) := by
  show (if y = 0 then infMul x else rnd M (x / y)) = _
  rw [if_neg hy, rnd_ok h1 h2]

theorem tanH_num {M a : ℝ} (h : Real.exp |a| + 1 ≤ M) : tanH M (.num a) = .num (Real.tanh a) := by
  have h0 : Real.exp a ≤ Real.exp |a| := Real.exp_le_exp.2 (le_abs_self a)
  have h1 : Real.exp (-a) ≤ Real.exp |a| := Real.exp_le_exp.2 (neg_le_abs a)
  have h2 : Real.exp a + Real.exp (-a) ≤ Real.exp |a| + 1 := by
    rcases le_total 0 a with h3 | h3
    · have := Real.exp_le_one_iff.2 (neg_nonpos.2 h3); linarith
    · have := Real.exp_le_one_iff.2 h3; linarith
  have p0 := Real.exp_pos a
  have p1 := Real.exp_pos (-a)
  have pM : 1 ≤ M := by have := Real.exp_pos |a|; linarith
  have e1 : expF M (.num a) = .num (Real.exp a) := rnd_ok (by linarith) (by linarith)
  have e2 : div M (.num 1) (.num (Real.exp a)) = .num (Real.exp (-a)) := by
    have : 1 / Real.exp a = Real.exp (-a) := by rw [Real.exp_neg, one_div]
    rw [div_ok p0.ne' (by rw [this]; linarith) (by rw [this]; linarith), this]
  have e3 : sub M (.num (Real.exp a)) (.num (Real.exp (-a))) = .num (Real.exp a - Real.exp (-a)) := by
    show rnd M (Real.exp a + -Real.exp (-a)) = _
    rw [rnd_ok (by linarith) (by linarith)]; rfl
  have e4 : add M (.num (Real.exp a)) (.num (Real.exp (-a))) = .num (Real.exp a + Real.exp (-a)) :=
    rnd_ok (by linarith) (by linarith)
  have hpos : 0 < Real.exp a + Real.exp (-a) := by linarith
  have b1 : (Real.exp a - Real.exp (-a)) / (Real.exp a + Real.exp (-a)) ≤ 1 := by rw [div_le_one hpos]; linarith
  have b2 : -1 ≤ (Real.exp a - Real.exp (-a)) / (Real.exp a + Real.exp (-a)) := by rw [le_div_iff₀ hpos]; linarith
  simp only [tanH, e1, e2, e3, e4]
  rw [div_ok hpos.ne' (by linarith) (by linarith)]
  congr 1
  rw [Real.tanh_eq_sinh_div_cosh, Real.sinh_eq, Real.cosh_eq]
  field_simp

/-- `0.5 (1 - tanh z)` is the logistic function. -/
theorem logistic (z : ℝ) : 0.5 * (1 - Real.tanh z) = 1 / (1 + Real.exp (2 * z)) := by
  have h : Real.exp (2 * z) = Real.exp z * Real.exp z := by rw [← Real.exp_add]; ring_nf
  have h2 : Real.exp z * Real.exp (-z) = 1 := by rw [← Real.exp_add]; simp
  have p0 := Real.exp_pos z
  have p1 := Real.exp_pos (-z)
  rw [Real.tanh_eq_sinh_div_cosh, Real.sinh_eq, Real.cosh_eq, h]
  field_simp
  nlinarith

theorem logistic_mem (z : ℝ) : 0 < 1 / (1 + Real.exp (2 * z)) ∧ 1 / (1 + Real.exp (2 * z)) < 1 := by
  have := Real.exp_pos (2 * z)
  refine ⟨by positivity, ?_⟩
  rw [div_lt_one (by linarith)]; linarith

theorem factor_num {M x w : ℝ} (hw : w ≠ 0) (h : Real.exp |x / w| + 1 ≤ M) :
    mul M (.num 0.5) (sub M (.num 1) (tanH M (div M (.num x) (.num w)))) = .num (1 / (1 + Real.exp (2 * (x / w)))) := by
  have ha : |x / w| ≤ M := by
    have := Real.add_one_le_exp |x / w|
    linarith
  have pM : 1 < M := by have := Real.exp_pos |x / w|; linarith
  rw [div_ok hw (by have := le_abs_self (x / w); linarith) (by have := neg_abs_le (x / w); linarith), tanH_num h]
  obtain ⟨l1, l2⟩ := logistic_mem (x / w)
  rw [← logistic] at l1 l2 ⊢
  have hM2 : Real.exp |x / w| ≥ 1 := Real.one_le_exp (abs_nonneg _)
  have e1 : sub M (.num 1) (.num (Real.tanh (x / w))) = .num (1 - Real.tanh (x / w)) := by
    show rnd M (1 + -Real.tanh (x / w)) = _
    rw [rnd_ok (by linarith) (by linarith)]; rfl
  rw [e1]
  exact rnd_ok (by linarith) (by linarith)

theorem times_num {M c y : ℝ} (h0 : 0 ≤ c) (h1 : c ≤ 1) (hy : |y| ≤ M) : mul M (.num c) (.num y) = .num (c * y) := by
  have h : |c * y| ≤ M := by
    rw [abs_mul, abs_of_nonneg h0]
    calc c * |y| ≤ 1 * |y| := mul_le_mul_of_nonneg_right h1 (abs_nonneg _)
      _ ≤ M := by rw [one_mul]; exact hy
  exact rnd_ok (abs_le.1 h).2 (abs_le.1 h).1

variable {P : Type}

/-- **C95, source.** As long as the exponential does not overflow, `source_tanhx` is `1 / (1 + exp(2 (x - slength) / swidth))` at
the point the value is communicated from: between 0 and 1, one half at `slength`, and for a positive width falling with `x`. -/
theorem C95_source_partial (M : ℝ) (G : Grid P) (w l : ℝ) (hw : w ≠ 0) (p : P)
    (hM : Real.exp |(G.globalX (G.src p) - l) / w| + 1 ≤ M) :
    ∃ v : ℝ, sourceTanhx M G w l p = .num v ∧ v = 1 / (1 + Real.exp (2 * ((G.globalX (G.src p) - l) / w)))
      ∧ 0 < v ∧ v < 1 ∧ (G.globalX (G.src p) = l → v = 1 / 2)
      ∧ (0 < w → ∀ q v', Real.exp |(G.globalX (G.src q) - l) / w| + 1 ≤ M → sourceTanhx M G w l q = .num v' →
          G.globalX (G.src p) < G.globalX (G.src q) → v' < v) := by
  refine ⟨_, factor_num hw hM, rfl, (logistic_mem _).1, (logistic_mem _).2, ?_, ?_⟩
  · intro h; rw [h, sub_self, zero_div, mul_zero, Real.exp_zero]; norm_num
  · intro hw' q v' hq hv hlt
    have e : sourceTanhx M G w l q = .num (1 / (1 + Real.exp (2 * ((G.globalX (G.src q) - l) / w)))) := factor_num hw hq
    rw [e] at hv
    obtain rfl := F.num.inj hv
    have h1 : (G.globalX (G.src p) - l) / w < (G.globalX (G.src q) - l) / w :=
      div_lt_div_of_pos_right (by linarith) hw'
    have h2 : Real.exp (2 * ((G.globalX (G.src p) - l) / w)) < Real.exp (2 * ((G.globalX (G.src q) - l) / w)) :=
      Real.exp_lt_exp.2 (by linarith)
    have h3 := Real.exp_pos (2 * ((G.globalX (G.src p) - l) / w))
    exact one_div_lt_one_div_of_lt (by linarith) (by linarith)

/-- **C95, sinks.** Without overflow the sinks are the field times the factor `1 / (1 + exp(2 z))`, with `z = (x - slength) / swidth`
on the left and `z = (1 - x - slength) / swidth` on the right; `sink_tanhx` is the one on the right.  They have the sign of the
field and never exceed it. -/
theorem C95_sinks_partial (M : ℝ) (G : Grid P) (f : P → ℝ) (w l : ℝ) (hw : w ≠ 0) (p : P) (hf : |f (G.src p)| ≤ M) :
    let x := G.globalX (G.src p)
    let s : ℝ → ℝ := fun z => 1 / (1 + Real.exp (2 * (z / w))) * f (G.src p)
    (Real.exp |(x - l) / w| + 1 ≤ M → sinkTanhxl M G f w l p = .num (s (x - l)))
    ∧ (Real.exp |(1 - x - l) / w| + 1 ≤ M → sinkTanhxr M G f w l p = .num (s (1 - x - l))
        ∧ sinkTanhx M G f w l p = .num (s (1 - x - l)))
    ∧ ∀ z, |s z| ≤ |f (G.src p)| ∧ 0 ≤ s z * f (G.src p) := by
  intro x s
  refine ⟨fun h => ?_, fun h => ⟨?_, ?_⟩, fun z => ⟨?_, ?_⟩⟩
  · show mul M (mul M (.num 0.5) (sub M (.num 1) (tanH M (div M (.num (x - l)) (.num w))))) (.num (f (G.src p))) = _
    rw [factor_num hw h]
    exact times_num (logistic_mem _).1.le (logistic_mem _).2.le hf
  · show mul M (mul M (.num 0.5) (sub M (.num 1) (tanH M (div M (.num (1 - x - l)) (.num w))))) (.num (f (G.src p))) = _
    rw [factor_num hw h]
    exact times_num (logistic_mem _).1.le (logistic_mem _).2.le hf
  · show mul M (mul M (.num 0.5) (sub M (.num 1) (tanH M (div M (.num (1 - x - l)) (.num w))))) (.num (f (G.src p))) = _
    rw [factor_num hw h]
    exact times_num (logistic_mem _).1.le (logistic_mem _).2.le hf
  · obtain ⟨a, b⟩ := logistic_mem (z / w)
    simp only [s]
    rw [abs_mul, abs_of_pos a]
    exact mul_le_of_le_one_left (abs_nonneg _) b.le
  · have a := (logistic_mem (z / w)).1
    simp only [s]
    have := mul_nonneg a.le (mul_self_nonneg (f (G.src p)))
    linarith

/-- **C95, Gaussian source.** Where nothing overflows `source_expx2` is `exp(-((x - slength) / swidth)²)`: positive, at most 1, and
1 exactly at `slength`. -/
theorem C95_gauss_partial (M : ℝ) (G : Grid P) (w l : ℝ) (hw : w ≠ 0) (p : P) (hM : 1 ≤ M)
    (h1 : (G.globalX (G.src p) - l) ^ 2 ≤ M) (h2 : (G.globalX (G.src p) - l) ^ 2 / |w| ≤ M)
    (h3 : (G.globalX (G.src p) - l) ^ 2 / w ^ 2 ≤ M) :
    ∃ v : ℝ, sourceExpx2 M G w l p = .num v ∧ v = Real.exp (-((G.globalX (G.src p) - l) / w) ^ 2) ∧ 0 < v ∧ v ≤ 1
      ∧ (v = 1 ↔ G.globalX (G.src p) = l) := by
  set y := G.globalX (G.src p) - l with hy
  have hw2 : 0 < w ^ 2 := by positivity
  have hy2 := sq_nonneg y
  have e1 : mul M (.num (-y)) (.num y) = .num (-y * y) := rnd_ok (by nlinarith) (by nlinarith)
  have hA : |(-y * y) / w| ≤ M := by
    rw [abs_div, show -y * y = -(y ^ 2) by ring, abs_neg, abs_of_nonneg hy2]; exact h2
  have e2 : div M (.num (-y * y)) (.num w) = .num (-y * y / w) := div_ok hw (abs_le.1 hA).2 (abs_le.1 hA).1
  have hB : -y * y / w / w = -(y / w) ^ 2 := by field_simp
  have hC : (y / w) ^ 2 = y ^ 2 / w ^ 2 := div_pow y w 2
  have hD := sq_nonneg (y / w)
  have e3 : div M (.num (-y * y / w)) (.num w) = .num (-(y / w) ^ 2) := by
    rw [div_ok hw (by rw [hB]; linarith) (by rw [hB, hC]; linarith), hB]
  have hle : Real.exp (-(y / w) ^ 2) ≤ 1 := Real.exp_le_one_iff.2 (by linarith)
  have hpos := Real.exp_pos (-(y / w) ^ 2)
  refine ⟨_, ?_, rfl, hpos, hle, ?_⟩
  · show expF M (div M (div M (mul M (.num (-y)) (.num y)) (.num w)) (.num w)) = _
    rw [e1, e2, e3]
    exact rnd_ok (by linarith) (by linarith)
  · rw [Real.exp_eq_one_iff, neg_eq_zero, pow_eq_zero_iff two_ne_zero, div_eq_zero_iff]
    constructor
    · rintro (h | h)
      · linarith
      · exact absurd h hw
    · intro h; left; linarith

/-- **C95, buffer zones.** In the domain `buff_x` is the field times `exp(-(x / 0.05)²) + exp(-((1 - x) / 0.05)²)`, which is
symmetric, positive, at least 1 at both ends, and below `2 exp(-100)` in the middle. -/
theorem C95_buff_partial (M : ℝ) (hM : 1000 ≤ M) (G : Grid P) (f : P → ℝ) (p : P) (hx : 0 ≤ G.globalX (G.src p))
    (hx1 : G.globalX (G.src p) ≤ 1) (hf : 2 * |f (G.src p)| ≤ M) :
    let c : ℝ → ℝ := fun x => Real.exp (-(x / 0.05) ^ 2) + Real.exp (-((1 - x) / 0.05) ^ 2)
    buffX M G f p = .num (c (G.globalX (G.src p)) * f (G.src p)) ∧ (∀ x, c (1 - x) = c x ∧ 0 < c x)
    ∧ 1 ≤ c 0 ∧ 1 ≤ c 1 ∧ c (1 / 2) = 2 * Real.exp (-100) := by
  intro c
  set x := G.globalX (G.src p) with hxd
  have hpart : ∀ y : ℝ, 0 ≤ y → y ≤ 1 →
      mul M (.num 1) (expF M (div M (.num (-(y * y))) (.num (0.05 * 0.05)))) = .num (Real.exp (-(y / 0.05) ^ 2)) := by
    intro y h0 h1
    have hyy : y * y ≤ 1 := by nlinarith
    have hyy0 := mul_self_nonneg y
    have e0 : -(y * y) / (0.05 * 0.05) = -(y / 0.05) ^ 2 := by ring
    have e0' : -(y * y) / (0.05 * 0.05) = -(400 * (y * y)) := by ring
    have e1 : div M (.num (-(y * y))) (.num (0.05 * 0.05)) = .num (-(y / 0.05) ^ 2) := by
      rw [div_ok (by norm_num) (by rw [e0']; linarith) (by rw [e0']; linarith), e0]
    have hle : Real.exp (-(y / 0.05) ^ 2) ≤ 1 := Real.exp_le_one_iff.2 (by have := sq_nonneg (y / 0.05); linarith)
    have hpos := Real.exp_pos (-(y / 0.05) ^ 2)
    have e2 : expF M (.num (-(y / 0.05) ^ 2)) = .num (Real.exp (-(y / 0.05) ^ 2)) := rnd_ok (by linarith) (by linarith)
    rw [e1, e2, times_num (by norm_num) le_rfl (by rw [abs_of_pos hpos]; linarith), one_mul]
  have hb : ∀ y : ℝ, Real.exp (-(y / 0.05) ^ 2) ≤ 1 ∧ 0 < Real.exp (-(y / 0.05) ^ 2) := fun y =>
    ⟨Real.exp_le_one_iff.2 (by have := sq_nonneg (y / 0.05); linarith), Real.exp_pos _⟩
  refine ⟨?_, fun y => ⟨?_, add_pos (Real.exp_pos _) (Real.exp_pos _)⟩, ?_, ?_, ?_⟩
  · show mul M (add M (mul M (.num 1) (expF M (div M (.num (-(x * x))) (.num (0.05 * 0.05)))))
      (mul M (.num 1) (expF M (div M (.num (-((1 - x) * (1 - x)))) (.num (0.05 * 0.05)))))) (.num (f (G.src p))) = _
    rw [hpart x hx hx1, hpart (1 - x) (by linarith) (by linarith)]
    obtain ⟨a1, a2⟩ := hb x
    obtain ⟨b1, b2⟩ := hb (1 - x)
    have e1 : add M (.num (Real.exp (-(x / 0.05) ^ 2))) (.num (Real.exp (-((1 - x) / 0.05) ^ 2))) = .num (c x) :=
      rnd_ok (by linarith) (by linarith)
    rw [e1]
    have hc : |c x * f (G.src p)| ≤ M := by
      rw [abs_mul, abs_of_pos (add_pos a2 b2)]
      calc c x * |f (G.src p)| ≤ 2 * |f (G.src p)| := mul_le_mul_of_nonneg_right (by simp only [c]; linarith) (abs_nonneg _)
        _ ≤ M := hf
    exact rnd_ok (abs_le.1 hc).2 (abs_le.1 hc).1
  · simp only [c]; rw [sub_sub_cancel, add_comm]
  · simp only [c]
    have := (hb (1 - 0)).2
    rw [zero_div, zero_pow two_ne_zero, neg_zero, Real.exp_zero]; linarith
  · simp only [c]
    have := (hb 1).2
    rw [sub_self, zero_div, zero_pow two_ne_zero, neg_zero, Real.exp_zero]; linarith
  · simp only [c]
    norm_num
    ring

end Verif.SourceX
