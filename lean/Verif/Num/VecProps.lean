import Verif.Num.MetricProps

/-! # C32: vectors, connection terms, vector operators -/
namespace Verif.Num

variable {K : Type} [Field K]

/-- The six plus three scalar equations of `MetricInverse`. -/
theorem minv_eqs {g h : Sym K} (e : MetricInverse g h) :
    (g.c11 * h.c11 + g.c12 * h.c12 + g.c13 * h.c13 = 1 ∧ g.c11 * h.c12 + g.c12 * h.c22 + g.c13 * h.c23 = 0 ∧
     g.c11 * h.c13 + g.c12 * h.c23 + g.c13 * h.c33 = 0) ∧
    (g.c12 * h.c11 + g.c22 * h.c12 + g.c23 * h.c13 = 0 ∧ g.c12 * h.c12 + g.c22 * h.c22 + g.c23 * h.c23 = 1 ∧
     g.c12 * h.c13 + g.c22 * h.c23 + g.c23 * h.c33 = 0) ∧
    (g.c13 * h.c11 + g.c23 * h.c12 + g.c33 * h.c13 = 0 ∧ g.c13 * h.c12 + g.c23 * h.c22 + g.c33 * h.c23 = 0 ∧
     g.c13 * h.c13 + g.c23 * h.c23 + g.c33 * h.c33 = 1) := by
  have f := fun i j => (e i j).1
  simp only [Fin.sum_univ_three] at f
  exact ⟨⟨by simpa [Sym.fill] using f 0 0, by simpa [Sym.fill] using f 0 1, by simpa [Sym.fill] using f 0 2⟩,
    ⟨by simpa [Sym.fill] using f 1 0, by simpa [Sym.fill] using f 1 1, by simpa [Sym.fill] using f 1 2⟩,
    ⟨by simpa [Sym.fill] using f 2 0, by simpa [Sym.fill] using f 2 1, by simpa [Sym.fill] using f 2 2⟩⟩

/-- **C32.** Changing representation there and back returns the same vector, from either side; and a vector already in the
representation asked for is left alone. -/
theorem C32_vector_roundtrip (m : Metric K) (h : MetricInverse m.up m.lo) (v : Vec K) :
    (v.covariant = false → toContravariant m (toCovariant m v) = v) ∧
    (v.covariant = true → toCovariant m (toContravariant m v) = v) ∧
    (toCovariant m v).covariant = true ∧ (toContravariant m v).covariant = false ∧
    (v.covariant = true → toCovariant m v = v) ∧ (v.covariant = false → toContravariant m v = v) := by
  obtain ⟨⟨a11, a12, a13⟩, ⟨a21, a22, a23⟩, a31, a32, a33⟩ := minv_eqs h
  obtain ⟨⟨b11, b12, b13⟩, ⟨b21, b22, b23⟩, b31, b32, b33⟩ := minv_eqs h.symm
  obtain ⟨x, y, z, c⟩ := v
  refine ⟨?_, ?_, ?_, ?_, ?_, ?_⟩
  · rintro rfl
    simp only [toCovariant, toContravariant, Sym.mulVec, Bool.not_false, if_true, Vec.mk.injEq, and_true]
    refine ⟨?_, ?_, ?_⟩
    · linear_combination x * a11 + y * a12 + z * a13
    · linear_combination x * a21 + y * a22 + z * a23
    · linear_combination x * a31 + y * a32 + z * a33
  · rintro rfl
    simp only [toCovariant, toContravariant, Sym.mulVec, Bool.not_false, if_true, Vec.mk.injEq, and_true]
    refine ⟨?_, ?_, ?_⟩
    · linear_combination x * b11 + y * b12 + z * b13
    · linear_combination x * b21 + y * b22 + z * b23
    · linear_combination x * b31 + y * b32 + z * b33
  · cases c <;> rfl
  · cases c <;> rfl
  · rintro rfl; rfl
  · rintro rfl; rfl

/-- The geometric vector of a `Vec`: its contravariant components. -/
def conv (m : Metric K) (v : Vec K) : K × K × K :=
  ((toContravariant m v).x, (toContravariant m v).y, (toContravariant m v).z)

/-- The scalar product by definition: `g_ij v^i w^j`. -/
def sprod (m : Metric K) (v w : K × K × K) : K :=
  m.lo.c11 * v.1 * w.1 + m.lo.c22 * v.2.1 * w.2.1 + m.lo.c33 * v.2.2 * w.2.2 +
    m.lo.c12 * (v.1 * w.2.1 + v.2.1 * w.1) + m.lo.c13 * (v.1 * w.2.2 + v.2.2 * w.1) +
    m.lo.c23 * (v.2.1 * w.2.2 + v.2.2 * w.2.1)

theorem conv_toCov (m : Metric K) (h : MetricInverse m.up m.lo) (v : Vec K) : conv m (toCovariant m v) = conv m v := by
  cases hc : v.covariant
  · unfold conv
    rw [(C32_vector_roundtrip m h v).1 hc, (C32_vector_roundtrip m h v).2.2.2.2.2 hc]
  · rw [(C32_vector_roundtrip m h v).2.2.2.2.1 hc]

theorem conv_toCon (m : Metric K) (v : Vec K) : conv m (toContravariant m v) = conv m v := by
  unfold conv
  cases hc : v.covariant <;> simp [toContravariant, hc, Sym.mulVec]

/-- The covariant components in terms of the contravariant ones. -/
theorem cov_of_conv (m : Metric K) (h : MetricInverse m.up m.lo) (v : Vec K) :
    (toCovariant m v).x = m.lo.c11 * (conv m v).1 + m.lo.c12 * (conv m v).2.1 + m.lo.c13 * (conv m v).2.2 ∧
    (toCovariant m v).y = m.lo.c12 * (conv m v).1 + m.lo.c22 * (conv m v).2.1 + m.lo.c23 * (conv m v).2.2 ∧
    (toCovariant m v).z = m.lo.c13 * (conv m v).1 + m.lo.c23 * (conv m v).2.1 + m.lo.c33 * (conv m v).2.2 := by
  have hr : toCovariant m v = toCovariant m (toContravariant m v) := by
    cases hc : v.covariant
    · rw [(C32_vector_roundtrip m h v).2.2.2.2.2 hc]
    · rw [(C32_vector_roundtrip m h v).2.1 hc, (C32_vector_roundtrip m h v).2.2.2.2.1 hc]
  rw [hr]
  have hf := (C32_vector_roundtrip m h v).2.2.2.1
  unfold conv
  generalize toContravariant m v = w at hf
  obtain ⟨x, y, z, c⟩ := w
  simp only at hf
  subst hf
  simp only [toCovariant, Sym.mulVec, Bool.not_false, if_true]
  exact ⟨trivial, by ring, by ring⟩

/-- **C32.** The dot product is the scalar product of the two vectors whichever representations they are in. -/
theorem C32_dot (m : Metric K) (h : MetricInverse m.up m.lo) (v w : Vec K) :
    dot m v w = sprod m (conv m v) (conv m w) := by
  obtain ⟨⟨a11, a12, a13⟩, ⟨a21, a22, a23⟩, a31, a32, a33⟩ := minv_eqs h.symm
  have key : ∀ v w : Vec K, v.covariant = true → w.covariant = false → v.x * w.x + v.y * w.y + v.z * w.z =
      sprod m (conv m v) (conv m w) := by
    intro v w hv hw
    obtain ⟨e1, e2, e3⟩ := cov_of_conv m h v
    rw [(C32_vector_roundtrip m h v).2.2.2.2.1 hv] at e1 e2 e3
    have ew : conv m w = (w.x, w.y, w.z) := by simp [conv, toContravariant, hw]
    rw [ew]
    simp only [sprod]
    rw [e1, e2, e3]
    ring
  have sym : ∀ a b : K × K × K, sprod m a b = sprod m b a := by intro a b; simp only [sprod]; ring
  unfold dot
  cases hv : v.covariant <;> cases hw : w.covariant
  · simp only [Bool.xor_false, Bool.false_eq_true, if_false]
    have ev : conv m v = (v.x, v.y, v.z) := by simp [conv, toContravariant, hv]
    have ew : conv m w = (w.x, w.y, w.z) := by simp [conv, toContravariant, hw]
    rw [ev, ew]
    simp only [sprod]
    ring
  · simp only [Bool.xor_false, if_true]
    rw [sym, ← key w v hw hv]
    ring
  · simp only [Bool.xor_true, Bool.not_false, if_true]
    exact key v w hv hw
  · simp only [Bool.xor_true, Bool.not_true, Bool.false_eq_true, if_false, if_true]
    rw [← conv_toCon m w, ← key v (toContravariant m w) hv (C32_vector_roundtrip m h w).2.2.2.1]
    simp only [toContravariant, hw, if_true, Sym.mulVec]
    ring

/-- **C32.** Addition, subtraction and scaling act on the vectors, whichever representations the operands are in. -/
theorem C32_vector_arith (m : Metric K) (h : MetricInverse m.up m.lo) (v w : Vec K) (c : K) :
    conv m (vadd m v w) = ((conv m v).1 + (conv m w).1, (conv m v).2.1 + (conv m w).2.1, (conv m v).2.2 + (conv m w).2.2) ∧
    conv m (vsub m v w) = ((conv m v).1 - (conv m w).1, (conv m v).2.1 - (conv m w).2.1, (conv m v).2.2 - (conv m w).2.2) ∧
    conv m (vscale v c) = ((conv m v).1 * c, (conv m v).2.1 * c, (conv m v).2.2 * c) := by
  have hs : ∀ u : Vec K, conv m (vscale u c) = ((conv m u).1 * c, (conv m u).2.1 * c, (conv m u).2.2 * c) := by
    intro u
    obtain ⟨x, y, z, b⟩ := u
    cases b <;> simp only [conv, vscale, toContravariant, Sym.mulVec, if_true, Bool.false_eq_true, if_false, Prod.mk.injEq]
    refine ⟨by ring, by ring, by ring⟩
  have same : ∀ u w : Vec K, u.covariant = w.covariant →
      conv m ⟨u.x + w.x, u.y + w.y, u.z + w.z, u.covariant⟩ =
        ((conv m u).1 + (conv m w).1, (conv m u).2.1 + (conv m w).2.1, (conv m u).2.2 + (conv m w).2.2) ∧
      conv m ⟨u.x - w.x, u.y - w.y, u.z - w.z, u.covariant⟩ =
        ((conv m u).1 - (conv m w).1, (conv m u).2.1 - (conv m w).2.1, (conv m u).2.2 - (conv m w).2.2) := by
    intro u w e
    obtain ⟨x, y, z, b⟩ := u
    obtain ⟨x', y', z', b'⟩ := w
    simp only at e
    subst e
    cases b <;> simp only [conv, toContravariant, Sym.mulVec, if_true, Bool.false_eq_true, if_false, Prod.mk.injEq]
    · simp
    · refine ⟨⟨by ring, by ring, by ring⟩, by ring, by ring, by ring⟩
  refine ⟨?_, ?_, hs v⟩
  · unfold vadd
    cases hw : w.covariant
    · simp only [Bool.false_eq_true, if_false]
      rw [(same (toContravariant m v) w (by rw [hw]; exact (C32_vector_roundtrip m h v).2.2.2.1)).1, conv_toCon]
    · simp only [if_true]
      rw [(same (toCovariant m v) w (by rw [hw]; exact (C32_vector_roundtrip m h v).2.2.1)).1, conv_toCov m h]
  · unfold vsub
    cases hw : w.covariant
    · simp only [Bool.false_eq_true, if_false]
      rw [(same (toContravariant m v) w (by rw [hw]; exact (C32_vector_roundtrip m h v).2.2.2.1)).2, conv_toCon]
    · simp only [if_true]
      rw [(same (toCovariant m v) w (by rw [hw]; exact (C32_vector_roundtrip m h v).2.2.1)).2, conv_toCov m h]

/-- **C32.** The cross product is orthogonal to both operands and changes sign when they are exchanged; it does not depend
on the representations of the operands. -/
theorem C32_cross_orthogonal (m : Metric K) (h : MetricInverse m.up m.lo) (v w : Vec K) :
    dot m v (cross m v w) = 0 ∧ dot m w (cross m v w) = 0 ∧
    (cross m w v).x = - (cross m v w).x ∧ (cross m w v).y = - (cross m v w).y ∧ (cross m w v).z = - (cross m v w).z ∧
    cross m (toContravariant m v) w = cross m v w ∧ cross m v (toContravariant m w) = cross m v w := by
  have hcc : ∀ v : Vec K, toCovariant m (toContravariant m v) = toCovariant m v := by
    intro v
    cases hc : v.covariant
    · rw [(C32_vector_roundtrip m h v).2.2.2.2.2 hc]
    · rw [(C32_vector_roundtrip m h v).2.1 hc, (C32_vector_roundtrip m h v).2.2.2.2.1 hc]
  have hdot : ∀ v u : Vec K, u.covariant = false → dot m v u = (toCovariant m v).x * u.x + (toCovariant m v).y * u.y +
      (toCovariant m v).z * u.z := by
    intro v u hu
    have e : dot m v u = dot m (toCovariant m v) u := by rw [C32_dot m h, C32_dot m h, conv_toCov m h]
    rw [e]
    have := (C32_vector_roundtrip m h v).2.2.1
    unfold dot
    rw [this, hu]
    simp
  refine ⟨?_, ?_, ?_, ?_, ?_, ?_, ?_⟩
  · rw [hdot v _ rfl]; simp only [cross]; ring
  · rw [hdot w _ rfl]; simp only [cross]; ring
  · simp only [cross]; ring
  · simp only [cross]; ring
  · simp only [cross]; ring
  · unfold cross; rw [hcc]
  · unfold cross; rw [hcc]

theorem gdet_eq (g : Sym K) : gdet g = Matrix.det (Matrix.of g.fill) := by
  rw [Matrix.det_fin_three]
  simp [gdet, Sym.fill]
  ring

theorem det_mul_inv {g h : Sym K} (e : MetricInverse g h) : gdet g * gdet h = 1 := by
  rw [gdet_eq, gdet_eq, ← Matrix.det_mul]
  have : Matrix.of g.fill * Matrix.of h.fill = 1 := by
    ext i j; rw [Matrix.mul_apply, Matrix.one_apply]; exact (e i j).1
  rw [this, Matrix.det_one]

/-- **C32.** With the Jacobian of the metric the cross product has the right magnitude (Lagrange's identity):
`|v × w|² = |v|² |w|² - (v·w)²`. -/
theorem C32_cross_magnitude (m : Metric K) (h : MetricInverse m.up m.lo) (hJ : IsJacobian m) (v w : Vec K) :
    dot m (cross m v w) (cross m v w) = dot m v v * dot m w w - dot m v w * dot m v w := by
  have hd := det_mul_inv h
  have hJ0 : m.J ≠ 0 := by
    intro h0; unfold IsJacobian at hJ; rw [h0] at hJ; simp at hJ
  have hJJ : m.J * m.J = gdet m.lo := by
    unfold IsJacobian at hJ
    linear_combination gdet m.lo * hJ - m.J * m.J * hd
  rw [C32_dot m h v v, C32_dot m h w w, C32_dot m h v w, C32_dot m h (cross m v w)]
  obtain ⟨e1, e2, e3⟩ := cov_of_conv m h v
  obtain ⟨f1, f2, f3⟩ := cov_of_conv m h w
  have ec : conv m (cross m v w) = ((cross m v w).x, (cross m v w).y, (cross m v w).z) := rfl
  rw [ec]
  simp only [cross]
  rw [e1, e2, e3, f1, f2, f3]
  generalize conv m v = p
  generalize conv m w = q
  obtain ⟨p1, p2, p3⟩ := p
  obtain ⟨q1, q2, q3⟩ := q
  simp only [sprod]
  field_simp
  rw [show m.J ^ 2 = gdet m.lo by rw [← hJJ]; ring]
  simp only [gdet]
  ring

/-- Non-vacuity: a skewed metric with Jacobian two. -/
example : ∃ m : Metric ℚ, MetricInverse m.up m.lo ∧ IsJacobian m ∧ m.up.c12 ≠ 0 := by
  refine ⟨⟨⟨2, 1, 1/4, 1, 0, 0⟩, ⟨1, 2, 4, -1, 0, 0⟩, 2⟩, ?_, ?_, by norm_num⟩
  · intro i j
    fin_cases i <;> fin_cases j <;> simp [Sym.fill, Fin.sum_univ_three] <;> norm_num
  · simp only [IsJacobian, gdet]; norm_num

/-! ## Connection terms -/

/-- The Christoffel symbol by definition: `½ g^{il} (∂_j g_{lk} + ∂_k g_{lj} - ∂_l g_{jk})`. -/
def gammaDef (up : Sym K) (dlo : Fin 3 → Sym K) (i j k : Fin 3) : K :=
  ∑ l, up.fill i l * ((dlo j).fill l k + (dlo k).fill l j - (dlo l).fill j k) / 2

/-- The computed terms, indexed. -/
def Conn.get (G : Conn K) (i : Fin 3) : Sym K := ![G.G1, G.G2, G.G3] i

/-- **C32 (partial).** The connection terms computed by `geometry` are the Christoffel symbols of the metric, except that
`G2_22` is off by `g23 (∂_y g^23 - ∂_y g_23)`. -/
theorem C32_christoffel_partial [CharZero K] (up : Sym K) (d : DMetric K) (i j k : Fin 3) :
    ((christoffel up d).get i).fill j k = gammaDef up d.dlo i j k +
      (if i = 1 ∧ j = 1 ∧ k = 1 then up.c23 * ((d.dup 1).c23 - (d.dlo 1).c23) else 0) := by
  unfold gammaDef Conn.get christoffel
  simp only [Fin.sum_univ_three]
  fin_cases i <;> fin_cases j <;> fin_cases k <;> simp [Sym.fill] <;> field_simp <;> ring

/-- **C32.** So they are the Christoffel symbols wherever `g23` vanishes or has equal derivatives in both forms. -/
theorem C32_christoffel_exact [CharZero K] (up : Sym K) (d : DMetric K)
    (h : up.c23 = 0 ∨ (d.dup 1).c23 = (d.dlo 1).c23) (i j k : Fin 3) :
    ((christoffel up d).get i).fill j k = gammaDef up d.dlo i j k := by
  rw [C32_christoffel_partial]
  rcases h with h | h <;> simp [h]

/-- **C32 (violated).** A metric and derivatives of it, consistent with the two tensors being inverse to each other
everywhere, for which `G2_22` is not the Christoffel symbol. -/
theorem C32_christoffel_violated : ∃ (m : Metric ℚ) (d : DMetric ℚ), MetricInverse m.up m.lo ∧
    (∀ n i j : Fin 3, ∑ k, ((d.dup n).fill i k * m.lo.fill k j + m.up.fill i k * (d.dlo n).fill k j) = 0) ∧
    (christoffel m.up d).G2.c22 ≠ gammaDef m.up d.dlo 1 1 1 := by
  refine ⟨⟨⟨1, 2, 1, 0, 0, -1⟩, ⟨1, 1, 2, 0, 0, 1⟩, 1⟩,
    ⟨![⟨0, 0, 0, 0, 0, 0⟩, ⟨0, 0, 0, 0, 0, 1⟩, ⟨0, 0, 0, 0, 0, 0⟩], ![⟨0, 0, 0, 0, 0, 0⟩, ⟨0, 4, 2, 0, 0, -3⟩, ⟨0, 0, 0, 0, 0, 0⟩]⟩,
    ?_, ?_, ?_⟩
  · intro i j
    fin_cases i <;> fin_cases j <;> simp [Sym.fill, Fin.sum_univ_three] <;> norm_num
  · intro n i j
    fin_cases n <;> fin_cases i <;> fin_cases j <;> simp [Sym.fill, Fin.sum_univ_three] <;> norm_num
  · simp [christoffel, gammaDef, Fin.sum_univ_three, Sym.fill]
    norm_num

/-- **C32.** The Christoffel symbols are compatible with the metric: the covariant derivative of the metric vanishes. -/
theorem C32_metric_compatible [CharZero K] (m : Metric K) (h : MetricInverse m.up m.lo) (dlo : Fin 3 → Sym K) (i j k : Fin 3) :
    (dlo k).fill i j = ∑ l, (m.lo.fill i l * gammaDef m.up dlo l j k + m.lo.fill j l * gammaDef m.up dlo l i k) := by
  have low : ∀ a b c : Fin 3, ∑ l, m.lo.fill a l * gammaDef m.up dlo l b c =
      ((dlo b).fill a c + (dlo c).fill a b - (dlo a).fill b c) / 2 := by
    intro a b c
    unfold gammaDef
    simp only [Finset.mul_sum]
    rw [Finset.sum_comm]
    have : ∀ n, ∑ l, m.lo.fill a l * (m.up.fill l n * ((dlo b).fill n c + (dlo c).fill n b - (dlo n).fill b c) / 2) =
        (if a = n then 1 else 0) * (((dlo b).fill n c + (dlo c).fill n b - (dlo n).fill b c) / 2) := by
      intro n
      rw [← (h a n).2, Finset.sum_mul]
      exact Finset.sum_congr rfl (fun l _ => by ring)
    simp only [this]
    simp
  rw [Finset.sum_add_distrib, low, low, fill_symm (dlo j) i k, fill_symm (dlo k) j i]
  ring

/-- **C32.** `V_dot_Grad` of a vector gives the same vector whether the operand is in contravariant or in covariant form
(with the directional derivatives of the covariant components related to those of the contravariant ones by the product rule),
for connection terms that are the Christoffel symbols. -/
theorem C32_v_dot_grad [CharZero K] (m : Metric K) (h : MetricInverse m.up m.lo) (G : Conn K) (dlo : Fin 3 → Sym K)
    (hG : ∀ i j k, (G.get i).fill j k = gammaDef m.up dlo i j k) (v a : Vec K) (ha : a.covariant = false)
    (dx dy dz dx' dy' dz' : K)
    (hdir : ∀ V : Fin 3 → K, V = ![(toContravariant m v).x, (toContravariant m v).y, (toContravariant m v).z] →
      dx' = (∑ k, V k * ((dlo k).c11 * a.x + (dlo k).c12 * a.y + (dlo k).c13 * a.z)) + (m.lo.c11 * dx + m.lo.c12 * dy + m.lo.c13 * dz) ∧
      dy' = (∑ k, V k * ((dlo k).c12 * a.x + (dlo k).c22 * a.y + (dlo k).c23 * a.z)) + (m.lo.c12 * dx + m.lo.c22 * dy + m.lo.c23 * dz) ∧
      dz' = (∑ k, V k * ((dlo k).c13 * a.x + (dlo k).c23 * a.y + (dlo k).c33 * a.z)) + (m.lo.c13 * dx + m.lo.c23 * dy + m.lo.c33 * dz)) :
    vDotGrad m G v (toCovariant m a) dx' dy' dz' = toCovariant m (vDotGrad m G v a dx dy dz) := by
  have comp : ∀ i j k : Fin 3, (dlo k).fill i j =
      ∑ l, (m.lo.fill i l * (G.get l).fill j k + m.lo.fill j l * (G.get l).fill i k) := by
    intro i j k
    simp only [hG]
    exact C32_metric_compatible m h dlo i j k
  simp only [Fin.sum_univ_three] at comp hdir
  obtain ⟨h1, h2, h3⟩ := hdir _ rfl
  obtain ⟨x, y, z, c⟩ := a
  simp only at ha h1 h2 h3
  subst ha
  unfold vDotGrad
  generalize toContravariant m v = w at h1 h2 h3
  simp only [toCovariant, Sym.mulVec, Bool.not_false, if_true, Bool.false_eq_true, if_false, Vec.mk.injEq, and_true]
  simp only [Matrix.cons_val_zero, Matrix.cons_val_one, Matrix.cons_val] at h1 h2 h3
  have c11 := fun k => comp 0 0 k
  have c12 := fun k => comp 0 1 k
  have c13 := fun k => comp 0 2 k
  have c22 := fun k => comp 1 1 k
  have c23 := fun k => comp 1 2 k
  have c33 := fun k => comp 2 2 k
  have e0 : ∀ g : Sym K, g.fill 0 0 = g.c11 := fun _ => rfl
  have e1 : ∀ g : Sym K, g.fill 0 1 = g.c12 := fun _ => rfl
  have e2 : ∀ g : Sym K, g.fill 0 2 = g.c13 := fun _ => rfl
  have e3 : ∀ g : Sym K, g.fill 1 0 = g.c12 := fun _ => rfl
  have e4 : ∀ g : Sym K, g.fill 1 1 = g.c22 := fun _ => rfl
  have e5 : ∀ g : Sym K, g.fill 1 2 = g.c23 := fun _ => rfl
  have e6 : ∀ g : Sym K, g.fill 2 0 = g.c13 := fun _ => rfl
  have e7 : ∀ g : Sym K, g.fill 2 1 = g.c23 := fun _ => rfl
  have e8 : ∀ g : Sym K, g.fill 2 2 = g.c33 := fun _ => rfl
  have g0 : G.get 0 = G.G1 := rfl
  have g1 : G.get 1 = G.G2 := rfl
  have g2 : G.get 2 = G.G3 := rfl
  simp only [e0, e1, e2, e3, e4, e5, e6, e7, e8, g0, g1, g2] at c11 c12 c13 c22 c23 c33
  have p0 := c11 0
  have p1 := c11 1
  have p2 := c11 2
  have q0 := c12 0
  have q1 := c12 1
  have q2 := c12 2
  have r0 := c13 0
  have r1 := c13 1
  have r2 := c13 2
  have s0 := c22 0
  have s1 := c22 1
  have s2 := c22 2
  have t0 := c23 0
  have t1 := c23 1
  have t2 := c23 2
  have u0 := c33 0
  have u1 := c33 1
  have u2 := c33 2
  simp only [e0, e1, e2, e3, e4, e5, e6, e7, e8] at p0 p1 p2 q0 q1 q2 r0 r1 r2 s0 s1 s2 t0 t1 t2 u0 u1 u2
  refine ⟨?_, ?_, ?_⟩
  · rw [h1]
    linear_combination w.x * (x * p0 + y * q0 + z * r0) + w.y * (x * p1 + y * q1 + z * r1) + w.z * (x * p2 + y * q2 + z * r2)
  · rw [h2]
    linear_combination w.x * (x * q0 + y * s0 + z * t0) + w.y * (x * q1 + y * s1 + z * t1) + w.z * (x * q2 + y * s2 + z * t2)
  · rw [h3]
    linear_combination w.x * (x * r0 + y * t0 + z * u0) + w.y * (x * r1 + y * t1 + z * u1) + w.z * (x * r2 + y * t2 + z * u2)

/-! ## Operators -/

variable {ι : Type}

/-- Derivatives that are additive and commute (as the central difference operators on a uniform grid do). -/
structure Commuting (D : Deriv ι K) : Prop where
  subX : ∀ f g : ι → K, D.DDX (fun i => f i - g i) = fun i => D.DDX f i - D.DDX g i
  subY : ∀ f g : ι → K, D.DDY (fun i => f i - g i) = fun i => D.DDY f i - D.DDY g i
  subZ : ∀ f g : ι → K, D.DDZ (fun i => f i - g i) = fun i => D.DDZ f i - D.DDZ g i
  xy : ∀ f, D.DDX (D.DDY f) = D.DDY (D.DDX f)
  xz : ∀ f, D.DDX (D.DDZ f) = D.DDZ (D.DDX f)
  yz : ∀ f, D.DDY (D.DDZ f) = D.DDZ (D.DDY f)

/-- **C32.** The curl of a gradient vanishes, for any metric and derivative operators that commute. -/
theorem C32_curl_grad (D : Deriv ι K) (hD : Commuting D) (m : ι → Metric K) (f : ι → K) (torsion : ι → K) (ht : ∀ i, torsion i = 0) :
    (curl D m torsion (grad D f)).x = (fun _ => 0) ∧ (curl D m torsion (grad D f)).y = (fun _ => 0) ∧
    (curl D m torsion (grad D f)).z = (fun _ => 0) := by
  have e : (grad D f).toCov m = grad D f := rfl
  unfold curl
  rw [e]
  simp only [grad, ht, hD.xy, hD.xz, hD.yz, sub_self, zero_div, zero_mul]
  simp

/-- **C32.** The divergence of a curl vanishes, for any nowhere vanishing Jacobian and derivative operators that are additive
and commute. -/
theorem C32_div_curl (D : Deriv ι K) (hD : Commuting D) (m : ι → Metric K) (hJ : ∀ i, (m i).J ≠ 0) (v : VField ι K)
    (torsion : ι → K) (ht : ∀ i, torsion i = 0) : div D m (curl D m torsion v) = fun _ => 0 := by
  funext i
  have ex : (fun j => (m j).J * ((curl D m torsion v).toCon m).x j) =
      fun j => D.DDY (v.toCov m).z j - D.DDZ (v.toCov m).y j := by
    funext j
    show (m j).J * ((D.DDY (v.toCov m).z j - D.DDZ (v.toCov m).y j) / (m j).J) = _
    have := hJ j
    field_simp
  have ey : (fun j => (m j).J * ((curl D m torsion v).toCon m).y j) =
      fun j => D.DDZ (v.toCov m).x j - D.DDX (v.toCov m).z j := by
    funext j
    show (m j).J * ((D.DDZ (v.toCov m).x j - D.DDX (v.toCov m).z j) / (m j).J) = _
    have := hJ j
    field_simp
  have ez : (fun j => (m j).J * ((curl D m torsion v).toCon m).z j) =
      fun j => D.DDX (v.toCov m).y j - D.DDY (v.toCov m).x j := by
    funext j
    show (m j).J * ((D.DDX (v.toCov m).y j - D.DDY (v.toCov m).x j) / (m j).J - torsion j * (v.toCov m).z j / (m j).J) = _
    have := hJ j
    rw [ht]
    field_simp
    ring
  unfold div
  simp only [ex, ey, ez, hD.subX, hD.subY, hD.subZ, hD.xy, hD.xz, hD.yz]
  ring

/-- **C32.** `Grad_perp` is the part of the gradient perpendicular to the magnetic field (which is along the y coordinate
line): it has no component along it, and what was taken away is a multiple of it. -/
theorem C32_grad_perp (D : Deriv ι K) (m : ι → Metric K) (Bxy f : ι → K)
    (hB : ∀ i, ((m i).J * Bxy i) * ((m i).J * Bxy i) = (m i).lo.c22) (hg : ∀ i, (m i).lo.c22 ≠ 0) (i : ι) :
    dot (m i) ((gradPerp D m Bxy f).at i) ⟨0, 1, 0, false⟩ = 0 ∧
    ∃ s : K, (grad D f).at i = vadd (m i) ((gradPerp D m Bxy f).at i) (toCovariant (m i) ⟨0, s, 0, false⟩) := by
  constructor
  · simp [dot, gradPerp, VField.at]
  · refine ⟨D.DDY f i / (m i).lo.c22, ?_⟩
    have := hg i
    simp only [grad, gradPerp, VField.at, vadd, toCovariant, Sym.mulVec, Bool.not_false, if_true, Bool.not_true,
      Bool.false_eq_true, if_false, hB, Vec.mk.injEq, and_true]
    refine ⟨?_, ?_, ?_⟩ <;> field_simp <;> ring

/-- Non-vacuity: central differences on the integers commute and are additive. -/
example : Commuting (ι := ℤ × ℤ × ℤ) (K := ℚ)
    ⟨fun f p => (f (p.1 + 1, p.2.1, p.2.2) - f (p.1 - 1, p.2.1, p.2.2)) / 2,
     fun f p => (f (p.1, p.2.1 + 1, p.2.2) - f (p.1, p.2.1 - 1, p.2.2)) / 2,
     fun f p => (f (p.1, p.2.1, p.2.2 + 1) - f (p.1, p.2.1, p.2.2 - 1)) / 2⟩ := by
  constructor <;> intros <;> funext p <;> simp only <;> ring

end Verif.Num
