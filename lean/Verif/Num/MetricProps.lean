import Verif.Num.Metric
import Mathlib.LinearAlgebra.Matrix.Determinant.Basic
import Mathlib.Tactic.FieldSimp
import Mathlib.Tactic.LinearCombination
import Mathlib.Tactic.FinCases
import Mathlib.Tactic.NormNum

/-! # C32: proofs -/
namespace Verif.Num

variable {K : Type} [Field K]

/-! ## Matrix inversion -/

/-- `b` is the inverse of `a`, on both sides. -/
def IsInverse (a b : Mat K) : Prop :=
  ∀ i j, (∑ k, a i k * b k j = if i = j then 1 else 0) ∧ (∑ k, b i k * a k j = if i = j then 1 else 0)

theorem det3_eq (a : Mat K) : det3 a = Matrix.det (Matrix.of a) := by
  rw [Matrix.det_fin_three]
  simp only [det3, Matrix.of_apply]
  ring

theorem inverse3_spec (a : Mat K) (h : det3 a ≠ 0) : IsInverse a (inverse3 a) := by
  have e : a 0 0 * (a 1 1 * a 2 2 - a 1 2 * a 2 1) + a 0 1 * (a 1 2 * a 2 0 - a 1 0 * a 2 2) +
      a 0 2 * (a 1 0 * a 2 1 - a 1 1 * a 2 0) = det3 a := rfl
  have hd : det3 a * (1 / det3 a) = 1 := by field_simp
  intro i j
  unfold inverse3
  simp only [Fin.sum_univ_three]
  generalize det3 a = d at h e hd
  generalize 1 / d = u at hd
  constructor
  · fin_cases i <;> fin_cases j <;> simp <;> first | ring1 | linear_combination u * e + hd
  · fin_cases i <;> fin_cases j <;> simp <;> first | ring1 | linear_combination u * e + hd

/-- **C32.** `invert3x3`: exactly when the determinant is below the threshold in magnitude it throws (threshold not
negative) or reports failure (negative threshold); otherwise the result is the inverse of the matrix from both sides. -/
theorem C32_invert3x3 [LinearOrder K] [IsStrictOrderedRing K] (a : Mat K) (small : K) (hs : small ≠ 0) :
    (invert3x3 a small = .thrown ↔ |Matrix.det (Matrix.of a)| < |small| ∧ 0 ≤ small) ∧
    (invert3x3 a small = .singular ↔ |Matrix.det (Matrix.of a)| < |small| ∧ small < 0) ∧
    ((∃ b, invert3x3 a small = .ok b) ↔ |small| ≤ |Matrix.det (Matrix.of a)|) ∧
    (∀ b, invert3x3 a small = .ok b → IsInverse a b) := by
  rw [← det3_eq]
  unfold invert3x3
  by_cases h : |det3 a| < |small|
  · rw [if_pos h]
    by_cases h2 : small ≥ 0
    · rw [if_pos h2]
      refine ⟨⟨fun _ => ⟨h, h2⟩, fun _ => rfl⟩, ⟨fun e => by simp at e, fun e => absurd e.2 (not_lt.2 h2)⟩,
        ⟨fun ⟨b, e⟩ => by simp at e, fun e => absurd h (not_lt.2 e)⟩, fun b e => by simp at e⟩
    · rw [if_neg h2]
      refine ⟨⟨fun e => by simp at e, fun e => absurd e.2 h2⟩, ⟨fun _ => ⟨h, not_le.1 h2⟩, fun _ => rfl⟩,
        ⟨fun ⟨b, e⟩ => by simp at e, fun e => absurd h (not_lt.2 e)⟩, fun b e => by simp at e⟩
  · rw [if_neg h]
    refine ⟨⟨fun e => by simp at e, fun e => absurd e.1 h⟩, ⟨fun e => by simp at e, fun e => absurd e.1 h⟩,
      ⟨fun _ => not_lt.1 h, fun _ => ⟨_, rfl⟩⟩, fun b e => ?_⟩
    injection e with e
    rw [← e]
    refine inverse3_spec a ?_
    intro h0
    rw [h0, abs_zero] at h
    exact h (abs_pos.2 hs)

/-- **C32 (violated).** With a threshold of exactly zero a singular matrix is not detected. -/
theorem C32_invert3x3_zero_threshold_violated :
    ∃ (a b : Mat ℚ), Matrix.det (Matrix.of a) = 0 ∧ invert3x3 a 0 = .ok b ∧ ¬ IsInverse a b := by
  refine ⟨fun _ _ => 0, inverse3 (fun _ _ => 0), ?_, by unfold invert3x3; rw [if_neg (by simp)], ?_⟩
  · rw [← det3_eq]; simp [det3]
  · intro h
    have := (h 0 0).1
    simp at this

/-! ## The metric -/

theorem fill_symm (g : Sym K) (i j : Fin 3) : g.fill i j = g.fill j i := by
  fin_cases i <;> fin_cases j <;> rfl

/-- The inverse of a symmetric matrix is symmetric, so reading back six components loses nothing. -/
theorem fill_ofMat_inverse (g : Sym K) : (Sym.ofMat (inverse3 g.fill)).fill = inverse3 g.fill := by
  funext i j
  fin_cases i <;> fin_cases j <;> simp [Sym.ofMat, Sym.fill, inverse3, det3] <;> first | ring1 | (left; ring1)

/-- The two tensors are inverse to each other. -/
def MetricInverse (g h : Sym K) : Prop := IsInverse g.fill h.fill

theorem MetricInverse.symm {g h : Sym K} (e : MetricInverse g h) : MetricInverse h g := fun i j => ⟨(e i j).2, (e i j).1⟩

theorem inverse_unique {a b c : Mat K} (h : IsInverse a b) (h' : IsInverse a c) : b = c := by
  have e1 : Matrix.of a * Matrix.of b = 1 := by
    ext i j; rw [Matrix.mul_apply, Matrix.one_apply]; exact (h i j).1
  have e2 : Matrix.of c * Matrix.of a = 1 := by
    ext i j; rw [Matrix.mul_apply, Matrix.one_apply]; exact (h' i j).2
  have : Matrix.of b = Matrix.of c := by
    calc Matrix.of b = (Matrix.of c * Matrix.of a) * Matrix.of b := by rw [e2, one_mul]
      _ = Matrix.of c := by rw [mul_assoc, e1, mul_one]
  exact Matrix.of.injective this

theorem fill_injective {g h : Sym K} (e : g.fill = h.fill) : g = h := by
  have f : ∀ i j, g.fill i j = h.fill i j := fun i j => congrFun (congrFun e i) j
  exact Sym.ext (f 0 0) (f 1 1) (f 2 2) (f 0 1) (f 0 2) (f 1 2)

variable {ι : Type} [DecidableEq ι]

theorem calcInverse_spec [LinearOrder K] [IsStrictOrderedRing K] (small : K) (hs : 0 < small) :
    ∀ (region : List ι) (src dst : ι → Sym K),
    (calcInverse small region src dst ≠ none ↔ ∀ i ∈ region, small ≤ |Matrix.det (Matrix.of (src i).fill)|) ∧
    ∀ out, calcInverse small region src dst = some out →
      (∀ i ∈ region, out i = Sym.ofMat (inverse3 (src i).fill)) ∧ (∀ i, i ∉ region → out i = dst i) := by
  intro region
  induction region with
  | nil =>
    intro src dst
    refine ⟨⟨fun _ i hi => (by cases hi), fun _ => (by simp [calcInverse])⟩, ?_⟩
    intro out h
    simp only [calcInverse, Option.some.injEq] at h
    subst h
    exact ⟨fun i hi => (by cases hi), fun _ _ => rfl⟩
  | cons i rest ih =>
    intro src dst
    obtain ⟨h1, h2, h3, h4⟩ := C32_invert3x3 (src i).fill small hs.ne'
    unfold calcInverse
    by_cases hd : |small| ≤ |Matrix.det (Matrix.of (src i).fill)|
    · have he : invert3x3 (src i).fill small = .ok (inverse3 (src i).fill) := by
        unfold invert3x3; rw [det3_eq, if_neg (not_lt.2 hd)]
      rw [he]
      simp only
      obtain ⟨a, b⟩ := ih src (fun j => if j = i then Sym.ofMat (inverse3 (src i).fill) else dst j)
      rw [abs_of_pos hs] at hd
      refine ⟨a.trans ⟨fun h j hj => ?_, fun h j hj => h j (List.mem_cons_of_mem _ hj)⟩, fun out ho => ?_⟩
      · rcases List.mem_cons.1 hj with rfl | hj
        · exact hd
        · exact h j hj
      · obtain ⟨b1, b2⟩ := b out ho
        refine ⟨fun j hj => ?_, fun j hj => ?_⟩
        · by_cases hr : j ∈ rest
          · exact b1 j hr
          · rcases List.mem_cons.1 hj with rfl | hj
            · rw [b2 j hr, if_pos rfl]
            · exact absurd hj hr
        · rw [b2 j (fun h => hj (List.mem_cons_of_mem _ h)), if_neg (fun h => hj (by rw [h]; exact List.mem_cons_self))]
    · have he : ∀ b, invert3x3 (src i).fill small ≠ .ok b := fun b hb => hd (h3.1 ⟨b, hb⟩)
      cases hx : invert3x3 (src i).fill small with
      | ok b => exact absurd hx (he b)
      | singular =>
        simp only
        refine ⟨⟨fun h => absurd rfl h, fun h => absurd (h i List.mem_cons_self) (by rwa [abs_of_pos hs] at hd)⟩,
          fun out ho => by simp at ho⟩
      | thrown =>
        simp only
        refine ⟨⟨fun h => absurd rfl h, fun h => absurd (h i List.mem_cons_self) (by rwa [abs_of_pos hs] at hd)⟩,
          fun out ho => by simp at ho⟩

/-- **C32.** `calcCovariant` / `calcContravariant`: it succeeds exactly if the determinant of the given tensor reaches the
threshold at every point of the region; then the computed tensor is the inverse of the given one at every point of the region
and unchanged elsewhere. -/
theorem C32_calcCovariant [LinearOrder K] [IsStrictOrderedRing K] (small : K) (hs : 0 < small) (region : List ι)
    (g g_ : ι → Sym K) :
    (calcInverse small region g g_ ≠ none ↔ ∀ i ∈ region, small ≤ |Matrix.det (Matrix.of (g i).fill)|) ∧
    ∀ out, calcInverse small region g g_ = some out →
      (∀ i ∈ region, MetricInverse (g i) (out i)) ∧ (∀ i, i ∉ region → out i = g_ i) := by
  obtain ⟨h1, h2⟩ := calcInverse_spec small hs region g g_
  refine ⟨h1, fun out ho => ?_⟩
  obtain ⟨a, b⟩ := h2 out ho
  refine ⟨fun i hi => ?_, b⟩
  have hd := h1.1 (by rw [ho]; simp) i hi
  unfold MetricInverse
  rw [a i hi, fill_ofMat_inverse]
  refine inverse3_spec _ ?_
  rw [det3_eq]
  intro h0
  rw [h0, abs_zero] at hd
  exact absurd hd (not_le.2 hs)

/-- **C32.** Inverting twice gives back the original tensor, at every point of the region, whenever both inversions
succeed. -/
theorem C32_roundtrip [LinearOrder K] [IsStrictOrderedRing K] (small : K) (hs : 0 < small) (region : List ι)
    (g g_ out back : ι → Sym K) (h : calcInverse small region g g_ = some out) (h' : calcInverse small region out g = some back) :
    back = g := by
  obtain ⟨a, _⟩ := (C32_calcCovariant small hs region g g_).2 out h
  obtain ⟨b, c⟩ := (C32_calcCovariant small hs region out g).2 back h'
  funext i
  by_cases hi : i ∈ region
  · exact fill_injective (inverse_unique (b i hi) ((a i hi).symm))
  · exact c i hi

/-- Non-vacuity: a skewed metric at two points. -/
example : (calcInverse (1/1000 : ℚ) [0, 1] (fun _ : Fin 3 => ⟨2, 3, 4, 1, 0, 1⟩) (fun _ => ⟨1, 1, 1, 0, 0, 0⟩)).isSome = true ∧
    MetricInverse (⟨2, 1, 1, 1, 0, 0⟩ : Sym ℚ) ⟨1, 2, 1, -1, 0, 0⟩ := by
  refine ⟨by decide +kernel, ?_⟩
  intro i j
  fin_cases i <;> fin_cases j <;> simp [Sym.fill, Fin.sum_univ_three] <;> norm_num
