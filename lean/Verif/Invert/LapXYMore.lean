import Verif.Invert.LapXYSlab
import Mathlib.Algebra.BigOperators.Intervals
import Mathlib.Tactic.NormNum
import Mathlib.Tactic.IntervalCases
import Mathlib.Tactic.FieldSimp

/-! # C75: conservation, symmetry, guard cells, and where the solver goes wrong -/

namespace Verif.LapXY

variable {K : Type} [Field K]

/-- Flux through an X face, as in the manual. -/
def faceX (q : Coefs K) (f : Cell → K) (a b : Cell) : K :=
  avg q.A a b * avg q.J a b * avg q.g11 a b * ((f b - f a) / avg q.dx a b)

/-- Flux through a Y face. -/
def faceY (q : Coefs K) (f : Cell → K) (a b : Cell) : K :=
  avg q.A a b * avg q.J a b * avg q.g23 a b * (avg q.g_23 a b / avg q.g_22 a b)
    * ((f b - f a) / avg q.dy a b)

theorem cell_balance (q : Coefs K) (f : Cell → K) (c : Cell) (hJ : q.J c ≠ 0) (hx : q.dx c ≠ 0)
    (hy : q.dy c ≠ 0) :
    q.J c * q.dx c * q.dy c * laplacePerpXY q f c
      = q.dy c * (faceX q f c (c.1 + 1, c.2) - faceX q f (c.1 - 1, c.2) c)
        - q.dx c * (faceY q f c (c.1, c.2 + 1) - faceY q f (c.1, c.2 - 1) c) := by
  rw [C75_flux_form]
  simp only [fluxFormX, fluxFormY]
  rw [show ∀ a b : Cell, avg q.A a b * avg q.J a b * avg q.g11 a b * ((f b - f a) / avg q.dx a b)
    = faceX q f a b from fun _ _ => rfl]
  rw [show ∀ a b : Cell, avg q.A a b * avg q.J a b * avg q.g23 a b
    * (avg q.g_23 a b / avg q.g_22 a b) * ((f b - f a) / avg q.dy a b)
    = faceY q f a b from fun _ _ => rfl]
  rw [show ∀ a b : Cell, avg q.A a b * avg q.J a b * avg q.g11 a b * ((f b - f a) / avg q.dx a b)
    = faceX q f a b from fun _ _ => rfl]
  rw [show ∀ a b : Cell, avg q.A a b * avg q.J a b * avg q.g23 a b
    * (avg q.g_23 a b / avg q.g_22 a b) * ((f b - f a) / avg q.dy a b)
    = faceY q f a b from fun _ _ => rfl]
  field_simp
  ring

/-- **Conservation.**  When `dx` does not vary along Y nor `dy` along X, the sum of
`J dx dy Laplace_perpXY(A, f)` over any block of cells is the flux through its four sides: the
fluxes through all inner faces cancel. -/
theorem C75_conservation (q : Coefs K) (f : Cell → K) (x0 y0 : Int) (n m : Nat)
    (hJ : ∀ c, q.J c ≠ 0) (hx : ∀ c, q.dx c ≠ 0) (hy : ∀ c, q.dy c ≠ 0)
    (hdx : ∀ x y y', q.dx (x, y) = q.dx (x, y')) (hdy : ∀ x x' y, q.dy (x, y) = q.dy (x', y)) :
    (∑ i ∈ Finset.range n, ∑ j ∈ Finset.range m,
        q.J (x0 + i, y0 + j) * q.dx (x0 + i, y0 + j) * q.dy (x0 + i, y0 + j)
          * laplacePerpXY q f (x0 + i, y0 + j))
      = (∑ j ∈ Finset.range m, q.dy (x0, y0 + j) *
          (faceX q f (x0 + n - 1, y0 + j) (x0 + n, y0 + j) - faceX q f (x0 - 1, y0 + j) (x0, y0 + j)))
        - ∑ i ∈ Finset.range n, q.dx (x0 + i, y0) *
          (faceY q f (x0 + i, y0 + m - 1) (x0 + i, y0 + m)
            - faceY q f (x0 + i, y0 - 1) (x0 + i, y0)) := by
  have hcell : ∀ i j : Nat, q.J (x0 + i, y0 + j) * q.dx (x0 + i, y0 + j) * q.dy (x0 + i, y0 + j)
          * laplacePerpXY q f (x0 + i, y0 + j)
      = q.dy (x0, y0 + j) * ((faceX q f (x0 + ((i + 1 : Nat) : Int) - 1, y0 + j)
            (x0 + ((i + 1 : Nat) : Int), y0 + j)
          - faceX q f (x0 + (i : Int) - 1, y0 + j) (x0 + (i : Int), y0 + j)))
        - q.dx (x0 + i, y0) * ((faceY q f (x0 + i, y0 + ((j + 1 : Nat) : Int) - 1)
            (x0 + i, y0 + ((j + 1 : Nat) : Int))
          - faceY q f (x0 + i, y0 + (j : Int) - 1) (x0 + i, y0 + (j : Int)))) := by
    intro i j
    rw [cell_balance q f _ (hJ _) (hx _) (hy _), hdx (x0 + i) (y0 + j) y0, hdy (x0 + i) x0 (y0 + j)]
    have e1 : x0 + ((i + 1 : Nat) : Int) - 1 = x0 + i := by push_cast; ring
    have e2 : x0 + ((i + 1 : Nat) : Int) = x0 + i + 1 := by push_cast; ring
    have e3 : y0 + ((j + 1 : Nat) : Int) - 1 = y0 + j := by push_cast; ring
    have e4 : y0 + ((j + 1 : Nat) : Int) = y0 + j + 1 := by push_cast; ring
    rw [e1, e2, e3, e4]
  have tx : ∀ j : Nat, (∑ i ∈ Finset.range n,
      (faceX q f (x0 + ((i + 1 : Nat) : Int) - 1, y0 + j) (x0 + ((i + 1 : Nat) : Int), y0 + j)
        - faceX q f (x0 + (i : Int) - 1, y0 + j) (x0 + (i : Int), y0 + j)))
      = faceX q f (x0 + n - 1, y0 + j) (x0 + n, y0 + j)
        - faceX q f (x0 - 1, y0 + j) (x0, y0 + j) := by
    intro j
    have := Finset.sum_range_sub (fun i : Nat =>
      faceX q f (x0 + (i : Int) - 1, y0 + j) (x0 + (i : Int), y0 + j)) n
    simpa using this
  have ty : ∀ i : Nat, (∑ j ∈ Finset.range m,
      (faceY q f (x0 + i, y0 + ((j + 1 : Nat) : Int) - 1) (x0 + i, y0 + ((j + 1 : Nat) : Int))
        - faceY q f (x0 + i, y0 + (j : Int) - 1) (x0 + i, y0 + (j : Int))))
      = faceY q f (x0 + i, y0 + m - 1) (x0 + i, y0 + m)
        - faceY q f (x0 + i, y0 - 1) (x0 + i, y0) := by
    intro i
    have := Finset.sum_range_sub (fun j : Nat =>
      faceY q f (x0 + i, y0 + (j : Int) - 1) (x0 + i, y0 + (j : Int))) m
    simpa using this
  rw [Finset.sum_congr rfl fun i _ => Finset.sum_congr rfl fun j _ => hcell i j]
  simp only [Finset.sum_sub_distrib]
  congr 1
  · rw [Finset.sum_comm]
    refine Finset.sum_congr rfl fun j _ => ?_
    rw [← Finset.mul_sum, tx j]
  · refine Finset.sum_congr rfl fun i _ => ?_
    rw [← Finset.mul_sum, ty i]

/-- **Symmetry.**  Weighted with the cell volume, the coefficients coupling two neighbouring cells
are equal, when `dy` is the same in two cells neighbouring in X, `dx` in two neighbouring in Y. -/
theorem C75_symmetric (q : Coefs K) (c d : Cell) (hJ : ∀ c, q.J c ≠ 0) (hx : ∀ c, q.dx c ≠ 0)
    (hy : ∀ c, q.dy c ≠ 0) :
    (q.dy c = q.dy d →
      q.J c * q.dx c * q.dy c * xval q c d = q.J d * q.dx d * q.dy d * xval q d c) ∧
    (q.dx c = q.dx d →
      q.J c * q.dx c * q.dy c * yval q c d = q.J d * q.dx d * q.dy d * yval q d c) := by
  have h1 := hJ c; have h2 := hJ d; have h3 := hx c; have h4 := hx d
  have h5 := hy c; have h6 := hy d
  have ha : ∀ g : Cell → K, avg g d c = avg g c d := fun g => by unfold avg; ring
  unfold xval yval
  rw [ha, ha, ha, ha, ha, ha, ha, ha]
  generalize avg q.A c d = a1
  generalize avg q.J c d = a2
  generalize avg q.g11 c d = a3
  generalize avg q.dx c d = a4
  generalize avg q.g23 c d = a5
  generalize avg q.g_23 c d = a6
  generalize avg q.g_22 c d = a7
  generalize avg q.dy c d = a8
  simp only [div_eq_mul_inv, mul_inv]
  have e1 : ∀ p : Cell, q.J p * (q.J p)⁻¹ = 1 := fun p => mul_inv_cancel₀ (hJ p)
  have e2 : ∀ p : Cell, q.dx p * (q.dx p)⁻¹ = 1 := fun p => mul_inv_cancel₀ (hx p)
  have e3 : ∀ p : Cell, q.dy p * (q.dy p)⁻¹ = 1 := fun p => mul_inv_cancel₀ (hy p)
  have key : ∀ p : Cell, q.J p * q.dx p * q.dy p * (a1 * a2 * a3 * ((q.J p)⁻¹ * a4⁻¹ * (q.dx p)⁻¹))
      = q.dy p * (a1 * a2 * a3 * a4⁻¹) := by
    intro p
    calc _ = (q.J p * (q.J p)⁻¹) * (q.dx p * (q.dx p)⁻¹) * (q.dy p * (a1 * a2 * a3 * a4⁻¹)) := by ring
      _ = _ := by rw [e1, e2]; ring
  have key2 : ∀ p : Cell, q.J p * q.dx p * q.dy p
      * (-a1 * a2 * a5 * a6 * (a7⁻¹ * (q.J p)⁻¹ * a8⁻¹ * (q.dy p)⁻¹))
      = q.dx p * (-a1 * a2 * a5 * a6 * a7⁻¹ * a8⁻¹) := by
    intro p
    calc _ = (q.J p * (q.J p)⁻¹) * (q.dy p * (q.dy p)⁻¹)
          * (q.dx p * (-a1 * a2 * a5 * a6 * a7⁻¹ * a8⁻¹)) := by ring
      _ = _ := by rw [e1, e3]; ring
  refine ⟨fun h => ?_, fun h => ?_⟩
  · rw [key c, key d, h]
  · rw [key2 c, key2 d, h]

/-- The sums do not cancel on a grid where `dy` varies with X: total flux through the sides zero,
but the volume integral of the operator is not. -/
theorem C75_conservation_violated :
    ∃ (q : Coefs ℚ) (f : Cell → ℚ), (∀ c, 0 < q.J c ∧ 0 < q.dx c ∧ 0 < q.dy c) ∧
      faceX q f (1, 0) (2, 0) = 0 ∧ faceX q f (-1, 0) (0, 0) = 0 ∧
      (∀ x, faceY q f (x, 0) (x, 1) = 0 ∧ faceY q f (x, -1) (x, 0) = 0) ∧
      (∑ i ∈ Finset.range 2, q.J ((i : Int), 0) * q.dx ((i : Int), 0) * q.dy ((i : Int), 0)
        * laplacePerpXY q f ((i : Int), 0)) ≠ 0 := by
  refine ⟨{ A := fun _ => 1, B := fun _ => 0, J := fun _ => 1, g11 := fun _ => 1, g22 := fun _ => 1,
            g12 := fun _ => 0, g23 := fun _ => 0, g_22 := fun _ => 1, g_23 := fun _ => 0,
            dx := fun _ => 1, dy := fun c => if c.1 ≤ 0 then 1 else 2, G1 := fun _ => 0,
            G2 := fun _ => 0, d1_dx := fun _ => 0, d1_dy := fun _ => 0, ddyJg := fun _ => 0 },
          fun c => if c.1 ≤ 0 then 0 else 1, ?_, ?_, ?_, ?_, ?_⟩
  · intro c
    refine ⟨by norm_num, by norm_num, ?_⟩
    simp only
    split <;> norm_num
  · simp [faceX]
  · simp [faceX]
  · intro x; simp [faceY]
  · rw [Finset.sum_range_succ, Finset.sum_range_one]
    simp [laplacePerpXY, avg]
    norm_num

/-- Guard cells further out repeat the value of the first boundary cell (X boundaries). -/
theorem C75_guard_copies (w : World) (o : Opts) (xs : Int → K) (r : Nat) (hm : (w.mesh r).Ok)
    (hv : CornersVisited o.finiteVolume (w.mesh r)) (x y : Int)
    (hy : (w.mesh r).ystart ≤ y ∧ y ≤ (w.mesh r).yend) :
    ((w.mesh r).firstX = true → 0 ≤ x → x < (w.mesh r).xstart →
      result w o xs r (x, y) = result w o xs r ((w.mesh r).xstart - 1, y)) ∧
    ((w.mesh r).lastX = true → (w.mesh r).xend < x → x < (w.mesh r).LocalNx →
      result w o xs r (x, y) = result w o xs r ((w.mesh r).xend + 1, y)) := by
  have hx := hm.xne
  have hyn := hm.yne
  have a1 := xs_le (w.mesh r)
  have a2 := xe_ge (w.mesh r)
  have fold : ∀ (L : List (Cell × Cell)) (c s : Cell) (v : Option K),
      (∀ p ∈ L, p.1 = c → p.2 = s) →
      (v = some (xs (w.globalIndex o.finiteVolume r s)) ∨ ∃ p ∈ L, p.1 = c) →
      L.foldl (fun v p => if p.1 = c then some (xs (w.globalIndex o.finiteVolume r p.2)) else v) v
        = some (xs (w.globalIndex o.finiteVolume r s)) := by
    intro L c s
    induction L with
    | nil =>
      intro v _ h
      rcases h with h | ⟨p, hp, -⟩
      · exact h
      · cases hp
    | cons p L ih =>
      intro v hs h
      rw [List.foldl_cons]
      apply ih _ (fun p' hp' => hs p' (List.mem_cons_of_mem _ hp'))
      by_cases hpc : p.1 = c
      · left; rw [if_pos hpc, hs p List.mem_cons_self hpc]
      · rw [if_neg hpc]
        rcases h with h | ⟨p', hp', hpc'⟩
        · left; exact h
        · rcases List.mem_cons.mp hp' with h | h
          · subst h; exact absurd hpc' hpc
          · right; exact ⟨p', h, hpc'⟩
  have src : ∀ (x' : Int), (∀ p ∈ resultWrites o (w.mesh r), p.1 = (x', y) →
      (x' < (w.mesh r).xstart → p.2 = ((w.mesh r).xstart - 1, y)) ∧
      ((w.mesh r).xend < x' → p.2 = ((w.mesh r).xend + 1, y))) := by
    rintro x' ⟨⟨u, v⟩, ⟨u', v'⟩⟩ hp heq
    simp only [Prod.mk.injEq] at heq
    obtain ⟨rfl, rfl⟩ := heq
    unfold resultWrites at hp
    simp only [List.mem_append, List.mem_flatMap, List.mem_map, List.mem_ite_nil_right, mem_upto,
      List.mem_reverse, Prod.mk.injEq, List.mem_filter] at hp
    rcases hp with (((⟨x1, hx1, y1, -, ⟨rfl, rfl⟩, rfl, rfl⟩
      | ⟨hf, y1, hy1, x1, hx1, ⟨rfl, rfl⟩, rfl, rfl⟩)
      | ⟨hf, y1, hy1, x1, hx1, ⟨rfl, rfl⟩, rfl, rfl⟩)
      | ⟨x1, hx1, y1, hy1, ⟨rfl, rfl⟩, rfl, rfl⟩)
      | ⟨x1, hx1, y1, hy1, ⟨rfl, rfl⟩, rfl, rfl⟩ <;>
    · constructor <;> intro h <;> first | rfl | (exfalso; omega)
  refine ⟨fun hf h0 h1 => ?_, fun hf h0 h1 => ?_⟩
  · have hb := result_row w o xs r hm hv ((w.mesh r).xstart - 1, y) (by
      rw [mem_rowCells]; right; right; right; right
      have : (w.mesh r).xs = (w.mesh r).xstart - 1 := by unfold LMesh.xs; rw [if_pos hf]
      simp only; omega)
    rw [hb]
    unfold result
    refine fold _ _ _ _ (fun p hp hpc => (src x p hp hpc).1 h1) (Or.inr ?_)
    refine ⟨((x, y), ((w.mesh r).xstart - 1, y)), ?_, rfl⟩
    unfold resultWrites
    simp only [List.mem_append, List.mem_flatMap, List.mem_map, List.mem_ite_nil_right, mem_upto,
      List.mem_reverse, List.mem_filter]
    exact Or.inl (Or.inl (Or.inl (Or.inr ⟨hf, y, hy, x, by omega, rfl⟩)))
  · have hb := result_row w o xs r hm hv ((w.mesh r).xend + 1, y) (by
      rw [mem_rowCells]; right; right; right; right
      have : (w.mesh r).xe = (w.mesh r).xend + 1 := by unfold LMesh.xe; rw [if_pos hf]
      simp only; omega)
    rw [hb]
    unfold result
    refine fold _ _ _ _ (fun p hp hpc => (src x p hp hpc).2 h0) (Or.inr ?_)
    refine ⟨((x, y), ((w.mesh r).xend + 1, y)), ?_, rfl⟩
    unfold resultWrites
    simp only [List.mem_append, List.mem_flatMap, List.mem_map, List.mem_ite_nil_right, mem_upto,
      List.mem_reverse, List.mem_filter]
    exact Or.inl (Or.inl (Or.inr ⟨hf, y, hy, x, by omega, rfl⟩))

/-! ## Where the claim fails -/

/-- Coefficients for the witnesses: constant metric. -/
def flat (A B g23 : ℚ) : Coefs ℚ :=
  { A := fun _ => A, B := fun _ => B, J := fun _ => 1, g11 := fun _ => 1, g22 := fun _ => 1,
    g12 := fun _ => 0, g23 := fun _ => g23, g_22 := fun _ => 1, g_23 := fun _ => -1,
    dx := fun _ => 1, dy := fun _ => 1, G1 := fun _ => 0,
    G2 := fun _ => 0, d1_dx := fun _ => 0, d1_dy := fun _ => 0, ddyJg := fun _ => 0 }

/-- With Y closed on two points the upper and the lower neighbour are the same unknown; the second
`INSERT_VALUES` overwrites the first, and the solver accepts a constant field as the solution
with right hand side `-1` although `Laplace_perpXY` of a constant is `0`. -/
theorem C75_two_points_violated :
    ∃ (o : Opts) (q : Nat → Coefs ℚ) (rhs x0 : Nat → Cell → ℚ) (xs : Int → ℚ),
      o.finiteVolume = true ∧ o.includeY = true ∧
      KspSolved (slab 1 1 1 2 1 1 true) o q (fun _ => 0) rhs x0 xs ∧
      (∀ e ∈ cross (1, 1), communicated (slab 1 1 1 2 1 1 true) o xs 0 e = some 1) ∧
      laplacePerpXY (q 0) (fun _ => 1) (1, 1) + (q 0).B (1, 1) * 1 ≠ rhs 0 (1, 1) := by
  refine ⟨⟨true, false, .neumann, true⟩, fun _ => flat 1 0 1, fun _ _ => -1, fun _ _ => 1,
    fun _ => 1, rfl, rfl, ?_, ?_, ?_⟩
  · intro i hi
    have h6 : (slab 1 1 1 2 1 1 true).istart true (slab 1 1 1 2 1 1 true).nproc = 6 := by decide
    rw [h6] at hi ⊢
    have : i < 6 := by omega
    interval_cases i <;> decide +kernel
  · intro e he
    simp only [cross, List.mem_cons, List.not_mem_nil, or_false] at he
    rcases he with rfl | rfl | rfl | rfl | rfl <;> decide +kernel
  · decide +kernel

/-- A grid closed in Y for small X and open for large X (a limiter), on one processor:
`xstart = 1`, `xend = 3`, `ystart = 1`, `yend = 3`; boundaries from `x = 2` on.  The inner X
boundary is in the closed part, but `hasBndryLowerY()` holds. -/
def limiter : World where
  nproc := 1
  mesh _ := { LocalNx := 5, LocalNy := 5, xstart := 1, xend := 3, ystart := 1, yend := 3
              firstX := true, lastX := true, lower := [2, 3, 4], upper := [2, 3, 4]
              hasLower := true, hasUpper := true }
  partner _ c :=
    if c.1 = 0 ∨ c.1 = 1 then
      if c.2 = 0 then some (0, (c.1, 3)) else if c.2 = 4 then some (0, (c.1, 1)) else none
    else none

/-- The vector of the witness, in the numbering of the solver: zero except
`f(1,1) = -1`, `f(1,3) = 1` and `f(0,3) = 1`. -/
def limiterX (i : Int) : ℚ :=
  if i = localIndex false (limiter.mesh 0) (1, 1) then -1
  else if i = localIndex false (limiter.mesh 0) (1, 3) then 1
  else if i = localIndex false (limiter.mesh 0) (0, 3) then 1 else 0

/-- In the finite difference form on such a grid the corner cells at the inner boundary are given
rows although they are communicated cells: their equations land in the rows of the inner X boundary
at the other end of Y, and the Neumann condition asked for there does not hold. -/
theorem C75_fd_limiter_violated :
    ∃ (o : Opts) (q : Nat → Coefs ℚ) (rhs x0 : Nat → Cell → ℚ) (xs : Int → ℚ),
      o.finiteVolume = false ∧ o.xInnerDirichlet = false ∧
      KspSolved limiter o q (fun _ => 0) rhs x0 xs ∧
      result limiter o xs 0 (0, 1) = some 0 ∧ result limiter o xs 0 (1, 1) = some (-1) := by
  refine ⟨⟨false, false, .neumann, false⟩, fun _ => flat 0 1 0,
    fun _ c => if c = (1, 1) then -1 else if c = (1, 3) then 1 else 0, fun _ _ => 0,
    limiterX, rfl, rfl, ?_, ?_, ?_⟩
  · intro i hi
    have h23 : limiter.istart false limiter.nproc = 23 := by decide
    rw [h23] at hi ⊢
    have : i < 23 := by omega
    interval_cases i <;> decide +kernel
  · decide +kernel
  · decide +kernel

end Verif.LapXY
