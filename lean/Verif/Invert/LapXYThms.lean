import Verif.Invert.LapXYMain
import Mathlib.Tactic.LinearCombination

/-! # C75: `LaplaceXY::solve` returns a field satisfying the discretised equation -/

namespace Verif.LapXY

variable {K : Type} [Field K]

/-! ## Specification -/

/-- The cells of a five point stencil. -/
def cross (c : Cell) : List Cell :=
  [c, (c.1 + 1, c.2), (c.1 - 1, c.2), (c.1, c.2 + 1), (c.1, c.2 - 1)]

/-- The cells of a nine point stencil. -/
def square (c : Cell) : List Cell :=
  cross c ++ [(c.1 + 1, c.2 + 1), (c.1 + 1, c.2 - 1), (c.1 - 1, c.2 + 1), (c.1 - 1, c.2 - 1)]

/-- The cells in `l`, seen from processor `r`, are different unknowns of the system. -/
def World.Distinct (w : World) (fv : Bool) (r : Nat) (l : List Cell) : Prop :=
  ∃ own : Cell → Nat × Cell, (∀ e ∈ l, (w.mesh r).Inside e ∧ w.Owns fv r e (own e)) ∧
    (l.map own).Nodup

/-- Central differences of the finite difference form. -/
def ddx (q : Coefs K) (f : Cell → K) (c : Cell) : K :=
  (f (c.1 + 1, c.2) - f (c.1 - 1, c.2)) / (2 * q.dx c)

/-- See `ddx`. -/
def ddy (q : Coefs K) (f : Cell → K) (c : Cell) : K :=
  (f (c.1, c.2 + 1) - f (c.1, c.2 - 1)) / (2 * q.dy c)

/-- Second derivative with the correction for a non-uniform mesh. -/
def d2dx2 (q : Coefs K) (f : Cell → K) (c : Cell) : K :=
  (f (c.1 + 1, c.2) - 2 * f c + f (c.1 - 1, c.2)) / (q.dx c * q.dx c) + q.d1_dx c * ddx q f c

/-- See `d2dx2`. -/
def d2dy2 (q : Coefs K) (f : Cell → K) (c : Cell) : K :=
  (f (c.1, c.2 + 1) - 2 * f c + f (c.1, c.2 - 1)) / (q.dy c * q.dy c) + q.d1_dy c * ddy q f c

/-- Mixed derivative. -/
def d2dxdy (q : Coefs K) (f : Cell → K) (c : Cell) : K :=
  (f (c.1 + 1, c.2 + 1) - f (c.1 + 1, c.2 - 1) - f (c.1 - 1, c.2 + 1) + f (c.1 - 1, c.2 - 1))
    / (4 * q.dx c * q.dy c)

/-- The operator documented for the finite difference form (comment at laplacexy.cxx L999-1007):
`A*(G1*dfdx + (G2-1/J*d/dy(J/g_22))*dfdy + g11*d2fdx2 + (g22-1/g_22)*d2fdy2 + 2*g12*d2fdxdy)
+ g11*dAdx*dfdx + (g22-1/g_22)*dAdy*dfdy + g12*(dAdx*dfdy + dAdy*dfdx) + B*f`. -/
def fdOperator (q : Coefs K) (f : Cell → K) (c : Cell) : K :=
  q.A c * (q.G1 c * ddx q f c + (q.G2 c - q.ddyJg c / q.J c) * ddy q f c + q.g11 c * d2dx2 q f c
      + (q.g22 c - 1 / q.g_22 c) * d2dy2 q f c + 2 * q.g12 c * d2dxdy q f c)
    + q.g11 c * ddx q q.A c * ddx q f c + (q.g22 c - 1 / q.g_22 c) * ddy q q.A c * ddy q f c
    + q.g12 c * (ddx q q.A c * ddy q f c + ddy q q.A c * ddx q f c) + q.B c * f c

/-- The same with Y derivatives switched off (`include_y_derivs = false`). -/
def fdOperatorX (q : Coefs K) (f : Cell → K) (c : Cell) : K :=
  q.A c * (q.G1 c * ddx q f c + q.g11 c * d2dx2 q f c) + q.g11 c * ddx q q.A c * ddx q f c
    + q.B c * f c

/-- X part of the perpendicular Laplacian in flux form:
`(1/J) d/dx (A J g11 df/dx)`, fluxes at the cell faces, divided by the volume factor. -/
def fluxFormX (q : Coefs K) (f : Cell → K) (c : Cell) : K :=
  let face : Cell → Cell → K := fun a b =>
    avg q.A a b * avg q.J a b * avg q.g11 a b * ((f b - f a) / avg q.dx a b)
  (face c (c.1 + 1, c.2) - face (c.1 - 1, c.2) c) / (q.J c * q.dx c)

/-- Y part: `-(1/J) d/dy (A J g23 g_23/g_22 df/dy)`. -/
def fluxFormY (q : Coefs K) (f : Cell → K) (c : Cell) : K :=
  let face : Cell → Cell → K := fun a b =>
    avg q.A a b * avg q.J a b * avg q.g23 a b * (avg q.g_23 a b / avg q.g_22 a b)
      * ((f b - f a) / avg q.dy a b)
  Neg.neg ((face c (c.1, c.2 + 1) - face (c.1, c.2 - 1) c) / (q.J c * q.dy c))

/-! ## Numbering -/

/-- The assertion in the constructor cannot fail: as many rows are numbered as `localSize` counts,
and over all processors the numbering is one-to-one onto `0 .. N-1`: every row number belongs to
exactly one cell with a row. -/
theorem C75_numbering (w : World) (fv : Bool) (hw : ∀ r, r < w.nproc → (w.mesh r).Ok) :
    (∀ r, r < w.nproc → (number (rowCells fv (w.mesh r)) 0 fun _ => -1).1
        = localSize fv (w.mesh r)) ∧
    ∀ i : Int, 0 ≤ i → i < w.istart fv w.nproc →
      ∃! p : Nat × Cell, p.1 < w.nproc ∧ p.2 ∈ rowCells fv (w.mesh p.1) ∧
        localIndex fv (w.mesh p.1) p.2 + w.istart fv p.1 = i := by
  refine ⟨?_, ?_⟩
  · intro r hr
    rw [number_fst, ← length_rowCells fv _ (hw r hr)]; ring
  · intro i h0 hN
    have find : ∀ n, n ≤ w.nproc → i < w.istart fv n →
        ∃ r, r < n ∧ w.istart fv r ≤ i ∧ i < w.istart fv (r + 1) := by
      intro n
      induction n with
      | zero => intro _ h; rw [World.istart] at h; omega
      | succ n ih =>
        intro hn h
        by_cases hc : i < w.istart fv n
        · obtain ⟨r, h1, h2⟩ := ih (by omega) hc
          exact ⟨r, by omega, h2⟩
        · exact ⟨n, by omega, by omega, h⟩
    obtain ⟨r, hr, h1, h2⟩ := find w.nproc (Nat.le_refl _) hN
    rw [World.istart] at h2
    have hlen := length_rowCells fv _ (hw r hr)
    obtain ⟨k, hk⟩ : ∃ k : Nat, (k : Int) = i - w.istart fv r :=
      ⟨(i - w.istart fv r).toNat, by omega⟩
    have hkl : k < (rowCells fv (w.mesh r)).length := by omega
    have hget : (rowCells fv (w.mesh r))[k]? = some (rowCells fv (w.mesh r))[k] :=
      List.getElem?_eq_getElem hkl
    have hmem : (rowCells fv (w.mesh r))[k] ∈ rowCells fv (w.mesh r) := List.getElem_mem hkl
    obtain ⟨n, h3, h4, -⟩ := localIndex_mem fv _ (hw r hr) _ hmem
    have hnk : n = k := by
      have hnl : n < (rowCells fv (w.mesh r)).length := by
        by_contra hc
        rw [List.getElem?_eq_none (by omega)] at h3
        cases h3
      rw [List.getElem?_eq_getElem hnl] at h3
      exact (List.Nodup.getElem_inj_iff (nodup_rowCells fv _ (hw r hr))).mp (by simpa using h3)
    refine ⟨(r, (rowCells fv (w.mesh r))[k]), ⟨hr, hmem, ?_⟩, ?_⟩
    · simp only
      rw [h4, hnk]; omega
    · rintro ⟨s, d⟩ ⟨hs, hd, heq⟩
      apply owned_inj w fv hw _ _ hs hr hd hmem
      rw [heq]
      simp only
      rw [h4, hnk]; omega

/-! ## Interior rows -/

theorem interior_rows (o : Opts) (m : LMesh) (q : Coefs K) (c : Cell)
    (hc : m.xstart ≤ c.1 ∧ c.1 ≤ m.xend ∧ m.ystart ≤ c.2 ∧ c.2 ≤ m.yend) :
    (c, if o.finiteVolume then fvStencil o.includeY q c else fdStencil o.includeY q c)
      ∈ rowsWritten o m q := by
  unfold rowsWritten
  refine List.mem_append_left _ (List.mem_append_left _ (List.mem_append_left _
    (List.mem_append_left _ (List.mem_append_left _ (List.mem_append_left _ ?_)))))
  rw [List.mem_flatMap]
  exact ⟨c.1, mem_upto.mpr ⟨hc.1, hc.2.1⟩, List.mem_map.mpr ⟨c.2, mem_upto.mpr hc.2.2, rfl⟩⟩

theorem interior_rhs (o : Opts) (m : LMesh) (rhs x0 : Cell → K) (c : Cell)
    (hc : m.xstart ≤ c.1 ∧ c.1 ≤ m.xend ∧ m.ystart ≤ c.2 ∧ c.2 ≤ m.yend) :
    (c, rhs c) ∈ rhsWritten o m rhs x0 := by
  unfold rhsWritten
  refine List.mem_append_left _ (List.mem_append_left _ (List.mem_append_left _
    (List.mem_append_left _ (List.mem_append_left _ (List.mem_append_left _ ?_)))))
  rw [List.mem_flatMap]
  exact ⟨c.1, mem_upto.mpr ⟨hc.1, hc.2.1⟩, List.mem_map.mpr ⟨c.2, mem_upto.mpr hc.2.2, rfl⟩⟩

/-- A row, in terms of the field `solve` returns once it has been communicated. -/
theorem row_of_result (w : World) (o : Opts) (q : Nat → Coefs K) (old : Int → K)
    (rhs x0 : Nat → Cell → K) (xs : Int → K) (hw : w.Ok o.finiteVolume)
    (hv : ∀ r, r < w.nproc → CornersVisited o.finiteVolume (w.mesh r))
    (hk : KspSolved w o q old rhs x0 xs) (r : Nat) (hr : r < w.nproc) (c : Cell) (st : Stencil K)
    (b : K) (hst : (c, st) ∈ rowsWritten o (w.mesh r) (q r))
    (hb : (c, b) ∈ rhsWritten o (w.mesh r) (rhs r) (x0 r))
    (hd : w.Distinct o.finiteVolume r (st.map Prod.fst)) :
    (∀ e ∈ st.map Prod.fst, communicated w o xs r e = some (look w o xs r e)) ∧
    (st.map fun e => e.2 * look w o xs r e.1).sum = b := by
  obtain ⟨own, h1, h2⟩ := hd
  refine ⟨fun e he => communicated_look w o xs hw hv r e (h1 e he).1 (own e) (h1 e he).2, ?_⟩
  refine row_equation w o q old rhs x0 xs hw hk r hr c st b hst hb own ?_ ?_
  · intro e he
    exact h1 e.1 (List.mem_map.mpr ⟨e, he, rfl⟩)
  · rwa [List.map_map] at h2

theorem cornersVisited_fv (m : LMesh) : CornersVisited true m := by
  refine ⟨fun c hc => ?_, fun c hc => ?_⟩ <;>
  · rw [mem_corners] at hc
    cases hc.1

/-- **C75, finite volume.**  Whatever the processor decomposition and connections, coefficients
and right hand side: when the Krylov solver reports success, the field returned (after the usual
communication) satisfies `Laplace_perpXY(A, f) + B f = rhs` at every interior cell, provided the
five cells of the stencil are five different unknowns. -/
theorem C75_finite_volume (w : World) (o : Opts) (q : Nat → Coefs K) (old : Int → K)
    (rhs x0 : Nat → Cell → K) (xs : Int → K) (hfv : o.finiteVolume = true) (hiy : o.includeY = true)
    (hw : w.Ok true) (hk : KspSolved w o q old rhs x0 xs) (r : Nat) (hr : r < w.nproc) (c : Cell)
    (hc : (w.mesh r).xstart ≤ c.1 ∧ c.1 ≤ (w.mesh r).xend ∧ (w.mesh r).ystart ≤ c.2 ∧
      c.2 ≤ (w.mesh r).yend)
    (hd : w.Distinct true r (cross c)) :
    ∃ f : Cell → K, (∀ e ∈ cross c, communicated w o xs r e = some (f e)) ∧
      laplacePerpXY (q r) f c + (q r).B c * f c = rhs r c := by
  have hst := interior_rows o (w.mesh r) (q r) c hc
  rw [if_pos hfv, hiy] at hst
  have hb := interior_rhs o (w.mesh r) (rhs r) (x0 r) c hc
  have hcross : (fvStencil true (q r) c).map Prod.fst = cross c := rfl
  obtain ⟨h1, h2⟩ := row_of_result w o q old rhs x0 xs (by rw [hfv]; exact hw)
    (fun r _ => by rw [hfv]; exact cornersVisited_fv _) hk r hr c _ _ hst hb
    (by rw [hcross, hfv]; exact hd)
  rw [hcross] at h1
  refine ⟨look w o xs r, h1, ?_⟩
  rw [← h2]
  simp only [fvStencil, laplacePerpXY, xval, yval, if_true, List.map_cons, List.map_nil,
    List.sum_cons, List.sum_nil]
  ring

/-- With Y derivatives switched off only the X terms remain. -/
theorem C75_finite_volume_x (w : World) (o : Opts) (q : Nat → Coefs K) (old : Int → K)
    (rhs x0 : Nat → Cell → K) (xs : Int → K) (hfv : o.finiteVolume = true)
    (hiy : o.includeY = false)
    (hw : w.Ok true) (hk : KspSolved w o q old rhs x0 xs) (r : Nat) (hr : r < w.nproc) (c : Cell)
    (hc : (w.mesh r).xstart ≤ c.1 ∧ c.1 ≤ (w.mesh r).xend ∧ (w.mesh r).ystart ≤ c.2 ∧
      c.2 ≤ (w.mesh r).yend)
    (hd : w.Distinct true r [c, (c.1 + 1, c.2), (c.1 - 1, c.2)]) :
    ∃ f : Cell → K,
      (∀ e ∈ [c, (c.1 + 1, c.2), (c.1 - 1, c.2)], communicated w o xs r e = some (f e)) ∧
      fluxFormX (q r) f c + (q r).B c * f c = rhs r c := by
  have hst := interior_rows o (w.mesh r) (q r) c hc
  rw [if_pos hfv, hiy] at hst
  have hb := interior_rhs o (w.mesh r) (rhs r) (x0 r) c hc
  have hcross : (fvStencil false (q r) c).map Prod.fst = [c, (c.1 + 1, c.2), (c.1 - 1, c.2)] := rfl
  obtain ⟨h1, h2⟩ := row_of_result w o q old rhs x0 xs (by rw [hfv]; exact hw)
    (fun r _ => by rw [hfv]; exact cornersVisited_fv _) hk r hr c _ _ hst hb
    (by rw [hcross, hfv]; exact hd)
  rw [hcross] at h1
  refine ⟨look w o xs r, h1, ?_⟩
  rw [← h2]
  simp only [fvStencil, fluxFormX, xval, Bool.false_eq_true, if_false, List.map_cons, List.map_nil,
    List.sum_cons, List.sum_nil, avg, div_eq_mul_inv, mul_inv]
  rw [add_comm (q r |>.A (c.1 - 1, c.2)), add_comm (q r |>.J (c.1 - 1, c.2)),
    add_comm (q r |>.g11 (c.1 - 1, c.2)), add_comm (q r |>.dx (c.1 - 1, c.2))]
  ring

/-- `Laplace_perpXY` is the flux form of the manual: `(1/J) d/dx(A J g11 df/dx)
- (1/J) d/dy(A J g23 g_23/g_22 df/dy)`, with fluxes at the cell faces. -/
theorem C75_flux_form (q : Coefs K) (f : Cell → K) (c : Cell) :
    laplacePerpXY q f c = fluxFormX q f c + fluxFormY q f c := by
  simp only [laplacePerpXY, fluxFormX, fluxFormY, avg, div_eq_mul_inv, mul_inv]
  rw [add_comm (q.A (c.1 - 1, c.2)), add_comm (q.J (c.1 - 1, c.2)),
    add_comm (q.g11 (c.1 - 1, c.2)), add_comm (q.dx (c.1 - 1, c.2)),
    add_comm (q.A (c.1, c.2 - 1)), add_comm (q.J (c.1, c.2 - 1)),
    add_comm (q.g23 (c.1, c.2 - 1)), add_comm (q.g_23 (c.1, c.2 - 1)),
    add_comm (q.g_22 (c.1, c.2 - 1)), add_comm (q.dy (c.1, c.2 - 1))]
  ring

/-- **C75, finite difference.**  The field returned satisfies the documented operator with central
differences at every interior cell. -/
theorem C75_finite_difference (w : World) (o : Opts) (q : Nat → Coefs K) (old : Int → K)
    (rhs x0 : Nat → Cell → K) (xs : Int → K) (h2 : (2 : K) ≠ 0) (hfv : o.finiteVolume = false)
    (hiy : o.includeY = true)
    (hw : w.Ok false) (hv : ∀ r, r < w.nproc → CornersVisited false (w.mesh r))
    (hk : KspSolved w o q old rhs x0 xs) (r : Nat) (hr : r < w.nproc) (c : Cell)
    (hc : (w.mesh r).xstart ≤ c.1 ∧ c.1 ≤ (w.mesh r).xend ∧ (w.mesh r).ystart ≤ c.2 ∧
      c.2 ≤ (w.mesh r).yend)
    (hd : w.Distinct false r (square c)) :
    ∃ f : Cell → K, (∀ e ∈ square c, communicated w o xs r e = some (f e)) ∧
      fdOperator (q r) f c = rhs r c := by
  have hst := interior_rows o (w.mesh r) (q r) c hc
  rw [if_neg (by rw [hfv]; decide), hiy] at hst
  have hb := interior_rhs o (w.mesh r) (rhs r) (x0 r) c hc
  have hcross : (fdStencil true (q r) c).map Prod.fst = square c := rfl
  obtain ⟨h1, h3⟩ := row_of_result w o q old rhs x0 xs (by rw [hfv]; exact hw)
    (fun r hr => by rw [hfv]; exact hv r hr) hk r hr c _ _ hst hb
    (by rw [hcross, hfv]; exact hd)
  rw [hcross] at h1
  refine ⟨look w o xs r, h1, ?_⟩
  rw [← h3]
  have e4 : (4 : K) = 2 * 2 := by ring
  simp only [fdStencil, fdOperator, ddx, ddy, d2dx2, d2dy2, d2dxdy, if_true, List.map_cons,
    List.map_nil, List.sum_cons, List.sum_nil, e4, div_eq_mul_inv, mul_inv]
  have h22 : (2 : K) * 2⁻¹ = 1 := mul_inv_cancel₀ h2
  linear_combination ((q r).A c * (q r).g12 c * 2⁻¹ * ((q r).dx c)⁻¹ * ((q r).dy c)⁻¹ *
    (look w o xs r (c.1 + 1, c.2 + 1) - look w o xs r (c.1 + 1, c.2 - 1)
      - look w o xs r (c.1 - 1, c.2 + 1) + look w o xs r (c.1 - 1, c.2 - 1))) * h22

/-! ## Boundary rows -/

/-- Rows of the boundary cells: inner X. -/
theorem C75_inner_x (w : World) (o : Opts) (q : Nat → Coefs K) (old : Int → K)
    (rhs x0 : Nat → Cell → K) (xs : Int → K) (h2 : (2 : K) ≠ 0) (hw : w.Ok o.finiteVolume)
    (hv : ∀ r, r < w.nproc → CornersVisited o.finiteVolume (w.mesh r))
    (hk : KspSolved w o q old rhs x0 xs) (r : Nat) (hr : r < w.nproc)
    (hf : (w.mesh r).firstX = true) (y : Int)
    (hy : (w.mesh r).ystart ≤ y ∧ y ≤ (w.mesh r).yend) :
    let b : Cell := ((w.mesh r).xstart - 1, y)
    let i : Cell := ((w.mesh r).xstart, y)
    ∃ fb fi : K, result w o xs r b = some fb ∧ result w o xs r i = some fi ∧
      (o.xInnerDirichlet = true → o.finiteVolume = true →
        (fb + fi) / 2 = (x0 r b + x0 r i) / 2) ∧
      (o.xInnerDirichlet = true → o.finiteVolume = false → (fb + fi) / 2 = x0 r b) ∧
      (o.xInnerDirichlet = false → fb = fi) := by
  intro b i
  have hm := hw.mesh r hr
  have hx := hm.xne
  have hxs : (w.mesh r).xs = (w.mesh r).xstart - 1 := by unfold LMesh.xs; rw [if_pos hf]
  have hxe := xe_ge (w.mesh r)
  have hb : b ∈ rowCells o.finiteVolume (w.mesh r) := by
    rw [mem_rowCells, hxs]; right; right; right; right; simp only [b]; omega
  have hi : i ∈ rowCells o.finiteVolume (w.mesh r) := by
    rw [mem_rowCells, hxs]; right; right; right; right; simp only [i]; omega
  have hin : ∀ e ∈ [b, i], (w.mesh r).Inside e := by
    intro e he
    obtain ⟨b1, b2, b3, b4, b5, b6, -, -⟩ := hm
    simp only [List.mem_cons, List.not_mem_nil, or_false] at he
    unfold LMesh.Inside
    rcases he with rfl | rfl <;> simp only [b, i] <;> omega
  have hd : w.Distinct o.finiteVolume r [b, i] := by
    refine ⟨fun e => (r, e), ?_, ?_⟩
    · intro e he
      refine ⟨hin e he, hr, ?_, Or.inr ⟨?_, rfl⟩⟩ <;>
      · simp only [List.mem_cons, List.not_mem_nil, or_false] at he
        rcases he with rfl | rfl
        · first | exact hb | exact hw.own r hr b hb
        · first | exact hi | exact hw.own r hr i hi
    · simp [b, i]
  have hst : (b, if o.xInnerDirichlet then dirichletRow b i else neumannRow (K := K) b i)
      ∈ rowsWritten o (w.mesh r) (q r) := by
    unfold rowsWritten
    refine List.mem_append_left _ (List.mem_append_left _ (List.mem_append_left _
      (List.mem_append_left _ (List.mem_append_left _ (List.mem_append_right _ ?_)))))
    rw [if_pos hf]
    exact List.mem_map.mpr ⟨y, mem_upto.mpr hy, rfl⟩
  have hrb : (b, bndryVal o.finiteVolume o.xInnerDirichlet (x0 r) b i)
      ∈ rhsWritten o (w.mesh r) (rhs r) (x0 r) := by
    unfold rhsWritten
    refine List.mem_append_left _ (List.mem_append_left _ (List.mem_append_left _
      (List.mem_append_left _ (List.mem_append_left _ (List.mem_append_right _ ?_)))))
    rw [if_pos hf]
    exact List.mem_map.mpr ⟨y, mem_upto.mpr hy, rfl⟩
  refine ⟨look w o xs r b, look w o xs r i, result_row w o xs r hm (hv r hr) b hb,
    result_row w o xs r hm (hv r hr) i hi, ?_, ?_, ?_⟩
  · intro hdir hfv
    rw [if_pos hdir] at hst
    have h := (row_of_result w o q old rhs x0 xs hw hv hk r hr b _ _ hst hrb hd).2
    simp only [dirichletRow, List.map_cons, List.map_nil, List.sum_cons, List.sum_nil, bndryVal,
      hdir, hfv, if_true] at h
    linear_combination h
  · intro hdir hfv
    rw [if_pos hdir] at hst
    have h := (row_of_result w o q old rhs x0 xs hw hv hk r hr b _ _ hst hrb hd).2
    simp only [dirichletRow, List.map_cons, List.map_nil, List.sum_cons, List.sum_nil, bndryVal,
      hdir, hfv, if_true, Bool.false_eq_true, if_false] at h
    linear_combination h
  · intro hdir
    rw [if_neg (by rw [hdir]; decide)] at hst
    have h := (row_of_result w o q old rhs x0 xs hw hv hk r hr b _ _ hst hrb hd).2
    simp only [neumannRow, List.map_cons, List.map_nil, List.sum_cons, List.sum_nil, bndryVal,
      hdir, Bool.false_eq_true, if_false] at h
    linear_combination h

/-- Outer X boundary: always Dirichlet. -/
theorem C75_outer_x (w : World) (o : Opts) (q : Nat → Coefs K) (old : Int → K)
    (rhs x0 : Nat → Cell → K) (xs : Int → K) (hw : w.Ok o.finiteVolume)
    (hv : ∀ r, r < w.nproc → CornersVisited o.finiteVolume (w.mesh r))
    (hk : KspSolved w o q old rhs x0 xs) (r : Nat) (hr : r < w.nproc)
    (hf : (w.mesh r).lastX = true) (y : Int)
    (hy : (w.mesh r).ystart ≤ y ∧ y ≤ (w.mesh r).yend) :
    let b : Cell := ((w.mesh r).xend + 1, y)
    let i : Cell := ((w.mesh r).xend, y)
    ∃ fb fi : K, result w o xs r b = some fb ∧ result w o xs r i = some fi ∧
      (o.finiteVolume = true → (fb + fi) / 2 = (x0 r b + x0 r i) / 2) ∧
      (o.finiteVolume = false → (fb + fi) / 2 = x0 r b) := by
  intro b i
  have hm := hw.mesh r hr
  have hx := hm.xne
  have hxe : (w.mesh r).xe = (w.mesh r).xend + 1 := by unfold LMesh.xe; rw [if_pos hf]
  have hxs := xs_le (w.mesh r)
  have hb : b ∈ rowCells o.finiteVolume (w.mesh r) := by
    rw [mem_rowCells, hxe]; right; right; right; right; simp only [b]; omega
  have hi : i ∈ rowCells o.finiteVolume (w.mesh r) := by
    rw [mem_rowCells, hxe]; right; right; right; right; simp only [i]; omega
  have hin : ∀ e ∈ [b, i], (w.mesh r).Inside e := by
    intro e he
    obtain ⟨b1, b2, b3, b4, b5, b6, -, -⟩ := hm
    simp only [List.mem_cons, List.not_mem_nil, or_false] at he
    unfold LMesh.Inside
    rcases he with rfl | rfl <;> simp only [b, i] <;> omega
  have hd : w.Distinct o.finiteVolume r [b, i] := by
    refine ⟨fun e => (r, e), ?_, ?_⟩
    · intro e he
      refine ⟨hin e he, hr, ?_, Or.inr ⟨?_, rfl⟩⟩ <;>
      · simp only [List.mem_cons, List.not_mem_nil, or_false] at he
        rcases he with rfl | rfl
        · first | exact hb | exact hw.own r hr b hb
        · first | exact hi | exact hw.own r hr i hi
    · simp [b, i]
  have hst : (b, dirichletRow (K := K) b i) ∈ rowsWritten o (w.mesh r) (q r) := by
    unfold rowsWritten
    refine List.mem_append_left _ (List.mem_append_left _ (List.mem_append_left _
      (List.mem_append_left _ (List.mem_append_right _ ?_))))
    rw [if_pos hf]
    exact List.mem_map.mpr ⟨y, mem_upto.mpr hy, rfl⟩
  have hrb : (b, bndryVal o.finiteVolume true (x0 r) b i)
      ∈ rhsWritten o (w.mesh r) (rhs r) (x0 r) := by
    unfold rhsWritten
    refine List.mem_append_left _ (List.mem_append_left _ (List.mem_append_left _
      (List.mem_append_left _ (List.mem_append_right _ ?_))))
    rw [if_pos hf]
    exact List.mem_map.mpr ⟨y, mem_upto.mpr hy, rfl⟩
  have h := (row_of_result w o q old rhs x0 xs hw hv hk r hr b _ _ hst hrb hd).2
  refine ⟨look w o xs r b, look w o xs r i, result_row w o xs r hm (hv r hr) b hb,
    result_row w o xs r hm (hv r hr) i hi, ?_, ?_⟩
  · intro hfv
    simp only [dirichletRow, List.map_cons, List.map_nil, List.sum_cons, List.sum_nil, bndryVal,
      hfv, if_true] at h
    linear_combination h
  · intro hfv
    simp only [dirichletRow, List.map_cons, List.map_nil, List.sum_cons, List.sum_nil, bndryVal,
      hfv, if_true, Bool.false_eq_true, if_false] at h
    linear_combination h

/-- What the Y boundary condition asks of the value `fb` in the boundary cell, the next three values
`f1`, `f2`, `f3` going into the domain, and the values of the guess in the boundary cell and
next to it. -/
def YBoundary (fv : Bool) (b : YB) (fb f1 f2 f3 gb g1 : K) : Prop :=
  match b with
  | .dirichlet => (fb + f1) / 2 = if fv then (gb + g1) / 2 else gb
  | .neumann => fb = f1
  | .free_o3 => fb = 3 * f1 - 3 * f2 + f3

/-- Y boundaries: at each boundary column which is not a corner, and when the processor has three
points in Y, the requested condition holds; `lo = true` is the lower boundary. -/
theorem C75_y_boundary (w : World) (o : Opts) (q : Nat → Coefs K) (old : Int → K)
    (rhs x0 : Nat → Cell → K) (xs : Int → K) (hw : w.Ok o.finiteVolume)
    (hv : ∀ r, r < w.nproc → CornersVisited o.finiteVolume (w.mesh r))
    (hk : KspSolved w o q old rhs x0 xs) (r : Nat) (hr : r < w.nproc) (lo : Bool) (x : Int)
    (hx : (w.mesh r).xstart ≤ x ∧ x ≤ (w.mesh r).xend)
    (hbnd : x ∈ if lo then (w.mesh r).lower else (w.mesh r).upper)
    (h3 : (w.mesh r).ystart + 2 ≤ (w.mesh r).yend) :
    let yb : Int := if lo then (w.mesh r).ystart - 1 else (w.mesh r).yend + 1
    let d : Int := if lo then 1 else -1
    ∃ fb f1 f2 f3 : K, result w o xs r (x, yb) = some fb ∧
      result w o xs r (x, yb + d) = some f1 ∧ result w o xs r (x, yb + 2 * d) = some f2 ∧
      result w o xs r (x, yb + 3 * d) = some f3 ∧
      YBoundary o.finiteVolume o.yBndry fb f1 f2 f3 (x0 r (x, yb)) (x0 r (x, yb + d)) := by
  intro yb d
  have hm := hw.mesh r hr
  have hxs := xs_le (w.mesh r)
  have hxe := xe_ge (w.mesh r)
  have hrow : ∀ k : Int, 1 ≤ k → k ≤ 3 →
      ((x, yb + k * d) : Cell) ∈ rowCells o.finiteVolume (w.mesh r) := by
    intro k h1 h2
    rw [mem_rowCells]; right; right; right; right
    cases lo <;> simp only [yb, d, if_true, Bool.false_eq_true, if_false] <;> omega
  have hb : ((x, yb) : Cell) ∈ rowCells o.finiteVolume (w.mesh r) := by
    rw [mem_rowCells]
    cases lo
    · right; right; left
      simp only [Bool.false_eq_true, if_false, yb] at hbnd ⊢
      exact ⟨trivial, hbnd, hx⟩
    · left
      simp only [if_true, yb] at hbnd ⊢
      exact ⟨trivial, hbnd, hx⟩
  have h1r := hrow 1 (by omega) (by omega)
  have h2r := hrow 2 (by omega) (by omega)
  have h3r := hrow 3 (by omega) (by omega)
  rw [one_mul] at h1r
  have hin : ∀ c ∈ rowCells o.finiteVolume (w.mesh r), (w.mesh r).Inside c := by
    intro c hc
    have := rowCells_inside _ _ hm c hc
    unfold LMesh.Inside; omega
  have hd : ∀ l : List Cell, (∀ e ∈ l, e ∈ rowCells o.finiteVolume (w.mesh r)) → l.Nodup →
      w.Distinct o.finiteVolume r l := by
    intro l hl hn
    refine ⟨fun e => (r, e), fun e he => ⟨hin e (hl e he), hr, hl e he,
      Or.inr ⟨hw.own r hr e (hl e he), rfl⟩⟩, ?_⟩
    exact hn.map (fun a b h => by simpa using h)
  have hst : ((x, yb), yRow (K := K) o.yBndry x yb d) ∈ rowsWritten o (w.mesh r) (q r) := by
    unfold rowsWritten
    have hfil : ∀ l : List Int, x ∈ l → x ∈ l.filter (w.mesh r).inX := fun l hl =>
      List.mem_filter.mpr ⟨hl, (inX_iff _ _).mpr hx⟩
    cases lo
    · refine List.mem_append_left _ (List.mem_append_left _ (List.mem_append_right _ ?_))
      exact List.mem_map.mpr ⟨x, hfil _ (by simpa using hbnd), rfl⟩
    · refine List.mem_append_left _ (List.mem_append_left _ (List.mem_append_left _
        (List.mem_append_right _ ?_)))
      exact List.mem_map.mpr ⟨x, hfil _ (by simpa using hbnd), rfl⟩
  have hrb : ((x, yb), bndryVal o.finiteVolume (decide (o.yBndry = .dirichlet)) (x0 r) (x, yb)
      (x, yb + d)) ∈ rhsWritten o (w.mesh r) (rhs r) (x0 r) := by
    unfold rhsWritten
    have hfil : ∀ l : List Int, x ∈ l → x ∈ l.filter (w.mesh r).inX := fun l hl =>
      List.mem_filter.mpr ⟨hl, (inX_iff _ _).mpr hx⟩
    cases lo
    · refine List.mem_append_left _ (List.mem_append_left _ (List.mem_append_right _ ?_))
      refine List.mem_map.mpr ⟨x, hfil _ (by simpa using hbnd), ?_⟩
      simp [yb, d]
    · refine List.mem_append_left _ (List.mem_append_left _ (List.mem_append_left _
        (List.mem_append_right _ ?_)))
      refine List.mem_map.mpr ⟨x, hfil _ (by simpa using hbnd), ?_⟩
      simp [yb, d]
  refine ⟨look w o xs r (x, yb), look w o xs r (x, yb + d), look w o xs r (x, yb + 2 * d),
    look w o xs r (x, yb + 3 * d), result_row w o xs r hm (hv r hr) _ hb,
    result_row w o xs r hm (hv r hr) _ h1r, result_row w o xs r hm (hv r hr) _ h2r,
    result_row w o xs r hm (hv r hr) _ h3r, ?_⟩
  have hdne : d ≠ 0 := by cases lo <;> simp [d]
  have key := fun hdist => (row_of_result w o q old rhs x0 xs hw hv hk r hr _ _ _ hst hrb hdist).2
  unfold YBoundary
  cases hyb : o.yBndry with
  | dirichlet =>
    have h := key (hd _ ?_ ?_)
    · simp only [yRow, hyb, dirichletRow, List.map_cons, List.map_nil, List.sum_cons, List.sum_nil,
        bndryVal, decide_true, if_true] at h ⊢
      cases hfv : o.finiteVolume <;>
        simp only [hfv, if_true, Bool.false_eq_true, if_false] at h ⊢ <;> linear_combination h
    · simp only [yRow, hyb, dirichletRow]
      rintro e he
      simp only [List.map_cons, List.map_nil, List.mem_cons, List.not_mem_nil, or_false] at he
      rcases he with rfl | rfl <;> assumption
    · simp only [yRow, hyb, dirichletRow, List.map_cons, List.map_nil]
      simp; omega
  | neumann =>
    have h := key (hd _ ?_ ?_)
    · simp only [yRow, hyb, neumannRow, List.map_cons, List.map_nil, List.sum_cons, List.sum_nil,
        bndryVal, reduceCtorEq, decide_false, Bool.false_eq_true, if_false] at h ⊢
      linear_combination h
    · simp only [yRow, hyb, neumannRow]
      rintro e he
      simp only [List.map_cons, List.map_nil, List.mem_cons, List.not_mem_nil, or_false] at he
      rcases he with rfl | rfl <;> assumption
    · simp only [yRow, hyb, neumannRow, List.map_cons, List.map_nil]
      simp; omega
  | free_o3 =>
    have h := key (hd _ ?_ ?_)
    · simp only [yRow, hyb, freeRow, List.map_cons, List.map_nil, List.sum_cons, List.sum_nil,
        bndryVal, reduceCtorEq, decide_false, Bool.false_eq_true, if_false] at h ⊢
      linear_combination h
    · simp only [yRow, hyb, freeRow]
      rintro e he
      simp only [List.map_cons, List.map_nil, List.mem_cons, List.not_mem_nil, or_false] at he
      rcases he with rfl | rfl | rfl | rfl <;> assumption
    · simp only [yRow, hyb, freeRow, List.map_cons, List.map_nil]
      simp; omega

end Verif.LapXY
