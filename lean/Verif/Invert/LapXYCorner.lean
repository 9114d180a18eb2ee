import Verif.Invert.LapXYMore

/-! # C75: corner rows, Y guard cells, and the finite difference form without Y derivatives -/

namespace Verif.LapXY

variable {K : Type} [Field K]

/-- Finite difference form with Y derivatives switched off: the X terms of the operator. -/
theorem C75_finite_difference_x (w : World) (o : Opts) (q : Nat → Coefs K) (old : Int → K)
    (rhs x0 : Nat → Cell → K) (xs : Int → K) (hfv : o.finiteVolume = false)
    (hiy : o.includeY = false)
    (hw : w.Ok false) (hv : ∀ r, r < w.nproc → CornersVisited false (w.mesh r))
    (hk : KspSolved w o q old rhs x0 xs) (r : Nat) (hr : r < w.nproc) (c : Cell)
    (hc : (w.mesh r).xstart ≤ c.1 ∧ c.1 ≤ (w.mesh r).xend ∧ (w.mesh r).ystart ≤ c.2 ∧
      c.2 ≤ (w.mesh r).yend)
    (hd : w.Distinct false r [c, (c.1 + 1, c.2), (c.1 - 1, c.2)]) :
    ∃ f : Cell → K,
      (∀ e ∈ [c, (c.1 + 1, c.2), (c.1 - 1, c.2)], communicated w o xs r e = some (f e)) ∧
      fdOperatorX (q r) f c = rhs r c := by
  have hst := interior_rows o (w.mesh r) (q r) c hc
  rw [if_neg (by rw [hfv]; decide), hiy] at hst
  have hb := interior_rhs o (w.mesh r) (rhs r) (x0 r) c hc
  have hcross : (fdStencil false (q r) c).map Prod.fst = [c, (c.1 + 1, c.2), (c.1 - 1, c.2)] := rfl
  obtain ⟨h1, h3⟩ := row_of_result w o q old rhs x0 xs (by rw [hfv]; exact hw)
    (fun r hr => by rw [hfv]; exact hv r hr) hk r hr c _ _ hst hb
    (by rw [hcross, hfv]; exact hd)
  rw [hcross] at h1
  refine ⟨look w o xs r, h1, ?_⟩
  rw [← h3]
  have e4 : (4 : K) = 2 * 2 := by ring
  simp only [fdStencil, fdOperatorX, ddx, d2dx2, Bool.false_eq_true, if_false, List.map_cons,
    List.map_nil, List.sum_cons, List.sum_nil, e4, div_eq_mul_inv, mul_inv]
  ring

/-- What the corner row asks: no gradient in Y when the Y condition is Neumann, otherwise the corner
is extrapolated from the three cells above (below) it. -/
def CornerCond (b : YB) (fb f1 f2 f3 : K) : Prop :=
  if b = .neumann then fb = f1 else fb - 3 * f1 + 3 * f2 - f3 = 0

/-- Corner cells of the finite difference form: with three points in Y on the processor, the corner
of each boundary which is there satisfies its condition.  `lo`: lower or upper Y boundary; `inner`:
inner or outer X boundary. -/
theorem C75_corners (w : World) (o : Opts) (q : Nat → Coefs K) (old : Int → K)
    (rhs x0 : Nat → Cell → K) (xs : Int → K) (hfv : o.finiteVolume = false) (hw : w.Ok false)
    (hv : ∀ r, r < w.nproc → CornersVisited false (w.mesh r))
    (hk : KspSolved w o q old rhs x0 xs) (r : Nat) (hr : r < w.nproc) (lo inner : Bool)
    (hX : (if inner then (w.mesh r).firstX else (w.mesh r).lastX) = true)
    (hY : (if lo then (w.mesh r).hasLower else (w.mesh r).hasUpper) = true)
    (h3 : (w.mesh r).ystart + 2 ≤ (w.mesh r).yend) :
    let x : Int := if inner then (w.mesh r).xstart - 1 else (w.mesh r).xend + 1
    let yb : Int := if lo then (w.mesh r).ystart - 1 else (w.mesh r).yend + 1
    let d : Int := if lo then 1 else -1
    ∃ fb f1 f2 f3 : K, result w o xs r (x, yb) = some fb ∧
      result w o xs r (x, yb + d) = some f1 ∧ result w o xs r (x, yb + 2 * d) = some f2 ∧
      result w o xs r (x, yb + 3 * d) = some f3 ∧ CornerCond o.yBndry fb f1 f2 f3 := by
  intro x yb d
  rw [← hfv] at hw hv
  have hm := hw.mesh r hr
  have hxne := hm.xne
  have hxs := xs_le (w.mesh r)
  have hxe := xe_ge (w.mesh r)
  have hxin : (w.mesh r).xs ≤ x ∧ x ≤ (w.mesh r).xe := by
    cases inner
    · simp only [Bool.false_eq_true, if_false] at hX
      have : (w.mesh r).xe = (w.mesh r).xend + 1 := by unfold LMesh.xe; rw [if_pos hX]
      simp only [x, Bool.false_eq_true, if_false]; omega
    · simp only [if_true] at hX
      have : (w.mesh r).xs = (w.mesh r).xstart - 1 := by unfold LMesh.xs; rw [if_pos hX]
      simp only [x, if_true]; omega
  have hrow : ∀ k : Int, 1 ≤ k → k ≤ 3 →
      ((x, yb + k * d) : Cell) ∈ rowCells o.finiteVolume (w.mesh r) := by
    intro k h1 h2
    rw [mem_rowCells]; right; right; right; right
    refine ⟨hxin.1, hxin.2, ?_⟩
    cases lo <;> simp only [yb, d, if_true, Bool.false_eq_true, if_false] <;> omega
  have hcorner : ((x, yb) : Cell) ∈ (w.mesh r).corners o.finiteVolume
      (if lo then (w.mesh r).hasLower else (w.mesh r).hasUpper) yb := by
    unfold LMesh.corners
    rw [hfv, hY]
    simp only [Bool.not_false, Bool.and_self, if_true]
    cases inner
    · simp only [Bool.false_eq_true, if_false] at hX
      rw [if_pos hX]
      exact List.mem_append_right _ (by simp [x])
    · simp only [if_true] at hX
      rw [if_pos hX]
      exact List.mem_append_left _ (by simp [x])
  have hb : ((x, yb) : Cell) ∈ rowCells o.finiteVolume (w.mesh r) := by
    rw [mem_rowCells]
    cases lo
    · right; right; right; left
      simpa [yb] using hcorner
    · right; left
      simpa [yb] using hcorner
  have h1r := hrow 1 (by omega) (by omega)
  have h2r := hrow 2 (by omega) (by omega)
  have h3r := hrow 3 (by omega) (by omega)
  rw [one_mul] at h1r
  have hin : ∀ c ∈ rowCells o.finiteVolume (w.mesh r), (w.mesh r).Inside c := by
    intro c hc
    have := rowCells_inside _ _ hm c hc
    unfold LMesh.Inside; omega
  have hd : ∀ l : List Cell, (∀ e ∈ l, e ∈ rowCells o.finiteVolume (w.mesh r)) → l.Nodup →
      w.Distinct o.finiteVolume r l := by
    intro l hl hn
    refine ⟨fun e => (r, e), fun e he => ⟨hin e (hl e he), hr, hl e he,
      Or.inr ⟨hw.own r hr e (hl e he), rfl⟩⟩, ?_⟩
    exact hn.map (fun a b h => by simpa using h)
  have hst : ((x, yb), cornerRow (K := K) o.yBndry x yb d) ∈ rowsWritten o (w.mesh r) (q r) := by
    unfold rowsWritten
    cases lo
    · refine List.mem_append_right _ ?_
      exact List.mem_map.mpr ⟨(x, yb), by simpa [yb] using hcorner, rfl⟩
    · refine List.mem_append_left _ (List.mem_append_right _ ?_)
      exact List.mem_map.mpr ⟨(x, yb), by simpa [yb] using hcorner, rfl⟩
  have hrb : ((x, yb), (0 : K)) ∈ rhsWritten o (w.mesh r) (rhs r) (x0 r) := by
    unfold rhsWritten
    cases lo
    · refine List.mem_append_right _ ?_
      exact List.mem_map.mpr ⟨(x, yb), by simpa [yb] using hcorner, rfl⟩
    · refine List.mem_append_left _ (List.mem_append_right _ ?_)
      exact List.mem_map.mpr ⟨(x, yb), by simpa [yb] using hcorner, rfl⟩
  refine ⟨look w o xs r (x, yb), look w o xs r (x, yb + d), look w o xs r (x, yb + 2 * d),
    look w o xs r (x, yb + 3 * d), result_row w o xs r hm (hv r hr) _ hb,
    result_row w o xs r hm (hv r hr) _ h1r, result_row w o xs r hm (hv r hr) _ h2r,
    result_row w o xs r hm (hv r hr) _ h3r, ?_⟩
  have hdne : d ≠ 0 := by cases lo <;> simp [d]
  have key := fun hdist => (row_of_result w o q old rhs x0 xs hw hv hk r hr _ _ _ hst hrb hdist).2
  have free : ∀ h : cornerRow (K := K) o.yBndry x yb d
      = freeRow (x, yb) (x, yb + d) (x, yb + 2 * d) (x, yb + 3 * d),
      look w o xs r (x, yb) - 3 * look w o xs r (x, yb + d) + 3 * look w o xs r (x, yb + 2 * d)
        - look w o xs r (x, yb + 3 * d) = 0 := by
    intro he
    have h := key (hd _ ?_ ?_)
    · rw [he] at h
      simp only [freeRow, List.map_cons, List.map_nil, List.sum_cons, List.sum_nil] at h
      linear_combination h
    · rw [he]
      rintro e he
      simp only [freeRow, List.map_cons, List.map_nil, List.mem_cons, List.not_mem_nil, or_false]
        at he
      rcases he with rfl | rfl | rfl | rfl <;> assumption
    · rw [he]
      simp only [freeRow, List.map_cons, List.map_nil]
      simp; omega
  unfold CornerCond
  by_cases hyb : o.yBndry = .neumann
  · rw [if_pos hyb]
    have h := key (hd _ ?_ ?_)
    · simp only [cornerRow, hyb, neumannRow, List.map_cons, List.map_nil, List.sum_cons,
        List.sum_nil] at h
      linear_combination h
    · simp only [cornerRow, hyb, neumannRow]
      rintro e he
      simp only [List.map_cons, List.map_nil, List.mem_cons, List.not_mem_nil, or_false] at he
      rcases he with rfl | rfl <;> assumption
    · simp only [cornerRow, hyb, neumannRow, List.map_cons, List.map_nil]
      simp; omega
  · rw [if_neg hyb]
    apply free
    cases h : o.yBndry with
    | neumann => exact absurd h hyb
    | dirichlet => rfl
    | free_o3 => rfl

/-- Guard cells further out in Y repeat the value of the first boundary cell, at every column the
boundary iterator visits inside the X range. -/
theorem C75_guard_copies_y (w : World) (o : Opts) (xs : Int → K) (r : Nat) (hm : (w.mesh r).Ok)
    (hv : CornersVisited o.finiteVolume (w.mesh r)) (x y : Int)
    (hx : (w.mesh r).xstart ≤ x ∧ x ≤ (w.mesh r).xend) :
    (x ∈ (w.mesh r).lower → 0 ≤ y → y < (w.mesh r).ystart →
      result w o xs r (x, y) = result w o xs r (x, (w.mesh r).ystart - 1)) ∧
    (x ∈ (w.mesh r).upper → (w.mesh r).yend < y → y < (w.mesh r).LocalNy →
      result w o xs r (x, y) = result w o xs r (x, (w.mesh r).yend + 1)) := by
  have hxn := hm.xne
  have hyn := hm.yne
  have fold : ∀ (L : List (Cell × Cell)) (c s : Cell) (v : Option K),
      (∀ p ∈ L, p.1 = c → p.2 = s) →
      (v = some (xs (w.globalIndex o.finiteVolume r s)) ∨ ∃ p ∈ L, p.1 = c) →
      L.foldl (fun v p => if p.1 = c then some (xs (w.globalIndex o.finiteVolume r p.2)) else v) v
        = some (xs (w.globalIndex o.finiteVolume r s)) := by
    intro L c s
    induction L with
    | nil =>
      intro v _ h
      rcases h with h | ⟨p, hp, -⟩
      · exact h
      · cases hp
    | cons p L ih =>
      intro v hs h
      rw [List.foldl_cons]
      apply ih _ (fun p' hp' => hs p' (List.mem_cons_of_mem _ hp'))
      by_cases hpc : p.1 = c
      · left; rw [if_pos hpc, hs p List.mem_cons_self hpc]
      · rw [if_neg hpc]
        rcases h with h | ⟨p', hp', hpc'⟩
        · left; exact h
        · rcases List.mem_cons.mp hp' with h | h
          · subst h; exact absurd hpc' hpc
          · right; exact ⟨p', h, hpc'⟩
  have src : ∀ (y' : Int), (∀ p ∈ resultWrites o (w.mesh r), p.1 = (x, y') →
      (y' < (w.mesh r).ystart → p.2 = (x, (w.mesh r).ystart - 1)) ∧
      ((w.mesh r).yend < y' → p.2 = (x, (w.mesh r).yend + 1))) := by
    rintro y' ⟨⟨u, v⟩, ⟨u', v'⟩⟩ hp heq
    simp only [Prod.mk.injEq] at heq
    obtain ⟨rfl, rfl⟩ := heq
    unfold resultWrites at hp
    simp only [List.mem_append, List.mem_flatMap, List.mem_map, List.mem_ite_nil_right, mem_upto,
      List.mem_reverse, Prod.mk.injEq, List.mem_filter] at hp
    rcases hp with (((⟨x1, hx1, y1, hy1, ⟨rfl, rfl⟩, rfl, rfl⟩
      | ⟨hf, y1, hy1, x1, hx1, ⟨rfl, rfl⟩, rfl, rfl⟩)
      | ⟨hf, y1, hy1, x1, hx1, ⟨rfl, rfl⟩, rfl, rfl⟩)
      | ⟨x1, hx1, y1, hy1, ⟨rfl, rfl⟩, rfl, rfl⟩)
      | ⟨x1, hx1, y1, hy1, ⟨rfl, rfl⟩, rfl, rfl⟩ <;>
    · constructor <;> intro h <;> first | rfl | (exfalso; omega)
  have okx : (!((o.finiteVolume && (decide (x < (w.mesh r).xstart) || decide ((w.mesh r).xend < x)))
      || (decide (x < (w.mesh r).xstart - 1) || decide ((w.mesh r).xend + 1 < x)))) = true := by
    simp; omega
  refine ⟨fun hl h0 h1 => ?_, fun hl h0 h1 => ?_⟩
  · have hb := result_row w o xs r hm hv (x, (w.mesh r).ystart - 1) (by
      rw [mem_rowCells]; left
      exact ⟨rfl, hl, hx⟩)
    rw [hb]
    unfold result
    refine fold _ _ _ _ (fun p hp hpc => (src y p hp hpc).1 h1) (Or.inr ?_)
    refine ⟨((x, y), (x, (w.mesh r).ystart - 1)), ?_, rfl⟩
    unfold resultWrites
    simp only [List.mem_append, List.mem_flatMap, List.mem_map, List.mem_ite_nil_right, mem_upto,
      List.mem_reverse, List.mem_filter]
    exact Or.inl (Or.inr ⟨x, ⟨hl, okx⟩, y, by omega, rfl⟩)
  · have hb := result_row w o xs r hm hv (x, (w.mesh r).yend + 1) (by
      rw [mem_rowCells]; right; right; left
      exact ⟨rfl, hl, hx⟩)
    rw [hb]
    unfold result
    refine fold _ _ _ _ (fun p hp hpc => (src y p hp hpc).2 h0) (Or.inr ?_)
    refine ⟨((x, y), (x, (w.mesh r).yend + 1)), ?_, rfl⟩
    unfold resultWrites
    simp only [List.mem_append, List.mem_flatMap, List.mem_map, List.mem_ite_nil_right, mem_upto,
      List.mem_reverse, List.mem_filter]
    exact Or.inr ⟨x, ⟨hl, okx⟩, y, by omega, rfl⟩

/-! ## The hypotheses can be met -/

/-- One processor, open in Y with corners, finite differences, three points in Y: the zero field
solves the system with zero right hand side. -/
def openBox : World where
  nproc := 1
  mesh _ := { LocalNx := 3, LocalNy := 5, xstart := 1, xend := 1, ystart := 1, yend := 3
              firstX := true, lastX := true, lower := [0, 1, 2], upper := [0, 1, 2]
              hasLower := true, hasUpper := true }
  partner _ _ := none

example : ∃ (w : World) (o : Opts) (q : Nat → Coefs ℚ) (rhs x0 : Nat → Cell → ℚ) (xs : Int → ℚ),
    o.finiteVolume = false ∧ o.includeY = false ∧ w.Ok false ∧
    (∀ r, r < w.nproc → CornersVisited false (w.mesh r)) ∧
    KspSolved w o q (fun _ => 0) rhs x0 xs ∧ 0 < w.nproc ∧ (w.mesh 0).firstX = true ∧
    (w.mesh 0).hasLower = true ∧ (w.mesh 0).ystart + 2 ≤ (w.mesh 0).yend ∧
    rhs 0 (1, 2) ≠ 0 ∧ w.Distinct false 0 [(1, 2), (2, 2), (0, 2)] := by
  refine ⟨openBox, ⟨false, false, .neumann, false⟩, fun _ => flat 0 1 0, fun _ _ => 1, fun _ _ => 1,
    fun _ => 1, rfl, rfl, ?_, ?_, ?_, by decide, rfl, rfl, by decide, by norm_num, ?_⟩
  · refine ⟨?_, ?_⟩
    · intro r _
      refine ⟨?_, ?_, ?_, ?_, ?_, ?_, ?_, ?_⟩ <;> simp [openBox]
    · intro r _ c _; rfl
  · intro r _
    constructor <;> simp [openBox, LMesh.corners]
  · intro i hi
    have h23 : openBox.istart false openBox.nproc = 15 := by decide
    rw [h23] at hi ⊢
    have : i < 15 := by omega
    interval_cases i <;> decide +kernel
  · refine ⟨fun e => (0, e), ?_, by decide⟩
    intro e he
    simp only [List.mem_cons, List.not_mem_nil, or_false] at he
    rcases he with rfl | rfl | rfl <;>
    · refine ⟨?_, ?_, ?_, Or.inr ⟨rfl, rfl⟩⟩
      · unfold LMesh.Inside; decide
      · decide
      · decide

end Verif.LapXY
