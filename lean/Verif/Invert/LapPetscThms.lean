import Verif.Invert.LapPetscMain
import Mathlib.Algebra.Order.Ring.Rat

/-! # Theorems about `LaplacePetsc` -/

namespace Verif.LapPetsc

section
variable {K : Type} [Field K]

/-- The vector of unknowns read as a field periodic in Z. -/
def fieldOf (nz : Nat) (v : Int → K) (x z : Int) : K := v (x * (nz : Int) + z % (nz : Int))

theorem wrap_emod (n : Nat) (z b : Int) (hz : 0 ≤ z ∧ z < (n : Int))
    (hb : -(n : Int) ≤ b ∧ b ≤ n) : wrapZ n (z + b) = (z + b) % (n : Int) := by
  unfold wrapZ
  by_cases h1 : z + b < 0
  · rw [if_pos h1, ← Int.add_emod_right, Int.emod_eq_of_lt (by omega) (by omega)]
  · rw [if_neg h1]
    by_cases h2 : z + b > (n : Int) - 1
    · rw [if_pos h2]
      have : (z + b) % (n : Int) = (z + b - n) % (n : Int) := by
        rw [Int.sub_emod_right]
      rw [this, Int.emod_eq_of_lt (by omega) (by omega)]
    · rw [if_neg h2, Int.emod_eq_of_lt (by omega) (by omega)]

theorem col_field (g : Grid) (v : Int → K) (gx z : Int) (hz : 0 ≤ z ∧ z < (g.nz : Int))
    (s : Int × Int) (hb : -(g.nz : Int) ≤ s.2 ∧ s.2 ≤ g.nz) :
    v (colG g gx z s) = fieldOf g.nz v (gx + s.1) (z + s.2) := by
  unfold colG fieldOf
  rw [wrap_emod g.nz z s.2 hz hb]

/-- A row of the matrix applied to a vector, in terms of the field. -/
theorem row_sum (g : Grid) (v : Int → K) (gx z : Int) (hz : 0 ≤ z ∧ z < (g.nz : Int))
    (calls : List (Int × Int × K)) (hb : ∀ e ∈ calls, -(g.nz : Int) ≤ e.2.1 ∧ e.2.1 ≤ g.nz) :
    ((entG g gx z calls).map fun e => e.2 * v e.1).sum
      = (calls.map fun e => e.2.2 * fieldOf g.nz v (gx + e.1) (z + e.2.1)).sum := by
  unfold entG
  rw [List.map_map]
  congr 1
  apply List.map_congr_left
  intro e he
  simp only [Function.comp_apply]
  rw [col_field g v gx z hz (e.1, e.2.1) (hb e he)]

variable [CharZero K]

theorem main_sum (o : Opts) (G : Flds K) (c : Cf K) (f : Int → Int → K) (x z : Int) :
    ((mainEntries o G c x z).map fun e => e.2.2 * f (x + e.1) (z + e.2.1)).sum
      = G.A x z * f x z + c.c1 * dXX o.fourth G f x z + c.c2 * dZZ o.fourth G f x z
        + c.c3 * dXZ o.fourth G f x z + c.c4 * dX o.fourth G f x z
        + c.c5 * dZ o.fourth G f x z := by
  unfold mainEntries dXX dZZ dXZ dX dZ d1 d2
  cases o.fourth
  · simp only [Bool.false_eq_true, if_false, List.map_cons, List.map_nil, List.sum_cons,
      List.sum_nil, add_zero]
    ring
  · simp only [if_true, List.map_cons, List.map_nil, List.sum_cons, List.sum_nil, add_zero]
    ring

theorem ddxC_eq (fo : Bool) (G : Flds K) (nz : Nat) (x z : Int) (hz : 0 ≤ z ∧ z < (nz : Int)) :
    ddxC fo G x z = dX fo G (periodicZ nz G.C2) x z / G.C1 x z := by
  have e : z % (nz : Int) = z := Int.emod_eq_of_lt hz.1 hz.2
  have e1 : x - 1 = x + -1 := by ring
  have e2 : x - 2 = x + -2 := by ring
  unfold ddxC dX d1 periodicZ
  simp only [e, e1, e2]
  cases fo
  · simp only [Bool.false_eq_true, if_false]; ring
  · simp only [if_true]; ring

theorem ddzC_eq (fo : Bool) (G : Flds K) (nz : Nat) (x z : Int) (hz : 0 ≤ z ∧ z < (nz : Int))
    (hn : 2 ≤ nz) :
    ddzC nz fo G x z = dZ fo G (periodicZ nz G.C2) x z / G.C1 x z := by
  have e1 : wrapZ nz (z - 1) = (z + -1) % (nz : Int) := wrap_emod nz z (-1) hz (by omega)
  have e2 : wrapZ nz (z - 2) = (z + -2) % (nz : Int) := wrap_emod nz z (-2) hz (by omega)
  have e3 : wrapZ nz (z + 1) = (z + 1) % (nz : Int) := wrap_emod nz z 1 hz (by omega)
  have e4 : wrapZ nz (z + 2) = (z + 2) % (nz : Int) := wrap_emod nz z 2 hz (by omega)
  unfold ddzC dZ d1 periodicZ
  simp only [e1, e2, e3, e4]
  cases fo
  · simp only [Bool.false_eq_true, if_false]; ring
  · simp only [if_true]; ring

theorem coeffs_operator (nz : Nat) (o : Opts) (G : Flds K) (f : Int → Int → K) (x z : Int)
    (hz : 0 ≤ z ∧ z < (nz : Int)) (hn : 2 ≤ nz) :
    G.A x z * f x z + (coeffsG nz o G x z).c1 * dXX o.fourth G f x z
        + (coeffsG nz o G x z).c2 * dZZ o.fourth G f x z
        + (coeffsG nz o G x z).c3 * dXZ o.fourth G f x z
        + (coeffsG nz o G x z).c4 * dX o.fourth G f x z
        + (coeffsG nz o G x z).c5 * dZ o.fourth G f x z
      = operator G nz o f x z := by
  unfold operator laplacePerp gradGrad coeffsG
  rw [ddxC_eq o.fourth G nz x z hz, ddzC_eq o.fourth G nz x z hz hn]
  generalize dXX o.fourth G f x z = fxx
  generalize dZZ o.fourth G f x z = fzz
  generalize dXZ o.fourth G f x z = fxz
  generalize dX o.fourth G f x z = fx
  generalize dZ o.fourth G f x z = fz
  generalize dX o.fourth G (periodicZ nz G.C2) x z = cx
  generalize dZ o.fourth G (periodicZ nz G.C2) x z = cz
  cases o.allTerms <;> cases o.nonuniform <;> cases o.incShear <;> cases o.issetD <;>
    cases o.issetC <;> cases o.issetE <;>
    simp only [Bool.false_eq_true, if_false, if_true] <;> ring

theorem inner_sum (o : Opts) (G : Flds K) (f : Int → Int → K) (x z : Int) :
    ((innerCalls o G x z).map fun e => e.2.2 * f (x + e.1) (z + e.2.1)).sum
      = innerQuantity G o f x z := by
  unfold innerCalls innerQuantity
  cases has o.innerFlags acGrad <;> cases o.fourth <;>
    simp only [Bool.false_eq_true, if_false, if_true, List.map_cons, List.map_nil, List.sum_cons,
      List.sum_nil, add_zero] <;> ring

theorem outer_sum (o : Opts) (G : Flds K) (f : Int → Int → K) (x z : Int) :
    ((outerFin o G x z).map fun e => e.2.2 * f (x + e.1) (z + e.2.1)).sum
      = outerQuantity G o f x z := by
  have e1 : x - 1 = x + -1 := by ring
  have e2 : x - 2 = x + -2 := by ring
  have e3 : x - 3 = x + -3 := by ring
  have e4 : x - 4 = x + -4 := by ring
  unfold outerFin outerCalls outerQuantity
  simp only [e1, e2, e3, e4]
  cases has o.outerFlags acGrad <;> cases o.fourth <;>
    simp only [Bool.false_eq_true, if_false, if_true, List.map_cons, List.map_nil, List.sum_cons,
      List.sum_nil, add_zero, Bool.or_true, Bool.or_false, Bool.not_true, Bool.not_false,
      List.tail_cons] <;> ring

omit [CharZero K] in
/-- Every point of the plane has an owner. -/
theorem owner (g : Grid) (hP : 1 ≤ g.P) (hm : 1 ≤ g.mx) (gx : Int)
    (h : 0 ≤ gx ∧ gx < (g.gnx : Int)) :
    ∃ p < g.P, ∃ x : Int, gx = x + (p : Int) * (g.mx : Int) ∧ (g.lo p : Int) ≤ x
      ∧ x < (g.hi p : Int) := by
  have hgn : (g.gnx : Int) = (g.P : Int) * (g.mx : Int) + 2 * g.xs := by
    unfold Grid.gnx; push_cast; rfl
  by_cases h1 : gx < (g.xs : Int)
  · refine ⟨0, by omega, gx, by simp, ?_, ?_⟩
    · rcases lo_cases g 0 with h | h <;> omega
    · have := hi_cases g 0
      omega
  · by_cases h2 : (g.xs : Int) + (g.P : Int) * (g.mx : Int) ≤ gx
    · refine ⟨g.P - 1, by omega, gx - ((g.P - 1 : Nat) : Int) * (g.mx : Int), by ring, ?_, ?_⟩
      · have e : (g.P : Int) * (g.mx : Int) = ((g.P - 1 : Nat) : Int) * (g.mx : Int) + g.mx := by
          rw [Int.natCast_sub hP]; push_cast; ring
        rcases lo_cases g (g.P - 1) with h | h <;> omega
      · have e : (g.P : Int) * (g.mx : Int) = ((g.P - 1 : Nat) : Int) * (g.mx : Int) + g.mx := by
          rw [Int.natCast_sub hP]; push_cast; ring
        rcases hi_cases g (g.P - 1) with h | h <;> omega
    · have hm' : (0 : Int) < g.mx := by omega
      have hd := Int.emod_add_mul_ediv (gx - g.xs) (g.mx : Int)
      have hr := Int.emod_nonneg (gx - g.xs) (ne_of_gt hm')
      have hr' := Int.emod_lt_of_pos (gx - g.xs) hm'
      have hq : 0 ≤ (gx - g.xs) / (g.mx : Int) := Int.ediv_nonneg (by omega) (by omega)
      have hq' : (gx - g.xs) / (g.mx : Int) < g.P := by
        apply Int.ediv_lt_of_lt_mul hm'
        linarith
      generalize (gx - g.xs) / (g.mx : Int) = q at *
      generalize (gx - g.xs) % (g.mx : Int) = r at *
      obtain ⟨n, rfl⟩ := Int.eq_ofNat_of_zero_le hq
      have e : gx = (g.xs : Int) + r + (n : Int) * (g.mx : Int) := by linarith
      refine ⟨n, by omega, (g.xs : Int) + r, e, ?_, ?_⟩
      · rcases lo_cases g n with h | h <;> omega
      · rcases hi_cases g n with h | h <;> omega

/-- The right hand side of a point of the plane. -/
def rhsG (g : Grid) (o : Opts) (G : Flds K) (gx z : Int) : K :=
  if gx < (g.xs : Int) then bndryValue G o.innerFlags gx z
  else if gx < (g.xs : Int) + (g.P : Int) * (g.mx : Int) then G.b gx z
  else bndryValue G o.outerFlags gx z

/-- Rows of the matrix are empty (never assembled) or hold the columns of their place. -/
def MatOk (g : Grid) (fo : Bool) (M : Mat K) : Prop :=
  ∀ gx z : Int, 0 ≤ gx → gx < (g.gnx : Int) → 0 ≤ z → z < (g.nz : Int) →
    RowOk g fo gx z (M (gx * (g.nz : Int) + z))

omit [CharZero K] in
theorem assembled (g : Grid) (o : Opts) (G : Flds K) (s : Sys K) (hs : Sized g o)
    (hok : MatOk g o.fourth s.mat) :
    ∃ s', assemble g o G s = .ok s' ∧ ∀ gx z : Int, 0 ≤ gx → gx < (g.gnx : Int) → 0 ≤ z →
      z < (g.nz : Int) →
        s'.mat (gx * (g.nz : Int) + z) = rowG g o G gx z
        ∧ s'.bs (gx * (g.nz : Int) + z) = rhsG g o G gx z
        ∧ s'.xs (gx * (g.nz : Int) + z) = G.x0 gx z := by
  obtain ⟨s', h1, h2, _⟩ := assembleUpTo_eq g o G s g.P (Nat.le_refl _)
  refine ⟨s', h1, ?_⟩
  intro gx z hg1 hg2 hz1 hz2
  obtain ⟨p, hp, x, rfl, hx1, hx2⟩ := owner g hs.1.1 hs.1.2.1 gx ⟨hg1, hg2⟩
  have hc : (x, z) ∈ allCells g p := (mem_allCells g p (x, z)).2 ⟨hx1, hx2, hz1, hz2⟩
  obtain ⟨r, hr, hi, he, hb, hgs⟩ := row_written g o G hs p hp x z hc
    (s.mat (rowIdx g p (x, z))) (hok _ z hg1 hg2 hz1 hz2)
  have := h2 p hp r hr
  rw [hi] at this he
  refine ⟨?_, ?_, ?_⟩
  · exact this.1.trans he
  · exact this.2.1.trans hb
  · exact this.2.2.trans hgs

omit [CharZero K] in
theorem fresh_ok (g : Grid) (fo : Bool) (bs xs : Int → K) : MatOk g fo (fresh bs xs).mat :=
  fun _ _ _ _ _ _ => Or.inl rfl

/-- The PETSc objects of a solver with given grid and `fourth_order`: just constructed, or after
any sequence of assemblies with any coefficients, flags and fields, each followed by whatever
the linear solver left in the solution vector (whether it converged or not). -/
inductive Reach (g : Grid) (fo : Bool) : Sys K → Prop
  | start (bs xs : Int → K) : Reach g fo (fresh bs xs)
  | step (s s' : Sys K) (o : Opts) (G : Flds K) (x : Int → K) :
      Reach g fo s → Sized g o → o.fourth = fo → assemble g o G s = .ok s' →
        Reach g fo { s' with xs := x }

omit [CharZero K] in
theorem reach_ok (g : Grid) (fo : Bool) (s : Sys K) (h : Reach g fo s) : MatOk g fo s.mat := by
  induction h with
  | start bs xs => exact fresh_ok g fo bs xs
  | step s s' o G x _ hs hfo ha ih =>
    subst hfo
    obtain ⟨s2, h1, h2⟩ := assembled g o G s hs ih
    rw [ha] at h1
    cases h1
    intro gx z a b c d
    right
    show (s'.mat _).map Prod.fst = _
    rw [(h2 gx z a b c d).1, rowG_fst]

/-- The flags accepted by `solve`. -/
def FlagsOk (o : Opts) : Prop :=
  hasOther o.innerFlags implBndry = false ∧ hasOther o.outerFlags implBndry = false

omit [CharZero K] in
theorem solveCheck_ok (o : Opts) (h : FlagsOk o) : solveCheck o = .ok () := by
  unfold solveCheck
  have e : has o.globalFlags (lnot implFlags) = false := by
    simp [has, lnot, implFlags, startNew]
  rw [e, h.1, h.2]
  rfl

/-- **C78.** Whatever was solved before with the same solver object, if the linear solver solves
the system it is given then `solve` succeeds and the fields returned on the processors are the
pieces of one field on the whole plane which satisfies `D∇⊥²f + (1/C1)∇⊥C2·∇⊥f + E·∇f + Af = b`
at every interior point and the requested condition at every boundary point, to the requested
order; guard cells shared with a neighbouring processor are zero. -/
theorem C78_equation (g : Grid) (o : Opts) (G : Flds K) (ksp : Sys K → Int → K) (s : Sys K)
    (hs : Sized g o) (hfl : FlagsOk o) (hr : Reach g o.fourth s)
    (hksp : ∀ s', assemble g o G s = .ok s' → Solved g s' (ksp s')) :
    ∃ s' sol f, solve g o G ksp s = .ok (s', sol)
      ∧ Solution G (g.P * g.mx) g.xs g.nz o f
      ∧ (∀ p < g.P, ∀ x z : Int, (g.lo p : Int) ≤ x → x < (g.hi p : Int) → 0 ≤ z →
          z < (g.nz : Int) → sol p x z = f (x + (p : Int) * (g.mx : Int)) z)
      ∧ (∀ p < g.P, ∀ x z : Int, (x < (g.lo p : Int) ∨ (g.hi p : Int) ≤ x) → sol p x z = 0) := by
  obtain ⟨s', ha, hrow⟩ := assembled g o G s hs (reach_ok g _ s hr)
  obtain ⟨sol, hc, hsol⟩ := copyAll_eq g (ksp s') g.P (Nat.le_refl _)
  have hsv := hksp s' ha
  have hP : 0 < g.P := hs.1.1
  have hnz : 3 ≤ g.nz := by
    have := hs.1.2.2
    by_cases h : o.fourth = true
    · simp only [h, if_true] at this; omega
    · simp only [Bool.eq_false_iff.mpr h, Bool.false_eq_true, if_false] at this; omega
  have hnz4 : o.fourth = true → 5 ≤ g.nz := by
    intro h
    have := hs.1.2.2
    simp only [h, if_true] at this; omega
  have hgn : (g.gnx : Int) = ((g.P * g.mx : Nat) : Int) + 2 * g.xs := by
    unfold Grid.gnx; push_cast; rfl
  -- the equation of a row
  have heq : ∀ gx z : Int, 0 ≤ gx → gx < (g.gnx : Int) → 0 ≤ z → z < (g.nz : Int) →
      ((rowG g o G gx z).map fun e => e.2 * ksp s' e.1).sum = rhsG g o G gx z := by
    intro gx z a b c d
    obtain ⟨r1, r2, _⟩ := hrow gx z a b c d
    have h0 := (block (g.nz : Int) gx z ⟨c, d⟩ 0).2.2 a
    have h1 := (block (g.nz : Int) gx z ⟨c, d⟩ (g.gnx : Int)).1.2 b
    have := hsv (gx * (g.nz : Int) + z) (by linarith) (by
      rw [size_eq g hP]; push_cast; exact h1)
    rw [r1, r2] at this
    exact this
  refine ⟨{ s' with xs := ksp s' }, sol, fieldOf g.nz (ksp s'), ?_, ?_, ?_, ?_⟩
  · unfold solve
    simp only [bind, Except.bind]
    rw [solveCheck_ok o hfl]
    dsimp only
    rw [ha]
    dsimp only
    rw [hc]
    rfl
  · refine ⟨?_, ?_, ?_, ?_⟩
    · intro x z
      unfold fieldOf
      rw [Int.add_emod_right]
    · intro x z h1 h2 h3 h4
      have := heq x z (by omega) (by omega) h3 h4
      unfold rowG rhsG at this
      have c1 : ¬ x < (g.xs : Int) := by omega
      have c2 : x < (g.xs : Int) + (g.P : Int) * (g.mx : Int) := by push_cast at h2; exact h2
      rw [if_neg c1, if_pos c2, if_neg c1, if_pos c2, row_sum g _ x z ⟨h3, h4⟩, main_sum,
        coeffs_operator g.nz o G _ x z ⟨h3, h4⟩ (by omega)] at this
      · exact this
      · intro e he
        have hst : (e.1, e.2.1) ∈ mainSt o.fourth := by
          rw [← mainEntries_st o G (coeffsG g.nz o G x z) x z]
          exact List.mem_map_of_mem (f := fun e => (e.1, e.2.1)) he
        have hb : ∀ s ∈ mainSt o.fourth, -2 ≤ s.2 ∧ s.2 ≤ 2 := by
          cases o.fourth <;> decide
        have := hb _ hst
        dsimp only at this
        omega
    · intro x z h1 h2 h3 h4
      have := heq x z (by omega) (by omega) h3 h4
      unfold rowG rhsG at this
      rw [if_pos h2, if_pos h2, row_sum g _ x z ⟨h3, h4⟩, inner_sum] at this
      · exact this
      · intro e he
        have hst : (e.1, e.2.1) ∈ innerSt o.fourth := by
          rw [← innerCalls_st o G x z]
          exact List.mem_map_of_mem (f := fun e => (e.1, e.2.1)) he
        have hb : ∀ s ∈ innerSt o.fourth, s.2 = 0 := by
          cases o.fourth <;> decide
        have := hb _ hst
        dsimp only at this
        omega
    · intro x z h1 h2 h3 h4
      have := heq x z (by omega) (by omega) h3 h4
      unfold rowG rhsG at this
      have c1 : ¬ x < (g.xs : Int) := by omega
      have c2 : ¬ x < (g.xs : Int) + (g.P : Int) * (g.mx : Int) := by push_cast at h1; omega
      rw [if_neg c1, if_neg c2, if_neg c1, if_neg c2, row_sum g _ x z ⟨h3, h4⟩, outer_sum] at this
      · exact this
      · intro e he
        have hst : (e.1, e.2.1) ∈ outerSt o.fourth := by
          rw [← outerFin_st o G x z]
          exact List.mem_map_of_mem (f := fun e => (e.1, e.2.1)) he
        have hb : ∀ s ∈ outerSt o.fourth, s.2 = 0 := by
          cases o.fourth <;> decide
        have := hb _ hst
        dsimp only at this
        omega
  · intro p hp x z h1 h2 h3 h4
    rw [hsol p hp x z, if_pos ⟨h1, h2, h3, h4⟩]
    unfold fieldOf rowIdx
    rw [Int.emod_eq_of_lt h3 h4]
  · intro p hp x z h
    rw [hsol p hp x z, if_neg (by omega)]

end

end Verif.LapPetsc
