import Verif.Invert.LapPetscThms
import Mathlib.Tactic.IntervalCases

/-! # More theorems about `LaplacePetsc`: history, layout, flags, stencils, violations -/

namespace Verif.LapPetsc

section
variable {K : Type} [Field K]

/-- **C78.** The system given to the linear solver does not depend on what was solved before:
from any reachable state it is, row by row, the system assembled by a new solver object. -/
theorem C78_history (g : Grid) (o : Opts) (G : Flds K) (s : Sys K) (bs xs : Int → K)
    (hs : Sized g o) (hr : Reach g o.fourth s) :
    ∃ s1 s2, assemble g o G s = .ok s1 ∧ assemble g o G (fresh bs xs) = .ok s2
      ∧ ∀ i : Int, 0 ≤ i → i < (g.size : Int) →
        s1.mat i = s2.mat i ∧ s1.bs i = s2.bs i ∧ s1.xs i = s2.xs i := by
  obtain ⟨s1, h1, r1⟩ := assembled g o G s hs (reach_ok g _ s hr)
  obtain ⟨s2, h2, r2⟩ := assembled g o G (fresh bs xs) hs (fresh_ok g _ bs xs)
  refine ⟨s1, s2, h1, h2, ?_⟩
  intro i hi0 hi1
  have hP : 0 < g.P := hs.1.1
  have hnz : (0 : Int) < g.nz := by
    have := hs.1.2.2
    by_cases h : o.fourth = true
    · simp only [h, if_true] at this; omega
    · simp only [Bool.eq_false_iff.mpr h, Bool.false_eq_true, if_false] at this; omega
  have hd := Int.emod_add_mul_ediv i (g.nz : Int)
  have hz1 := Int.emod_nonneg i (ne_of_gt hnz)
  have hz2 := Int.emod_lt_of_pos i hnz
  have hx1 : 0 ≤ i / (g.nz : Int) := Int.ediv_nonneg hi0 (by omega)
  have hx2 : i / (g.nz : Int) < g.gnx := by
    apply Int.ediv_lt_of_lt_mul hnz
    rw [size_eq g hP] at hi1
    push_cast at hi1
    exact hi1
  have e : i = i / (g.nz : Int) * (g.nz : Int) + i % (g.nz : Int) := by linarith
  have a := r1 _ _ hx1 hx2 hz1 hz2
  have b := r2 _ _ hx1 hx2 hz1 hz2
  rw [← e] at a b
  exact ⟨a.1.trans b.1.symm, a.2.1.trans b.2.1.symm, a.2.2.trans b.2.2.symm⟩

/-- **C78.** Nor on the number of processors: two decompositions of the same plane give the same
system (and `C78_equation` the same pieces). -/
theorem C78_layout (g g' : Grid) (o : Opts) (G : Flds K) (s s0 : Sys K)
    (hs : Sized g o) (hs' : Sized g' o) (hr : Reach g o.fourth s) (hr' : Reach g' o.fourth s0)
    (hx : g.P * g.mx = g'.P * g'.mx) (hw : g.xs = g'.xs) (hz : g.nz = g'.nz) :
    ∃ s1 s2, assemble g o G s = .ok s1 ∧ assemble g' o G s0 = .ok s2 ∧ g.size = g'.size
      ∧ ∀ i : Int, 0 ≤ i → i < (g.size : Int) →
        s1.mat i = s2.mat i ∧ s1.bs i = s2.bs i ∧ s1.xs i = s2.xs i := by
  obtain ⟨s1, h1, r1⟩ := assembled g o G s hs (reach_ok g _ s hr)
  obtain ⟨s2, h2, r2⟩ := assembled g' o G s0 hs' (reach_ok g' _ s0 hr')
  have hP : 0 < g.P := hs.1.1
  have hP' : 0 < g'.P := hs'.1.1
  have hgn : g.gnx = g'.gnx := by unfold Grid.gnx; rw [hx, hw]
  have hsz : g.size = g'.size := by rw [size_eq g hP, size_eq g' hP', hgn, hz]
  have hx' : (g.P : Int) * (g.mx : Int) = (g'.P : Int) * (g'.mx : Int) := by exact_mod_cast hx
  refine ⟨s1, s2, h1, h2, hsz, ?_⟩
  intro i hi0 hi1
  have hnz : (0 : Int) < g.nz := by
    have := hs.1.2.2
    by_cases h : o.fourth = true
    · simp only [h, if_true] at this; omega
    · simp only [Bool.eq_false_iff.mpr h, Bool.false_eq_true, if_false] at this; omega
  have hd := Int.emod_add_mul_ediv i (g.nz : Int)
  have hz1 := Int.emod_nonneg i (ne_of_gt hnz)
  have hz2 := Int.emod_lt_of_pos i hnz
  have hx1 : 0 ≤ i / (g.nz : Int) := Int.ediv_nonneg hi0 (by omega)
  have hx2 : i / (g.nz : Int) < g.gnx := by
    apply Int.ediv_lt_of_lt_mul hnz
    rw [size_eq g hP] at hi1
    push_cast at hi1
    exact hi1
  have e : i = i / (g.nz : Int) * (g.nz : Int) + i % (g.nz : Int) := by linarith
  have a := r1 _ _ hx1 hx2 hz1 hz2
  have b := r2 (i / (g.nz : Int)) (i % (g.nz : Int)) hx1 (by rw [← hgn]; exact hx2) hz1
    (by rw [← hz]; exact hz2)
  rw [← e] at a
  rw [← hz, ← e] at b
  have er : rowG g o G (i / (g.nz : Int)) (i % (g.nz : Int))
      = rowG g' o G (i / (g.nz : Int)) (i % (g.nz : Int)) := by
    unfold rowG entG colG
    rw [hw, hx', hz]
  have eb : rhsG g o G (i / (g.nz : Int)) (i % (g.nz : Int))
      = rhsG g' o G (i / (g.nz : Int)) (i % (g.nz : Int)) := by
    unfold rhsG
    rw [hw, hx']
  refine ⟨?_, ?_, a.2.2.trans b.2.2.symm⟩
  · rw [a.1, b.1, er]
  · rw [a.2.1, b.2.1, eb]

/-- **C78.** The initial guess handed to the linear solver is the field the caller passed. -/
theorem C78_initial_guess (g : Grid) (o : Opts) (G : Flds K) (s : Sys K)
    (hs : Sized g o) (hr : Reach g o.fourth s) :
    ∃ s1, assemble g o G s = .ok s1 ∧ ∀ gx z : Int, 0 ≤ gx → gx < (g.gnx : Int) → 0 ≤ z →
      z < (g.nz : Int) → s1.xs (gx * (g.nz : Int) + z) = G.x0 gx z := by
  obtain ⟨s1, h1, r1⟩ := assembled g o G s hs (reach_ok g _ s hr)
  exact ⟨s1, h1, fun gx z a b c d => (r1 gx z a b c d).2.2⟩

/-- **C78.** A boundary flag which the solver does not implement is refused by every solve. -/
theorem C78_boundary_flags (g : Grid) (o : Opts) (G : Flds K) (ksp : Sys K → Int → K) (s : Sys K)
    (h : ¬ FlagsOk o) : solve g o G ksp s = .error .bndryFlag := by
  have : solveCheck o = .error .bndryFlag := by
    unfold solveCheck
    have e : has o.globalFlags (lnot implFlags) = false := by simp [has, lnot, implFlags, startNew]
    rw [e]
    unfold FlagsOk at h
    cases h1 : hasOther o.innerFlags implBndry <;> cases h2 : hasOther o.outerFlags implBndry
    · exact absurd ⟨h1, h2⟩ h
    all_goals rfl
  unfold solve
  simp only [bind, Except.bind]
  rw [this]

variable [CharZero K]

/-- **C78.** The differences used are exact on polynomials of degree two (second order) and four
(fourth order): derivatives at the point, with grid spacing `h`. -/
theorem C78_stencils (h a b c d e : K) :
    d1 false (fun j => a + b * (j * h) + c * (j * h) ^ 2) = b * h
      ∧ d2 false (fun j => a + b * (j * h) + c * (j * h) ^ 2 + d * (j * h) ^ 3) = 2 * c * h ^ 2
      ∧ d1 true (fun j => a + b * (j * h) + c * (j * h) ^ 2 + d * (j * h) ^ 3 + e * (j * h) ^ 4)
          = b * h
      ∧ d2 true (fun j => a + b * (j * h) + c * (j * h) ^ 2 + d * (j * h) ^ 3 + e * (j * h) ^ 4)
          = 2 * c * h ^ 2 := by
  refine ⟨?_, ?_, ?_, ?_⟩ <;> simp only [d1, d2, Bool.false_eq_true, if_false, if_true] <;>
    push_cast <;> ring

/-- **C78.** The boundary conditions are imposed on the gradient `∂f/∂x / √g_11` and on the value:
for polynomials of degree four exactly at the boundary point (fourth order), and exactly half-way
to the next point for polynomials of degree two (gradient) and one (value) at second order. -/
theorem C78_boundary_stencils (G : Flds K) (o : Opts) (x z : Int) (h a b c d e : K) (hh : h ≠ 0)
    (hdx : G.dx x z = h) :
    let u : K → K := fun t => a + b * t + c * t ^ 2 + d * t ^ 3 + e * t ^ 4
    let f : Int → Int → K := fun x' _ => u (((x' - x : Int) : K) * h)
    (has o.innerFlags acGrad = true → o.fourth = true →
        innerQuantity G o f x z = b / G.sg11 x z)
      ∧ (has o.outerFlags acGrad = true → o.fourth = true →
        outerQuantity G o f x z = b / G.sg11 x z)
      ∧ (has o.innerFlags acGrad = true → o.fourth = false → d = 0 → e = 0 →
        innerQuantity G o f x z = (b + 2 * c * (h / 2)) / G.sg11 x z)
      ∧ (has o.outerFlags acGrad = true → o.fourth = false → d = 0 → e = 0 →
        outerQuantity G o f x z = (b + 2 * c * (-h / 2)) / G.sg11 x z)
      ∧ (has o.innerFlags acGrad = false → o.fourth = true → innerQuantity G o f x z = u 0)
      ∧ (has o.outerFlags acGrad = false → o.fourth = true → outerQuantity G o f x z = u 0)
      ∧ (has o.innerFlags acGrad = false → o.fourth = false → c = 0 → d = 0 → e = 0 →
        innerQuantity G o f x z = u (h / 2))
      ∧ (has o.outerFlags acGrad = false → o.fourth = false → c = 0 → d = 0 → e = 0 →
        outerQuantity G o f x z = u (-h / 2)) := by
  have p0 : ((x - x : Int) : K) = 0 := by simp
  have p1 : ((x + 1 - x : Int) : K) = 1 := by simp
  have p2 : ((x + 2 - x : Int) : K) = 2 := by simp
  have p3 : ((x + 3 - x : Int) : K) = 3 := by simp
  have p4 : ((x + 4 - x : Int) : K) = 4 := by simp
  have m1 : ((x - 1 - x : Int) : K) = -1 := by
    rw [show x - 1 - x = -1 by ring]; simp
  have m2 : ((x - 2 - x : Int) : K) = -2 := by
    rw [show x - 2 - x = -2 by ring]; simp
  have m3 : ((x - 3 - x : Int) : K) = -3 := by
    rw [show x - 3 - x = -3 by ring]; simp
  have m4 : ((x - 4 - x : Int) : K) = -4 := by
    rw [show x - 4 - x = -4 by ring]; simp
  intro u f
  have key : ∀ n s : K, n / (h * s) = n / h / s := fun n s => by rw [div_div]
  refine ⟨?_, ?_, ?_, ?_, ?_, ?_, ?_, ?_⟩
  · intro h1 h2
    simp only [innerQuantity, h1, h2, if_true, f, u, p0, p1, p2, p3, p4, hdx, key]
    congr 1
    field_simp
    ring
  · intro h1 h2
    simp only [outerQuantity, h1, h2, if_true, f, u, p0, m1, m2, m3, m4, hdx, key]
    congr 1
    field_simp
    ring
  · intro h1 h2 h3 h4
    simp only [innerQuantity, h1, h2, if_true, if_false, Bool.false_eq_true, f, u, p0, p1, hdx, key]
    subst h3 h4
    congr 1
    field_simp
    ring
  · intro h1 h2 h3 h4
    simp only [outerQuantity, h1, h2, if_true, if_false, Bool.false_eq_true, f, u, p0, m1, hdx, key]
    subst h3 h4
    congr 1
    field_simp
    ring
  · intro h1 h2
    simp only [innerQuantity, h1, h2, if_true, if_false, Bool.false_eq_true, f, u, p0, zero_mul]
  · intro h1 h2
    simp only [outerQuantity, h1, h2, if_true, if_false, Bool.false_eq_true, f, u, p0, zero_mul]
  · intro h1 h2 h3 h4 h5
    simp only [innerQuantity, h1, h2, if_false, Bool.false_eq_true, f, u, p0, p1]
    subst h3 h4 h5
    ring
  · intro h1 h2 h3 h4 h5
    simp only [outerQuantity, h1, h2, if_false, Bool.false_eq_true, f, u, p0, m1]
    subst h3 h4 h5
    ring

end

/-- **C78.** The constructor accepts exactly the implemented flags: the global flags may only
contain `INVERT_START_NEW`, the boundary flags only `INVERT_AC_GRAD`, `INVERT_SET` and
`INVERT_RHS`, and the mesh must not be periodic in X. -/
theorem C78_constructor (o : Opts) (per : Bool) :
    ctorCheck o per = .ok () ↔
      (∀ k, o.globalFlags.testBit k = true → k = 1)
      ∧ (∀ k, o.innerFlags.testBit k = true → k = 1 ∨ k = 4 ∨ k = 5)
      ∧ (∀ k, o.outerFlags.testBit k = true → k = 1 ∨ k = 4 ∨ k = 5) ∧ per = false := by
  have hb : ∀ a m : Nat, hasOther a m = false ↔ ∀ k, a.testBit k = true → m.testBit k = true := by
    intro a m
    unfold hasOther
    constructor
    · intro h k hk
      have h0 : a ^^^ (a &&& m) = 0 := by simpa using h
      have := congrArg (fun n => Nat.testBit n k) h0
      simp only [Nat.testBit_xor, Nat.testBit_and, hk, Nat.zero_testBit] at this
      cases hm : m.testBit k
      · rw [hm] at this; simp at this
      · rfl
    · intro h
      have : a ^^^ (a &&& m) = 0 := by
        apply Nat.eq_of_testBit_eq
        intro k
        simp only [Nat.testBit_xor, Nat.testBit_and, Nat.zero_testBit]
        cases hk : a.testBit k
        · simp
        · simp [h k hk]
      simp [this]
  have h2 : ∀ k, Nat.testBit implFlags k = true ↔ k = 1 := by
    intro k
    show Nat.testBit (2 ^ 1) k = true ↔ _
    rw [Nat.testBit_two_pow]
    simp [eq_comm]
  have h50 : ∀ k, Nat.testBit implBndry k = true ↔ k = 1 ∨ k = 4 ∨ k = 5 := by
    intro k
    have e : implBndry = 50 := rfl
    rw [e]
    by_cases hk : k < 6
    · have : ∀ j < 6, Nat.testBit 50 j = true ↔ j = 1 ∨ j = 4 ∨ j = 5 := by decide
      exact this k hk
    · have : Nat.testBit 50 k = false := by
        apply Nat.testBit_lt_two_pow
        calc 50 < 2 ^ 6 := by decide
          _ ≤ 2 ^ k := Nat.pow_le_pow_right (by decide) (by omega)
      rw [this]
      simp
      omega
  have e1 := hb o.globalFlags implFlags
  have e2 := hb o.innerFlags implBndry
  have e3 := hb o.outerFlags implBndry
  simp only [h2] at e1
  simp only [h50] at e2 e3
  rw [← e1, ← e2, ← e3]
  unfold ctorCheck
  cases hasOther o.globalFlags implFlags <;> cases hasOther o.innerFlags implBndry <;>
    cases hasOther o.outerFlags implBndry <;> cases per <;> simp

/-- **C78.** The arrays used for preallocation are only written inside their bounds. -/
theorem C78_preallocation (g : Grid) (fo : Bool) (hf : Fits g fo) (p : Nat) (hp : p < g.P) :
    ∀ w ∈ nnzWrites g fo p, 0 ≤ w.1 ∧ w.1 < (g.localN p : Int) := by
  have hN := localN_eq g p hp
  obtain ⟨hP, hm, hrest⟩ := hf
  intro w hw
  unfold nnzWrites at hw
  dsimp only at hw
  cases fo
  · simp only [Bool.false_eq_true, if_false] at hw hrest
    have hR : (2 : Int) ≤ (g.hi p : Int) - g.lo p := by
      rcases lo_cases g p with h | h <;> rcases hi_cases g p with h' | h' <;> omega
    have : 2 * (g.nz : Int) ≤ g.localN p := by
      rw [hN]; exact mul_le_mul_of_nonneg_right hR (by omega)
    simp only [List.mem_append, List.mem_flatMap, List.mem_range, List.mem_cons,
      List.not_mem_nil, or_false] at hw
    rcases hw with ⟨i, hi, e | e⟩ | ⟨i, hi, e | e⟩ <;> subst e <;> dsimp only <;> omega
  · simp only [if_true] at hw hrest
    have hR : (4 : Int) ≤ (g.hi p : Int) - g.lo p := by
      rcases lo_cases g p with h | h <;> rcases hi_cases g p with h' | h' <;> omega
    have : 4 * (g.nz : Int) ≤ g.localN p := by
      rw [hN]; exact mul_le_mul_of_nonneg_right hR (by omega)
    simp only [List.mem_append, List.mem_flatMap, List.mem_range, List.mem_cons,
      List.not_mem_nil, or_false] at hw
    rcases hw with (⟨i, hi, e | e⟩ | ⟨i, hi, e | e⟩) | ⟨i, hi, e | e⟩ <;> subst e <;>
      dsimp only <;> omega

/-! ## Where the code falls short -/

/-- **C78, violated.** `solve` never refuses a global flag (`global_flags & !implemented_flags`
uses the logical not): any global flags set after construction are accepted, although the
constructor refuses, e.g., `INVERT_4TH_ORDER = 8`. -/
theorem C78_global_flags_violated :
    (∀ (o : Opts) (gf : Nat), solveCheck { o with globalFlags := gf } = solveCheck o)
      ∧ ∀ o : Opts, ctorCheck { o with globalFlags := 8 } false = .error .flag := by
  constructor
  · intro o gf
    unfold solveCheck
    have e : ∀ n, has n (lnot implFlags) = false := by
      intro n; simp [has, lnot, implFlags, startNew]
    simp only [e]
  · intro o
    have : hasOther 8 implFlags = true := by decide
    unfold ctorCheck
    simp only [this, if_true]

/-- Fields used in the examples: unit metric, `g13 = 0`. -/
def unitF : Flds ℚ where
  dx _ _ := 1
  dz _ _ := 1
  g11 _ _ := 1
  g33 _ _ := 1
  g13 _ _ := 0
  G1 _ _ := 0
  G3 _ _ := 0
  ist _ _ := 0
  sg11 _ _ := 1
  A _ _ := 1
  C1 _ _ := 1
  C2 x _ := (x : ℚ)
  D _ _ := 1
  Ex _ _ := 0
  Ez _ _ := 0
  b _ _ := 1
  x0 _ _ := 0

/-- Options used in the examples. -/
def exO (fourth issetC : Bool) (inner outer : Nat) : Opts :=
  ⟨fourth, true, true, false, false, issetC, false, 0, inner, outer⟩

/-- The row of a point in the matrix assembled by a new solver, applied to a vector. -/
def rowApplied (g : Grid) (o : Opts) (G : Flds ℚ) (x z : Int) (v : Int → ℚ) : Option ℚ :=
  match assemble g o G (fresh (fun _ => 0) (fun _ => 0)) with
  | .ok s => some (((s.mat (x * (g.nz : Int) + z)).map fun e => e.2 * v e.1).sum)
  | .error _ => none

/-- **C78, violated.** With two points in Z the two neighbours in Z are the same point and the
second `INSERT_VALUES` overwrites the first: the row of an interior point is not the operator.
(Here `f = 1` everywhere, where `∂²f/∂z²` should vanish.) -/
theorem C78_two_z_points_violated :
    ∃ g : Grid, g = ⟨1, 2, 2, 2⟩ ∧
      rowApplied g (exO false false 0 0) unitF 2 0 (fun _ => 1) = some 0
      ∧ operator unitF g.nz (exO false false 0 0) (fieldOf g.nz fun _ => 1) 2 0 = 1 :=
  ⟨_, rfl, by decide +kernel, by decide +kernel⟩

/-- **C78, violated.** With one guard cell in X the `∇⊥C2` term is left out at the first and last
point of every processor, so the equation solved depends on the number of processors: the row of
the point 2 of 4 interior points on one and on two processors. -/
theorem C78_one_guard_cell_violated :
    rowApplied ⟨1, 4, 1, 3⟩ (exO false true 0 0) unitF 2 0 (fun i => (i : ℚ)) = some 12
      ∧ rowApplied ⟨2, 2, 1, 3⟩ (exO false true 0 0) unitF 2 0 (fun i => (i : ℚ)) = some 9
      ∧ rowApplied ⟨1, 4, 1, 3⟩ (exO false true 0 0) unitF 1 0 (fun i => (i : ℚ)) = some 6
      ∧ operator unitF 3 (exO false true 0 0) (fieldOf 3 fun i => (i : ℚ)) 2 0 = 12
      ∧ operator unitF 3 (exO false true 0 0) (fieldOf 3 fun i => (i : ℚ)) 1 0 = 9 := by
  refine ⟨?_, ?_, ?_, ?_, ?_⟩ <;> decide +kernel

/-- **C78, violated.** With one point in X per processor the space preallocated for entries on
other processors (3) is less than needed (6): PETSc refuses the last three, the error code is
ignored, and the row loses its upper neighbour.  (`f` = 1 at the next X index, 0 elsewhere.) -/
theorem C78_one_point_per_processor_violated :
    ∃ g : Grid, g = ⟨3, 1, 1, 3⟩ ∧
      rowApplied g (exO false false 0 0) unitF 2 0
        (fun i => if 9 ≤ i ∧ i < 12 then 1 else 0) = some 0
      ∧ operator unitF g.nz (exO false false 0 0)
          (fieldOf g.nz fun i => if 9 ≤ i ∧ i < 12 then 1 else 0) 2 0 = 1 :=
  ⟨_, rfl, by decide +kernel, by decide +kernel⟩

/-- **C78, violated.** At fourth order with two or three points per processor the one-sided
gradient at the inner boundary loses its farthest points in the same way: on `f = x` it is not 1. -/
theorem C78_fourth_order_boundary_violated :
    rowApplied ⟨2, 3, 2, 5⟩ (exO true false 2 0) unitF 1 0 (fun i => ((i / 5 : Int) : ℚ))
        = some (9 / 4)
      ∧ innerQuantity unitF (exO true false 2 0)
          (fieldOf 5 fun i => ((i / 5 : Int) : ℚ)) 1 0 = 1 := by
  refine ⟨?_, ?_⟩ <;> decide +kernel

/-- **C78, violated.** At fourth order with one point per processor the preallocation loops write
past the end of the arrays on an inner processor. -/
theorem C78_preallocation_violated :
    ∃ w ∈ nnzWrites ⟨3, 1, 2, 5⟩ true 1, ((Grid.localN ⟨3, 1, 2, 5⟩ 1 : Nat) : Int) ≤ w.1 := by
  decide +kernel

/-! ## The hypotheses are met -/

/-- Two processors, two points each; `f = 1` solves `∇²f + f = 1` with zero gradient. -/
example : Sized ⟨2, 2, 1, 3⟩ (exO false false 2 2) ∧ FlagsOk (exO false false 2 2)
    ∧ ∀ s', assemble ⟨2, 2, 1, 3⟩ (exO false false 2 2) unitF (fresh (fun _ => 0) (fun _ => 0))
        = .ok s' → Solved ⟨2, 2, 1, 3⟩ s' (fun _ => 1) := by
  refine ⟨⟨⟨by decide, by decide, by decide⟩, by decide⟩, ⟨by decide, by decide⟩, ?_⟩
  intro s' h i h0 h1
  have hs : i < 18 := by
    have : (Grid.size ⟨2, 2, 1, 3⟩ : Nat) = 18 := by decide
    rw [this] at h1; exact h1
  have key : ∀ i ∈ (List.range 18).map fun (k : Nat) => (k : Int),
      (match assemble ⟨2, 2, 1, 3⟩ (exO false false 2 2) unitF (fresh (fun _ => 0) (fun _ => 0)) with
        | .ok s => decide (((s.mat i).map fun e => e.2 * (fun _ => (1 : ℚ)) e.1).sum = s.bs i)
        | .error _ => false) = true := by decide +kernel
  have := key i (List.mem_map.2 ⟨i.toNat, by rw [List.mem_range]; omega, by omega⟩)
  rw [h] at this
  simpa using this

end Verif.LapPetsc
