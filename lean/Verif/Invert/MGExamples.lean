import Mathlib.Algebra.BigOperators.Fin
import Mathlib.Tactic.NormNum
import Mathlib.Tactic.IntervalCases
import Verif.Invert.MGFix

/-! # C84: the hypotheses are met -/

namespace Verif.MG

open Finset Spec

/-- A solver with gradient conditions of zero, for the Laplacian minus the field itself. -/
def exCfg (np nx nz levels : Nat) : Cfg ℚ where
  np := np
  nx := nx
  nz := nz
  levels := levels
  plag := 1
  par := ⟨0, 4 / 5, 1 / 100, 1 / 1000, 100000, fun y => if y < 0 then 0 else y⟩
  inn := ⟨true, true⟩
  out := ⟨true, true⟩
  startNew := false
  nonuniform := false
  coef := ⟨fun _ _ => -1, fun _ _ => 1, fun _ _ => 1, fun _ _ => 1, fun _ => 1, fun _ => 1,
    fun _ => 1, fun _ => 1, fun _ => 0, fun _ => 0, fun _ => 0, fun _ => 0, fun _ => 1⟩
  arn := ⟨fun _ => some 1, fun _ _ => none, fun vs _ => vs.head?.map fun v => [1 / v 0 1 1]⟩
  arnLow := ⟨fun _ => some 1, fun _ _ => none, fun vs _ => vs.head?.map fun v => [1 / v 0 1 1]⟩

/-- Did the solve return a field, and what is it in the cells and guards? -/
def shown (n nz : Nat) (r : Out (Nat → Nat → ℚ)) : Option (List (List ℚ)) :=
  match r with
  | .ok f => some ((List.range (n + 2)).map fun i => (List.range nz).map fun z => f i z)
  | .error _ => none

theorem exUsable (np nx nz levels : Nat) (h1 : 0 < np) (h2 : 0 < nx) (h3 : 0 < nz) :
    Usable (exCfg np nx nz levels) :=
  ⟨h1, h2, h3, fun y => by show (0 : ℚ) ≤ if y < 0 then 0 else y; split_ifs with h <;> linarith,
    by norm_num [exCfg], by norm_num [exCfg], by norm_num [exCfg]⟩

/-- `C84_solution_partial` applies: two processors with 1 × 2 cells; the run returns the constant
field 1. -/
theorem exRun : shown 2 2 (solve (exCfg 2 1 2 1) (fun _ _ => -1) fun _ _ => 0)
    = some [[1, 1], [1, 1], [1, 1], [1, 1]] := by decide +kernel

example : ∃ f, solve (exCfg 2 1 2 1) (fun _ _ => -1) (fun _ _ => 0) = .ok f
    ∧ BCs (exCfg 2 1 2 1) (fun _ _ => 0) f
    ∧ Spec.err (exCfg 2 1 2 1) (fun _ _ => -1) f
      ≤ 1 / 100 * Spec.err (exCfg 2 1 2 1) (fun _ _ => -1) (fun _ _ => 0) + 1 / 1000 := by
  have h := exRun
  unfold shown at h
  split at h
  · rename_i f hf
    exact ⟨f, hf, C84_solution_partial (exUsable 2 1 2 1 (by omega) (by omega) (by omega))
      (Or.inl rfl) rfl (fun _ => rfl) _ _ f hf (fun _ _ => 0) (fun _ _ _ _ _ => rfl)
      (fun z _ => by
        constructor
        · unfold InnerBC
          simp [exCfg]
        · unfold OuterBC
          simp [exCfg])⟩
  · cases h

/-- Two processors with 2 × 4 cells each: two levels per processor and one more on one processor. -/
theorem exLevels : (exCfg 2 2 4 3).aclevel = 2 ∧ (exCfg 2 2 4 3).mglevel = 3
    ∧ (exCfg 2 2 4 3).hier.top = 1 ∧ (exCfg 2 2 4 3).serial.top = 1 := by decide +kernel

theorem fixed_const {K : Type} (d : Dim) (a : K) : Fixed d (fun _ _ _ => a) := by
  unfold Fixed comm commZ
  funext p i k
  simp

/-- `C84_cycle` applies: the constant 1 solves the system with right hand side `-1`. -/
example : ∃ y, cycleMG (exCfg 2 2 4 3).hier (exCfg 2 2 4 3).low (exCfg 2 2 4 3).hier.top
      (fun _ _ _ => 1) (fun _ _ _ => -1) = .ok y ∧ Agree (exCfg 2 2 4 3).dim y (fun _ _ _ => 1) := by
  refine C84_cycle (by decide) (by decide) (by decide) (by decide +kernel) (by norm_num [exCfg])
    (by norm_num [exCfg]) (by rw [exLevels.2.2.1]) ?_ ?_ _ _ (fixed_const _ _) ?_
  · intro l h1 h2
    rw [exLevels.2.2.1] at h2
    obtain rfl : l = 1 := by omega
    decide +kernel
  · intro l h1 h2
    rw [exLevels.2.2.2] at h2
    obtain rfl : l = 1 := by omega
    decide +kernel
  · have : ∀ p < 2, ∀ i < 3, ∀ k < 5, 1 ≤ i → 1 ≤ k →
        row (fineMat (exCfg 2 2 4 3)) (fun _ _ _ => 1) p i k = -1 := by decide +kernel
    intro p i k hp i1 i2 k1 k2
    exact this p hp i (by show i < 2 + 1; exact Nat.lt_succ_of_le i2) k (Nat.lt_succ_of_le k2) i1 k1

/-- `C84_galerkin` applies, here to a vector that varies. -/
example := C84_galerkin (c := exCfg 2 2 4 3) (by decide) (by decide) 0
  (by rw [exLevels.2.2.1]; decide) (comm _ fun p i k => (p + 3 * i + 5 * k * k : ℚ))
  (comm_idem _ (by decide +kernel) (by decide +kernel) _) 1 1 2 (by decide) (by decide)
  (by decide +kernel) (by decide) (by decide +kernel)

/-- `C84_serial_violated` applies: two processors with 1 × 2 cells and two levels. -/
example : solve (exCfg 2 1 2 2) (fun _ _ => -1) (fun _ _ => 0)
    = .error (.ub "uninitialised matrix") :=
  C84_serial_violated (by decide +kernel) (by decide +kernel) _ _ (by decide +kernel)

/-- `C84_outer_set_violated` applies: an outer gradient of 3 is asked for. -/
def exOuter : Cfg ℚ := { exCfg 2 1 2 1 with inn := ⟨true, false⟩ }

theorem exOuterRun : shown 2 2 (solve exOuter (fun _ _ => -1) fun _ _ => 3)
    = some [[1, 1], [1, 1], [1, 1], [1, 1]] := by decide +kernel

example : ∃ f, solve exOuter (fun _ _ => -1) (fun _ _ => 3) = .ok f
    ∧ ¬ OuterBC exOuter.out exOuter.par.sqrt exOuter.coef 2 (fun _ _ => 3) f 0 := by
  have h := exOuterRun
  unfold shown at h
  split at h
  · rename_i f hf
    exact ⟨f, hf, (C84_outer_set_violated (c := exOuter) (by decide) (by decide) rfl rfl _ _ f hf 0).2
      rfl (by decide +kernel)⟩
  · cases h

/-- `C84_nonuniform_violated` applies, and the term is not zero. -/
def exNon : Cfg ℚ :=
  { exCfg 1 2 2 1 with
    inn := ⟨true, false⟩, out := ⟨true, false⟩, nonuniform := true,
    coef := { (exCfg 1 2 2 1).coef with d1dx := fun _ => 1, g11 := fun _ => 3 } }

def exNonX : Vec ℚ := comm ⟨1, 2, 2⟩ fun _ i _ => i

example :
    let bin : Nat → Nat → ℚ := fun gi z => row (fineMat exNon) exNonX 0 gi (z + 1)
    op exNon.coef 2 true (result exNon (fun _ _ => 0) exNonX) 1 0 = bin 1 0 + 1 := by
  intro bin
  have h := C84_nonuniform_violated (c := exNon) (x := exNonX) rfl (by decide) (by decide) bin
    (fun _ _ => 0) (comm_idem _ (by decide) (by decide) _) (by
      have : ∀ p < 1, ∀ i < 3, ∀ k < 3, 1 ≤ i → 1 ≤ k →
        row (fineMat exNon) exNonX p i k = fineRhs exNon bin (fun _ _ => 0) p i k := by decide +kernel
      intro p i k hp i1 i2 k1 k2
      exact this p hp i (Nat.lt_succ_of_le i2) k (Nat.lt_succ_of_le k2) i1 k1)
    0 1 1 (by decide) (by decide) (by decide) (by decide) (by decide)
  simp only at h
  refine h.trans ?_
  congr 1
  decide +kernel

end Verif.MG
