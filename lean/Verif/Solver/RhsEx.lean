import Verif.Solver.RhsThms
import Mathlib.Tactic.IntervalCases

/-! # C87: what the entry points do not keep, and examples -/
namespace Verif.Rhs

/-- Three fields (the components of one vector evolved in the covariant basis) over the integers; `g_ij = 2 δ_ij`. -/
def exVec : Cfg Int where
  f2 := []
  f3 := [⟨0, false, false⟩, ⟨1, false, false⟩, ⟨2, false, false⟩]
  v2 := []
  v3 := [⟨0, 0, 1, 2, true⟩]
  mms := false
  diffusive := true
  split := false
  bc _ _ g := g
  dbc _ g := g
  gl _ a b := if a = b then 2 else 0
  gu _ _ _ := 0
  source _ _ _ := 0
  solution _ _ _ := 0
  ev i _ := decide (i < 3)

/-- All time derivatives set to `c`; the vector's given in the contravariant basis. -/
def exFill (c : Int) (s : St Int) : St Int :=
  { s with d := fun i _ => if i < 3 then c else s.d i 0, set := fun _ => true, cov := fun _ => false }

/-- A model that gives the time derivative of the vector in the contravariant basis, as a formula with `Grad` or `cross` may. -/
def exModel : Model Int where
  rhs _ _ s := (exFill 1 s, 0)
  conv _ _ s := (exFill 1 s, 1)
  diff _ _ s := (exFill 0 s, 0)

/-- The memory before the first call. -/
def exSt : St Int := { v := fun _ _ => 0, d := fun _ _ => 0, set := fun _ => false, cov := fun _ => true }

/-- The time derivative of field `i` at point 0, if the call succeeds. -/
def at0 (r : Option (St Int × Int)) (i : Nat) : Option Int := r.map fun r => r.1.d i 0

/-- **Finding.**  For an unsplit model with the default `is_nonsplit_model_diffusive`, `run_diffusive` (all that IMEX-BDF2,
ARKODE and split-RK ever see of the model) skips the post-processing: an evolving vector's time derivative stays in the wrong
basis, so the two parts do not add up to `run_rhs`. -/
theorem C87_default_violated :
    at0 (runRhs exVec exModel 0 false exSt) 0 = some 2
      ∧ at0 (runConvective exVec exModel 0 false exSt) 0 = some 0
      ∧ at0 (runDiffusive exVec exModel 0 false exSt) 0 = some 1
      ∧ (runRhs exVec exModel 0 false exSt).map (fun r => r.1.cov 0) = some true
      ∧ (runDiffusive exVec exModel 0 false exSt).map (fun r => r.1.cov 0) = some false := by decide

/-- One field with an evolving boundary, its time derivative made zero at point 1 by its boundary condition. -/
def exBndry (mms : Bool) : Cfg Int where
  f2 := []
  f3 := [⟨0, false, true⟩]
  v2 := []
  v3 := []
  mms := mms
  diffusive := true
  split := false
  bc _ _ g := g
  dbc _ g := fun p => if p = 1 then 0 else g p
  gl _ _ _ := 0
  gu _ _ _ := 0
  source _ _ _ := 5
  solution _ _ _ := 0
  ev i _ := decide (i < 1)

/-- **Finding.**  The same for an evolving boundary: its boundary condition is not applied by `run_diffusive`. -/
theorem C87_boundary_violated :
    (runRhs (exBndry false) exModel 0 false exSt).map (fun r => r.1.d 0 1) = some 0
      ∧ (runDiffusive (exBndry false) exModel 0 false exSt).map (fun r => r.1.d 0 1) = some 1
      ∧ (runConvective (exBndry false) exModel 0 false exSt).map (fun r => r.1.d 0 1) = some 0 := by decide

/-- **Finding.**  With a manufactured solution the source is added after the boundary condition on the time derivative, which
therefore does not hold in the result. -/
theorem C87_source_boundary_violated :
    (runRhs (exBndry true) exModel 0 false exSt).map (fun r => r.1.d 0 1) = some 5
      ∧ (exBndry true).dbc 0 (fun _ => 5) 1 = 0 := by decide

/-- A model that never sets its time derivative. -/
def exUnset : Model Int where
  rhs _ _ s := (s, 0)
  conv _ _ s := (s, 0)
  diff _ _ s := (s, 0)

/-- **Finding.**  A time derivative that was never set is an error in `run_rhs` but not in `run_diffusive`. -/
theorem C87_unset_violated :
    (runRhs (exBndry false) exUnset 0 false exSt).isNone = true
      ∧ (runDiffusive (exBndry false) exUnset 0 false exSt).isSome = true := by decide

/-- **Finding.**  A split model whose convective function reports failure (status 1) passes the check of the first call,
because the status is overwritten by that of the diffusive function; unsplit, the same status stops the run. -/
theorem C87_status_violated :
    (firstCall { exVec with split := true } exModel 0 exSt).isSome = true
      ∧ (runConvective { exVec with split := true } exModel 0 false exSt).map Prod.snd = some 1
      ∧ (firstCall exVec { exModel with rhs := exModel.conv } 0 exSt).isNone = true := by decide

/-- **Finding.**  With a manufactured solution the error of a two-dimensional variable is never computed. -/
theorem C87_error2_violated :
    mmsError { exBndry true with f2 := [⟨7, false, false⟩], solution := fun _ _ _ => 3 } 0 exSt (fun _ _ => 0) 7 0 = 0
      ∧ exSt.v 7 0 - 3 = -3 := by decide

/-- **Finding.**  The total counter does not count diffusive evaluations alone, so it is not the number of calls of the model:
after one convective and two diffusive evaluations it is 1. -/
theorem C87_total_violated :
    ([Call.conv, .diff, .diff].foldl count ⟨0, 0, 0⟩).n = 1 := by decide

/-! ## Examples -/

example : Ok exVec := by
  refine ⟨by decide, ?_⟩
  intro i p h
  simp only [exVec, decide_eq_true_eq] at h
  interval_cases i <;> decide

theorem exModel_determined (C : Cfg Int) (h2 : C.f2 = []) (h3 : C.v2 = []) (hv : C.v3 = [])
    (hb : ∀ f ∈ C.f3, f.evolve = false) (hev : ∀ i p, C.ev i p = true → i < 3) (t : Int) (lin : Bool) :
    Determined C t (exModel.conv t lin) ∧ Determined C t (exModel.diff t lin) := by
  have key : ∀ (g : St Int → St Int × Int) (c n : Int), (∀ x, g x = (exFill c x, n)) → Determined C t g := by
    intro g c n hg s s'
    simp only [hg]
    have hp : ∀ x : St Int, post C (exFill c x) = some (exFill c x) := by
      intro x
      rw [post_plain C _ (by simp [Cfg.vecs, h3, hv]) (by
        intro f hf
        simp only [Cfg.vars, h2, List.nil_append] at hf
        simp [hb f hf])]
      rw [if_neg]
      simp [exFill]
    intro _
    rw [hp, hp]
    refine ⟨?_, trivial⟩
    intro i p hi
    simp [exFill, hev i p hi]
  exact ⟨key _ 1 1 fun _ => rfl, key _ 0 0 fun _ => rfl⟩

example : ∃ a b r, runConvective { exBndry true with split := true, f3 := [⟨0, false, false⟩] } exModel 0 false exSt = some a
    ∧ runDiffusive { exBndry true with split := true, f3 := [⟨0, false, false⟩] } exModel 0 false exSt = some b
    ∧ runRhs { exBndry true with split := true, f3 := [⟨0, false, false⟩] } exModel 0 false exSt = some r
    ∧ ∀ p, r.1.d 0 p = a.1.d 0 p + b.1.d 0 p := by
  let C : Cfg Int := { exBndry true with split := true, f3 := [⟨0, false, false⟩] }
  have hok : Ok C := by
    refine ⟨by decide, ?_⟩
    intro i p h
    have : i < 1 := by simpa [C, exBndry] using h
    interval_cases i; decide
  have hD := exModel_determined C rfl rfl rfl (by simp [C]) (by
    intro i p h
    have : i < 1 := by simpa [C, exBndry] using h
    omega) 0 false
  have := C87_parts_sum C exModel 0 false hok (fun _ => hD.1) (fun _ => hD.2) (Or.inl rfl) exSt exSt (fun _ _ _ => rfl)
  have ha : (runConvective C exModel 0 false exSt).isSome = true := by decide
  have hb : (runDiffusive C exModel 0 false exSt).isSome = true := by decide
  obtain ⟨a, ea⟩ := Option.isSome_iff_exists.mp ha
  obtain ⟨b, eb⟩ := Option.isSome_iff_exists.mp hb
  rw [ea, eb] at this
  obtain ⟨r, hr, hs⟩ := this
  refine ⟨a, b, r, ea, eb, hr, fun p => hs 0 p ?_⟩
  simp [C, exBndry]

example : (exVec.vecs.map Vec.k).Nodup := by decide

example : (runRhs exVec exModel 0 false exSt).isSome = true ∧ exVec.vecs ≠ [] := by decide

end Verif.Rhs
