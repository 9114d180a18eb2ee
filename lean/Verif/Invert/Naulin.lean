import Verif.Common
import Mathlib.Analysis.SpecialFunctions.Sqrt
import Mathlib.Algebra.BigOperators.Group.Finset.Basic

/-!
# Model of `LaplaceNaulin` (`src/invert/laplace/impls/naulin/naulin_laplace.cxx`)

All processors together.  The FFT solver it calls and the exchange of guard cells after it, and the derivative in Z,
are parameters; what is assumed of the former is stated in the theorems.
-/

namespace Verif.Naulin

/-- A point: processor, X, Y, Z. -/
structure Pt where
  q : Nat
  x : Int
  y : Int
  z : Nat
deriving DecidableEq

abbrev Fld := Pt → ℝ

/-- The meshes and metric of all processors, the coefficients given by the user and the options. -/
structure Setup where
  P : Nat
  nz : Nat
  xstart : Nat → Int
  xend : Nat → Int
  ystart : Nat → Int
  yend : Nat → Int
  localNx : Nat → Int
  firstX : Nat → Bool
  lastX : Nat → Bool
  dx : Fld
  g11 : Fld
  g33 : Fld
  g13 : Fld
  A : Fld
  C1 : Fld
  C2 : Fld
  D : Fld
  innerSet : Bool
  outerSet : Bool
  rtol : ℝ
  atol : ℝ
  maxits : Nat
  initialUnderrelax : ℝ
  /-- The `DDZ(.., "FFT")` of a row (C53). -/
  dz : (Nat → ℝ) → Nat → ℝ
  /-- What the memory of the results of `DDX` and `DDZ` holds in the cells they do not set. -/
  junk : Nat → Fld

/-- `RGN_NOBNDRY`. -/
def Setup.Inside (s : Setup) (p : Pt) : Prop :=
  p.q < s.P ∧ s.xstart p.q ≤ p.x ∧ p.x ≤ s.xend p.q ∧ s.ystart p.q ≤ p.y ∧ p.y ≤ s.yend p.q ∧ p.z < s.nz

instance (s : Setup) (p : Pt) : Decidable (s.Inside p) := by unfold Setup.Inside; infer_instance

/-- `DDX(f, location, "C2")`: a central difference in `RGN_NOBNDRY`. -/
noncomputable def Setup.ddx (s : Setup) (n : Nat) (f : Fld) : Fld := fun p =>
  if s.Inside p then 0.5 * (f { p with x := p.x + 1 } - f { p with x := p.x - 1 }) / s.dx p else s.junk n p

/-- `DDZ(f, location, "FFT")`, in `RGN_NOBNDRY`. -/
noncomputable def Setup.ddz (s : Setup) (n : Nat) (f : Fld) : Fld := fun p =>
  if s.Inside p then s.dz (fun z => f { p with z := z }) p.z else s.junk n p

/-- `DC`, `src/field/field3d.cxx` L769-788. -/
noncomputable def Setup.DC (s : Setup) (f : Fld) : Fld := fun p => (∑ k ∈ Finset.range s.nz, f { p with z := k }) / s.nz

/-- L202. -/
noncomputable def Setup.rhsOverD (s : Setup) (rhs : Fld) : Fld := fun p => rhs p / s.D p
/-- L204. -/
noncomputable def Setup.C1TimesD (s : Setup) : Fld := fun p => s.C1 p * s.D p
/-- L207. -/
noncomputable def Setup.coefX (s : Setup) : Fld := fun p => s.ddx 0 s.C2 p / s.C1TimesD p
/-- L213. -/
noncomputable def Setup.coefZ (s : Setup) : Fld := fun p => s.ddz 1 s.C2 p / s.C1TimesD p
/-- L215. -/
noncomputable def Setup.AOverD (s : Setup) : Fld := fun p => s.A p / s.D p
/-- L228. -/
noncomputable def Setup.coefXAC (s : Setup) : Fld := fun p =>
  s.coefX p - s.ddx 2 (s.DC s.C2) p / s.DC s.C1TimesD p
/-- L233. -/
noncomputable def Setup.AOverDAC (s : Setup) : Fld := fun p => s.AOverD p - s.DC s.AOverD p

/-- The coefficients handed to the FFT solver, L235-237. -/
structure Inner where
  A : Fld
  C1 : Fld
  C2 : Fld

noncomputable def Setup.inner (s : Setup) : Inner := ⟨s.DC s.AOverD, s.DC s.C1TimesD, s.DC s.C2⟩

/-- `calc_b_guess`, L249-257. -/
noncomputable def Setup.bGuess (s : Setup) (rhs x : Fld) : Fld := fun p =>
  let ddx_x := s.ddx 3 x p
  let ddz_x := s.ddz 4 x p
  s.rhsOverD rhs p
    - (s.g11 p * s.coefXAC p * ddx_x + s.g33 p * s.coefZ p * ddz_x
        + s.g13 p * (s.coefXAC p * ddz_x + s.coefZ p * ddx_x))
    - s.AOverDAC p * x p

/-- `copy_x_boundaries`, L374-396. -/
def Setup.copyX (s : Setup) (x x0 : Fld) : Fld := fun p =>
  if p.q < s.P ∧ s.ystart p.q ≤ p.y ∧ p.y ≤ s.yend p.q ∧ p.z < s.nz ∧
      ((s.firstX p.q = true ∧ 0 ≤ p.x ∧ p.x ≤ s.xstart p.q - 1)
        ∨ (s.lastX p.q = true ∧ s.xend p.q + 1 ≤ p.x ∧ p.x < s.localNx p.q)) then x0 p
  else x p

/-- `delp2solver->solve` followed by the exchange of guard cells. -/
abbrev Solver := Inner → Fld → Fld → Out Fld

/-- `calc_b_x_pair`, L259-276. -/
noncomputable def Setup.pair (s : Setup) (sol : Solver) (x0 b guess : Fld) : Out (Fld × Fld) := do
  let g := if s.innerSet || s.outerSet then s.copyX guess x0 else guess
  let x ← sol s.inner b g
  pure (b, x)

/-- The points of `RGN_NOBNDRY` of all processors. -/
noncomputable def Setup.points (s : Setup) : Finset Pt :=
  (Finset.range s.P).biUnion fun q =>
    ((Finset.range (s.xend q - s.xstart q + 1).toNat) ×ˢ (Finset.range (s.yend q - s.ystart q + 1).toNat)
      ×ˢ (Finset.range s.nz)).image fun t => ⟨q, s.xstart q + t.1, s.ystart q + t.2.1, t.2.2⟩

/-- `max(abs(.., "RGN_NOBNDRY"), true, "RGN_NOBNDRY")`, L286 and L313: the largest absolute value over all
processors. -/
noncomputable def Setup.maxAbs (s : Setup) (f : Fld) : ℝ :=
  if h : s.points.Nonempty then s.points.sup' h fun p => |f p| else 0

/-- `sqrt(mean(SQ(..), true, "RGN_NOBNDRY"))`, L240-242. -/
noncomputable def Setup.rms (s : Setup) (f : Fld) : ℝ := Real.sqrt ((∑ p ∈ s.points, f p ^ 2) / s.points.card)

/-- The convergence test, L289 and L325.  With a zero right-hand side the relative error is infinite or not a number,
and its comparison false. -/
def Setup.Conv (s : Setup) (rms err : ℝ) : Prop := (rms ≠ 0 ∧ err / rms < s.rtol) ∨ err < s.atol

noncomputable instance (s : Setup) (r e : ℝ) : Decidable (s.Conv r e) := Classical.dec _

/-- A pair mixed from a new and an old right-hand side, L306-309 and L331-333. -/
noncomputable def mix (u : ℝ) (bnew bold : Fld) : Fld := fun p => u * bnew p + (1 - u) * bold p

/-- The state of the loops. -/
structure St where
  cur : Fld × Fld
  old : Fld × Fld
  last : ℝ
  count : Nat
  under : ℝ
  underCount : Nat

noncomputable def Setup.errOf (s : Setup) (rhs : Fld) (c : Fld × Fld) : ℝ :=
  s.maxAbs fun p => c.1 p - s.bGuess rhs c.2 p

noncomputable instance (a b : ℝ) : Decidable (a > b) := Classical.dec _

/-- The loop of L299-322; `fuel` bounds the number of turns, and is shown to be enough. -/
noncomputable def Setup.relax (s : Setup) (sol : Solver) (rhs x0 : Fld) : Nat → St → Out St
  | 0, _ => .error (.ub "fuel")
  | fuel + 1, st =>
    if s.errOf rhs st.cur > st.last then do
      let u := st.under * 0.9
      let c ← s.pair sol x0 (mix u (s.bGuess rhs st.old.2) st.old.1) st.old.2
      let st' : St := { st with under := u, underCount := st.underCount + 1, cur := c, count := st.count + 1 }
      if st.count + 1 > s.maxits then .error (.exc "Not converged within maxits") else s.relax sol rhs x0 fuel st'
    else pure st

/-- The loop of L282-334. -/
noncomputable def Setup.loop (s : Setup) (sol : Solver) (rhs x0 : Fld) : Nat → St → Out St
  | 0, _ => .error (.ub "fuel")
  | fuel + 1, st =>
    let rms := s.rms (s.rhsOverD rhs)
    if s.Conv rms (s.errOf rhs st.cur) then pure st
    else
      let st1 := { st with count := st.count + 1 }
      if st1.count > s.maxits then .error (.exc "Not converged within maxits")
      else do
        let st2 ← s.relax sol rhs x0 (s.maxits + 1) st1
        if s.Conv rms (s.errOf rhs st2.cur) then pure st2
        else do
          let c ← s.pair sol x0 (mix st2.under (s.bGuess rhs st2.cur.2) st2.cur.1) st2.cur.2
          s.loop sol rhs x0 fuel { st2 with last := s.errOf rhs st2.cur, old := st2.cur, cur := c }

/-- `LaplaceNaulin::solve`, L185-372. -/
noncomputable def Setup.solve (s : Setup) (sol : Solver) (rhs x0 : Fld) : Out (Fld × St) := do
  let c ← s.pair sol x0 (s.bGuess rhs x0) x0
  let st ← s.loop sol rhs x0 (s.maxits + 2) ⟨c, c, 1e20, 0, s.initialUnderrelax, 0⟩
  pure (st.cur.2, st)

end Verif.Naulin
