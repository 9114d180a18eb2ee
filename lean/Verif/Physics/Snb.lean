import Mathlib.Analysis.SpecialFunctions.Integrals.Basic
import Mathlib.Analysis.SpecialFunctions.Pow.Real
import Mathlib.MeasureTheory.Integral.IntervalIntegral.FundThmCalculus
import Mathlib.Tactic.LinearCombination
import Mathlib.Tactic.FieldSimp

/-!
# C92: the nonlocal electron heat flux

Model of `HeatFluxSNB::divHeatFlux` (src/physics/snb.cxx:11-76) and of the group weights (include/bout/snb.hxx:68-80).

Fields are functions on the points of a mesh.  The parallel divergence of a flux, `FV::Div_par_K_Grad_par`, and the parallel
inversion `InvertParDiv` (its operator and its solution) are parameters; arithmetic is exact.  `Z` is a parameter (the code has
no option for it and uses 1).  Left out: options, the choice of the inversion.
-/
namespace Verif.Snb

variable {P : Type}

/-- Physical constants and the options. -/
structure Cfg where
  qe : ℝ
  me : ℝ
  e0 : ℝ
  Z : ℝ
  r : ℝ
  betaMax : ℝ
  ngroups : Nat

/-- The operators used. -/
structure World (P : Type) where
  /-- `FV::Div_par_K_Grad_par(K, f)` -/
  divKGrad : (P → ℝ) → (P → ℝ) → P → ℝ
  /-- `invertpardiv->solve(b)` with coefficients A and B -/
  solve : (P → ℝ) → (P → ℝ) → (P → ℝ) → P → ℝ

/-- snb.hxx:71-73 `int_beta4_exp`. -/
noncomputable def intBeta4Exp (b : ℝ) : ℝ := -Real.exp (-b) * (24 + b * (24 + b * (12 + b * (4 + b))))

/-- snb.hxx:76-78 `groupWeight`. -/
noncomputable def groupWeight (lo hi : ℝ) : ℝ := 1 / 24 * (intBeta4Exp hi - intBeta4Exp lo)

/-- snb.cxx:14 -/
noncomputable def thermalSpeed (C : Cfg) (te : ℝ) : ℝ := Real.sqrt (2 * C.qe * te / C.me)

/-- snb.cxx:16 -/
noncomputable def yConst (C : Cfg) : ℝ := (C.qe ^ 2 / (C.e0 * C.me)) ^ 2 / (4 * Real.pi)

/-- snb.cxx:17 -/
noncomputable def coulombLog (te ne : ℝ) : ℝ := 6.6 - 0.5 * Real.log (ne * 1e-20) + 1.5 * Real.log te

/-- snb.cxx:20 -/
noncomputable def lambdaEe (C : Cfg) (te ne : ℝ) : ℝ := thermalSpeed C te ^ 4 / (yConst C * ne * coulombLog te ne)

/-- snb.cxx:21 -/
noncomputable def lambdaEi (C : Cfg) (te ne : ℝ) : ℝ := lambdaEe C te ne / C.Z

/-- snb.cxx:24 -/
noncomputable def tauEi (C : Cfg) (te ne : ℝ) : ℝ := lambdaEi C te ne / thermalSpeed C te

/-- snb.cxx:28-30: the Spitzer-Harm conductivity. -/
noncomputable def conductivity (C : Cfg) (te ne : ℝ) : ℝ :=
  ne * C.qe * te / C.me * (0.25 * 3 * Real.sqrt Real.pi * tauEi C te ne) * 13.58 * (C.Z + 0.24) / (C.Z + 4.2)

/-- snb.cxx:28-31 `Div_Q_SH`. -/
noncomputable def divSH (W : World P) (C : Cfg) (te ne : P → ℝ) : P → ℝ :=
  fun p => -W.divKGrad (fun q => conductivity C (te q) (ne q)) te p

/-- snb.cxx:37 -/
noncomputable def lambdaEePrime (C : Cfg) (te ne : ℝ) : ℝ := lambdaEe C te ne / C.r

/-- snb.cxx:38 -/
noncomputable def lambdaEiPrime (C : Cfg) (te ne : ℝ) : ℝ := lambdaEi C te ne * ((C.Z + 0.25) / (C.Z + 4.2))

/-- snb.cxx:49-72: one energy group; the state is the last `beta` and the divergence so far. -/
noncomputable def group (W : World P) (lee lei d : P → ℝ) (dbeta : ℝ) (s : ℝ × (P → ℝ)) (_ : Nat) : ℝ × (P → ℝ) :=
  let beta := s.1 + dbeta
  let weight := groupWeight s.1 beta
  let gee : P → ℝ := fun p => beta ^ 2 * lee p
  let gei : P → ℝ := fun p => beta ^ 2 * lei p
  let h := W.solve (fun p => 1 / gee p) (fun p => -1 / 3 * gei p) (fun p => -weight * d p)
  (beta, fun p => s.2 p - (weight * d p + h p / gee p))

/-- snb.cxx:40-75: the loop over the groups. -/
noncomputable def corrected (W : World P) (C : Cfg) (lee lei d : P → ℝ) : P → ℝ :=
  ((List.range C.ngroups).foldl (group W lee lei d (C.betaMax / C.ngroups)) (0, d)).2

/-- snb.cxx:11-76 `divHeatFlux`: the result and the optional output. -/
noncomputable def divHeatFlux (W : World P) (C : Cfg) (te ne : P → ℝ) : (P → ℝ) × (P → ℝ) :=
  let d := divSH W C te ne
  (corrected W C (fun p => lambdaEePrime C (te p) (ne p)) (fun p => lambdaEiPrime C (te p) (ne p)) d, d)

end Verif.Snb
