import Verif.Options.Props

/-! # C64: user variables in the restart file -/

namespace Verif.Restart

open Verif.Opt

/-- physicsmodel.cxx:213-221 `restartVars` (and 203-211 `outputVars`) for a variable registered with `restart.add(x, "x")` or `addOnce`: `options[name] = *value`,
which is `assign` without a source, once per output, on a section without time dimension. -/
def saveOnce (env : Env) (t : Tree) (v : Val) : Tree × Bool :=
  let r := step env t (.assign ["x".toList] v [])
  (r.1, r.2.isOk)

/-- The outputs of a run: the value of the variable at each of them; the run ends at the first failure. -/
def saveAll (env : Env) : Tree → List Val → Bool
  | _, [] => true
  | t, v :: vs => let r := saveOnce env t v; r.2 && saveAll env r.1 vs

/-- **Finding.** A scalar that is to be kept over a restart - say the integral term of a controller - registered with `restart.add(x, "x")`: as soon as its value has
changed between two outputs the run is aborted ("Setting a value from same source"). Fields are not affected. -/
theorem C64_restart_scalar_violated (env : Env) : saveAll env emptyTree [.real 1, .real 1] = true ∧ saveAll env emptyTree [.real 1, .real 2] = false := by
  constructor <;> rfl

end Verif.Restart
