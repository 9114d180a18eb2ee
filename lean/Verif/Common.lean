/-!
# Outcomes shared by all models

C++ functions either return, throw a `BoutException`, or run into undefined behaviour
(out-of-bounds access, division by zero, unbounded recursion ...).  The model keeps these three apart.
-/

namespace Verif

/-- Why a modelled C++ call did not return normally. -/
inductive Err where
  /-- a C++ exception (`BoutException` and friends); the string only identifies the throw site -/
  | exc (msg : String)
  /-- undefined behaviour: out-of-bounds access, division by zero, unbounded recursion, ... -/
  | ub (msg : String)
  deriving Repr, DecidableEq

/-- Result of a modelled C++ call. -/
abbrev Out (α : Type) := Except Err α

/-- The call returned normally. -/
def Out.isOk {α} (o : Out α) : Bool :=
  match o with
  | .ok _ => true
  | .error _ => false

end Verif
