import Mathlib.Algebra.Order.Field.Basic
import Verif.Solver.Sundials

/-!
# What a run of a SUNDIALS driver should show

`Reached` and `Solution` describe the trajectory the integrator computed; `Good` says what the monitors may be
told after a prefix of the events.  Nothing here refers to the functions that model the drivers.
-/

namespace Verif.Sundials

variable {K V : Type} [Field K] [LinearOrder K]

/-- `n` successful steps from `t0` reach time `t`. -/
inductive Reached (o : Nat → Option (Inner K V)) (t0 : K) : Nat → K → Prop
  | zero : Reached o t0 0 t0
  | succ {n : Nat} {t : K} {i : Inner K V} : Reached o t0 n t → o n = some i → Reached o t0 (n + 1) (t + i.h)

/-- The computed solution at `t` is `x`: `t` lies in the step after the first `n`, and `x` is the dense output of
that step. -/
def Solution (o : Nat → Option (Inner K V)) (t0 t : K) (x : V) : Prop :=
  ∃ n tn i, Reached o t0 n tn ∧ o n = some i ∧ tn < t ∧ t ≤ tn + i.h ∧ x = i.dense t

/-- Numbers of calls to the output monitors and to the timestep monitors. -/
def outs : List (Event K V) → Nat
  | [] => 0
  | .monitor _ _ _ :: l => outs l + 1
  | .rhs _ _ :: l => outs l
  | .stepMonitor _ _ _ :: l => outs l

def steps : List (Event K V) → Nat
  | [] => 0
  | .stepMonitor _ _ _ :: l => steps l + 1
  | .rhs _ _ :: l => steps l
  | .monitor _ _ _ :: l => steps l

/-- What may follow the events `pre`. -/
def Good (o : Nat → Option (Inner K V)) (t0 dtout : K) (pre : List (Event K V)) : Event K V → Prop
  /- the next output in order, at its time, the user's function having just run there, on the solution there -/
  | .monitor t k x => k = outs pre ∧ t = t0 + (k + 1) * dtout ∧ Solution o t0 t x ∧
      (∃ pre', pre = pre' ++ [.rhs t x]) ∧ 0 ≤ t
  /- the next internal step in order, at its end, with its length -/
  | .stepMonitor t dt x => ∃ tn i, Reached o t0 (steps pre) tn ∧ o (steps pre) = some i ∧
      t = tn + i.h ∧ dt = i.h ∧ x = i.seen
  | .rhs t x => Solution o t0 t x ∨ ∃ n, Reached o t0 n t ∧ t < t0 + (outs pre + 1) * dtout

def AllGood (o : Nat → Option (Inner K V)) (t0 dtout : K) (log : List (Event K V)) : Prop :=
  ∀ pre e post, log = pre ++ e :: post → Good o t0 dtout pre e

end Verif.Sundials
