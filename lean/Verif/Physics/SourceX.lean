import Mathlib.Analysis.SpecialFunctions.Exp
import Mathlib.Analysis.SpecialFunctions.Trigonometric.DerivHyp
import Mathlib.Tactic.Linarith
import Mathlib.Tactic.FieldSimp
import Mathlib.Tactic.Positivity
import Mathlib.Tactic.NormNum
import Mathlib.Analysis.Complex.ExponentialBounds

/-!
# C95: radial sources and sinks

Model of src/physics/sourcex.cxx.  Numbers are reals with overflow: results larger than the largest number `M` become infinite,
and operations on infinities follow IEEE 754.  Left out: rounding, underflow, signed zeros.  `communicate` is a parameter: where
the value of each point comes from.
-/
namespace Verif.SourceX

/-- Floating point numbers. -/
inductive F where
  | num (x : ℝ)
  | pinf
  | ninf
  | nan

open Classical in
/-- Overflow. -/
noncomputable def rnd (M x : ℝ) : F := if M < x then .pinf else if x < -M then .ninf else .num x

/-- `exp` -/
noncomputable def expF (M : ℝ) : F → F
  | .num x => rnd M (Real.exp x)
  | .pinf => .pinf
  | .ninf => .num 0
  | .nan => .nan

/-- Negation. -/
noncomputable def neg : F → F
  | .num x => .num (-x)
  | .pinf => .ninf
  | .ninf => .pinf
  | .nan => .nan

/-- Addition. -/
noncomputable def add (M : ℝ) : F → F → F
  | .num x, .num y => rnd M (x + y)
  | .nan, _ => .nan
  | _, .nan => .nan
  | .pinf, .ninf => .nan
  | .ninf, .pinf => .nan
  | .pinf, _ => .pinf
  | _, .pinf => .pinf
  | .ninf, _ => .ninf
  | _, .ninf => .ninf

/-- Subtraction. -/
noncomputable def sub (M : ℝ) (a b : F) : F := add M a (neg b)

open Classical in
/-- Infinity times a number. -/
noncomputable def infMul (x : ℝ) : F := if x = 0 then .nan else if 0 < x then .pinf else .ninf

/-- Multiplication. -/
noncomputable def mul (M : ℝ) : F → F → F
  | .num x, .num y => rnd M (x * y)
  | .nan, _ => .nan
  | _, .nan => .nan
  | .pinf, .num y => infMul y
  | .num x, .pinf => infMul x
  | .ninf, .num y => infMul (-y)
  | .num x, .ninf => infMul (-x)
  | .pinf, .pinf => .pinf
  | .ninf, .ninf => .pinf
  | .pinf, .ninf => .ninf
  | .ninf, .pinf => .ninf

open Classical in
/-- Division. -/
noncomputable def div (M : ℝ) : F → F → F
  | .num x, .num y => if y = 0 then infMul x else rnd M (x / y)
  | .nan, _ => .nan
  | _, .nan => .nan
  | .num _, _ => .num 0
  | .pinf, .num y => if 0 ≤ y then .pinf else .ninf
  | .ninf, .num y => if 0 ≤ y then .ninf else .pinf
  | _, _ => .nan

/-- sourcex.cxx:15-18 `TanH`. -/
noncomputable def tanH (M : ℝ) (a : F) : F :=
  let temp := expF M a
  div M (sub M temp (div M (.num 1) temp)) (add M temp (div M (.num 1) temp))

variable {P : Type}

/-- The mesh: `GlobalX` of every point, and where `communicate` takes its value from. -/
structure Grid (P : Type) where
  globalX : P → ℝ
  src : P → P

/-- `localmesh->communicate(result)` -/
def communicate (G : Grid P) (u : P → F) : P → F := fun p => u (G.src p)

/-- sourcex.cxx:21-38 `source_tanhx`. -/
noncomputable def sourceTanhx (M : ℝ) (G : Grid P) (swidth slength : ℝ) : P → F :=
  communicate G fun i =>
    let lx := G.globalX i - slength
    let dampl := tanH M (div M (.num lx) (.num swidth))
    mul M (.num 0.5) (sub M (.num 1) dampl)

/-- sourcex.cxx:41-57 `source_expx2`. -/
noncomputable def sourceExpx2 (M : ℝ) (G : Grid P) (swidth slength : ℝ) : P → F :=
  communicate G fun i =>
    let lx := G.globalX i - slength
    expF M (div M (div M (mul M (.num (-lx)) (.num lx)) (.num swidth)) (.num swidth))

/-- sourcex.cxx:60-78 `sink_tanhx`. -/
noncomputable def sinkTanhx (M : ℝ) (G : Grid P) (f : P → ℝ) (swidth slength : ℝ) : P → F :=
  communicate G fun i =>
    let rlx := 1 - G.globalX i - slength
    let dampr := tanH M (div M (.num rlx) (.num swidth))
    mul M (mul M (.num 0.5) (sub M (.num 1) dampr)) (.num (f i))

/-- sourcex.cxx:81-102 `mask_x`. -/
noncomputable def maskX (M : ℝ) (G : Grid P) (f : P → ℝ) : P → F :=
  communicate G fun i =>
    let lx := G.globalX i
    let dampl := tanH M (div M (.num lx) (.num 40))
    let dampr := tanH M (div M (.num (1 - lx)) (.num 40))
    mul M (sub M (.num 1) (mul M dampl dampr)) (.num (f i))

/-- sourcex.cxx:105-124 `sink_tanhxl`. -/
noncomputable def sinkTanhxl (M : ℝ) (G : Grid P) (f : P → ℝ) (swidth slength : ℝ) : P → F :=
  communicate G fun i =>
    let lx := G.globalX i - slength
    let dampl := tanH M (div M (.num lx) (.num swidth))
    mul M (mul M (.num 0.5) (sub M (.num 1) dampl)) (.num (f i))

/-- sourcex.cxx:127-146 `sink_tanhxr`. -/
noncomputable def sinkTanhxr (M : ℝ) (G : Grid P) (f : P → ℝ) (swidth slength : ℝ) : P → F :=
  communicate G fun i =>
    let rlx := 1 - G.globalX i - slength
    let dampr := tanH M (div M (.num rlx) (.num swidth))
    mul M (mul M (.num 0.5) (sub M (.num 1) dampr)) (.num (f i))

/-- sourcex.cxx:149-171 `buff_x`. -/
noncomputable def buffX (M : ℝ) (G : Grid P) (f : P → ℝ) : P → F :=
  communicate G fun i =>
    let lx := G.globalX i
    let rlx := 1 - lx
    let dampl : F := .num 1
    let dampr : F := .num 1
    let deltal := 0.05
    let deltar := 0.05
    mul M (add M (mul M dampl (expF M (div M (.num (-(lx * lx))) (.num (deltal * deltal)))))
      (mul M dampr (expF M (div M (.num (-(rlx * rlx))) (.num (deltar * deltar)))))) (.num (f i))

end Verif.SourceX
