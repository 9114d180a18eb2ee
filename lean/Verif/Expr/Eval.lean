import Verif.Expr.Props
import Mathlib.Data.Real.Basic
import Mathlib.Data.Real.Archimedean
import Mathlib.Algebra.Order.Floor.Ring
import Mathlib.Algebra.BigOperators.Group.Finset.Basic
import Mathlib.Algebra.BigOperators.Intervals
import Mathlib.Tactic.Linarith
import Mathlib.Tactic.NormNum
/-!
# C15, C41: what expressions evaluate to

`FieldGenerator::generate` over the real numbers.
-/
namespace Verif.Expr
open Verif.Str (Chars)
open scoped Classical

/-- Exceptions while evaluating. -/
inductive EvErr where
  | noParam | badCount | badOp | other
  deriving DecidableEq

/-- `Context::parameters` (generator_context.hxx:77): a map from names to values. -/
abbrev Ctx := Chars → Option ℝ

/-- generator_context.hxx:49-52 `Context::set`. -/
def Ctx.set (c : Ctx) (n : Chars) (v : ℝ) : Ctx := fun m => if m = n then some v else c m

/-- generator_context.hxx:65 `Context::get`: `map::at` throws if absent. -/
def Ctx.get (c : Ctx) (n : Chars) : Except EvErr ℝ :=
  match c n with
  | some v => .ok v
  | none => .error .noParam

/-- The mathematical functions the generators call: `pow`, and every other registered generator as a function of its
argument values. -/
structure Fns where
  pow : ℝ → ℝ → ℝ
  fn : Chars → List ℝ → Except EvErr ℝ

/-- `static_cast<int>` of a value in range: truncation. -/
noncomputable def truncInt (x : ℝ) : ℤ := if 0 ≤ x then ⌊x⌋ else ⌈x⌉

/-- utils.hxx:462-464 `ROUND`. -/
noncomputable def roundInt (x : ℝ) : ℤ := if x > 0 then truncInt (x + 1 / 2) else truncInt (x - 1 / 2)

/-- expressionparser.cxx:181-199 `FieldBinary::generate`, once both operands are evaluated. -/
noncomputable def applyOp (fns : Fns) (op : Char) (a b : ℝ) : Except EvErr ℝ :=
  if op = '+' then .ok (a + b) else if op = '-' then .ok (a - b) else if op = '*' then .ok (a * b)
  else if op = '/' then .ok (a / b) else if op = '^' then .ok (fns.pow a b) else .error .badOp

/-- expressionparser.cxx:155-161: the summation loop, from 0 to count-1. -/
noncomputable def sumLoop (f : ℕ → Except EvErr ℝ) : ℕ → Except EvErr ℝ
  | 0 => .ok 0
  | n + 1 => match sumLoop f n with
    | .error e => .error e
    | .ok r => match f n with
      | .error e => .error e
      | .ok v => .ok (r + v)

/-- fieldgenerators.hxx:136-146 `FieldMin::generate` on the argument values: starts from the first argument. -/
noncomputable def minLoop (r : ℝ) : List ℝ → ℝ
  | [] => r
  | v :: vs => minLoop (if v < r then v else r) vs

/-- fieldgenerators.hxx:164-174 `FieldMax::generate`. -/
noncomputable def maxLoop (r : ℝ) : List ℝ → ℝ
  | [] => r
  | v :: vs => maxLoop (if v > r then v else r) vs

/-- Generators without special evaluation order, given their argument values: x, y, z, t (expressionparser.cxx:49-84),
min, max, clamp (fieldgenerators.hxx:199-211), where (fieldgenerators.hxx:316-321), round (:227-233).  All arguments are
evaluated here; the C++ clamp and where skip arguments they do not need, which can only avoid an exception. -/
noncomputable def applyFn (fns : Fns) (ctx : Ctx) (name : Chars) (args : List ℝ) : Except EvErr ℝ :=
  if name = "x".toList ∨ name = "y".toList ∨ name = "z".toList ∨ name = "t".toList then ctx.get name
  else if name = "min".toList then
    match args with
    | [] => .error .other
    | v :: vs => .ok (minLoop v (v :: vs))
  else if name = "max".toList then
    match args with
    | [] => .error .other
    | v :: vs => .ok (maxLoop v (v :: vs))
  else if name = "clamp".toList then
    match args with
    | [v, lo, hi] => .ok (if v < lo then lo else if v > hi then hi else v)
    | _ => .error .other
  else if name = "where".toList then
    match args with
    | [t, a, b] => .ok (if t > 0 then a else b)
    | _ => .error .other
  else if name = "round".toList then
    match args with
    | [v] => .ok (roundInt v)
    | _ => .error .other
  else fns.fn name args

mutual
/-- `generate(ctx)` of each kind of generator: FieldValue (expressionparser.hxx:246), FieldParam
(expressionparser.cxx:89-91), FieldContext (:109-120), FieldSum (:140-164), FieldBinary (:178-199). -/
noncomputable def eval (fns : Fns) : Gen ℝ → Ctx → Except EvErr ℝ
  | .val v, _ => .ok v
  | .param n, ctx => ctx.get n
  | .ctx vars e, ctx => match evalVars fns vars ctx ctx with
    | .error er => .error er
    | .ok c' => eval fns e c'
  | .sum sym count e, ctx => match eval fns count ctx with
    | .error er => .error er
    | .ok cv =>
      if |cv - (roundInt cv : ℝ)| > 1 / 10000 then .error .badCount
      else if roundInt cv < 0 then .error .badCount
      else sumLoop (fun i => eval fns e (ctx.set sym (i : ℝ))) (roundInt cv).toNat
  | .bin op l r, ctx => match eval fns l ctx with
    | .error er => .error er
    | .ok a => match eval fns r ctx with
      | .error er => .error er
      | .ok b => applyOp fns op a b
  | .ext name args, ctx => match evalArgs fns args ctx with
    | .error er => .error er
    | .ok vs => applyFn fns ctx name vs
/-- The new context: each definition is evaluated in the *old* context (expressionparser.cxx:114-116). -/
noncomputable def evalVars (fns : Fns) : List (Chars × Gen ℝ) → Ctx → Ctx → Except EvErr Ctx
  | [], _, c' => .ok c'
  | p :: vs, ctx, c' => match eval fns p.2 ctx with
    | .error er => .error er
    | .ok v => evalVars fns vs ctx (c'.set p.1 v)
/-- Argument values. -/
noncomputable def evalArgs (fns : Fns) : List (Gen ℝ) → Ctx → Except EvErr (List ℝ)
  | [], _ => .ok []
  | g :: gs, ctx => match eval fns g ctx with
    | .error er => .error er
    | .ok v => match evalArgs fns gs ctx with
      | .error er => .error er
      | .ok vs => .ok (v :: vs)
end

end Verif.Expr
