import Mathlib.Algebra.BigOperators.Group.Finset.Basic
import Mathlib.Algebra.Module.LinearMap.Basic
import Mathlib.Data.Rat.Cast.CharZero
import Mathlib.Algebra.BigOperators.Fin
import Mathlib.Algebra.Order.Field.Basic

/-!
# Specification for C26 and C27: explicit Runge-Kutta methods

Textbook definitions, independent of the model: a tableau, what it means for a step to be the step of a tableau, and the
order conditions over all rooted trees.
-/
namespace Verif.Butcher

/-- An explicit Butcher tableau. -/
structure Tableau where
  s : Nat
  a : Nat → Nat → ℚ
  b : Nat → ℚ
  c : Nat → ℚ

/-- `y'` is the result of one step of size `h` from `(t, y)`: there are stages `k i` with
`k i = f (t + c i h) (y + h Σ_{j<i} a i j k j)` and `y' = y + h Σ_i b i k i`. -/
def IsStep {K : Type} [Field K] {n : Nat} (T : Tableau) (f : K → (Fin n → K) → (Fin n → K)) (t h : K)
    (y y' : Fin n → K) : Prop :=
  ∃ k : Nat → Fin n → K,
    (∀ i, i < T.s → k i = f (t + (T.c i : K) * h) (fun m => y m + h * ∑ j ∈ Finset.range i, (T.a i j : K) * k j m)) ∧
    ∀ m, y' m = y m + h * ∑ i ∈ Finset.range T.s, (T.b i : K) * k i m

/-- Rooted trees (with ordered branches): a single node, or a tree `t` with one more branch `u` at its root. -/
inductive Tree where
  | leaf
  | graft (t u : Tree)
deriving DecidableEq

/-- Number of nodes. -/
def Tree.size : Tree → Nat
  | .leaf => 1
  | .graft t u => t.size + u.size

/-- Density: the product over all nodes of the size of the subtree hanging there.  Adding a branch `u` changes the size at
the root from `|t|` to `|t| + |u|`. -/
def Tree.density : Tree → ℚ
  | .leaf => 1
  | .graft t u => t.density * u.density * (t.size + u.size) / t.size

/-- Elementary weight at stage `i`: product over the branches of `Σ_j a i j (weight of the branch at j)`. -/
def Tree.stageWeight (T : Tableau) : Tree → Nat → ℚ
  | .leaf, _ => 1
  | .graft t u, i => t.stageWeight T i * ∑ j ∈ Finset.range T.s, T.a i j * u.stageWeight T j

/-- Order `p`: for every rooted tree with at most `p` nodes, `Σ_i b_i Φ_i(t) = 1/γ(t)` (Butcher's order conditions); the
stage times are the row sums; the method is explicit. -/
structure HasOrder (T : Tableau) (p : Nat) : Prop where
  explicit : ∀ i j, i < T.s → j < T.s → i ≤ j → T.a i j = 0
  rowSum : ∀ i, i < T.s → T.c i = ∑ j ∈ Finset.range T.s, T.a i j
  trees : ∀ t : Tree, t.size ≤ p → ∑ i ∈ Finset.range T.s, T.b i * t.stageWeight T i = 1 / t.density

/-- The classical fourth-order method. -/
def classical : Tableau where
  s := 4
  a := fun i j => if (i, j) = (1, 0) then 1/2 else if (i, j) = (2, 1) then 1/2 else if (i, j) = (3, 2) then 1 else 0
  b := fun i => if i = 0 ∨ i = 3 then 1/6 else if i = 1 ∨ i = 2 then 1/3 else 0
  c := fun i => if i = 1 ∨ i = 2 then 1/2 else if i = 3 then 1 else 0

/-- The third-order strong-stability-preserving method of Shu and Osher. -/
def ssp3 : Tableau where
  s := 3
  a := fun i j => if (i, j) = (1, 0) then 1 else if i = 2 ∧ j < 2 then 1/4 else 0
  b := fun i => if i = 0 ∨ i = 1 then 1/6 else if i = 2 then 2/3 else 0
  c := fun i => if i = 1 then 1 else if i = 2 then 1/2 else 0

/-- Forward Euler. -/
def euler : Tableau where
  s := 1
  a := fun _ _ => 0
  b := fun i => if i = 0 then 1 else 0
  c := fun _ => 0

end Verif.Butcher
