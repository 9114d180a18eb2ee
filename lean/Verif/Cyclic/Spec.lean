import Verif.Cyclic.Model
/-! Specification of a block-distributed tridiagonal system, independent of the solver. -/
namespace Verif.Cyclic

variable {K : Type} [Field K]

/-- `a xl + b x + c xr = r`. -/
def Row.Holds (w : Row K) (xl x xr : K) : Prop := w.a * xl + w.b * x + w.c * xr = w.r

/-- Single-system view: left neighbour of row `j` on processor `q`. -/
def prevVal (P : Nat) (N : Nat → Nat) (periodic : Bool) (x : Nat → Nat → K) (q j : Nat) : K :=
  if j ≠ 0 then x q (j - 1)
  else if q ≠ 0 then x (q - 1) (N (q - 1) - 1)
  else if periodic then x (P - 1) (N (P - 1) - 1) else 0

/-- Single-system view: right neighbour of row `j` on processor `q`. -/
def nextVal (P : Nat) (N : Nat → Nat) (periodic : Bool) (x : Nat → Nat → K) (q j : Nat) : K :=
  if j + 1 ≠ N q then x q (j + 1)
  else if q + 1 ≠ P then x (q + 1) 0
  else if periodic then x 0 0 else 0

/-- `x` solves the system whose row `j` on processor `q` (of `P`, with `N q` rows each) is `co q j`: every row of
every processor holds, neighbours being taken across processor boundaries; beyond the two outer ends the
neighbour is zero, or wraps around if `periodic`. -/
def Solves (P : Nat) (N : Nat → Nat) (periodic : Bool) (co : Nat → Nat → Row K) (x : Nat → Nat → K) : Prop :=
  ∀ q, q < P → ∀ j, j < N q →
    (co q j).Holds (prevVal P N periodic x q j) (x q j) (nextVal P N periodic x q j)

/-- The same matrix with zero right-hand side. -/
def Row.hom (w : Row K) : Row K := { w with r := 0 }

/-- The matrix is non-singular: the homogeneous system has only the zero solution. -/
def NonSingular (P : Nat) (N : Nat → Nat) (periodic : Bool) (co : Nat → Nat → Row K) : Prop :=
  ∀ x : Nat → Nat → K, Solves P N periodic (fun q j => (co q j).hom) x → ∀ q, q < P → ∀ j, j < N q → x q j = 0

end Verif.Cyclic
