import Mathlib.Data.Finset.Basic
import Mathlib.Data.Fintype.Basic
import Mathlib.Logic.Relation
import Mathlib.Tactic.Linarith
import Mathlib.Tactic.Cases

/-!
# C93: Laplacian inversions slice by slice

Model of `Laplacian::solve(Field3D)` and `Laplacian::solve(Field3D, Field3D)` (src/invert/laplace/invert_laplace.cxx:157-253),
which solve a 3D problem as a loop over y, of the queries `Mesh::hasBndryLowerY`, `hasBndryUpperY` (src/mesh/mesh.cxx:400-426) that
set its range, and of the collective operations the loop consists of.

The inversion of one slice is a parameter that may fail (`BoutIterationFail`).  Left out: timers, checks of locations and meshes,
the overloads for 2D fields, solvers that override these functions.
-/
namespace Verif.LapSlice

/-- What one processor knows of a mesh.  `row` lists, for every processor that shares its y range (`getXcomm`), whether
`iterateBndryLowerY` and `iterateBndryUpperY` have points there. -/
structure YMesh where
  ystart : Int
  yend : Int
  localNy : Int
  row : List (Bool × Bool)

/-- The function-local static variables of the two queries (mesh.cxx:401, 415): one pair for the process. -/
structure Cache where
  lower : Option Bool
  upper : Option Bool

/-- Options of a Laplacian (invert_laplace.cxx:126-138). -/
structure Opts where
  includeYguards : Bool
  extraLower : Int
  extraUpper : Int

/-- mesh.cxx:400-412 `hasBndryLowerY`: the logical or over the row, computed once. -/
def hasLower (s : Cache) (m : YMesh) : Bool × Cache :=
  match s.lower with
  | some b => (b, s)
  | none => (m.row.any (·.1), { s with lower := some (m.row.any (·.1)) })

/-- mesh.cxx:414-426 `hasBndryUpperY`. -/
def hasUpper (s : Cache) (m : YMesh) : Bool × Cache :=
  match s.upper with
  | some b => (b, s)
  | none => (m.row.any (·.2), { s with upper := some (m.row.any (·.2)) })

/-- invert_laplace.cxx:164-180: the range of slices of `solve(b)`. -/
def range (o : Opts) (m : YMesh) (lo hi : Bool) : Int × Int :=
  (if lo then (if o.includeYguards then 0 else m.ystart) + o.extraLower else m.ystart,
   if hi then (if o.includeYguards then m.localNy - 1 else m.yend) - o.extraUpper else m.yend)

/-- invert_laplace.cxx:228-234: the range of slices of `solve(b, x0)`. -/
def range0 (o : Opts) (m : YMesh) (lo hi : Bool) : Int × Int :=
  (if lo && o.includeYguards then 0 else m.ystart, if hi && o.includeYguards then m.localNy - 1 else m.yend)

/-- The indices of `for (int jy = ys; jy <= ye; jy++)`. -/
def indices (r : Int × Int) : List Int := (List.range (r.2 - r.1 + 1).toNat).map fun (i : Nat) => r.1 + (i : Int)

/-- Which overload is called: `true` with a first guess. -/
def slices (o : Opts) (m : YMesh) (guess : Bool) (s : Cache) : List Int × Cache :=
  let (lo, s1) := hasLower s m
  let (hi, s2) := hasUpper s1 m
  (indices (if guess then range0 o m lo hi else range o m lo hi), s2)

variable {S : Type}

/-- invert_laplace.cxx:185-193: the loop; it ends at the first slice whose inversion fails, with `status = 1`. -/
def loop (inv : Int → S → Option S) (b : Int → S) : List Int → (Int → S) → (Int → S) × Bool
  | [], x => (x, false)
  | jy :: js, x =>
    match inv jy (b jy) with
    | none => (x, true)
    | some v => loop inv b js (fun j => if j = jy then v else x j)

/-- One processor's part of the call: the field and `status`; `x` is the uninitialised result (`emptyFrom(b)`). -/
def solve (o : Opts) (m : YMesh) (guess : Bool) (inv : Int → S → Option S) (b x : Int → S) (s : Cache) :
    ((Int → S) × Bool) × Cache :=
  let (js, s1) := slices o m guess s
  (loop inv b js x, s1)

/-- Collective operations: the inversion of a slice involves the processors of the row, `BoutParallelThrowRhsFail` all. -/
inductive Op where
  | row (jy : Int)
  | world (status : Bool)
  deriving DecidableEq

/-- The slices that are attempted: up to the first that fails. -/
def attempted (fails : Int → Bool) : List Int → List Int
  | [] => []
  | jy :: js => if fails jy then [jy] else jy :: attempted fails js

/-- The collective operations of one call on one processor (invert_laplace.cxx:185-195). -/
def program (fails : Int → Bool) (js : List Int) : List Op :=
  (attempted fails js).map Op.row ++ [Op.world (js.any fails)]

/-- A collective operation takes place when all the processors of its communicator have reached one: MPI matches by order. -/
inductive Step {P R : Type} (rowOf : P → R) : (P → List Op) → (P → List Op) → Prop
  | row (s s' : P → List Op) (r : R) (p0 : P) (hp0 : rowOf p0 = r)
      (h : ∀ p, rowOf p = r → ∃ jy rest, s p = Op.row jy :: rest ∧ s' p = rest)
      (h' : ∀ p, rowOf p ≠ r → s' p = s p) : Step rowOf s s'
  | world (s s' : P → List Op) (h : ∀ p, ∃ st rest, s p = Op.world st :: rest ∧ s' p = rest) : Step rowOf s s'

end Verif.LapSlice
