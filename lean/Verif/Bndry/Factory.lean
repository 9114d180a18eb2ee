import Verif.Sys.Str
import Mathlib.Data.List.Basic

/-!
# Boundary condition strings

Model of `BoundaryFactory` (`src/mesh/boundary_factory.cxx`): from the text of an option to a boundary operation.  Operations are
represented by the lower-case name under which they are registered and the arguments their `clone` is given.
-/

namespace Verif.Bndry

open Verif.Str

/-- The second argument of `trim` (include/bout/utils.hxx:629). -/
def ws : Chars := [' ', '\t', '\r']

/-- `lowercase` (src/sys/utils.cxx:57-62). -/
def lower (s : Chars) : Chars := s.map Char.toLower

/-- What `create` returns: nothing (`nullptr`), an operation, or a modifier around an operation. -/
inductive Bc where
  | nothing
  | op (name : Chars) (args : List Chars)
  | mod (name : Chars) (inner : Bc) (args : List Chars)
  deriving DecidableEq

/-- The registered names (boundary_factory.cxx:17-49, 322-364): keys of `opmap`, `par_opmap`, `modmap`.  `opOk`, `modOk`: whether the `clone` of the
operation (`cloneMod` of the modifier) accepts these arguments or throws. -/
structure Factory where
  ops : List Chars
  parOps : List Chars
  mods : List Chars
  opOk : Chars → List Chars → Bool
  modOk : Chars → List Chars → Bool

/-- The operations a region can have. -/
def Factory.names (F : Factory) (par : Bool) : List Chars := if par then F.parOps else F.ops

inductive Res where
  | outOfFuel
  | thrown
  /-- undefined behaviour: `front` of an empty list -/
  | ub
  | ok (b : Bc)
  deriving DecidableEq

/-- The change of `level` at a character (boundary_factory.cxx:138-147). -/
def delta (c : Char) : Int :=
  if c = '(' ∨ c = '[' ∨ c = '<' then 1 else if c = ')' ∨ c = ']' ∨ c = '>' then -1 else 0

/-- boundary_factory.cxx:133-166: the argument text cut at the commas of level 0. -/
def splitTop : Int → Chars → List Chars
  | _, [] => [[]]
  | level, c :: cs =>
    if c = ',' ∧ level = 0 then [] :: splitTop level cs
    else match splitTop (level + delta c) cs with
      | [] => [[c]]
      | p :: ps => (c :: p) :: ps

/-- boundary_factory.cxx:120-126: text between the first opening and the last closing bracket (to the end when there is no closing one). -/
def between (after : Chars) : Chars :=
  if ')' ∈ after then ((after.reverse.dropWhile (fun c => decide (c ≠ ')'))).tail).reverse else after

/-- The pieces without `=`, trimmed (boundary_factory.cxx:150-159, 168-175). -/
def positional (pieces : List Chars) : List Chars := (pieces.filter (fun s => decide ('=' ∉ s))).map (trim · ws)

/-- The pieces with `=` : name and value. -/
def keywords (pieces : List Chars) : List (Chars × Chars) :=
  (pieces.filter (fun s => decide ('=' ∈ s))).map fun s =>
    (trim (s.takeWhile (fun c => decide (c ≠ '='))) ws, trim (s.dropWhile (fun c => decide (c ≠ '='))).tail ws)

/-- boundary_factory.cxx:87-115: no opening bracket. -/
def createBare (F : Factory) (par : Bool) (name : Chars) : Res :=
  if name = "null".toList ∨ name = "none".toList then .ok .nothing
  else
    let n := lower (trim name ws)
    if n ∈ F.names par then
      if F.opOk n [] then .ok (.op n []) else .thrown
    else .thrown

/-- boundary_factory.cxx:193-205: an operation with arguments; the keywords are refused by `BoundaryOp::clone` (boundary_op.hxx:64-72) and
ignored by `BoundaryOpPar::clone` (parallel_boundary_op.hxx:35-40). -/
def createOp (F : Factory) (par : Bool) (func : Chars) (args : List Chars) (kw : List (Chars × Chars)) : Res :=
  if func ∈ F.names par then
    if par = false ∧ kw ≠ [] then .thrown
    else if F.opOk func args then .ok (.op func args) else .thrown
  else .thrown

/-- boundary_factory.cxx:179-190: after the inner operation has been created.  The `dynamic_cast` to `BoundaryOp` gives `nullptr` for a parallel
operation. -/
def createMod (F : Factory) (par : Bool) (func : Chars) (args : List Chars) : Res → Res
  | .ok .nothing => .ok .nothing
  | .ok b => if par then .ok .nothing else if F.modOk func args then .ok (.mod func b args) else .thrown
  | r => r

/-- boundary_factory.cxx:82-213 `BoundaryFactory::create`. -/
def create (F : Factory) (par : Bool) : Nat → Chars → Res
  | 0, _ => .outOfFuel
  | fuel + 1, name =>
    if '(' ∉ name then createBare F par name
    else
      let func := lower (trim (name.takeWhile (fun c => decide (c ≠ '('))) ws)
      let pieces := splitTop 0 (trim (between (name.dropWhile (fun c => decide (c ≠ '('))).tail) ws)
      if func ∈ F.mods then
        match positional pieces with
        | [] => .ub
        | a :: rest => createMod F par func rest (create F par fuel a)
      else createOp F par func (positional pieces) (keywords pieces)

/-- `create` with the fuel that is always enough (`C62_total`). -/
def createStr (F : Factory) (par : Bool) (name : Chars) : Res := create F par (name.length + 1) name

/-- boundary_factory.cxx:322-364 `add`, `addMod`: refused (with a message) when the name is taken. -/
def Factory.add (F : Factory) (name : Chars) : Factory :=
  if lower name ∈ F.mods ∨ lower name ∈ F.ops then F else { F with ops := lower name :: F.ops }

def Factory.addMod (F : Factory) (name : Chars) : Factory :=
  if lower name ∈ F.mods ∨ lower name ∈ F.ops then F else { F with mods := lower name :: F.mods }

def Factory.addPar (F : Factory) (name : Chars) : Factory :=
  if lower name ∈ F.parOps then F else { F with parOps := lower name :: F.parOps }

/-- The constructor (boundary_factory.cxx:17-49), the registered names. -/
def standardNames : Factory :=
  let F : Factory := { ops := [], parOps := [], mods := [], opOk := fun _ _ => true, modOk := fun _ _ => true }
  let F := ["dirichlet", "dirichlet_o2", "dirichlet_o3", "dirichlet_o4", "dirichlet_4thorder", "neumann", "neumann_O2", "neumann_4thorder",
    "neumann_O4", "neumannpar", "neumann_nonorthogonal", "robin", "constgradient", "zerolaplace", "zerolaplace2", "constlaplace", "free",
    "free_o2", "free_o3"].foldl (fun F (s : String) => F.add s.toList) F
  let F := ["relax", "width", "toFieldAligned", "fromFieldAligned"].foldl (fun F (s : String) => F.addMod s.toList) F
  ["parallel_dirichlet", "parallel_dirichlet_O3", "parallel_dirichlet_interp", "parallel_neumann"].foldl (fun F (s : String) => F.addPar s.toList) F

/-- The constructor, with what the operations accept. -/
def standard (opOk modOk : Chars → List Chars → Bool) : Factory := { standardNames with opOk := opOk, modOk := modOk }

/-! ## Which option is used -/

/-- A boundary region as the factory sees it. -/
inductive Loc where
  | xin | xout | ydown | yup | all | parFwdXin | parFwdXout | parBkwdXin | parBkwdXout
  deriving DecidableEq

structure Region where
  label : String
  loc : Loc
  isParallel : Bool

/-- boundary_factory.cxx:225-263. -/
def side : Loc → String
  | .xin => "xin"
  | .xout => "xout"
  | .ydown => "ydown"
  | .yup => "yup"
  | .parFwdXin => "par_yup_xin"
  | .parFwdXout => "par_yup_xout"
  | .parBkwdXin => "par_ydown_xin"
  | .parBkwdXout => "par_ydown_xout"
  | .all => "all"

/-- boundary_factory.cxx:265-318: the text `createFromOptions` gives to `create`; `opts section key` is the option if set. -/
def setting (opts : String → String → Option Chars) (var : String) (r : Region) : Chars :=
  match opts var ("bndry_" ++ r.label) with
  | some s => s
  | none => match opts var ("bndry_" ++ side r.loc) with
    | some s => s
    | none => match opts var (if r.isParallel then "bndry_par_all" else "bndry_all") with
      | some s => s
      | none => match opts "all" ("bndry_" ++ r.label) with
        | some s => s
        | none => match opts "all" ("bndry_" ++ side r.loc) with
          | some s => s
          | none => match opts "all" (if r.isParallel then "bndry_par_all" else "bndry_all") with
            | some s => s
            | none => if r.isParallel then "parallel_dirichlet".toList else "dirichlet".toList

/-- src/field/field_data.cxx:110-126 with `getPossibleBoundaries` as `labels`: option names marked as used on every processor. -/
def conditionallyUsed (labels : List String) : List String :=
  labels.map ("bndry_" ++ ·) ++ ["bndry_xin", "bndry_xout", "bndry_ydown", "bndry_yup", "bndry_par_yup", "bndry_par_ydown", "bndry_all"]

end Verif.Bndry
