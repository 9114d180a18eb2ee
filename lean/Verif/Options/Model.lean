import Verif.Common
import Verif.Sys.Str
import Mathlib.Data.Rat.Defs
import Mathlib.Algebra.Order.Field.Rat
import Mathlib.Algebra.Order.Floor.Defs
import Mathlib.Data.Rat.Floor
/-!
# Model of the `Options` tree (`include/bout/options.hxx`, `src/sys/options.cxx`)

A tree of nodes; each node is a *section* or a *value* (`is_section`).  References (`Options&`) are paths.  Strings are
lists of characters.  What is not modelled: `doc`/`type` attributes (they never influence a value), logging, the
iteration order of `std::map` (children are kept in insertion order), `Field2D/Field3D/FieldPerp/Array/Matrix/Tensor`
values beyond the fact that assigning them never checks the old value (`Val.arr`), floating-point rounding
(`BoutReal` is `ℚ`), and the side effects of evaluating an expression string (`Env.eval` is a parameter).
-/
namespace Verif.Opt

open Verif.Str (Chars)

/-- options.hxx:199-201 `ValueType`; the array-like alternatives are merged into `arr`. -/
inductive Val where
  | bool (b : Bool)
  | int (i : Int)
  | real (r : ℚ)
  | str (s : Chars)
  | arr (l : List ℚ)
  deriving DecidableEq

/-- The types a value can be read as (the specialisations of `as<T>` in options.cxx:301-466). -/
inductive Ty where
  | bool | int | real | str
  deriving DecidableEq

/-- External behaviour used by `as<T>`: the expression evaluator (`parseExpression`, options.cxx:325-341) and
`variantToString`. -/
structure Env where
  eval : Chars → Out ℚ
  toStr : Val → Chars

/-- The data members of an `Options` object except `children` and `parent_instance` (options.hxx:289-304, 787-795).
`source`, `timeDim`, `cond` are the attributes "source", "time_dimension" and "conditionally used". -/
structure Data where
  value : Val := .bool false
  source : Option Chars := none
  timeDim : Bool := false
  cond : Bool := false
  fullName : Chars := []
  isSection : Bool := true
  used : Bool := false
  deriving DecidableEq

mutual
/-- An `Options` object. -/
inductive Tree where
  | node (d : Data) (cs : Kids)
/-- `std::map<std::string, Options> children` (options.hxx:794). -/
inductive Kids where
  | nil
  | cons (name : Chars) (t : Tree) (rest : Kids)
end

def Tree.data : Tree → Data
  | .node d _ => d

def Tree.kids : Tree → Kids
  | .node _ cs => cs

/-- `children.find(name)`. -/
def Kids.find : Kids → Chars → Option Tree
  | .nil, _ => none
  | .cons n t r, m => if n = m then some t else r.find m

/-- The map with `name ↦ t` (replacing an existing binding). -/
def Kids.set : Kids → Chars → Tree → Kids
  | .nil, m, u => .cons m u .nil
  | .cons n t r, m, u => if n = m then .cons n u r else .cons n t (r.set m u)

/-- `children.empty()`. -/
def Kids.isEmpty : Kids → Bool
  | .nil => true
  | .cons _ _ _ => false

/-- `_("default")`, options.cxx:15. -/
def defaultSource : Chars := ['d','e','f','a','u','l','t']

/-- options.hxx:603 the source label of `overrideDefault`. -/
def userDefault : Chars := ['u','s','e','r','_','d','e','f','a','u','l','t']

/-- options.hxx:725-726, default argument of `getUnused`. -/
def outputSource : Chars := ['O','u','t','p','u','t']

/-- options.cxx:123-126: the full name of a newly created child. -/
def childName (parent name : Chars) : Chars := if parent = [] then name else parent ++ ':' :: name

/-- options.hxx:169-170: `Options{this, secname}`. -/
def fresh (fullName : Chars) : Tree := .node { fullName := fullName } .nil

/-- An empty tree: `Options root;`. -/
def emptyTree : Tree := fresh []

/-- options.cxx:95-132: `root[n₁][n₂]…` followed by an operation `f` on the node reached.  Every step is the
non-const `operator[]` with a name containing no ':' : throws on a value, returns `*this` for the empty name,
otherwise finds or creates the child. -/
def access {α : Type} : Tree → List Chars → (Tree → Tree × Out α) → Tree × Out α
  | t, [], f => f t
  | .node d cs, n :: ns, f =>
    if !d.isSection then (.node d cs, .error (.exc "index a value"))
    else if n = [] then access (.node d cs) ns f
    else
      let c := (cs.find n).getD (fresh (childName d.fullName n))
      ((.node d (cs.set n (access c ns f).1)), (access c ns f).2)

/-- options.cxx:134-166: the const `operator[]` chain: like `access` but a missing child throws.  (`f` is a const
member function; it may still set the `mutable` flag `value_used`.) -/
def accessConst {α : Type} : Tree → List Chars → (Tree → Tree × Out α) → Tree × Out α
  | t, [], f => f t
  | .node d cs, n :: ns, f =>
    if !d.isSection then (.node d cs, .error (.exc "index a value"))
    else if n = [] then accessConst (.node d cs) ns f
    else match cs.find n with
      | none => (.node d cs, .error (.exc "does not exist"))
      | some c => ((.node d (cs.set n (accessConst c ns f).1)), (accessConst c ns f).2)

/-- options.cxx:110-113: `name.find(":")` splits off the first component, the rest is looked up from there.  The
recursion unrolled: all components of a path, in order; fuel-free because each step removes the ':'. -/
def splitPath : Chars → List Chars
  | [] => [[]]
  | c :: cs => if c = ':' then [] :: splitPath cs
    else match splitPath cs with
      | [] => [[c]]
      | p :: ps => (c :: p) :: ps

/-- options.cxx:95-132, the recursion as it is written: split at the first ':' , index with the first part, then with
the remaining string.  `fuel` bounds the recursion depth (the number of ':' plus one suffices). -/
def accessStr {α : Type} : Nat → Tree → Chars → (Tree → Tree × Out α) → Tree × Out α
  | 0, t, _, _ => (t, .error (.ub "recursion depth"))
  | fuel + 1, t, name, f =>
    if ':' ∈ name then
      access t [name.takeWhile (fun c => decide (c ≠ ':'))]
        (fun u => accessStr fuel u ((name.dropWhile (fun c => decide (c ≠ ':'))).tail) f)
    else access t [name] f

/-- options.hxx:797-809 `_set_no_check`. -/
def setNoCheck (v : Val) (src : Chars) : Tree → Tree × Out Unit
  | .node d cs =>
    if !cs.isEmpty then (.node d cs, .error (.exc "non-empty section"))
    else (.node { d with value := v, source := some src, used := false, isSection := false } cs, .ok ())

/-- options.cxx:236-248 `isSet()`; `attributes.at("source")` throws when there is no such attribute. -/
def isSet (d : Data) : Out Bool :=
  if d.isSection then .ok false
  else match d.source with
    | none => .error (.exc "out_of_range")
    | some s => .ok (decide (s ≠ defaultSource))

/-- options.hxx:811-837 `_set(val, source, false)`; assigning array-like values bypasses the check
(options.cxx:265-298). -/
def assign (v : Val) (src : Chars) : Tree → Tree × Out Unit
  | .node d cs =>
    match v with
    | .arr _ => setNoCheck v src (.node d cs)
    | _ =>
      match isSet d with
      | .error e => (.node d cs, .error e)
      | .ok b =>
        if b ∧ d.timeDim = false ∧ d.value ≠ v ∧ d.source = some src then
          (.node d cs, .error (.exc "same source, new value"))
        else setNoCheck v src (.node d cs)

/-- options.hxx:392-396 `force`. -/
def force (v : Val) (src : Chars) : Tree → Tree × Out Unit
  | .node d cs => assign v src (.node { d with isSection := true } cs)

/-- options.hxx:403-410 `assignRepeat`. -/
def assignRepeat (v : Val) (saveRepeat : Bool) (src : Chars) (t : Tree) : Tree × Out Unit :=
  match force v src t with
  | (.node d cs, .ok ()) => (.node (if saveRepeat then { d with timeDim := true } else d) cs, .ok ())
  | r => r

/-- utils.hxx:462-464 `ROUND`: truncation towards zero of `x ± 0.5`. -/
def round (x : ℚ) : Int := if x > 0 then ⌊x + 1/2⌋ else ⌈x - 1/2⌉

/-- ASCII `tolower` as used by `lowercase` (utils.cxx:57-62). -/
def lower (s : Chars) : Chars := s.map Char.toLower

/-- options.cxx:438-448: the strings accepted as true / false. -/
def boolOfStr (s : Chars) : Option Bool :=
  if lower s ∈ [['y'], ['y','e','s'], ['t'], ['t','r','u','e'], ['1']] then some true
  else if lower s ∈ [['n'], ['n','o'], ['f'], ['f','a','l','s','e'], ['0']] then some false
  else none

/-- options.cxx:363-372: BoutReal to int. -/
def intOfReal (r : ℚ) : Out Val :=
  if |r - (round r : ℚ)| > 1/1000 then .error (.exc "not an integer") else .ok (.int (round r))

/-- options.cxx:301-466: the conversion done by `as<T>` on a value (without the `is_section` test). -/
def convert (env : Env) : Ty → Val → Out Val
  | .str, v => .ok (.str (env.toStr v))
  | .int, .int i => .ok (.int i)
  | .int, .real r => intOfReal r
  | .int, .str s => match env.eval s with
    | .ok r => intOfReal r
    | .error e => .error e
  | .int, _ => .error (.exc "not an integer")
  | .real, .int i => .ok (.real i)
  | .real, .real r => .ok (.real r)
  | .real, .str s => match env.eval s with
    | .ok r => .ok (.real r)
    | .error e => .error e
  | .real, _ => .error (.exc "cannot be converted to a BoutReal")
  | .bool, .bool b => .ok (.bool b)
  | .bool, .str s => match boolOfStr s with
    | some b => .ok (.bool b)
    | none => .error (.exc "Boolean expected")
  | .bool, _ => .error (.exc "cannot be converted to a bool")

/-- options.cxx:301-466 `as<T>()`: `value_used` (mutable) is set only when the conversion succeeds
(for `as<string>` the conversion cannot fail). -/
def as (env : Env) (ty : Ty) : Tree → Tree × Out Val
  | .node d cs =>
    if d.isSection then (.node d cs, .error (.exc "has no value"))
    else match convert env ty d.value with
      | .ok v => (.node { d with used := true } cs, .ok v)
      | .error e => (.node d cs, .error e)

/-- options.hxx:838-842, 880-885 `similar`. -/
def similar : Val → Val → Bool
  | .real a, .real b => decide (|a - b| < 1/10000000000)
  | a, b => decide (a = b)

/-- The type of a default value. -/
def tyOf : Val → Option Ty
  | .bool _ => some .bool
  | .int _ => some .int
  | .real _ => some .real
  | .str _ => some .str
  | .arr _ => none

/-- options.hxx:505-532 `withDefault(T def)` (non-const). -/
def withDefault (env : Env) (ty : Ty) (v : Val) : Tree → Tree × Out Val
  | .node d cs =>
    if d.isSection then
      match assign v defaultSource (.node d cs) with
      | (.node d' cs', .ok ()) => (.node { d' with used := true } cs', .ok v)
      | (t', .error e) => (t', .error e)
    else match as env ty (.node d cs) with
      | (t', .error e) => (t', .error e)
      | (t', .ok r) =>
        match d.source with
        | none => (t', .error (.exc "out_of_range"))
        | some s =>
          if s = defaultSource ∧ similar r v = false then (t', .error (.exc "Inconsistent default values"))
          else (t', .ok r)

/-- options.hxx:569-591 `withDefault(T def) const`. -/
def withDefaultConst (env : Env) (ty : Ty) (v : Val) : Tree → Tree × Out Val
  | .node d cs =>
    if d.isSection then (.node d cs, .ok v)
    else match as env ty (.node d cs) with
      | (t', .error e) => (t', .error e)
      | (t', .ok r) =>
        match d.source with
        | none => (t', .error (.exc "out_of_range"))
        | some s =>
          if s = defaultSource ∧ similar r v = false then (t', .error (.exc "Inconsistent default values"))
          else (t', .ok r)

/-- options.hxx:592-610 `overrideDefault`. -/
def overrideDefault (env : Env) (ty : Ty) (v : Val) : Tree → Tree × Out Val
  | .node d cs =>
    if d.isSection then
      match assign v userDefault (.node d cs) with
      | (.node d' cs', .ok ()) => (.node { d' with isSection := false } cs', .ok v)
      | (t', .error e) => (t', .error e)
    else as env ty (.node d cs)

mutual
/-- options.cxx:875-880 `setConditionallyUsed`. -/
def Tree.setCond : Tree → Tree
  | .node d cs => .node { d with cond := true } cs.setCond
def Kids.setCond : Kids → Kids
  | .nil => .nil
  | .cons n t r => .cons n t.setCond r.setCond
end

/-- options.cxx:793-807: counted as used because of its source or because it is conditionally used. -/
def excluded (ex : List Chars) (d : Data) : Bool :=
  (match d.source with | none => false | some s => decide (s ∈ ex)) || d.cond

mutual
/-- options.cxx:791-857 `getUnused`. -/
def Tree.unused (ex : List Chars) : Tree → Tree
  | .node d cs =>
    if !d.isSection then
      let u := d.used || excluded ex d
      .node { d with used := u, isSection := u } cs
    else
      .node (if (cs.unused ex).isEmpty then { d with fullName := [] } else d) (cs.unused ex)
/-- options.cxx:827-849: the loop over `unused.children`. -/
def Kids.unused (ex : List Chars) : Kids → Kids
  | .nil => .nil
  | .cons n (.node d cs) r =>
    if !d.isSection then
      if d.used || excluded ex d then r.unused ex else .cons n (.node d cs) (r.unused ex)
    else
      if (cs.unused ex).isEmpty then r.unused ex
      else .cons n (.node d (cs.unused ex)) (r.unused ex)
end

/-- options.cxx:1061-1064: `checkForUnusedOptions(options, …)` throws exactly when the unused tree has children. -/
def checkUnused (t : Tree) : Out Unit :=
  match t.unused [outputSource, userDefault] with
  | .node _ cs => if cs.isEmpty then .ok () else .error (.exc "There were unused input options")

mutual
/-- options.cxx:894-914 `getFlattenedKeys` below a section (the loop over children). -/
def Kids.flatKeys : Kids → List Chars
  | .nil => []
  | .cons _ t r => t.flatKeys ++ r.flatKeys
/-- The contribution of one child: its own full name if it is a value, its keys if it is a section. -/
def Tree.flatKeys : Tree → List Chars
  | .node d cs => if d.isSection then cs.flatKeys else [d.fullName]
end

/-- options.hxx:539-565 `withDefault(const Options& def)`: `*this = def` copies *everything*, including `full_name`
(options.cxx:210-234). -/
def withDefaultOpt (env : Env) (dflt : Tree) : Tree → Tree × Out Unit
  | .node d cs =>
    if dflt.data.isSection then (.node d cs, .error (.exc "ASSERT0"))
    else if d.isSection then (dflt, .ok ())
    else match d.source with
      | none => (.node d cs, .error (.exc "out_of_range"))
      | some s =>
        if s = defaultSource ∧ env.toStr d.value ≠ env.toStr dflt.data.value then
          (.node d cs, .error (.exc "Inconsistent default values"))
        else (.node d cs, .ok ())

/-! ## Operations and histories -/

/-- One call on the tree, addressed through `root[path]`. -/
inductive Op where
  | assign (p : List Chars) (v : Val) (src : Chars)
  | force (p : List Chars) (v : Val) (src : Chars)
  | assignRepeat (p : List Chars) (v : Val) (saveRepeat : Bool) (src : Chars)
  | read (p : List Chars) (ty : Ty)
  | withDefault (p : List Chars) (ty : Ty) (v : Val)
  | withDefaultConst (p : List Chars) (ty : Ty) (v : Val)
  | overrideDefault (p : List Chars) (ty : Ty) (v : Val)
  | setCond (p : List Chars)
  | touch (p : List Chars)

/-- The path an operation addresses. -/
def Op.path : Op → List Chars
  | .assign p _ _ | .force p _ _ | .assignRepeat p _ _ _ | .read p _ | .withDefault p _ _ | .withDefaultConst p _ _
  | .overrideDefault p _ _ | .setCond p | .touch p => p

/-- What an operation does at the node it addresses. -/
def Op.act (env : Env) : Op → Tree → Tree × Out (Option Val)
  | .assign _ v s, t => let r := Opt.assign v s t; (r.1, r.2.map (fun _ => none))
  | .force _ v s, t => let r := Opt.force v s t; (r.1, r.2.map (fun _ => none))
  | .assignRepeat _ v b s, t => let r := Opt.assignRepeat v b s t; (r.1, r.2.map (fun _ => none))
  | .read _ ty, t => let r := Opt.as env ty t; (r.1, r.2.map some)
  | .withDefault _ ty v, t => let r := Opt.withDefault env ty v t; (r.1, r.2.map some)
  | .withDefaultConst _ ty v, t => let r := Opt.withDefaultConst env ty v t; (r.1, r.2.map some)
  | .overrideDefault _ ty v, t => let r := Opt.overrideDefault env ty v t; (r.1, r.2.map some)
  | .setCond _, t => (t.setCond, .ok none)
  | .touch _, t => (t, .ok none)

/-- `root[path].op(…)`. -/
def step (env : Env) (t : Tree) (op : Op) : Tree × Out (Option Val) := access t op.path (op.act env)

/-- A history: the exceptions are caught by the caller, effects persist. -/
def run (env : Env) (t : Tree) (ops : List Op) : Tree := ops.foldl (fun t op => (step env t op).1) t

end Verif.Opt
