import Verif.Expr.Props
/-!
# FieldFactory: expressions whose names are input options

Models the parsing side of `src/field/field_factory.cxx` (`findOption`, `resolve`, `parse`, `cleanCache`) with the default
`input:max_recursion_depth = 0`, on top of the expression parser model.

* The options tree holds the values the user has set, as text; a section is its path from the root, innermost name first.
  The tree is the global one (`Options::getRoot()`), which is where qualified names are looked up.
* A missing section and a missing value in an existing section both raise an exception; they are not distinguished.
* The C++ parser calls `resolve` while it runs.  Between two calls it changes nothing outside itself, and within one run the
  answer for a name does not change, since the first call leaves it in the cache.  The model therefore runs the parser
  with the answers so far, and when it stops at a name without an answer, resolves that name and runs it again (`run`).
* An exception leaves the members of the factory as they are at that point: every function returns the state as well.
-/
namespace Verif.Expr.Fac
open Verif.Str (Chars)
open Verif.Expr

/-- A section: the names on the way to it, innermost first; `[]` is the root. -/
abbrev Path := List Chars

/-- The values set in the options tree: section and name, and text. -/
structure Tree where
  entries : List ((Path × Chars) × Chars)

/-- `section->isSet(name)` and the text then returned by `get`. -/
def Tree.val (t : Tree) (p : Path) (n : Chars) : Option Chars := t.entries.lookup (p, n)

/-- options.hxx:701 `Options::str`: the full name, with ':' between section names. -/
def str : Path → Chars
  | [] => []
  | a :: p => if p = [] then a else str p ++ ':' :: a

/-- field_factory.cxx:301-310: this section, then its parents. -/
def findUp (t : Tree) (n : Chars) : Path → Option (Path × Chars)
  | [] => (t.val [] n).map fun v => ([], v)
  | a :: p => match t.val (a :: p) n with
    | some v => some (a :: p, v)
    | none => findUp t n p

/-- The positions `name.find(':', ...)` returns one after the other; the first character is at position `i`. -/
def colonsFrom (i : Nat) : Chars → List Nat
  | [] => []
  | c :: cs => if c = ':' then i :: colonsFrom (i + 1) cs else colonsFrom (i + 1) cs

/-- The positions of the ':' characters. -/
def colons (n : Chars) : List Nat := colonsFrom 0 n

/-- The pieces between ':' characters. -/
def pieces : Chars → List Chars
  | [] => [[]]
  | c :: cs => match pieces cs with
    | [] => [[]]
    | x :: xs => if c = ':' then [] :: x :: xs else (c :: x) :: xs

/-- `getSection(name)` (options.hxx:693, options.cxx `operator[]`): a name with ':' is a path, empty parts of it are the
section itself. -/
def child (p : Path) (name : Chars) : Path := ((pieces name).filter (· ≠ [])).reverse ++ p

/-- field_factory.cxx:313-324: the loop over the separators.  `substr(lastpos, pos)` takes `pos` characters. -/
def walk (n : Chars) : List Nat → Path × Nat → Path × Nat
  | [], s => s
  | pos :: ps, s =>
    let sectionname := (n.drop s.2).take pos
    walk n ps (if sectionname.length > 0 then child s.1 sectionname else s.1, pos + 1)

/-- field_factory.cxx:294-337 `findOption`: the section where the name is set and its text. -/
def findOption (t : Tree) (opt : Path) (n : Chars) : Except Err (Path × Chars) :=
  if colons n = [] then
    match findUp t n opt with
    | some r => .ok r
    | none => .error (.parse "Cannot find variable")
  else
    let s := walk n (colons n) ([], 0)
    match t.val s.1 (n.drop s.2) with
    | some v => .ok (s.1, v)
    | none => .error (.parse "Cannot find variable")

variable {R : Type}

/-- The members `parse` and `resolve` change: `cache`, `lookup` (last key first) and `options`. -/
structure St (R : Type) where
  cache : List (Chars × Gen R)
  lookup : List Chars
  options : Path

/-- field_factory.cxx:341-352: the key of a name. -/
def keyOf (opt : Path) (n : Chars) : Chars :=
  if ':' ∈ n then n else if (str opt).length > 0 then str opt ++ ':' :: n else n

/-- field_factory.cxx:434-438: the key of a text. -/
def textKey (opt : Option Path) (input : Chars) : Chars :=
  match opt with
  | some p => str p ++ '#' :: input
  | none => '#' :: input

/-- The parser with the given meanings of names. -/
def withR (env : Env R) (r : Chars → Except Err (Option (Gen R))) : Env R := { env with resolve := r }

/-- The answers so far; the parser stops at any other name. -/
def known (ans : List (Chars × Gen R)) (n : Chars) : Except Err (Option (Gen R)) :=
  match ans.lookup n with
  | some g => .ok (some g)
  | none => .error (.ask n)

variable [Zero R]

mutual
/-- field_factory.cxx:339-411 `resolve`, without recursion (`max_recursion_depth` 0). -/
def resolve (env : Env R) (t : Tree) (n : Chars) (st : St R) : Option (Except Err (Gen R) × St R) :=
  match st.cache.lookup (keyOf st.options n) with
  | some g => some (.ok g, st)
  | none =>
    if keyOf st.options n ∈ st.lookup then some (.error (.parse "Infinite recursion"), st)
    else match findOption t st.options n with
      | .error e => some (.error e, st)
      | .ok sv =>
        parse env t sv.2 (some sv.1) { st with lookup := keyOf st.options n :: st.lookup } >>= fun r =>
        match r.1 with
        | .error e => some (.error e, r.2)
        | .ok g => some (.ok g, { r.2 with cache := (keyOf st.options n, g) :: r.2.cache, lookup := r.2.lookup.tail })
partial_fixpoint

/-- field_factory.cxx:431-460 `parse`. -/
def parse (env : Env R) (t : Tree) (input : Chars) (opt : Option Path) (st : St R) :
    Option (Except Err (Gen R) × St R) :=
  match st.cache.lookup (textKey opt input) with
  | some g => some (.ok g, st)
  | none =>
    run env t input [] { st with options := opt.getD st.options } >>= fun r =>
    match r.1 with
    | .error e => some (.error e, r.2)
    | .ok g => some (.ok g, { r.2 with cache := (textKey opt input, g) :: r.2.cache, options := st.options })
partial_fixpoint

/-- field_factory.cxx:453 `parseString(input)`, with the calls to `resolve` it makes (expressionparser.cxx:384-392). -/
def run (env : Env R) (t : Tree) (input : Chars) (ans : List (Chars × Gen R)) (st : St R) :
    Option (Except Err (Gen R) × St R) :=
  (parseString (withR env (known ans)) input).run >>= fun x =>
  match x with
  | .ok g => some (.ok g, st)
  | .error (.ask n) =>
    resolve env t n st >>= fun r =>
    match r.1 with
    | .error e => some (.error e, r.2)
    | .ok g => run env t input ((n, g) :: ans) r.2
  | .error e => some (.error e, st)
partial_fixpoint
end

/-- field_factory.cxx:468 `cleanCache`. -/
def cleanCache (st : St R) : St R := { st with cache := [] }

end Verif.Expr.Fac
