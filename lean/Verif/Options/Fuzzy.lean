import Verif.Options.Paths
import Verif.Sys.Edit

/-!
# Approximate matches of names: `Options::fuzzyFind`, the suggestions of `checkForUnusedOptions`,
`ExpressionParser::fuzzyFind` and `FieldFactory::fuzzyFind`

`tl` stands for `std::tolower`.  A `std::multiset` is the list of its elements in order; a new
element goes to the first place where it is less than the next one (`insert` of equivalent elements
goes to the upper end of their range).
-/
namespace Verif.Opt
open Verif.Str (Chars)
open Verif.Edit (editDistance)

/-- options.hxx:329-338 `Options::FuzzyMatch`. -/
structure Match where
  opt : Data
  distance : Nat

/-- `std::multiset::insert` with comparison `lt`. -/
def insertBy {α : Type} (lt : α → α → Bool) (m : α) : List α → List α
  | [] => [m]
  | x :: xs => if lt m x then m :: x :: xs else x :: insertBy lt m xs

/-- options.hxx:335-337. -/
def ltMatch (a b : Match) : Bool := decide (a.distance < b.distance)

/-- options.hxx:704-712 `name()`: what follows the last colon. -/
def lastName (s : Chars) : Chars := (s.reverse.takeWhile fun c => decide (c ≠ ':')).reverse

/-- options.cxx:173-192, the test of `insert_if_match`: the distance inserted, or `none` when it
returns false. -/
def near (tl : Char → Char) (name : Chars) (D : Nat) (o : Data) (poss : Chars) (extra : Nat) :
    Option Nat :=
  if o.isSection then none
  else if name ≠ poss ∧ name.map tl = poss.map tl then some (1 + extra)
  else if editDistance name poss + extra ≤ D then some (editDistance name poss + extra)
  else none

/-- options.cxx:196-202: one child, first its full name and then its own name. -/
def score (tl : Char → Char) (name : Chars) (D : Nat) (o : Data) : Option Nat :=
  match near tl name D o o.fullName 0 with
  | some k => some k
  | none => near tl name D o (lastName o.fullName) 1

/-- The insertion of an optional match. -/
def insertOpt (o : Data) (k : Option Nat) (acc : List Match) : List Match :=
  match k with
  | some k => insertBy ltMatch ⟨o, k⟩ acc
  | none => acc

mutual
/-- options.cxx:167-211 `Options::fuzzyFind`. -/
def Tree.fuzzyFind (tl : Char → Char) (name : Chars) (D : Nat) : Tree → List Match
  | .node d cs => cs.fuzzyLoop tl name D (insertOpt d (near tl name D d d.fullName 0) [])
/-- options.cxx:196-208: the loop over the children with what was found so far. -/
def Kids.fuzzyLoop (tl : Char → Char) (name : Chars) (D : Nat) : Kids → List Match → List Match
  | .nil, acc => acc
  | .cons _ t r, acc =>
    let acc1 := insertOpt t.data (score tl name D t.data) acc
    let acc2 := if t.data.isSection then
        (t.fuzzyFind tl name D).foldl (fun a m => insertBy ltMatch m a) acc1
      else acc1
    r.fuzzyLoop tl name D acc2
end

/-- options.cxx:1074-1082: matches that are not suggested. -/
def rejected (solver : Chars) (m : Match) : Bool :=
  decide (m.distance = 0) || !m.opt.used ||
    decide (m.opt.source = some solver) || decide (m.opt.source = some outputSource)

/-- `"Solver"`. -/
def solverSource : Chars := ['S', 'o', 'l', 'v', 'e', 'r']

/-- options.cxx:1062-1092: the suggestions shown for each unused option when `checkForUnusedOptions`
throws (default distance 4, options.hxx:352). -/
def suggestions (tl : Char → Char) (t : Tree) : List (Chars × List Match) :=
  ((t.unused [outputSource, userDefault]).kids.flatKeys.map fun key =>
    (key, (t.fuzzyFind tl key 4).filter fun m => !rejected solverSource m)).filter
      fun e => !e.2.isEmpty

/-! ## Expressions -/

/-- expressionparser.hxx:134-143 `ExpressionParser::FuzzyMatch`. -/
abbrev NameMatch := Chars × Nat

/-- expressionparser.hxx:140-142: `operator<`. -/
def ltName (a b : NameMatch) : Bool := decide (a.2 < b.2) && decide (a.1 < b.1)

/-- expressionparser.cxx:256-265: the test of one generator name. -/
def nearKey (tl : Char → Char) (name : Chars) (D : Nat) (key : Chars) : Option Nat :=
  if key ≠ name ∧ key.map tl = name.map tl then some 1
  else if editDistance key name ≤ D then some (editDistance key name)
  else none

/-- expressionparser.cxx:251-268 `ExpressionParser::fuzzyFind`; `keys` are the names of the
generators in the order of the map. -/
def parserFind (tl : Char → Char) (name : Chars) (D : Nat) (keys : List Chars) : List NameMatch :=
  keys.foldl (fun acc key => match nearKey tl name D key with
    | some k => insertBy ltName (key, k) acc
    | none => acc) []

/-- field_factory.cxx:413-430 `FieldFactory::fuzzyFind`: the options are added. -/
def factoryFind (tl : Char → Char) (name : Chars) (D : Nat) (keys : List Chars)
    (options : Option Tree) : List NameMatch :=
  match options with
  | none => parserFind tl name D keys
  | some t => (t.fuzzyFind tl name D).foldl
      (fun acc m => insertBy ltName (m.opt.fullName, m.distance) acc) (parserFind tl name D keys)

/-- expressionparser.cxx:290-304: the suggestion in the message about an unknown generator. -/
def didYouMean (found : List NameMatch) : Option Chars :=
  (found.filter fun m => !decide (m.2 = 0)).head?.map Prod.fst

end Verif.Opt
