import Verif.Num.Stencil
import Verif.Sys.Str

/-!
# C65: the store of derivative methods

Model of `include/bout/deriv_store.hxx` L57-536 (`DerivativeStore`) and of the `toString` functions its keys are made
of (`src/sys/bout_types.cxx` L46-73, L118-138).

Simplifications: `std::hash<std::string>` is an arbitrary function `hash` into 64-bit words (the standard fixes nothing
else about it); the unordered maps are association lists, newest entry first; the stored `std::function` is an
arbitrary value of a type `F`; options are a function from section and key to the value the user set; messages, traces
and the listing of methods are left out.  The stores for `Field3D` and `Field2D` are two independent values of `Store`.
-/
namespace Verif.Deriv
open Verif.Str Verif.Num

/-- `enum class DERIV` (`include/bout/bout_types.hxx`). -/
inductive Deriv | standard | second | fourth | upwind | flux
  deriving DecidableEq, Repr

/-- `enum class DIRECTION` (`include/bout/bout_types.hxx`); `YAligned` takes no part in derivatives. -/
inductive Dir | x | y | yOrth | z
  deriving DecidableEq, Repr

/-- bout_types.cxx:64-74. -/
def Dir.name : Dir → Chars
  | .x => "X".toList
  | .y => "Y".toList
  | .yOrth => "Y - orthogonal".toList
  | .z => "Z".toList

/-- bout_types.cxx:118-126. -/
def stagName : Stagger → Chars
  | .none => "No staggering".toList
  | .c2l => "Centre to Low".toList
  | .l2c => "Low to Centre".toList

/-- bout_types.cxx:128-138. -/
def Deriv.name : Deriv → Chars
  | .standard => "Standard".toList
  | .second => "Standard -- second order".toList
  | .fourth => "Standard -- fourth order".toList
  | .upwind => "Upwind".toList
  | .flux => "Flux".toList

/-- bout_types.cxx:48-49 `toString(DIFF_DEFAULT)`. -/
def defaultName : Chars := "DEFAULT".toList

/-- The exceptions the store throws. -/
inductive Err
  /-- deriv_store.hxx:142-146, 150-154, 158-162, 184-188, 192-196: a second registration under a key. -/
  | override
  /-- deriv_store.hxx:165-169, 199-203, 247-251, 289-294: wrong derivative type for the signature. -/
  | badType
  /-- deriv_store.hxx:258-260, 301-303: no method under the key. -/
  | notFound
  /-- `std::out_of_range` of `defaultMethods.at` (deriv_store.hxx:235-236, 279-280). -/
  | noDefault
  /-- a failed assertion of the caller (index_derivs.cxx:47-72, index_derivs.hxx:84-85). -/
  | assertion
  /-- field_data.cxx:38-44: an off-centre location on a grid without staggering. -/
  | location
  deriving DecidableEq, Repr

/-- A 64-bit `std::size_t`. -/
abbrev Key := BitVec 64

/-- deriv_store.hxx:508-519 `getKey`. -/
def getKey (hash : Chars → Key) (d : Dir) (s : Stagger) (name : Chars) : Key :=
  (hash d.name ^^^ hash (stagName s)) ^^^ hash name

/-- `count`/`find` of a map. -/
def find {V : Type} (k : Key) : List (Key × V) → Option V
  | [] => none
  | (k', v) :: rest => if k' = k then some v else find k rest

/-- deriv_store.hxx:436-450: the data members. -/
structure Store (F : Type) where
  standard : List (Key × F)
  second : List (Key × F)
  fourth : List (Key × F)
  upwind : List (Key × F)
  flux : List (Key × F)
  registered : List (Key × Chars)
  defaults : List (Key × Chars)

variable {F : Type}

/-- The map that holds the methods of a derivative type (deriv_store.hxx:140-164, 182-198, 239-252, 283-295). -/
def Store.map (s : Store F) : Deriv → List (Key × F)
  | .standard => s.standard
  | .second => s.second
  | .fourth => s.fourth
  | .upwind => s.upwind
  | .flux => s.flux

/-- `map[key] = func` and L172, L206: `registeredMethods[..].insert(methodName)`; the set of names is kept as the pairs
(key, name) inserted. -/
def Store.add (s : Store F) (t : Deriv) (k : Key) (f : F) (tk : Key) (name : Chars) : Store F :=
  let s := { s with registered := (tk, name) :: s.registered }
  match t with
  | .standard => { s with standard := (k, f) :: s.standard }
  | .second => { s with second := (k, f) :: s.second }
  | .fourth => { s with fourth := (k, f) :: s.fourth }
  | .upwind => { s with upwind := (k, f) :: s.upwind }
  | .flux => { s with flux := (k, f) :: s.flux }

/-- Whether a derivative type has the upwind/flux signature. -/
def Deriv.isFlow : Deriv → Bool
  | .upwind | .flux => true
  | _ => false

/-- deriv_store.hxx:135-173 and 177-207 `registerDerivative`, the two overloads told apart by `flow`. -/
def register (hash : Chars → Key) (flow : Bool) (f : F) (t : Deriv) (d : Dir) (st : Stagger) (name : Chars)
    (s : Store F) : Except Err (Store F) :=
  let key := getKey hash d st name
  if t.isFlow ≠ flow then .error .badType
  else if (find key (s.map t)).isSome then .error .override
  else .ok (s.add t key f (getKey hash d st t.name) name)

/-- deriv_store.hxx:497-499 `nameLookup`. -/
def nameLookup (name dflt : Chars) : Chars := if name ≠ defaultName then name else dflt

/-- deriv_store.hxx:230-261 `getStandardDerivative` and 275-304 `getFlowDerivative`, told apart by `flow`. -/
def get (hash : Chars → Key) (flow : Bool) (name : Chars) (d : Dir) (st : Stagger) (t : Deriv) (s : Store F) :
    Except Err F :=
  match find (getKey hash d st t.name) s.defaults with
  | none => .error .noDefault
  | some dflt =>
    if t.isFlow ≠ flow then .error .badType
    else match find (getKey hash d st (nameLookup name dflt)) (s.map t) with
      | some f => .ok f
      | none => .error .notFound

/-- deriv_store.hxx:101-112 `getAvailableMethods`, as the list of the names (the C++ returns the set of them). -/
def available (hash : Chars → Key) (t : Deriv) (d : Dir) (st : Stagger) (s : Store F) : List Chars :=
  (s.registered.filter (fun p => p.1 = getKey hash d st t.name)).map Prod.snd

/-- `defaultMethods[key] = name`. -/
def Store.setDefault (s : Store F) (k : Key) (name : Chars) : Store F :=
  { s with defaults := (k, name) :: s.defaults }

/-- `uppercase` of utils.hxx. -/
def upper (s : Chars) : Chars := s.map Char.toUpper

/-- The order in which `std::map<DIRECTION, ..>` is walked (deriv_store.hxx:325-328, 459-462). -/
def dirs : List Dir := [.x, .y, .z, .yOrth]

/-- The order in which `std::map<DERIV, ..>` is walked (deriv_store.hxx:330-334, 464-468). -/
def derivs : List Deriv := [.standard, .second, .fourth, .upwind, .flux]

/-- deriv_store.hxx:453-457 `initialDefaultMethods`. -/
def initialDefault : Deriv → Chars
  | .standard | .second | .fourth => "C2".toList
  | .upwind | .flux => "U1".toList

/-- deriv_store.hxx:452-489 `setDefaults`, for one direction and type. -/
def setDefault1 (hash : Chars → Key) (s : Store F) (d : Dir) (t : Deriv) : Store F :=
  let dflt := upper (initialDefault t)
  ((s.setDefault (getKey hash d .none t.name) dflt).setDefault (getKey hash d .l2c t.name) dflt).setDefault
    (getKey hash d .c2l t.name) dflt

/-- All pairs of a direction and a type, in the order of the two nested loops. -/
def pairs : List (Dir × Deriv) := dirs.flatMap (fun d => derivs.map (fun t => (d, t)))

/-- deriv_store.hxx:452-489 `setDefaults`. -/
def setDefaults (hash : Chars → Key) (s : Store F) : Store F :=
  pairs.foldl (fun s p => setDefault1 hash s p.1 p.2) s

/-- deriv_store.hxx:410-418 `clear`. -/
def clear : Store F := ⟨[], [], [], [], [], [], []⟩

/-- deriv_store.hxx:430-434, the constructor, and 421-425 `reset`. -/
def fresh (hash : Chars → Key) : Store F := setDefaults hash clear

/-- The section of a direction (deriv_store.hxx:325-328). -/
def Dir.sect : Dir → Chars
  | .x => "ddx".toList
  | .y | .yOrth => "ddy".toList
  | .z => "ddz".toList

/-- The key of a derivative type in the input file (deriv_store.hxx:330-334). -/
def Deriv.opt : Deriv → Chars
  | .standard => "first".toList
  | .second => "second".toList
  | .fourth => "fourth".toList
  | .upwind => "upwind".toList
  | .flux => "flux".toList

/-- The user's options: `opts section key` is the text set, if any. -/
abbrev Opts := Chars → Chars → Option Chars

/-- deriv_store.hxx:338-397, the body of the two nested loops of `initialise`.  `defaultMethods[..]` of a missing entry
is the empty string. -/
def initialise1 (hash : Chars → Key) (o : Opts) (s : Store F) (d : Dir) (t : Deriv) : Store F :=
  let dflt := (find (getKey hash d .none t.name) s.defaults).getD []
  let dflt := match o d.sect t.opt with
    | some v => v
    | none => match o "diff".toList t.opt with
      | some v => v
      | none => dflt
  let dflt := upper dflt
  let s := s.setDefault (getKey hash d .none t.name) dflt
  let dflt := match o (d.sect ++ "stag".toList) t.opt with
    | some v => v
    | none => dflt
  let dflt := upper dflt
  (s.setDefault (getKey hash d .l2c t.name) dflt).setDefault (getKey hash d .c2l t.name) dflt

/-- deriv_store.hxx:318-400 `initialise`. -/
def initialise (hash : Chars → Key) (o : Opts) (s : Store F) : Store F :=
  pairs.foldl (fun s p => initialise1 hash o s p.1 p.2) s

/-- deriv_store.hxx:403-407 `forceDefaultMethod`. -/
def force (hash : Chars → Key) (name : Chars) (t : Deriv) (d : Dir) (st : Stagger) (s : Store F) : Store F :=
  s.setDefault (getKey hash d st t.name) (upper name)

/-! ## Histories of calls -/

/-- The calls that change the store. -/
inductive Op (F : Type)
  | register (flow : Bool) (f : F) (t : Deriv) (d : Dir) (st : Stagger) (name : Chars)
  | initialise (o : Opts)
  | force (name : Chars) (t : Deriv) (d : Dir) (st : Stagger)

/-- One call; a registration that throws leaves the store as it was. -/
def step (hash : Chars → Key) (s : Store F) : Op F → Store F
  | .register flow f t d st name => match Verif.Deriv.register hash flow f t d st name s with
    | .ok s' => s'
    | .error _ => s
  | .initialise o => Verif.Deriv.initialise hash o s
  | .force name t d st => Verif.Deriv.force hash name t d st s

/-- A history of calls on a new store. -/
def after (hash : Chars → Key) (h : List (Op F)) : Store F := h.foldl (step hash) (fresh hash)

end Verif.Deriv
