import Verif.Deriv.StoreProps

/-!
# C65: derivative calls

Model of the built-in registrations (`src/mesh/index_derivs.cxx` L74-584, `include/bout/index_derivs.hxx` L155-328:
`registerMethod` and the `REGISTER_*` macros) and of the index-space derivatives (`include/bout/index_derivs_interface.hxx`
L45-165 `flowDerivative`, `standardDerivative`; `Mesh::getStagger`, `src/mesh/index_derivs.cxx` L47-72;
`bout::normaliseLocation`, `src/field/field_data.cxx` L15-46).

Simplifications: a field is its cell location and its values along the line of the derivative (one line of the region;
the lines are independent); the region is the set of points of that line; points outside it keep the arbitrary values
`junk` of a new field; `checkData` is left out; the assertions are taken at CHECK level 2 and higher; the two FFT methods
act on the whole line and are parameters `fft` (their meaning is C53).
-/
namespace Verif.Deriv
open Verif.Str Verif.Num

variable {K : Type} [Field K] [LinearOrder K] [IsStrictOrderedRing K]

/-- `enum class CELL_LOC` (`include/bout/bout_types.hxx`), without `CELL_DEFAULT`. -/
inductive Loc | centre | xlow | ylow | zlow | vshift
  deriving DecidableEq, Repr

/-- `Mesh::getAllowedStaggerLoc` (`include/bout/mesh.hxx` L615-629). -/
def Dir.low : Dir → Loc
  | .x => .xlow
  | .y | .yOrth => .ylow
  | .z => .zlow

/-- The built-in methods, one for each `REGISTER_*` in index_derivs.cxx. -/
inductive Impl
  | ddxC2 | ddxC4 | ddxW2 | ddxS2 | d2C2 | d2C4 | d4C2
  | vC2 | vC4 | vU1 | vU2 | vU3 | vW3 | ddxW3
  | fU1 | fU2 | fC2 | fC4
  | ddxC2s | ddxC4s | d2C2s | vU1s | vU2s | vC2s | vC4s | fU1s | fU2s
  | fft1 | fft2 | split
  deriving DecidableEq, Repr

/-- `metaData` (index_derivs.hxx:56-64): key, number of guard cells, type. -/
structure Meta where
  key : Chars
  nGuards : Nat
  type : Deriv

/-- The arguments of the `REGISTER_*` macros: index_derivs.cxx:74, 79, 84, 106, 123, 128, 135, 152, 157, 162, 171, 182,
194, 223, 270, 286, 299, 303, 330, 334, 341, 348, 361, 377, 383, 393, 403, 478, 545, 576. -/
def Impl.meta : Impl → Meta
  | .ddxC2 => ⟨"C2".toList, 1, .standard⟩
  | .ddxC4 => ⟨"C4".toList, 2, .standard⟩
  | .ddxW2 => ⟨"W2".toList, 1, .standard⟩
  | .ddxS2 => ⟨"S2".toList, 2, .standard⟩
  | .d2C2 => ⟨"C2".toList, 1, .second⟩
  | .d2C4 => ⟨"C4".toList, 2, .second⟩
  | .d4C2 => ⟨"C2".toList, 2, .fourth⟩
  | .vC2 => ⟨"C2".toList, 1, .upwind⟩
  | .vC4 => ⟨"C4".toList, 2, .upwind⟩
  | .vU1 => ⟨"U1".toList, 1, .upwind⟩
  | .vU2 => ⟨"U2".toList, 2, .upwind⟩
  | .vU3 => ⟨"U3".toList, 2, .upwind⟩
  | .vW3 => ⟨"W3".toList, 2, .upwind⟩
  | .ddxW3 => ⟨"W3".toList, 2, .standard⟩
  | .fU1 => ⟨"U1".toList, 1, .flux⟩
  | .fU2 => ⟨"U2".toList, 2, .flux⟩
  | .fC2 => ⟨"C2".toList, 2, .flux⟩
  | .fC4 => ⟨"C4".toList, 2, .flux⟩
  | .ddxC2s => ⟨"C2".toList, 1, .standard⟩
  | .ddxC4s => ⟨"C4".toList, 2, .standard⟩
  | .d2C2s => ⟨"C2".toList, 2, .second⟩
  | .vU1s => ⟨"U1".toList, 1, .upwind⟩
  | .vU2s => ⟨"U2".toList, 2, .upwind⟩
  | .vC2s => ⟨"C2".toList, 1, .upwind⟩
  | .vC4s => ⟨"C4".toList, 2, .upwind⟩
  | .fU1s => ⟨"U1".toList, 1, .flux⟩
  | .fU2s => ⟨"U2".toList, 2, .flux⟩
  | .fft1 => ⟨"FFT".toList, 0, .standard⟩
  | .fft2 => ⟨"FFT".toList, 0, .second⟩
  | .split => ⟨"SPLIT".toList, 2, .flux⟩

/-- The methods registered with `REGISTER_*_DERIVATIVE` (unstaggered), in the order of the file. -/
def unstaggered : List Impl := [.ddxC2, .ddxC4, .ddxW2, .ddxS2, .d2C2, .d2C4, .d4C2, .vC2, .vC4, .vU1, .vU2, .vU3,
  .vW3, .ddxW3, .fU1, .fU2, .fC2, .fC4]

/-- The methods registered with `REGISTER_*_DERIVATIVE_STAGGERED`. -/
def staggered : List Impl := [.ddxC2s, .ddxC4s, .d2C2s, .vU1s, .vU2s, .vC2s, .vC4s, .fU1s, .fU2s]

/-- The directions of the `Set<..>` in the registration macros (index_derivs.hxx:283-284, 292-293). -/
def regDirs : List Dir := [.x, .y, .yOrth, .z]

/-- One built-in registration. -/
structure Reg where
  impl : Impl
  dir : Dir
  stag : Stagger
  deriving DecidableEq

/-- index_derivs.hxx:280-299 (the `produceCombinations` of the macros) and index_derivs.cxx:549-552, 579-584, for one
field type: `is3D` is `Field3D`, `fftw` is `BOUT_HAS_FFTW`. -/
def builtinRegs (is3D fftw : Bool) : List Reg :=
  unstaggered.flatMap (fun m => regDirs.map (fun d => ⟨m, d, .none⟩)) ++
  staggered.flatMap (fun m => regDirs.flatMap (fun d => [⟨m, d, .c2l⟩, ⟨m, d, .l2c⟩])) ++
  (if is3D && fftw then [⟨.fft1, .z, .none⟩, ⟨.fft2, .z, .none⟩] else []) ++
  regDirs.flatMap (fun d => [⟨.split, d, .none⟩, ⟨.split, d, .c2l⟩, ⟨.split, d, .l2c⟩])

/-- index_derivs.hxx:155-217 `registerMethod`: the overload is chosen by the type. -/
def Reg.op (r : Reg) : Op Impl :=
  .register r.impl.meta.type.isFlow r.impl r.impl.meta.type r.dir r.stag r.impl.meta.key

/-- The registrations made before `main`. -/
def builtins (is3D fftw : Bool) : List (Op Impl) := (builtinRegs is3D fftw).map Reg.op

/-- The stencil of a standard method (index_derivs.cxx). -/
def Impl.std : Impl → Option (Stencil K → K)
  | .ddxC2 => some DDX_C2
  | .ddxC4 => some DDX_C4
  | .ddxW2 => some DDX_CWENO2
  | .ddxS2 => some DDX_S2
  | .d2C2 => some D2DX2_C2
  | .d2C4 => some D2DX2_C4
  | .d4C2 => some D4DX4_C2
  | .ddxW3 => some DDX_CWENO3
  | .ddxC2s => some DDX_C2_stag
  | .ddxC4s => some DDX_C4_stag
  | .d2C2s => some D2DX2_C2_stag
  | _ => none

/-- The stencil of an unstaggered upwind method. -/
def Impl.upw : Impl → Option (K → Stencil K → K)
  | .vC2 => some VDDX_C2
  | .vC4 => some VDDX_C4
  | .vU1 => some VDDX_U1
  | .vU2 => some VDDX_U2
  | .vU3 => some VDDX_U3
  | .vW3 => some VDDX_WENO3
  | _ => none

/-- The stencil of a flux method or of a staggered upwind method. -/
def Impl.flx : Impl → Option (Stencil K → Stencil K → K)
  | .fU1 => some FDDX_U1
  | .fU2 => some FDDX_U2
  | .fC2 => some FDDX_C2
  | .fC4 => some FDDX_C4
  | .vU1s => some VDDX_U1_stag
  | .vU2s => some VDDX_U2_stag
  | .vC2s => some VDDX_C2_stag
  | .vC4s => some VDDX_C4_stag
  | .fU1s => some FDDX_U1_stag
  | .fU2s => some FDDX_U2_stag
  | _ => none

/-- A field along one line. -/
structure LField (K : Type) where
  loc : Loc
  val : Int → K

/-- What the derivative kernels use of the mesh (`include/bout/mesh.hxx` L612-665), the store and the rest of the
environment. -/
structure Env (K : Type) where
  hash : Chars → Key
  store : Store Impl
  staggerGrids : Bool
  npoints : Dir → Nat
  nguard : Dir → Nat
  /-- Value of a stencil point that is not filled. -/
  nan : K
  /-- Values of a field that is allocated but not set. -/
  junk : Int → K
  /-- First and second FFT derivative of a line. -/
  fft1 : (Int → K) → Int → K
  fft2 : (Int → K) → Int → K

/-- field_data.cxx:15-46 `normaliseLocation`, of a location that is not `CELL_DEFAULT`. -/
def normaliseLocation (e : Env K) (l : Loc) : Except Err Loc :=
  if e.staggerGrids then (if l = .vshift then .error .location else .ok l)
  else if l ≠ .centre then .error .location else .ok .centre

/-- index_derivs.cxx:47-62 `Mesh::getStagger`, three arguments. -/
def stagger3 (e : Env K) (inloc outloc allowed : Loc) : Except Err Stagger :=
  if ¬ (outloc = inloc ∨ (outloc = .centre ∧ inloc = allowed) ∨ (outloc = allowed ∧ inloc = .centre)) then
    .error .assertion
  else if e.staggerGrids = false ∨ outloc = inloc then .ok .none
  else if outloc = allowed then .ok .c2l
  else .ok .l2c

/-- index_derivs.cxx:64-72 `Mesh::getStagger`, four arguments. -/
def stagger4 (e : Env K) (vloc inloc outloc allowed : Loc) : Except Err Stagger :=
  if inloc ≠ outloc then .error .assertion
  else if ¬ (vloc = inloc ∨ (vloc = .centre ∧ inloc = allowed) ∨ (vloc = allowed ∧ inloc = .centre)) then
    .error .assertion
  else stagger3 e vloc outloc allowed

/-- The template argument `nGuards` that `registerMethod` picks (index_derivs.hxx:180-196, 200-221): 1, or else 2. -/
def Impl.wide (m : Impl) : Bool := m.meta.nGuards ≠ 1

/-- `ASSERT2(getNguard(direction) >= nGuards)` with that template argument. -/
def guardsOK (e : Env K) (d : Dir) (m : Impl) : Bool := (if m.wide then 2 else 1) ≤ e.nguard d

/-- index_derivs.hxx:80-90 `DerivativeType::standard`, index_derivs.cxx:422-467 and 487-530 the FFT methods: the value at
a point of the region. -/
def stdValue (e : Env K) (m : Impl) (st : Stagger) (f : Int → K) (i : Int) : K :=
  match m with
  | .fft1 => e.fft1 f i
  | .fft2 => e.fft2 f i
  | m => match (m.std : Option (Stencil K → K)) with
    | some func => standard func st m.wide e.nan f i
    | none => e.nan

/-- index_derivs_interface.hxx:111-165 `standardDerivative`. -/
def standardDerivative (e : Env K) (d : Dir) (t : Deriv) (f : LField K) (outloc : Option Loc) (method : Chars)
    (region : Int → Bool) : Except Err (LField K) := do
  let out := outloc.getD f.loc
  let st ← stagger3 e f.loc out d.low
  if e.npoints d = 1 then
    let l ← normaliseLocation e out
    return ⟨l, fun _ => 0⟩
  let m ← get e.hash false method d st t e.store
  let l ← normaliseLocation e out
  if ¬ guardsOK e d m then throw .assertion
  return ⟨l, fun i => if region i then stdValue e m st f.val i else e.junk i⟩

/-- index_derivs.hxx:92-111 `DerivativeType::upwindOrFlux`: the value at a point of the region. -/
def flowVal (e : Env K) (m : Impl) (st : Stagger) (v f : Int → K) (i : Int) : K :=
  if m.meta.type = .flux ∨ st ≠ .none then
    match (m.flx : Option (Stencil K → Stencil K → K)) with
    | some func => flowStencil func st m.wide e.nan v f i
    | none => e.nan
  else match (m.upw : Option (K → Stencil K → K)) with
    | some func => flowValue func m.wide e.nan v f i
    | none => e.nan

/-- index_derivs_interface.hxx:45-108 `flowDerivative`, with the methods other than `SPLIT`. -/
def flowDerivative0 (e : Env K) (d : Dir) (t : Deriv) (v f : LField K) (outloc : Option Loc) (method : Chars)
    (region : Int → Bool) : Except Err (LField K) := do
  let out := outloc.getD f.loc
  let st ← stagger4 e v.loc f.loc out d.low
  if e.npoints d = 1 then
    let l ← normaliseLocation e out
    return ⟨l, fun _ => 0⟩
  let m ← get e.hash true method d st t e.store
  let l ← normaliseLocation e out
  if ¬ guardsOK e d m then throw .assertion
  return ⟨l, fun i => if region i then flowVal e m st v.val f.val i else e.junk i⟩

/-- index_derivs_interface.hxx:45-108 `flowDerivative`, and for `SPLIT` index_derivs.cxx:556-577
`SplitFluxDerivativeType::upwindOrFlux` (which has no guard-cell assertion; `interp_to` at the field's own location is
the identity). -/
def flowDerivative (e : Env K) (d : Dir) (t : Deriv) (v f : LField K) (outloc : Option Loc) (method : Chars)
    (region : Int → Bool) : Except Err (LField K) := do
  let out := outloc.getD f.loc
  let st ← stagger4 e v.loc f.loc out d.low
  if e.npoints d = 1 then
    let l ← normaliseLocation e out
    return ⟨l, fun _ => 0⟩
  let m ← get e.hash true method d st t e.store
  let l ← normaliseLocation e out
  if m = .split then
    let a ← flowDerivative0 e d .upwind v f (some l) defaultName region
    let b ← standardDerivative e d .standard v (some l) defaultName region
    return ⟨a.loc, fun i => a.val i + b.val i * f.val i⟩
  if ¬ guardsOK e d m then throw .assertion
  return ⟨l, fun i => if region i then flowVal e m st v.val f.val i else e.junk i⟩

end Verif.Deriv
