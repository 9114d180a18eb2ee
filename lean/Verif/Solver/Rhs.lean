import Mathlib.Algebra.Ring.Defs

/-!
# C87: the three right-hand-side entry points of the solver

Model of `Solver::run_rhs`, `run_convective`, `run_diffusive`, `pre_rhs`, `post_rhs`, `add_mms_sources`,
`calculate_mms_error` and the call counters (src/solver/solver.cxx:862-865, 928-946, 1355-1575), with the status test of the
first call (`src/solver/solver.cxx:548`).

The user's functions are arbitrary functions of time, the `linear` flag and the whole field memory.  Simplifications: values
and time derivatives are functions of the field number and the flat point number over an arbitrary commutative ring (exact
arithmetic); the moves between fields and flat vectors inside the split branch are written by their effect, proved for the
loops themselves in C25 (`C25_split_rhs`); a boundary condition acts on its own field only; cell locations, data checks at
level 3, timers and exceptions thrown by user code are left out; vectors are not staggered (`CELL_VSHIFT` is left out).
-/
namespace Verif.Rhs

/-- include/bout/solver.hxx:371-383 `VarStr` for a field: its number and the two flags. -/
structure Fld where
  id : Nat
  constraint : Bool
  evolve : Bool

/-- include/bout/solver.hxx `VarStr` for a vector: its number, its components' field numbers and the basis it evolves in. -/
structure Vec where
  k : Nat
  x : Nat
  y : Nat
  z : Nat
  covariant : Bool

/-- Field memory: values, time derivatives, "the time derivative is allocated", "the vector's time derivative is covariant". -/
structure St (R : Type) where
  v : Nat → Nat → R
  d : Nat → Nat → R
  set : Nat → Bool
  cov : Nat → Bool

/-- Everything fixed during a call: the lists of variables, the flags, the boundary conditions on values (`bc`) and on time
derivatives (`dbc`), the metric tensors `g_ij` (`gl`) and `g^ij` (`gu`), the manufactured source and solution, and which
elements are evolved (`ev`). -/
structure Cfg (R : Type) where
  f2 : List Fld
  f3 : List Fld
  v2 : List Vec
  v3 : List Vec
  mms : Bool
  /-- option `is_nonsplit_model_diffusive`, default true -/
  diffusive : Bool
  split : Bool
  bc : Nat → Int → (Nat → R) → Nat → R
  dbc : Nat → (Nat → R) → Nat → R
  gl : Nat → Nat → Nat → R
  gu : Nat → Nat → Nat → R
  source : Nat → Int → Nat → R
  solution : Nat → Int → Nat → R
  ev : Nat → Nat → Bool

/-- The user's functions (src/physics/physicsmodel.cxx:124-134). -/
structure Model (R : Type) where
  rhs : Int → Bool → St R → St R × Int
  conv : Int → Bool → St R → St R × Int
  diff : Int → Bool → St R → St R × Int

/-- Assignment to one entry. -/
def upd {α : Type} (g : Nat → α) (i : Nat) (x : α) : Nat → α := fun j => if j = i then x else g j

variable {R : Type} [CommRing R]

/-- solver.cxx:1463-1467, 1469-1473: one turn of the loops of `pre_rhs`. -/
def preStep (C : Cfg R) (t : Int) (s : St R) (f : Fld) : St R :=
  if f.constraint then s else { s with v := upd s.v f.id (C.bc f.id t (s.v f.id)) }

/-- solver.cxx:1460-1474 `pre_rhs`. -/
def pre (C : Cfg R) (t : Int) (s : St R) : St R :=
  C.f3.foldl (preStep C t) (C.f2.foldl (preStep C t) s)

/-- src/field/vector3d.cxx:65-157 (`toCovariant`, `toContravariant`): one new component. -/
def turn (m : Nat → Nat → Nat → R) (a b c : Nat → R) (r : Nat) : Nat → R :=
  fun p => m p r 0 * a p + m p r 1 * b p + m p r 2 * c p

/-- solver.cxx:1485-1491, 1492-1498: one turn of the loops over vectors in `post_rhs`. -/
def basis (C : Cfg R) (s : St R) (w : Vec) : St R :=
  if s.cov w.k = w.covariant then s
  else
    let m := if w.covariant then C.gl else C.gu
    { s with
      cov := upd s.cov w.k w.covariant
      d := upd (upd (upd s.d w.x (turn m (s.d w.x) (s.d w.y) (s.d w.z) 0))
        w.y (turn m (s.d w.x) (s.d w.y) (s.d w.z) 1)) w.z (turn m (s.d w.x) (s.d w.y) (s.d w.z) 2) }

/-- solver.cxx:1506-1511, 1513-1517: one turn of the loops over time-derivative boundaries. -/
def dbcStep (C : Cfg R) (s : St R) (f : Fld) : St R :=
  if !f.constraint && f.evolve then { s with d := upd s.d f.id (C.dbc f.id (s.d f.id)) } else s

/-- solver.cxx:1476-1528 `post_rhs`; `none` is the exception "Time derivative for variable not set". -/
def post (C : Cfg R) (s : St R) : Option (St R) :=
  if C.f3.any (fun f => !s.set f.id) then none
  else
    let s := C.v3.foldl (basis C) (C.v2.foldl (basis C) s)
    some (C.f3.foldl (dbcStep C) (C.f2.foldl (dbcStep C) s))

/-- solver.cxx:1552-1555, 1557-1560: one turn of the loops of `add_mms_sources`. -/
def srcStep (C : Cfg R) (t : Int) (s : St R) (f : Fld) : St R :=
  { s with d := upd s.d f.id (fun p => s.d f.id p + C.source f.id t p) }

/-- solver.cxx:1544-1561 `add_mms_sources`. -/
def addSources (C : Cfg R) (t : Int) (s : St R) : St R :=
  if C.mms then C.f3.foldl (srcStep C t) (C.f2.foldl (srcStep C t) s) else s

/-- solver.cxx:1184-1204 `load_vars`, by its effect (C25). -/
def loadVars (C : Cfg R) (s : St R) (u : Nat → Nat → R) : St R :=
  { s with v := fun i p => if C.ev i p then u i p else s.v i p }

/-- solver.cxx:1206-1226 `load_derivs`, by its effect (C25). -/
def loadDerivs (C : Cfg R) (s : St R) (u : Nat → Nat → R) : St R :=
  { s with d := fun i p => if C.ev i p then u i p else s.d i p }

/-- solver.cxx:1360-1388: the split branch of `run_rhs`. -/
def rhsSplit (C : Cfg R) (U : Model R) (t : Int) (linear : Bool) (s : St R) : Option (St R × Int) :=
  let tmp := s.v
  match post C (U.conv t linear (pre C t s)).1 with
  | none => none
  | some s1 =>
    let s2 := loadVars C s1 tmp
    let tmp := s2.d
    let r := U.diff t linear (pre C t s2)
    match post C r.1 with
    | none => none
    | some s3 => some (loadDerivs C s3 (fun i p => tmp i p + s3.d i p), r.2)

/-- solver.cxx:1388-1392: the other branch. -/
def rhsWhole (C : Cfg R) (U : Model R) (t : Int) (linear : Bool) (s : St R) : Option (St R × Int) :=
  let r := U.rhs t linear (pre C t s)
  match post C r.1 with
  | none => none
  | some s1 => some (s1, r.2)

/-- solver.cxx:1355-1401 `run_rhs` (the counters are below). -/
def runRhs (C : Cfg R) (U : Model R) (t : Int) (linear : Bool) (s : St R) : Option (St R × Int) :=
  match (if C.split then rhsSplit C U t linear s else rhsWhole C U t linear s) with
  | none => none
  | some r => some (addSources C t r.1, r.2)

/-- solver.cxx:1416-1421, 1447-1452: one turn of the loops that set time derivatives to zero. -/
def zeroStep (s : St R) (f : Fld) : St R :=
  { s with d := upd s.d f.id (fun _ => 0), set := upd s.set f.id true }

/-- solver.cxx:1415-1422, 1446-1453. -/
def zeroDerivs (C : Cfg R) (s : St R) : St R :=
  C.f2.foldl zeroStep (C.f3.foldl zeroStep s)

/-- solver.cxx:1409-1423: which function runs. -/
def convPart (C : Cfg R) (U : Model R) (t : Int) (linear : Bool) (s : St R) : St R × Int :=
  if C.split then U.conv t linear s
  else if !C.diffusive then U.rhs t linear s
  else (zeroDerivs C s, 0)

/-- solver.cxx:1404-1431 `run_convective`. -/
def runConvective (C : Cfg R) (U : Model R) (t : Int) (linear : Bool) (s : St R) : Option (St R × Int) :=
  let r := convPart C U t linear (pre C t s)
  match post C r.1 with
  | none => none
  | some s1 => some (addSources C t s1, r.2)

/-- solver.cxx:1433-1458 `run_diffusive`: `post_rhs` is called in the first branch only. -/
def runDiffusive (C : Cfg R) (U : Model R) (t : Int) (linear : Bool) (s : St R) : Option (St R × Int) :=
  let s := pre C t s
  if C.split then
    let r := U.diff t linear s
    match post C r.1 with
    | none => none
    | some s1 => some (s1, r.2)
  else if C.diffusive then some (U.rhs t linear s)
  else some (zeroDerivs C s, 0)

/-- solver.cxx:540-552: the first call; a non-zero status is an exception. -/
def firstCall (C : Cfg R) (U : Model R) (t : Int) (s : St R) : Option (St R) :=
  match runRhs C U t false s with
  | none => none
  | some r => if r.2 ≠ 0 then none else some r.1

/-- solver.cxx:1564-1575 `calculate_mms_error`: only the list of 3D fields. -/
def mmsError (C : Cfg R) (t : Int) (s : St R) (err : Nat → Nat → R) : Nat → Nat → R :=
  C.f3.foldl (fun e f => upd e f.id (fun p => s.v f.id p - C.solution f.id t p)) err

/-- solver.hxx:546-550: the counters. -/
structure Cnt where
  n : Nat
  e : Nat
  i : Nat

/-- The calls that touch the counters. -/
inductive Call
  | rhs | conv | diff | reset | resetE | resetI

/-- solver.cxx:1397-1399, 1429-1430, 1456, 928-946 (a call that throws does not count). -/
def count (c : Cnt) : Call → Cnt
  | .rhs => ⟨c.n + 1, c.e + 1, c.i + 1⟩
  | .conv => ⟨c.n + 1, c.e + 1, c.i⟩
  | .diff => ⟨c.n, c.e, c.i + 1⟩
  | .reset => { c with n := 0 }
  | .resetE => { c with e := 0 }
  | .resetI => { c with i := 0 }

end Verif.Rhs
