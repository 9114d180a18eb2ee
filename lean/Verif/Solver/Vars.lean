/-!
# C25: moving the evolving variables between fields and the solver's flat vector

Model of `Solver::loop_vars`, `load_vars`, `save_vars`, `load_derivs`, `save_derivs`, `set_id`, `getLocalN`, `globalIndex`
and the split-operator branch of `run_rhs` in `src/solver/solver.cxx`.

Simplifications: all fields live on one mesh (the code itself uses the global mesh for the loops); cell locations, vector
covariance flags and allocation checks are dropped; the static cache inside `getLocalN` is dropped; `globalIndex` is modelled
up to, not including, the final guard-cell exchange.  An access to `udata` outside the vector is the outcome `none`.
-/
namespace Verif.Vars

/-- include/bout/solver.hxx `VarStr`: the flags the loops read. -/
structure Var where
  evolveBndry : Bool
  constraint : Bool

/-- The evolving variables and the regions: `f2d`, `f3d`, `LocalNz`, `RGN_BNDRY`, `RGN_NOBNDRY` (2D and 3D). -/
structure Solver where
  f2d : List Var
  f3d : List Var
  nz : Nat
  bndry2 : List Nat
  nobndry2 : List Nat
  bndry3 : List Nat
  nobndry3 : List Nat

/-- Field memory: values and time derivatives by variable number and flat index (Ind2D or Ind3D). -/
structure St (V : Type) where
  v2 : Nat → Nat → V
  d2 : Nat → Nat → V
  v3 : Nat → Nat → V
  d3 : Nat → Nat → V

/-- The fields, `udata` and the counter `p`. -/
structure M (V : Type) where
  st : St V
  u : List V
  p : Nat

/-- Assignment to one element. -/
def upd {V : Type} (f : Nat → Nat → V) (i k : Nat) (x : V) : Nat → Nat → V :=
  fun i' k' => if i' = i ∧ k' = k then x else f i' k'

/-- include/bout/mesh.hxx:731-733 `ind2Dto3D`. -/
def ind2Dto3D (nz ind jz : Nat) : Nat := ind * nz + jz

/-- `udata[p] = x; p++`. -/
def M.put {V : Type} (m : M V) (x : V) : Option (M V) :=
  if m.p < m.u.length then some { m with u := m.u.set m.p x, p := m.p + 1 } else none

section
variable {V : Type}

/-- solver.cxx:1031-1037. -/
def loadVar2 (bndry : Bool) (pt : Nat) (m : M V) (fi : Var × Nat) : Option (M V) :=
  if bndry && !fi.1.evolveBndry then some m
  else match m.u[m.p]? with
    | none => none
    | some x => some { m with st := { m.st with v2 := upd m.st.v2 fi.2 pt x }, p := m.p + 1 }

/-- solver.cxx:1042-1048. -/
def loadVar3 (nz : Nat) (bndry : Bool) (pt jz : Nat) (m : M V) (fi : Var × Nat) : Option (M V) :=
  if bndry && !fi.1.evolveBndry then some m
  else match m.u[m.p]? with
    | none => none
    | some x => some { m with st := { m.st with v3 := upd m.st.v3 fi.2 (ind2Dto3D nz pt jz) x }, p := m.p + 1 }

/-- solver.cxx:1027-1050 `loop_vars_op(LOAD_VARS)`. -/
def loadVarsOp (S : Solver) (bndry : Bool) (m : M V) (pt : Nat) : Option (M V) := do
  let m ← S.f2d.zipIdx.foldlM (loadVar2 bndry pt) m
  (List.range S.nz).foldlM (fun m jz => S.f3d.zipIdx.foldlM (loadVar3 S.nz bndry pt jz) m) m

/-- solver.cxx:1057-1063. -/
def loadDeriv2 (bndry : Bool) (pt : Nat) (m : M V) (fi : Var × Nat) : Option (M V) :=
  if bndry && !fi.1.evolveBndry then some m
  else match m.u[m.p]? with
    | none => none
    | some x => some { m with st := { m.st with d2 := upd m.st.d2 fi.2 pt x }, p := m.p + 1 }

/-- solver.cxx:1068-1074. -/
def loadDeriv3 (nz : Nat) (bndry : Bool) (pt jz : Nat) (m : M V) (fi : Var × Nat) : Option (M V) :=
  if bndry && !fi.1.evolveBndry then some m
  else match m.u[m.p]? with
    | none => none
    | some x => some { m with st := { m.st with d3 := upd m.st.d3 fi.2 (ind2Dto3D nz pt jz) x }, p := m.p + 1 }

/-- solver.cxx:1052-1077 `loop_vars_op(LOAD_DERIVS)`. -/
def loadDerivsOp (S : Solver) (bndry : Bool) (m : M V) (pt : Nat) : Option (M V) := do
  let m ← S.f2d.zipIdx.foldlM (loadDeriv2 bndry pt) m
  (List.range S.nz).foldlM (fun m jz => S.f3d.zipIdx.foldlM (loadDeriv3 S.nz bndry pt jz) m) m

/-- solver.cxx:1083-1093. -/
def setId2 (zero one : V) (bndry : Bool) (m : M V) (fi : Var × Nat) : Option (M V) :=
  if bndry && !fi.1.evolveBndry then some m
  else m.put (if fi.1.constraint then zero else one)

/-- solver.cxx:1098-1108. -/
def setId3 (zero one : V) (bndry : Bool) (m : M V) (fi : Var × Nat) : Option (M V) :=
  if bndry && !fi.1.evolveBndry then some m
  else m.put (if fi.1.constraint then zero else one)

/-- solver.cxx:1079-1111 `loop_vars_op(SET_ID)`. -/
def setIdOp (zero one : V) (S : Solver) (bndry : Bool) (m : M V) (_pt : Nat) : Option (M V) := do
  let m ← S.f2d.zipIdx.foldlM (setId2 zero one bndry) m
  (List.range S.nz).foldlM (fun m _jz => S.f3d.zipIdx.foldlM (setId3 zero one bndry) m) m

/-- solver.cxx:1117-1123. -/
def saveVar2 (bndry : Bool) (pt : Nat) (m : M V) (fi : Var × Nat) : Option (M V) :=
  if bndry && !fi.1.evolveBndry then some m
  else m.put (m.st.v2 fi.2 pt)

/-- solver.cxx:1128-1134. -/
def saveVar3 (nz : Nat) (bndry : Bool) (pt jz : Nat) (m : M V) (fi : Var × Nat) : Option (M V) :=
  if bndry && !fi.1.evolveBndry then some m
  else m.put (m.st.v3 fi.2 (ind2Dto3D nz pt jz))

/-- solver.cxx:1113-1136 `loop_vars_op(SAVE_VARS)`. -/
def saveVarsOp (S : Solver) (bndry : Bool) (m : M V) (pt : Nat) : Option (M V) := do
  let m ← S.f2d.zipIdx.foldlM (saveVar2 bndry pt) m
  (List.range S.nz).foldlM (fun m jz => S.f3d.zipIdx.foldlM (saveVar3 S.nz bndry pt jz) m) m

/-- solver.cxx:1142-1148. -/
def saveDeriv2 (bndry : Bool) (pt : Nat) (m : M V) (fi : Var × Nat) : Option (M V) :=
  if bndry && !fi.1.evolveBndry then some m
  else m.put (m.st.d2 fi.2 pt)

/-- solver.cxx:1153-1159. -/
def saveDeriv3 (nz : Nat) (bndry : Bool) (pt jz : Nat) (m : M V) (fi : Var × Nat) : Option (M V) :=
  if bndry && !fi.1.evolveBndry then some m
  else m.put (m.st.d3 fi.2 (ind2Dto3D nz pt jz))

/-- solver.cxx:1139-1161 `loop_vars_op(SAVE_DERIVS)`. -/
def saveDerivsOp (S : Solver) (bndry : Bool) (m : M V) (pt : Nat) : Option (M V) := do
  let m ← S.f2d.zipIdx.foldlM (saveDeriv2 bndry pt) m
  (List.range S.nz).foldlM (fun m jz => S.f3d.zipIdx.foldlM (saveDeriv3 S.nz bndry pt jz) m) m

/-- solver.cxx:1167-1182 `loop_vars`: first the boundary region, then the bulk. -/
def loopVars (S : Solver) (op : Bool → M V → Nat → Option (M V)) (st : St V) (u : List V) : Option (M V) := do
  let m ← S.bndry2.foldlM (op true) { st := st, u := u, p := 0 }
  S.nobndry2.foldlM (op false) m

/-- solver.cxx:1184-1204 `load_vars`. -/
def loadVars (S : Solver) (st : St V) (u : List V) : Option (St V) :=
  (loopVars S (loadVarsOp S) st u).map (fun m => m.st)
/-- solver.cxx:1206-1226 `load_derivs`. -/
def loadDerivs (S : Solver) (st : St V) (u : List V) : Option (St V) :=
  (loopVars S (loadDerivsOp S) st u).map (fun m => m.st)
/-- solver.cxx:1229-1259 `save_vars`. -/
def saveVars (S : Solver) (st : St V) (u : List V) : Option (List V) :=
  (loopVars S (saveVarsOp S) st u).map (fun m => m.u)
/-- solver.cxx:1261-1289 `save_derivs`. -/
def saveDerivs (S : Solver) (st : St V) (u : List V) : Option (List V) :=
  (loopVars S (saveDerivsOp S) st u).map (fun m => m.u)
/-- solver.cxx:1291 `set_id`. -/
def setId (zero one : V) (S : Solver) (st : St V) (u : List V) : Option (List V) :=
  (loopVars S (setIdOp zero one S) st u).map (fun m => m.u)

end

/-- solver.cxx:976-980 `local_N_sum`. -/
def localNSum (bndry nobndry : List Nat) (value : Nat) (f : Var) : Nat :=
  value + (if f.evolveBndry then bndry.length else 0) + nobndry.length

/-- solver.cxx:982-1002 `getLocalN` (without the static cache). -/
def getLocalN (S : Solver) : Nat :=
  S.f2d.foldl (localNSum S.bndry2 S.nobndry2) 0 + S.f3d.foldl (localNSum S.bndry3 S.nobndry3) 0

/-- The state of `globalIndex`: the field `index` (by Ind3D) and the counter `ind`. -/
structure GI where
  index : Nat → Int
  ind : Int

/-- `index[k] = ind; ind += n`. -/
def GI.put (g : GI) (k : Nat) (n : Nat) : GI :=
  { index := fun k' => if k' = k then g.ind else g.index k', ind := g.ind + n }

/-- solver.cxx:1323-1330 and 1337-1344: one 2D point. -/
def giPoint (nz n2 n3 : Nat) (g : GI) (pt : Nat) : GI :=
  (List.range' 1 (nz - 1)).foldl (fun g jz => g.put (ind2Dto3D nz pt jz) n3)
    (g.put (ind2Dto3D nz pt 0) (n2 + n3))

/-- solver.cxx:1293-1348 `globalIndex`, before the guard-cell exchange. -/
def globalIndex (S : Solver) (localStart : Int) : GI :=
  let n2 := S.f2d.length
  let n3 := S.f3d.length
  let n2b := S.f2d.countP (fun f => f.evolveBndry)
  let n3b := S.f3d.countP (fun f => f.evolveBndry)
  let g : GI := { index := fun _ => -1, ind := localStart }
  let g := if n2b + n3b > 0 then S.bndry2.foldl (giPoint S.nz n2b n3b) g else g
  S.nobndry2.foldl (giPoint S.nz n2 n3) g

/-- solver.cxx:1360-1388: `run_rhs` for a model with a split operator; `pre`, `conv`, `diff`, `post` are the boundary
conditions, the user's two functions and the post-processing, as arbitrary state transformers. -/
def runRhsSplit {V : Type} [Add V] (S : Solver) (junk : V) (pre conv diff post : St V → St V) (st : St V) :
    Option (St V) := do
  let nv := getLocalN S
  let tmp := List.replicate nv junk
  let tmp2 := List.replicate nv junk
  let tmp ← saveVars S st tmp
  let st1 := post (conv (pre st))
  let st2 ← loadVars S st1 tmp
  let tmp ← saveDerivs S st2 tmp
  let st3 := post (diff (pre st2))
  let tmp2 ← saveDerivs S st3 tmp2
  let tmp := List.zipWith (· + ·) tmp tmp2
  loadDerivs S st3 tmp

end Verif.Vars
