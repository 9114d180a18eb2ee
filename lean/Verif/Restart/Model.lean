import Mathlib.Data.List.Basic

/-! # C64: restart and output files

What a run writes to its restart file and to its output file, event by event, so that a crash can be placed between any two of them; what a run reads when
it is restarted; and chains of runs.

Modelled: src/physics/physicsmodel.cxx (`initialise`, `postInit`, `PhysicsModelMonitor::call`), src/solver/solver.cxx (`solve`, `outputVars`,
`readEvolvingVariablesFromOptions`, the monitor call), src/bout++.cxx (the iteration counter), src/sys/options/options_netcdf.cxx (`write`, `writeGroup`,
`verifyTimesteps`).  The time integrator is a parameter: a run is given the states it reaches at its outputs.

Simplifications: writes reach the file in the order in which they are made; only the variables of the solver are followed in the restart file (the mesh and
version entries do not change); one time dimension; the timings written by `BoutMonitor` are part of the records.
-/

namespace Verif.Restart

/-- A value in a file. -/
inductive Val (T V : Type) where
  | time (t : T)
  | int (n : Int)
  | id (s : String)
  | fld (v : V)

variable {T V : Type}

/-- An `Options` section, or the variables of a file, as a list of keys and values. -/
abbrev Sect (T V : Type) := List (String × Val T V)

/-- options.hxx:399-411 (`force`, `assignRepeat`) and options_netcdf.cxx:459-535 (a variable without time dimension): set a key, adding it if it is new. -/
def setKey (k : String) (v : Val T V) : Sect T V → Sect T V
  | [] => [(k, v)]
  | (k', v') :: l => if k' = k then (k, v) :: l else (k', v') :: setKey k v l

/-- Look a key up. -/
def getKey (k : String) : Sect T V → Option (Val T V)
  | [] => none
  | (k', v') :: l => if k' = k then some v' else getKey k l

/-- What the solver holds: time, iteration counter, the ids of this run and of the one it continues, and the evolving variables. -/
structure Sol (T V : Type) where
  time : T
  iter : Int
  runId : String
  from_ : String
  s : String → V

/-- solver.cxx:676-722 `outputVars(options, false)` for the evolving variables `names`. -/
def snapshot (names : List String) (p : Sol T V) (ro : Sect T V) : Sect T V :=
  let ro := setKey "tt" (.time p.time) ro
  let ro := setKey "hist_hi" (.int p.iter) ro
  let ro := setKey "run_id" (.id p.runId) ro
  let ro := setKey "run_restart_from" (.id p.from_) ro
  names.foldl (fun ro n => setKey n (.fld (p.s n)) ro) ro

/-- solver.hxx: the id of a run that has none yet. -/
def defaultId : String := "zzzzzzzzzzzzzzzzzzzzzzzzzzzzzzzzzzzz"

/-- solver.cxx:725-747 `readEvolvingVariablesFromOptions`: `none` if the file has no time (the conversion throws); `init` are the values from the input file.
A value of a wrong kind throws too. -/
def resume (names : List String) (init : String → V) (ro : Sect T V) : Option (Sol T V) :=
  match getKey "tt" ro with
  | some (.time t) =>
    let it := match getKey "hist_hi" ro with | some (.int n) => n | _ => 0
    let rid := match getKey "run_id" ro with | some (.id s) => s | _ => defaultId
    some ⟨t, it, rid, defaultId, fun n => if n ∈ names then (match getKey n ro with | some (.fld v) => v | _ => init n) else init n⟩
  | _ => none

/-- The changes of the files, in the order in which they are made. `check`: `verifyTimesteps`. -/
inductive Ev (T V : Type) where
  | newRestart
  | putRestart (k : String) (v : Val T V)
  | newDump
  | putDump (k : String) (v : Val T V)
  | check

/-- The two files. The output file has for every variable the records written so far. -/
structure Files (T V : Type) where
  restart : Sect T V
  dump : List (String × List (Val T V))

/-- options_netcdf.cxx:440-443, 497-535: append a record to a variable. -/
def addRec (k : String) (v : Val T V) : List (String × List (Val T V)) → List (String × List (Val T V))
  | [] => [(k, [v])]
  | (k', vs) :: l => if k' = k then (k', vs ++ [v]) :: l else (k', vs) :: addRec k v l

/-- One event. -/
def Files.apply (F : Files T V) : Ev T V → Files T V
  | .newRestart => { F with restart := [] }
  | .putRestart k v => { F with restart := setKey k v F.restart }
  | .newDump => { F with dump := [] }
  | .putDump k v => { F with dump := addRec k v F.dump }
  | .check => F

/-- The files after some events. -/
def Files.after (F : Files T V) (es : List (Ev T V)) : Files T V := es.foldl Files.apply F

/-- options_netcdf.cxx:581-640 `verifyTimesteps`: every variable but the first one of the file has as many records as the time dimension is long. -/
def aligned (d : List (String × List (Val T V))) : Bool :=
  let size := d.foldl (fun m kv => max m kv.2.length) 0
  d.tail.all (fun kv => kv.2.length == size)

/-- What is fixed in a run: the evolving variables, and the records of the output file for a state (`physicsmodel.cxx:247-264`, `outputVars`). -/
structure Cfg (T V : Type) where
  names : List String
  rec_ : T → (String → V) → List (String × Val T V)

/-- physicsmodel.cxx:247-264 `PhysicsModelMonitor::call` followed by the other monitors and `finishOutputTimestep` (solver.cxx:868-903): the restart file,
then the output file, then the check. `fresh`: the output file is opened by this write and not appended to. -/
def outputStep (c : Cfg T V) (fresh : Bool) (p : Sol T V) (ro : Sect T V) : List (Ev T V) :=
  ro.map (fun kv => .putRestart kv.1 kv.2) ++ ((if fresh then [.newDump] else []) ++ ((c.rec_ p.time p.s).map (fun kv => .putDump kv.1 kv.2) ++ [.check]))

/-- The outputs of a run. -/
def outputs (c : Cfg T V) : Bool → Sect T V → List (Sol T V) → List (Ev T V)
  | _, _, [] => []
  | fresh, ro, p :: ps => outputStep c fresh p (snapshot c.names p ro) ++ outputs c false (snapshot c.names p ro) ps

/-- The states in which the monitors are called. bout++.cxx:829-830: the iteration counter is incremented by `BoutMonitor`, which is called after the model's
monitor has written the restart file (solver.hxx:238, physicsmodel.hxx:436); solver.cxx:561-574: the increment of the initial call is undone. -/
def monitored (start : Sol T V) (newId : String) (initial : Bool) (outs : List (T × (String → V))) : List (Sol T V) :=
  (if initial then [⟨start.time, start.iter, newId, start.runId, start.s⟩] else []) ++
    outs.mapIdx fun i o => ⟨o.1, start.iter + i, newId, start.runId, o.2⟩

/-- physicsmodel.cxx:90-118, 176-199 and solver.cxx:486-610: all that a run writes. `ro`: the restart file it has read (empty if it is not a restart);
`start`: the state it begins with; `append`, `initial` (`dump_on_restart`): options; `outs`: the states reached at its outputs. -/
def runTrace (c : Cfg T V) (ro : Sect T V) (start : Sol T V) (newId : String) (append initial : Bool) (outs : List (T × (String → V))) : List (Ev T V) :=
  .newRestart :: ((snapshot c.names start ro).map (fun kv => .putRestart kv.1 kv.2) ++
    outputs c (!append) (snapshot c.names start ro) (monitored start newId initial outs))

/-- How many restart variables have been written. -/
def restartPuts : List (Ev T V) → Nat
  | [] => 0
  | .putRestart _ _ :: es => restartPuts es + 1
  | _ :: es => restartPuts es

/-- How many output records have been written. -/
def dumpPuts : List (Ev T V) → Nat
  | [] => 0
  | .putDump _ _ :: es => dumpPuts es + 1
  | _ :: es => dumpPuts es

end Verif.Restart
