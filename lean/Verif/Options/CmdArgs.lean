import Verif.Options.Ini
import Verif.Options.Props

/-! # Model of the start-up switches (`src/bout++.cxx`, `parseCommandLineArgs` and `BoutInitialise`)

The switches `-d`, `-f`, `-o`, `-l`, `-v`, `-q`, `-c` are taken out of the arguments and turned
into their long names, the input file is read from the directory they name, and then the remaining
arguments override the options (`OptionsReader::parseCommandLine`, the model of which is `cmdLoop`
in `Verif.Options.Ini`). -/

namespace Verif.Opt

open Verif.Str

/-- `CommandLineArgs` (include/bout/bout.hxx L107-119), without `original_argv`. -/
structure Args where
  verbosity : Int := 4
  color : Bool := false
  dataDir : Chars := "data".toList
  optFile : Chars := "BOUT.inp".toList
  setFile : Chars := "BOUT.settings".toList
  logFile : Chars := "BOUT.log".toList
  argv : List Chars := []
  deriving DecidableEq

/-- What the program prints before leaving (`std::exit`) when asked for information. -/
inductive Info
  | help
  | config
  | list (factory : Chars)
  | typeHelp (factory type : Chars)
  deriving DecidableEq

/-- How the parsing of the arguments ends. -/
inductive Parsed
  | exit (i : Info)
  | run (a : Args)
  deriving DecidableEq

/-- The factories asked in turn, `lowercase(Factory::type_name)` and `plural_needs_e`
(bout++.cxx L414-421). -/
def factories : List (Chars × Bool) :=
  [("solver".toList, false), ("laplacian".toList, false), ("laplacexz".toList, false),
   ("invertpar".toList, false), ("rkscheme".toList, false), ("mesh".toList, true),
   ("xzinterpolation".toList, false), ("zinterpolation".toList, false)]

/-- `handleFactoryHelp` for each factory (bout++.cxx L338-357): `none` when it returns. -/
def factoryHelp (arg : Chars) (rest : List Chars) : List (Chars × Bool) → Option (Out Info)
  | [] => none
  | (name, e) :: fs =>
    if arg = "--list-".toList ++ name ++ (if e then ['e'] else []) ++ ['s'] then
      some (.ok (.list name))
    else if arg = "--help-".toList ++ name then
      match rest with
      | [] => some (.error (.exc "Usage is --help-<type> <name>"))
      | type :: _ => some (.ok (.typeHelp name type))
    else factoryHelp arg rest fs

/-- The first loop over the arguments (bout++.cxx L362-422). -/
def infoLoop : List Chars → Option (Out Info)
  | [] => none
  | arg :: rest =>
    if arg = "-h".toList ∨ arg = "--help".toList then some (.ok .help)
    else if arg = "--print-config".toList then some (.ok .config)
    else match factoryHelp arg rest factories with
      | some r => some r
      | none => infoLoop rest

/-- The second loop (bout++.cxx L432-487).  `a.argv` collects the canonical arguments: the switch is
replaced by the long name (or by an empty string), everything else is left in place. -/
def switchLoop (a : Args) : List Chars → Out Args
  | [] => .ok a
  | arg :: rest =>
    if arg = "-d".toList then
      match rest with
      | [] => .error (.exc "Usage is -d <data directory>")
      | v :: rest' => switchLoop { a with dataDir := v, argv := a.argv ++ ["datadir=".toList, v] } rest'
    else if arg = "-f".toList then
      match rest with
      | [] => .error (.exc "Usage is -f <options filename>")
      | v :: rest' =>
        switchLoop { a with optFile := v, argv := a.argv ++ ["optionfile=".toList, v] } rest'
    else if arg = "-o".toList then
      match rest with
      | [] => .error (.exc "Usage is -o <settings filename>")
      | v :: rest' =>
        switchLoop { a with setFile := v, argv := a.argv ++ ["settingsfile=".toList, v] } rest'
    else if arg = "-l".toList ∨ arg = "--log".toList then
      match rest with
      | [] => .error (.exc "Usage is -l <log filename>")
      | v :: rest' => switchLoop { a with logFile := v, argv := a.argv ++ ["logfile=".toList, v] } rest'
    else if arg = "-v".toList ∨ arg = "--verbose".toList then
      switchLoop { a with verbosity := a.verbosity + 1, argv := a.argv ++ [[]] } rest
    else if arg = "-q".toList ∨ arg = "--quiet".toList then
      switchLoop { a with verbosity := a.verbosity - 1, argv := a.argv ++ [[]] } rest
    else if arg = "-c".toList ∨ arg = "--color".toList then
      switchLoop { a with color := true, argv := a.argv ++ [[]] } rest
    else switchLoop { a with argv := a.argv ++ [arg] } rest

/-- `parseCommandLineArgs(argc, argv)` with `argv = prog :: args` (bout++.cxx L359-499). -/
def parseArgs (prog : Chars) (args : List Chars) : Out Parsed :=
  match infoLoop args with
  | some (.ok i) => .ok (.exit i)
  | some (.error e) => .error e
  | none =>
    match switchLoop { argv := [prog] } args with
    | .error e => .error e
    | .ok a =>
      let a := { a with argv := a.argv.filter (fun x => decide (x ≠ [])) }
      if a.setFile = a.optFile then
        .error (.exc "Input and output file for settings must be different")
      else .ok (.run a)

/-- The files start-up uses. -/
structure Startup where
  inputFile : Chars
  settingsFile : Chars
  logFile : Chars
  tree : Tree

/-- `dir/file`. -/
def inDir (dir file : Chars) : Chars := dir ++ '/' :: file

/-- `Options::root()[name].withDefault<std::string>(dflt)`. -/
def rootStr (env : Env) (t : Tree) (name dflt : Chars) : Tree × Out Chars :=
  match step env t (.withDefault [name] .str (.str dflt)) with
  | (t', .ok (some (.str s))) => (t', .ok s)
  | (t', .ok _) => (t', .error (.ub "not a string"))
  | (t', .error e) => (t', .error e)

/-- The part of `BoutInitialise` which deals with the input file, the options and the settings file
(bout++.cxx L131-193), for the process with rank 0.  `load` is the result of reading an input file
into the (empty) root options; the checks of the data directory, MPI, PETSc and the mesh are not
modelled. -/
def startup (env : Env) (load : Chars → Out Tree) (prog : Chars) (args : List Chars) :
    Out (Info ⊕ Startup) :=
  match parseArgs prog args with
  | .error e => .error e
  | .ok (.exit i) => .ok (.inl i)
  | .ok (.run a) =>
    match load (inDir a.dataDir a.optFile) with
    | .error e => .error e
    | .ok t0 =>
      match cmdLoop t0 a.argv.tail with
      | (_, .error e) => .error e
      | (t1, .ok ()) =>
        match rootStr env t1 "datadir".toList "data".toList with
        | (_, .error e) => .error e
        | (t2, .ok dir) =>
          match rootStr env t2 "optionfile".toList a.optFile with
          | (_, .error e) => .error e
          | (t3, .ok _) =>
            match rootStr env t3 "settingsfile".toList a.setFile with
            | (_, .error e) => .error e
            | (t4, .ok set) =>
              .ok (.inr { inputFile := inDir a.dataDir a.optFile, settingsFile := inDir dir set
                          logFile := inDir a.dataDir a.logFile, tree := t4 })

/-! ## Specification -/

/-- One thing said on the command line. -/
inductive Word
  | dataDir (v : Chars)
  | optFile (v : Chars)
  | setFile (v : Chars)
  | logFile (long : Bool) (v : Chars)
  | verbose (long : Bool)
  | quiet (long : Bool)
  | color (long : Bool)
  | plain (a : Chars)

/-- How it is written. -/
def Word.spell : Word → List Chars
  | .dataDir v => ["-d".toList, v]
  | .optFile v => ["-f".toList, v]
  | .setFile v => ["-o".toList, v]
  | .logFile false v => ["-l".toList, v]
  | .logFile true v => ["--log".toList, v]
  | .verbose false => ["-v".toList]
  | .verbose true => ["--verbose".toList]
  | .quiet false => ["-q".toList]
  | .quiet true => ["--quiet".toList]
  | .color false => ["-c".toList]
  | .color true => ["--color".toList]
  | .plain a => [a]

/-- The documented switches. -/
def switches : List Chars :=
  ["-d".toList, "-f".toList, "-o".toList, "-l".toList, "--log".toList, "-v".toList,
   "--verbose".toList, "-q".toList, "--quiet".toList, "-c".toList, "--color".toList]

/-- A plain word is anything which is not a switch. -/
def Word.Ok : Word → Prop
  | .plain a => a ∉ switches
  | _ => True

/-- Requests for information which the program recognises. -/
def requests : List (Chars × Info) :=
  [("-h".toList, .help), ("--help".toList, .help), ("--print-config".toList, .config),
   ("--list-solvers".toList, .list "solver".toList),
   ("--list-laplacians".toList, .list "laplacian".toList),
   ("--list-laplacexzs".toList, .list "laplacexz".toList),
   ("--list-invertpars".toList, .list "invertpar".toList),
   ("--list-rkschemes".toList, .list "rkscheme".toList),
   ("--list-meshes".toList, .list "mesh".toList),
   ("--list-xzinterpolations".toList, .list "xzinterpolation".toList),
   ("--list-zinterpolations".toList, .list "zinterpolation".toList)]

/-- Requests which need the name of an implementation. -/
def typeRequests : List (Chars × Chars) :=
  [("--help-solver".toList, "solver".toList), ("--help-laplacian".toList, "laplacian".toList),
   ("--help-laplacexz".toList, "laplacexz".toList),
   ("--help-invertpar".toList, "invertpar".toList), ("--help-rkscheme".toList, "rkscheme".toList),
   ("--help-mesh".toList, "mesh".toList),
   ("--help-xzinterpolation".toList, "xzinterpolation".toList),
   ("--help-zinterpolation".toList, "zinterpolation".toList)]

/-- The argument asks for information. -/
def Asks (a : Chars) : Prop := a ∈ requests.map Prod.fst ∨ a ∈ typeRequests.map Prod.fst

instance (a : Chars) : Decidable (Asks a) := by unfold Asks; infer_instance

/-- The values given for one setting, in order. -/
def dirs (ws : List Word) : List Chars :=
  ws.filterMap fun | .dataDir v => some v | _ => none

/-- See `dirs`. -/
def optFiles (ws : List Word) : List Chars :=
  ws.filterMap fun | .optFile v => some v | _ => none

/-- See `dirs`. -/
def setFiles (ws : List Word) : List Chars :=
  ws.filterMap fun | .setFile v => some v | _ => none

/-- See `dirs`. -/
def logFiles (ws : List Word) : List Chars :=
  ws.filterMap fun | .logFile _ v => some v | _ => none

/-- The last value, or the default. -/
def lastOr (d : Chars) (l : List Chars) : Chars := l.getLast?.getD d

/-- Number of `-v` minus number of `-q`. -/
def louder : List Word → Int
  | [] => 0
  | .verbose _ :: ws => louder ws + 1
  | .quiet _ :: ws => louder ws - 1
  | _ :: ws => louder ws

/-- Some `-c` was given. -/
def coloured (ws : List Word) : Bool := ws.any fun | .color _ => true | _ => false

/-- Empty arguments disappear. -/
def unempty (v : Chars) : List Chars := if v = [] then [] else [v]

/-- The arguments passed on to the options. -/
def Word.canonical : Word → List Chars
  | .dataDir v => "datadir=".toList :: unempty v
  | .optFile v => "optionfile=".toList :: unempty v
  | .setFile v => "settingsfile=".toList :: unempty v
  | .logFile _ v => "logfile=".toList :: unempty v
  | .plain a => unempty a
  | _ => []

/-! ## Requests for information -/

theorem factoryHelp_none (arg : Chars) (rest : List Chars) (h : ¬ Asks arg) :
    factoryHelp arg rest factories = none := by
  unfold Asks at h
  simp only [requests, typeRequests, List.map_cons, List.map_nil, List.mem_cons, List.not_mem_nil,
    or_false, not_or] at h
  obtain ⟨⟨-, -, -, h1, h2, h3, h4, h5, h6, h7, h8⟩, g1, g2, g3, g4, g5, g6, g7, g8⟩ := h
  simp only [factoryHelp, factories]
  rw [if_neg (by simpa using h1), if_neg (by simpa using g1), if_neg (by simpa using h2),
    if_neg (by simpa using g2), if_neg (by simpa using h3), if_neg (by simpa using g3),
    if_neg (by simpa using h4), if_neg (by simpa using g4), if_neg (by simpa using h5),
    if_neg (by simpa using g5), if_neg (by simpa using h6), if_neg (by simpa using g6),
    if_neg (by simpa using h7), if_neg (by simpa using g7), if_neg (by simpa using h8),
    if_neg (by simpa using g8)]

theorem infoLoop_skip (arg : Chars) (rest : List Chars) (h : ¬ Asks arg) :
    infoLoop (arg :: rest) = infoLoop rest := by
  have hn := factoryHelp_none arg rest h
  unfold Asks at h
  simp only [requests, List.map_cons, List.mem_cons, not_or] at h
  rw [infoLoop, if_neg (by rintro (h' | h'); exacts [h.1.1 h', h.1.2.1 h']), if_neg h.1.2.2.1, hn]

theorem infoLoop_pre : ∀ (pre post : List Chars), (∀ a ∈ pre, ¬ Asks a) →
    infoLoop (pre ++ post) = infoLoop post
  | [], _, _ => rfl
  | a :: pre, post, h => by
    rw [List.cons_append, infoLoop_skip _ _ (h a (by simp)),
      infoLoop_pre pre post (fun b hb => h b (by simp [hb]))]

/-- The first argument asking for information decides, whatever else is on the command line: the
program prints it and leaves, no file is read or written. -/
theorem C76_information (env : Env) (load : Chars → Out Tree) (prog : Chars)
    (pre post : List Chars) (x : Chars) (i : Info) (hpre : ∀ a ∈ pre, ¬ Asks a)
    (hx : (x, i) ∈ requests) :
    startup env load prog (pre ++ x :: post) = .ok (.inl i) := by
  have h : infoLoop (pre ++ x :: post) = some (.ok i) := by
    rw [infoLoop_pre pre _ hpre]
    simp only [requests, List.mem_cons, List.not_mem_nil, or_false, Prod.mk.injEq] at hx
    rcases hx with ⟨rfl, rfl⟩ | ⟨rfl, rfl⟩ | ⟨rfl, rfl⟩ | ⟨rfl, rfl⟩ | ⟨rfl, rfl⟩ | ⟨rfl, rfl⟩ |
      ⟨rfl, rfl⟩ | ⟨rfl, rfl⟩ | ⟨rfl, rfl⟩ | ⟨rfl, rfl⟩ | ⟨rfl, rfl⟩ <;> rfl
  unfold startup parseArgs
  rw [h]

/-- The same with the requests naming an implementation; without a name the arguments are
refused. -/
theorem C76_type_information (env : Env) (load : Chars → Out Tree) (prog : Chars)
    (pre post : List Chars) (x f : Chars) (hpre : ∀ a ∈ pre, ¬ Asks a)
    (hx : (x, f) ∈ typeRequests) :
    (∀ type, startup env load prog (pre ++ x :: type :: post) = .ok (.inl (.typeHelp f type))) ∧
    (startup env load prog (pre ++ [x])).isOk = false := by
  have h : ∀ l, infoLoop (pre ++ x :: l) = infoLoop (x :: l) := fun l => infoLoop_pre pre _ hpre
  unfold startup parseArgs
  constructor
  · intro type
    rw [h]
    simp only [typeRequests, List.mem_cons, List.not_mem_nil, or_false, Prod.mk.injEq] at hx
    rcases hx with ⟨rfl, rfl⟩ | ⟨rfl, rfl⟩ | ⟨rfl, rfl⟩ | ⟨rfl, rfl⟩ | ⟨rfl, rfl⟩ | ⟨rfl, rfl⟩ |
      ⟨rfl, rfl⟩ | ⟨rfl, rfl⟩ <;> rfl
  · rw [h]
    simp only [typeRequests, List.mem_cons, List.not_mem_nil, or_false, Prod.mk.injEq] at hx
    rcases hx with ⟨rfl, rfl⟩ | ⟨rfl, rfl⟩ | ⟨rfl, rfl⟩ | ⟨rfl, rfl⟩ | ⟨rfl, rfl⟩ | ⟨rfl, rfl⟩ |
      ⟨rfl, rfl⟩ | ⟨rfl, rfl⟩ <;> rfl

/-! ## Switches -/

theorem lastOr_cons (d v : Chars) (l : List Chars) : lastOr d (v :: l) = lastOr v l := by
  unfold lastOr
  cases l with
  | nil => rfl
  | cons a l => simp [List.getLast?_cons_cons, List.getLast?_eq_some_getLast]

theorem filter_unempty (v : Chars) :
    [v].filter (fun x => decide (x ≠ [])) = unempty v := by
  unfold unempty
  by_cases h : v = [] <;> simp [h]

/-- What the second loop makes of well-formed words: the fields, and the arguments passed on once
the empty ones are removed. -/
theorem switchLoop_words : ∀ (W : List Word) (a : Args) (tail : List Chars), (∀ w ∈ W, w.Ok) →
    ∃ b : Args, switchLoop a ((W.map Word.spell).flatten ++ tail) = switchLoop b tail ∧
      b.verbosity = a.verbosity + louder W ∧ b.color = (a.color || coloured W) ∧
      b.dataDir = lastOr a.dataDir (dirs W) ∧ b.optFile = lastOr a.optFile (optFiles W) ∧
      b.setFile = lastOr a.setFile (setFiles W) ∧ b.logFile = lastOr a.logFile (logFiles W) ∧
      b.argv.filter (fun x => decide (x ≠ []))
        = a.argv.filter (fun x => decide (x ≠ [])) ++ W.flatMap Word.canonical
  | [], a, tail, _ => ⟨a, rfl, by simp [louder], by simp [coloured], rfl, rfl, rfl, rfl, by simp⟩
  | w :: W, a, tail, h => by
    have ih := fun a => switchLoop_words W a tail (fun v hv => h v (by simp [hv]))
    have hw := h w (by simp)
    have key : ∀ (c : Args), switchLoop a (w.spell ++ ((W.map Word.spell).flatten ++ tail))
          = switchLoop c ((W.map Word.spell).flatten ++ tail) →
        (c.verbosity + louder W = a.verbosity + louder (w :: W)) →
        ((c.color || coloured W) = (a.color || coloured (w :: W))) →
        (lastOr c.dataDir (dirs W) = lastOr a.dataDir (dirs (w :: W))) →
        (lastOr c.optFile (optFiles W) = lastOr a.optFile (optFiles (w :: W))) →
        (lastOr c.setFile (setFiles W) = lastOr a.setFile (setFiles (w :: W))) →
        (lastOr c.logFile (logFiles W) = lastOr a.logFile (logFiles (w :: W))) →
        (c.argv.filter (fun x => decide (x ≠ []))
          = a.argv.filter (fun x => decide (x ≠ [])) ++ w.canonical) →
        ∃ b : Args, switchLoop a (((w :: W).map Word.spell).flatten ++ tail) = switchLoop b tail ∧
          b.verbosity = a.verbosity + louder (w :: W) ∧ b.color = (a.color || coloured (w :: W)) ∧
          b.dataDir = lastOr a.dataDir (dirs (w :: W)) ∧
          b.optFile = lastOr a.optFile (optFiles (w :: W)) ∧
          b.setFile = lastOr a.setFile (setFiles (w :: W)) ∧
          b.logFile = lastOr a.logFile (logFiles (w :: W)) ∧
          b.argv.filter (fun x => decide (x ≠ []))
            = a.argv.filter (fun x => decide (x ≠ [])) ++ (w :: W).flatMap Word.canonical := by
      intro c h0 h1 h2 h3 h4 h5 h6 h7
      obtain ⟨b, g0, g1, g2, g3, g4, g5, g6, g7⟩ := ih c
      refine ⟨b, ?_, by rw [g1, h1], by rw [g2, h2], by rw [g3, h3], by rw [g4, h4],
        by rw [g5, h5], by rw [g6, h6], ?_⟩
      · rw [List.map_cons, List.flatten_cons, List.append_assoc, h0, g0]
      · rw [g7, h7, List.flatMap_cons, List.append_assoc]
    have fe : ∀ v, List.filter (fun x : Chars => decide (x ≠ [])) [v] = unempty v := filter_unempty
    cases w with
    | dataDir v =>
      refine key { a with dataDir := v, argv := a.argv ++ ["datadir=".toList, v] } (by
        simp only [Word.spell, List.cons_append, List.nil_append]; rw [switchLoop, if_pos rfl]) rfl rfl
        (lastOr_cons _ _ _).symm rfl rfl rfl ?_
      simp only [List.filter_append, Word.canonical]
      rw [List.filter_cons_of_pos (by decide), fe]
    | optFile v =>
      refine key { a with optFile := v, argv := a.argv ++ ["optionfile=".toList, v] } (by
        simp only [Word.spell, List.cons_append, List.nil_append]
        rw [switchLoop, if_neg (by decide), if_pos rfl]) rfl rfl
        rfl (lastOr_cons _ _ _).symm rfl rfl ?_
      simp only [List.filter_append, Word.canonical]
      rw [List.filter_cons_of_pos (by decide), fe]
    | setFile v =>
      refine key { a with setFile := v, argv := a.argv ++ ["settingsfile=".toList, v] } (by
        simp only [Word.spell, List.cons_append, List.nil_append]
        rw [switchLoop, if_neg (by decide), if_neg (by decide), if_pos rfl]) rfl rfl
        rfl rfl (lastOr_cons _ _ _).symm rfl ?_
      simp only [List.filter_append, Word.canonical]
      rw [List.filter_cons_of_pos (by decide), fe]
    | logFile l v =>
      refine key { a with logFile := v, argv := a.argv ++ ["logfile=".toList, v] } (by
        cases l <;>
        · simp only [Word.spell, List.cons_append, List.nil_append]
          rw [switchLoop, if_neg (by decide), if_neg (by decide), if_neg (by decide),
            if_pos (by decide)]) rfl rfl
        rfl rfl rfl (lastOr_cons _ _ _).symm ?_
      simp only [List.filter_append, Word.canonical]
      rw [List.filter_cons_of_pos (by decide), fe]
    | verbose l =>
      refine key { a with verbosity := a.verbosity + 1, argv := a.argv ++ [[]] } (by
        cases l <;>
        · simp only [Word.spell, List.cons_append, List.nil_append]
          rw [switchLoop.eq_def]; dsimp only; rw [if_neg (by decide), if_neg (by decide), if_neg (by decide),
            if_neg (by decide), if_pos (by decide)]) (by simp only [louder]; omega) rfl
        rfl rfl rfl rfl ?_
      simp only [List.filter_append, Word.canonical]
      rfl
    | quiet l =>
      refine key { a with verbosity := a.verbosity - 1, argv := a.argv ++ [[]] } (by
        cases l <;>
        · simp only [Word.spell, List.cons_append, List.nil_append]
          rw [switchLoop.eq_def]; dsimp only; rw [if_neg (by decide), if_neg (by decide), if_neg (by decide),
            if_neg (by decide), if_neg (by decide), if_pos (by decide)])
        (by simp only [louder]; omega) rfl rfl rfl rfl rfl ?_
      simp only [List.filter_append, Word.canonical]
      rfl
    | color l =>
      refine key { a with color := true, argv := a.argv ++ [[]] } (by
        cases l <;>
        · simp only [Word.spell, List.cons_append, List.nil_append]
          rw [switchLoop.eq_def]; dsimp only; rw [if_neg (by decide), if_neg (by decide), if_neg (by decide),
            if_neg (by decide), if_neg (by decide), if_neg (by decide), if_pos (by decide)])
        rfl (by simp [coloured]) rfl rfl rfl rfl ?_
      simp only [List.filter_append, Word.canonical]
      rfl
    | plain x =>
      refine key { a with argv := a.argv ++ [x] } (by
        simp only [Word.spell, List.cons_append, List.nil_append]
        simp only [Word.Ok, switches, List.mem_cons, List.not_mem_nil, or_false, not_or] at hw
        obtain ⟨h1, h2, h3, h4, h5, h6, h7, h8, h9, h10, h11⟩ := hw
        rw [switchLoop.eq_def]; dsimp only; rw [if_neg h1, if_neg h2, if_neg h3, if_neg (not_or.mpr ⟨h4, h5⟩),
          if_neg (not_or.mpr ⟨h6, h7⟩), if_neg (not_or.mpr ⟨h8, h9⟩),
          if_neg (not_or.mpr ⟨h10, h11⟩)]) rfl rfl rfl rfl rfl rfl ?_
      simp only [List.filter_append, Word.canonical]
      rw [fe]

/-- **C76, the switches.**  However many switches are given, in whatever order and mixed with other
arguments: the last value of each counts, verbosity is four plus the number of `-v` minus the
number of `-q`, and what is passed on to the options are the long names with the values and the other
arguments in their order; an output file equal to the input file is refused. -/
theorem C76_switches (prog : Chars) (W : List Word) (hp : prog ≠ []) (hW : ∀ w ∈ W, w.Ok)
    (hask : ∀ a ∈ (W.map Word.spell).flatten, ¬ Asks a) :
    parseArgs prog (W.map Word.spell).flatten =
      if lastOr "BOUT.settings".toList (setFiles W) = lastOr "BOUT.inp".toList (optFiles W) then
        .error (.exc "Input and output file for settings must be different")
      else .ok (.run
        { verbosity := 4 + louder W
          color := coloured W
          dataDir := lastOr "data".toList (dirs W)
          optFile := lastOr "BOUT.inp".toList (optFiles W)
          setFile := lastOr "BOUT.settings".toList (setFiles W)
          logFile := lastOr "BOUT.log".toList (logFiles W)
          argv := prog :: W.flatMap Word.canonical }) := by
  have hi : infoLoop (W.map Word.spell).flatten = none := by
    have := infoLoop_pre (W.map Word.spell).flatten [] hask
    rw [List.append_nil] at this
    rw [this, infoLoop]
  obtain ⟨b, g0, g1, g2, g3, g4, g5, g6, g7⟩ := switchLoop_words W { argv := [prog] } [] hW
  rw [List.append_nil] at g0
  unfold parseArgs
  have hb : ({ b with argv := b.argv.filter (fun x => decide (x ≠ [])) } : Args) =
      { verbosity := 4 + louder W, color := coloured W, dataDir := lastOr "data".toList (dirs W)
        optFile := lastOr "BOUT.inp".toList (optFiles W)
        setFile := lastOr "BOUT.settings".toList (setFiles W)
        logFile := lastOr "BOUT.log".toList (logFiles W)
        argv := prog :: W.flatMap Word.canonical } := by
    have e : List.filter (fun x : Chars => decide (x ≠ [])) [prog] = [prog] := by
      rw [filter_unempty, unempty, if_neg hp]
    rw [e] at g7
    rw [g7, g1, g2, g3, g4, g5, g6, Bool.false_or]
    rfl
  have hs : switchLoop { argv := [prog] } (W.map Word.spell).flatten = .ok b := by rw [g0, switchLoop]
  rw [hi, hs]
  dsimp only
  generalize lastOr "BOUT.settings".toList (setFiles W) = sf at g5 hb ⊢
  generalize lastOr "BOUT.inp".toList (optFiles W) = ff at g4 hb ⊢
  by_cases h : sf = ff
  · rw [if_pos h, if_pos (show b.setFile = b.optFile from g5.trans (h.trans g4.symm))]
  · rw [if_neg h, if_neg (show ¬ b.setFile = b.optFile from
      fun e => h (g5.symm.trans (e.trans g4)))]
    exact congrArg (fun a => Except.ok (Parsed.run a)) hb

/-- Every list of arguments can be read in this way, except that the last may be a switch whose value
is missing; then it is refused (unless information was asked for). -/
theorem C76_every_command_line (args : List Chars) :
    (∃ W : List Word, (∀ w ∈ W, w.Ok) ∧ args = (W.map Word.spell).flatten) ∨
    ∃ (W : List Word) (x : Chars), (∀ w ∈ W, w.Ok) ∧
      x ∈ ["-d".toList, "-f".toList, "-o".toList, "-l".toList, "--log".toList] ∧
      args = (W.map Word.spell).flatten ++ [x] ∧
      ∀ prog, (∀ a ∈ args, ¬ Asks a) → (parseArgs prog args).isOk = false := by
  have split : ∀ (n : Nat) (args : List Chars), args.length ≤ n →
      (∃ W : List Word, (∀ w ∈ W, w.Ok) ∧ args = (W.map Word.spell).flatten) ∨
      ∃ (W : List Word) (x : Chars), (∀ w ∈ W, w.Ok) ∧
        x ∈ ["-d".toList, "-f".toList, "-o".toList, "-l".toList, "--log".toList] ∧
        args = (W.map Word.spell).flatten ++ [x] := by
    intro n
    induction n with
    | zero =>
      intro args h
      left
      refine ⟨[], by simp, ?_⟩
      cases args with
      | nil => rfl
      | cons a l => simp at h
    | succ n ih =>
      intro args h
      cases args with
      | nil => exact Or.inl ⟨[], by simp, rfl⟩
      | cons a l =>
        have more : ∀ (w : Word) (l' : List Chars), w.Ok → a :: l = w.spell ++ l' → l'.length ≤ n →
            (∃ W : List Word, (∀ w ∈ W, w.Ok) ∧ a :: l = (W.map Word.spell).flatten) ∨
            ∃ (W : List Word) (x : Chars), (∀ w ∈ W, w.Ok) ∧
              x ∈ ["-d".toList, "-f".toList, "-o".toList, "-l".toList, "--log".toList] ∧
              a :: l = (W.map Word.spell).flatten ++ [x] := by
          intro w l' hw he hl
          rcases ih l' hl with ⟨W, h1, h2⟩ | ⟨W, x, h1, h2, h3⟩
          · left
            refine ⟨w :: W, ?_, by rw [he, h2]; simp⟩
            intro v hv
            rcases List.mem_cons.mp hv with rfl | hv
            · exact hw
            · exact h1 v hv
          · right
            refine ⟨w :: W, x, ?_, h2, by rw [he, h3]; simp⟩
            intro v hv
            rcases List.mem_cons.mp hv with rfl | hv
            · exact hw
            · exact h1 v hv
        simp only [List.length_cons] at h
        have two : ∀ (mk : Chars → Word), (∀ v, (mk v).Ok) → (∀ v, (mk v).spell = [a, v]) →
            a ∈ ["-d".toList, "-f".toList, "-o".toList, "-l".toList, "--log".toList] →
            (∃ W : List Word, (∀ w ∈ W, w.Ok) ∧ a :: l = (W.map Word.spell).flatten) ∨
            ∃ (W : List Word) (x : Chars), (∀ w ∈ W, w.Ok) ∧
              x ∈ ["-d".toList, "-f".toList, "-o".toList, "-l".toList, "--log".toList] ∧
              a :: l = (W.map Word.spell).flatten ++ [x] := by
          intro mk h1 h2 h3
          cases l with
          | nil => exact Or.inr ⟨[], a, by simp, h3, rfl⟩
          | cons v l' => exact more (mk v) l' (h1 v) (by rw [h2]; rfl) (by simp at h; omega)
        by_cases hs : a ∈ switches
        · simp only [switches, List.mem_cons, List.not_mem_nil, or_false] at hs
          rcases hs with rfl | rfl | rfl | rfl | rfl | rfl | rfl | rfl | rfl | rfl | rfl
          · exact two .dataDir (fun _ => trivial) (fun _ => rfl) (by decide)
          · exact two .optFile (fun _ => trivial) (fun _ => rfl) (by decide)
          · exact two .setFile (fun _ => trivial) (fun _ => rfl) (by decide)
          · exact two (.logFile false) (fun _ => trivial) (fun _ => rfl) (by decide)
          · exact two (.logFile true) (fun _ => trivial) (fun _ => rfl) (by decide)
          · exact more (.verbose false) l trivial rfl (by omega)
          · exact more (.verbose true) l trivial rfl (by omega)
          · exact more (.quiet false) l trivial rfl (by omega)
          · exact more (.quiet true) l trivial rfl (by omega)
          · exact more (.color false) l trivial rfl (by omega)
          · exact more (.color true) l trivial rfl (by omega)
        · exact more (.plain a) l hs rfl (by omega)
  rcases split args.length args (Nat.le_refl _) with h | ⟨W, x, h1, h2, h3⟩
  · exact Or.inl h
  · right
    refine ⟨W, x, h1, h2, h3, ?_⟩
    intro prog hask
    have hi : infoLoop args = none := by
      have := infoLoop_pre args [] hask
      rw [List.append_nil] at this
      rw [this, infoLoop]
    obtain ⟨b, g0, -⟩ := switchLoop_words W { argv := [prog] } [x] h1
    unfold parseArgs
    rw [hi, h3, g0]
    simp only [List.mem_cons, List.not_mem_nil, or_false] at h2
    rcases h2 with rfl | rfl | rfl | rfl | rfl <;> rfl

end Verif.Opt
