import Verif.Options.CmdArgsThms

/-! # C76: where the claim fails, and that the hypotheses can be met -/

namespace Verif.Opt

open Verif.Str

/-- An evaluator which is enough for the witnesses. -/
def cmdEnv : Env where
  eval _ := .error (.exc "not a number")
  toStr v := match v with
    | .str s => s
    | _ => []

/-- Reading an empty input file succeeds whatever its name. -/
def noInput : Chars → Out Tree := fun _ => .ok emptyTree

/-- One setting `key=value` in a single argument. -/
theorem cmdLoop_single (t : Tree) (a : Chars) (h1 : a ≠ []) (h2 : a.head? ≠ some '-') :
    cmdLoop t [a] = cmdBuffer t a := by
  rw [cmdLoop.eq_def]
  dsimp only
  rw [if_neg h1, if_neg h2, if_neg h1]

/-- Violation: with the long name of the switch, `datadir=out`, the input is still read from
`data/` although the settings go to `out/`. -/
theorem C76_long_datadir_violated :
    ∃ st, startup cmdEnv noInput "run".toList ["datadir=out".toList] = .ok (.inr st) ∧
      st.inputFile = "data/BOUT.inp".toList ∧ st.settingsFile = "out/BOUT.settings".toList := by
  have hp : parseArgs "run".toList ["datadir=out".toList]
      = .ok (.run { argv := ["run".toList, "datadir=out".toList] }) := by decide
  unfold startup
  rw [hp]
  dsimp only [noInput]
  rw [List.tail_cons, cmdLoop_single _ _ (by decide) (by decide)]
  exact ⟨_, rfl, by decide, by decide⟩

/-- Violation: `-o BOUT.inp` is refused, but `settingsfile=BOUT.inp` is not, and the input file is
overwritten. -/
theorem C76_overwrite_violated :
    (startup cmdEnv noInput "run".toList ["-o".toList, "BOUT.inp".toList]).isOk = false ∧
    ∃ st, startup cmdEnv noInput "run".toList ["settingsfile=BOUT.inp".toList] = .ok (.inr st) ∧
      st.settingsFile = st.inputFile := by
  refine ⟨by decide, ?_⟩
  have hp : parseArgs "run".toList ["settingsfile=BOUT.inp".toList]
      = .ok (.run { argv := ["run".toList, "settingsfile=BOUT.inp".toList] }) := by decide
  unfold startup
  rw [hp]
  dsimp only [noInput]
  rw [List.tail_cons, cmdLoop_single _ _ (by decide) (by decide)]
  exact ⟨_, rfl, by decide⟩

/-- Violation: the help text offers `--list-laplacexz`, but only `--list-laplacexzs` is recognised:
the run goes ahead with an option called `-list-laplacexz`. -/
theorem C76_list_laplacexz_violated :
    ∃ st, startup cmdEnv noInput "run".toList ["--list-laplacexz".toList] = .ok (.inr st) ∧
      (st.tree.valueAt ["-list-laplacexz".toList]).map (·.value) = some (.bool true) := by
  have hp : parseArgs "run".toList ["--list-laplacexz".toList]
      = .ok (.run { argv := ["run".toList, "--list-laplacexz".toList] }) := by decide
  have hl : cmdLoop emptyTree ["--list-laplacexz".toList]
      = cmdBuffer emptyTree "-list-laplacexz".toList := by
    rw [cmdLoop.eq_def]
    dsimp only
    rw [if_neg (by decide), if_neg (by decide)]
    rfl
  unfold startup
  rw [hp]
  dsimp only [noInput]
  rw [List.tail_cons, hl]
  exact ⟨_, rfl, by decide⟩

/-- Violation: an empty directory name is dropped from the arguments, and its long name takes the
argument that follows as its value: `-d "" restart` asks for directory `restart` and no restart. -/
theorem C76_empty_value_violated :
    parseArgs "run".toList ["-d".toList, [], "restart".toList]
      = .ok (.run { dataDir := [], argv := ["run".toList, "datadir=".toList, "restart".toList] }) ∧
    cmdLoop emptyTree ["datadir=".toList, "restart".toList]
      = cmdMeaning emptyTree [.setting ["datadir".toList] "restart".toList] := by
  refine ⟨by decide, ?_⟩
  have h := C13_command_line [(.setting ["datadir".toList] "restart".toList,
    ["datadir=".toList, "restart".toList])] emptyTree (by
      intro i hi
      simp only [List.mem_cons, List.not_mem_nil, or_false] at hi
      subst hi
      refine ⟨⟨by decide, by
        intro n hn
        simp only [List.mem_cons, List.not_mem_nil, or_false] at hn
        subst hn
        exact ⟨by decide, by constructor <;> decide, by decide, by decide⟩⟩, by decide,
        by constructor <;> decide, by decide, [], Or.inl ⟨rfl, by decide⟩, Or.inr (Or.inl rfl)⟩)
  simpa using h

/-- Violation: a value separated by a space which looks like a switch is taken for one: in
`label= -v` nothing is left for the option and the run is refused. -/
theorem C76_value_like_switch_violated :
    parseArgs "run".toList ["label=".toList, "-v".toList]
      = .ok (.run { verbosity := 5, argv := ["run".toList, "label=".toList] }) ∧
    (cmdLoop emptyTree ["label=".toList]).2.isOk = false := by
  refine ⟨by decide, ?_⟩
  rw [cmdLoop_single _ _ (by decide) (by decide)]
  decide

/-- Violation: a directory name containing '=' is refused. -/
theorem C76_equals_in_name_violated :
    (startup cmdEnv noInput "run".toList ["-d".toList, "a=1".toList]).isOk = false := by
  have hp : parseArgs "run".toList ["-d".toList, "a=1".toList]
      = .ok (.run { dataDir := "a=1".toList
                    argv := ["run".toList, "datadir=".toList, "a=1".toList] }) := by decide
  have hl : cmdLoop emptyTree ["datadir=".toList, "a=1".toList]
      = (emptyTree, .error (.exc "Multiple '='")) := by
    rw [cmdLoop.eq_def]
    dsimp only
    rw [if_neg (by decide), if_neg (by decide), if_pos (by decide)]
    rfl
  unfold startup
  rw [hp]
  dsimp only [noInput]
  rw [List.tail_cons, hl]
  rfl

/-! ## Hypotheses can be met -/

/-- `run -d out -v nout=3 --log l.txt -d out`. -/
def cmdSample : List Said :=
  [.switch (.dataDir "out".toList), .switch (.verbose false),
   .option (.setting ["nout".toList] "3".toList) ["nout=3".toList],
   .switch (.logFile true "l.txt".toList), .switch (.dataDir "out".toList)]

theorem cmdSample_ok : (∀ s ∈ cmdSample, s.Ok) ∧ (∀ a ∈ cmdSample.flatMap Said.args, ¬ Asks a) ∧
    (∀ s ∈ cmdSample, ¬ s.sets ["datadir".toList]) ∧ (∀ s ∈ cmdSample, ¬ s.sets ["settingsfile".toList]) := by
  have gv : ∀ v ∈ ["out".toList, "l.txt".toList], GoodValue v := by
    intro v hv
    simp only [List.mem_cons, List.not_mem_nil, or_false] at hv
    rcases hv with rfl | rfl <;> exact ⟨by decide, by constructor <;> decide, by decide⟩
  refine ⟨?_, by decide, ?_, ?_⟩
  · intro s hs
    simp only [cmdSample, List.mem_cons, List.not_mem_nil, or_false] at hs
    rcases hs with rfl | rfl | rfl | rfl | rfl
    · exact gv _ (by simp)
    · trivial
    · refine ⟨⟨⟨by decide, by
        intro n hn
        simp only [List.mem_cons, List.not_mem_nil, or_false] at hn
        subst hn
        exact ⟨by decide, by constructor <;> decide, by decide, by decide⟩⟩, by decide,
        by constructor <;> decide, by decide, [], Or.inl ⟨rfl, by decide⟩, Or.inl rfl⟩, by decide⟩
    · exact gv _ (by simp)
    · exact gv _ (by simp)
  · intro s hs
    simp only [cmdSample, List.mem_cons, List.not_mem_nil, or_false] at hs
    rcases hs with rfl | rfl | rfl | rfl | rfl <;> simp [Said.sets, CmdItem.path]
  · intro s hs
    simp only [cmdSample, List.mem_cons, List.not_mem_nil, or_false] at hs
    rcases hs with rfl | rfl | rfl | rfl | rfl <;> simp [Said.sets, CmdItem.path]

/-- The run of the cmdSample command line succeeds, and `C76_files` applies to it. -/
example : ∃ st, startup cmdEnv noInput "run".toList (cmdSample.flatMap Said.args) = .ok (.inr st) ∧
    st.inputFile = "out/BOUT.inp".toList ∧ st.logFile = "out/l.txt".toList ∧
    st.settingsFile = "out/BOUT.settings".toList := by
  obtain ⟨h1, h2, h3, h4⟩ := cmdSample_ok
  have hex : ∃ st, startup cmdEnv noInput "run".toList (cmdSample.flatMap Said.args)
      = .ok (.inr st) := by
    obtain ⟨s1, s2, s3, s4⟩ := saids_spelled cmdSample h1
    have hparse := C76_switches "run".toList (cmdSample.flatMap Said.words) (by decide) s3
      (by rw [s4]; exact h2)
    rw [s4] at hparse
    unfold startup
    rw [hparse, if_neg (by decide)]
    dsimp only [noInput]
    rw [List.tail_cons, s2, C13_command_line _ _ s1]
    exact ⟨_, rfl⟩
  obtain ⟨st, hst⟩ := hex
  have := C76_files cmdEnv (fun _ => rfl) noInput "run".toList (by decide) cmdSample h1 h2 st
    (by
      intro f t ht
      cases ht
      exact ⟨Inv_empty, fun _ => rfl, fun _ => rfl⟩) h3 h4 hst
  exact ⟨st, hst, this.1, this.2.1, this.2.2.1⟩

end Verif.Opt
