import Verif.Common
import Mathlib.Data.Real.Basic
import Mathlib.Data.List.Sort

/-!
# Model of `Timer` (`include/bout/sys/timer.hxx`, `src/sys/timer.cxx`)

Clock readings are real numbers; the readings of one run do not decrease (the clock is steady).
-/

namespace Verif.Timer

/-- `timer_info`, `timer.hxx` L92-101. -/
structure Info where
  time : ℝ
  total : ℝ
  running : Bool
  started : ℝ
  counter : Nat
  hits : Nat

/-- The static map `info`. -/
abbrev Store := String → Option Info

/-- `getInfo`, `timer.cxx` L38-46, with the clock reading `now`. -/
def getInfo (st : Store) (l : String) (now : ℝ) : Info := (st l).getD ⟨0, 0, false, now, 0, 0⟩

def put (st : Store) (l : String) (i : Info) : Store := fun k => if k = l then some i else st k

/-- Construction, `timer.cxx` L7-23. -/
noncomputable def start (st : Store) (l : String) (now : ℝ) : Store :=
  let i := getInfo st l now
  let i := if i.counter = 0 then { i with started := now, running := true, hits := i.hits + 1 } else i
  put st l { i with counter := i.counter + 1 }

/-- Destruction, `timer.cxx` L25-33.  The object holds a reference into the map. -/
noncomputable def stop (st : Store) (l : String) (now : ℝ) : Out Store :=
  match st l with
  | none => .error (.ub "reference to an erased entry")
  | some i =>
    let i := { i with counter := i.counter - 1 }
    let i := if i.counter = 0 then
        let elapsed := now - i.started
        { i with running := false, time := i.time + elapsed, total := i.total + elapsed }
      else i
    .ok (put st l i)

/-- `getTime`, `timer.cxx` L48-53. -/
noncomputable def getTime (i : Info) (now : ℝ) : ℝ := if i.running then i.time + (now - i.started) else i.time

/-- `getTotalTime`, `timer.cxx` L55-60. -/
noncomputable def getTotalTime (i : Info) (now : ℝ) : ℝ := if i.running then i.total + (now - i.started) else i.total

/-- `resetTime`, `timer.cxx` L62-73. -/
noncomputable def resetTime (i : Info) (now : ℝ) : ℝ × Info :=
  let dur := i.time
  let i := { i with time := 0 }
  if i.running then
    let elapsed := now - i.started
    (dur + elapsed, { i with started := now, total := i.total + elapsed })
  else (dur, i)

/-- What happens to timers. -/
inductive Ev where
  | start (l : String)
  | stop (l : String)
  | reset (l : String)
  | cleanup
deriving DecidableEq

/-- One event. -/
noncomputable def step (st : Store) (now : ℝ) : Ev → Out Store
  | .start l => .ok (start st l now)
  | .stop l => stop st l now
  | .reset l => .ok (put st l (resetTime (getInfo st l now) now).2)
  | .cleanup => .ok fun _ => none

/-- A history. -/
noncomputable def run : Store → List (ℝ × Ev) → Out Store
  | st, [] => .ok st
  | st, (t, e) :: r =>
    match step st t e with
    | .error x => .error x
    | .ok st' => run st' r

/-- The rows of `printTimeReport`, `timer.cxx` L75-145: label, total time, the number in the column "% of top", hits and
the mean time.  `entries` are the map's entries in order of label; finding the widths reads the largest of an empty
sequence if there are none (L87-93). -/
noncomputable def report (entries : List (String × Info)) : Out (List (String × ℝ × ℝ × Nat × ℝ)) :=
  match entries.mergeSort (fun a b => decide (a.2.total ≥ b.2.total)) with
  | [] => .error (.ub "max_element of an empty map")
  | top :: rest => .ok ((top :: rest).map fun kv =>
      (kv.1, kv.2.total, kv.2.total / top.2.total, kv.2.hits, kv.2.total / kv.2.hits))

end Verif.Timer
