import Mathlib.Algebra.Order.Field.Basic
import Mathlib.Algebra.Module.Basic
import Verif.Solver.Snes

/-!
# What the events of a SNES run should be

The specification reads the list of events from the left.  `View` is what an observer knows after a prefix
of the events; `Good` says which event may come next.  Nothing here refers to the functions that model the
code.
-/

namespace Verif.Snes

variable {K V : Type} [Field K] [LinearOrder K] [AddCommGroup V] [Module K V]

/-- What an observer knows after some events. -/
structure View (K V : Type) where
  /-- time at the start of the run -/
  t0 : K
  /-- current time and state: the end of the last accepted step -/
  t : K
  x : V
  /-- the trial timestep -/
  h : K
  /-- start of the last accepted step -/
  prev : Option (K × V)
  /-- is the predictor still on? -/
  pred : Bool
  /-- number of outputs written, and of solves made -/
  outs : Nat
  solves : Nat
  /-- the last event -/
  last : Option (Event K V)

/-- The next output time. -/
def View.target (P : Params K) (w : View K V) : K := w.t0 + (w.outs + 1) * P.dtout

/-- The trial timestep after an accepted step of `its` iterations that did not reach the output time. -/
def newSize (P : Params K) (its : Nat) (h : K) : K :=
  if its ≤ P.lowerIts then min (h * 11 / 10) P.maxDt
  else if P.upperIts ≤ its then h * 9 / 10 else h

/-- What the observer learns from one event. -/
def View.see (P : Params K) (w : View K V) (e : Event K V) : View K V :=
  let w' := match e with
    | .solve _ _ _ _ _ => { w with solves := w.solves + 1 }
    | .failed => { w with h := w.h / 2 }
    | .accept t dt x0 _ _ its x =>
      { w with t := t + dt, x := x, prev := some (t, x0),
               h := if t + dt < w.target P then newSize P its w.h else w.h }
    | .reset => { w with h := P.dtout, pred := false }
    | .rhs _ _ => w
    | .monitor _ _ _ => { w with outs := w.outs + 1 }
  { w' with last := some e }

/-- Before any event. -/
def View.first (t0 : K) (v : V) (h : K) (pred : Bool) : View K V :=
  { t0 := t0, t := t0, x := v, h := h, prev := none, pred := pred, outs := 0, solves := 0, last := none }

/-- After a list of events. -/
def View.all (P : Params K) (w : View K V) (log : List (Event K V)) : View K V := log.foldl (View.see P) w

/-- The straight line through `(t1, x1)` and `(t, x)`, at time `s`. -/
def line (t1 : K) (x1 : V) (t : K) (x : V) (s : K) : V := x1 + ((s - t1) / (t - t1)) • (x - x1)

/-- The first guess the documentation promises: the line through the last two points; the code uses it only
if the earlier of them has positive time. -/
def View.firstGuess (w : View K V) (dt : K) : V :=
  match w.prev with
  | some (t1, x1) => if w.pred = true ∧ 0 < t1 then line t1 x1 w.t w.x (w.t + dt) else w.x
  | none => w.x

/-- Was the last event a failure or a reset? -/
def retry : Option (Event K V) → Prop
  | some .failed => True
  | some .reset => True
  | _ => False

/-- May event `e` follow what `w` has seen?  `lag` is the Jacobian lag of the options. -/
def Good (P : Params K) (f : K → V → V) (snes : Nat → Answer V) (lag : Int) (w : View K V) :
    Event K V → Prop
  | .solve t dt x0 g l =>
    -- from the current time and state, for the trial step cut at the output time
    t = w.t ∧ x0 = w.x ∧ dt = min w.h (w.target P - w.t) ∧ 0 < dt ∧
    -- the right first guess, from an earlier point
    g = w.firstGuess dt ∧ (∀ t1 x1, w.prev = some (t1, x1) → t1 < w.t) ∧
    -- a fresh Jacobian exactly after a failure or a reset
    (retry w.last → l = 1) ∧ (¬ retry w.last → l = lag) ∧
    -- the trial step is not below the limit, unless the solver has just been reset
    (w.last = some .reset ∨ P.dtMin ≤ w.h) ∧
    -- not in the middle of something else
    (∀ t' dt' x' g' l', w.last ≠ some (.solve t' dt' x' g' l')) ∧ (∀ t' x', w.last ≠ some (.rhs t' x'))
  | .failed =>
    -- the solve just made failed
    (∃ t dt x0 g l, w.last = some (.solve t dt x0 g l)) ∧ snes (w.solves - 1) = .failed
  | .accept t dt x0 g xs its x =>
    -- the solve just made succeeded
    (∃ l, w.last = some (.solve t dt x0 g l)) ∧ snes (w.solves - 1) = .ok xs its ∧
    (its ≠ 0 → x = xs) ∧ (its = 0 → x = xs + dt • f t xs)
  | .reset =>
    w.h < P.dtMin ∧ w.last ≠ some .failed ∧ w.last ≠ some .reset ∧ w.t < w.target P ∧
    (∀ t' dt' x' g' l', w.last ≠ some (.solve t' dt' x' g' l')) ∧ (∀ t' x', w.last ≠ some (.rhs t' x'))
  | .rhs t x =>
    -- exactly at the output time, after an accepted step
    t = w.target P ∧ t = w.t ∧ x = w.x ∧ (∃ t' dt' x0 g xs its x', w.last = some (.accept t' dt' x0 g xs its x'))
  | .monitor t k x =>
    t = w.target P ∧ k = w.outs ∧ w.last = some (.rhs t x)

/-- Every event of the list may follow those before it. -/
def AllGood (P : Params K) (f : K → V → V) (snes : Nat → Answer V) (lag : Int) (w : View K V)
    (log : List (Event K V)) : Prop :=
  ∀ a e b, log = a ++ e :: b → Good P f snes lag (w.all P a) e

end Verif.Snes
