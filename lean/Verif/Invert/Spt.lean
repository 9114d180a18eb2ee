import Verif.Cyclic.Spec
import Mathlib.Data.Int.Basic

/-!
# The pipelined Thomas algorithm

Model of the numerical part of `LaplaceSPT` (`src/invert/laplace/impls/spt/spt.cxx`): one Fourier mode of one XZ slice,
distributed over the processors of a row in X.  Arithmetic is exact.  The other modes travel in the same messages, the other
slices have their own `SPT_data` and message tag (`Verif/Invert/SptSched.lean`).
-/

namespace Verif.Spt

open Verif.Cyclic

variable {K : Type} [Field K] [DecidableEq K]

/-- What one processor passes to `tridagForward`: pointers to the first of its `n` rows; `cm` is `c[-1]`, the coefficient this
processor computed for the guard cell just before its first row. -/
structure RankSys (K : Type) where
  n : Nat
  row : Nat → Row K
  cm : K

/-- `p[j] = v`. -/
def upd (u : Nat → K) (j : Nat) (v : K) : Nat → K := fun i => if i = j then v else u i

/-- State of `tridagForward`: `gam`, `u`, `bet`. -/
structure Fwd (K : Type) where
  gam : Nat → K
  u : Nat → K
  bet : K

/-- The body of the loop over `j` (spt.cxx L244-252). -/
def fwdStep (row : Nat → Row K) (j : Nat) (s : Fwd K) : Except String (Fwd K) :=
  let g := (row (j - 1)).c / s.bet
  let bet := (row j).b - (row j).a * g
  if bet = 0 then .error "Tridag: Zero pivot"
  else .ok ⟨upd s.gam j g, upd s.u j (((row j).r - (row j).a * s.u (j - 1)) / bet), bet⟩

/-- The loop `for (j = 1; j < n; j++)`, `k` iterations. -/
def fwdLoop (row : Nat → Row K) : Nat → Fwd K → Except String (Fwd K)
  | 0, s => .ok s
  | k + 1, s => match fwdLoop row k s with
    | .error e => .error e
    | .ok s => fwdStep row (k + 1) s

/-- The first row (spt.cxx L235-242).  There is no test for a zero pivot here: the division gives an infinity or NaN, which is
modelled as a failure. -/
def fwdFirst (R : RankSys K) (gam u : Nat → K) (start : Bool) (bet um : K) : Except String (Fwd K) :=
  if start then
    let bet := (R.row 0).b
    if bet = 0 then .error "not finite"
    else .ok ⟨gam, upd u 0 ((R.row 0).r / bet), bet⟩
  else
    let g := R.cm / bet
    let bet := (R.row 0).b - (R.row 0).a * g
    if bet = 0 then .error "not finite"
    else .ok ⟨upd gam 0 g, upd u 0 (((R.row 0).r - (R.row 0).a * um) / bet), bet⟩

/-- `tridagForward` (spt.cxx L229-256): `gam`, `u` and the outgoing `(bet, um)`. -/
def tridagForward (R : RankSys K) (gam u : Nat → K) (start : Bool) (bet um : K) :
    Except String ((Nat → K) × (Nat → K) × K × K) :=
  match fwdFirst R gam u start bet um with
  | .error e => .error e
  | .ok s => match fwdLoop R.row (R.n - 1) s with
    | .error e => .error e
    | .ok s => .ok (s.gam, s.u, s.bet, s.u (R.n - 1))

/-- The loop `for (j = n - 2; j >= 0; j--)`; `m` is one more than the first `j`. -/
def backLoop (gam : Nat → K) : Nat → (Nat → K) → Nat → K
  | 0, u => u
  | m + 1, u => backLoop gam m (upd u m (u m - gam (m + 1) * u (m + 1)))

/-- `tridagBack` (spt.cxx L266-277): `u` and the outgoing `(gp, up)`. -/
def tridagBack (n : Nat) (gam u : Nat → K) (gp up : K) : (Nat → K) × K × K :=
  let u := upd u (n - 1) (u (n - 1) - gp * up)
  let u := backLoop gam (n - 1) u
  (u, gam 0, u 0)

/-- `SPT_data` of one slice on all processors: `proc`, `dir` (the same everywhere), each processor's `gam` and `xk`, and the
buffer last sent. -/
structure St (K : Type) where
  proc : Int
  dir : Int
  gam : Nat → Nat → K
  u : Nat → Nat → K
  msg : K × K

/-- Replace the array of processor `q`. -/
def setRank (f : Nat → Nat → K) (q : Nat) (v : Nat → K) : Nat → Nat → K := fun p => if p = q then v else f p

/-- `LaplaceSPT::start` (spt.cxx L296-361): `junkG`, `junkU` are the unset `gam` and `xk`. -/
def start (P : Nat) (R : Nat → RankSys K) (junkG junkU : Nat → Nat → K) : Except String (St K) :=
  if P = 1 then .error "SPT method only works for NXPE > 1"
  else match tridagForward (R 0) (junkG 0) (junkU 0) true 0 0 with
    | .error e => .error e
    | .ok (g, u, bet, um) =>
      .ok { proc := 1, dir := if P = 2 then -1 else 1, gam := setRank junkG 0 g, u := setRank junkU 0 u, msg := (bet, um) }

/-- The work of processor `p` when the slice has reached it (spt.cxx L374-455). -/
def work (P : Nat) (R : Nat → RankSys K) (p : Nat) (s : St K) : Except String (St K) :=
  if p + 1 = P then
    match tridagForward (R p) (s.gam p) (s.u p) false s.msg.1 s.msg.2 with
    | .error e => .error e
    | .ok (g, u, _, _) =>
      let b := tridagBack (R p).n g u 0 0
      .ok { s with gam := setRank s.gam p g, u := setRank s.u p b.1, msg := b.2 }
  else if s.dir > 0 then
    match tridagForward (R p) (s.gam p) (s.u p) false s.msg.1 s.msg.2 with
    | .error e => .error e
    | .ok (g, u, bet, um) => .ok { s with gam := setRank s.gam p g, u := setRank s.u p u, msg := (bet, um) }
  else
    let b := tridagBack (R p).n (s.gam p) (s.u p) s.msg.1 s.msg.2
    .ok { s with u := setRank s.u p b.1, msg := if p = 0 then s.msg else b.2 }

/-- `LaplaceSPT::next` (spt.cxx L369-488): `true` if the slice was already finished. -/
def next (P : Nat) (R : Nat → RankSys K) (s : St K) : Except String (Bool × St K) :=
  if s.proc < 0 then .ok (true, s)
  else match work P R s.proc.toNat s with
    | .error e => .error e
    | .ok t =>
      let proc := t.proc + t.dir
      .ok (false, { t with proc := proc, dir := if proc = (P : Int) - 1 then -1 else t.dir })

/-- `k` calls of `next`. -/
def calls (P : Nat) (R : Nat → RankSys K) : Nat → St K → Except String (St K)
  | 0, s => .ok s
  | k + 1, s => match calls P R k s with
    | .error e => .error e
    | .ok s => match next P R s with
      | .error e => .error e
      | .ok (_, s) => .ok s

/-- `start`, then `k` calls of `next` (from the pipelining loops of `solve` and from `finish`). -/
def solveMode (P : Nat) (R : Nat → RankSys K) (junkG junkU : Nat → Nat → K) (k : Nat) : Except String (St K) :=
  match start P R junkG junkU with
  | .error e => .error e
  | .ok s => calls P R k s

end Verif.Spt
