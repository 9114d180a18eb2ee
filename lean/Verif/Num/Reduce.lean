/-
Model of the reductions over fields (`include/bout/field.hxx` L300-450), the averages and the
smoothing filters (`src/physics/smoothing.cxx`), and `DC` (`src/field/field3d.cxx` L769-788).

The cells of a region on one rank are given as a list of values; `ranks` is the list over all
ranks.  Numbers are the elements of a linearly ordered field (no rounding).
-/
import Verif.Common
import Mathlib.Algebra.Order.Field.Basic
import Mathlib.Algebra.BigOperators.Group.Finset.Basic
import Mathlib.Algebra.BigOperators.Intervals

namespace Verif.Reduce

open Verif

variable {K : Type} [Field K] [LinearOrder K]

/-! ### min, max, mean -/

/-- The loop body of `min`, `field.hxx` L318-322. -/
def minStep (m y : K) : K := if y < m then y else m

/-- The loop body of `max`, `field.hxx` L404-408. -/
def maxStep (m y : K) : K := if m < y then y else m

/-- One rank: `result = f[*region.cbegin()]`, then a loop shared between OpenMP threads
(`reduction(min:result)`).  `first` is the first cell (none if the region is empty, which
dereferences an end iterator); `threads` are the cells handled by each thread; each thread
starts from the identity of the reduction, modelled by `none`, and the results are combined
with the initial value. -/
def localReduce (step : K → K → K) (first : Option K) (threads : List (List K)) : Out K :=
  match first with
  | none => .error (.ub "region.cbegin() of an empty region")
  | some x =>
      .ok (threads.foldl (fun acc t =>
        match t with
        | [] => acc
        | y :: ys => step acc (ys.foldl step y)) x)

/-- `min(f, allpe)` / `max(f, allpe)` on rank `r`, `field.hxx` L309-333, L395-419: the local
result, or that of `MPI_Allreduce` over all ranks.  `ranks` gives for every rank the cells of
its threads. -/
def reduceField (step : K → K → K) (ranks : List (List (List K))) (r : Nat) (allpe : Bool) : Out K :=
  if allpe = true then do
    let loc ← ranks.mapM fun th => localReduce step th.flatten.head? th
    match loc with
    | [] => .error (.ub "no ranks")
    | x :: xs => return xs.foldl step x
  else localReduce step (ranks.getD r []).flatten.head? (ranks.getD r [])

/-- `mean(f, allpe)`, `field.hxx` L428-452.  A region without cells gives 0/0; the model
reports it as an exception. -/
def meanField (ranks : List (List (List K))) (r : Nat) (allpe : Bool) : Out K :=
  let one : List (List K) → K × Nat := fun th => ((th.map List.sum).sum, (th.map List.length).sum)
  let tot : K × Nat :=
    if allpe = true then ((ranks.map fun th => (one th).1).sum, (ranks.map fun th => (one th).2).sum)
    else one (ranks.getD r [])
  if tot.2 = 0 then .error (.exc "0/0") else .ok (tot.1 / (tot.2 : K))

/-! ### isUniform -/

/-- The local loop of `isUniform`, `field.hxx` L343-354; `close a b` is `almost_equal(a, b, 10)`. -/
def uniformLocal (close : K → K → Bool) : List K → Out Bool
  | [] => .error (.ub "begin() of an empty region")
  | x :: xs => .ok ((x :: xs).all fun y => decide (y = x) || close y x)

/-- `isUniform(f, allpe)`, `field.hxx` L355-359: the reduction is a logical OR. -/
def isUniform (close : K → K → Bool) (ranks : List (List K)) (r : Nat) (allpe : Bool) : Out Bool :=
  if allpe = true then do
    let loc ← ranks.mapM (uniformLocal close)
    return loc.any id
  else uniformLocal close (ranks.getD r [])

/-- `getUniform(f, allpe)` with `CHECK > 1`, `field.hxx` L370-386. -/
def getUniform (close : K → K → Bool) (ranks : List (List K)) (r : Nat) (allpe : Bool) : Out K := do
  let b ← isUniform close ranks r allpe
  if b = true then
    match (ranks.getD r []).head? with
    | none => .error (.ub "begin() of an empty region")
    | some x => return x
  else .error (.exc "Requested getUniform but Field is not const")

/-! ### Averages -/

/-- Sum over a loop `for (x = a; x <= b; x++)` with `b = a + w - 1`. -/
def sumFrom (a : Int) (w : Nat) (f : Int → K) : K := ((List.range w).map fun k => f (a + k)).sum

/-- `averageX` at one (y, z), `smoothing.cxx` L119-165, L178-230.  `f p x` is the value at local
index `x` on processor `p` of the X communicator; `np` its size; `w = xend - xstart + 1`. -/
def averageX (np w : Nat) (xstart : Int) (f : Nat → Int → K) (p : Nat) : K :=
  let input : Nat → K := fun q => sumFrom xstart w (f q) / (w : K)
  if np = 1 then input p
  else ((List.range np).map input).sum / (np : K)

/-- `averageY` at one (x, z), `smoothing.cxx` L232-275, L277-330: the same over the Y
communicator of local index 0. -/
def averageY (np h : Nat) (ystart : Int) (f : Nat → Int → K) (p : Nat) : K :=
  let input : Nat → K := fun q => sumFrom ystart h (f q) / (h : K)
  if np = 1 then input p
  else ((List.range np).map input).sum / (np : K)

/-- `Average_XY`, `smoothing.cxx` L332-351.  `f px py x y`; the processor is `(px, py)`.
`gnx = GlobalNx`. -/
def averageXY (npx npy w h : Nat) (xstart ystart gnx : Int) (f : Nat → Nat → Int → Int → K) (py : Nat) : K :=
  let loc : Nat → K := fun px => sumFrom xstart w fun i => averageY npy h ystart (fun q y => f px q i y) py
  ((List.range npx).map loc).sum / ((gnx - 2 * xstart : Int) : K)

/-- `Vol_Integral`, `smoothing.cxx` L353-372; `twopi` is `PI * 2`, `nyb` is
`numberOfYBoundaries()`. -/
def volIntegral (npx npy w h : Nat) (xstart ystart gnx gny nyb : Int) (twopi : K)
    (J var dx dy : Nat → Nat → Int → Int → K) (py : Nat) : K :=
  averageXY npx npy w h xstart ystart gnx (fun a b x y => J a b x y * var a b x y * dx a b x y * dy a b x y) py
    * (((gnx - 2 * xstart) * (gny - nyb * 2 * ystart) : Int) : K) * twopi

/-- `DC(Field3D)` at one (x, y), `field3d.cxx` L778-784. -/
def dc (nz : Nat) (f : Nat → K) : K := ((List.range nz).map f).sum / (nz : K)

/-! ### Smoothing -/

/-- The 1-2-1 filter at one interior point, `smoothing.cxx` L64-72 (`smooth_x`) and L97-106
(`smooth_y`). -/
def smooth3 (f : Int → K) (i : Int) : K := 1/2 * f i + 1/4 * (f (i-1) + f (i+1))

/-- `smooth_x` / `smooth_y` along one line of `n` points before the guard cells are
communicated, `smoothing.cxx` L48-74: the end points are copied. -/
def smoothLine (n : Int) (f : Int → K) (i : Int) : K :=
  if i = 0 ∨ i = n - 1 then f i else smooth3 f i

/-- `smoothXY` at one point, `smoothing.cxx` L374-404. -/
def smoothXY (f : Int → Int → K) (x y : Int) : K :=
  1/2 * f x y
    + 1/8 * (1/2 * f (x+1) y + 1/8 * (f (x+2) y + f x y + f (x+1) (y-1) + f (x+1) (y+1))
      + 1/2 * f (x-1) y + 1/8 * (f x y + f (x-2) y + f (x-1) (y-1) + f (x-1) (y+1))
      + 1/2 * f x (y-1) + 1/8 * (f (x+1) (y-1) + f (x-1) (y-1) + f x (y-2) + f x y)
      + 1/2 * f x (y+1) + 1/8 * (f (x+1) (y+1) + f (x-1) (y+1) + f x y + f x (y+2)))

/-- Replace two entries. -/
def upd2 (f : Nat → K) (i : Nat) (a : K) (j : Nat) (b : K) : Nat → K :=
  fun k => if k = i then a else if k = j then b else f k

/-- `|a|`. -/
def fabs (a : K) : K := if a < 0 then -a else a

/-- One iteration of `nl_filter`, `smoothing.cxx` L408-429. -/
def nlStep (w : K) (f : Nat → K) (i : Nat) : Nat → K :=
  let dp := f (i+1) - f i
  let dm := f (i-1) - f i
  if 0 < dp * dm then
    if fabs dm < fabs dp then
      let ep := w * (1/2) * dp
      let em := w * dm
      let e := if fabs ep < fabs em then ep else em
      upd2 f (i+1) (f (i+1) - e) i (f i + e)
    else
      let ep := w * (1/2) * dm
      let em := w * dp
      let e := if fabs ep < fabs em then ep else em
      upd2 f (i-1) (f (i-1) - e) i (f i + e)
  else f

/-- `nl_filter(rvec&, w)`, `smoothing.cxx` L406-431, on `n ≥ 1` points. -/
def nlFilter (w : K) (n : Nat) (f : Nat → K) : Nat → K :=
  ((List.range (n - 2)).map (· + 1)).foldl (nlStep w) f

end Verif.Reduce
