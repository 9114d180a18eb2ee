import Verif.Common
import Mathlib.Algebra.Field.Basic

/-!
# Model of `interpolateAndExtrapolate` (`src/mesh/coordinates.cxx` L36-149, L151-285)

One processor, one X-Y plane (the three-dimensional version does the same in every plane; it differs in one test, see
`Mesh.enoughY3`).  Values are in a field `K`; `nan` is the value of `BoutNaN`.  `CHECK` is at least 1.
-/

namespace Verif.Extrap

variable {K : Type} [Field K]

/-- A point of the X-Y plane, local indices. -/
structure Pt where
  x : Int
  y : Int
deriving DecidableEq

/-- The members of `Mesh` the function looks at. -/
structure Mesh where
  localNx : Int
  localNy : Int
  xstart : Int
  xend : Int
  ystart : Int
  yend : Int
  globalNx : Int
  globalNy : Int
  /-- `numberOfYBoundaries()` -/
  yBndries : Int
  corners : Bool

/-- The four kinds of boundary region, `boundary_region.cxx` L10-18, L59-68, L109-118, L159-167. -/
inductive Side where
  | xin
  | xout
  | ydown
  | yup
deriving DecidableEq

/-- `bx` and `by`, `boundary_region.cxx` L11, L61, L111, L160. -/
def Side.bx : Side → Int
  | .xin => -1
  | .xout => 1
  | _ => 0
/-- See `Side.bx`. -/
def Side.bY : Side → Int
  | .ydown => -1
  | .yup => 1
  | _ => 0

/-- `width`, `boundary_region.cxx` L13, L63, L113, L162. -/
def Mesh.width (m : Mesh) : Side → Int
  | .xin => m.xstart
  | .xout => m.localNx - m.xend - 1
  | .ydown => m.ystart
  | .yup => m.localNy - m.yend - 1

/-- A boundary region: side and range of the index along it. -/
structure Reg where
  side : Side
  lo : Int
  hi : Int

/-- The points the loop `first`, `next1d`, `isDone` visits: the guard cell next to the grid, for every index along the
boundary; `boundary_region.cxx` L20-23, L34-37, L53-55 and so on. -/
def Mesh.innermost (m : Mesh) (r : Reg) : List Pt :=
  (List.range (r.hi + 1 - r.lo).toNat).map fun (k : Nat) =>
    match r.side with
    | .xin => ⟨m.width .xin - 1, r.lo + k⟩
    | .xout => ⟨m.localNx - m.width .xout, r.lo + k⟩
    | .ydown => ⟨r.lo + k, m.width .ydown - 1⟩
    | .yup => ⟨r.lo + k, m.localNy - m.width .yup⟩

/-- The point `k` cells further out. -/
def along (s : Side) (p : Pt) (k : Int) : Pt := ⟨p.x + k * s.bx, p.y + k * s.bY⟩

/-- Reading an element. -/
def Mesh.rd (m : Mesh) (r : Pt → K) (p : Pt) : Out K :=
  if 0 ≤ p.x ∧ p.x < m.localNx ∧ 0 ≤ p.y ∧ p.y < m.localNy then .ok (r p) else .error (.ub "index outside the array")

/-- Writing an element. -/
def upd (r : Pt → K) (p : Pt) (v : K) : Pt → K := fun q => if q = p then v else r q

/-- L114-121: the loop from `i`, `n` cells. -/
def extrapLoop (m : Mesh) (s : Side) (p : Pt) : Nat → Int → (Pt → K) → Out (Pt → K)
  | 0, _, r => .ok r
  | n + 1, i, r => do
    let a ← m.rd r (along s p (i - 1))
    let b ← m.rd r (along s p (i - 2))
    let c ← m.rd r (along s p (i - 3))
    extrapLoop m s p n (i + 1) (upd r (along s p i) (3 * a - 3 * b + c))

/-- L124-127: the loop from `i`, `n` cells. -/
def constLoop (m : Mesh) (s : Side) (p : Pt) : Nat → Int → (Pt → K) → Out (Pt → K)
  | 0, _, r => .ok r
  | n + 1, i, r => do
    let a ← m.rd r (along s p (-1))
    constLoop m s p n (i + 1) (upd r (along s p i) a)

/-- L99-102, Y: the test for a two-dimensional field. -/
def Mesh.enoughY2 (m : Mesh) (s : Side) : Bool := decide (m.globalNy - m.yBndries * m.width s ≥ 3)
/-- L250, Y: the test for a three-dimensional field. -/
def Mesh.enoughY3 (m : Mesh) (s : Side) : Bool := decide (m.globalNy - 2 * m.width s ≥ 3)

/-- L99-102 (L249-250): are there enough points? -/
def Mesh.enough (m : Mesh) (threeD : Bool) (s : Side) : Bool :=
  (s.bx != 0 && decide (m.globalNx - 2 * m.width s ≥ 3)) ||
    (s.bY != 0 && (if threeD then m.enoughY3 s else m.enoughY2 s))

/-- L103-116: too few points on this processor? -/
def Mesh.refuses (m : Mesh) (s : Side) : Bool :=
  (s.bx != 0 && decide (m.localNx = 1 ∧ m.width s = 1)) || (s.bY != 0 && decide (m.localNy = 1 ∧ m.width s = 1))

/-- How the field changes location: `up s` holds if the new location is the lower face in the direction of side `s`
(`CELL_XLOW` with `bx > 0`, `CELL_YLOW` with `by > 0`), L68-74. -/
inductive Target where
  | centre
  | xlow
  | ylow
deriving DecidableEq

/-- `extrap_start`, L65-75. -/
def extrapStart (loc : Target) (noExtra : Bool) (s : Side) : Int :=
  if !noExtra && ((decide (loc = .xlow) && decide (s.bx > 0)) || (decide (loc = .ylow) && decide (s.bY > 0))) then 1 else 0

/-- L83-96: the missing point of the interpolation. -/
def extraPoint (m : Mesh) (s : Side) (f r : Pt → K) (p : Pt) : Out (Pt → K) := do
  if ¬ ((s.bx = 0 ∨ m.xstart > 1) ∧ (s.bY = 0 ∨ m.ystart > 1)) then .error (.exc "Assertion failed")
  else
    let a ← m.rd f (along s p (-1))
    let b ← m.rd f p
    let c ← m.rd f (along s p (-2))
    let d ← m.rd f (along s p 1)
    .ok (upd r p ((9 * (a + b) - c - d) / 16))

/-- L98-129: the guard cells. -/
def guards (m : Mesh) (threeD : Bool) (s : Side) (es : Int) (r : Pt → K) (p : Pt) : Out (Pt → K) :=
  if m.enough threeD s then
    if m.refuses s then .error (.exc "Not enough points on this processor")
    else extrapLoop m s p (m.width s - es).toNat es r
  else constLoop m s p (m.width s - es).toNat es r

/-- The body of the loop over the points of a boundary, L76-130. `moved`: the location changes. -/
def point (m : Mesh) (threeD moved : Bool) (s : Side) (es : Int) (f r : Pt → K) (p : Pt) : Out (Pt → K) := do
  let r ← if es > 0 ∧ moved = true then extraPoint m s f r p else .ok r
  guards m threeD s es r p

/-- What is left to do: the pairs of a boundary region and a point of it, in the order of the loops L62-131. -/
def Mesh.jobs (m : Mesh) (exX exY : Bool) (bs : List Reg) : List (Side × Pt) :=
  (bs.filter fun b => (exX && b.side.bx != 0) || (exY && b.side.bY != 0)).flatMap fun b =>
    (m.innermost b).map fun p => (b.side, p)

/-- The loops L62-131. -/
def runJobs (m : Mesh) (threeD moved : Bool) (loc : Target) (noExtra : Bool) (f : Pt → K) :
    List (Side × Pt) → (Pt → K) → Out (Pt → K)
  | [], r => .ok r
  | (s, p) :: js, r => do
    let r' ← point m threeD moved s (extrapStart loc noExtra s) f r p
    runJobs m threeD moved loc noExtra f js r'

/-- L133-149: the corner cells. -/
def invalidate (m : Mesh) (nan : K) (exX exY : Bool) (r : Pt → K) : Pt → K :=
  if m.corners || (!exX && !exY) then r
  else (List.range m.xstart.toNat).foldl (fun r (i : Nat) =>
    (List.range m.ystart.toNat).foldl (fun r (j : Nat) =>
      upd (upd (upd (upd r ⟨i, j⟩ nan) ⟨i, m.localNy - 1 - j⟩ nan) ⟨m.localNx - 1 - i, j⟩ nan)
        ⟨m.localNx - 1 - i, m.localNy - 1 - j⟩ nan) r) r

/-- `interp_to(f, location, "RGN_NOBNDRY")` from the centre, L42 and `interpolation.hxx` L37-39, L98-103, L148-153: the
points of the grid get the interpolated value, the others `junk` (they are not set). -/
def interpTo (m : Mesh) (loc : Target) (junk f : Pt → K) : Pt → K :=
  match loc with
  | .centre => f
  | _ => fun p =>
    let back : Int → Pt := fun k => if loc = .xlow then ⟨p.x + k, p.y⟩ else ⟨p.x, p.y + k⟩
    if m.xstart ≤ p.x ∧ p.x ≤ m.xend ∧ m.ystart ≤ p.y ∧ p.y ≤ m.yend then
      (9 * (f (back (-1)) + f (back 0)) - f (back (-2)) - f (back 1)) / 16
    else junk p

/-- The function, L36-149, for a field at the cell centre (`moved` if `loc` is not `centre`) or a field that is at the new
location already; `comm` is the exchange of guard cells with the neighbours, L51. -/
def interpolateAndExtrapolate (m : Mesh) (threeD : Bool) (nan : K) (bs : List Reg) (comm : (Pt → K) → Pt → K)
    (loc : Target) (moved exX exY noExtra : Bool) (junk f : Pt → K) : Out (Pt → K) := do
  let r := comm (if moved then interpTo m loc junk f else f)
  let r ← runJobs m threeD moved loc noExtra f (m.jobs exX exY bs) r
  .ok (invalidate m nan exX exY r)

end Verif.Extrap
