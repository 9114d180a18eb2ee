/-
Model of `include/bout/globalindexer.hxx` and `include/bout/operatorstencil.hxx`.
-/
import Verif.Region.Props

namespace Verif.Indexer
open Verif.Region

/-- operatorstencil.hxx:46-72 `IndexOffset`. -/
structure Off where
  dx : Int
  dy : Int
  dz : Int
  deriving DecidableEq, Repr

/-- operatorstencil.hxx:102-105 `index + offset`. -/
def addOff (i : Ind) (o : Off) : Ind := i.offset o.dx o.dy o.dz
/-- operatorstencil.hxx:110-115 `index - offset`. -/
def subOff (i : Ind) (o : Off) : Ind := i.offset (-o.dx) (-o.dy) (-o.dz)

/-- operatorstencil.hxx:143-146 `struct Stencil`.  The test is any function of the index. -/
structure Stencil where
  test : Ind → Bool
  part : List Off

/-- operatorstencil.hxx:163-171 `getStencilPart(index)`: the first part whose test passes, else an exception. -/
def getStencilPart (st : List Stencil) (i : Ind) : Out (List Off) :=
  match st.find? (fun s => s.test i) with
  | none => .error (.exc "No stencil was specified for element")
  | some s => .ok s.part

/-- operatorstencil.hxx:224-231 `getStencilNumber`, `none` for -1. -/
def stencilNumber (st : List Stencil) (i : Ind) : Option Nat := st.findIdx? (fun s => s.test i)

/-- operatorstencil.hxx:185-198 `getIndicesWithStencilIncluding`. -/
def indicesIncluding (st : List Stencil) (i : Ind) : List Ind :=
  st.zipIdx.flatMap fun sc =>
    (sc.1.part.map (subOff i)).filter fun ind => decide (stencilNumber st ind = some sc.2)

/-- The mesh's named regions used by the indexer on one rank, and whether the field type is `FieldPerp`. -/
structure Regions where
  nobndry : Region
  innerX : Region
  outerX : Region
  lowerY : Region
  upperY : Region
  perp : Bool

/-- globalindexer.hxx:166-172 `insertIndex` on the pair (`allInds`, `newInds`).  A `std::set` is the list of its elements in
the order of insertion; membership compares `ind` (region.hxx:330-349). -/
def insertIndex (s : List Ind × List Ind) (i : Ind) : List Ind × List Ind :=
  if s.1.any (fun j => decide (j.ind = i.ind)) then s else (s.1 ++ [i], s.2 ++ [i])

/-- globalindexer.hxx:53-57: the loop over the interior. -/
def collect (st : List Stencil) : List Ind → List Ind × List Ind → Out (List Ind × List Ind)
  | [], s => .ok s
  | i :: is, s =>
    match getStencilPart st i with
    | .error e => .error e
    | .ok part => collect st is (part.foldl (fun s j => insertIndex s (addOff i j)) s)

/-- globalindexer.hxx:58-65: `while (candidateIndices.size() > 0)`, with a bound on the number of rounds.
(`C39_loop` shows that it never runs more than one round.) -/
def again : Nat → List Ind → List Ind → Out (List Ind)
  | 0, _, _ => .error (.ub "no end of the candidate loop")
  | fuel + 1, cand, all =>
    if cand.length > 0 then
      let r := cand.foldl insertIndex (all, [])
      again fuel r.2 r.1
    else .ok all

/-- globalindexer.hxx:48-68: the candidate region. -/
def allCandidate (R : Regions) (st : List Stencil) : Out Region :=
  if st.length > 0 then
    match collect st (iterate R.nobndry.blocks) ((R.nobndry.indices.foldl insertIndex ([], [])).1, []) with
    | .error e => .error e
    | .ok s =>
      match again 2 s.2 s.1 with
      | .error e => .error e
      | .ok all => .ok (Region.ofIndices (Region.stdSort all))
  else .ok {}

/-- The regions of the indexer on one rank. -/
structure Built where
  innerX : Region
  outerX : Region
  lowerY : Region
  upperY : Region
  bndry : Region
  all : Region

/-- globalindexer.hxx:70-84: the regions from the candidates. -/
def buildFrom (R : Regions) (cand : Region) : Built :=
  let bndryCandidate := cand.mask R.nobndry
  let innerX := bndryCandidate.getIntersection R.innerX
  let outerX := bndryCandidate.getIntersection R.outerX
  let lowerY := if R.perp then {} else bndryCandidate.getIntersection R.lowerY
  let upperY := if R.perp then {} else bndryCandidate.getIntersection R.upperY
  let bndry := ((lowerY.add innerX).add outerX).add upperY
  let all := R.nobndry.add bndry
  ⟨innerX, outerX, lowerY, upperY, bndry.asSorted, all.asSorted⟩

/-- globalindexer.hxx:43-84: the constructor up to the numbering. -/
def build (R : Regions) (st : List Stencil) : Out Built :=
  match allCandidate R st with
  | .error e => .error e
  | .ok cand => .ok (buildFrom R cand)

/-- The numbers on one rank: globalindexer.hxx:207-211.  `indices` is a field of `BoutReal` holding integers, as a function of
the flat index; values stay exact below 2^53. -/
structure Numbered where
  globalStart : Int
  globalEnd : Int
  indices : Int → Int

/-- Assignment to one element of a field. -/
def setAt (f : Int → Int) (n v : Int) : Int → Int := fun m => if m = n then v else f m

/-- globalindexer.hxx:86-93: numbering on a rank, given its result of `MPI_Scan`. -/
def number (scan : Int) (all : Region) : Numbered :=
  let globalEnd := scan - 1
  let globalStart := globalEnd - all.size + 1
  ⟨globalStart, globalEnd,
   ((iterate all.blocks).foldl (fun s i => (setAt s.1 i.ind s.2, s.2 + 1)) ((fun _ => -1 : Int → Int), globalStart)).1⟩

/-- `MPI_Scan(MPI_SUM)`: rank `r` gets the sum over ranks `0..r`. -/
def scan (bs : List Built) (r : Nat) : Int := (((bs.take (r + 1)).map (fun b => (b.all.size : Int))).sum)

/-- All ranks of the communicator number their points. -/
def numbers (bs : List Built) (r : Nat) (b : Built) : Numbered := number (scan bs r) b.all

/-- globalindexer.hxx:120-126 `isLocal`, with `getGlobal` (L114-116) of the current field of numbers. -/
def isLocal (N : Numbered) (f : Int → Int) (i : Ind) : Bool :=
  if i.ind < 0 then false else decide (N.globalStart ≤ f i.ind ∧ f i.ind ≤ N.globalEnd)

/-- globalindexer.hxx:181-203 `calculateSparsity`: `numDiagonal` and `numOffDiagonal` by row.  `f` is the field of numbers after
communication, `guards` is `RGN_GUARDS`; rows are the local numbers minus `globalStart`. -/
def sparsity (st : List Stencil) (N : Numbered) (f : Int → Int) (all guards : Region) : Out ((Int → Int) × (Int → Int)) :=
  match (iterate all.blocks).foldl
      (fun (o : Out (Int → Int)) i => match o with
        | .error e => .error e
        | .ok d => match getStencilPart st i with
          | .error e => .error e
          | .ok part => .ok (setAt d (f i.ind - N.globalStart) part.length))
      (.ok (fun _ => 0)) with
  | .error e => .error e
  | .ok d0 =>
    .ok ((iterate guards.blocks).foldl
      (fun s i =>
        if f i.ind ≥ 0 ∧ isLocal N f i = false then
          (indicesIncluding st i).foldl
            (fun s j =>
              if isLocal N f j then
                let n := f j.ind - N.globalStart
                (setAt s.1 n (s.1 n - 1), setAt s.2 n (s.2 n + 1))
              else s) s
        else s) (d0, fun _ => 0))

end Verif.Indexer
