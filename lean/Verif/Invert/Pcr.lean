import Verif.Cyclic.Spec

/-!
# C66: the parallel cyclic reduction solvers

Model of the tridiagonal solvers of `LaplacePCR` (`src/invert/laplace/impls/pcr/pcr.cxx` L547-1013) and
`LaplacePCR_THOMAS` (`src/invert/laplace/impls/pcr_thomas/pcr_thomas.cxx` L556-1113), for one of the `nsys` systems (the
loops over `kz` are independent).  All `P` processors of a row in X are modelled together: `w p i` is row `i` of the
arrays `aa`, `bb`, `cc`, `r` of processor `p`, `x p i` its solution array; both have indices `0 … n+1` where
`n = n_mpi`.  A message arrives unchanged: it is modelled by reading the sender's value at the time it is sent (that every
message has a receiver is `C66_messages`).  Arithmetic is exact, in any field; that nothing is divided by zero is the
separate predicate `Pivots`.
-/
namespace Verif.Pcr
open Verif.Cyclic

variable {K : Type} [Field K]

/-- The rows outside the system: pcr.cxx:574-578, 591-595. -/
def dummy : Row K := ⟨0, 1, 0, 0⟩

/-- Write one element of an array. -/
def upd {R : Type} (s : Nat → R) (i : Nat) (v : R) : Nat → R := fun j => if j = i then v else s j

/-- The reduction of a row by its two neighbours: pcr.cxx:739-742 (also 925-928; pcr_thomas.cxx:1066-1069). -/
def combine (alpha gamma : K) (ip row inn : Row K) : Row K :=
  ⟨alpha * ip.a, row.b + (alpha * ip.c + gamma * inn.a), gamma * inn.c, row.r + (alpha * ip.r + gamma * inn.r)⟩

/-- pcr.cxx:736-742: the body of the loop. -/
def reduce (ip row inn : Row K) : Row K := combine (-row.a / ip.b) (-row.c / inn.b) ip row inn

/-! ## Cyclic reduction on each processor -/

/-- pcr.cxx:732: the values of `i` in `for (int i = start; i <= n_mpi; i += dist2_row)`. -/
def crIdx (n d : Nat) : List Nat := (List.range (n / (2 * d))).map fun k => 2 * d * (k + 1)

/-- pcr.cxx:732-744: the loop on one processor. -/
def crLoop (n d : Nat) (s : Nat → Row K) : Nat → Row K :=
  (crIdx n d).foldl (fun s i => upd s i (reduce (s (i - d)) (s i) (s (min (i + d) (n + 1))))) s

/-- pcr.cxx:709-727: processor `p` gets row `dist_row` of processor `p + 1`. -/
def crExchange (P n d : Nat) (w : Nat → Nat → Row K) : Nat → Nat → Row K :=
  fun p i => if i = n + 1 ∧ p + 1 < P then w (p + 1) d else w p i

/-- pcr.cxx:706-751: one level. -/
def crLevel (P n d : Nat) (w : Nat → Nat → Row K) : Nat → Nat → Row K :=
  fun p => crLoop n d (crExchange P n d w p)

/-- pcr.cxx:688-752 `cr_forward_multiple_row`, the first `l` levels; `dist_row` is `2 ^ l` (L745-747). -/
def crForward (P n : Nat) (w : Nat → Nat → Row K) : Nat → Nat → Nat → Row K
  | 0 => w
  | l + 1 => crLevel P n (2 ^ l) (crForward P n w l)

/-! ## One row per processor -/

/-- pcr.cxx:846-909: the rows of the processors at distance `D`. -/
def pcrExchange (P n D : Nat) (w : Nat → Nat → Row K) : Nat → Nat → Row K :=
  fun p i => if i = n + 1 ∧ p + D < P then w (p + D) n
    else if i = 0 ∧ D ≤ p then w (p - D) n
    else w p i

/-- pcr.cxx:911-928: `alpha`, `gamma` and the reduction. -/
def pcrReduce (P n D p : Nat) (s : Nat → Row K) : Row K :=
  let alpha := if p / D = 0 then 0 else -(s n).a / (s 0).b
  let gamma := if p / D = P / D - 1 then 0 else -(s n).c / (s (n + 1)).b
  combine alpha gamma (s 0) (s n) (s (n + 1))

/-- pcr.cxx:833-932: one level. -/
def pcrLevel (P n D : Nat) (w : Nat → Nat → Row K) : Nat → Nat → Row K :=
  fun p => upd (pcrExchange P n D w p) n (pcrReduce P n D p (pcrExchange P n D w p))

/-- pcr.cxx:811-933 `pcr_forward_single_row`, the first `l` levels of the reduction. -/
def pcrForward (P n : Nat) (w : Nat → Nat → Row K) : Nat → Nat → Nat → Row K
  | 0 => w
  | l + 1 => pcrLevel P n (2 ^ l) (pcrForward P n w l)

/-- pcr.cxx:959-961, 988-990: the determinant of two rows. -/
def det (u v : Row K) : K := u.b * v.b - u.c * v.a

/-- pcr.cxx:935-1012: the pair of rows of processor `p` in the 2x2 systems; without a partner (one processor) the dummy row 0
(L970-972). -/
def pcrPair (P n : Nat) (w : Nat → Nat → Row K) (p : Nat) : Row K × Row K :=
  if p < P / 2 then (w p n, w (p + P / 2) n)
  else (if 0 < P / 2 then w (p - P / 2) n else w p 0, w p n)

/-- pcr.cxx:935-1012: the 2x2 solver writes `x(n_mpi)` and `x(n_mpi+1)`, or `x(0)` and `x(n_mpi)`. -/
def pcrSolve2 (P n : Nat) (w : Nat → Nat → Row K) (x : Nat → Nat → K) : Nat → Nat → K := fun p =>
  let u := (pcrPair P n w p).1
  let v := (pcrPair P n w p).2
  let x1 := (u.r * v.b - v.r * u.c) / det u v
  let x2 := (v.r * u.b - u.r * v.a) / det u v
  if p < P / 2 then upd (upd (x p) n x1) (n + 1) x2 else upd (upd (x p) 0 x1) n x2

/-! ## Substitution -/

/-- pcr.cxx:772-788: each processor gets the last solution of the one before. -/
def backExchange (n : Nat) (x : Nat → Nat → K) : Nat → Nat → K :=
  fun p i => if i = 0 ∧ 0 < p then x (p - 1) n else x p i

/-- pcr.cxx:791: the values of `i` in `for (int i = n_mpi - dist_row; i >= 0; i -= dist2_row)`. -/
def backIdx (n d : Nat) : List Nat := (List.range ((n - d) / (2 * d) + 1)).map fun k => n - d - 2 * d * k

/-- pcr.cxx:795-796. -/
def backVal (row : Row K) (xm xp : K) : K := (row.r - row.c * xp - row.a * xm) / row.b

/-- pcr.cxx:789-800: one level on one processor. -/
def backLevel (n d : Nat) (s : Nat → Row K) (x : Nat → K) : Nat → K :=
  (backIdx n d).foldl (fun x i => upd x i (backVal (s i) (x (i - d)) (x (i + d)))) x

/-- pcr.cxx:789-801: the levels `l-1 … 0`; `dist_row` is `2 ^ l` (L770, L800). -/
def backLoop (n : Nat) (s : Nat → Row K) : Nat → (Nat → K) → Nat → K
  | 0, x => x
  | l + 1, x => backLoop n s l (backLevel n (2 ^ l) s x)

/-- pcr.cxx:702, 768 `log2(n_mpi)`. -/
def levels (n : Nat) : Nat := Nat.log2 n

/-- The rows before the 2x2 solver. -/
def pcrRows (P n : Nat) (w : Nat → Nat → Row K) : Nat → Nat → Row K :=
  pcrForward P n (crForward P n w (levels n)) (levels P - 1)

/-- pcr.cxx:600-603: the three phases. -/
def crPcr (P n : Nat) (w : Nat → Nat → Row K) (x : Nat → Nat → K) : Nat → Nat → K :=
  let w2 := pcrRows P n w
  let x1 := backExchange n (pcrSolve2 P n w2 x)
  fun p => backLoop n (w2 p) (levels n) (x1 p)

/-! ## Boundary rows -/

/-- pcr.cxx:631-643 in `eliminate_boundary_rows`: the first `k` iterations, `ix = 1, 2, …`. -/
def elimLow (rows : Nat → Row K) : Nat → Nat → Row K
  | 0 => rows
  | k + 1 =>
    let s := elimLow rows k
    upd s (k + 1) ⟨0, (s (k + 1)).b - (s k).c * (s (k + 1)).a / (s k).b, (s (k + 1)).c,
      (s (k + 1)).r - (s k).r * (s (k + 1)).a / (s k).b⟩

/-- pcr.cxx:644-656: the first `k` iterations, `ix = m - 2, m - 3, …`, where the processor has `m` rows. -/
def elimHigh (m : Nat) (rows : Nat → Row K) : Nat → Nat → Row K
  | 0 => rows
  | k + 1 =>
    let s := elimHigh m rows k
    let ix := m - 2 - k
    upd s ix ⟨(s ix).a, (s ix).b - (s ix).c * (s (ix + 1)).a / (s (ix + 1)).b, 0,
      (s ix).r - (s ix).c * (s (ix + 1)).r / (s (ix + 1)).b⟩

/-- pcr.cxx:627-657 `eliminate_boundary_rows` on a processor with `m` rows and `xstart` guard cells. -/
def eliminate (first last : Bool) (xstart m : Nat) (rows : Nat → Row K) : Nat → Row K :=
  let s := if first then elimLow rows xstart else rows
  if last then elimHigh m s xstart else s

/-- pcr.cxx:668-674: the first `k` iterations, `ix = xstart - 1, xstart - 2, …`. -/
def fillLow (xstart : Nat) (rows : Nat → Row K) (x : Nat → K) : Nat → Nat → K
  | 0 => x
  | k + 1 =>
    let y := fillLow xstart rows x k
    let ix := xstart - 1 - k
    upd y ix (((rows ix).r - (rows ix).c * y (ix + 1)) / (rows ix).b)

/-- pcr.cxx:675-682: the first `k` iterations, `ix = m - xstart, …`. -/
def fillHigh (m xstart : Nat) (rows : Nat → Row K) (x : Nat → K) : Nat → Nat → K
  | 0 => x
  | k + 1 =>
    let y := fillHigh m xstart rows x k
    let ix := m - xstart + k
    upd y ix (((rows ix).r - (rows ix).a * y (ix - 1)) / (rows ix).b)

/-- pcr.cxx:662-683 `apply_boundary_conditions`. -/
def applyBndry (first last : Bool) (xstart m : Nat) (rows : Nat → Row K) (x : Nat → K) : Nat → K :=
  let y := if first then fillLow xstart rows x xstart else x
  if last then fillHigh m xstart rows y xstart else y

/-- A row of processors in X: `P` processors with `n` interior points each and `xstart` boundary rows at both ends. -/
structure Line where
  P : Nat
  n : Nat
  xstart : Nat

/-- Whether a processor has the first, the last point (X not periodic). -/
def Line.first (_ : Line) (p : Nat) : Bool := p == 0
def Line.last (L : Line) (p : Nat) : Bool := p + 1 == L.P

/-- `xstart - xs` (pcr.cxx:586): the number of boundary rows before the interior ones. -/
def Line.off (L : Line) (p : Nat) : Nat := if L.first p then L.xstart else 0

/-- The number of rows of a processor. -/
def Line.rows (L : Line) (p : Nat) : Nat := L.off p + L.n + if L.last p then L.xstart else 0

/-- pcr.cxx:573-596: the interior rows between two dummy rows. -/
def Line.load (L : Line) (e : Nat → Nat → Row K) : Nat → Nat → Row K :=
  fun p i => if i = 0 ∨ i = L.n + 1 then dummy else e p (i - 1 + L.off p)

/-- pcr.cxx:578, 590, 595: the initial contents of `x`; `junk` is what `x_mpi` held before. -/
def Line.loadX (L : Line) (junk : Nat → Nat → K) : Nat → Nat → K :=
  fun p i => if i = 0 ∨ i = L.n + 1 then 0 else junk p (i - 1 + L.off p)

/-- pcr.cxx:607-613: copy the interior rows back. -/
def Line.unload (L : Line) (junk x : Nat → Nat → K) : Nat → Nat → K :=
  fun p j => if L.off p ≤ j ∧ j < L.off p + L.n then x p (j - L.off p + 1) else junk p j

/-- The rows after `eliminate_boundary_rows`. -/
def Line.elim (L : Line) (co : Nat → Nat → Row K) : Nat → Nat → Row K :=
  fun p => eliminate (L.first p) (L.last p) L.xstart (L.rows p) (co p)

/-- pcr.cxx:558-617 `cr_pcr_solver`. -/
def Line.pcr (L : Line) (co : Nat → Nat → Row K) (junk : Nat → Nat → K) : Nat → Nat → K :=
  let e := L.elim co
  let x := crPcr L.P L.n (L.load e) (L.loadX junk)
  fun p => applyBndry (L.first p) (L.last p) L.xstart (L.rows p) (e p) (L.unload junk x p)

/-! ## Divisions -/

/-- Nothing is divided by zero in one level of cyclic reduction. -/
def CrOK (P n d : Nat) (w : Nat → Nat → Row K) : Prop :=
  ∀ p, p < P → ∀ i ∈ crIdx n d, (crExchange P n d w p (i - d)).b ≠ 0 ∧ (crExchange P n d w p (min (i + d) (n + 1))).b ≠ 0

/-- Nor in one level of parallel cyclic reduction. -/
def PcrOK (P n D : Nat) (w : Nat → Nat → Row K) : Prop :=
  ∀ p, p < P → (p / D ≠ 0 → (pcrExchange P n D w p 0).b ≠ 0) ∧
    (p / D ≠ P / D - 1 → (pcrExchange P n D w p (n + 1)).b ≠ 0)

/-- No division by zero in `crPcr`. -/
structure CorePivots (P n : Nat) (w : Nat → Nat → Row K) : Prop where
  cr : ∀ l, l < levels n → CrOK P n (2 ^ l) (crForward P n w l)
  pcr : ∀ l, l < levels P - 1 → PcrOK P n (2 ^ l) (pcrForward P n (crForward P n w (levels n)) l)
  det : ∀ p, p < P → det (pcrPair P n (pcrRows P n w) p).1 (pcrPair P n (pcrRows P n w) p).2 ≠ 0
  back : ∀ p, p < P → ∀ i, 1 ≤ i → i < n → (pcrRows P n w p i).b ≠ 0

/-- No division by zero in the boundary rows. -/
structure Line.Ends (L : Line) (co : Nat → Nat → Row K) : Prop where
  low : ∀ ix, ix < L.xstart → (elimLow (co 0) L.xstart ix).b ≠ 0
  high : ∀ ix, ix < L.xstart → (L.elim co (L.P - 1) (L.rows (L.P - 1) - 1 - ix)).b ≠ 0

/-- No division by zero in `cr_pcr_solver`. -/
structure Line.Pivots (L : Line) (co : Nat → Nat → Row K) : Prop extends L.Ends co where
  core : CorePivots L.P L.n (L.load (L.elim co))

/-! ## `LaplacePCR_THOMAS` -/

/-- pcr_thomas.cxx:995-1000: the first `k` iterations, `i = 3, 4, …`. -/
def thFwd (w : Nat → Row K) : Nat → Nat → Row K
  | 0 => w
  | k + 1 =>
    let s := thFwd w k
    let i := k + 3
    let alpha := -(s i).a / (s (i - 1)).b
    upd s i ⟨alpha * (s (i - 1)).a, (s i).b + alpha * (s (i - 1)).c, (s i).c, (s i).r + alpha * (s (i - 1)).r⟩

/-- pcr_thomas.cxx:1001-1010: the first `k` iterations, `i = n_mpi - 2, …, 1`. -/
def thBwd (n : Nat) (w : Nat → Row K) : Nat → Nat → Row K
  | 0 => w
  | k + 1 =>
    let s := thBwd n w k
    let i := n - 2 - k
    let beta := -(s i).c / (s (i + 1)).b
    upd s i (if i = 1 then ⟨(s i).a, (s i).b + beta * (s (i + 1)).a, beta * (s (i + 1)).c, (s i).r + beta * (s (i + 1)).r⟩
      else ⟨(s i).a + beta * (s (i + 1)).a, (s i).b, beta * (s (i + 1)).c, (s i).r + beta * (s (i + 1)).r⟩)

/-- pcr_thomas.cxx:990-1012 `pThomas_forward_multiple_row`. -/
def thRows (n : Nat) (w : Nat → Row K) : Nat → Row K := thBwd n (thFwd w (n - 2)) (n - 2)

/-- pcr_thomas.cxx:1038-1058: row 1 of the next processor. -/
def thExchange (P n : Nat) (g : Nat → Nat → Row K) : Nat → Nat → Row K :=
  fun p i => if i = n + 1 ∧ p + 1 < P then g (p + 1) 1 else g p i

/-- pcr_thomas.cxx:1060-1071: the first row is reduced into the last. -/
def thLevel (P n : Nat) (g : Nat → Nat → Row K) : Nat → Nat → Row K := fun p =>
  let s := thExchange P n g p
  upd s n (reduce (s 1) (s n) (s (n + 1)))

/-- pcr_thomas.cxx:1106-1112: the first `k` iterations, `i = 2, 3, …`. -/
def thFill (n : Nat) (s : Nat → Row K) (x : Nat → K) : Nat → Nat → K
  | 0 => x
  | k + 1 =>
    let y := thFill n s x k
    upd y (k + 2) (backVal (s (k + 2)) (y 1) (y n))

/-- The rows before `pcr_forward_single_row`. -/
def thReduced (P n : Nat) (w : Nat → Nat → Row K) : Nat → Nat → Row K := thLevel P n fun p => thRows n (w p)

/-- pcr_thomas.cxx:1020-1113 `pcr_double_row_substitution` after `pThomas_forward_multiple_row`; `pcr_forward_single_row` (L813-982) is
that of `LaplacePCR`. -/
def thomas (P n : Nat) (w : Nat → Nat → Row K) (x : Nat → Nat → K) : Nat → Nat → K :=
  let w2 := pcrForward P n (thReduced P n w) (levels P - 1)
  let x1 := backExchange n (pcrSolve2 P n w2 x)
  fun p => thFill n (w2 p) (upd (x1 p) 1 (backVal (w2 p 1) (x1 p 0) (x1 p n))) (n - 2)

/-- pcr_thomas.cxx:627-655 `eliminate_boundary_rows`: only the first and the last interior row, of which `a` and `c` stay. -/
def thEliminate (first last : Bool) (xstart m : Nat) (rows : Nat → Row K) : Nat → Row K :=
  let s := if first then
      upd rows xstart { rows xstart with
        b := (rows xstart).b - (rows (xstart - 1)).c * (rows xstart).a / (rows (xstart - 1)).b
        r := (rows xstart).r - (rows (xstart - 1)).r * (rows xstart).a / (rows (xstart - 1)).b }
    else rows
  let i := m - xstart - 1
  if last then
    upd s i { s i with
      b := (s i).b - (s i).c * (s (i + 1)).a / (s (i + 1)).b
      r := (s i).r - (s i).c * (s (i + 1)).r / (s (i + 1)).b }
  else s

/-- The rows after `eliminate_boundary_rows` of `LaplacePCR_THOMAS`. -/
def Line.thElim (L : Line) (co : Nat → Nat → Row K) : Nat → Nat → Row K :=
  fun p => thEliminate (L.first p) (L.last p) L.xstart (L.rows p) (co p)

/-- pcr_thomas.cxx:556-622 `pcr_thomas_solver`. -/
def Line.pcrThomas (L : Line) (co : Nat → Nat → Row K) (junk : Nat → Nat → K) : Nat → Nat → K :=
  let e := L.thElim co
  let x := thomas L.P L.n (L.load e) (L.loadX junk)
  fun p => applyBndry (L.first p) (L.last p) L.xstart (L.rows p) (e p) (L.unload junk x p)

/-- No division by zero in `thomas`. -/
structure ThPivots (P n : Nat) (w : Nat → Nat → Row K) : Prop where
  inner : ∀ p, p < P → ∀ i, 2 ≤ i → i < n → (thFwd (w p) (n - 2) i).b ≠ 0
  first : ∀ p, p < P → (thRows n (w p) 1).b ≠ 0
  pcr : ∀ l, l < levels P - 1 → PcrOK P n (2 ^ l) (pcrForward P n (thReduced P n w) l)
  det : ∀ p, p < P → det (pcrPair P n (pcrForward P n (thReduced P n w) (levels P - 1)) p).1
    (pcrPair P n (pcrForward P n (thReduced P n w) (levels P - 1)) p).2 ≠ 0

/-- The boundary rows are coupled inwards only. -/
def Line.Inward (L : Line) (co : Nat → Nat → Row K) : Prop :=
  (∀ ix, 1 ≤ ix → ix < L.xstart → (co 0 ix).a = 0) ∧
  (∀ ix, ix + 1 < L.rows (L.P - 1) → L.rows (L.P - 1) < ix + 1 + L.xstart → (co (L.P - 1) ix).c = 0)

/-- No division by zero in `pcr_thomas_solver`. -/
structure Line.ThPivots (L : Line) (co : Nat → Nat → Row K) : Prop where
  low : ∀ ix, ix < L.xstart → (co 0 ix).b ≠ 0
  high : ∀ ix, ix < L.xstart → (co (L.P - 1) (L.rows (L.P - 1) - 1 - ix)).b ≠ 0
  core : Pcr.ThPivots L.P L.n (L.load (L.thElim co))

end Verif.Pcr
