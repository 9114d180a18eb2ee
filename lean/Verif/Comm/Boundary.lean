/-
C44: boundary regions.

Model of `src/mesh/boundary_region.cxx` and of `BoutMesh::createXBoundaries`,
`createYBoundaries` (`src/mesh/impls/bout/boutmesh.cxx` L924-990).  The private members and
the loop functions `first`, `next`, `isDone` are modelled; `next1d`, `nextX`, `nextY` and
the `bx`, `by` directions are not.
-/
import Verif.Comm.Fill

namespace Verif.Comm
open Verif.Mesh

/-- The four kinds of boundary region, `boundary_region.hxx` L66-143. -/
inductive Edge | xin | xout | ydown | yup
deriving Repr, DecidableEq

/-- A boundary region: kind, label, and the limits `ys, ye` (X boundaries) or `xs, xe`
(Y boundaries). -/
structure BRegion where
  edge : Edge
  label : String
  lo : Int
  hi : Int
deriving Repr, DecidableEq

/-- The constructors, `boundary_region.cxx` L9-18, L52-62, L96-106, L140-149: limits in the
wrong order are swapped. -/
def mkRegion (e : Edge) (label : String) (a b : Int) : BRegion :=
  if b < a then ⟨e, label, b, a⟩ else ⟨e, label, a, b⟩

/-- `width`, set in the constructors. -/
def bwidth (c : Cfg) : Edge → Int
  | .xin => c.xstart
  | .xout => c.LocalNx - c.xend - 1
  | .ydown => c.ystart
  | .yup => c.LocalNy - c.yend - 1

/-- `first()`, L20-23, L64-67, L108-111, L151-154: the point `(x, y)`. -/
def bfirst (c : Cfg) (r : BRegion) : Int × Int :=
  match r.edge with
  | .xin => (bwidth c .xin - 1, r.lo)
  | .xout => (c.LocalNx - bwidth c .xout, r.lo)
  | .ydown => (r.lo, bwidth c .ydown - 1)
  | .yup => (r.lo, c.LocalNy - bwidth c .yup)

/-- `next()`, L25-32, L69-76, L113-120, L156-163. -/
def bnext (c : Cfg) (r : BRegion) (p : Int × Int) : Int × Int :=
  match r.edge with
  | .xin => if p.2 + 1 > r.hi then (p.1 - 1, r.lo) else (p.1, p.2 + 1)
  | .xout => if p.2 + 1 > r.hi then (p.1 + 1, r.lo) else (p.1, p.2 + 1)
  | .ydown => if p.2 - 1 < 0 then (p.1 + 1, bwidth c .ydown - 1) else (p.1, p.2 - 1)
  | .yup => if p.2 + 1 ≥ c.LocalNy then (p.1 + 1, c.LocalNy - bwidth c .yup)
      else (p.1, p.2 + 1)

/-- `isDone()`, L51-53, L92-94, L136-138, L180-182. -/
def bdone (c : Cfg) (r : BRegion) (p : Int × Int) : Bool :=
  match r.edge with
  | .xin => decide (p.1 < 0 ∨ p.2 > r.hi)
  | .xout => decide (p.1 ≥ c.LocalNx ∨ p.2 > r.hi)
  | .ydown => decide (p.1 > r.hi ∨ p.2 < 0)
  | .yup => decide (p.1 > r.hi ∨ p.2 ≥ c.LocalNy)

/-- The loop `for (r.first(); !r.isDone(); r.next())` from a point on, run for at most
`fuel` steps: the points visited, and whether it has come to its end. -/
def bloop (c : Cfg) (r : BRegion) : Nat → Int × Int → List (Int × Int) × Bool
  | 0, p => ([], bdone c r p)
  | fuel + 1, p =>
    if bdone c r p then ([], true)
    else
      let rest := bloop c r fuel (bnext c r p)
      (p :: rest.1, rest.2)

/-- The loop visits exactly the points `l`. -/
def Visits (c : Cfg) (r : BRegion) (l : List (Int × Int)) : Prop :=
  ∃ fuel, bloop c r fuel (bfirst c r) = (l, true)

/-- `BoutMesh::createXBoundaries`, `boutmesh.cxx` L924-953. -/
def createXBoundaries (c : Cfg) (px py : Int) : List BRegion :=
  if c.periodicX then []
  else if c.MXG ≤ 0 then []
  else
    (if px = 0 then
      let yg := c.getGlobalYIndexNoBoundaries py c.MYG
      if (yg > c.jyseps1_1 ∧ yg ≤ c.jyseps2_1) ∨ (yg > c.jyseps1_2 ∧ yg ≤ c.jyseps2_2) then
        [mkRegion .xin "core" c.ystart c.yend]
      else [mkRegion .xin "pf" c.ystart c.yend]
     else []) ++
    (if px = c.NXPE - 1 then [mkRegion .xout "sol" c.ystart c.yend] else [])

/-- `yboundary_xstart`, `yboundary_xend`, L969-971. -/
def yboundary_xstart (c : Cfg) (corners : Bool) (s : Conn) : Int :=
  if corners = true ∧ s.IDATA_DEST = -1 then 0 else c.xstart
def yboundary_xend (c : Cfg) (corners : Bool) (s : Conn) : Int :=
  if corners = true ∧ s.ODATA_DEST = -1 then c.LocalNx - 1 else c.xend

/-- `BoutMesh::createYBoundaries`, `boutmesh.cxx` L955-990. -/
def createYBoundaries (c : Cfg) (corners : Bool) (s : Conn) : List BRegion :=
  if c.MYG ≤ 0 then []
  else
    (if s.UDATA_INDEST < 0 ∧ s.UDATA_XSPLIT > yboundary_xstart c corners s then
      [mkRegion .yup "upper_target" (yboundary_xstart c corners s) (s.UDATA_XSPLIT - 1)]
     else []) ++
    (if s.UDATA_OUTDEST < 0 ∧ s.UDATA_XSPLIT ≤ yboundary_xend c corners s then
      [mkRegion .yup "upper_target" s.UDATA_XSPLIT (yboundary_xend c corners s)]
     else []) ++
    (if s.DDATA_INDEST < 0 ∧ s.DDATA_XSPLIT > yboundary_xstart c corners s then
      [mkRegion .ydown "lower_target" (yboundary_xstart c corners s) (s.DDATA_XSPLIT - 1)]
     else []) ++
    (if s.DDATA_OUTDEST < 0 ∧ s.DDATA_XSPLIT ≤ yboundary_xend c corners s then
      [mkRegion .ydown "lower_target" s.DDATA_XSPLIT (yboundary_xend c corners s)]
     else [])

/-! ### The loops -/

/-- The points of a region. -/
def bcells (c : Cfg) (r : BRegion) (p : Int × Int) : Prop :=
  match r.edge with
  | .xin => (0 ≤ p.1 ∧ p.1 < c.xstart) ∧ (r.lo ≤ p.2 ∧ p.2 ≤ r.hi)
  | .xout => (c.xend < p.1 ∧ p.1 < c.LocalNx) ∧ (r.lo ≤ p.2 ∧ p.2 ≤ r.hi)
  | .ydown => (r.lo ≤ p.1 ∧ p.1 ≤ r.hi) ∧ (0 ≤ p.2 ∧ p.2 < c.ystart)
  | .yup => (r.lo ≤ p.1 ∧ p.1 ≤ r.hi) ∧ (c.yend < p.2 ∧ p.2 < c.LocalNy)

/-- An order on the points under which `next` moves up: the points still to come. -/
def ahead (r : BRegion) (p q : Int × Int) : Prop :=
  match r.edge with
  | .xin => q.1 < p.1 ∨ (q.1 = p.1 ∧ p.2 ≤ q.2)
  | .xout => p.1 < q.1 ∨ (q.1 = p.1 ∧ p.2 ≤ q.2)
  | .ydown => p.1 < q.1 ∨ (q.1 = p.1 ∧ q.2 ≤ p.2)
  | .yup => p.1 < q.1 ∨ (q.1 = p.1 ∧ p.2 ≤ q.2)

/-- Steps left. -/
def left (c : Cfg) (r : BRegion) (p : Int × Int) : Int :=
  match r.edge with
  | .xin => (p.1 + 1) * (r.hi - r.lo + 1) - (p.2 - r.lo)
  | .xout => (c.LocalNx - p.1) * (r.hi - r.lo + 1) - (p.2 - r.lo)
  | .ydown => (r.hi - p.1 + 1) * c.ystart - (c.ystart - 1 - p.2)
  | .yup => (r.hi - p.1 + 1) * (c.LocalNy - c.yend - 1) - (p.2 - (c.yend + 1))

theorem loop_generic (c : Cfg) (r : BRegion) (Inv : Int × Int → Prop)
    (hdone : ∀ p, Inv p → bdone c r p = true → ∀ q, bcells c r q → ¬ ahead r p q)
    (hstep : ∀ p, Inv p → bdone c r p = false → Inv (bnext c r p) ∧ bcells c r p ∧
      1 ≤ left c r p ∧ left c r (bnext c r p) = left c r p - 1 ∧
      (∀ q, bcells c r q → (ahead r p q ↔ q = p ∨ ahead r (bnext c r p) q)) ∧
      ¬ ahead r (bnext c r p) p) :
    ∀ (n : Nat) (p : Int × Int), Inv p → (left c r p).toNat ≤ n →
      ∃ fuel l, bloop c r fuel p = (l, true) ∧ l.Nodup ∧
        ∀ q, q ∈ l ↔ bcells c r q ∧ ahead r p q := by
  have base : ∀ p, Inv p → bdone c r p = true → ∃ fuel l, bloop c r fuel p = (l, true) ∧ l.Nodup ∧
        ∀ q, q ∈ l ↔ bcells c r q ∧ ahead r p q := by
    intro p hi hd
    refine ⟨0, [], by simp [bloop, hd], List.nodup_nil, ?_⟩
    intro q
    simp only [List.not_mem_nil, false_iff, not_and]
    exact hdone p hi hd q
  intro n
  induction n with
  | zero =>
    intro p hi hm
    cases hd : bdone c r p with
    | true => exact base p hi hd
    | false =>
      have := (hstep p hi hd).2.2.1
      omega
  | succ n ih =>
    intro p hi hm
    cases hd : bdone c r p with
    | true => exact base p hi hd
    | false =>
      obtain ⟨h1, h2, h3, h4, h5, h6⟩ := hstep p hi hd
      obtain ⟨fuel, l, e, nd, mem⟩ := ih (bnext c r p) h1 (by omega)
      refine ⟨fuel + 1, p :: l, ?_, ?_, ?_⟩
      · simp [bloop, hd, e]
      · rw [List.nodup_cons]
        exact ⟨fun hm => h6 ((mem p).1 hm).2, nd⟩
      · intro q
        rw [List.mem_cons, mem q]
        constructor
        · rintro (rfl | ⟨a, b⟩)
          · exact ⟨h2, (h5 _ h2).2 (Or.inl rfl)⟩
          · exact ⟨a, (h5 _ a).2 (Or.inr b)⟩
        · rintro ⟨a, b⟩
          rcases (h5 _ a).1 b with h | h
          · exact Or.inl h
          · exact Or.inr ⟨a, h⟩

/-- **C44.** Looping over a boundary region visits every point of its rectangle of guard
cells exactly once and no other point, for every mesh size and every limits (limits given in
the wrong order are swapped; zero-width boundaries have no points). -/
theorem C44_region_loop (c : Cfg) (hs : Sizes c) (e : Edge) (label : String) (a b : Int) :
    ∃ l, Visits c (mkRegion e label a b) l ∧ l.Nodup ∧
      ∀ p, p ∈ l ↔ bcells c (mkRegion e label a b) p := by
  obtain ⟨_, hMX, _, hM⟩ := hs.split
  have g := hs.myg
  have gx := hs.mxg
  obtain ⟨lo, hi, hr, hle⟩ : ∃ lo hi, mkRegion e label a b = ⟨e, label, lo, hi⟩ ∧ lo ≤ hi := by
    unfold mkRegion
    by_cases hh : b < a
    · exact ⟨b, a, by rw [if_pos hh], by omega⟩
    · exact ⟨a, b, by rw [if_neg hh], by omega⟩
  rw [hr]
  have fin : ∀ (Inv : Int × Int → Prop), Inv (bfirst c ⟨e, label, lo, hi⟩) →
      (∀ q, bcells c ⟨e, label, lo, hi⟩ q → ahead ⟨e, label, lo, hi⟩ (bfirst c ⟨e, label, lo, hi⟩) q) →
      (∀ p, Inv p → bdone c ⟨e, label, lo, hi⟩ p = true → ∀ q, bcells c ⟨e, label, lo, hi⟩ q →
        ¬ ahead ⟨e, label, lo, hi⟩ p q) →
      (∀ p, Inv p → bdone c ⟨e, label, lo, hi⟩ p = false →
        Inv (bnext c ⟨e, label, lo, hi⟩ p) ∧ bcells c ⟨e, label, lo, hi⟩ p ∧
        1 ≤ left c ⟨e, label, lo, hi⟩ p ∧
        left c ⟨e, label, lo, hi⟩ (bnext c ⟨e, label, lo, hi⟩ p) = left c ⟨e, label, lo, hi⟩ p - 1 ∧
        (∀ q, bcells c ⟨e, label, lo, hi⟩ q → (ahead ⟨e, label, lo, hi⟩ p q ↔
          q = p ∨ ahead ⟨e, label, lo, hi⟩ (bnext c ⟨e, label, lo, hi⟩ p) q)) ∧
        ¬ ahead ⟨e, label, lo, hi⟩ (bnext c ⟨e, label, lo, hi⟩ p) p) →
      ∃ l, Visits c ⟨e, label, lo, hi⟩ l ∧ l.Nodup ∧ ∀ p, p ∈ l ↔ bcells c ⟨e, label, lo, hi⟩ p := by
    intro Inv h0 h1 h2 h3
    obtain ⟨fuel, l, e1, nd, mem⟩ := loop_generic c ⟨e, label, lo, hi⟩ Inv h2 h3 _ _ h0 (Nat.le_refl _)
    exact ⟨l, ⟨fuel, e1⟩, nd, fun p => ⟨fun hp => ((mem p).1 hp).1, fun hp => (mem p).2 ⟨hp, h1 p hp⟩⟩⟩
  cases e with
  | xin =>
    apply fin (fun p => lo ≤ p.2 ∧ p.2 ≤ hi ∧ p.1 < c.xstart ∧ -1 ≤ p.1)
    · unfold bfirst bwidth Cfg.xstart; simp only; omega
    · rintro ⟨x, y⟩ hq
      unfold bcells Cfg.xstart at hq; unfold ahead bfirst bwidth Cfg.xstart
      simp only at hq ⊢; omega
    · rintro ⟨x, y⟩ hi hd ⟨u, v⟩ hq
      unfold bdone at hd; unfold bcells at hq; unfold ahead
      simp only [decide_eq_true_eq] at hi hd hq ⊢; omega
    · rintro ⟨x, y⟩ hi' hd
      unfold bdone at hd
      simp only [decide_eq_false_iff_not] at hi' hd
      have w1 : 1 * (hi - lo + 1) ≤ (x + 1) * (hi - lo + 1) :=
        Int.mul_le_mul_of_nonneg_right (by omega) (by omega)
      unfold bnext bcells left ahead
      simp only
      have ex : (x + 1) * (hi - lo + 1) = x * (hi - lo + 1) + (hi - lo + 1) := by ring
      have ex' : (x - 1 + 1) * (hi - lo + 1) = x * (hi - lo + 1) := by ring
      by_cases hw : y + 1 > hi
      · simp only [if_pos hw]
        refine ⟨by omega, by omega, by omega, by omega, ?_, by omega⟩
        rintro ⟨u, v⟩ hq; simp only [Prod.mk.injEq] at hq ⊢; omega
      · simp only [if_neg hw]
        refine ⟨by omega, by omega, by omega, by omega, ?_, by omega⟩
        rintro ⟨u, v⟩ hq; simp only [Prod.mk.injEq] at hq ⊢; omega
  | xout =>
    have hx : c.LocalNx - (c.LocalNx - c.xend - 1) = c.xend + 1 := by omega
    have hL : c.xend < c.LocalNx := by unfold Cfg.xend Cfg.LocalNx; omega
    apply fin (fun p => lo ≤ p.2 ∧ p.2 ≤ hi ∧ c.xend < p.1 ∧ p.1 ≤ c.LocalNx)
    · unfold bfirst bwidth; simp only; omega
    · rintro ⟨x, y⟩ hq
      unfold bcells at hq; unfold ahead bfirst bwidth
      simp only at hq ⊢; omega
    · rintro ⟨x, y⟩ hi hd ⟨u, v⟩ hq
      unfold bdone at hd; unfold bcells at hq; unfold ahead
      simp only [decide_eq_true_eq] at hi hd hq ⊢; omega
    · rintro ⟨x, y⟩ hi' hd
      unfold bdone at hd
      simp only [decide_eq_false_iff_not] at hi' hd
      have w1 : 1 * (hi - lo + 1) ≤ (c.LocalNx - x) * (hi - lo + 1) :=
        Int.mul_le_mul_of_nonneg_right (by omega) (by omega)
      unfold bnext bcells left ahead
      simp only
      have ex' : (c.LocalNx - (x + 1)) * (hi - lo + 1)
          = (c.LocalNx - x) * (hi - lo + 1) - (hi - lo + 1) := by ring
      by_cases hw : y + 1 > hi
      · simp only [if_pos hw]
        refine ⟨by omega, by omega, by omega, by omega, ?_, by omega⟩
        rintro ⟨u, v⟩ hq; simp only [Prod.mk.injEq] at hq ⊢; omega
      · simp only [if_neg hw]
        refine ⟨by omega, by omega, by omega, by omega, ?_, by omega⟩
        rintro ⟨u, v⟩ hq; simp only [Prod.mk.injEq] at hq ⊢; omega
  | ydown =>
    have hys : c.ystart = c.MYG := rfl
    apply fin (fun p => lo ≤ p.1 ∧ p.1 ≤ hi + 1 ∧ p.2 < c.ystart ∧ (0 ≤ p.2 ∨ c.ystart = 0))
    · unfold bfirst bwidth; simp only; omega
    · rintro ⟨x, y⟩ hq
      unfold bcells at hq; unfold ahead bfirst bwidth
      simp only at hq ⊢; omega
    · rintro ⟨x, y⟩ hi hd ⟨u, v⟩ hq
      unfold bdone at hd; unfold bcells at hq; unfold ahead
      simp only [decide_eq_true_eq] at hi hd hq ⊢; omega
    · rintro ⟨x, y⟩ hi' hd
      unfold bdone at hd
      simp only [decide_eq_false_iff_not] at hi' hd
      have w1 : 1 * c.ystart ≤ (hi - x + 1) * c.ystart :=
        Int.mul_le_mul_of_nonneg_right (by omega) (by omega)
      unfold bnext bcells left ahead bwidth
      simp only
      have ex' : (hi - (x + 1) + 1) * c.ystart = (hi - x + 1) * c.ystart - c.ystart := by ring
      by_cases hw : y - 1 < 0
      · simp only [if_pos hw]
        refine ⟨by omega, by omega, by omega, by omega, ?_, by omega⟩
        rintro ⟨u, v⟩ hq; simp only [Prod.mk.injEq] at hq ⊢; omega
      · simp only [if_neg hw]
        refine ⟨by omega, by omega, by omega, by omega, ?_, by omega⟩
        rintro ⟨u, v⟩ hq; simp only [Prod.mk.injEq] at hq ⊢; omega
  | yup =>
    have hL : c.yend < c.LocalNy := by unfold Cfg.yend Cfg.LocalNy; omega
    have hy' : c.LocalNy - (c.LocalNy - c.yend - 1) = c.yend + 1 := by omega
    apply fin (fun p => lo ≤ p.1 ∧ p.1 ≤ hi + 1 ∧ c.yend < p.2 ∧
      (p.2 < c.LocalNy ∨ c.yend + 1 = c.LocalNy))
    · unfold bfirst bwidth; simp only; omega
    · rintro ⟨x, y⟩ hq
      unfold bcells at hq; unfold ahead bfirst bwidth
      simp only at hq ⊢; omega
    · rintro ⟨x, y⟩ hi hd ⟨u, v⟩ hq
      unfold bdone at hd; unfold bcells at hq; unfold ahead
      simp only [decide_eq_true_eq] at hi hd hq ⊢; omega
    · rintro ⟨x, y⟩ hi' hd
      unfold bdone at hd
      simp only [decide_eq_false_iff_not] at hi' hd
      have w1 : 1 * (c.LocalNy - c.yend - 1) ≤ (hi - x + 1) * (c.LocalNy - c.yend - 1) :=
        Int.mul_le_mul_of_nonneg_right (by omega) (by omega)
      unfold bnext bcells left ahead bwidth
      simp only
      have ex' : (hi - (x + 1) + 1) * (c.LocalNy - c.yend - 1)
          = (hi - x + 1) * (c.LocalNy - c.yend - 1) - (c.LocalNy - c.yend - 1) := by ring
      by_cases hw : y + 1 ≥ c.LocalNy
      · simp only [if_pos hw]
        refine ⟨by omega, by omega, by omega, by omega, ?_, by omega⟩
        rintro ⟨u, v⟩ hq; simp only [Prod.mk.injEq] at hq ⊢; omega
      · simp only [if_neg hw]
        refine ⟨by omega, by omega, by omega, by omega, ?_, by omega⟩
        rintro ⟨u, v⟩ hq; simp only [Prod.mk.injEq] at hq ⊢; omega

/-! ### Where there are boundaries -/

/-- A Y boundary region of a rank contains the point. -/
def InYBoundary (c : Cfg) (corners : Bool) (s : Conn) (p : Int × Int) : Prop :=
  ∃ r ∈ createYBoundaries c corners s, bcells c r p

theorem neg_dest {c : Cfg} (hs : Sizes c) {px py : Int} {w : Int} (hx0 : 0 ≤ px) (hx1 : px < c.NXPE)
    (h : w = -1 ∨ ∃ q, 0 ≤ q ∧ q < c.NYPE ∧ w = c.PROC_NUM px q) : w < 0 ↔ w = -1 := by
  rcases h with h | ⟨q, h0, h1, rfl⟩
  · omega
  · have : c.PROC_NUM px q = q * c.NXPE + px := by
      unfold Cfg.PROC_NUM
      rw [if_neg (by omega), if_neg (by omega)]
    have := Int.mul_nonneg h0 (show 0 ≤ c.NXPE by omega)
    omega

/-- The columns of a rank that are not somebody else's: interior columns, and – with corner
cells included – the X boundary columns. -/
def OwnColumn (c : Cfg) (corners : Bool) (s : Conn) (x : Int) : Prop :=
  yboundary_xstart c corners s ≤ x ∧ x ≤ yboundary_xend c corners s

theorem y_cells {c : Cfg} {q : Int × Int} (hq : IsRank c q) {s : Conn} (hs : Sizes c)
    (U : SideOk c q.1 s.up) (D : SideOk c q.1 s.down) (corners : Bool) {x k : Int}
    (hx : OwnColumn c corners s x) (k0 : 0 ≤ k) (k1 : k < c.MYG) :
    (InYBoundary c corners s (x, c.yend + 1 + k) ↔ s.up.dest x = -1) ∧
    (InYBoundary c corners s (x, c.ystart - 1 - k) ↔ s.down.dest x = -1) := by
  obtain ⟨_, hMX, _, hM⟩ := hs.split
  have u1 := neg_dest (py := q.2) hs hq.1 hq.2.1 U.ind
  have u2 := neg_dest (py := q.2) hs hq.1 hq.2.1 U.outd
  have d1 := neg_dest (py := q.2) hs hq.1 hq.2.1 D.ind
  have d2 := neg_dest (py := q.2) hs hq.1 hq.2.1 D.outd
  have e1 : s.UDATA_INDEST = s.up.ind := rfl
  have e2 : s.UDATA_OUTDEST = s.up.outd := rfl
  have e3 : s.DDATA_INDEST = s.down.ind := rfl
  have e4 : s.DDATA_OUTDEST = s.down.outd := rfl
  have e5 : s.UDATA_XSPLIT = s.up.split := rfl
  have e6 : s.DDATA_XSPLIT = s.down.split := rfl
  have ye : c.yend = c.MYG + c.MYSUB - 1 := rfl
  have ys : c.ystart = c.MYG := rfl
  have ly : c.LocalNy = c.MYSUB + 2 * c.MYG := rfl
  obtain ⟨hx0, hx1⟩ := hx
  unfold InYBoundary createYBoundaries
  rw [if_neg (by omega)]
  simp only [e1, e2, e3, e4, e5, e6, u1, u2, d1, d2]
  generalize yboundary_xstart c corners s = xs at *
  generalize yboundary_xend c corners s = xe at *
  have ex : ∀ (P : BRegion → Prop) (a b d e : List BRegion),
      (∃ r ∈ a ++ b ++ d ++ e, P r) ↔
        (((∃ r ∈ a, P r) ∨ ∃ r ∈ b, P r) ∨ ∃ r ∈ d, P r) ∨ ∃ r ∈ e, P r := by
    intro P a b d e
    simp only [List.mem_append, or_and_right, exists_or]
  have one : ∀ (Q : Prop) [Decidable Q] (r : BRegion) (P : BRegion → Prop),
      (∃ r' ∈ (if Q then [r] else []), P r') ↔ Q ∧ P r := by
    intro Q _ r P
    by_cases h : Q <;> simp [h]
  have mk : ∀ (e : Edge) (a b : Int), a ≤ b → ∀ l, mkRegion e l a b = ⟨e, l, a, b⟩ := by
    intro e a b h l
    unfold mkRegion; rw [if_neg (by omega)]
  have cell : ∀ (Q : Prop) (e : Edge) (l : String) (a b : Int) (p : Int × Int), (Q → a ≤ b) →
      ((Q ∧ bcells c (mkRegion e l a b) p) ↔ (Q ∧ bcells c ⟨e, l, a, b⟩ p)) := by
    intro Q e l a b p h
    constructor
    · rintro ⟨q, hb⟩; rw [mk e a b (h q)] at hb; exact ⟨q, hb⟩
    · rintro ⟨q, hb⟩; refine ⟨q, ?_⟩; rw [mk e a b (h q)]; exact hb
  simp only [ex, one]
  rw [cell _ .yup _ _ _ _ (by omega), cell _ .yup _ _ _ _ (by omega),
    cell _ .ydown _ _ _ _ (by omega), cell _ .ydown _ _ _ _ (by omega),
    cell _ .yup _ _ _ _ (by omega), cell _ .yup _ _ _ _ (by omega),
    cell _ .ydown _ _ _ _ (by omega), cell _ .ydown _ _ _ _ (by omega)]
  unfold bcells Side.dest
  simp only
  constructor
  · by_cases hsp : x < s.up.split
    · rw [if_pos hsp]; omega
    · rw [if_neg hsp]; omega
  · by_cases hsp : x < s.down.split
    · rw [if_pos hsp]; omega
    · rw [if_neg hsp]; omega

section
variable {c : Cfg} (h : Layout c) {q : Int × Int} (hq : IsRank c q)
include h hq

/-- **C44.** On every rank of an accepted layout and in every column of its own, a guard
cell above (below) the last (first) row belongs to a Y boundary region exactly if the field
line ends on a target there.  With `C42_upper_guard_cells`/`C42_lower_guard_cells`: every such
guard cell is either filled by communication or by a boundary condition, never both, never
neither. -/
theorem C44_y_boundaries_at_targets (corners : Bool) {x k : Int}
    (hx : OwnColumn c corners (connOf c q) x) (k0 : 0 ≤ k) (k1 : k < c.MYG) :
    (InYBoundary c corners (connOf c q) (x, c.yend + 1 + k) ↔
      upNeighbour c (c.getGlobalXIndex q.1 x) (c.getGlobalYIndexNoBoundaries q.2 c.yend) = none) ∧
    (InYBoundary c corners (connOf c q) (x, c.ystart - 1 - k) ↔
      downNeighbour c (c.getGlobalXIndex q.1 x)
        (c.getGlobalYIndexNoBoundaries q.2 c.ystart) = none) := by
  have hn := net_of_layout c h
  obtain ⟨_, hMX, _, hM⟩ := h.sizes.split
  have gx := h.sizes.mxg
  obtain ⟨y1, y2⟩ := y_cells hq h.sizes (hn.okUp q hq) (hn.okDown q hq) corners hx k0 k1
  rw [y1, y2]
  have hx0 : 0 ≤ x ∧ x < c.LocalNx := by
    obtain ⟨a, b⟩ := hx
    unfold yboundary_xstart Cfg.xstart at a
    unfold yboundary_xend Cfg.xend at b
    unfold Cfg.LocalNx at *
    constructor
    · split at a <;> omega
    · split at b <;> omega
  obtain ⟨s, hs, hall⟩ := C19_connections_follow_topology_partial c h q.1 q.2 hq.1 hq.2.1
    hq.2.2.1 hq.2.2.2
  have es' : connOf c q = s := by unfold connOf; rw [hs]
  rw [← es'] at hall
  obtain ⟨ud, dd, _, _⟩ := hall x hx0.1 hx0.2
  rw [ud, dd]
  obtain ⟨_, _, _, _, _, hc⟩ := h.cuts
  have rowu : c.getGlobalYIndexNoBoundaries q.2 c.yend = q.2 * c.MYSUB + (c.MYSUB - 1) := by
    unfold Cfg.getGlobalYIndexNoBoundaries Cfg.yend; omega
  have rowd : c.getGlobalYIndexNoBoundaries q.2 c.ystart = q.2 * c.MYSUB := by
    unfold Cfg.getGlobalYIndexNoBoundaries Cfg.ystart; omega
  rw [rowu, rowd]
  constructor
  · cases hu : upNeighbour c (c.getGlobalXIndex q.1 x) (q.2 * c.MYSUB + (c.MYSUB - 1)) with
    | none => simp [ownerOf]
    | some y =>
      obtain ⟨r, r0, r1, ry⟩ := up_first h hq.2.2.1 hq.2.2.2 hu
      have yp : c.YPROC y = r := yproc_first h hc r0 r1 ry
      simp only [ownerOf, yp, reduceCtorEq, iff_false]
      exact proc_num_ne h.sizes hq.1 hq.2.1 r0 r1
  · cases hu : downNeighbour c (c.getGlobalXIndex q.1 x) (q.2 * c.MYSUB) with
    | none => simp [ownerOf]
    | some y =>
      obtain ⟨r, r0, r1, ry⟩ := down_last h hq.2.2.1 hq.2.2.2 hu
      have yp : c.YPROC y = r := yproc_last h hc r0 r1 ry
      simp only [ownerOf, yp, reduceCtorEq, iff_false]
      exact proc_num_ne h.sizes hq.1 hq.2.1 r0 r1

end

/-- A row of the core: between the X-points on either side. -/
def CoreRow (c : Cfg) (y : Int) : Prop :=
  (c.jyseps1_1 < y ∧ y ≤ c.jyseps2_1) ∨ (c.jyseps1_2 < y ∧ y ≤ c.jyseps2_2)

instance (c : Cfg) (y : Int) : Decidable (CoreRow c y) := by unfold CoreRow; infer_instance

/-- **C44.** X boundaries: on a rank of an accepted layout, the guard cells inside the first
(outside the last) column of an interior row belong to an X boundary region exactly on the
first (last) rank of a non-periodic X – where `C42_x_guard_cells` says that communication
leaves them alone; every interior row is covered; and the inner region is labelled `core` or
`pf` according to whether the row is a core row, for every row of the rank.  `hord` is what
`setYDecompositionIndices` ensures (`C21_indices_ordered`). -/
theorem C44_x_boundaries {c : Cfg} (h : Layout c)
    (hord : c.jyseps1_1 ≤ c.jyseps2_1 ∧ c.jyseps1_2 ≤ c.jyseps2_2)
    {q : Int × Int} (hq : IsRank c q) {y k : Int}
    (y0 : c.ystart ≤ y) (y1 : y ≤ c.yend) (k0 : 0 ≤ k) (k1 : k < c.MXG) :
    ((∃ r ∈ createXBoundaries c q.1 q.2, bcells c r (c.xstart - 1 - k, y)) ↔
      c.periodicX = false ∧ q.1 = 0) ∧
    ((∃ r ∈ createXBoundaries c q.1 q.2, bcells c r (c.xend + 1 + k, y)) ↔
      c.periodicX = false ∧ q.1 = c.NXPE - 1) ∧
    (∀ r ∈ createXBoundaries c q.1 q.2, bcells c r (c.xstart - 1 - k, y) →
      r.label = if CoreRow c (c.getGlobalYIndexNoBoundaries q.2 y) then "core" else "pf") ∧
    (∀ r ∈ createXBoundaries c q.1 q.2, bcells c r (c.xend + 1 + k, y) → r.label = "sol") := by
  obtain ⟨_, hMX, _, hM⟩ := h.sizes.split
  have xs : c.xstart = c.MXG := rfl
  have xe : c.xend = c.MXG + c.MXSUB - 1 := rfl
  have ys : c.ystart = c.MYG := rfl
  have ye : c.yend = c.MYG + c.MYSUB - 1 := rfl
  have lx : c.LocalNx = c.MXSUB + 2 * c.MXG := rfl
  have mk : ∀ (e : Edge) l, mkRegion e l c.ystart c.yend = ⟨e, l, c.ystart, c.yend⟩ := by
    intro e l; unfold mkRegion; rw [if_neg (by omega)]
  -- all rows of a rank are in the same region
  have same : CoreRow c (c.getGlobalYIndexNoBoundaries q.2 c.MYG) ↔
      CoreRow c (c.getGlobalYIndexNoBoundaries q.2 y) := by
    obtain ⟨a, b, kk, d, e, hc⟩ := h.cuts
    have g0 : c.getGlobalYIndexNoBoundaries q.2 c.MYG = q.2 * c.MYSUB + 0 := by
      unfold Cfg.getGlobalYIndexNoBoundaries; omega
    have g1 : c.getGlobalYIndexNoBoundaries q.2 y = q.2 * c.MYSUB + (y - c.MYG) := by
      unfold Cfg.getGlobalYIndexNoBoundaries; omega
    have q0 := hq.2.2.1
    -- a row is below a cut iff the processor is
    have cut : ∀ {j m r : Int}, j + 1 = m * c.MYSUB → 0 ≤ r → r < c.MYSUB →
        (q.2 * c.MYSUB + r ≤ j ↔ q.2 < m) := by
      intro j m r hj r0 r1
      constructor
      · intro hle
        exact mul_lt_imp hM (by omega)
      · intro hlt
        have := Int.mul_le_mul_of_nonneg_right (show q.2 + 1 ≤ m by omega) (show 0 ≤ c.MYSUB by omega)
        rw [Int.add_mul] at this; omega
    rw [g0, g1]
    have A0 := cut hc.ha (r := 0) (by omega) hM
    have A1 := cut hc.ha (r := y - c.MYG) (by omega) (by omega)
    have E0 := cut hc.he (r := 0) (by omega) hM
    have E1 := cut hc.he (r := y - c.MYG) (by omega) (by omega)
    unfold CoreRow
    by_cases hs : DoubleNull c
    · have B0 := cut (hc.hb hs) (r := 0) (by omega) hM
      have B1 := cut (hc.hb hs) (r := y - c.MYG) (by omega) (by omega)
      have D0 := cut (hc.hd hs) (r := 0) (by omega) hM
      have D1 := cut (hc.hd hs) (r := y - c.MYG) (by omega) (by omega)
      omega
    · have e12 : c.jyseps2_1 = c.jyseps1_2 := by unfold DoubleNull at hs; omega
      omega
  unfold createXBoundaries
  cases hp : c.periodicX with
  | true => simp
  | false =>
    simp only [Bool.false_eq_true, if_false, if_neg (show ¬ c.MXG ≤ 0 by omega), true_and]
    have lab : (if (c.getGlobalYIndexNoBoundaries q.2 c.MYG > c.jyseps1_1 ∧
          c.getGlobalYIndexNoBoundaries q.2 c.MYG ≤ c.jyseps2_1) ∨
        (c.getGlobalYIndexNoBoundaries q.2 c.MYG > c.jyseps1_2 ∧
          c.getGlobalYIndexNoBoundaries q.2 c.MYG ≤ c.jyseps2_2) then
        [mkRegion .xin "core" c.ystart c.yend] else [mkRegion .xin "pf" c.ystart c.yend])
        = [⟨.xin, if CoreRow c (c.getGlobalYIndexNoBoundaries q.2 y) then "core" else "pf",
            c.ystart, c.yend⟩] := by
      rw [mk, mk]
      by_cases hcr : CoreRow c (c.getGlobalYIndexNoBoundaries q.2 y)
      · have hm := same.2 hcr
        unfold CoreRow at hm
        rw [if_pos hcr, if_pos hm]
      · have hm := fun hh => hcr (same.1 hh)
        unfold CoreRow at hm
        rw [if_neg hcr, if_neg hm]
    rw [lab, mk]
    have one : ∀ (P : Prop) [Decidable P] (r r' : BRegion),
        r' ∈ (if P then [r] else []) ↔ P ∧ r' = r := by
      intro P _ r r'; by_cases hP : P <;> simp [hP]
    simp only [List.mem_append, one]
    refine ⟨?_, ?_, ?_, ?_⟩
    · constructor
      · rintro ⟨r, ⟨h1, rfl⟩ | ⟨h1, rfl⟩, h2⟩
        · exact h1
        · unfold bcells at h2; simp only at h2; omega
      · intro h1
        refine ⟨_, Or.inl ⟨h1, rfl⟩, ?_⟩
        unfold bcells; simp only; omega
    · constructor
      · rintro ⟨r, ⟨h1, rfl⟩ | ⟨h1, rfl⟩, h2⟩
        · unfold bcells at h2; simp only at h2; omega
        · exact h1
      · intro h1
        refine ⟨_, Or.inr ⟨h1, rfl⟩, ?_⟩
        unfold bcells; simp only; omega
    · rintro r (⟨h1, rfl⟩ | ⟨h1, rfl⟩) h2
      · rfl
      · unfold bcells at h2; simp only at h2; omega
    · rintro r (⟨h1, rfl⟩ | ⟨h1, rfl⟩) h2
      · unfold bcells at h2; simp only at h2; omega
      · rfl

/-- **C44, violated outside a rank's own columns.** The limits of a Y boundary region are
clipped to the rank's own columns on one side only: on the single null of `ConnWitness`,
the upper target region of rank (1, 7) includes columns 0 and 1, which are X guard columns
filled by communication from rank (0, 7). -/
theorem C44_y_boundary_in_guard_column_violated :
    ¬ OwnColumn singleNull true (connOf singleNull (1, 7)) 0 ∧
    InYBoundary singleNull true (connOf singleNull (1, 7)) (0, singleNull.yend + 1) := by
  constructor
  · unfold OwnColumn; decide
  · refine ⟨⟨.yup, "upper_target", 0, 11⟩, by decide, ?_⟩
    unfold bcells; decide

/-- Boundaries of some ranks of the double null. -/
example : createYBoundaries doubleNull true (connOf doubleNull (0, 5)) =
    [⟨.yup, "upper_target", 0, 11⟩] := by decide
example : createXBoundaries doubleNull 0 5 = [⟨.xin, "pf", 2, 5⟩] ∧
    createXBoundaries doubleNull 0 2 = [⟨.xin, "core", 2, 5⟩] ∧
    createXBoundaries doubleNull 1 2 = [⟨.xout, "sol", 2, 5⟩] := by decide
example : ∃ fuel, (bloop doubleNull ⟨.yup, "upper_target", 0, 1⟩ fuel
    (bfirst doubleNull ⟨.yup, "upper_target", 0, 1⟩)) = ([(0, 6), (0, 7), (1, 6), (1, 7)], true) :=
  ⟨10, by decide⟩

example : singleNull.jyseps1_1 ≤ singleNull.jyseps2_1 ∧ singleNull.jyseps1_2 ≤ singleNull.jyseps2_2 ∧
    doubleNull.jyseps1_1 ≤ doubleNull.jyseps2_1 ∧ doubleNull.jyseps1_2 ≤ doubleNull.jyseps2_2 := by
  decide

end Verif.Comm
