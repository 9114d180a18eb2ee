import Verif.Invert.LapXYThms
import Mathlib.Data.Rat.Defs
import Mathlib.Algebra.Order.Field.Rat

/-! # C75: any slab decomposition meets the hypotheses; where the solver goes wrong -/

namespace Verif.LapXY

variable {K : Type} [Field K]

/-- A rectangular grid dealt out to `P` processors in X and `Q` in Y, `nx` by `ny` points each, with
`mxg`, `myg` guard cells, closed in Y when `py`.  Rank numbering as in `PROC_NUM`
(boutmesh.cxx L1050). -/
def slab (P Q : Nat) (nx ny mxg myg : Int) (py : Bool) : World where
  nproc := Q * P
  mesh r :=
    { LocalNx := nx + 2 * mxg, LocalNy := ny + 2 * myg
      xstart := mxg, xend := mxg + nx - 1, ystart := myg, yend := myg + ny - 1
      firstX := decide (r % P = 0), lastX := decide (r % P + 1 = P)
      lower := if r / P = 0 ∧ py = false then upto mxg (mxg + nx - 1) else []
      upper := if r / P + 1 = Q ∧ py = false then upto mxg (mxg + nx - 1) else []
      hasLower := decide (r / P = 0 ∧ py = false)
      hasUpper := decide (r / P + 1 = Q ∧ py = false) }
  partner r c :=
    let xp := r % P
    let yp := r / P
    if myg ≤ c.2 ∧ c.2 < myg + ny then
      if c.1 < mxg then (if 0 < xp then some (yp * P + (xp - 1), (c.1 + nx, c.2)) else none)
      else if mxg + nx ≤ c.1 then
        (if xp + 1 < P then some (yp * P + (xp + 1), (c.1 - nx, c.2)) else none)
      else none
    else if mxg ≤ c.1 ∧ c.1 < mxg + nx then
      if c.2 < myg then
        (if 0 < yp then some ((yp - 1) * P + xp, (c.1, c.2 + ny))
         else if py then some ((Q - 1) * P + xp, (c.1, c.2 + ny)) else none)
      else
        (if yp + 1 < Q then some ((yp + 1) * P + xp, (c.1, c.2 - ny))
         else if py then some (0 * P + xp, (c.1, c.2 - ny)) else none)
    else none

/-- Sizes of a slab. -/
structure SlabOk (P Q : Nat) (nx ny mxg myg : Int) : Prop where
  P : 1 ≤ P
  Q : 1 ≤ Q
  nx : 1 ≤ nx
  ny : 1 ≤ ny
  mxg : 1 ≤ mxg
  myg : 1 ≤ myg

theorem slab_mesh_ok {P Q : Nat} {nx ny mxg myg : Int} {py : Bool}
    (h : SlabOk P Q nx ny mxg myg) (r : Nat) : ((slab P Q nx ny mxg myg py).mesh r).Ok := by
  obtain ⟨h1, h2, h3, h4, h5, h6⟩ := h
  constructor <;> simp only [slab] <;> first | omega | skip
  · split
    · exact nodup_upto _ _
    · exact List.nodup_nil
  · split
    · exact nodup_upto _ _
    · exact List.nodup_nil

theorem slab_xs (P Q : Nat) (nx ny mxg myg : Int) (py : Bool) (r : Nat) :
    ((slab P Q nx ny mxg myg py).mesh r).xs = if r % P = 0 then mxg - 1 else mxg := by
  unfold LMesh.xs
  by_cases h : r % P = 0 <;> simp [slab, h]

theorem slab_xe (P Q : Nat) (nx ny mxg myg : Int) (py : Bool) (r : Nat) :
    ((slab P Q nx ny mxg myg py).mesh r).xe
      = if r % P + 1 = P then mxg + nx - 1 + 1 else mxg + nx - 1 := by
  unfold LMesh.xe
  by_cases h : r % P + 1 = P <;> simp [slab, h]

theorem slab_ok {P Q : Nat} {nx ny mxg myg : Int} {py : Bool}
    (h : SlabOk P Q nx ny mxg myg) : (slab P Q nx ny mxg myg py).Ok true := by
  refine ⟨fun r _ => slab_mesh_ok h r, ?_⟩
  intro r hr c hc
  obtain ⟨h1, h2, h3, h4, h5, h6⟩ := h
  have hP : 0 < P := h1
  have hxlt := Nat.mod_lt r hP
  have hyq : r / P < Q := (Nat.div_lt_iff_lt_mul hP).mpr hr
  rw [mem_rowCells, mem_corners, mem_corners, slab_xs, slab_xe] at hc
  simp only [slab] at hc ⊢
  have hl : ∀ (p : Prop) [Decidable p] (x a b : Int), x ∈ (if p then upto a b else []) → p := by
    intro p _ x a b hx
    by_contra hp
    rw [if_neg hp] at hx
    cases hx
  rcases hc with ⟨a1, a2, a3, a4⟩ | ⟨a1, -⟩ | ⟨a1, a2, a3, a4⟩ | ⟨a1, -⟩ | ⟨a1, a2, a3, a4⟩
  · have := hl _ _ _ _ a2
    rw [if_neg (by omega), if_pos (by omega), if_pos (by omega), if_neg (by omega),
      if_neg (by rw [this.2]; decide)]
  · cases a1
  · have := hl _ _ _ _ a2
    rw [if_neg (by omega), if_pos (by omega), if_neg (by omega), if_neg (by omega),
      if_neg (by rw [this.2]; decide)]
  · cases a1
  · rw [if_pos (by omega)]
    by_cases b1 : c.1 < mxg
    · rw [if_pos b1]
      by_cases b2 : r % P = 0
      · rw [if_neg (by omega)]
      · exfalso
        rw [if_neg b2] at a1
        omega
    · rw [if_neg b1]
      by_cases b3 : mxg + nx ≤ c.1
      · rw [if_pos b3]
        by_cases b2 : r % P + 1 = P
        · rw [if_neg (by omega)]
        · exfalso
          rw [if_neg b2] at a2
          omega
      · rw [if_neg b3]

/-- Owner of a cell in a slab. -/
def slabOwn (P Q : Nat) (nx ny mxg myg : Int) (py : Bool) (r : Nat) (e : Cell) : Nat × Cell :=
  ((slab P Q nx ny mxg myg py).partner r e).getD (r, e)

/-- Position of an owned cell in the whole grid. -/
def slabPos (P : Nat) (nx ny mxg myg : Int) (p : Nat × Cell) : Int × Int :=
  (((p.1 % P : Nat) : Int) * nx + (p.2.1 - mxg), ((p.1 / P : Nat) : Int) * ny + (p.2.2 - myg))

theorem rk_mod (P xp yp : Nat) (h : xp < P) : (yp * P + xp) % P = xp := by
  rw [Nat.mul_comm, Nat.mul_add_mod, Nat.mod_eq_of_lt h]

theorem rk_div (P xp yp : Nat) (h : xp < P) : (yp * P + xp) / P = yp := by
  rw [Nat.mul_comm, Nat.mul_add_div (by omega), Nat.div_eq_of_lt h]; omega

theorem rk_lt (P Q xp yp : Nat) (h : xp < P) (hy : yp < Q) : yp * P + xp < Q * P := by
  have : (yp + 1) * P ≤ Q * P := Nat.mul_le_mul_right _ hy
  rw [Nat.add_mul] at this
  omega

/-- What the five cells of a stencil are in a slab: owned somewhere, at the expected places of the
whole grid. -/
theorem slab_owner {P Q : Nat} {nx ny mxg myg : Int} {py : Bool} (h : SlabOk P Q nx ny mxg myg)
    (r : Nat) (hr : r < Q * P) (c : Cell)
    (hc : mxg ≤ c.1 ∧ c.1 < mxg + nx ∧ myg ≤ c.2 ∧ c.2 < myg + ny) (dx dy : Int)
    (hd : (dx = 0 ∧ (dy = 0 ∨ dy = 1 ∨ dy = -1)) ∨ (dy = 0 ∧ (dx = 1 ∨ dx = -1))) :
    let e : Cell := (c.1 + dx, c.2 + dy)
    let X : Int := ((r % P : Nat) : Int) * nx + (c.1 - mxg)
    let Y : Int := ((r / P : Nat) : Int) * ny + (c.2 - myg)
    let N : Int := (Q : Int) * ny
    ((slab P Q nx ny mxg myg py).mesh r).Inside e ∧
    (slab P Q nx ny mxg myg py).Owns true r e (slabOwn P Q nx ny mxg myg py r e) ∧
    ∃ Y' : Int, slabPos P nx ny mxg myg (slabOwn P Q nx ny mxg myg py r e) = (X + dx, Y') ∧
      (Y' = Y + dy ∨ (py = true ∧ Y + dy = -1 ∧ Y' = N - 1) ∨
        (py = true ∧ Y + dy = N ∧ Y' = 0)) := by
  intro e X Y N
  obtain ⟨h1, h2, h3, h4, h5, h6⟩ := h
  have hP : 0 < P := h1
  have hxlt := Nat.mod_lt r hP
  have hyq : r / P < Q := (Nat.div_lt_iff_lt_mul hP).mpr hr
  have hrr : r = (r / P) * P + r % P := (Nat.div_add_mod' r P).symm
  refine ⟨by simp only [LMesh.Inside, slab, e]; omega, ?_⟩
  have inner : ∀ s : Nat, ∀ d : Cell, mxg ≤ d.1 → d.1 < mxg + nx → myg ≤ d.2 → d.2 < myg + ny →
      d ∈ rowCells true ((slab P Q nx ny mxg myg py).mesh s) := by
    intro s d d1 d2 d3 d4
    have a1 := xs_le ((slab P Q nx ny mxg myg py).mesh s)
    have a2 := xe_ge ((slab P Q nx ny mxg myg py).mesh s)
    rw [mem_rowCells]; right; right; right; right
    have e1 : ((slab P Q nx ny mxg myg py).mesh s).xstart = mxg := rfl
    have e2 : ((slab P Q nx ny mxg myg py).mesh s).xend = mxg + nx - 1 := rfl
    have e3 : ((slab P Q nx ny mxg myg py).mesh s).ystart = myg := rfl
    have e4 : ((slab P Q nx ny mxg myg py).mesh s).yend = myg + ny - 1 := rfl
    omega
  -- a cell with a partner
  have viaP : ∀ (xp yp : Nat) (d : Cell), xp < P → yp < Q → mxg ≤ d.1 → d.1 < mxg + nx →
      myg ≤ d.2 → d.2 < myg + ny →
      (slab P Q nx ny mxg myg py).partner r e = some (yp * P + xp, d) →
      (slab P Q nx ny mxg myg py).Owns true r e (slabOwn P Q nx ny mxg myg py r e) ∧
      slabPos P nx ny mxg myg (slabOwn P Q nx ny mxg myg py r e)
        = ((xp : Int) * nx + (d.1 - mxg), (yp : Int) * ny + (d.2 - myg)) := by
    intro xp yp d b1 b2 b3 b4 b5 b6 hp
    unfold slabOwn World.Owns
    rw [hp, Option.getD_some]
    refine ⟨⟨rk_lt P Q xp yp b1 b2, inner _ d b3 b4 b5 b6, Or.inl rfl⟩, ?_⟩
    simp only [slabPos]
    rw [rk_mod P xp yp b1, rk_div P xp yp b1]
  -- a cell without a partner
  have viaN : (slab P Q nx ny mxg myg py).partner r e = none →
      e ∈ rowCells true ((slab P Q nx ny mxg myg py).mesh r) →
      (slab P Q nx ny mxg myg py).Owns true r e (slabOwn P Q nx ny mxg myg py r e) ∧
      slabPos P nx ny mxg myg (slabOwn P Q nx ny mxg myg py r e) = (X + dx, Y + dy) := by
    intro hp hrow
    unfold slabOwn World.Owns
    rw [hp, Option.getD_none]
    refine ⟨⟨hr, hrow, Or.inr ⟨rfl, rfl⟩⟩, ?_⟩
    simp only [slabPos, X, Y, e, Prod.mk.injEq]
    constructor <;> ring
  by_cases c0 : dx = 0 ∧ dy = 0
  · obtain ⟨rfl, rfl⟩ := c0
    have := viaN (by simp only [slab, e]; rw [if_pos (by omega), if_neg (by omega),
      if_neg (by omega)]) (inner r e (by simp [e]; omega) (by simp [e]; omega)
      (by simp [e]; omega) (by simp [e]; omega))
    exact ⟨this.1, _, this.2, Or.inl rfl⟩
  by_cases cx : dy = 0
  · subst cx
    have hdx : dx = 1 ∨ dx = -1 := by omega
    by_cases inx : mxg ≤ c.1 + dx ∧ c.1 + dx < mxg + nx
    · have := viaN (by simp only [slab, e]; rw [if_pos (by omega), if_neg (by omega),
        if_neg (by omega)]) (inner r e (by simp [e]; omega) (by simp [e]; omega)
        (by simp [e]; omega) (by simp [e]; omega))
      exact ⟨this.1, _, this.2, Or.inl rfl⟩
    · rcases hdx with rfl | rfl
      · by_cases hl : r % P + 1 < P
        · have := viaP (r % P + 1) (r / P) (c.1 + 1 - nx, c.2 + 0) hl hyq (by simp; omega)
            (by simp; omega) (by simp; omega) (by simp; omega) (by
              simp only [slab, e]
              rw [if_pos (by omega), if_neg (by omega), if_pos (by omega), if_pos hl])
          refine ⟨this.1, Y + 0, ?_, Or.inl rfl⟩
          rw [this.2]
          simp only [X, Y, Prod.mk.injEq]
          push_cast
          constructor <;> ring
        · have := viaN (by
              simp only [slab, e]
              rw [if_pos (by omega), if_neg (by omega), if_pos (by omega), if_neg hl]) (by
              rw [mem_rowCells]; right; right; right; right
              have hxe : ((slab P Q nx ny mxg myg py).mesh r).xe = mxg + nx - 1 + 1 := by
                rw [slab_xe, if_pos (by omega)]
              have hxs := xs_le ((slab P Q nx ny mxg myg py).mesh r)
              rw [hxe]
              simp only [slab, e] at hxs ⊢
              omega)
          exact ⟨this.1, _, this.2, Or.inl rfl⟩
      · by_cases hl : 0 < r % P
        · have := viaP (r % P - 1) (r / P) (c.1 + -1 + nx, c.2 + 0) (by omega) hyq (by simp; omega)
            (by simp; omega) (by simp; omega) (by simp; omega) (by
              simp only [slab, e]
              rw [if_pos (by omega), if_pos (by omega), if_pos hl])
          refine ⟨this.1, Y + 0, ?_, Or.inl rfl⟩
          rw [this.2]
          simp only [X, Y, Prod.mk.injEq]
          rw [Int.natCast_sub (by omega)]
          push_cast
          constructor <;> ring
        · have := viaN (by
              simp only [slab, e]
              rw [if_pos (by omega), if_pos (by omega), if_neg hl]) (by
              rw [mem_rowCells]; right; right; right; right
              have hxs : ((slab P Q nx ny mxg myg py).mesh r).xs = mxg - 1 := by
                rw [slab_xs, if_pos (by omega)]
              have hxe := xe_ge ((slab P Q nx ny mxg myg py).mesh r)
              rw [hxs]
              simp only [slab, e] at hxe ⊢
              omega)
          exact ⟨this.1, _, this.2, Or.inl rfl⟩
  · have hdx : dx = 0 := by omega
    subst hdx
    have hdy : dy = 1 ∨ dy = -1 := by omega
    by_cases iny : myg ≤ c.2 + dy ∧ c.2 + dy < myg + ny
    · have := viaN (by simp only [slab, e]; rw [if_pos (by omega), if_neg (by omega),
        if_neg (by omega)]) (inner r e (by simp [e]; omega) (by simp [e]; omega)
        (by simp [e]; omega) (by simp [e]; omega))
      exact ⟨this.1, _, this.2, Or.inl rfl⟩
    · rcases hdy with rfl | rfl
      · by_cases hl : r / P + 1 < Q
        · have := viaP (r % P) (r / P + 1) (c.1 + 0, c.2 + 1 - ny) hxlt hl (by simp; omega)
            (by simp; omega) (by simp; omega) (by simp; omega) (by
              simp only [slab, e]
              rw [if_neg (by omega), if_pos (by omega), if_neg (by omega), if_pos hl])
          refine ⟨this.1, Y + 1, ?_, Or.inl rfl⟩
          rw [this.2]
          simp only [X, Y, Prod.mk.injEq]
          push_cast
          constructor <;> ring
        · cases hpy : py with
          | true =>
            subst hpy
            have := viaP (r % P) 0 (c.1 + 0, c.2 + 1 - ny) hxlt (by omega) (by simp; omega)
              (by simp; omega) (by simp; omega) (by simp; omega) (by
                simp only [slab, e]
                rw [if_neg (by omega), if_pos (by omega), if_neg (by omega), if_neg hl, if_pos trivial])
            refine ⟨this.1, 0, ?_, Or.inr (Or.inr ⟨rfl, ?_, rfl⟩)⟩
            · rw [this.2]
              simp only [X, Prod.mk.injEq]
              push_cast
              constructor
              · ring
              · have : c.2 + 1 = myg + ny := by omega
                rw [this]; ring
            · have hQ : (Q : Int) = ((r / P : Nat) : Int) + 1 := by
                have : Q = r / P + 1 := by omega
                exact_mod_cast this
              simp only [Y, N, hQ]
              have : c.2 = myg + ny - 1 := by omega
              rw [this]; ring
          | false =>
            subst hpy
            have := viaN (by
              simp only [slab, e]
              rw [if_neg (by omega), if_pos (by omega), if_neg (by omega), if_neg hl,
                if_neg (by decide)]) (by
              rw [mem_rowCells]; right; right; left
              simp only [slab, e]
              rw [if_pos ⟨by omega, trivial⟩, mem_upto]
              omega)
            exact ⟨this.1, _, this.2, Or.inl rfl⟩
      · by_cases hl : 0 < r / P
        · have := viaP (r % P) (r / P - 1) (c.1 + 0, c.2 + -1 + ny) hxlt (by omega) (by simp; omega)
            (by simp; omega) (by simp; omega) (by simp; omega) (by
              simp only [slab, e]
              rw [if_neg (by omega), if_pos (by omega), if_pos (by omega), if_pos hl])
          refine ⟨this.1, Y + -1, ?_, Or.inl rfl⟩
          rw [this.2]
          simp only [X, Y, Prod.mk.injEq]
          rw [Int.natCast_sub (by omega)]
          push_cast
          constructor <;> ring
        · cases hpy : py with
          | true =>
            subst hpy
            have := viaP (r % P) (Q - 1) (c.1 + 0, c.2 + -1 + ny) hxlt (by omega) (by simp; omega)
              (by simp; omega) (by simp; omega) (by simp; omega) (by
                simp only [slab, e]
                rw [if_neg (by omega), if_pos (by omega), if_pos (by omega), if_neg hl, if_pos trivial])
            refine ⟨this.1, N - 1, ?_, Or.inr (Or.inl ⟨rfl, ?_, rfl⟩)⟩
            · rw [this.2]
              simp only [X, N, Prod.mk.injEq]
              rw [Int.natCast_sub (by omega)]
              push_cast
              constructor
              · ring
              · have : c.2 = myg := by omega
                rw [this]; ring
            · have hQ : ((r / P : Nat) : Int) = 0 := by
                have : r / P = 0 := Nat.eq_zero_of_not_pos hl
                exact_mod_cast this
              simp only [Y, hQ]
              omega
          | false =>
            subst hpy
            have := viaN (by
              simp only [slab, e]
              rw [if_neg (by omega), if_pos (by omega), if_pos (by omega), if_neg hl,
                if_neg (by decide)]) (by
              rw [mem_rowCells]; left
              simp only [slab, e]
              rw [if_pos ⟨Nat.eq_zero_of_not_pos hl, trivial⟩, mem_upto]
              omega)
            exact ⟨this.1, _, this.2, Or.inl rfl⟩

/-- The five cells are different unknowns, unless Y is closed on fewer than three points. -/
theorem slab_distinct {P Q : Nat} {nx ny mxg myg : Int} {py : Bool}
    (h : SlabOk P Q nx ny mxg myg) (h3 : py = true → 3 ≤ (Q : Int) * ny)
    (r : Nat) (hr : r < Q * P) (c : Cell)
    (hc : mxg ≤ c.1 ∧ c.1 < mxg + nx ∧ myg ≤ c.2 ∧ c.2 < myg + ny) :
    (slab P Q nx ny mxg myg py).Distinct true r (cross c) := by
  refine ⟨slabOwn P Q nx ny mxg myg py r, ?_, ?_⟩
  · intro e he
    simp only [cross, List.mem_cons, List.not_mem_nil, or_false] at he
    have key := slab_owner (py := py) h r hr c hc
    rcases he with rfl | rfl | rfl | rfl | rfl
    · have := key 0 0 (by omega)
      simp only [add_zero] at this
      exact ⟨this.1, this.2.1⟩
    · have := key 1 0 (by omega)
      simp only [add_zero] at this
      exact ⟨this.1, this.2.1⟩
    · have := key (-1) 0 (by omega)
      simp only [add_zero] at this
      exact ⟨this.1, this.2.1⟩
    · have := key 0 1 (by omega)
      simp only [add_zero] at this
      exact ⟨this.1, this.2.1⟩
    · have := key 0 (-1) (by omega)
      simp only [add_zero] at this
      exact ⟨this.1, this.2.1⟩
  · apply List.Nodup.of_map (slabPos P nx ny mxg myg)
    have key := slab_owner (py := py) h r hr c hc
    obtain ⟨-, -, y0, e0, d0⟩ := key 0 0 (by omega)
    obtain ⟨-, -, y1, e1, d1⟩ := key 1 0 (by omega)
    obtain ⟨-, -, y2, e2, d2⟩ := key (-1) 0 (by omega)
    obtain ⟨-, -, y3, e3, d3⟩ := key 0 1 (by omega)
    obtain ⟨-, -, y4, e4, d4⟩ := key 0 (-1) (by omega)
    simp only [add_zero] at e0 e1 e2 e3 e4 d0 d1 d2
    simp only [cross, List.map_cons, List.map_nil]
    rw [show ((c.1, c.2) : Cell) = c from rfl] at e0
    have s1 : ((c.1 - 1, c.2) : Cell) = (c.1 + -1, c.2) := rfl
    have s2 : ((c.1, c.2 - 1) : Cell) = (c.1, c.2 + -1) := rfl
    rw [s1, s2, e0, e1, e2, e3, e4]
    have hY0 : 0 ≤ ((r / P : Nat) : Int) * ny + (c.2 - myg) := by
      have : 0 ≤ ((r / P : Nat) : Int) * ny := Int.mul_nonneg (Int.natCast_nonneg _) (by have := h.ny; omega)
      omega
    have hYN : ((r / P : Nat) : Int) * ny + (c.2 - myg) < (Q : Int) * ny := by
      have hyq : r / P < Q := (Nat.div_lt_iff_lt_mul h.P).mpr hr
      have h1 : (((r / P : Nat) : Int) + 1) * ny ≤ (Q : Int) * ny :=
        Int.mul_le_mul_of_nonneg_right (by exact_mod_cast hyq) (by have := h.ny; omega)
      rw [add_mul] at h1
      omega
    generalize ((r / P : Nat) : Int) * ny + (c.2 - myg) = Y at *
    generalize ((r % P : Nat) : Int) * nx + (c.1 - mxg) = X at *
    generalize (Q : Int) * ny = N at *
    simp only [List.nodup_cons, List.mem_cons, List.not_mem_nil, or_false, not_or, Prod.mk.injEq,
      not_and, List.nodup_nil, and_true, not_false_eq_true]
    cases py
    · simp only [Bool.false_eq_true, false_and, or_false] at d0 d1 d2 d3 d4
      omega
    · simp only [true_and, forall_const] at d0 d1 d2 d3 d4 h3
      omega

/-- **C75 for every slab decomposition.**  Any number of processors in X and Y, any block sizes and
guard widths, Y open or closed (on at least three points): the returned field satisfies
`Laplace_perpXY(A, f) + B f = rhs` everywhere. -/
theorem C75_slab (P Q : Nat) (nx ny mxg myg : Int) (py : Bool) (h : SlabOk P Q nx ny mxg myg)
    (h3 : py = true → 3 ≤ (Q : Int) * ny) (o : Opts) (q : Nat → Coefs K) (old : Int → K)
    (rhs x0 : Nat → Cell → K) (xs : Int → K) (hfv : o.finiteVolume = true) (hiy : o.includeY = true)
    (hk : KspSolved (slab P Q nx ny mxg myg py) o q old rhs x0 xs) (r : Nat) (hr : r < Q * P)
    (c : Cell) (hc : mxg ≤ c.1 ∧ c.1 < mxg + nx ∧ myg ≤ c.2 ∧ c.2 < myg + ny) :
    ∃ f : Cell → K,
      (∀ e ∈ cross c, communicated (slab P Q nx ny mxg myg py) o xs r e = some (f e)) ∧
      laplacePerpXY (q r) f c + (q r).B c * f c = rhs r c := by
  refine C75_finite_volume _ o q old rhs x0 xs hfv hiy (slab_ok h) hk r hr c ?_
    (slab_distinct h h3 r hr c hc)
  simp only [slab]
  omega

end Verif.LapXY
