import Verif.Invert.Ipt

/-!
# Specification: what the distributed tridiagonal solver should return

Each of the `N` processors holds the x indices `0 .. ncx - 1`, of which `xs .. xe` are its own; the indices above `xe`
are copies of the next processor's first cells, and those below `xs` copies of the previous processor's last ones, except
at the two ends of the domain, where they are boundary cells with rows of their own.
-/

namespace Verif.IptSpec

open Verif.Ipt

variable {K M : Type} [Field K]

/-- Row `i` of a tridiagonal matrix of size `n` applied to `u`. -/
def row (n : Nat) (a b c u : Nat → K) (i : Nat) : K :=
  (if i = 0 then 0 else a i * u (i - 1)) + b i * u i + (if i + 1 < n then c i * u (i + 1) else 0)

/-- Index `i` of processor `p` is a copy of another processor's cell. -/
def Copy (g : Geo) (p i : Nat) : Prop := (p ≠ 0 ∧ i < g.xs) ∨ (p + 1 ≠ g.N ∧ g.xe < i)

/-- The rows of processor `p` hold for its own array. -/
def Rows (g : Geo) (m : Mat K) (p : Nat) (r u : Nat → K) : Prop :=
  ∀ i, i < g.ncx → ¬Copy g p i → row g.ncx (m.a p) (m.b p) (m.c p) u i = r i

/-- The solution, by processor, of the whole system: every row, and the neighbouring cells agree. -/
structure Solution (g : Geo) (m : Mat K) (r x : Nat → Nat → K) : Prop where
  rows : ∀ p, p < g.N → Rows g m p (r p) (x p)
  upper : ∀ p, p + 1 < g.N → x p (g.xe + 1) = x (p + 1) g.xs
  lower : ∀ p, p + 1 < g.N → x (p + 1) (g.xs - 1) = x p g.xe

/-- `u` is the response of the rows of processor `p` to a unit value in the copied cell below (above) its own, nothing
else. -/
structure Lower (g : Geo) (m : Mat K) (p : Nat) (u : Nat → K) : Prop where
  rows : Rows g m p (fun _ => 0) u
  copies : ∀ i, i < g.ncx → Copy g p i → u i = if i + 1 = g.xs then 1 else 0

structure Upper (g : Geo) (m : Mat K) (p : Nat) (u : Nat → K) : Prop where
  rows : Rows g m p (fun _ => 0) u
  copies : ∀ i, i < g.ncx → Copy g p i → u i = if i = g.xe + 1 then 1 else 0

/-- A tridiagonal matrix is nonsingular. -/
def Nonsing (n : Nat) (a b c : Nat → K) : Prop :=
  ∀ u : Nat → K, (∀ i, i < n → row n a b c u i = 0) → ∀ i, i < n → u i = 0

/-- What LAPACK's tridiagonal solver is for: it solves every nonsingular system of size `n`. -/
def Solves (n : Nat) (tri : Tri K) : Prop :=
  ∀ a b c r : Nat → K, Nonsing n a b c → ∀ i, i < n → row n a b c (tri a b c r) i = r i

/-- Each processor's rows determine its cells, given the copied ones. -/
def Local (g : Geo) (m : Mat K) (p : Nat) : Prop :=
  ∀ u : Nat → K, Rows g m p (fun _ => 0) u → (∀ i, i < g.ncx → Copy g p i → u i = 0) → ∀ i, i < g.ncx → u i = 0

/-- The pivot of the reduced row of processor `p + 1`: `1 - w(xs) B`, `B` the dependence of the last cell of processor `p`
on the first cell of processor `p + 1` when its own first cell is held fixed. -/
def pivot (g : Geo) (p : Nat) (w u v : Nat → K) : K :=
  1 - w g.xs * (if p = 0 then v g.xe else v g.xe - u g.xe / u g.xs * v g.xs)

/-- The problems the method is for. -/
structure Regular (g : Geo) (small : K → Bool) (m : Mat K) : Prop where
  inside : 1 ≤ g.xs ∧ g.xs ≤ g.xe ∧ g.xe + 1 < g.ncx
  loc : ∀ p, p < g.N → Local g m p
  small0 : small 0 = true
  /-- no processor's first cell is (nearly) independent of the cell below it -/
  coupled : ∀ p, p + 1 < g.N → ∀ u, Lower g m (p + 1) u → small (u g.xs) = false
  pivots : ∀ p, p + 1 < g.N → ∀ w u v, Lower g m (p + 1) w → Lower g m p u → Upper g m p v → pivot g p w u v ≠ 0

/-- `x` satisfies every row and the neighbouring cells agree, except that the copies below a processor's cells are off by
what the residuals `ρ` of the reduced rows say. -/
structure Near (g : Geo) (m : Mat K) (r x : Nat → Nat → K) (ρ : Nat → K) : Prop where
  rows : ∀ p, p < g.N → Rows g m p (r p) (x p)
  upper : ∀ p, p + 1 < g.N → x p (g.xe + 1) = x (p + 1) g.xs
  lower : ∀ p, p + 1 < g.N → ∀ w u v, Lower g m (p + 1) w → Lower g m p u → Upper g m p v →
    w g.xs * (x (p + 1) (g.xs - 1) - x p g.xe) = -(pivot g p w u v * ρ (p + 1))

end Verif.IptSpec
