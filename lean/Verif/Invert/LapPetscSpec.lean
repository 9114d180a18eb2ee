import Verif.Invert.LapPetsc

/-! # What `LaplacePetsc` should solve: specification in global indices

Nothing here mentions processors, matrices or row numbers. -/

namespace Verif.LapPetsc

section
variable {K : Type} [Field K]

/-- Central first difference with unit spacing, second or fourth order. -/
def d1 (fourth : Bool) (u : Int → K) : K :=
  if fourth then (u (-2) - 8 * u (-1) + 8 * u 1 - u 2) / 12 else (u 1 - u (-1)) / 2

/-- Central second difference with unit spacing, second or fourth order. -/
def d2 (fourth : Bool) (u : Int → K) : K :=
  if fourth then (-u (-2) + 16 * u (-1) - 30 * u 0 + 16 * u 1 - u 2) / 12
  else u 1 - 2 * u 0 + u (-1)

variable (fo : Bool) (G : Flds K)

/-- `∂f/∂x` at a grid point. -/
def dX (f : Int → Int → K) (x z : Int) : K := d1 fo (fun j => f (x + j) z) / G.dx x z
/-- `∂f/∂z` at a grid point. -/
def dZ (f : Int → Int → K) (x z : Int) : K := d1 fo (fun k => f x (z + k)) / G.dz x z
/-- `∂²f/∂x²` at a grid point. -/
def dXX (f : Int → Int → K) (x z : Int) : K := d2 fo (fun j => f (x + j) z) / G.dx x z ^ 2
/-- `∂²f/∂z²` at a grid point. -/
def dZZ (f : Int → Int → K) (x z : Int) : K := d2 fo (fun k => f x (z + k)) / G.dz x z ^ 2
/-- `∂²f/∂x∂z` at a grid point: the difference in X of the differences in Z. -/
def dXZ (f : Int → Int → K) (x z : Int) : K :=
  d1 fo (fun j => d1 fo (fun k => f (x + j) (z + k))) / (G.dx x z * G.dz x z)

/-- A field in Z repeated periodically. -/
def periodicZ (nz : Nat) (f : Int → Int → K) (x z : Int) : K := f x (z % (nz : Int))

/-- `∇⊥²f` (manual, "Laplacian inversion"): second derivatives, first derivatives if
`all_terms`, correction for a non-uniform mesh if `nonuniform`, shifted-metric form of the Z
derivatives if the mesh includes integrated shear. -/
def laplacePerp (o : Opts) (f : Int → Int → K) (x z : Int) : K :=
  G.g11 x z * dXX o.fourth G f x z
    + (G.g33 x z + if o.incShear then G.g11 x z * G.ist x z ^ 2 else 0) * dZZ o.fourth G f x z
    + (if o.incShear then 0 else 2 * G.g13 x z * dXZ o.fourth G f x z)
    + (if o.allTerms then G.G1 x z * dX o.fourth G f x z + G.G3 x z * dZ o.fourth G f x z else 0)
    - (if o.nonuniform then
        (G.dx (x + 1) z - G.dx (x - 1) z) / 2 / G.dx x z ^ 2 * G.g11 x z * dX o.fourth G f x z
      else 0)

/-- `∇⊥a · ∇⊥f`. -/
def gradGrad (o : Opts) (a f : Int → Int → K) (x z : Int) : K :=
  G.g11 x z * dX o.fourth G a x z * dX o.fourth G f x z
    + G.g13 x z * (dX o.fourth G a x z * dZ o.fourth G f x z
        + dZ o.fourth G a x z * dX o.fourth G f x z)
    + G.g33 x z * dZ o.fourth G a x z * dZ o.fourth G f x z

/-- `D ∇⊥²f + (1/C1) ∇⊥C2·∇⊥f + E·(∂x f, ∂z f) + A f`, each optional coefficient present if it
has been set. -/
def operator (nz : Nat) (o : Opts) (f : Int → Int → K) (x z : Int) : K :=
  (if o.issetD then G.D x z else 1) * laplacePerp G o f x z
    + (if o.issetC then gradGrad G o (periodicZ nz G.C2) f x z / G.C1 x z else 0)
    + (if o.issetE then G.Ex x z * dX o.fourth G f x z + G.Ez x z * dZ o.fourth G f x z else 0)
    + G.A x z * f x z

/-- The boundary quantity which is set at an inner boundary point: the gradient, or the value.
At second order both are taken half-way between this point and the next. -/
def innerQuantity (o : Opts) (f : Int → Int → K) (x z : Int) : K :=
  if has o.innerFlags acGrad then
    (if o.fourth then
      -25 / 12 * f x z + 4 * f (x + 1) z - 3 * f (x + 2) z + 4 / 3 * f (x + 3) z
        - 1 / 4 * f (x + 4) z
     else f (x + 1) z - f x z) / (G.dx x z * G.sg11 x z)
  else if o.fourth then f x z
  else (f x z + f (x + 1) z) / 2

/-- The boundary quantity which is set at an outer boundary point. -/
def outerQuantity (o : Opts) (f : Int → Int → K) (x z : Int) : K :=
  if has o.outerFlags acGrad then
    (if o.fourth then
      25 / 12 * f x z - 4 * f (x - 1) z + 3 * f (x - 2) z - 4 / 3 * f (x - 3) z
        + 1 / 4 * f (x - 4) z
     else f x z - f (x - 1) z) / (G.dx x z * G.sg11 x z)
  else if o.fourth then f x z
  else (f x z + f (x - 1) z) / 2

/-- What a boundary quantity is set to: the right hand side, the initial guess, or zero. -/
def bndryValue (flags : Nat) (x z : Int) : K :=
  if has flags invertRhs then G.b x z else if has flags invertSet then G.x0 x z else 0

/-- `f` (periodic in Z) solves the problem on a plane of `nx` interior points in X with `w`
boundary points on each side and `nz` points in Z. -/
structure Solution (nx w nz : Nat) (o : Opts) (f : Int → Int → K) : Prop where
  periodic : ∀ x z, f x (z + (nz : Int)) = f x z
  interior : ∀ x z : Int, (w : Int) ≤ x → x < (w : Int) + nx → 0 ≤ z → z < (nz : Int) →
    operator G nz o f x z = G.b x z
  inner : ∀ x z : Int, 0 ≤ x → x < (w : Int) → 0 ≤ z → z < (nz : Int) →
    innerQuantity G o f x z = bndryValue G o.innerFlags x z
  outer : ∀ x z : Int, (w : Int) + nx ≤ x → x < 2 * (w : Int) + nx → 0 ≤ z → z < (nz : Int) →
    outerQuantity G o f x z = bndryValue G o.outerFlags x z

end

end Verif.LapPetsc
