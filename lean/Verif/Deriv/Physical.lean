import Verif.Deriv.Calls
import Mathlib.Analysis.Calculus.Deriv.Comp
import Mathlib.Analysis.Calculus.Deriv.Inv
import Mathlib.Tactic.FieldSimp

/-!
# C65: physical and mixed derivatives

Model of `src/sys/derivs.cxx` L60-378 (`DDX` ... `D4DZ4`, `D2DXDY`, `D2DXDZ`, `D2DYDZ`) and of
`Coordinates::DDX/DDY/DDZ` (`src/mesh/coordinates.cxx` L1472-1525): the division by the grid spacing, the correction
for non-uniform grids, and the choice of the intermediate location.

Simplifications: the values are those at one point; the index-space derivatives are arguments (what they are is the rest
of C65); the communication and the boundary condition between the two steps of a mixed derivative are left out.
-/
namespace Verif.Deriv
open Verif.Str Verif.Num

section Values
variable {K : Type} [Field K]

/-- derivs.cxx:153-168 `D2DX2` (and 190-205 `D2DY2`) at a point: `i2` and `i1` are the second and (with the method
"DEFAULT") first index-space derivative. -/
def D2phys (nonUniform : Bool) (i2 i1 d dd : K) : K :=
  let result := i2 / (d * d)
  if nonUniform then result + dd * i1 / d else result

/-- derivs.cxx:242-246 `D4DX4` (and 254-258 `D4DY4`). -/
def D4phys (i4 d : K) : K := i4 / ((d * d) * (d * d))

/-- coordinates.cxx:1478-1490 `Coordinates::DDX(Field3D)`: `ddz` is the physical Z derivative. -/
def DDXphys (incIntShear : Bool) (i1 d torsion ddz : K) : K :=
  let result := i1 / d
  if incIntShear then result + torsion * ddz else result

/-- coordinates.cxx:1499-1510 `Coordinates::DDY(Field3D)`, built with `BOUT_USE_METRIC_3D` if `metric3D`. -/
def coordDDY (metric3D hasSlices canAlign : Bool) (i1 d : K) : K :=
  if metric3D && !hasSlices && !canAlign then i1 else i1 / d

end Values

/-- **C65.** The second derivative on a non-uniform grid is the second derivative in `x`, not in the index: for the grid
positions `x i` with spacing `dx = x'`, the correction `d1_dx = (1/dx)'` and a field `g (x i)`, exact index-space
derivatives give `g''`. -/
theorem C65_nonuniform_second (x x' x'' g g' g'' : ℝ → ℝ) (i : ℝ) (hx : ∀ i, HasDerivAt x (x' i) i)
    (hx' : HasDerivAt x' (x'' i) i) (hne : x' i ≠ 0) (hg : ∀ u, HasDerivAt g (g' u) u)
    (hg' : HasDerivAt g' (g'' (x i)) (x i)) :
    D2phys true (deriv (deriv (fun j => g (x j))) i) (deriv (fun j => g (x j)) i) (x' i)
      (deriv (fun j => 1 / x' j) i) = g'' (x i) := by
  have h1 : ∀ j, HasDerivAt (fun j => g (x j)) (g' (x j) * x' j) j := fun j => (hg (x j)).comp j (hx j)
  have h1' : deriv (fun j => g (x j)) = fun j => g' (x j) * x' j := funext fun j => (h1 j).deriv
  have h2 : HasDerivAt (fun j => g' (x j) * x' j) (g'' (x i) * x' i * x' i + g' (x i) * x'' i) i :=
    (hg'.comp i (hx i)).mul hx'
  have h3 : HasDerivAt (fun j => 1 / x' j) (-x'' i / x' i ^ 2) i := by
    have h := hx'.fun_inv hne
    simpa only [one_div] using h
  rw [h1', h2.deriv, h3.deriv]
  simp only [D2phys, if_true]
  field_simp
  ring

/-- coordinates.cxx:1094-1109 (and 1148-1161): the correction `d1_dx`.  `D` is the index-space first derivative and
`given` the variable `d2x` of the grid source, if it has one.  The exchange of guard cells and the extrapolation into the
boundaries are not modelled. -/
noncomputable def d1x (D : (ℝ → ℝ) → ℝ → ℝ) (given : Option (ℝ → ℝ)) (dx : ℝ → ℝ) : ℝ → ℝ :=
  match given with
  | none => D (fun j => 1 / dx j)
  | some d2x => fun i => -d2x i / (dx i * dx i)

/-- coordinates.cxx:1111-1126 (and 1163-1176): the correction `d1_dy`.  The derivative taken if `d2y` is not given is the
class's own `DDY`, coordinates.cxx:1492-1497, which divides by `dy`. -/
noncomputable def d1y (D : (ℝ → ℝ) → ℝ → ℝ) (given : Option (ℝ → ℝ)) (dy : ℝ → ℝ) : ℝ → ℝ :=
  match given with
  | none => fun i => D (fun j => 1 / dy j) i / dy i
  | some d2y => fun i => -d2y i / (dy i * dy i)

/-- derivs.cxx:227-231 `D2DZ2`. -/
def D2Zphys {K : Type} [Field K] (i2 d : K) : K := i2 / (d * d)

/-- **C65.** The correction the grid object works out is that one, for X whether the grid file has `d2x` (the second
derivative of the position) or not, and for Y if the grid file has `d2y`. -/
theorem C65_spacing_correction (x x' x'' g g' g'' : ℝ → ℝ) (i : ℝ) (hx : ∀ i, HasDerivAt x (x' i) i)
    (hx' : HasDerivAt x' (x'' i) i) (hne : x' i ≠ 0) (hg : ∀ u, HasDerivAt g (g' u) u)
    (hg' : HasDerivAt g' (g'' (x i)) (x i)) :
    (∀ given, (given = none ∨ given = some x'') →
      D2phys true (deriv (deriv (fun j => g (x j))) i) (deriv (fun j => g (x j)) i) (x' i) (d1x deriv given x' i) =
        g'' (x i)) ∧
    D2phys true (deriv (deriv (fun j => g (x j))) i) (deriv (fun j => g (x j)) i) (x' i) (d1y deriv (some x'') x' i) =
      g'' (x i) := by
  have h0 := C65_nonuniform_second x x' x'' g g' g'' i hx hx' hne hg hg'
  have h3 : HasDerivAt (fun j => 1 / x' j) (-x'' i / x' i ^ 2) i := by
    have h := hx'.fun_inv hne
    simpa only [one_div] using h
  have h4 : -x'' i / (x' i * x' i) = deriv (fun j => 1 / x' j) i := by rw [h3.deriv, pow_two]
  refine ⟨?_, ?_⟩
  · rintro given (rfl | rfl)
    · exact h0
    · show D2phys true _ _ _ (-x'' i / (x' i * x' i)) = _
      rw [h4]; exact h0
  · show D2phys true _ _ _ (-x'' i / (x' i * x' i)) = _
    rw [h4]; exact h0

/-- **C65, violated.** For Y, if the grid file has no `d2y`, the correction is divided by the spacing once too often: on the
grid `y i = (i + 1)²` the field `y` (whose second derivative is zero) gets a second derivative that is not zero,
wherever the spacing is not one. -/
theorem C65_d1_dy_violated (i : ℝ) (hi : 0 ≤ i) :
    D2phys true (deriv (deriv (fun j : ℝ => (j + 1) ^ 2)) i) (deriv (fun j : ℝ => (j + 1) ^ 2) i) (2 * (i + 1))
      (d1y deriv none (fun j => 2 * (j + 1)) i) = (1 - 1 / (2 * (i + 1))) * (2 / (2 * (i + 1)) ^ 2) ∧
    (1 - 1 / (2 * (i + 1))) * (2 / (2 * (i + 1)) ^ 2) ≠ 0 := by
  have e1 : deriv (fun j : ℝ => (j + 1) ^ 2) = fun j => 2 * (j + 1) := by
    funext j
    have h0 : HasDerivAt (fun j : ℝ => j + 1) 1 j := (hasDerivAt_id j).add_const (1 : ℝ)
    have h := h0.fun_mul h0
    have e : (fun j : ℝ => (j + 1) ^ 2) = fun j => (j + 1) * (j + 1) := funext fun _ => pow_two _
    rw [e, h.deriv]
    ring
  have h2 : ∀ j : ℝ, HasDerivAt (fun j : ℝ => 2 * (j + 1)) 2 j := fun j => by
    have h0 : HasDerivAt (fun j : ℝ => j + 1) 1 j := (hasDerivAt_id j).add_const (1 : ℝ)
    have h := h0.const_mul 2
    simpa using h
  have hp : (0 : ℝ) < 2 * (i + 1) := by linarith
  have h3 : deriv (fun j : ℝ => 1 / (2 * (j + 1))) i = -2 / (2 * (i + 1)) ^ 2 := by
    have h := (h2 i).fun_inv hp.ne'
    have h' : HasDerivAt (fun j : ℝ => 1 / (2 * (j + 1))) (-2 / (2 * (i + 1)) ^ 2) i := by
      simpa only [one_div] using h
    exact h'.deriv
  constructor
  · unfold d1y
    dsimp only
    rw [e1, (h2 i).deriv, h3]
    simp only [D2phys, if_true]
    field_simp
    ring
  · have h5 : (1 : ℝ) - 1 / (2 * (i + 1)) ≠ 0 := by
      rw [sub_ne_zero]
      intro h
      rw [eq_div_iff hp.ne'] at h
      linarith
    exact mul_ne_zero h5 (by positivity)

/-- **C65, violated.** The second derivative in Z is never corrected, although the spacing in Z may vary with
three-dimensional metrics (and the correction `d1_dz` is worked out): on the grid `z k = (k + 1)²` the field `z` gets a
second derivative that is not zero. -/
theorem C65_d2dz2_violated (k : ℝ) (hk : 0 ≤ k) :
    D2Zphys (deriv (deriv (fun j : ℝ => (j + 1) ^ 2)) k) (2 * (k + 1)) = 2 / (2 * (k + 1)) ^ 2 ∧
      2 / (2 * (k + 1)) ^ 2 ≠ 0 := by
  have e1 : deriv (fun j : ℝ => (j + 1) ^ 2) = fun j => 2 * (j + 1) := by
    funext j
    have h0 : HasDerivAt (fun j : ℝ => j + 1) 1 j := (hasDerivAt_id j).add_const (1 : ℝ)
    have h := h0.fun_mul h0
    have e : (fun j : ℝ => (j + 1) ^ 2) = fun j => (j + 1) * (j + 1) := funext fun _ => pow_two _
    rw [e, h.deriv]
    ring
  have h2 : ∀ j : ℝ, HasDerivAt (fun j : ℝ => 2 * (j + 1)) 2 j := fun j => by
    have h0 : HasDerivAt (fun j : ℝ => j + 1) 1 j := (hasDerivAt_id j).add_const (1 : ℝ)
    have h := h0.const_mul 2
    simpa using h
  have hp : (0 : ℝ) < 2 * (k + 1) := by linarith
  refine ⟨?_, by positivity⟩
  rw [e1, (h2 k).deriv]
  simp only [D2Zphys, pow_two]

/-- **C65, violated.** The fourth derivative has no such correction.  On the grid `x i = i²` the field `x²` (whose fourth
derivative is zero) gets a value that is not zero, at every point but the first, with the `C2` stencil, which is exact
here. -/
theorem C65_nonuniform_fourth_violated (nan : ℚ) (i : ℤ) (hi : i ≠ 0) :
    D4phys (standard D4DX4_C2 .none true nan (fun j => ((j : ℚ) ^ 2) ^ 2) i) (2 * (i : ℚ)) = 3 / (2 * (i : ℚ) ^ 4) ∧
    (3 : ℚ) / (2 * (i : ℚ) ^ 4) ≠ 0 := by
  have hi' : (i : ℚ) ≠ 0 := by exact_mod_cast hi
  constructor
  · simp only [D4phys, standard, populate, D4DX4_C2, if_true]
    push_cast
    field_simp
    ring
  · positivity

/-- **C65.** With the sheared coordinates of BOUT-06 the X derivative is the one along the other coordinate system:
`∂/∂x + I ∂/∂z`. -/
theorem C65_ddx_shear {K : Type} [Field K] (i1 d torsion ddz : K) :
    DDXphys true i1 d torsion ddz = i1 / d + torsion * ddz ∧ DDXphys false i1 d torsion ddz = i1 / d := ⟨rfl, rfl⟩

/-- **C65, violated.** With three-dimensional metrics, `Coordinates::DDY` of a field without parallel slices, on a grid
that cannot be field-aligned, is not divided by the grid spacing. -/
theorem C65_ddy_metric3d_violated {K : Type} [Field K] (i1 d : K) (hd : d ≠ 0) (hd1 : d ≠ 1) (hi : i1 ≠ 0) :
    coordDDY true false false i1 d ≠ i1 / d ∧ coordDDY true true false i1 d = i1 / d ∧
      coordDDY true false true i1 d = i1 / d ∧ coordDDY false false false i1 d = i1 / d := by
  refine ⟨fun h => ?_, rfl, rfl, rfl⟩
  have h : i1 = i1 / d := h
  rw [eq_div_iff hd] at h
  have := mul_left_cancel₀ hi (h.trans (mul_one i1).symm)
  exact hd1 this

/-! ## Locations of mixed derivatives -/

/-- The location of a derivative's result, or none if the call throws: `Mesh::getStagger` and `setLocation` on a
staggered grid (see `stagger3`). -/
def derivLoc (d : Dir) (inl : Loc) (outloc : Option Loc) : Option Loc :=
  let out := outloc.getD inl
  if out = inl ∨ (out = .centre ∧ inl = d.low) ∨ (out = d.low ∧ inl = .centre) then some out else none

/-- derivs.cxx:289-331, 348-357, 372-379: the first derivative is in direction `d1`, the second in `d2`; the intermediate
location is the field's own if either end is staggered in the direction taken last. -/
def mixedLoc (d1 d2 : Dir) (inl : Loc) (outloc : Option Loc) : Option Loc :=
  let mid := if outloc = some d2.low ∨ inl = d2.low then none else outloc
  (derivLoc d1 inl mid).bind (fun l => derivLoc d2 l outloc)

/-- The three mixed derivatives, as (direction taken first, direction taken last). -/
def mixedPairs : List (Dir × Dir) := [(.y, .x), (.x, .z), (.y, .z)]

/-- **C65.** Mixed derivatives can be asked for at every location that one of the two directions can reach: the call goes
through exactly if the output location is the field's own, or one of the two is the cell centre and the other is
staggered in one of the two directions; and then the result is at the location asked for. -/
theorem C65_mixed_locations (p : Dir × Dir) (hp : p ∈ mixedPairs) (inl : Loc) (outloc : Option Loc) (l : Loc) :
    mixedLoc p.1 p.2 inl outloc = some l ↔ l = outloc.getD inl ∧
      (l = inl ∨ (l = .centre ∧ (inl = p.1.low ∨ inl = p.2.low)) ∨ ((l = p.1.low ∨ l = p.2.low) ∧ inl = .centre)) := by
  simp only [mixedPairs, List.mem_cons, List.not_mem_nil, or_false] at hp
  rcases hp with rfl | rfl | rfl <;> rcases outloc with _ | o <;> cases inl <;> (try cases o) <;> cases l <;>
    decide

/-- derivs.cxx:92-98 `DDZ(Field2D)`: zero, at the location of the field; the output location asked for is not looked
at. -/
def ddz2D (inl : Loc) (_outloc : Option Loc) : Loc := inl

/-- **C65, violated.** The Z derivative of a `Field2D` asked for at another location is not at that location, though the
same call on a `Field3D` is. -/
theorem C65_ddz2d_location_violated (inl l : Loc) (hne : l ≠ inl)
    (h : derivLoc .z inl (some l) = some l) : ddz2D inl (some l) ≠ l ∧ derivLoc .z inl (some l) = some l :=
  ⟨fun h' => hne h'.symm, h⟩

/-- The hypothesis can be met. -/
example : derivLoc .z .centre (some .zlow) = some .zlow := by decide

end Verif.Deriv
