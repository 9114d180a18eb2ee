import Verif.Num.SingleIndex
import Verif.Num.BracketProps
import Verif.Num.ParOps
import Mathlib.Tactic.FieldSimp
import Mathlib.Tactic.IntervalCases

/-!
C57: the single-index operators read the right points and compute what the field operators compute.
-/
namespace Verif.Num.SI

/-! ## Index arithmetic -/

/-- Position of the point `(x, y, z)` in the data of a `Field3D` (field3d.hxx `operator()`, C order). -/
def flat (ny nz x y z : Int) : Int := (x * ny + y) * nz + z

/-- An interior point of a local grid. -/
structure Pt (nx ny nz x y z : Int) : Prop where
  x0 : 1 ≤ x
  x1 : x + 1 < nx
  y0 : 1 ≤ y
  y1 : y + 1 < ny
  z0 : 0 ≤ z
  z1 : z < nz

theorem flat_nonneg {nx ny nz x y z : Int} (h : Pt nx ny nz x y z) : 0 ≤ x * ny + y := by
  have h1 := h.x0; have h2 := h.y0; have h3 := h.y1
  have : 0 ≤ x * ny := Int.mul_nonneg (by omega) (by omega)
  omega

theorem tdiv_mul_add {a nz z : Int} (ha : 0 ≤ a) (h0 : 0 ≤ z) (h1 : z < nz) : (a * nz + z).tdiv nz = a := by
  have hn : 0 ≤ a * nz + z := by
    have : 0 ≤ a * nz := Int.mul_nonneg ha (by omega)
    omega
  rw [Int.tdiv_eq_ediv_of_nonneg hn, Int.add_comm, Int.add_mul_ediv_right _ _ (by omega), Int.ediv_eq_zero_of_lt h0 h1, Int.zero_add]

theorem tmod_mul_add {a nz z : Int} (ha : 0 ≤ a) (h0 : 0 ≤ z) (h1 : z < nz) : (a * nz + z).tmod nz = z := by
  have hn : 0 ≤ a * nz + z := by
    have : 0 ≤ a * nz := Int.mul_nonneg ha (by omega)
    omega
  rw [Int.tmod_eq_emod_of_nonneg hn, Int.add_comm, Int.add_mul_emod_self_right, Int.emod_eq_of_lt h0 h1]

theorem zp_flat {nx ny nz x y z : Int} (h : Pt nx ny nz x y z) : i_zp (flat ny nz x y z) nz = flat ny nz x y (zNext nz z) := by
  unfold i_zp flat
  dsimp only
  rw [tmod_mul_add (flat_nonneg h) h.z0 h.z1, zNext_eq h.z0 h.z1]
  have := h.z0; have := h.z1
  by_cases c : z < nz - 1
  · rw [if_pos c, if_pos (by omega)]; omega
  · rw [if_neg c, if_neg (by omega)]; omega

theorem zm_flat {nx ny nz x y z : Int} (h : Pt nx ny nz x y z) : i_zm (flat ny nz x y z) nz = flat ny nz x y (zPrev nz z) := by
  unfold i_zm flat
  dsimp only
  rw [tmod_mul_add (flat_nonneg h) h.z0 h.z1, zPrev_eq h.z0 h.z1]
  have := h.z0; have := h.z1
  by_cases c : z > 0
  · rw [if_pos c, if_pos (by omega)]; omega
  · rw [if_neg c, if_neg (by omega)]; omega

theorem xp_flat (ny nz x y z : Int) : i_xp (flat ny nz x y z) ny nz = flat ny nz (x + 1) y z := by
  unfold i_xp flat; ring
theorem xm_flat (ny nz x y z : Int) : i_xm (flat ny nz x y z) ny nz = flat ny nz (x - 1) y z := by
  unfold i_xm flat; ring
theorem yp_flat (ny nz x y z : Int) : i_yp (flat ny nz x y z) nz = flat ny nz x (y + 1) z := by
  unfold i_yp flat; ring
theorem ym_flat (ny nz x y z : Int) : i_ym (flat ny nz x y z) nz = flat ny nz x (y - 1) z := by
  unfold i_ym flat; ring

/-- **C57.** At every interior point of every grid the index helpers move by exactly one point in the named direction, periodic
in z, and division by the number of z points gives the index of the `Field2D` point. -/
theorem C57_index (nx ny nz x y z : Int) (h : Pt nx ny nz x y z) :
    i_xp (flat ny nz x y z) ny nz = flat ny nz (x + 1) y z ∧
    i_xm (flat ny nz x y z) ny nz = flat ny nz (x - 1) y z ∧
    i_yp (flat ny nz x y z) nz = flat ny nz x (y + 1) z ∧
    i_ym (flat ny nz x y z) nz = flat ny nz x (y - 1) z ∧
    i_zp (flat ny nz x y z) nz = flat ny nz x y ((z + 1) % nz) ∧
    i_zm (flat ny nz x y z) nz = flat ny nz x y ((z - 1) % nz) ∧
    (flat ny nz x y z).tdiv nz = x * ny + y :=
  ⟨xp_flat .., xm_flat .., yp_flat .., ym_flat .., zp_flat h, zm_flat h, tdiv_mul_add (flat_nonneg h) h.z0 h.z1⟩

/-- **C57.** The helpers agree with the index objects of a `Region` (`Ind3D`): moving the integer inside an `Ind3D` is moving the
`Ind3D`. -/
theorem C57_index_objects (i ny nz : Int) (hi : 0 ≤ i) (hz : 2 ≤ nz) :
    i_xp i ny nz = (Verif.Region.Ind.xp ⟨i, ny, nz⟩ 1).ind ∧ i_xm i ny nz = (Verif.Region.Ind.xm ⟨i, ny, nz⟩ 1).ind ∧
    i_yp i nz = (Verif.Region.Ind.yp ⟨i, ny, nz⟩ 1).ind ∧ i_ym i nz = (Verif.Region.Ind.ym ⟨i, ny, nz⟩ 1).ind ∧
    i_zp i nz = (Verif.Region.Ind.zp ⟨i, ny, nz⟩ 1).ind ∧ i_zm i nz = (Verif.Region.Ind.zm ⟨i, ny, nz⟩ 1).ind := by
  refine ⟨?_, ?_, ?_, ?_, ?_, ?_⟩
  · simp only [i_xp, Verif.Region.Ind.xp]; ring
  · simp only [i_xm, Verif.Region.Ind.xm, Verif.Region.Ind.xp]; ring
  · simp only [i_yp, Verif.Region.Ind.yp]; ring
  · simp only [i_ym, Verif.Region.Ind.ym, Verif.Region.Ind.yp]; ring
  · unfold i_zp Verif.Region.Ind.zp
    dsimp only
    rw [if_pos (show (1 : Int) ≤ nz by omega), Int.tmod_eq_emod_of_nonneg hi,
      Int.tmod_eq_emod_of_nonneg (show 0 ≤ i + 1 by omega)]
    have e : (i + 1) % nz = if i % nz < nz - 1 then i % nz + 1 else 0 := by
      have h1 := Int.emod_nonneg i (show nz ≠ 0 by omega)
      have h2 := Int.emod_lt_of_pos i (show 0 < nz by omega)
      rw [← Int.emod_add_emod]
      by_cases c : i % nz < nz - 1
      · rw [if_pos c, Int.emod_eq_of_lt (by omega) (by omega)]
      · rw [if_neg c, show i % nz + 1 = nz by omega, Int.emod_self]
    rw [e]
    have h1 := Int.emod_nonneg i (show nz ≠ 0 by omega)
    by_cases c : i % nz < nz - 1
    · rw [if_pos c, if_pos c, if_neg (by omega)]
    · rw [if_neg c, if_neg c, if_pos (by omega)]; omega
  · unfold i_zm Verif.Region.Ind.zm
    dsimp only
    rw [if_pos (show (1 : Int) ≤ nz by omega), Int.tmod_eq_emod_of_nonneg hi]
    have h1 := Int.emod_nonneg i (show nz ≠ 0 by omega)
    by_cases c : i % nz > 0
    · rw [if_pos c, if_neg (by omega)]
    · rw [if_neg c, if_pos (by omega)]; omega

/-! ## Striped coordinates -/

theorem Off.toInt_range (o : Off) : 0 ≤ o.toInt ∧ o.toInt < 24 := by cases o <;> decide
theorem Off.toInt_inj : ∀ o o' : Off, o.toInt = o'.toInt → o = o' := by intro o o' h; cases o <;> cases o' <;> first | rfl | exact absurd h (by decide)
theorem Off.mem_all (o : Off) : o ∈ Off.all := by cases o <;> decide

/-- Positions of different points or symbols differ. -/
theorem stripe_inj {k k' : Int} {o o' : Off} (h : stripe_size * k + o.toInt = stripe_size * k' + o'.toInt) : k = k' ∧ o = o' := by
  have h1 := o.toInt_range; have h2 := o'.toInt_range
  unfold stripe_size at h
  have : k = k' := by omega
  exact ⟨this, Off.toInt_inj _ _ (by omega)⟩

theorem copyList_other (c : Coords) (ind : Int) (j : Int) (l : List Off) (hj : ∀ o ∈ l, j ≠ stripe_size * ind + o.toInt) :
    ∀ a : Int → ℝ, (l.foldl (fun a o => put a (stripe_size * ind + o.toInt) (c o ind)) a) j = a j := by
  induction l with
  | nil => intro a; rfl
  | cons o l ih =>
    intro a
    rw [List.foldl_cons, ih (fun o' ho' => hj o' (List.mem_cons_of_mem _ ho'))]
    exact if_neg (hj o List.mem_cons_self)

theorem copyList_here (c : Coords) (ind : Int) (o : Off) (l : List Off) (ho : o ∈ l) :
    ∀ a : Int → ℝ, (l.foldl (fun a o => put a (stripe_size * ind + o.toInt) (c o ind)) a) (stripe_size * ind + o.toInt) = c o ind := by
  induction l with
  | nil => cases ho
  | cons o' l ih =>
    intro a
    rw [List.foldl_cons]
    by_cases h : o ∈ l
    · exact ih h _
    · have e : o = o' := by
        rcases List.mem_cons.1 ho with e | e
        · exact e
        · exact absurd e h
      subst e
      rw [copyList_other]
      · exact if_pos rfl
      · intro o' ho' e
        have := (stripe_inj e).2
        subst this
        exact h ho'

theorem fillList (c : Coords) (k : Int) (o : Off) (l : List Int) (hk : k ∈ l) :
    ∀ a : Int → ℝ, (l.foldl (copyPoint c) a) (stripe_size * k + o.toInt) = c o k := by
  induction l with
  | nil => cases hk
  | cons k' l ih =>
    intro a
    rw [List.foldl_cons]
    by_cases h : k ∈ l
    · exact ih h _
    · have e : k = k' := by
        rcases List.mem_cons.1 hk with e | e
        · exact e
        · exact absurd e h
      subst e
      have out : ∀ (l : List Int), k ∉ l → ∀ b : Int → ℝ, (l.foldl (copyPoint c) b) (stripe_size * k + o.toInt) = b (stripe_size * k + o.toInt) := by
        intro l
        induction l with
        | nil => intro _ b; rfl
        | cons k' l ih =>
          intro h b
          rw [List.foldl_cons, ih (fun e => h (List.mem_cons_of_mem _ e))]
          unfold copyPoint
          refine copyList_other c k' _ _ ?_ b
          intro o' _ e
          exact h ((stripe_inj e).1 ▸ List.mem_cons_self)
      rw [out l h]
      exact copyList_here c k o _ (Off.mem_all o) a

/-- The striped array `d` holds the coordinates `c` on `n` points. -/
def Holds (d : Int → ℝ) (c : Coords) (n : Int) : Prop := ∀ o k, 0 ≤ k → k < n → d (stripe_size * k + o.toInt) = c o k

theorem fill_holds (c : Coords) (junk : Int → ℝ) (n : Nat) : Holds (fill c junk n) c n := by
  intro o k h0 h1
  refine fillList c k o _ ?_ junk
  exact List.mem_map.2 ⟨k.toNat, List.mem_range.2 (by omega), by omega⟩

/-- **C57.** The first accessor of a `Coordinates` object, and the first after `clear` (of that object, or of everything),
reads the current value of each metric component at each point, whatever the freshly allocated array held. -/
theorem C57_coords_current (s : Store) (addr : Nat) (c : Coords) (junk : Int → ℝ) (n : Nat) (which : Option Nat)
    (hw : which = none ∨ which = some addr) (x y z ny nz : Int) (hz : 0 ≤ z ∧ z < nz) (h0 : 0 ≤ x * ny + y) (h1 : x * ny + y < n) (o : Off) :
    lookup (access (clear s which).2 addr c junk n).1 nz (flat ny nz x y z) o = c o (x * ny + y) := by
  have hn : (clear s which).2.lookup addr = none := by
    rcases hw with rfl | rfl
    · rfl
    · unfold clear
      dsimp only
      induction s with
      | nil => rfl
      | cons p s ih =>
        rw [List.filter_cons]
        by_cases e : p.1 = addr
        · simp only [e, ne_eq, not_true_eq_false, decide_false, Bool.false_eq_true, if_false]
          exact ih
        · have : decide (p.1 ≠ addr) = true := by simpa using e
          rw [if_pos this]
          obtain ⟨a, d⟩ := p
          rw [List.lookup_cons]
          have : (addr == a) = false := by simpa using fun h => e h.symm
          rw [this]
          exact ih
  unfold access lookup flat
  rw [hn, tdiv_mul_add h0 hz.1 hz.2]
  exact fill_holds c junk n o _ h0 h1

/-- **C57.** Every later accessor of the object shares those values, and `clear` reports how many objects it dropped. -/
theorem C57_coords_shared (s : Store) (addr : Nat) (c c' : Coords) (junk junk' : Int → ℝ) (n n' : Nat) :
    (access (access s addr c junk n).2 addr c' junk' n').1 = (access s addr c junk n).1 ∧
    (clear s none) = (s.length, []) := by
  refine ⟨?_, rfl⟩
  cases h : s.lookup addr with
  | some d => simp only [access, h]
  | none => simp only [access, h, List.lookup_cons, beq_self_eq_true]

/-- Full statement, refuted: an accessor always reads the current coordinates.  Without `clear`, an accessor made after the metric
was changed (or for a new `Coordinates` object that the allocator placed at the address of a destroyed one) reads the old values. -/
theorem C57_coords_stale_violated : ∃ (s : Store) (addr : Nat) (c c' : Coords) (junk : Int → ℝ),
    lookup (access (access s addr c junk 1).2 addr c' junk 1).1 1 0 .dx ≠ c' .dx 0 := by
  refine ⟨[], 0, fun _ _ => 1, fun _ _ => 2, fun _ => 0, ?_⟩
  rw [(C57_coords_shared [] 0 (fun _ _ => 1) (fun _ _ => 2) (fun _ => 0) (fun _ => 0) 1 1).1]
  have := fill_holds (fun _ _ => 1) (fun _ => 0) 1 .dx 0 (by omega) (by decide)
  have e : lookup (access [] 0 (fun _ _ => 1) (fun _ => 0) 1).1 1 0 .dx = 1 := by
    simpa [lookup, access, List.lookup] using this
  rw [e]
  norm_num

/-! ## The field operators on the grid -/

/-- `f(x, y, z)` of a `Field3D` with data `a`. -/
def at3 (ny nz : Int) (a : Int → ℝ) : Grid := fun x y z => a (flat ny nz x y z)
/-- `f(x, y)` of a `Field2D` with data `a`. -/
def at2 (ny : Int) (a : Int → ℝ) : Int → Int → ℝ := fun x y => a (x * ny + y)

/-- `DDX(f)`: the C2 scheme of C30 divided by `dx`. -/
noncomputable def fDDX (dx : Int → Int → ℝ) (f : Grid) : Grid := fun x y z =>
  DDX_C2 (populate .none false 0 (fun x' => f x' y z) x) / dx x y
/-- `DDY(f)` reading the parallel slices: `yup` one point up, `ydown` one point down. -/
noncomputable def fDDY (dy : Int → Int → ℝ) (up dn : Grid) : Grid := fun x y z =>
  DDX_C2 (⟨0, dn x (y - 1) z, 0, up x (y + 1) z, 0⟩ : Stencil ℝ) / dy x y
/-- `DDZ(f)`: periodic. -/
noncomputable def fDDZ (dz : Int → Int → ℝ) (nz : Int) (f : Grid) : Grid := fun x y z =>
  DDX_C2 (⟨0, f x y ((z - 1) % nz), f x y z, f x y ((z + 1) % nz), 0⟩ : Stencil ℝ) / dz x y
/-- `D2DX2(f)` on a mesh with `non_uniform` set. -/
noncomputable def fD2DX2 (dx d1_dx : Int → Int → ℝ) (f : Grid) : Grid := fun x y z =>
  D2DX2_C2 (populate .none false 0 (fun x' => f x' y z) x) / (dx x y * dx x y) + d1_dx x y * fDDX dx f x y z
/-- `D2DY2(f)` on a mesh with `non_uniform` set. -/
noncomputable def fD2DY2 (dy d1_dy : Int → Int → ℝ) (f up dn : Grid) : Grid := fun x y z =>
  D2DX2_C2 (⟨0, dn x (y - 1) z, f x y z, up x (y + 1) z, 0⟩ : Stencil ℝ) / (dy x y * dy x y) + d1_dy x y * fDDY dy up dn x y z
/-- `D2DZ2(f)`. -/
noncomputable def fD2DZ2 (dz : Int → Int → ℝ) (nz : Int) (f : Grid) : Grid := fun x y z =>
  D2DX2_C2 (⟨0, f x y ((z - 1) % nz), f x y z, f x y ((z + 1) % nz), 0⟩ : Stencil ℝ) / (dz x y * dz x y)

/-- A `Field2D` as a field constant in z. -/
def lift (f : Int → Int → ℝ) : Grid := fun x y _ => f x y

end Verif.Num.SI
