import Mathlib.Algebra.Field.Basic
import Mathlib.Data.Rat.Defs
import Mathlib.Tactic.Ring

/-!
# Boundary modifiers and their application

Model of `BoundaryRelax`, `BoundaryWidth`, `BoundaryToFieldAligned`, `BoundaryFromFieldAligned` (`src/mesh/boundary_standard.cxx` L3579-3768), of
`applyBoundary`, `applyTDerivBoundary` (`src/field/field3d.cxx` L349-445, `field2d.cxx` L198-300) and of the calls in `Solver::pre_rhs`, `post_rhs`
(`src/solver/solver.cxx` L1460-1517), for one boundary region.  The region is shared by all operations on it; its `width` is part of the state.
-/

namespace Verif.Bndry.Mod

variable {K : Type} [Field K] {I : Type}

/-- Values of a field at its points. -/
abbrev Fld (K I : Type) := I → K

/-- What the environment provides: the points of the region by width; the shifts to and from field-aligned coordinates (the identity on a
`Field2D`); whether the field is a `Field3D`. -/
structure Env (K I : Type) where
  cells : Int → I → Bool
  toAligned : Fld K I → Fld K I
  fromAligned : Fld K I → Fld K I
  is3D : Bool

/-- A boundary operation.  `basic`: any operation that is not a modifier, as a function of the width, the time and the field, with its `apply_ddt`
(of width and time derivative; `Dirichlet`: set to zero) and its flag `apply_to_ddt`. -/
inductive Op (K I : Type) where
  | basic (a : Int → K → Fld K I → Fld K I) (ddt : Int → Fld K I → Fld K I) (toDdt : Bool)
  | relax (op : Op K I) (r : K)
  | width (op : Op K I) (w : Int)
  | toAligned (op : Op K I)
  | fromAligned (op : Op K I)

/-- `apply_to_ddt` (boundary_standard.hxx:434-437; boundary_op.hxx:46-53): a modifier does not take it over from its operation. -/
def Op.applyToDdt : Op K I → Bool
  | .basic _ _ b => b
  | .relax _ _ => true
  | _ => false

/-- `apply(f, t)`: the width of the region and the field afterwards.  boundary_standard.cxx:3593-3601 (relax: the time is passed on for a `Field2D`
only; `apply(f)` is `apply(f, 0)`), 3655-3668 (width), 3697-3714 and 3740-3757 (aligned; a `Field2D` is not transformed). -/
def Op.apply (e : Env K I) : Op K I → K → Int × Fld K I → Int × Fld K I
  | .basic a _ _, t, s => (s.1, a s.1 t s.2)
  | .relax op _, t, s => op.apply e (if e.is3D then 0 else t) s
  | .width op w, t, s => (s.1, (op.apply e t (w, s.2)).2)
  | .toAligned op, t, s =>
    if e.is3D then
      let r := op.apply e t (s.1, e.fromAligned s.2)
      (r.1, e.toAligned r.2)
    else op.apply e t s
  | .fromAligned op, t, s =>
    if e.is3D then
      let r := op.apply e t (s.1, e.toAligned s.2)
      (r.1, e.fromAligned r.2)
    else op.apply e t s

/-- `apply_ddt(f)`: width, field and time derivative afterwards.  boundary_standard.cxx:3603-3636 (relax: on a copy of the field, at time 0),
3670-3682 (width), 3716-3725 and 3759-3768 (aligned: field and derivative are transformed, the derivative is transformed back). -/
def Op.applyDdt (e : Env K I) : Op K I → Int × Fld K I × Fld K I → Int × Fld K I × Fld K I
  | .basic _ d _, s => (s.1, s.2.1, d s.1 s.2.2)
  | .relax op r, s =>
    let g := op.apply e 0 (s.1, s.2.1)
    (g.1, s.2.1, fun i => if e.cells g.1 i then r * (g.2 i - s.2.1 i) else s.2.2 i)
  | .width op w, s => (s.1, (op.applyDdt e (w, s.2.1, s.2.2)).2)
  | .toAligned op, s =>
    if e.is3D then
      let r := op.applyDdt e (s.1, e.fromAligned s.2.1, e.fromAligned s.2.2)
      (r.1, r.2.1, e.toAligned r.2.2)
    else op.applyDdt e s
  | .fromAligned op, s =>
    if e.is3D then
      let r := op.applyDdt e (s.1, e.toAligned s.2.1, e.toAligned s.2.2)
      (r.1, r.2.1, e.fromAligned r.2.2)
    else op.applyDdt e s

/-- field3d.cxx:349-370 `applyBoundary(bool init)`. -/
def applyInit (e : Env K I) (init : Bool) (ops : List (Op K I)) (s : Int × Fld K I) : Int × Fld K I :=
  ops.foldl (fun s op => if op.applyToDdt = false ∨ init = true then op.apply e 0 s else s) s

/-- field3d.cxx:372-387 `applyBoundary(BoutReal t)`. -/
def applyTime (e : Env K I) (t : K) (ops : List (Op K I)) (s : Int × Fld K I) : Int × Fld K I :=
  ops.foldl (fun s op => op.apply e t s) s

/-- field3d.cxx:433-443 `applyTDerivBoundary`. -/
def applyTDeriv (e : Env K I) (ops : List (Op K I)) (s : Int × Fld K I × Fld K I) : Int × Fld K I × Fld K I :=
  ops.foldl (fun s op => op.applyDdt e s) s

/-- solver.cxx:1460-1517: what a right-hand side evaluation does with an evolving variable: `pre_rhs`, the user's `rhs`, and (with `evolve_bndry`)
`post_rhs`.  The field and the time derivative afterwards. -/
def rhsCall (e : Env K I) (t : K) (evolveBndry : Bool) (user : Fld K I → Fld K I) (ops : List (Op K I)) (s : Int × Fld K I) :
    Int × Fld K I × Fld K I :=
  let s1 := applyTime e t ops s
  let s2 := (s1.1, s1.2, user s1.2)
  if evolveBndry then applyTDeriv e ops s2 else s2

/-! ## Theorems -/

/-- The meaning of a tree of modifiers on the values of a field at time `t`: the operation, in the coordinates and on the width of the modifiers
around it. -/
def Op.value (e : Env K I) (t : K) : Op K I → Int → Fld K I → Fld K I
  | .basic a _ _, w, f => a w t f
  | .relax op _, w, f => op.value e t w f
  | .width op w, _, f => op.value e t w f
  | .toAligned op, w, f => if e.is3D then e.toAligned (op.value e t w (e.fromAligned f)) else op.value e t w f
  | .fromAligned op, w, f => if e.is3D then e.fromAligned (op.value e t w (e.toAligned f)) else op.value e t w f

/-- **C63.** Whatever modifiers are combined, the width of the region is the same afterwards: conditions of other variables on the same region are
not disturbed. -/
theorem C63_width_restored (e : Env K I) (op : Op K I) : (∀ t s, (op.apply e t s).1 = s.1) ∧ ∀ s, (op.applyDdt e s).1 = s.1 := by
  induction op with
  | basic a d b => exact ⟨fun _ _ => rfl, fun _ => rfl⟩
  | relax op r ih => exact ⟨fun t s => ih.1 _ s, fun s => ih.1 _ _⟩
  | width op w ih => exact ⟨fun _ _ => rfl, fun _ => rfl⟩
  | toAligned op ih =>
    refine ⟨fun t s => ?_, fun s => ?_⟩
    · rw [Op.apply]; split
      · exact ih.1 _ _
      · exact ih.1 _ _
    · rw [Op.applyDdt]; split
      · exact ih.2 _
      · exact ih.2 _
  | fromAligned op ih =>
    refine ⟨fun t s => ?_, fun s => ?_⟩
    · rw [Op.apply]; split
      · exact ih.1 _ _
      · exact ih.1 _ _
    · rw [Op.applyDdt]; split
      · exact ih.2 _
      · exact ih.2 _

/-- No `relax` in the tree. -/
def Op.plain : Op K I → Prop
  | .basic _ _ _ => True
  | .relax _ _ => False
  | .width op _ => op.plain
  | .toAligned op => op.plain
  | .fromAligned op => op.plain

/-- **C63 (partial: not for `relax` on a `Field3D` at a time other than 0).** Modifiers impose the condition they modify, at the time asked for, in
the coordinates and on the width they name. -/
theorem C63_apply_partial (e : Env K I) (t : K) (op : Op K I) (h : op.plain ∨ e.is3D = false ∨ t = 0) (s : Int × Fld K I) :
    op.apply e t s = (s.1, op.value e t s.1 s.2) := by
  induction op generalizing s with
  | basic a d b => rfl
  | relax op r ih =>
    rw [Op.apply, Op.value]
    have e1 : (if e.is3D = true then (0 : K) else t) = t := by
      rcases h with h | h | h
      · exact h.elim
      · rw [h]; rfl
      · rw [h]; simp
    rw [e1]
    exact ih (.inr (h.resolve_left (by simp [Op.plain]))) s
  | width op w ih => rw [Op.apply, Op.value, ih h]
  | toAligned op ih =>
    rw [Op.apply, Op.value]
    split
    · rw [ih h]
    · rw [ih h]
  | fromAligned op ih =>
    rw [Op.apply, Op.value]
    split
    · rw [ih h]
    · rw [ih h]

/-- **C63.** In every case the condition imposed is that of time 0 or of the time asked for. -/
theorem C63_apply_time (e : Env K I) (t : K) (op : Op K I) (ht : op.plain ∨ e.is3D = false) (s : Int × Fld K I) :
    op.apply e t s = (s.1, op.value e t s.1 s.2) := C63_apply_partial e t op (by tauto) s

/-- **C63.** The field outside the cells an aligned condition changes is as before, when the two shifts are inverse to each other. -/
theorem C63_aligned_unchanged (e : Env K I) (hto : ∀ f, e.toAligned (e.fromAligned f) = f) (hfrom : ∀ f, e.fromAligned (e.toAligned f) = f)
    (a : Int → K → Fld K I → Fld K I) (d : Int → Fld K I → Fld K I) (b : Bool) (t : K) (s : Int × Fld K I) :
    (e.is3D = true → e.toAligned ((Op.fromAligned (.basic a d b)).apply e t s).2 = a s.1 t (e.toAligned s.2)) ∧
    (e.is3D = true → e.fromAligned ((Op.toAligned (.basic a d b)).apply e t s).2 = a s.1 t (e.fromAligned s.2)) := by
  constructor
  · intro h3
    rw [Op.apply, if_pos h3]
    exact hto _
  · intro h3
    rw [Op.apply, if_pos h3]
    exact hfrom _

/-- **C63.** `relax`: on the cells of the region the derivative drives the field towards the condition with the given rate; elsewhere the derivative,
and everywhere the field, is as before. -/
theorem C63_relax_ddt (e : Env K I) (op : Op K I) (r : K) (w : Int) (f d : Fld K I) :
    let s := (Op.relax op r).applyDdt e (w, f, d)
    s.1 = w ∧ s.2.1 = f ∧ (∀ i, e.cells w i = true → s.2.2 i = r * (op.value e 0 w f i - f i)) ∧ ∀ i, e.cells w i = false → s.2.2 i = d i := by
  have h := C63_apply_partial e 0 op (.inr (.inr rfl)) (w, f)
  simp only [Op.applyDdt, h]
  refine ⟨trivial, trivial, ?_, ?_⟩
  · intro i hi; simp [hi]
  · intro i hi; simp [hi]

/-- **C63.** `width(relax(c, r), w)` relaxes on the width `w`, as documented. -/
theorem C63_width_relax (e : Env K I) (op : Op K I) (r : K) (w w0 : Int) (f d : Fld K I) :
    let s := (Op.width (.relax op r) w).applyDdt e (w0, f, d)
    s.1 = w0 ∧ s.2.1 = f ∧ (∀ i, e.cells w i = true → s.2.2 i = r * (op.value e 0 w f i - f i)) ∧ ∀ i, e.cells w i = false → s.2.2 i = d i := by
  have h := C63_relax_ddt e op r w f d
  dsimp only at h ⊢
  rw [Op.applyDdt]
  exact ⟨rfl, h.2.1, h.2.2.1, h.2.2.2⟩

/-- **C63.** Conditions on one region are applied one after the other, all on the original width. -/
theorem C63_sequence (e : Env K I) (t : K) (ops : List (Op K I)) (h : ∀ op ∈ ops, op.plain ∨ e.is3D = false ∨ t = 0) (w : Int) (f : Fld K I) :
    applyTime e t ops (w, f) = (w, ops.foldl (fun f op => op.value e t w f) f) := by
  induction ops generalizing f with
  | nil => rfl
  | cons op ops ih =>
    have e1 := C63_apply_partial e t op (h op (by simp)) (w, f)
    have e2 := ih (fun x hx => h x (by simp [hx])) (op.value e t w f)
    rw [applyTime, List.foldl_cons, e1, List.foldl_cons]
    exact e2

/-- **C63.** Initially every condition is imposed, at time 0; later `applyBoundary()` leaves out exactly those meant for the time
derivative. -/
theorem C63_initial (e : Env K I) (ops : List (Op K I)) (s : Int × Fld K I) :
    applyInit e true ops s = applyTime e 0 ops s ∧
    applyInit e false ops s = applyTime e 0 (ops.filter fun op => !op.applyToDdt) s := by
  induction ops generalizing s with
  | nil => exact ⟨rfl, rfl⟩
  | cons op ops ih =>
    constructor
    · have := (ih (op.apply e 0 s)).1
      unfold applyInit applyTime at this ⊢
      rw [List.foldl_cons, List.foldl_cons, if_pos (Or.inr rfl)]
      exact this
    · by_cases h : op.applyToDdt = false
      · have := (ih (op.apply e 0 s)).2
        unfold applyInit applyTime at this ⊢
        rw [List.foldl_cons, if_pos (Or.inl h), List.filter_cons_of_pos (by simp [h]), List.foldl_cons]
        exact this
      · have := (ih s).2
        unfold applyInit applyTime at this ⊢
        rw [List.foldl_cons, if_neg (by simp [h]), List.filter_cons_of_neg (by simpa using h)]
        exact this

/-- **C63.** An aligned `relax` drives the field in the other coordinates: the time derivative, taken there, is that of `relax` for the field
there; the derivative itself is handed back in the coordinates it came in. -/
theorem C63_aligned_relax (e : Env K I) (op : Op K I) (r : K) (h3 : e.is3D = true) (hi : ∀ g, e.toAligned (e.fromAligned g) = g)
    (hi' : ∀ g, e.fromAligned (e.toAligned g) = g) (w : Int) (f d : Fld K I) :
    (let D := e.toAligned ((Op.fromAligned (.relax op r)).applyDdt e (w, f, d)).2.2
     (∀ i, e.cells w i = true → D i = r * (op.value e 0 w (e.toAligned f) i - e.toAligned f i)) ∧
      ∀ i, e.cells w i = false → D i = e.toAligned d i) ∧
    let D := e.fromAligned ((Op.toAligned (.relax op r)).applyDdt e (w, f, d)).2.2
    (∀ i, e.cells w i = true → D i = r * (op.value e 0 w (e.fromAligned f) i - e.fromAligned f i)) ∧
      ∀ i, e.cells w i = false → D i = e.fromAligned d i := by
  constructor
  · have h := C63_relax_ddt e op r w (e.toAligned f) (e.toAligned d)
    have hd : e.toAligned ((Op.fromAligned (.relax op r)).applyDdt e (w, f, d)).2.2 =
        ((Op.relax op r).applyDdt e (w, e.toAligned f, e.toAligned d)).2.2 := by
      generalize Op.relax op r = o
      rw [Op.applyDdt, if_pos h3]
      exact hi _
    dsimp only at h ⊢
    rw [hd]
    exact h.2.2
  · have h := C63_relax_ddt e op r w (e.fromAligned f) (e.fromAligned d)
    have hd : e.fromAligned ((Op.toAligned (.relax op r)).applyDdt e (w, f, d)).2.2 =
        ((Op.relax op r).applyDdt e (w, e.fromAligned f, e.fromAligned d)).2.2 := by
      generalize Op.relax op r = o
      rw [Op.applyDdt, if_pos h3]
      exact hi' _
    dsimp only at h ⊢
    rw [hd]
    exact h.2.2

/-! ## Findings -/

/-- Finding: `relax` never relaxes.  `pre_rhs` calls `applyBoundary(t)`, which imposes every condition on the values, also those meant for the time
derivative; then the derivative `relax` computes is zero on the boundary for every condition that is not changed by applying it again, whatever the
rate. -/
theorem C63_relax_imposed_violated (e : Env K I) (op : Op K I) (r t : K) (w : Int) (f : Fld K I) (user : Fld K I → Fld K I)
    (h : t = 0) (idem : ∀ g, op.value e 0 w (op.value e 0 w g) = op.value e 0 w g) :
    let s := rhsCall e t true user [.relax op r] (w, f)
    s.2.1 = op.value e t w f ∧ ∀ i, e.cells w i = true → s.2.2 i = 0 := by
  subst h
  have h1 := C63_apply_partial e 0 (.relax op r) (.inr (.inr rfl)) (w, f)
  have h2 := C63_relax_ddt e op r w (op.value e 0 w f) (user (op.value e 0 w f))
  simp only [Op.value] at h1
  simp only [rhsCall, applyTime, applyTDeriv, List.foldl_cons, List.foldl_nil, h1, if_true]
  dsimp only at h2
  refine ⟨h2.2.1, fun i hi => ?_⟩
  rw [h2.2.2.1 i hi, idem]
  ring

/-- A field of two points, the first the boundary; the condition "value `t` at the boundary". -/
def ex : Env ℚ Bool where
  cells := fun _ i => !i
  toAligned := fun f i => f i + 1
  fromAligned := fun f i => f i - 1
  is3D := true

def valueT : Op ℚ Bool := .basic (fun _ t f i => if i then f i else t) (fun _ d i => if i then d i else 0) false

/-- Finding: a condition that depends on time is imposed at time 0 when it is inside `relax`, on a `Field3D` (on a `Field2D` at the right time). -/
theorem C63_relax_time_violated :
    ((Op.relax valueT 10).apply ex 7 (2, fun _ => 5)).2 false = 0 ∧ (valueT.apply ex 7 (2, fun _ => 5)).2 false = 7 ∧
      ((Op.relax valueT 10).apply { ex with is3D := false } 7 (2, fun _ => 5)).2 false = 7 := by
  decide +kernel

/-- Finding: after `applyTDerivBoundary` with an aligned condition the field itself is left in the other coordinates. -/
theorem C63_aligned_ddt_violated (e : Env K I) (op : Op K I) (h3 : e.is3D = true) (hop : ∀ w f d, (op.applyDdt e (w, f, d)).2.1 = f) (w : Int) (f d : Fld K I) :
    ((Op.fromAligned op).applyDdt e (w, f, d)).2.1 = e.toAligned f ∧ ((Op.toAligned op).applyDdt e (w, f, d)).2.1 = e.fromAligned f := by
  rw [Op.applyDdt, Op.applyDdt, if_pos h3, if_pos h3]
  exact ⟨hop _ _ _, hop _ _ _⟩

example : (rhsCall ex 0 true id [.fromAligned valueT] (2, fun _ => 5)).2.1 true = 6 := by decide +kernel

/-- Finding: `applyBoundary()` leaves the values to `relax`, but not for `width(relax(...), 3)`: the modifier around it has lost the flag. -/
theorem C63_flag_lost_violated :
    (applyInit ex false [.relax valueT 10] (2, fun _ => 5)).2 false = 5 ∧ (applyInit ex false [.width (.relax valueT 10) 3] (2, fun _ => 5)).2 false = 0 := by
  decide +kernel

/-- The hypotheses of `C63_aligned_relax` are met. -/
example : ex.is3D = true ∧ (∀ g, ex.toAligned (ex.fromAligned g) = g) ∧ ∀ g, ex.fromAligned (ex.toAligned g) = g := by
  refine ⟨rfl, fun g => ?_, fun g => ?_⟩ <;> funext i <;> simp [ex]

end Verif.Bndry.Mod
