import Verif.Bndry.FactoryThms

/-! # C63: `applyBoundary("condition")` and `applyBoundary("region", "condition")` -/

namespace Verif.Bndry

open Verif.Str

variable {Fld : Type}

/-- What a call does to the field; `nullDeref`: a member function is called through a null pointer. -/
inductive Applied (Fld : Type) where
  | done (f : Fld)
  | thrown
  | nullDeref
  | ub
  | outOfFuel

/-- `op->apply(*this)` with the operation just created; `sem b r` is what the condition `b` does on the region `r`. -/
def applyCreated (sem : Bc → Region → Fld → Fld) (r : Region) (f : Fld) : Res → Applied Fld
  | .ok .nothing => .nullDeref
  | .ok b => .done (sem b r f)
  | .thrown => .thrown
  | .ub => .ub
  | .outOfFuel => .outOfFuel

/-- field3d.cxx:390-405, 494-510; field2d.cxx:236-249 (the zeroing of the corners of a `Field2D` is not modelled): the condition on every region of this
processor. -/
def applyAll (F : Factory) (par : Bool) (sem : Bc → Region → Fld → Fld) (cond : Chars) : List Region → Fld → Applied Fld
  | [], f => .done f
  | r :: rs, f =>
    match applyCreated sem r f (createStr F par cond) with
    | .done f' => applyAll F par sem cond rs f'
    | x => x

/-- field3d.cxx:407-432; field2d.cxx:270-291 (`par = false`): the first region with this label; it is an error if there is none.
field3d.cxx:512-532 (`par = true`): nothing happens then. -/
def applyRegion (F : Factory) (par : Bool) (sem : Bc → Region → Fld → Fld) (label : String) (cond : Chars) (rs : List Region) (f : Fld) : Applied Fld :=
  match rs.find? (fun r => r.label == label) with
  | some r => applyCreated sem r f (createStr F par cond)
  | none => if par then .done f else .thrown

/-- **C63.** A condition in the documented syntax, other than `none`, is applied on every region of this processor, in their order. -/
theorem C63_apply_condition_partial (F : Factory) (par : Bool) (sem : Bc → Region → Fld → Fld) (cond : Chars) (b : Bc) (h : Denotes F par cond b)
    (hb : b ≠ .nothing) (rs : List Region) (f : Fld) : applyAll F par sem cond rs f = .done (rs.foldl (fun f r => sem b r f) f) := by
  have hc := C62_syntax_partial F par cond b h
  induction rs generalizing f with
  | nil => rfl
  | cons r rs ih =>
    have h1 : applyCreated sem r f (createStr F par cond) = .done (sem b r f) := by
      rw [hc]
      cases b with
      | nothing => exact absurd rfl hb
      | op => rfl
      | mod => rfl
    rw [applyAll, h1]
    exact ih _

/-- **C63.** With a region label, it is applied on that region and no other, if this processor has it. -/
theorem C63_apply_region_partial (F : Factory) (par : Bool) (sem : Bc → Region → Fld → Fld) (cond : Chars) (b : Bc) (h : Denotes F par cond b)
    (hb : b ≠ .nothing) (rs : List Region) (r : Region) (hr : r ∈ rs) (hu : ∀ q ∈ rs, q.label = r.label → q = r) (f : Fld) :
    applyRegion F par sem r.label cond rs f = .done (sem b r f) := by
  have hc := C62_syntax_partial F par cond b h
  have hf : rs.find? (fun q => q.label == r.label) = some r := by
    cases hq : rs.find? (fun q => q.label == r.label) with
    | none => exact absurd (List.find?_eq_none.1 hq r hr) (by simp)
    | some q =>
      have h1 := List.mem_of_find?_eq_some hq
      have h2 := List.find?_some hq
      rw [hu q h1 (by simpa using h2)]
  rw [applyRegion, hf]
  show applyCreated sem r f (createStr F par cond) = _
  rw [hc]
  cases b with
  | nothing => exact absurd rfl hb
  | op => rfl
  | mod => rfl

/-- **Finding.** `f.applyBoundary("none")` - accepted in the input file - calls a member function of a null pointer as soon as the processor has a boundary. -/
theorem C63_none_violated (F : Factory) (par : Bool) (sem : Bc → Region → Fld → Fld) (r : Region) (rs : List Region) (f : Fld) :
    (∃ x, applyAll F par sem "none".toList (r :: rs) f = x ∧ match x with | .nullDeref => True | _ => False) ∧
    Denotes F par "none".toList .nothing := by
  refine ⟨⟨_, rfl, ?_⟩, .none⟩
  rw [applyAll, C62_syntax_partial F par _ _ .none]
  trivial

/-- **Finding.** `f.applyBoundary("upper_target", c)` throws on every processor that does not have that boundary - so the documented call ends every parallel
run in which some processor does not touch it - while the parallel variant ignores it, and so accepts misspelt labels. -/
theorem C63_region_missing_violated (F : Factory) (sem : Bc → Region → Fld → Fld) (label : String) (cond : Chars) (rs : List Region) (f : Fld)
    (h : ∀ r ∈ rs, r.label ≠ label) :
    (match applyRegion F false sem label cond rs f with | .thrown => True | _ => False) ∧ applyRegion F true sem label cond rs f = .done f := by
  have hf : rs.find? (fun r => r.label == label) = none := List.find?_eq_none.2 (by intro x hx; simpa using h x hx)
  constructor
  · rw [applyRegion, hf]; trivial
  · rw [applyRegion, hf]; rfl

end Verif.Bndry
