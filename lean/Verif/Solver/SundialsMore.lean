import Mathlib.Algebra.Order.Field.Basic
import Mathlib.Tactic.NormNum
import Mathlib.Tactic.Linarith
import Verif.Solver.Sundials
import Verif.Solver.VarsFinal
import Verif.Options.Paths

/-! # C80: tolerances, constraints, residual, and the options of a field -/

namespace Verif.Sundials

open Verif.Vars (Slot Solver layout loopVars saveE on isConstraint)

/-- The value wanted at a position of the state vector: that of the variable stored there. -/
def wanted {A : Type} (tol2 tol3 : Nat → A) : Slot → A
  | .s2 i _ => tol2 i
  | .s3 i _ _ => tol3 i

theorem loop_options {A : Type} (tol2 tol3 : Nat → A) (S : Solver) (st : Verif.Vars.St A) (u : List A) :
    loopVars S (optionOp tol2 tol3 S) st u =
      (layout S).foldlM (saveE (fun _ s => wanted tol2 tol3 s)) { st := st, u := u, p := 0 } := by
  have hop : loopVars S (optionOp tol2 tol3 S) st u = loopVars S (fun b m pt =>
      (S.f2d.zipIdx.foldlM (fun m fi => if on b fi then saveE (fun _ s => wanted tol2 tol3 s) m (.s2 fi.2 pt)
        else some m) m).bind (fun m =>
      (List.range S.nz).foldlM (fun m z => S.f3d.zipIdx.foldlM (fun m fi => if on b fi then
        saveE (fun _ s => wanted tol2 tol3 s) m (.s3 fi.2 pt z) else some m) m) m)) st u := by
    congr 1; funext b m pt
    rw [optionOp]
    have h2 : (option2 tol2 b : Verif.Vars.M A → Verif.Vars.Var × Nat → Option (Verif.Vars.M A)) =
        (fun m fi => if on b fi then saveE (fun _ s => wanted tol2 tol3 s) m (.s2 fi.2 pt) else some m) := by
      funext m fi
      obtain ⟨⟨eb, cc⟩, i⟩ := fi
      simp only [option2, on, saveE, wanted]
      cases b <;> cases eb <;> rfl
    have h3 : ∀ z, (option2 tol3 b : Verif.Vars.M A → Verif.Vars.Var × Nat → Option (Verif.Vars.M A)) =
        (fun m fi => if on b fi then saveE (fun _ s => wanted tol2 tol3 s) m (.s3 fi.2 pt z) else some m) := by
      intro z
      funext m fi
      obtain ⟨⟨eb, cc⟩, i⟩ := fi
      simp only [option2, on, saveE, wanted]
      cases b <;> cases eb <;> rfl
    rw [h2]
    show Option.bind _ _ = Option.bind _ _
    congr 1; funext m
    congr 1; funext m z
    rw [h3 z]
  rw [hop]
  exact Verif.Vars.loopVars_layout S _ _ _ _ (fun _ _ _ => rfl) (fun _ _ _ _ => rfl) (fun _ _ _ _ _ => rfl) st u

/-- **C80.** Each element of the vector of absolute tolerances (or of positivity constraints) is the value asked
for by the field whose number is stored at that position of the state vector: whatever list `L` of slots the
solver's save puts there. -/
theorem C80_vector_options {A : Type} (tol2 tol3 : Nat → A) (S : Solver) (h : Verif.Vars.Ok S) (L : List Slot)
    (hL : Verif.Vars.IsLayout S L) (st : Verif.Vars.St A) (u : List A) (hu : u.length = Verif.Vars.getLocalN S) :
    vectorOptions tol2 tol3 S st u = some (L.map fun
      | .s2 i _ => tol2 i
      | .s3 i _ _ => tol3 i) := by
  have hl : L = layout S := Verif.Vars.isLayout_unique S h L hL
  have hlen := Verif.Vars.layout_length S h
  have hloop : vectorOptions tol2 tol3 S st u = (loopVars S (optionOp tol2 tol3 S) st u).map (·.u) := by
    rw [vectorOptions, loopVars]
    simp only [bind, Option.bind]
    cases List.foldlM (optionOp tol2 tol3 S true) { st := st, u := u, p := 0 } S.bndry2 with
    | none => rfl
    | some m =>
      dsimp only
      cases List.foldlM (optionOp tol2 tol3 S false) m S.nobndry2 <;> rfl
  rw [hloop, loop_options]
  have := Verif.Vars.foldlM_save (fun _ s => wanted tol2 tol3 s) (layout S) st [] u (by omega)
  simp only [List.nil_append, List.length_nil] at this
  rw [this, hl]
  simp only [Option.map_some, Option.some.injEq]
  rw [hlen, ← hu, List.drop_length, List.append_nil]
  apply List.map_congr_left
  intro s _
  cases s <;> rfl

/-- The codes CVODE documents: what the sign of the element must be, and whether it may be zero. -/
def Satisfies {K : Type} [Field K] [LinearOrder K] (c x : K) : Prop :=
  (c = 2 → 0 < x) ∧ (c = 1 → 0 ≤ x) ∧ (c = -2 → x < 0) ∧ (c = -1 → x ≤ 0)

/-- **C80.** The code sent to CVODE asks for what the option says. -/
theorem C80_constraint_codes {K : Type} [Field K] [LinearOrder K] [IsStrictOrderedRing K] (s : Sign) (x : K) :
    Satisfies (constraintCode s) x ↔ match s with
      | .none => True
      | .positive => 0 < x
      | .nonNegative => 0 ≤ x
      | .negative => x < 0
      | .nonPositive => x ≤ 0 := by
  have h1 : (2 : K) ≠ 1 := by norm_num
  have h2 : (2 : K) ≠ -2 := by norm_num
  have h3 : (2 : K) ≠ -1 := by norm_num
  have h4 : (1 : K) ≠ 2 := by norm_num
  have h5 : (1 : K) ≠ -2 := by norm_num
  have h6 : (1 : K) ≠ -1 := by norm_num
  have h7 : (-2 : K) ≠ 2 := by norm_num
  have h8 : (-2 : K) ≠ 1 := by norm_num
  have h9 : (-2 : K) ≠ -1 := by norm_num
  have h10 : (-1 : K) ≠ 2 := by norm_num
  have h11 : (-1 : K) ≠ 1 := by norm_num
  have h12 : (-1 : K) ≠ -2 := by norm_num
  have h13 : (0 : K) ≠ 2 := by norm_num
  have h14 : (0 : K) ≠ 1 := by norm_num
  have h15 : (0 : K) ≠ -2 := by norm_num
  have h16 : (0 : K) ≠ -1 := by norm_num
  cases s <;> simp [Satisfies, constraintCode, h1, h2, h3, h4, h5, h6, h7, h8, h9, h10, h11, h12, h13, h14, h15, h16]

/-- **C80.** IDA's residual: with `id` as the solver sets it, the residual vanishes exactly when every evolving
variable has `du = F` and every constraint variable has `F = 0`. -/
theorem C80_ida_residual {K : Type} [Field K] [LinearOrder K] [IsStrictOrderedRing K] (S : Solver)
    (h : Verif.Vars.Ok S) (L : List Slot) (hL : Verif.Vars.IsLayout S L) (st : Verif.Vars.St K) (u F du : List K)
    (hu : u.length = Verif.Vars.getLocalN S) (hF : F.length = L.length) (hdu : du.length = L.length)
    (id : List K) (hid : Verif.Vars.setId 0 1 S st u = some id) :
    (∀ r ∈ idaResidual F du id, r = 0) ↔
      ∀ (p : Nat) (hp : p < L.length), if isConstraint S L[p] then F[p] = 0 else du[p] = F[p] := by
  have hl : L = layout S := Verif.Vars.isLayout_unique S h L hL
  have hlen := Verif.Vars.layout_length S h
  rw [Verif.Vars.setId_eq 0 1 S h st u (by omega), ← hu, List.drop_length, List.append_nil,
    Option.some.injEq] at hid
  rw [← hl] at hid
  subst hid
  have key : ∀ (F du : List K) (L : List Slot), F.length = L.length → du.length = L.length →
      ((∀ r ∈ idaResidual F du (L.map (fun s => if isConstraint S s then (0 : K) else 1)), r = 0) ↔
      ∀ (p : Nat) (a b : K) (s : Slot), F[p]? = some a → du[p]? = some b → L[p]? = some s →
        if isConstraint S s then a = 0 else b = a) := by
    intro F
    induction F with
    | nil => intro du L h1 h2; simp [idaResidual]
    | cons a F ih =>
      intro du L h1 h2
      cases L with
      | nil => simp at h1
      | cons s L =>
        cases du with
        | nil => simp at h2
        | cons b du =>
          have := ih du L (by simpa using h1) (by simpa using h2)
          simp only [idaResidual, List.map_cons, List.zip_cons_cons, List.mem_cons, forall_eq_or_imp] at this ⊢
          rw [this]
          constructor
          · rintro ⟨hz, hr⟩ p a' b' s' ha hb hs
            cases p with
            | zero =>
              simp only [List.getElem?_cons_zero, Option.some.injEq] at ha hb hs
              subst ha hb hs
              by_cases hc : isConstraint S s = true
              · rw [if_pos hc, if_neg (by norm_num)] at hz
                rw [if_pos hc]; exact hz
              · rw [if_neg hc, if_pos (by norm_num)] at hz
                rw [if_neg hc]; linarith
            | succ p =>
              exact hr p a' b' s' (by simpa using ha) (by simpa using hb) (by simpa using hs)
          · intro hall
            refine ⟨?_, fun p a' b' s' ha hb hs => hall (p + 1) a' b' s' (by simpa using ha) (by simpa using hb) (by simpa using hs)⟩
            have h0 := hall 0 a b s rfl rfl rfl
            by_cases hc : isConstraint S s = true
            · rw [if_pos hc, if_neg (by norm_num)]
              rw [if_pos hc] at h0; exact h0
            · rw [if_neg hc, if_pos (by norm_num)]
              rw [if_neg hc] at h0; linarith
  rw [key F du L hF hdu]
  constructor
  · intro hall p hp
    exact hall p _ _ _ (List.getElem?_eq_getElem (by omega)) (List.getElem?_eq_getElem (by omega))
      (List.getElem?_eq_getElem hp)
  · intro hall p a b s ha hb hs
    obtain ⟨hp, rfl⟩ := List.getElem?_eq_some_iff.mp hs
    obtain ⟨hp', rfl⟩ := List.getElem?_eq_some_iff.mp ha
    obtain ⟨hp'', rfl⟩ := List.getElem?_eq_some_iff.mp hb
    exact hall p hp

/-! ## Reading a field's options -/

open Verif.Opt
open Verif.Str (Chars)

theorem set_find : ∀ (cs : Kids) (n : Chars) (c : Tree), cs.find n = some c → cs.set n c = cs
  | .nil, n, c, h => by simp [Kids.find] at h
  | .cons m u r, n, c, h => by
    by_cases hm : m = n
    · subst hm
      simp only [Kids.find, if_true, Option.some.injEq] at h
      subst h
      simp [Kids.set]
    · simp only [Kids.find, hm, if_false] at h
      simp [Kids.set, hm, set_find r n c h]

/-- A value below `name` exists: reading through a copy leaves the tree exactly as it was. -/
theorem readCopy_tree (env : Env) (ty : Ty) (v : Val) (name key : Chars) (t : Tree) (hn : name ≠ [])
    (e : Data) (he : t.valueAt [name, key] = some e) : (readCopy env ty v name key t).1 = t := by
  cases t with
  | node d cs =>
    simp only [readCopy, access]
    by_cases hs : d.isSection = true
    · simp only [hs, Bool.not_true, Bool.false_eq_true, if_false, hn]
      cases hf : cs.find name with
      | none =>
        simp [Tree.valueAt, lookup_node_cons, hf] at he
      | some c => simp [set_find cs name c hf]
    · simp [hs]

/-- Reading through a copy gives the same value as reading the option itself. -/
theorem readCopy_value (env : Env) (ty : Ty) (v : Val) (name key : Chars) (t : Tree) :
    (readCopy env ty v name key t).2 = (readRef env ty v name key t).2 := by
  cases t with
  | node d cs =>
    simp only [readCopy, readRef, access]
    by_cases hs : d.isSection = true
    · simp only [hs, Bool.not_true, Bool.false_eq_true, if_false]
      by_cases hn : name = []
      · simp only [hn, if_true, access]
      · simp only [hn, if_false]
    · simp [hs]

/-- **C80 violated.** A field's `positivity_constraint` (or a 2D field's `atol`) that the user gives is read, and its
value takes effect; but the option still counts as unused, so the check before the run throws. -/
theorem C80_field_option_violated (env : Env) (ty : Ty) (v : Val) (name key : Chars) (t : Tree) (hn : name ≠ [])
    (hk : t.KeysOk) (hi : Inv t) (hs : t.data.isSection = true) (e : Data) (he : t.valueAt [name, key] = some e)
    (hu : Unread [outputSource, userDefault] e) :
    (readCopy env ty v name key t).2 = (readRef env ty v name key t).2 ∧
    (checkUnused (readCopy env ty v name key t).1).isOk = false := by
  refine ⟨readCopy_value env ty v name key t, ?_⟩
  rw [readCopy_tree env ty v name key t hn e he]
  exact (C12_check_exact t hk hi hs).mpr ⟨[name, key], e, by simp, he, hu⟩

/-- **C80.** Read in place (3D `atol`), the option counts as used, provided it can be converted and does not clash
with another default. -/
theorem C80_field_option (env : Env) (ty : Ty) (v : Val) (name key : Chars) (t : Tree) (hn : name ≠ []) (hkey : key ≠ [])
    (hi : Inv t) (e : Data) (he : t.valueAt [name, key] = some e) (r : Val)
    (hr : (readRef env ty v name key t).2 = .ok r) :
    ∃ e', (readRef env ty v name key t).1.valueAt [name, key] = some e' ∧ e'.used = true ∧ e'.value = e.value := by
  have hc : Clean [name, key] := by intro n hm; simp at hm; rcases hm with rfl | rfl <;> assumption
  have hb := valueAt_not_blocked hi he
  obtain ⟨h1, h2⟩ := access_free (withDefault env ty v) (withDefault_kids env ty v) [name, key] t hc hb
  rw [readRef] at hr ⊢
  rw [h1] at hr
  have h3 := h2 [name, key]
  rw [if_pos rfl] at h3
  have hv := valueAt_sub t [name, key]
  rw [he] at hv
  obtain ⟨d, cs, hu0⟩ := exists_node (subOrFresh t [name, key])
  rw [hu0] at hr h3 hv
  simp only [Tree.data] at hv
  have hs : d.isSection = false := by
    cases h : d.isSection
    · rfl
    · simp [h] at hv
  simp only [hs, Bool.false_eq_true, if_false, Option.some.injEq] at hv
  subst hv
  simp only [withDefault, hs, Bool.false_eq_true, if_false, as] at hr h3
  cases hcv : convert env ty e.value with
  | error x => rw [hcv] at hr; cases hr
  | ok r' =>
    rw [hcv] at hr h3
    dsimp only at hr h3
    cases hsrc : e.source with
    | none => rw [hsrc] at hr; cases hr
    | some s =>
      rw [hsrc] at hr h3
      dsimp only at hr h3
      by_cases hcond : s = defaultSource ∧ similar r' v = false
      · rw [if_pos hcond] at hr; cases hr
      · rw [if_neg hcond] at h3
        refine ⟨{ value := e.value, source := some s, timeDim := e.timeDim, cond := e.cond, fullName := e.fullName,
                  isSection := false, used := true }, ?_, rfl, rfl⟩
        rw [Tree.valueAt, h3]
        rfl

/-! ## A case -/

/-- One 3D field with two bulk points, one boundary point it does not evolve, and one 2D field that does. -/
def demoSolver : Solver :=
  { nz := 2, f2d := [⟨true, false⟩], f3d := [⟨false, false⟩, ⟨false, true⟩], bndry2 := [0], nobndry2 := [1],
    bndry3 := [0, 1], nobndry3 := [2, 3] }

theorem C80_vector_example (st : Verif.Vars.St ℚ) :
    vectorOptions (fun _ => (7 : ℚ)) (fun i => if i = 0 then 1 else 2) demoSolver st [0, 0, 0, 0, 0, 0] =
      some [7, 7, 1, 2, 1, 2] := by
  rfl

/-- A tree holding the value `"positive"` for `n:positivity_constraint`, set by the user and not read. -/
def demoTree : Tree :=
  let d : Data := {}
  let v : Data := { d with value := .str "positive".toList, source := some "BOUT.inp".toList, isSection := false,
                           fullName := "n:positivity_constraint".toList }
  .node d (.cons ['n'] (.node { d with fullName := ['n'] } (.cons "positivity_constraint".toList (.node v .nil) .nil)) .nil)

theorem C80_field_option_example (env : Env) (ty : Ty) (v : Val) :
    (checkUnused (readCopy env ty v ['n'] "positivity_constraint".toList demoTree).1).isOk = false := by
  rfl

end Verif.Sundials
