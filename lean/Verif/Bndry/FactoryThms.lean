import Verif.Bndry.FactoryMain

/-!
# C62: choice of the option; findings
-/

namespace Verif.Bndry

open Verif.Str

/-- Where the manual says the condition for variable `var` on a region is looked up, most specific first
(manual/sphinx/user_docs/boundary_options.rst:15-33). -/
def documented (var label sideName allName : String) : List (String × String) :=
  [(var, "bndry_" ++ label), (var, "bndry_" ++ sideName), (var, allName), ("all", "bndry_" ++ label), ("all", "bndry_" ++ sideName), ("all", allName)]

/-- **C62.** On a perpendicular boundary the text used is that of the first option set in the documented order, `dirichlet` when none is. -/
theorem C62_priority (opts : String → String → Option Chars) (var : String) (r : Region) (h : r.isParallel = false) :
    setting opts var r = ((documented var r.label (side r.loc) "bndry_all").findSome? (fun p => opts p.1 p.2)).getD "dirichlet".toList := by
  unfold setting documented
  rw [h]
  simp only [List.findSome?_cons, List.findSome?_nil, Bool.false_eq_true, if_false]
  repeat' split
  all_goals simp_all

/-- **C62.** On a parallel boundary likewise, with `bndry_par_all` and `parallel_dirichlet`; the sides are `par_yup_xin` etc. -/
theorem C62_priority_parallel (opts : String → String → Option Chars) (var : String) (r : Region) (h : r.isParallel = true) :
    setting opts var r = ((documented var r.label (side r.loc) "bndry_par_all").findSome? (fun p => opts p.1 p.2)).getD "parallel_dirichlet".toList := by
  unfold setting documented
  rw [h]
  simp only [List.findSome?_cons, List.findSome?_nil, if_true]
  repeat' split
  all_goals simp_all

/-- **C62.** A setting of the variable wins over every setting in section `all`; settings of other variables are never used. -/
theorem C62_own_section (opts opts' : String → String → Option Chars) (var : String) (r : Region)
    (h : ∀ k, opts var k = opts' var k) (hall : ∀ k, opts "all" k = opts' "all" k) : setting opts var r = setting opts' var r := by
  unfold setting
  simp only [h, hall]

/-- The parallel boundary regions the code makes (src/mesh/parallel/fci.hxx:81-87, shiftedmetricinterp.cxx:121-173). -/
def parallelRegions : List Region :=
  [⟨"FCI_forward", .parFwdXin, true⟩, ⟨"FCI_backward", .parBkwdXin, true⟩, ⟨"FCI_forward", .parFwdXout, true⟩, ⟨"FCI_backward", .parBkwdXout, true⟩,
   ⟨"parallel_forward_xin", .parFwdXin, true⟩, ⟨"parallel_backward_xin", .parBkwdXin, true⟩, ⟨"parallel_forward_xout", .parFwdXout, true⟩,
   ⟨"parallel_backward_xout", .parBkwdXout, true⟩]

/-- Finding: the documented options `bndry_par_yup` and `bndry_par_ydown` are never read, whatever else is set, and are not reported as unused
because they are marked as conditionally used. -/
theorem C62_par_yup_violated (opts : String → String → Option Chars) (var : String) (v : String → String → Option Chars) (r : Region)
    (hr : r ∈ parallelRegions) (labels : List String) :
    setting (fun s k => if k = "bndry_par_yup" ∨ k = "bndry_par_ydown" then v s k else opts s k) var r = setting opts var r ∧
      "bndry_par_yup" ∈ conditionallyUsed labels ∧ "bndry_par_ydown" ∈ conditionallyUsed labels := by
  refine ⟨?_, by simp [conditionallyUsed], by simp [conditionallyUsed]⟩
  have hk : ¬ ("bndry_" ++ r.label = "bndry_par_yup" ∨ "bndry_" ++ r.label = "bndry_par_ydown") ∧
      ¬ ("bndry_" ++ side r.loc = "bndry_par_yup" ∨ "bndry_" ++ side r.loc = "bndry_par_ydown") ∧ r.isParallel = true := by
    simp only [parallelRegions, List.mem_cons, List.not_mem_nil, or_false] at hr
    rcases hr with rfl | rfl | rfl | rfl | rfl | rfl | rfl | rfl <;> decide
  have h3 : ¬ ("bndry_par_all" = "bndry_par_yup" ∨ "bndry_par_all" = "bndry_par_ydown") := by decide
  obtain ⟨h1, h2, h4⟩ := hk
  unfold setting
  simp only [h1, h2, h3, h4, if_false, if_true]

/-! ## Registration -/

/-- **C62.** Registering a name keeps what is registered: nothing is replaced, and the names of operations and modifiers stay apart. -/
theorem C62_add (F : Factory) (name : Chars) (h : ∀ n ∈ F.ops, n ∉ F.mods) :
    (∀ n ∈ F.ops, n ∈ (F.add name).ops) ∧ (∀ n ∈ (F.add name).ops, n ∉ (F.add name).mods) ∧
      (∀ n ∈ F.mods, n ∈ (F.addMod name).mods) ∧ ∀ n ∈ (F.addMod name).ops, n ∉ (F.addMod name).mods := by
  unfold Factory.add Factory.addMod
  by_cases e : lower name ∈ F.mods ∨ lower name ∈ F.ops
  · rw [if_pos e, if_pos e]
    exact ⟨fun _ h => h, h, fun _ h => h, h⟩
  · rw [if_neg e, if_neg e]
    simp only [not_or] at e
    refine ⟨fun n hn => by simp [hn], ?_, fun n hn => by simp [hn], ?_⟩
    · intro n hn
      rcases List.mem_cons.1 hn with rfl | hn
      · exact e.1
      · exact h n hn
    · intro n hn hm
      rcases List.mem_cons.1 hm with rfl | hm
      · exact e.2 hn
      · exact h n hn hm

theorem standardNames_ok : (standardNames.ops ++ standardNames.mods).Nodup ∧ standardNames.parOps.Nodup ∧
      standardNames.ops.length = 19 ∧ standardNames.mods.length = 4 ∧ standardNames.parOps.length = 4 := by
  decide +kernel

/-- **C62.** All operations and modifiers of the standard factory have distinct names, and every one is registered. -/
theorem C62_standard (opOk modOk : Chars → List Chars → Bool) :
    ((standard opOk modOk).ops ++ (standard opOk modOk).mods).Nodup ∧ (standard opOk modOk).parOps.Nodup ∧
      (standard opOk modOk).ops.length = 19 ∧ (standard opOk modOk).mods.length = 4 ∧ (standard opOk modOk).parOps.length = 4 := by
  simp only [standard]
  exact standardNames_ok

/-! ## Examples and findings -/

/-- A factory whose operations accept everything. -/
def any : Factory := standard (fun _ _ => true) (fun _ _ => true)

/-- The example of the manual, with an expression that has commas and brackets. -/
example : createStr any false "fromFieldAligned( relax(Robin(1, max(x, sin(y)), 0), 10 ))".toList =
    .ok (.mod "fromfieldaligned".toList (.mod "relax".toList (.op "robin".toList ["1".toList, "max(x, sin(y))".toList, "0".toList]) ["10".toList]) []) := by
  decide +kernel

/-- It is in the documented syntax, so the theorem covers it (inner part). -/
example : Denotes any false "relax(neumann, 10 )".toList (.mod "relax".toList (.op "neumann".toList []) ["10".toList]) := by
  have tight : ∀ a b : Chars, ∀ m : Chars, a = b → a ≠ [] → (∀ c ∈ a, c ∉ ws) → Tight a := by
    intro a _ _ _ _ h
    exact ⟨fun c t e => h c (by simp [e]), fun c t e => h c (by simp [e])⟩
  have t1 : Tight "relax".toList := tight _ _ [] rfl (by decide) (by decide)
  have t2 : Tight "neumann".toList := tight _ _ [] rfl (by decide) (by decide)
  have t3 : Tight "10".toList := tight _ _ [] rfl (by decide) (by decide)
  have nest : ∀ a : Chars, (∀ c ∈ a, c ∉ ['(', '[', '<', ')', ']', '>'] ∧ c ≠ ',') → Nest false a := by
    intro a
    induction a with
    | nil => intro _; exact .nil _
    | cons c t ih => intro h; exact .char _ c t (h c (by simp)).1 (fun e => absurd e (h c (by simp)).2) (ih (fun x hx => h x (by simp [hx])))
  exact .modify rfl "relax".toList [] "neumann".toList (.op "neumann".toList []) ["10".toList] "neumann, 10 ".toList ⟨by decide, t1, by decide⟩ (by intro c hc; cases hc)
    (.bare "neumann".toList ⟨by decide, t2, by decide⟩ (by decide +kernel) rfl (by decide)) ⟨t2, nest _ (by decide), by decide⟩
    (by simp only [List.mem_singleton, forall_eq]; exact ⟨t3, nest _ (by decide), by decide⟩)
    (.more _ "neumann".toList _ " 10 ".toList ⟨[], [], by simp, by simp, by decide⟩ (.one _ _ ⟨[' '], [' '], by decide, by decide, by decide⟩))
    (by decide +kernel) rfl (by decide)

/-- Finding: an argument with an equals sign inside brackets - the scope syntax of expressions - is taken for a keyword, which every operation
refuses; inside a modifier the list of arguments is then empty and its first element is read (undefined behaviour). -/
theorem C62_equals_violated :
    createStr any false "dirichlet([n=2](n*x))".toList = .thrown ∧ createStr any false "relax(dirichlet([n=2](n*x)))".toList = .ub ∧
      createStr any false "dirichlet(n*x)".toList = .ok (.op "dirichlet".toList ["n*x".toList]) := by
  decide +kernel

/-- Finding: keywords given to a modifier are dropped without a message, and so are keywords given to parallel conditions. -/
theorem C62_keyword_dropped_violated :
    createStr any false "width(dirichlet, width=3)".toList = .ok (.mod "width".toList (.op "dirichlet".toList []) []) ∧
      createStr any true "parallel_neumann(1, value=3)".toList = .ok (.op "parallel_neumann".toList ["1".toList]) ∧
      createStr any false "dirichlet(1, value=3)".toList = .thrown := by
  decide +kernel

/-- Finding: a modifier on a parallel boundary silently removes the condition. -/
theorem C62_parallel_modifier_violated (F : Factory) (name : Chars) (b : Bc) (fuel : Nat) (h : create F true fuel name = .ok b) (hp : '(' ∈ name)
    (hm : lower (trim (name.takeWhile (fun c => decide (c ≠ '('))) ws) ∈ F.mods) : b = .nothing := by
  cases fuel with
  | zero => cases h
  | succ k =>
    rw [create, if_neg (by simpa using hp)] at h
    dsimp only at h
    rw [if_pos hm] at h
    split at h
    · cases h
    · rename_i a rest _
      cases hc : create F true k a with
      | outOfFuel => rw [hc] at h; cases h
      | thrown => rw [hc] at h; cases h
      | ub => rw [hc] at h; cases h
      | ok b' => rw [hc] at h; cases b' <;> simp only [createMod, if_true] at h <;> injection h with h <;> exact h.symm

example : createStr any true "relax(parallel_dirichlet(1), 10)".toList = .ok .nothing := by decide +kernel

/-- Finding: text after the last closing bracket is ignored, and a missing bracket is only a warning. -/
theorem C62_malformed_violated :
    createStr any false "dirichlet(1) + 5".toList = .ok (.op "dirichlet".toList ["1".toList]) ∧
      createStr any false "relax(dirichlet(1, 10)".toList = .ok (.mod "relax".toList (.op "dirichlet".toList ["1".toList, "10".toList]) []) := by
  decide +kernel

/-- **Options by side.**  The names the manual gives for the sides, each with the location of its regions. -/
def sideOptions : List (Loc × String) :=
  [(.xin, "bndry_xin"), (.xout, "bndry_xout"), (.ydown, "bndry_ydown"), (.yup, "bndry_yup"),
   (.parFwdXin, "bndry_par_yup_xin"), (.parFwdXout, "bndry_par_yup_xout"), (.parBkwdXin, "bndry_par_ydown_xin"),
   (.parBkwdXout, "bndry_par_ydown_xout")]

/-- The option of its side decides about a region that has no option of its own, in the section of the variable or, if nothing is set
there, in `[all]`. -/
theorem C62_side_options (opts : String → String → Option Chars) (var label : String) (par : Bool) (loc : Loc) (k : String) (s : Chars)
    (hk : (loc, k) ∈ sideOptions) (h1 : opts var ("bndry_" ++ label) = none) :
    (opts var k = some s → setting opts var ⟨label, loc, par⟩ = s) ∧
    (opts var k = none → opts var (if par then "bndry_par_all" else "bndry_all") = none → opts "all" ("bndry_" ++ label) = none →
      opts "all" k = some s → setting opts var ⟨label, loc, par⟩ = s) := by
  have e : "bndry_" ++ side loc = k := by
    simp only [sideOptions, List.mem_cons, Prod.mk.injEq, List.not_mem_nil, or_false] at hk
    rcases hk with ⟨rfl, rfl⟩ | ⟨rfl, rfl⟩ | ⟨rfl, rfl⟩ | ⟨rfl, rfl⟩ | ⟨rfl, rfl⟩ | ⟨rfl, rfl⟩ | ⟨rfl, rfl⟩ | ⟨rfl, rfl⟩ <;> decide
  constructor
  · intro h
    unfold setting
    dsimp only
    rw [h1, e, h]
  · intro h h2 h3 h4
    unfold setting
    dsimp only
    rw [h1, e, h]
    dsimp only
    rw [h2]
    dsimp only
    rw [h3, h4]

/-- **No false report of an unused option.**  Whatever `setting` may read for a region in X or Y of any processor from the section of the
variable is marked as used on all processors. -/
theorem C62_marked (labels : List String) (r : Region) (hl : r.label ∈ labels) (hp : r.isParallel = false)
    (hloc : r.loc = .xin ∨ r.loc = .xout ∨ r.loc = .ydown ∨ r.loc = .yup) :
    "bndry_" ++ r.label ∈ conditionallyUsed labels ∧ "bndry_" ++ side r.loc ∈ conditionallyUsed labels ∧
      (if r.isParallel then "bndry_par_all" else "bndry_all") ∈ conditionallyUsed labels := by
  refine ⟨?_, ?_, by rw [hp]; simp [conditionallyUsed]⟩
  · unfold conditionallyUsed
    exact List.mem_append_left _ (List.mem_map_of_mem hl)
  · unfold conditionallyUsed
    refine List.mem_append_right _ ?_
    rcases hloc with h | h | h | h <;> rw [h] <;> decide

/-- Finding: those read for the parallel boundaries are not marked; where a processor has no such boundary they are reported as
unused. -/
theorem C62_marked_violated (r : Region) (hr : r ∈ parallelRegions) :
    "bndry_" ++ side r.loc ∉ conditionallyUsed [] ∧ "bndry_par_all" ∉ conditionallyUsed [] := by
  simp only [parallelRegions, List.mem_cons, List.not_mem_nil, or_false] at hr
  rcases hr with rfl | rfl | rfl | rfl | rfl | rfl | rfl | rfl <;> decide

end Verif.Bndry
