import Verif.Options.Model
import Mathlib.Tactic.Ring
import Mathlib.Tactic.Linarith
/-!
# Helper definitions and lemmas for the `Options` model
-/
namespace Verif.Opt
open Verif.Str (Chars)

/-! ## Specification vocabulary: what is stored where -/

/-- The data of the node at `p` (relative to `t`), if there is one. -/
def Tree.lookup : Tree → List Chars → Option Data
  | t, [] => some t.data
  | .node _ cs, n :: ns => match cs.find n with
    | none => none
    | some c => c.lookup ns

/-- The subtree at `p`. -/
def Tree.sub : Tree → List Chars → Option Tree
  | t, [] => some t
  | .node _ cs, n :: ns => match cs.find n with
    | none => none
    | some c => c.sub ns

/-- The option at `p`, if it has a value. -/
def Tree.valueAt (t : Tree) (p : List Chars) : Option Data := (t.lookup p).filter (fun d => !d.isSection)

/-- Some proper prefix of `p` is already a value, so that `root[p]` throws. -/
def Blocked (t : Tree) (p : List Chars) : Prop :=
  ∃ q r d, p = q ++ r ∧ r ≠ [] ∧ t.lookup q = some d ∧ d.isSection = false

/-- The node at `p` has children. -/
def HasKids (t : Tree) (p : List Chars) : Prop := ∃ n d, t.lookup (p ++ [n]) = some d

/-- All components are non-empty (`"a::b"` is not clean). -/
def Clean (p : List Chars) : Prop := ∀ n ∈ p, n ≠ []

/-! ## Kids -/

theorem find_set_same : ∀ (cs : Kids) (n : Chars) (t : Tree), (cs.set n t).find n = some t
  | .nil, n, t => by simp [Kids.set, Kids.find]
  | .cons m u r, n, t => by
    by_cases h : m = n
    · simp [Kids.set, Kids.find, h]
    · simp [Kids.set, Kids.find, h, find_set_same r n t]

theorem find_set_other : ∀ (cs : Kids) (n m : Chars) (t : Tree), n ≠ m → (cs.set n t).find m = cs.find m
  | .nil, n, m, t, h => by simp [Kids.set, Kids.find, h]
  | .cons k u r, n, m, t, h => by
    by_cases hk : k = n
    · subst hk
      simp [Kids.set, Kids.find, h]
    · by_cases hm : k = m
      · subst hm; simp [Kids.set, Kids.find, hk]
      · simp [Kids.set, Kids.find, hk, hm, find_set_other r n m t h]

theorem find_set (cs : Kids) (n m : Chars) (t : Tree) :
    (cs.set n t).find m = if n = m then some t else cs.find m := by
  by_cases h : n = m
  · subst h; simp [find_set_same]
  · simp [h, find_set_other]

theorem isEmpty_iff (cs : Kids) : cs.isEmpty = true ↔ ∀ n, cs.find n = none := by
  cases cs with
  | nil => simp [Kids.isEmpty, Kids.find]
  | cons n t r =>
    simp only [Kids.isEmpty, Bool.false_eq_true, false_iff, not_forall]
    exact ⟨n, by simp [Kids.find]⟩

theorem lookup_node_cons (d : Data) (cs : Kids) (n : Chars) (ns : List Chars) :
    (Tree.node d cs).lookup (n :: ns) = (cs.find n).bind (fun c => c.lookup ns) := by
  simp only [Tree.lookup]; cases cs.find n <;> rfl

theorem lookup_nil (t : Tree) : t.lookup [] = some t.data := by cases t; rfl

theorem lookup_fresh (nm : Chars) (p : List Chars) :
    (fresh nm).lookup p = if p = [] then some { fullName := nm } else none := by
  cases p with
  | nil => rfl
  | cons n ns => simp [fresh, lookup_node_cons, Kids.find]

theorem sub_lookup : ∀ (p : List Chars) (t : Tree), t.lookup p = (t.sub p).map Tree.data
  | [], t => by cases t; rfl
  | n :: ns, .node d cs => by
    simp only [Tree.lookup, Tree.sub]
    cases cs.find n with
    | none => rfl
    | some c => exact sub_lookup ns c

theorem lookup_append : ∀ (p q : List Chars) (t : Tree), t.lookup (p ++ q) = (t.sub p).bind (fun u => u.lookup q)
  | [], q, t => by cases t; rfl
  | n :: ns, q, .node d cs => by
    simp only [List.cons_append, Tree.lookup, Tree.sub]
    cases cs.find n with
    | none => rfl
    | some c => exact lookup_append ns q c

/-- The colon-joined name of the node reached from a node called `nm` through `p`. -/
def nameAlong : Chars → List Chars → Chars
  | nm, [] => nm
  | nm, n :: ns => nameAlong (childName nm n) ns

/-- The node at `p`, or the new one `root[p]` would create. -/
def subOrFresh : Tree → List Chars → Tree
  | t, [] => t
  | .node d cs, n :: ns => subOrFresh ((cs.find n).getD (fresh (childName d.fullName n))) ns

theorem Blocked_nil (t : Tree) : ¬ Blocked t [] := by
  rintro ⟨q, r, d, h, hr, _⟩
  simp at h; exact hr h.2

theorem Blocked_cons (d : Data) (cs : Kids) (n : Chars) (ns : List Chars) :
    Blocked (.node d cs) (n :: ns) ↔ d.isSection = false ∨
      Blocked ((cs.find n).getD (fresh (childName d.fullName n))) ns := by
  constructor
  · rintro ⟨q, r, e, h, hr, hl, hs⟩
    cases q with
    | nil => left; simp [Tree.lookup, Tree.data] at hl; rw [hl]; exact hs
    | cons m q =>
      simp only [List.cons_append, List.cons.injEq] at h
      obtain ⟨rfl, rfl⟩ := h
      right
      rw [lookup_node_cons] at hl
      cases hf : cs.find n with
      | none => simp [hf] at hl
      | some c => simp only [hf, Option.bind_some, Option.getD_some] at hl ⊢; exact ⟨q, r, e, rfl, hr, hl, hs⟩
  · rintro (h | ⟨q, r, e, h, hr, hl, hs⟩)
    · exact ⟨[], n :: ns, d, rfl, by simp, rfl, h⟩
    · cases hf : cs.find n with
      | none =>
        simp only [hf, Option.getD_none, lookup_fresh] at hl
        split at hl
        · simp at hl; subst hl; simp at hs
        · simp at hl
      | some c =>
        simp only [hf, Option.getD_some] at hl
        exact ⟨n :: q, r, e, by simp [h], hr, by rw [lookup_node_cons, hf]; exact hl, hs⟩

/-- A blocked access throws and stores nothing. -/
theorem access_blocked {α : Type} (f : Tree → Tree × Out α) : ∀ (p : List Chars) (t : Tree), Clean p → Blocked t p →
    (access t p f).2 = .error (.exc "index a value") ∧ ∀ q, (access t p f).1.lookup q = t.lookup q
  | [], t, _, h => absurd h (Blocked_nil t)
  | n :: ns, .node d cs, hc, h => by
    have hn : n ≠ [] := hc n (by simp)
    have hc' : Clean ns := fun m hm => hc m (by simp [hm])
    rw [Blocked_cons] at h
    by_cases hd : d.isSection = false
    · simp [access, hd]
    · have hd' : d.isSection = true := by simpa using hd
      have hb := h.resolve_left hd
      obtain ⟨h1, h2⟩ := access_blocked f ns _ hc' hb
      simp only [access, hd', Bool.not_true, Bool.false_eq_true, if_false, hn]
      refine ⟨h1, ?_⟩
      intro q
      cases q with
      | nil => rfl
      | cons m q =>
        rw [lookup_node_cons, lookup_node_cons, find_set]
        by_cases hm : n = m
        · subst hm
          simp only [if_true, Option.bind_some, h2]
          cases hf : cs.find n with
          | none =>
            exfalso
            simp only [hf, Option.getD_none] at hb
            obtain ⟨q, r, e, _, _, hl, hs⟩ := hb
            rw [lookup_fresh] at hl
            split at hl
            · simp at hl; subst hl; simp at hs
            · simp at hl
          | some c => simp
        · simp [hm]


theorem subOrFresh_of_sub : ∀ (p : List Chars) (t u : Tree), t.sub p = some u → subOrFresh t p = u
  | [], t, u, h => by cases t; simpa [Tree.sub, subOrFresh] using h
  | n :: ns, .node d cs, u, h => by
    simp only [Tree.sub] at h
    simp only [subOrFresh]
    cases hf : cs.find n with
    | none => simp [hf] at h
    | some c =>
      simp only [hf] at h
      exact subOrFresh_of_sub ns c u h

theorem subOrFresh_fresh : ∀ (p : List Chars) (nm : Chars), subOrFresh (fresh nm) p = fresh (nameAlong nm p)
  | [], nm => rfl
  | n :: ns, nm => by
    have := subOrFresh_fresh ns (childName nm n)
    simpa [subOrFresh, fresh, Kids.find, nameAlong] using this

theorem subOrFresh_of_none : ∀ (p : List Chars) (t : Tree), t.sub p = none → ∃ nm, subOrFresh t p = fresh nm
  | [], t, h => by cases t; simp [Tree.sub] at h
  | n :: ns, .node d cs, h => by
    simp only [Tree.sub] at h
    simp only [subOrFresh]
    cases hf : cs.find n with
    | none => exact ⟨_, subOrFresh_fresh ns _⟩
    | some c =>
      simp only [hf] at h
      exact subOrFresh_of_none ns c h

theorem subOrFresh_data_of_lookup {t : Tree} {p : List Chars} {d : Data} (h : t.lookup p = some d) :
    (subOrFresh t p).data = d := by
  rw [sub_lookup] at h
  cases hs : t.sub p with
  | none => simp [hs] at h
  | some u => rw [subOrFresh_of_sub p t u hs]; simpa [hs] using h

theorem subOrFresh_of_lookup_none {t : Tree} {p : List Chars} (h : t.lookup p = none) :
    ∃ nm, subOrFresh t p = fresh nm := by
  rw [sub_lookup] at h
  exact subOrFresh_of_none p t (by simpa using h)

/-- The effect of an access whose action keeps the children. -/
theorem access_free {α : Type} (f : Tree → Tree × Out α) (hf : ∀ t, (f t).1.kids = t.kids) :
    ∀ (p : List Chars) (t : Tree), Clean p → ¬ Blocked t p →
    (access t p f).2 = (f (subOrFresh t p)).2 ∧
    ∀ q, (access t p f).1.lookup q =
      if q = p then some (f (subOrFresh t p)).1.data
      else if q <+: p then some (subOrFresh t q).data else t.lookup q
  | [], t, _, _ => by
    refine ⟨rfl, ?_⟩
    intro q
    have h1 := hf t
    simp only [access, subOrFresh]
    cases q with
    | nil => simp [lookup_nil]
    | cons n ns =>
      simp only [reduceCtorEq, if_false, List.prefix_nil]
      cases hft : (f t).1 with
      | node d cs =>
        cases t with
        | node e ks =>
          rw [hft] at h1
          simp only [Tree.kids] at h1
          subst h1
          rw [lookup_node_cons, lookup_node_cons]
  | n :: ns, .node d cs, hc, h => by
    have hn : n ≠ [] := hc n (by simp)
    have hc' : Clean ns := fun m hm => hc m (by simp [hm])
    rw [Blocked_cons] at h
    push Not at h
    have hd' : d.isSection = true := by simpa using h.1
    obtain ⟨h1, h2⟩ := access_free f hf ns _ hc' h.2
    simp only [access, hd', Bool.not_true, Bool.false_eq_true, if_false, hn]
    refine ⟨h1, ?_⟩
    intro q
    cases q with
    | nil => simp [Tree.lookup, Tree.data, subOrFresh]
    | cons m q =>
      rw [lookup_node_cons, lookup_node_cons, find_set]
      by_cases hm : n = m
      · subst hm
        simp only [if_true, Option.bind_some, h2, List.cons.injEq, true_and, subOrFresh, List.cons_prefix_cons]
        by_cases hq : q = ns
        · simp [hq]
        · simp only [hq, if_false]
          by_cases hqp : q <+: ns
          · simp [hqp]
          · simp only [hqp, if_false]
            cases hff : cs.find n with
            | none =>
              have : q ≠ [] := fun h => hqp (by simp [h])
              simp [lookup_fresh, this]
            | some c => simp
      · have hm' : ¬ (m = n) := fun h => hm h.symm
        simp [hm, hm', List.cons_prefix_cons]

/-- Every operation except `setCond` keeps the children of the node it acts on. -/
def Op.isSetCond : Op → Bool
  | .setCond _ => true
  | _ => false

theorem setNoCheck_kids (v : Val) (s : Chars) (t : Tree) : (setNoCheck v s t).1.kids = t.kids := by
  cases t with
  | node d cs => simp only [setNoCheck]; split <;> rfl

theorem assign_kids (v : Val) (s : Chars) (t : Tree) : (assign v s t).1.kids = t.kids := by
  cases t with
  | node d cs =>
    simp only [assign]
    split
    · exact setNoCheck_kids _ _ _
    · split
      · rfl
      · split
        · rfl
        · exact setNoCheck_kids _ _ _

theorem force_kids (v : Val) (s : Chars) (t : Tree) : (force v s t).1.kids = t.kids := by
  cases t with
  | node d cs => simp only [force]; exact assign_kids _ _ _

theorem assignRepeat_kids (v : Val) (b : Bool) (s : Chars) (t : Tree) : (assignRepeat v b s t).1.kids = t.kids := by
  have h := force_kids v s t
  unfold assignRepeat
  split
  · rename_i d cs heq; rw [heq] at h; exact h
  · exact h

theorem as_kids (env : Env) (ty : Ty) (t : Tree) : (as env ty t).1.kids = t.kids := by
  cases t with
  | node d cs =>
    simp only [as]
    split
    · rfl
    · split <;> rfl

theorem withDefault_kids (env : Env) (ty : Ty) (v : Val) (t : Tree) : (withDefault env ty v t).1.kids = t.kids := by
  cases t with
  | node d cs =>
    have h1 := assign_kids v defaultSource (.node d cs)
    have h2 := as_kids env ty (.node d cs)
    simp only [withDefault]
    split
    · split
      · rename_i heq; rw [heq] at h1; exact h1
      · rename_i heq; rw [heq] at h1; exact h1
    · split
      · rename_i heq; rw [heq] at h2; exact h2
      · rename_i heq; rw [heq] at h2
        split
        · exact h2
        · split <;> exact h2

theorem withDefaultConst_kids (env : Env) (ty : Ty) (v : Val) (t : Tree) :
    (withDefaultConst env ty v t).1.kids = t.kids := by
  cases t with
  | node d cs =>
    have h2 := as_kids env ty (.node d cs)
    simp only [withDefaultConst]
    split
    · rfl
    · split
      · rename_i heq; rw [heq] at h2; exact h2
      · rename_i heq; rw [heq] at h2
        split
        · exact h2
        · split <;> exact h2

theorem overrideDefault_kids (env : Env) (ty : Ty) (v : Val) (t : Tree) :
    (overrideDefault env ty v t).1.kids = t.kids := by
  cases t with
  | node d cs =>
    have h1 := assign_kids v userDefault (.node d cs)
    have h2 := as_kids env ty (.node d cs)
    simp only [overrideDefault]
    split
    · split
      · rename_i heq; rw [heq] at h1; exact h1
      · rename_i heq; rw [heq] at h1; exact h1
    · exact h2

theorem act_kids (env : Env) (op : Op) (h : op.isSetCond = false) (t : Tree) : (op.act env t).1.kids = t.kids := by
  cases op with
  | assign p v s => exact assign_kids _ _ _
  | force p v s => exact force_kids _ _ _
  | assignRepeat p v b s => exact assignRepeat_kids _ _ _ _
  | read p ty => exact as_kids _ _ _
  | withDefault p ty v => exact withDefault_kids _ _ _ _
  | withDefaultConst p ty v => exact withDefaultConst_kids _ _ _ _
  | overrideDefault p ty v => exact overrideDefault_kids _ _ _ _
  | setCond p => simp [Op.isSetCond] at h
  | touch p => rfl
end Verif.Opt
