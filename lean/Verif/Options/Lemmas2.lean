import Verif.Options.Lemmas
/-!
# More lemmas for the `Options` model: general access, invariants, unused options
-/
namespace Verif.Opt
open Verif.Str (Chars)

/-- The effect of any access. -/
theorem access_gen {α : Type} (f : Tree → Tree × Out α) :
    ∀ (p : List Chars) (t : Tree), Clean p → ¬ Blocked t p →
    (access t p f).2 = (f (subOrFresh t p)).2 ∧
    (∀ r, (access t p f).1.lookup (p ++ r) = (f (subOrFresh t p)).1.lookup r) ∧
    ∀ q, ¬ p <+: q → (access t p f).1.lookup q = if q <+: p then some (subOrFresh t q).data else t.lookup q
  | [], t, _, _ => ⟨rfl, fun r => rfl, fun q h => absurd (List.nil_prefix) h⟩
  | n :: ns, .node d cs, hc, h => by
    have hn : n ≠ [] := hc n (by simp)
    have hc' : Clean ns := fun m hm => hc m (by simp [hm])
    rw [Blocked_cons] at h
    push Not at h
    have hd' : d.isSection = true := by simpa using h.1
    obtain ⟨h1, h2, h3⟩ := access_gen f ns _ hc' h.2
    simp only [access, hd', Bool.not_true, Bool.false_eq_true, if_false, hn]
    refine ⟨h1, ?_, ?_⟩
    · intro r
      rw [List.cons_append, lookup_node_cons, find_set]
      simp only [if_true, Option.bind_some, h2, subOrFresh]
    · intro q hq
      cases q with
      | nil => simp [Tree.lookup, Tree.data, subOrFresh]
      | cons m q =>
        rw [lookup_node_cons, lookup_node_cons, find_set]
        by_cases hm : n = m
        · subst hm
          have hq' : ¬ ns <+: q := fun h => hq (by simpa [List.cons_prefix_cons] using h)
          simp only [if_true, Option.bind_some, h3 q hq', subOrFresh, List.cons_prefix_cons, true_and]
          by_cases hqp : q <+: ns
          · simp [hqp]
          · simp only [hqp, if_false]
            cases hff : cs.find n with
            | none =>
              have : q ≠ [] := fun h => hqp (by simp [h])
              simp [lookup_fresh, this]
            | some c => simp
        · have hm' : ¬ (m = n) := fun h => hm h.symm
          simp [hm, hm', List.cons_prefix_cons]

mutual
theorem setCond_lookup : ∀ (t : Tree) (q : List Chars),
    t.setCond.lookup q = (t.lookup q).map (fun d => { d with cond := true })
  | .node d cs, [] => by simp [Tree.setCond, Tree.lookup, Tree.data]
  | .node d cs, n :: ns => by
    simp only [Tree.setCond, lookup_node_cons]
    exact setCond_find cs n ns
theorem setCond_find : ∀ (cs : Kids) (n : Chars) (ns : List Chars),
    (cs.setCond.find n).bind (fun c => c.lookup ns) =
      ((cs.find n).bind (fun c => c.lookup ns)).map (fun d => { d with cond := true })
  | .nil, n, ns => by simp [Kids.setCond, Kids.find]
  | .cons m t r, n, ns => by
    by_cases h : m = n
    · simp [Kids.setCond, Kids.find, h, setCond_lookup t ns]
    · simp [Kids.setCond, Kids.find, h, setCond_find r n ns]
end

/-- What holds of every tree built through the API: a value has a source and no children. -/
def Inv (t : Tree) : Prop := ∀ p d, t.lookup p = some d → d.isSection = false →
  d.source ≠ none ∧ ∀ n, t.lookup (p ++ [n]) = none

/-- Node-level well-formedness of what an action leaves behind. -/
def NodeOk (d : Data) (kidsEmpty : Bool) : Prop := d.isSection = false → d.source ≠ none ∧ kidsEmpty = true

theorem hasKids_iff (t : Tree) (p : List Chars) (u : Tree) (h : t.sub p = some u) :
    u.kids.isEmpty = true ↔ ∀ n, t.lookup (p ++ [n]) = none := by
  rw [isEmpty_iff]
  have : ∀ n, t.lookup (p ++ [n]) = (u.kids.find n).map Tree.data := by
    intro n
    rw [lookup_append, h]
    cases u with
    | node d cs =>
      simp only [Option.bind_some, lookup_node_cons, Tree.kids]
      cases cs.find n with
      | none => rfl
      | some c => simp [lookup_nil]
  constructor
  · intro h1 n; rw [this, h1]; rfl
  · intro h1 n; have := this n; rw [h1 n] at this; cases hf : u.kids.find n with
    | none => rfl
    | some c => simp [hf] at this

theorem setNoCheck_ok (v : Val) (s : Chars) (d : Data) (cs : Kids) :
    setNoCheck v s (.node d cs) = if cs.isEmpty then
      (.node { d with value := v, source := some s, used := false, isSection := false } cs, .ok ())
      else (.node d cs, .error (.exc "non-empty section")) := by
  simp only [setNoCheck]
  cases cs.isEmpty <;> simp

theorem setNoCheck_nodeOk (v : Val) (s : Chars) (t : Tree) (h : NodeOk t.data t.kids.isEmpty) :
    NodeOk (setNoCheck v s t).1.data (setNoCheck v s t).1.kids.isEmpty := by
  cases t with
  | node d cs =>
    rw [setNoCheck_ok]
    split
    · rename_i hc; intro _; exact ⟨by simp [Tree.data], hc⟩
    · exact h

theorem assign_nodeOk (v : Val) (s : Chars) (t : Tree) (h : NodeOk t.data t.kids.isEmpty) :
    NodeOk (assign v s t).1.data (assign v s t).1.kids.isEmpty := by
  cases t with
  | node d cs =>
    simp only [assign]
    split
    · exact setNoCheck_nodeOk _ _ _ h
    · split
      · exact h
      · split
        · exact h
        · exact setNoCheck_nodeOk _ _ _ h

theorem force_nodeOk (v : Val) (s : Chars) (t : Tree) :
    NodeOk (force v s t).1.data (force v s t).1.kids.isEmpty := by
  cases t with
  | node d cs => simp only [force]; apply assign_nodeOk; intro h; simp [Tree.data] at h

theorem as_nodeOk (env : Env) (ty : Ty) (t : Tree) (h : NodeOk t.data t.kids.isEmpty) :
    NodeOk (as env ty t).1.data (as env ty t).1.kids.isEmpty := by
  cases t with
  | node d cs =>
    simp only [as]
    split
    · exact h
    · split
      · exact h
      · exact h

theorem NodeOk_used {d : Data} {b u : Bool} (h : NodeOk d b) : NodeOk { d with used := u } b := h

theorem withDefault_nodeOk (env : Env) (ty : Ty) (v : Val) (t : Tree) (h : NodeOk t.data t.kids.isEmpty) :
    NodeOk (withDefault env ty v t).1.data (withDefault env ty v t).1.kids.isEmpty := by
  cases t with
  | node d cs =>
    have h1 := assign_nodeOk v defaultSource (.node d cs) h
    have h2 := as_nodeOk env ty (.node d cs) h
    simp only [withDefault]
    split
    · split
      · rename_i heq; rw [heq] at h1; exact h1
      · rename_i heq; rw [heq] at h1; exact h1
    · split
      · rename_i heq; rw [heq] at h2; exact h2
      · rename_i heq; rw [heq] at h2
        split
        · exact h2
        · split <;> exact h2

theorem withDefaultConst_nodeOk (env : Env) (ty : Ty) (v : Val) (t : Tree) (h : NodeOk t.data t.kids.isEmpty) :
    NodeOk (withDefaultConst env ty v t).1.data (withDefaultConst env ty v t).1.kids.isEmpty := by
  cases t with
  | node d cs =>
    have h2 := as_nodeOk env ty (.node d cs) h
    simp only [withDefaultConst]
    split
    · exact h
    · split
      · rename_i heq; rw [heq] at h2; exact h2
      · rename_i heq; rw [heq] at h2
        split
        · exact h2
        · split <;> exact h2

theorem assign_ok_data (v : Val) (s : Chars) (d : Data) (cs : Kids) (h : (assign v s (.node d cs)).2 = .ok ()) :
    assign v s (.node d cs) =
      (.node { d with value := v, source := some s, used := false, isSection := false } cs, .ok ()) ∧
      cs.isEmpty = true := by
  have key : ∀ (_ : (setNoCheck v s (.node d cs)).2 = .ok ()), setNoCheck v s (.node d cs) =
      (.node { d with value := v, source := some s, used := false, isSection := false } cs, .ok ()) ∧
      cs.isEmpty = true := by
    intro h
    rw [setNoCheck_ok] at h ⊢
    split
    · rename_i hc; exact ⟨rfl, hc⟩
    · rename_i hc; simp [hc] at h
  simp only [assign] at h ⊢
  split
  · exact key h
  · split
    · rename_i he; simp [he] at h
    · rename_i he
      simp only [he] at h
      split
      · rename_i hc; rw [if_pos hc] at h; simp at h
      · rename_i hc; rw [if_neg hc] at h; exact key h

theorem overrideDefault_nodeOk (env : Env) (ty : Ty) (v : Val) (t : Tree) (h : NodeOk t.data t.kids.isEmpty) :
    NodeOk (overrideDefault env ty v t).1.data (overrideDefault env ty v t).1.kids.isEmpty := by
  cases t with
  | node d cs =>
    have h1 := assign_nodeOk v userDefault (.node d cs) h
    have h2 := as_nodeOk env ty (.node d cs) h
    simp only [overrideDefault]
    split
    · split
      · rename_i heq
        have := assign_ok_data v userDefault d cs (by rw [heq])
        rw [this.1] at heq
        simp only [Prod.mk.injEq, Tree.node.injEq, and_true] at heq
        obtain ⟨rfl, rfl⟩ := heq
        intro _
        exact ⟨by simp [Tree.data], this.2⟩
      · rename_i heq; rw [heq] at h1; exact h1
    · exact h2

theorem assignRepeat_nodeOk (v : Val) (b : Bool) (s : Chars) (t : Tree) :
    NodeOk (assignRepeat v b s t).1.data (assignRepeat v b s t).1.kids.isEmpty := by
  have h := force_nodeOk v s t
  unfold assignRepeat
  split
  · rename_i d cs heq
    rw [heq] at h
    intro hs
    cases b
    · exact h hs
    · exact h hs
  · exact h

theorem act_nodeOk (env : Env) (op : Op) (hop : op.isSetCond = false) (t : Tree) (h : NodeOk t.data t.kids.isEmpty) :
    NodeOk (op.act env t).1.data (op.act env t).1.kids.isEmpty := by
  cases op with
  | assign p v s => exact assign_nodeOk _ _ _ h
  | force p v s => exact force_nodeOk _ _ _
  | assignRepeat p v b s => exact assignRepeat_nodeOk _ _ _ _
  | read p ty => exact as_nodeOk _ _ _ h
  | withDefault p ty v => exact withDefault_nodeOk _ _ _ _ h
  | withDefaultConst p ty v => exact withDefaultConst_nodeOk _ _ _ _ h
  | overrideDefault p ty v => exact overrideDefault_nodeOk _ _ _ _ h
  | setCond p => simp [Op.isSetCond] at hop
  | touch p => exact h

theorem Inv_nodeOk {t : Tree} (h : Inv t) {p : List Chars} {u : Tree} (hu : t.sub p = some u) :
    NodeOk u.data u.kids.isEmpty := by
  intro hs
  have := h p u.data (by rw [sub_lookup, hu]; rfl) hs
  exact ⟨this.1, (hasKids_iff t p u hu).mpr this.2⟩

theorem Inv_of_nodeOk {t : Tree} (h : ∀ p u, t.sub p = some u → NodeOk u.data u.kids.isEmpty) : Inv t := by
  intro p d hl hs
  rw [sub_lookup] at hl
  cases hu : t.sub p with
  | none => simp [hu] at hl
  | some u =>
    simp only [hu, Option.map_some, Option.some.injEq] at hl
    subst hl
    have := h p u hu hs
    exact ⟨this.1, (hasKids_iff t p u hu).mp this.2⟩

theorem Inv_empty : Inv emptyTree := by
  intro p d hl hs
  rw [emptyTree, lookup_fresh] at hl
  split at hl
  · simp at hl; subst hl; simp at hs
  · simp at hl

theorem subOrFresh_nodeOk {t : Tree} (h : Inv t) (p : List Chars) :
    NodeOk (subOrFresh t p).data (subOrFresh t p).kids.isEmpty := by
  cases hs : t.sub p with
  | none =>
    obtain ⟨nm, hnm⟩ := subOrFresh_of_none p t hs
    rw [hnm]; intro h; simp [fresh, Tree.data] at h
  | some u => rw [subOrFresh_of_sub p t u hs]; exact Inv_nodeOk h hs

theorem subOrFresh_data_cases (t : Tree) (q : List Chars) :
    (∃ d, t.lookup q = some d ∧ (subOrFresh t q).data = d) ∨
    (t.lookup q = none ∧ ∃ nm, subOrFresh t q = fresh nm) := by
  cases h : t.lookup q with
  | some d => exact .inl ⟨d, rfl, subOrFresh_data_of_lookup h⟩
  | none => exact .inr ⟨rfl, subOrFresh_of_lookup_none h⟩

/-- Proper prefixes of a non-blocked path are sections (or new). -/
theorem prefix_section {t : Tree} {p q : List Chars} (hb : ¬ Blocked t p) (hq : q <+: p) (hne : q ≠ p) :
    (subOrFresh t q).data.isSection = true := by
  rcases subOrFresh_data_cases t q with ⟨d, hl, hd⟩ | ⟨_, nm, hnm⟩
  · rw [hd]
    by_contra hs
    obtain ⟨r, rfl⟩ := hq
    exact hb ⟨q, r, d, rfl, by rintro rfl; simp at hne, hl, by simpa using hs⟩
  · rw [hnm]; rfl

theorem step_Inv (env : Env) (t : Tree) (op : Op) (hc : Clean op.path) (h : Inv t) : Inv (step env t op).1 := by
  by_cases hb : Blocked t op.path
  · have := (access_blocked (op.act env) op.path t hc hb).2
    intro p d hl hs
    unfold step at hl ⊢
    rw [this] at hl
    obtain ⟨h1, h2⟩ := h p d hl hs
    exact ⟨h1, fun n => by rw [this]; exact h2 n⟩
  · by_cases hop : op.isSetCond = true
    · cases op with
      | setCond p =>
        obtain ⟨h1, h2, h3⟩ := access_gen (Op.act env (.setCond p)) p t hc hb
        intro q d hl hs
        simp only [step, Op.path] at hl ⊢
        by_cases hpq : p <+: q
        · obtain ⟨r, rfl⟩ := hpq
          rw [h2] at hl
          simp only [Op.act, setCond_lookup] at hl
          cases hu : t.sub p with
          | none =>
            obtain ⟨nm, hnm⟩ := subOrFresh_of_none p t hu
            rw [hnm, lookup_fresh] at hl
            split at hl
            · simp at hl; subst hl; simp at hs
            · simp at hl
          | some u =>
            have hsu := subOrFresh_of_sub p t u hu
            rw [hsu] at hl
            have e1 : ∀ r, t.lookup (p ++ r) = u.lookup r := by intro r; rw [lookup_append, hu]; rfl
            cases hu1 : u.lookup r with
            | none => simp [hu1] at hl
            | some e =>
              simp only [hu1, Option.map_some, Option.some.injEq] at hl
              subst hl
              obtain ⟨k1, k2⟩ := h (p ++ r) e (by rw [e1, hu1]) hs
              refine ⟨k1, ?_⟩
              intro n
              have := k2 n
              rw [List.append_assoc] at this ⊢
              rw [h2]
              simp only [Op.act, setCond_lookup, hsu]
              rw [e1] at this
              rw [this]; rfl
        · rw [h3 q hpq] at hl
          by_cases hqp : q <+: p
          · simp only [hqp, if_true, Option.some.injEq] at hl
            have := prefix_section hb hqp (by rintro rfl; exact hpq (List.prefix_refl _))
            rw [hl, hs] at this; simp at this
          · simp only [hqp, if_false] at hl
            obtain ⟨k1, k2⟩ := h q d hl hs
            refine ⟨k1, ?_⟩
            intro n
            by_cases hpn : p <+: q ++ [n]
            · exfalso
              -- then p = q ++ [n], whose proper prefix q is a value
              rcases List.prefix_concat_iff.mp hpn with h' | h'
              · exact hb ⟨q, [n], d, h', by simp, hl, hs⟩
              · exact hpq h'
            · rw [h3 _ hpn]
              have : ¬ (q ++ [n] <+: p) := fun h' => hqp ((List.prefix_append q [n]).trans h')
              simp only [this, if_false]
              exact k2 n
      | _ => simp [Op.isSetCond] at hop
    · have hop' : op.isSetCond = false := by simpa using hop
      obtain ⟨h1, h2⟩ := access_free (op.act env) (act_kids env op hop') op.path t hc hb
      have hk := act_nodeOk env op hop' (subOrFresh t op.path) (subOrFresh_nodeOk h _)
      rw [act_kids env op hop'] at hk
      intro q d hl hs
      unfold step at hl ⊢
      rw [h2] at hl
      by_cases hqp : q = op.path
      · subst hqp
        simp only [if_true, Option.some.injEq] at hl
        subst hl
        obtain ⟨k1, k2⟩ := hk hs
        refine ⟨k1, ?_⟩
        intro n
        rw [h2]
        have e1 : ¬ (op.path ++ [n] = op.path) := by simp
        have e2 : ¬ (op.path ++ [n] <+: op.path) := by
          intro h'; have := h'.length_le; simp at this
        simp only [e1, e2, if_false]
        rcases hsb : t.sub op.path with _ | u
        · rw [lookup_append, hsb]; rfl
        · rw [subOrFresh_of_sub _ _ _ hsb] at k2
          exact (hasKids_iff t op.path u hsb).mp k2 n
      · simp only [hqp, if_false] at hl
        by_cases hpre : q <+: op.path
        · simp only [hpre, if_true, Option.some.injEq] at hl
          have := prefix_section hb hpre hqp
          rw [hl, hs] at this; simp at this
        · simp only [hpre, if_false] at hl
          obtain ⟨k1, k2⟩ := h q d hl hs
          refine ⟨k1, ?_⟩
          intro n
          rw [h2]
          have e1 : ¬ (q ++ [n] = op.path) := by
            intro h'; exact hb ⟨q, [n], d, h'.symm, by simp, hl, hs⟩
          have e2 : ¬ (q ++ [n] <+: op.path) := fun h' => hpre ((List.prefix_append q [n]).trans h')
          simp only [e1, e2, if_false]
          exact k2 n

theorem run_Inv (env : Env) : ∀ (ops : List Op) (t : Tree), (∀ op ∈ ops, Clean op.path) → Inv t → Inv (run env t ops)
  | [], t, _, h => h
  | op :: ops, t, hc, h =>
    run_Inv env ops _ (fun o ho => hc o (by simp [ho])) (step_Inv env t op (hc op (by simp)) h)
end Verif.Opt
