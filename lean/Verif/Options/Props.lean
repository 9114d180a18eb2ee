import Verif.Options.Lemmas2
/-!
# C09, C10: assignment and defaults
-/
namespace Verif.Opt
open Verif.Str (Chars)

theorem valueAt_sub (t : Tree) (p : List Chars) :
    t.valueAt p = if (subOrFresh t p).data.isSection then none else some (subOrFresh t p).data := by
  unfold Tree.valueAt
  rcases subOrFresh_data_cases t p with ⟨d, hl, hd⟩ | ⟨hl, nm, hnm⟩
  · rw [hl, hd]
    cases hs : d.isSection <;> simp [Option.filter, hs]
  · rw [hl, hnm]; simp [fresh, Tree.data]

theorem kids_sub (t : Tree) (p : List Chars) : (subOrFresh t p).kids.isEmpty = true ↔ ¬ HasKids t p := by
  unfold HasKids
  push Not
  cases hs : t.sub p with
  | none =>
    obtain ⟨nm, hnm⟩ := subOrFresh_of_none p t hs
    rw [hnm]
    simp only [fresh, Tree.kids, Kids.isEmpty, true_iff]
    intro n d h
    rw [lookup_append, hs] at h; simp at h
  | some u =>
    rw [subOrFresh_of_sub p t u hs, hasKids_iff t p u hs]
    constructor
    · intro h n d; rw [h n]; simp
    · intro h n
      cases hl : t.lookup (p ++ [n]) with
      | none => rfl
      | some d => exact absurd hl (h n d)

theorem exists_node (t : Tree) : ∃ d cs, t = .node d cs := by cases t with | node d cs => exact ⟨d, cs, rfl⟩

theorem step_free (env : Env) (t : Tree) (op : Op) (hop : op.isSetCond = false) (hc : Clean op.path)
    (hb : ¬ Blocked t op.path) :
    (step env t op).2 = (op.act env (subOrFresh t op.path)).2 ∧
    (step env t op).1.valueAt op.path =
      (if (op.act env (subOrFresh t op.path)).1.data.isSection then none
       else some (op.act env (subOrFresh t op.path)).1.data) ∧
    ∀ q, q ≠ op.path → (step env t op).1.valueAt q = t.valueAt q := by
  obtain ⟨h1, h2⟩ := access_free (op.act env) (act_kids env op hop) op.path t hc hb
  refine ⟨h1, ?_, ?_⟩
  · unfold step Tree.valueAt
    rw [h2]
    simp only [if_true]
    cases hs : (op.act env (subOrFresh t op.path)).1.data.isSection <;> simp [Option.filter, hs]
  · intro q hq
    rw [valueAt_sub t q]
    unfold step Tree.valueAt
    rw [h2]
    simp only [hq, if_false]
    by_cases hqp : q <+: op.path
    · have := prefix_section hb hqp hq
      simp [hqp, Option.filter, this]
    · simp only [hqp, if_false]
      rw [← valueAt_sub]
      rfl

theorem step_blocked (env : Env) (t : Tree) (op : Op) (hc : Clean op.path) (hb : Blocked t op.path) :
    (step env t op).2 = .error (.exc "index a value") ∧ ∀ q, (step env t op).1.lookup q = t.lookup q :=
  access_blocked (op.act env) op.path t hc hb

/-- A value stored where a proper prefix is a value cannot exist. -/
theorem valueAt_not_blocked {t : Tree} (h : Inv t) {p : List Chars} {e : Data} (hv : t.valueAt p = some e) :
    ¬ Blocked t p := by
  rintro ⟨q, r, d, rfl, hr, hl, hs⟩
  obtain ⟨_, h2⟩ := h q d hl hs
  cases r with
  | nil => exact hr rfl
  | cons n ns =>
    have h3 := h2 n
    have : t.lookup (q ++ n :: ns) = none := by
      have : q ++ n :: ns = (q ++ [n]) ++ ns := by simp
      rw [this, lookup_append]
      have := sub_lookup (q ++ [n]) t
      rw [h3] at this
      cases hsub : t.sub (q ++ [n]) with
      | none => rfl
      | some u => rw [hsub] at this; simp at this
    simp [Tree.valueAt, this] at hv

/-! ## C09 -/

/-- The outcome of an assignment, exactly: it succeeds unless the path runs through a value, the option is a section
with contents, or the option already holds a *different* value given (not by default, not time-dependent) by the *same*
source. -/
theorem C09_assign_succeeds_iff (env : Env) (t : Tree) (p : List Chars) (v : Val) (s : Chars) (hc : Clean p)
    (hi : Inv t) :
    (step env t (.assign p v s)).2 = .ok none ↔
      ¬ Blocked t p ∧ ¬ HasKids t p ∧
      ¬ ((∀ l, v ≠ .arr l) ∧ ∃ e, t.valueAt p = some e ∧ e.source = some s ∧ s ≠ defaultSource ∧ e.timeDim = false ∧
          e.value ≠ v) := by
  by_cases hb : Blocked t p
  · simp [(step_blocked env t (.assign p v s) hc hb).1, hb]
  · obtain ⟨h1, _, _⟩ := step_free env t (.assign p v s) rfl hc hb
    rw [h1]
    have hk := kids_sub t p
    have hv := valueAt_sub t p
    have hnode := subOrFresh_nodeOk hi p
    simp only [Op.path, Op.act] at *
    obtain ⟨d, cs, hu0⟩ := exists_node (subOrFresh t p)
    simp only [hu0] at *
    simp only [Tree.kids, Tree.data] at hk hv hnode
    have key : (setNoCheck v s (.node d cs)).2 = .ok () ↔ ¬ HasKids t p := by
      rw [← hk, setNoCheck_ok]
      cases cs.isEmpty <;> simp
    have map_ok : ∀ o : Out Unit, (o.map (fun _ => (none : Option Val)) = .ok none) ↔ o = .ok () := by
      intro o; cases o <;> simp [Except.map]
    rw [map_ok]
    simp only [hb, not_false_eq_true, true_and]
    have hne : ∀ (P : Prop), (¬ HasKids t p ∧ ¬ P) → ¬ HasKids t p := fun P h => h.1
    by_cases harr : ∃ l, v = .arr l
    · obtain ⟨l, rfl⟩ := harr
      simp only [assign]
      rw [key]; simp
    · have harr' : ∀ l, v ≠ .arr l := fun l h => harr ⟨l, h⟩
      have hassign : assign v s (.node d cs) = (match isSet d with
          | .error e => (.node d cs, .error e)
          | .ok b => if b ∧ d.timeDim = false ∧ d.value ≠ v ∧ d.source = some s then
              (.node d cs, .error (.exc "same source, new value")) else setNoCheck v s (.node d cs)) := by
        cases v <;> first | rfl | exact absurd rfl (harr' _)
      rw [hassign, hv]
      by_cases hs0 : d.isSection = true
      · have : isSet d = .ok false := by simp [isSet, hs0]
        simp only [this]
        simp [key, hs0]
      · have hs : d.isSection = false := by simpa using hs0
        simp only [hs0, if_false]
        obtain ⟨k1, k2⟩ := hnode hs
        cases hsrc : d.source with
        | none => exact absurd hsrc k1
        | some s' =>
          have : isSet d = .ok (decide (s' ≠ defaultSource)) := by simp [isSet, hs, hsrc]
          simp only [this]
          by_cases hcond : (decide (s' ≠ defaultSource)) = true ∧ d.timeDim = false ∧ d.value ≠ v ∧ some s' = some s
          · rw [if_pos hcond]
            simp only [reduceCtorEq, false_iff]
            rintro ⟨_, h2⟩
            apply h2
            obtain ⟨c1, c2, c3, c4⟩ := hcond
            simp only [Option.some.injEq] at c4
            subst c4
            exact ⟨harr', d, by simp, by simp [hsrc], by simpa using c1, c2, c3⟩
          · rw [if_neg hcond, key]
            constructor
            · intro h; refine ⟨h, ?_⟩
              rintro ⟨_, e, he, h3, h4, h5, h6⟩
              simp at he; subst he
              rw [hsrc] at h3
              simp at h3; subst h3
              exact hcond ⟨by simpa using h4, h5, h6, rfl⟩
            · exact fun h => h.1

/-- `force` succeeds on every option that is not a section with contents (and whose path is not through a value). -/
theorem C09_force_succeeds_iff (env : Env) (t : Tree) (p : List Chars) (v : Val) (s : Chars) (hc : Clean p) :
    (step env t (.force p v s)).2 = .ok none ↔ ¬ Blocked t p ∧ ¬ HasKids t p := by
  by_cases hb : Blocked t p
  · simp [(step_blocked env t (.force p v s) hc hb).1, hb]
  · obtain ⟨h1, _, _⟩ := step_free env t (.force p v s) rfl hc hb
    rw [h1]
    have hk := kids_sub t p
    simp only [Op.path, Op.act] at *
    obtain ⟨d, cs, hu0⟩ := exists_node (subOrFresh t p)
    simp only [hu0] at *
    simp only [Tree.kids] at hk
    have map_ok : ∀ o : Out Unit, (o.map (fun _ => (none : Option Val)) = .ok none) ↔ o = .ok () := by
      intro o; cases o <;> simp [Except.map]
    rw [map_ok]
    simp only [hb, not_false_eq_true, true_and, ← hk, force]
    have : ∀ dd, (setNoCheck v s (.node dd cs)).2 = .ok () ↔ cs.isEmpty = true := by
      intro dd; rw [setNoCheck_ok]; cases cs.isEmpty <;> simp
    cases v <;> simp [assign, isSet, this]

/-- What is remembered about an option that has a value. -/
structure Cell where
  value : Val
  source : Option Chars
  used : Bool

def cellOf (d : Data) : Cell := ⟨d.value, d.source, d.used⟩

/-- A read that can be converted to the requested type marks the option as used. -/
def Cell.read (env : Env) (ty : Ty) (c : Cell) : Cell :=
  if (convert env ty c.value).isOk then { c with used := true } else c

/-- The specification: one independent cell per option.  `ok` tells whether the call returned normally. -/
def specStep (env : Env) (c : Option Cell) : Op → Bool → Option Cell
  | .assign _ v s, ok | .force _ v s, ok | .assignRepeat _ v _ s, ok => if ok then some ⟨v, some s, false⟩ else c
  | .read _ ty, _ => c.map (Cell.read env ty)
  | .withDefault _ ty v, ok => match c with
    | none => if ok then some ⟨v, some defaultSource, true⟩ else none
    | some c => some (c.read env ty)
  | .withDefaultConst _ ty _, _ => c.map (Cell.read env ty)
  | .overrideDefault _ ty v, ok => match c with
    | none => if ok then some ⟨v, some userDefault, false⟩ else none
    | some c => some (c.read env ty)
  | .setCond _, _ | .touch _, _ => c

/-- What is visible at a node. -/
def cellAt (t : Tree) : Option Cell := if t.data.isSection then none else some (cellOf t.data)

theorem as_cell (env : Env) (ty : Ty) (d : Data) (cs : Kids) :
    cellAt (as env ty (.node d cs)).1 = (cellAt (.node d cs)).map (Cell.read env ty) := by
  by_cases hs : d.isSection = true
  · simp [as, cellAt, Tree.data, hs]
  · cases hcv : convert env ty d.value with
    | ok v => simp [as, cellAt, Tree.data, hs, hcv, Cell.read, cellOf, Out.isOk]
    | error e => simp [as, cellAt, Tree.data, hs, hcv, Cell.read, cellOf, Out.isOk]

theorem assign_cell (v : Val) (s : Chars) (d : Data) (cs : Kids) :
    cellAt (assign v s (.node d cs)).1 =
      if (assign v s (.node d cs)).2.isOk then some ⟨v, some s, false⟩ else cellAt (.node d cs) := by
  cases hr : (assign v s (.node d cs)).2 with
  | ok u =>
    have := (assign_ok_data v s d cs (by rw [hr])).1
    rw [this]
    simp [cellAt, Tree.data, cellOf, Out.isOk]
  | error e =>
    simp only [Out.isOk, Bool.false_eq_true, if_false]
    have key : (setNoCheck v s (.node d cs)).2 = .error e → (setNoCheck v s (.node d cs)).1 = .node d cs := by
      rw [setNoCheck_ok]; cases cs.isEmpty <;> simp
    have : (assign v s (.node d cs)).1 = .node d cs := by
      simp only [assign] at hr ⊢
      split
      · exact key hr
      · split
        · rfl
        · rename_i he
          simp only [he] at hr
          split
          · rfl
          · rename_i hc; rw [if_neg hc] at hr; exact key hr
    rw [this]

theorem isOk_map {α β : Type} (o : Out α) (f : α → β) : Out.isOk (o.map f) = o.isOk := by
  cases o <;> rfl

theorem force_cell (v : Val) (s : Chars) (d : Data) (cs : Kids) (hn : NodeOk d cs.isEmpty) :
    cellAt (force v s (.node d cs)).1 =
      if (force v s (.node d cs)).2.isOk then some ⟨v, some s, false⟩ else cellAt (.node d cs) := by
  simp only [force]
  rw [assign_cell]
  by_cases hok : (assign v s (.node { d with isSection := true } cs)).2.isOk = true
  · simp [hok]
  · simp only [hok, Bool.false_eq_true, if_false]
    cases hs : d.isSection with
    | true => simp [cellAt, Tree.data, hs]
    | false =>
      exfalso
      have he := (hn hs).2
      have : ∀ dd, (setNoCheck v s (.node dd cs)).2 = .ok () := by
        intro dd; rw [setNoCheck_ok]; simp [he]
      have h2 : (assign v s (.node { d with isSection := true } cs)).2 = .ok () := by
        cases v <;> simp [assign, isSet, this]
      rw [h2] at hok; simp [Out.isOk] at hok

theorem act_cell (env : Env) (op : Op) (hop : op.isSetCond = false) (d : Data) (cs : Kids)
    (hn : NodeOk d cs.isEmpty) :
    cellAt (op.act env (.node d cs)).1 = specStep env (cellAt (.node d cs)) op (op.act env (.node d cs)).2.isOk := by
  cases op with
  | assign p v s => simp only [Op.act, specStep, isOk_map]; exact assign_cell v s d cs
  | force p v s => simp only [Op.act, specStep, isOk_map]; exact force_cell v s d cs hn
  | assignRepeat p v b s =>
    simp only [Op.act, specStep, isOk_map]
    have h := force_cell v s d cs hn
    unfold assignRepeat
    cases hf : force v s (.node d cs) with
    | mk t' o =>
      rw [hf] at h
      cases t' with
      | node d' cs' =>
        cases o with
        | ok u =>
          simp only [Out.isOk, if_true] at h ⊢
          rw [← h]
          cases b <;> by_cases hz : d'.isSection = true <;> simp [cellAt, Tree.data, cellOf, hz]
        | error e => simpa using h
  | read p ty => simp only [Op.act, specStep]; exact as_cell env ty d cs
  | withDefaultConst p ty v =>
    simp only [Op.act, specStep]
    rw [← as_cell]
    simp only [withDefaultConst]
    cases hs : d.isSection with
    | true => simp [as, hs]
    | false =>
      simp only [Bool.false_eq_true, if_false]
      cases hr : as env ty (.node d cs) with
      | mk t' o =>
        cases o with
        | error e => rfl
        | ok r =>
          simp only
          split
          · rfl
          · split <;> rfl
  | withDefault p ty v =>
    simp only [Op.act, specStep, isOk_map]
    cases hs : d.isSection with
    | true =>
      have hcell : cellAt (.node d cs) = none := by simp [cellAt, Tree.data, hs]
      rw [hcell]
      simp only [withDefault, hs, if_true]
      cases hr : assign v defaultSource (.node d cs) with
      | mk t' o =>
        cases t' with
        | node d' cs' =>
          cases o with
          | ok u =>
            have := (assign_ok_data v defaultSource d cs (by rw [hr])).1
            rw [hr] at this
            simp only [Prod.mk.injEq, Tree.node.injEq, and_true] at this
            obtain ⟨rfl, rfl⟩ := this
            simp [cellAt, Tree.data, cellOf, Out.isOk]
          | error e =>
            have h := assign_cell v defaultSource d cs
            rw [hr] at h
            simp only [Out.isOk, Bool.false_eq_true, if_false] at h ⊢
            rw [h, hcell]
    | false =>
      have hcell : cellAt (.node d cs) = some (cellOf d) := by simp [cellAt, Tree.data, hs]
      have h := as_cell env ty d cs
      rw [hcell] at h ⊢
      simp only [Option.map_some] at h
      simp only
      rw [← h]
      simp only [withDefault, hs, Bool.false_eq_true, if_false]
      cases hr : as env ty (.node d cs) with
      | mk t' o =>
        cases o with
        | error e => rfl
        | ok r =>
          simp only
          split
          · rfl
          · split <;> rfl
  | overrideDefault p ty v =>
    simp only [Op.act, specStep, isOk_map]
    cases hs : d.isSection with
    | true =>
      have hcell : cellAt (.node d cs) = none := by simp [cellAt, Tree.data, hs]
      rw [hcell]
      simp only [overrideDefault, hs, if_true]
      cases hr : assign v userDefault (.node d cs) with
      | mk t' o =>
        cases t' with
        | node d' cs' =>
          cases o with
          | ok u =>
            have := (assign_ok_data v userDefault d cs (by rw [hr])).1
            rw [hr] at this
            simp only [Prod.mk.injEq, Tree.node.injEq, and_true] at this
            obtain ⟨rfl, rfl⟩ := this
            simp [cellAt, Tree.data, cellOf, Out.isOk]
          | error e =>
            have h := assign_cell v userDefault d cs
            rw [hr] at h
            simp only [Out.isOk, Bool.false_eq_true, if_false] at h ⊢
            rw [h, hcell]
    | false =>
      have hcell : cellAt (.node d cs) = some (cellOf d) := by simp [cellAt, Tree.data, hs]
      have h := as_cell env ty d cs
      rw [hcell] at h ⊢
      simp only [Option.map_some] at h
      simp only [overrideDefault, hs, Bool.false_eq_true, if_false]
      exact h
  | setCond p => simp [Op.isSetCond] at hop
  | touch p => rfl

theorem cellAt_sub (t : Tree) (p : List Chars) : (t.valueAt p).map cellOf = cellAt (subOrFresh t p) := by
  rw [valueAt_sub, cellAt]; split <;> rfl

/-- Refinement, one step: each call acts on the option it names as the specification says, and no other option's value,
source or used-flag changes. -/
theorem C09_step (env : Env) (t : Tree) (op : Op) (hc : Clean op.path) (hi : Inv t) (q : List Chars) :
    ((step env t op).1.valueAt q).map cellOf =
      if op.path = q then specStep env ((t.valueAt q).map cellOf) op (step env t op).2.isOk
      else (t.valueAt q).map cellOf := by
  by_cases hb : Blocked t op.path
  · obtain ⟨h1, h2⟩ := step_blocked env t op hc hb
    have hv : (step env t op).1.valueAt q = t.valueAt q := by unfold Tree.valueAt; rw [h2]
    rw [hv, h1]
    by_cases hq : op.path = q
    · subst hq
      have hnone : t.valueAt op.path = none := by
        cases hv' : t.valueAt op.path with
        | none => rfl
        | some e => exact absurd hb (valueAt_not_blocked hi hv')
      rw [hnone]
      cases op <;> simp [specStep, Out.isOk]
    · simp [hq]
  · by_cases hop : op.isSetCond = false
    · obtain ⟨h1, h2, h3⟩ := step_free env t op hop hc hb
      by_cases hq : op.path = q
      · subst hq
        simp only [if_true]
        rw [h2, h1, cellAt_sub]
        have hn := subOrFresh_nodeOk hi op.path
        obtain ⟨d, cs, hu0⟩ := exists_node (subOrFresh t op.path)
        simp only [hu0] at *
        rw [← act_cell env op hop d cs hn]
        unfold cellAt
        split <;> rfl
      · simp only [hq, if_false]
        rw [h3 q (fun h => hq h.symm)]
    · cases op with
      | setCond p =>
        obtain ⟨h1, h2, h3⟩ := access_gen (Op.act env (.setCond p)) p t hc hb
        have goal : ((step env t (.setCond p)).1.valueAt q).map cellOf = (t.valueAt q).map cellOf := by
          simp only [step, Op.path, Tree.valueAt]
          by_cases hpq : p <+: q
          · obtain ⟨r, rfl⟩ := hpq
            rw [h2]
            simp only [Op.act, setCond_lookup]
            cases hu : t.sub p with
            | none =>
              obtain ⟨nm, hnm⟩ := subOrFresh_of_none p t hu
              rw [hnm, lookup_fresh, lookup_append, hu]
              by_cases hr : r = [] <;> simp [hr, Option.filter]
            | some u =>
              rw [subOrFresh_of_sub p t u hu, lookup_append, hu]
              simp only [Option.bind_some]
              cases u.lookup r with
              | none => rfl
              | some e => cases hs : e.isSection <;> simp [Option.filter, hs, cellOf]
          · rw [h3 q hpq]
            by_cases hqp : q <+: p
            · have hsec := prefix_section hb hqp (by rintro rfl; exact hpq (List.prefix_refl _))
              simp only [hqp, if_true]
              have := valueAt_sub t q
              rw [hsec] at this
              simp only [Tree.valueAt, if_true] at this
              rw [this]
              simp [Option.filter, hsec]
            · simp [hqp]
        rw [goal]
        by_cases hq : (Op.setCond p).path = q <;> simp [hq, specStep]
      | _ => simp [Op.isSetCond] at hop

/-- The calls of a history together with whether each returned normally. -/
def log (env : Env) : Tree → List Op → List (Op × Bool)
  | _, [] => []
  | t, op :: ops => (op, (step env t op).2.isOk) :: log env (step env t op).1 ops

/-- Refinement, whole histories: after any sequence of calls on an empty tree, option `q` holds what a single cell fed
only with the calls naming `q` would hold: the last successfully assigned value, its source, and whether it has been
read since. -/
theorem C09_history (env : Env) (ops : List Op) (hc : ∀ op ∈ ops, Clean op.path) (q : List Chars) :
    ((run env emptyTree ops).valueAt q).map cellOf =
      (log env emptyTree ops).foldl (fun c o => if o.1.path = q then specStep env c o.1 o.2 else c) none := by
  have gen : ∀ (ops : List Op) (t : Tree), (∀ op ∈ ops, Clean op.path) → Inv t →
      ((run env t ops).valueAt q).map cellOf =
        (log env t ops).foldl (fun c o => if o.1.path = q then specStep env c o.1 o.2 else c)
          ((t.valueAt q).map cellOf) := by
    intro ops
    induction ops with
    | nil => intro t _ _; rfl
    | cons op ops ih =>
      intro t hc hi
      have hco := hc op (by simp)
      have := ih (step env t op).1 (fun o ho => hc o (by simp [ho])) (step_Inv env t op hco hi)
      simp only [log, List.foldl_cons]
      rw [← C09_step env t op hco hi q]
      exact this
  have h0 : (emptyTree.valueAt q).map cellOf = none := by
    unfold Tree.valueAt emptyTree
    rw [lookup_fresh]
    by_cases hq : q = [] <;> simp [hq, Option.filter]
  rw [gen ops emptyTree hc Inv_empty, h0]

/-- A conflicting reassignment from the same source throws and changes nothing anywhere. -/
theorem C09_conflict_rejected (env : Env) (t : Tree) (p : List Chars) (v : Val) (s : Chars) (e : Data) (hc : Clean p)
    (hi : Inv t) (harr : ∀ l, v ≠ .arr l) (he : t.valueAt p = some e) (hs : e.source = some s)
    (hd : s ≠ defaultSource) (ht : e.timeDim = false) (hv : e.value ≠ v) (q : List Chars) :
    (step env t (.assign p v s)).2.isOk = false ∧
    ((step env t (.assign p v s)).1.valueAt q).map cellOf = (t.valueAt q).map cellOf := by
  have h1 : (step env t (.assign p v s)).2.isOk = false := by
    cases hr : (step env t (.assign p v s)).2 with
    | error e => rfl
    | ok r =>
      exfalso
      have hb := valueAt_not_blocked hi he
      have h0 := (step_free env t (.assign p v s) rfl hc hb).1
      have hr' : r = none := by
        rw [hr] at h0
        simp only [Op.act, Op.path] at h0
        cases ha : (assign v s (subOrFresh t p)).2 with
        | ok u => rw [ha] at h0; simpa [Except.map] using h0
        | error u => rw [ha] at h0; simp [Except.map] at h0
      rw [hr'] at hr
      have := (C09_assign_succeeds_iff env t p v s hc hi).mp hr
      exact this.2.2 ⟨harr, e, he, hs, hd, ht, hv⟩
  refine ⟨h1, ?_⟩
  rw [C09_step env t (.assign p v s) hc hi q, h1]
  split
  · simp [specStep]
  · rfl

/-- Every reachable tree satisfies the invariant used above. -/
theorem C09_reachable_inv (env : Env) (ops : List Op) (hc : ∀ op ∈ ops, Clean op.path) :
    Inv (run env emptyTree ops) := run_Inv env ops _ hc Inv_empty

section Examples
def exEnv : Env := ⟨fun _ => .error (.exc "no evaluator"), fun v => match v with | .str s => s | _ => []⟩
def pA : List Chars := [['a'], ['b']]
def exHist : List Op := [.assign pA (.int 3) ['f'], .read pA .int, .assign pA (.int 4) ['f'],
  .assign pA (.int 5) ['g'], .withDefault pA .int (.int 9), .withDefault [['c']] .int (.int 7)]

-- the third call is rejected, the others succeed; the value is the one from source "g", read since
example : (log exEnv emptyTree exHist).map (·.2) = [true, true, false, true, true, true] := by decide
example : ((run exEnv emptyTree exHist).valueAt pA).map (fun d => (d.value, d.source, d.used)) =
    some (.int 5, some ['g'], true) := by decide
example : ∀ op ∈ exHist, Clean op.path := by
  intro op h
  simp only [exHist, List.mem_cons, List.not_mem_nil, or_false] at h
  rcases h with rfl | rfl | rfl | rfl | rfl | rfl <;> simp [Op.path, Clean, pA]
end Examples

/-! ## C10 -/

/-- What the environment must provide for strings: converting a string value to a string does not change it. -/
def EnvOk (env : Env) : Prop := ∀ s, env.toStr (.str s) = s

theorem convert_self {env : Env} (he : EnvOk env) {v : Val} {ty : Ty} (h : tyOf v = some ty) :
    convert env ty v = .ok v := by
  cases v with
  | str s =>
    simp only [tyOf, Option.some.injEq] at h
    subst h
    simp [convert, he s]
  | arr l => simp [tyOf] at h
  | _ => simp only [tyOf, Option.some.injEq] at h; subst h; simp [convert]

theorem similar_refl (v : Val) : similar v v = true := by
  cases v <;> simp [similar]

/-- `withDefault` on an option that has no value (and could have one) returns the default, records it with source
"default" and marks it used. -/
theorem C10_unset (env : Env) (t : Tree) (p : List Chars) (ty : Ty) (v : Val) (hc : Clean p)
    (hb : ¬ Blocked t p) (hk : ¬ HasKids t p) (hu : t.valueAt p = none) :
    (step env t (.withDefault p ty v)).2 = .ok (some v) ∧
    ((step env t (.withDefault p ty v)).1.valueAt p).map cellOf = some ⟨v, some defaultSource, true⟩ := by
  obtain ⟨h1, h2, _⟩ := step_free env t (.withDefault p ty v) rfl hc hb
  have hk' := (kids_sub t p).mpr hk
  have hv := valueAt_sub t p
  rw [hu] at hv
  simp only [Op.path, Op.act] at *
  rw [h1, h2]
  obtain ⟨d, cs, hu0⟩ := exists_node (subOrFresh t p)
  simp only [hu0] at *
  simp only [Tree.kids, Tree.data] at hk' hv
  have hs : d.isSection = true := by
    cases h : d.isSection
    · simp [h] at hv
    · rfl
  have ha : assign v defaultSource (.node d cs) =
      (.node { d with value := v, source := some defaultSource, used := false, isSection := false } cs, .ok ()) := by
    have : ∀ dd, setNoCheck v defaultSource (.node dd cs) =
      (.node { dd with value := v, source := some defaultSource, used := false, isSection := false } cs, .ok ()) := by
      intro dd; rw [setNoCheck_ok]; simp [hk']
    cases v <;> simp [assign, isSet, hs, this]
  simp [withDefault, hs, ha, Except.map, Tree.data, cellOf]

/-- The result of `withDefault` on an option that has a value, exactly: the user's value (converted to the requested
type) whatever the default is; an option that was itself set by a default must agree with the new default. -/
theorem C10_set (env : Env) (t : Tree) (p : List Chars) (ty : Ty) (v : Val) (hc : Clean p) (hi : Inv t)
    (e : Data) (he : t.valueAt p = some e) :
    (step env t (.withDefault p ty v)).2 =
      (match convert env ty e.value with
       | .error x => .error x
       | .ok r => if e.source = some defaultSource ∧ similar r v = false
                  then .error (.exc "Inconsistent default values") else .ok (some r)) ∧
    ((step env t (.withDefault p ty v)).1.valueAt p).map (fun d => (d.value, d.source)) = some (e.value, e.source) := by
  have hb := valueAt_not_blocked hi he
  obtain ⟨h1, h2, _⟩ := step_free env t (.withDefault p ty v) rfl hc hb
  have hv := valueAt_sub t p
  have hn := subOrFresh_nodeOk hi p
  rw [he] at hv
  simp only [Op.path, Op.act] at *
  rw [h1, h2]
  obtain ⟨d, cs, hu0⟩ := exists_node (subOrFresh t p)
  simp only [hu0] at *
  simp only [Tree.kids, Tree.data] at hv hn
  have hs : d.isSection = false := by
    cases h : d.isSection
    · rfl
    · simp [h] at hv
  simp only [hs, Bool.false_eq_true, if_false, Option.some.injEq] at hv
  subst hv
  cases hsrc : e.source with
  | none => exact absurd hsrc (hn hs).1
  | some s =>
    simp only [withDefault, hs, Bool.false_eq_true, if_false, as]
    cases hcv : convert env ty e.value with
    | error x => simp [Except.map, Tree.data, hs, hsrc]
    | ok r =>
      simp only [hsrc, Option.some.injEq]
      by_cases hcond : s = defaultSource ∧ similar r v = false
      · simp [hcond, Except.map, Tree.data, hs, hsrc]
      · rw [if_neg hcond, if_neg hcond]; simp [Except.map, Tree.data, hs, hsrc]

/-- A value the user set is returned, regardless of the default. -/
theorem C10_user_value_wins (env : Env) (henv : EnvOk env) (t : Tree) (p : List Chars) (ty : Ty) (v : Val)
    (hc : Clean p) (hi : Inv t) (e : Data) (he : t.valueAt p = some e) (hty : tyOf e.value = some ty)
    (hsrc : e.source ≠ some defaultSource) :
    (step env t (.withDefault p ty v)).2 = .ok (some e.value) := by
  rw [(C10_set env t p ty v hc hi e he).1, convert_self henv hty]
  simp [hsrc]

/-- After a default has been recorded: the same default is returned again, a different one is rejected; the recorded
value does not change. -/
theorem C10_repeated_default (env : Env) (henv : EnvOk env) (t : Tree) (p : List Chars) (ty : Ty) (v w : Val)
    (hc : Clean p) (hi : Inv t) (hb : ¬ Blocked t p) (hk : ¬ HasKids t p) (hu : t.valueAt p = none)
    (hv : tyOf v = some ty) :
    let t1 := (step env t (.withDefault p ty v)).1
    (step env t1 (.withDefault p ty w)).2 =
      (if similar v w then .ok (some v) else .error (.exc "Inconsistent default values")) ∧
    ((step env t1 (.withDefault p ty w)).1.valueAt p).map (fun d => (d.value, d.source)) =
      some (v, some defaultSource) := by
  intro t1
  have h1 := (C10_unset env t p ty v hc hb hk hu).2
  have hi1 : Inv t1 := step_Inv env t _ hc hi
  cases he : t1.valueAt p with
  | none => rw [show (step env t (.withDefault p ty v)).1 = t1 from rfl, he] at h1; simp at h1
  | some e =>
    rw [show (step env t (.withDefault p ty v)).1 = t1 from rfl, he] at h1
    simp only [Option.map_some, Option.some.injEq, cellOf, Cell.mk.injEq] at h1
    obtain ⟨k1, k2, _⟩ := h1
    obtain ⟨g1, g2⟩ := C10_set env t1 p ty w hc hi1 e he
    rw [g1, g2, k1, k2, convert_self henv hv]
    refine ⟨?_, rfl⟩
    by_cases hsim : similar v w = true <;> simp [hsim]

/-- Over a whole history: once some `withDefault` has recorded a default, every later successful `withDefault` of the
same type on that option returns that same value, until the option is assigned or forced. -/
theorem C10_defaults_agree (env : Env) (henv : EnvOk env) (p : List Chars) (ty : Ty) (v : Val) (hv : tyOf v = some ty)
    (ws : List Val) : ∀ (t : Tree), Inv t → Clean p →
    ((t.valueAt p).map (fun d => (d.value, d.source)) = some (v, some defaultSource)) →
    ((run env t (ws.map (.withDefault p ty))).valueAt p).map (fun d => (d.value, d.source)) =
        some (v, some defaultSource) ∧
      ∀ w, (step env (run env t (ws.map (.withDefault p ty))) (.withDefault p ty w)).2 =
        (if similar v w then .ok (some v) else .error (.exc "Inconsistent default values")) := by
  have one : ∀ (t : Tree) (w : Val), Inv t → Clean p →
      ((t.valueAt p).map (fun d => (d.value, d.source)) = some (v, some defaultSource)) →
      ((step env t (.withDefault p ty w)).1.valueAt p).map (fun d => (d.value, d.source)) =
        some (v, some defaultSource) ∧
      (step env t (.withDefault p ty w)).2 =
        (if similar v w then .ok (some v) else .error (.exc "Inconsistent default values")) := by
    intro t w hi hc h
    cases he : t.valueAt p with
    | none => rw [he] at h; simp at h
    | some e =>
      rw [he] at h
      simp only [Option.map_some, Option.some.injEq, Prod.mk.injEq] at h
      obtain ⟨k1, k2⟩ := h
      obtain ⟨g1, g2⟩ := C10_set env t p ty w hc hi e he
      rw [g1, g2, k1, k2, convert_self henv hv]
      refine ⟨rfl, ?_⟩
      by_cases hsim : similar v w = true <;> simp [hsim]
  induction ws with
  | nil => intro t hi hc h; exact ⟨h, fun w => (one t w hi hc h).2⟩
  | cons w ws ih =>
    intro t hi hc h
    exact ih _ (step_Inv env t _ hc hi) hc (one t w hi hc h).1

/-- `overrideDefault` before any value was given makes later `withDefault` calls return the overriding value. -/
theorem C10_override (env : Env) (henv : EnvOk env) (t : Tree) (p : List Chars) (ty : Ty) (v w : Val)
    (hc : Clean p) (hi : Inv t) (hb : ¬ Blocked t p) (hk : ¬ HasKids t p) (hu : t.valueAt p = none)
    (hv : tyOf v = some ty) :
    (step env (step env t (.overrideDefault p ty v)).1 (.withDefault p ty w)).2 = .ok (some v) := by
  have hok : (step env t (.overrideDefault p ty v)).2.isOk = true := by
    obtain ⟨h1, _, _⟩ := step_free env t (.overrideDefault p ty v) rfl hc hb
    have hk' := (kids_sub t p).mpr hk
    have hv' := valueAt_sub t p
    rw [hu] at hv'
    rw [h1]
    simp only [Op.path, Op.act, isOk_map] at *
    obtain ⟨d, cs, hu0⟩ := exists_node (subOrFresh t p)
    simp only [hu0] at *
    simp only [Tree.kids, Tree.data] at hk' hv'
    have hs : d.isSection = true := by
      cases h : d.isSection
      · simp [h] at hv'
      · rfl
    have ha : assign v userDefault (.node d cs) =
        (.node { d with value := v, source := some userDefault, used := false, isSection := false } cs, .ok ()) := by
      have : ∀ dd, setNoCheck v userDefault (.node dd cs) =
        (.node { dd with value := v, source := some userDefault, used := false, isSection := false } cs, .ok ()) := by
        intro dd; rw [setNoCheck_ok]; simp [hk']
      cases v <;> simp [assign, isSet, hs, this]
    simp [overrideDefault, hs, ha, Out.isOk]
  have h2 := C09_step env t (.overrideDefault p ty v) hc hi p
  simp only [Op.path, if_true, hok, hu, Option.map_none, specStep] at h2
  have hi1 := step_Inv env t (.overrideDefault p ty v) hc hi
  generalize (step env t (.overrideDefault p ty v)).1 = t1 at *
  cases he : t1.valueAt p with
  | none => rw [he] at h2; simp at h2
  | some e =>
    rw [he] at h2
    simp only [Option.map_some, Option.some.injEq, cellOf, Cell.mk.injEq] at h2
    obtain ⟨k1, k2, _⟩ := h2
    have := C10_user_value_wins env henv t1 p ty w hc hi1 e he (by rw [k1]; exact hv) (by rw [k2]; decide)
    rw [this, k1]

/-- The const `withDefault` never changes any value, source or section flag: only the used-flag of the option read. -/
theorem C10_const_pure (env : Env) (p : List Chars) (ty : Ty) (v : Val) : ∀ (t : Tree) (q : List Chars),
    ((accessConst t p (withDefaultConst env ty v)).1.lookup q).map (fun d => (d.value, d.source, d.isSection, d.fullName)) =
      (t.lookup q).map (fun d => (d.value, d.source, d.isSection, d.fullName)) := by
  have base : ∀ (t : Tree) (q : List Chars),
      ((withDefaultConst env ty v t).1.lookup q).map (fun d => (d.value, d.source, d.isSection, d.fullName)) =
      (t.lookup q).map (fun d => (d.value, d.source, d.isSection, d.fullName)) := by
    intro t q
    have hk := withDefaultConst_kids env ty v t
    cases q with
    | cons n ns =>
      cases hw : (withDefaultConst env ty v t).1 with
      | node d' cs' =>
        cases t with
        | node d cs =>
          rw [hw] at hk; simp only [Tree.kids] at hk; subst hk
          rw [lookup_node_cons, lookup_node_cons]
    | nil =>
      rw [lookup_nil, lookup_nil]
      cases t with
      | node d cs =>
        simp only [withDefaultConst]
        split
        · rfl
        · simp only [as]
          split
          · rename_i heq
            split at heq
            · simp only [Prod.mk.injEq] at heq; rw [← heq.1]
            · split at heq <;> (simp only [Prod.mk.injEq] at heq; rw [← heq.1]; try rfl)
          · rename_i heq
            split at heq
            · simp at heq
            · split at heq
              · simp only [Prod.mk.injEq] at heq
                obtain ⟨rfl, _⟩ := heq
                split
                · rfl
                · split <;> rfl
              · simp at heq
  induction p with
  | nil => exact base
  | cons n ns ih =>
    intro t q
    cases t with
    | node d cs =>
      simp only [accessConst]
      split
      · rfl
      · split
        · exact ih _ q
        · cases hf : cs.find n with
          | none => rfl
          | some c =>
            cases q with
            | nil => rfl
            | cons m ms =>
              simp only
              rw [lookup_node_cons, lookup_node_cons, find_set]
              by_cases hm : n = m
              · subst hm
                simp only [if_true, Option.bind_some, hf]
                exact ih c ms
              · simp [hm]

/-- The const `withDefault` on an existing section or a value behaves as the non-const one does; on a missing option it
is an error of the caller's indexing. -/
theorem C10_const_value (env : Env) (ty : Ty) (v : Val) (t : Tree) :
    (withDefaultConst env ty v t).2 = if t.data.isSection then .ok v else (withDefault env ty v t).2 := by
  cases t with
  | node d cs =>
    simp only [withDefaultConst, withDefault, Tree.data]
    by_cases hs : d.isSection = true
    · simp [hs]
    · simp [hs]

section Examples
example : EnvOk exEnv := fun _ => rfl
-- a fresh option, a default, the same default, another default
example : ((step exEnv emptyTree (.withDefault pA .int (.int 3))).2,
    (step exEnv (step exEnv emptyTree (.withDefault pA .int (.int 3))).1 (.withDefault pA .int (.int 4))).2.isOk) =
    (.ok (some (.int 3)), false) := by decide
example : ¬ Blocked emptyTree pA ∧ ¬ HasKids emptyTree pA ∧ emptyTree.valueAt pA = none ∧ Inv emptyTree := by
  refine ⟨?_, ?_, by decide, Inv_empty⟩
  · rintro ⟨q, r, d, _, _, hl, hs⟩
    rw [emptyTree, lookup_fresh] at hl
    split at hl
    · simp at hl; subst hl; simp at hs
    · simp at hl
  · rintro ⟨n, d, h⟩
    rw [emptyTree, lookup_fresh] at h; simp at h
end Examples
end Verif.Opt
