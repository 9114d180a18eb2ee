import Verif.Options.Props
import Mathlib.Data.List.Intervals
/-!
# C11: paths and full names;  C12: unused options
-/
namespace Verif.Opt
open Verif.Str (Chars)

/-! ## C11 -/

/-- Specification: components joined by colons. -/
def joinPath : List Chars → Chars
  | [] => []
  | [n] => n
  | n :: ns => n ++ ':' :: joinPath ns

theorem splitPath_ne_nil : ∀ s : Chars, splitPath s ≠ []
  | [] => by simp [splitPath]
  | c :: cs => by
    have := splitPath_ne_nil cs
    simp only [splitPath]
    split
    · simp
    · split <;> simp

/-- The components of a path string: none contains a colon, and joined by colons they give the string back. -/
theorem C11_split (s : Chars) : joinPath (splitPath s) = s ∧ ∀ n ∈ splitPath s, ':' ∉ n := by
  induction s with
  | nil => simp [splitPath, joinPath]
  | cons c cs ih =>
    obtain ⟨h1, h2⟩ := ih
    have hne := splitPath_ne_nil cs
    simp only [splitPath]
    split
    · rename_i hc
      subst hc
      constructor
      · cases hp : splitPath cs with
        | nil => exact absurd hp hne
        | cons a l => rw [hp] at h1; simp [joinPath, h1]
      · intro n hn
        rcases List.mem_cons.mp hn with rfl | hn
        · simp
        · exact h2 n hn
    · rename_i hc
      cases hp : splitPath cs with
      | nil => exact absurd hp hne
      | cons a l =>
        rw [hp] at h1 h2
        constructor
        · cases l with
          | nil => simp [joinPath] at h1 ⊢; exact h1
          | cons b l => simp only [joinPath, List.cons_append] at h1 ⊢; rw [h1]
        · intro n hn
          rcases List.mem_cons.mp hn with rfl | hn
          · simp only [List.mem_cons, not_or]
            exact ⟨fun h => hc h.symm, h2 a (by simp)⟩
          · exact h2 n (by simp [hn])

/-- Joining colon-free components and splitting again gives the same components: a path determines its string and
conversely. -/
theorem C11_split_join : ∀ (p : List Chars), p ≠ [] → (∀ n ∈ p, ':' ∉ n) → splitPath (joinPath p) = p := by
  have pre : ∀ (n : Chars), ':' ∉ n → ∀ (s : Chars), splitPath (n ++ ':' :: s) = n :: splitPath s := by
    intro n
    induction n with
    | nil => intro _ s; simp [splitPath]
    | cons c cs ih =>
      intro h s
      simp only [List.mem_cons, not_or] at h
      simp only [List.cons_append, splitPath, ih h.2 s]
      have hcc : ¬ c = ':' := fun hc => h.1 hc.symm
      simp [hcc]
  have one : ∀ (n : Chars), ':' ∉ n → splitPath n = [n] := by
    intro n
    induction n with
    | nil => intro _; simp [splitPath]
    | cons c cs ih =>
      intro h
      simp only [List.mem_cons, not_or] at h
      simp only [splitPath, ih h.2]
      have hcc : ¬ c = ':' := fun hc => h.1 hc.symm
      simp [hcc]
  intro p
  induction p with
  | nil => intro h; exact absurd rfl h
  | cons n ns ih =>
    intro _ h
    cases ns with
    | nil => exact one n (h n (by simp))
    | cons m ms =>
      simp only [joinPath]
      rw [pre n (h n (by simp)), ih (by simp) (fun k hk => h k (by simp [hk]))]

theorem access_single {α : Type} (t : Tree) (n : Chars) (f : Tree → Tree × Out α) (ns : List Chars) :
    access t (n :: ns) f = access t [n] (fun u => access u ns f) := by
  cases t with
  | node d cs =>
    simp only [access]

/-- Indexing with a longer path is indexing step by step: `root[p ++ q] = root[p][q]`. -/
theorem C11_nested {α : Type} (f : Tree → Tree × Out α) : ∀ (p q : List Chars) (t : Tree),
    access t (p ++ q) f = access t p (fun u => access u q f)
  | [], q, t => by cases t; rfl
  | n :: ns, q, t => by
    rw [List.cons_append, access_single, access_single t n _ ns]
    have : (fun u => access u (ns ++ q) f) = (fun u => access u ns (fun u => access u q f)) :=
      funext (fun u => C11_nested f ns q u)
    rw [this]

theorem splitPath_colon (s : Chars) (h : ':' ∈ s) :
    splitPath s = s.takeWhile (fun c => decide (c ≠ ':')) ::
      splitPath ((s.dropWhile (fun c => decide (c ≠ ':'))).tail) := by
  induction s with
  | nil => simp at h
  | cons c cs ih =>
    by_cases hc : c = ':'
    · subst hc; simp [splitPath]
    · have h' : ':' ∈ cs := by
        rcases List.mem_cons.mp h with rfl | h
        · exact absurd rfl hc
        · exact h
      simp only [splitPath, hc, if_false, ih h']
      simp [List.takeWhile_cons, List.dropWhile_cons, hc]

theorem splitPath_no_colon (s : Chars) (h : ':' ∉ s) : splitPath s = [s] := by
  have := C11_split_join [s] (by simp) (by simpa using h)
  simpa [joinPath] using this

/-- The recursive colon-splitting lookup reaches exactly the node (and makes exactly the changes) of successive indexing
with the components: `opts["a:b:c"]` is `opts["a"]["b"]["c"]`, for every string, tree and operation. -/
theorem C11_path {α : Type} (f : Tree → Tree × Out α) : ∀ (fuel : Nat) (s : Chars) (t : Tree), s.count ':' < fuel →
    accessStr fuel t s f = access t (splitPath s) f
  | 0, s, t, h => by omega
  | fuel + 1, s, t, h => by
    simp only [accessStr]
    split
    · rename_i hc
      rw [splitPath_colon s hc, access_single _ _ _ (splitPath _)]
      refine congrArg (access t _) (funext (fun u => ?_))
      apply C11_path f fuel
      have hsplit : s = s.takeWhile (fun c => decide (c ≠ ':')) ++ s.dropWhile (fun c => decide (c ≠ ':')) :=
        (List.takeWhile_append_dropWhile).symm
      have hd : ∃ r, s.dropWhile (fun c => decide (c ≠ ':')) = ':' :: r := by
        clear h hsplit
        induction s with
        | nil => simp at hc
        | cons c cs ih =>
          by_cases h : c = ':'
          · exact ⟨cs, by simp [h]⟩
          · have h' : ':' ∈ cs := by
              rcases List.mem_cons.mp hc with rfl | h'
              · exact absurd rfl h
              · exact h'
            obtain ⟨r, hr⟩ := ih h'
            exact ⟨r, by simp only [List.dropWhile_cons, h, ne_eq, not_false_eq_true, decide_true, if_true]; exact hr⟩
      obtain ⟨r, hr⟩ := hd
      rw [hr]
      simp only [List.tail_cons]
      rw [hr] at hsplit
      have hcount := congrArg (List.count ':') hsplit
      rw [List.count_append, List.count_cons_self] at hcount
      omega
    · rename_i hc
      rw [splitPath_no_colon s hc]

/-- Indexing (which may create sections) never changes a value, source or used-flag stored anywhere. -/
theorem C11_index_changes_nothing (env : Env) (t : Tree) (p q : List Chars) (hc : Clean p) (hi : Inv t) :
    ((step env t (.touch p)).1.valueAt q).map cellOf = (t.valueAt q).map cellOf := by
  rw [C09_step env t (.touch p) hc hi q]
  split
  · simp [specStep]
  · rfl

/-- An empty component is skipped when the node reached is a section; on a value it throws and changes nothing. -/
theorem C11_empty_component {α : Type} (t : Tree) (q : List Chars) (f : Tree → Tree × Out α) :
    access t ([] :: q) f = if t.data.isSection then access t q f else (t, .error (.exc "index a value")) := by
  cases t with
  | node d cs => simp only [access, Tree.data]; by_cases h : d.isSection = true <;> simp [h]

/-- The const lookup reaches the same node as the non-const one whenever the path exists, with the same effect;
otherwise it throws and creates nothing. -/
theorem C11_const {α : Type} (f : Tree → Tree × Out α) : ∀ (p : List Chars) (t : Tree), Clean p →
    (t.lookup p ≠ none → accessConst t p f = access t p f) ∧
    (t.lookup p = none → (accessConst t p f).2.isOk = false ∧ ∀ q, (accessConst t p f).1.lookup q = t.lookup q)
  | [], t, _ => by cases t; simp [Tree.lookup, access, accessConst]
  | n :: ns, .node d cs, hc => by
    have hn : n ≠ [] := hc n (by simp)
    have ih := fun c => C11_const f ns c (fun m hm => hc m (by simp [hm]))
    rw [lookup_node_cons]
    simp only [access, accessConst, hn, if_false]
    cases hf : cs.find n with
    | none =>
      simp only [Option.bind_none, ne_eq, not_true_eq_false, false_implies, true_implies, true_and]
      split <;> simp [Out.isOk]
    | some c =>
      simp only [Option.bind_some, Option.getD_some]
      split
      · simp [Out.isOk]
      · constructor
        · intro h; rw [(ih c).1 h]
        · intro h
          obtain ⟨h1, h2⟩ := (ih c).2 h
          refine ⟨h1, ?_⟩
          intro q
          cases q with
          | nil => rfl
          | cons m ms =>
            rw [lookup_node_cons, lookup_node_cons, find_set]
            by_cases hm : n = m
            · subst hm; simp [h2, hf]
            · simp [hm]

/-- Every node's full name is the colon-joined path from a node called `nm`. -/
def NameInv (nm : Chars) (t : Tree) : Prop := ∀ p d, t.lookup p = some d → d.fullName = nameAlong nm p

theorem nameAlong_append : ∀ (p : List Chars) (nm : Chars) (q : List Chars),
    nameAlong nm (p ++ q) = nameAlong (nameAlong nm p) q
  | [], _, _ => rfl
  | n :: ns, nm, q => nameAlong_append ns (childName nm n) q

theorem subOrFresh_name : ∀ (p : List Chars) (t : Tree) (nm : Chars), NameInv nm t → ∀ r d,
    (subOrFresh t p).lookup r = some d → d.fullName = nameAlong nm (p ++ r)
  | [], t, nm, h, r, d, hl => by
    have : (subOrFresh t []) = t := by cases t; rfl
    rw [this] at hl; exact h r d hl
  | n :: ns, .node d cs, nm, h, r, e, hl => by
    simp only [subOrFresh] at hl
    have hd : d.fullName = nm := h [] d rfl
    rw [List.cons_append]
    show e.fullName = nameAlong (childName nm n) (ns ++ r)
    refine subOrFresh_name ns _ (childName nm n) ?_ r e hl
    intro q e' hq
    cases hf : cs.find n with
    | none =>
      rw [hf] at hq
      simp only [Option.getD_none, lookup_fresh] at hq
      split at hq
      · rename_i hq0
        simp only [Option.some.injEq] at hq
        subst hq; subst hq0; simp [nameAlong, hd]
      · simp at hq
    | some c =>
      rw [hf] at hq
      have := h (n :: q) e' (by rw [lookup_node_cons, hf]; exact hq)
      exact this

theorem assign_name (v : Val) (s : Chars) (t : Tree) : (assign v s t).1.data.fullName = t.data.fullName := by
  cases t with
  | node d cs =>
    have key : ∀ dd : Data, (setNoCheck v s (.node dd cs)).1.data.fullName = dd.fullName := by
      intro dd; rw [setNoCheck_ok]; split <;> rfl
    simp only [assign]
    split
    · exact key d
    · split
      · rfl
      · split
        · rfl
        · exact key d

theorem as_name (env : Env) (ty : Ty) (t : Tree) : (as env ty t).1.data.fullName = t.data.fullName := by
  cases t with
  | node d cs =>
    simp only [as]
    split
    · rfl
    · split <;> rfl

theorem act_name (env : Env) (op : Op) (t : Tree) : (op.act env t).1.data.fullName = t.data.fullName := by
  cases t with
  | node d cs =>
  cases op with
  | assign p v s => exact assign_name _ _ _
  | force p v s => simp only [Op.act, force]; rw [assign_name]; rfl
  | assignRepeat p v b s =>
    have h : (force v s (.node d cs)).1.data.fullName = d.fullName := by simp only [force]; rw [assign_name]; rfl
    simp only [Op.act, assignRepeat]
    split
    · rename_i heq; rw [heq] at h; simp only [Tree.data] at h ⊢; cases b <;> exact h
    · exact h
  | read p ty => exact as_name _ _ _
  | withDefault p ty v =>
    have h1 := assign_name v defaultSource (.node d cs)
    have h2 := as_name env ty (.node d cs)
    simp only [Op.act, withDefault]
    split
    · split
      · rename_i heq; rw [heq] at h1; exact h1
      · rename_i heq; rw [heq] at h1; exact h1
    · split
      · rename_i heq; rw [heq] at h2; exact h2
      · rename_i heq; rw [heq] at h2
        split
        · exact h2
        · split <;> exact h2
  | withDefaultConst p ty v =>
    have h2 := as_name env ty (.node d cs)
    simp only [Op.act, withDefaultConst]
    split
    · rfl
    · split
      · rename_i heq; rw [heq] at h2; exact h2
      · rename_i heq; rw [heq] at h2
        split
        · exact h2
        · split <;> exact h2
  | overrideDefault p ty v =>
    have h1 := assign_name v userDefault (.node d cs)
    have h2 := as_name env ty (.node d cs)
    simp only [Op.act, overrideDefault]
    split
    · split
      · rename_i heq; rw [heq] at h1; exact h1
      · rename_i heq; rw [heq] at h1; exact h1
    · exact h2
  | setCond p => rfl
  | touch p => rfl

theorem step_name (env : Env) (t : Tree) (op : Op) (nm : Chars) (hc : Clean op.path) (h : NameInv nm t) :
    NameInv nm (step env t op).1 := by
  by_cases hb : Blocked t op.path
  · have := (step_blocked env t op hc hb).2
    intro p d hl
    rw [this] at hl
    exact h p d hl
  · obtain ⟨_, h2, h3⟩ := access_gen (op.act env) op.path t hc hb
    intro q d hl
    unfold step at hl
    by_cases hpq : op.path <+: q
    · obtain ⟨r, rfl⟩ := hpq
      rw [h2] at hl
      by_cases hop : op.isSetCond = false
      · have hk := act_kids env op hop (subOrFresh t op.path)
        cases r with
        | nil =>
          rw [lookup_nil] at hl
          simp only [Option.some.injEq] at hl
          rw [← hl, act_name]
          exact subOrFresh_name op.path t nm h [] _ (lookup_nil _)
        | cons n ns =>
          have : (op.act env (subOrFresh t op.path)).1.lookup (n :: ns) = (subOrFresh t op.path).lookup (n :: ns) := by
            generalize (op.act env (subOrFresh t op.path)).1 = a at *
            generalize subOrFresh t op.path = b at *
            cases a; cases b
            simp only [Tree.kids] at hk
            subst hk
            rw [lookup_node_cons, lookup_node_cons]
          rw [this] at hl
          exact subOrFresh_name op.path t nm h _ _ hl
      · cases op with
        | setCond p =>
          simp only [Op.act, setCond_lookup] at hl
          cases hu : (subOrFresh t (Op.setCond p).path).lookup r with
          | none => rw [hu] at hl; simp at hl
          | some e =>
            rw [hu] at hl
            simp only [Option.map_some, Option.some.injEq] at hl
            rw [← hl]
            exact subOrFresh_name _ t nm h r e hu
        | _ => simp [Op.isSetCond] at hop
    · rw [h3 q hpq] at hl
      split at hl
      · simp only [Option.some.injEq] at hl
        rw [← hl]
        have := subOrFresh_name q t nm h [] _ (lookup_nil _)
        rw [List.append_nil] at this
        exact this
      · exact h q d hl

theorem nameAlong_ne {nm : Chars} (h : nm ≠ []) : ∀ p : List Chars, nameAlong nm p = joinPath (nm :: p) := by
  intro p
  induction p generalizing nm with
  | nil => rfl
  | cons n ns ih =>
    have hne : nm ++ ':' :: n ≠ [] := by simp
    simp only [nameAlong, childName, h, if_false]
    rw [ih hne]
    cases ns with
    | nil => simp [joinPath]
    | cons m ms => simp [joinPath]

theorem nameAlong_root (p : List Chars) (hc : Clean p) : nameAlong [] p = joinPath p := by
  cases p with
  | nil => rfl
  | cons n ns =>
    simp only [nameAlong, childName, if_true]
    exact nameAlong_ne (hc n (by simp)) ns

/-- After any history of calls on an empty tree, every node's full name spells its path. -/
theorem C11_full_names_partial (env : Env) (ops : List Op) (hc : ∀ op ∈ ops, Clean op.path) (p : List Chars) (hp : Clean p)
    (d : Data) (h : (run env emptyTree ops).lookup p = some d) : d.fullName = joinPath p := by
  have h0 : NameInv [] emptyTree := by
    intro p d hl
    rw [emptyTree, lookup_fresh] at hl
    split at hl
    · rename_i hp; subst hp; simp at hl; subst hl; rfl
    · simp at hl
  have gen : ∀ (ops : List Op) (t : Tree), (∀ op ∈ ops, Clean op.path) → NameInv [] t → NameInv [] (run env t ops) := by
    intro ops
    induction ops with
    | nil => intro t _ h; exact h
    | cons op ops ih =>
      intro t hc h
      exact ih _ (fun o ho => hc o (by simp [ho])) (step_name env t op [] (hc op (by simp)) h)
  rw [gen ops emptyTree hc h0 p d h, nameAlong_root p hp]

/-- Violation: copying a default from another option (`withDefault(const Options&)`, which is `*this = def`) also copies
the full name, so the option at path "a" then calls itself "b". -/
theorem C11_copied_default_violated :
    let t := run exEnv emptyTree [.assign [['b']] (.int 3) ['f']]
    let dflt := (t.sub [['b']]).getD emptyTree
    let t' := (access t [['a']] (withDefaultOpt exEnv dflt)).1
    (t'.lookup [['a']]).map (·.fullName) = some ['b'] := by decide

section Examples
example : splitPath "mesh:ddx:first".toList = ["mesh".toList, "ddx".toList, "first".toList] := by decide
example : ((run exEnv emptyTree exHist).lookup pA).map (·.fullName) = some "a:b".toList := by decide
end Examples

/-! ## C12 -/

mutual
/-- Keys are unique, as in a `std::map`. -/
def Tree.KeysOk : Tree → Prop
  | .node _ cs => cs.KeysOk
def Kids.KeysOk : Kids → Prop
  | .nil => True
  | .cons n t r => r.find n = none ∧ t.KeysOk ∧ r.KeysOk
end

theorem set_keysOk : ∀ (cs : Kids) (n : Chars) (t : Tree), cs.KeysOk → t.KeysOk → (cs.set n t).KeysOk
  | .nil, n, t, _, ht => by simp [Kids.set, Kids.KeysOk, Kids.find, ht]
  | .cons m u r, n, t, hc, ht => by
    simp only [Kids.KeysOk] at hc
    by_cases h : m = n
    · simp only [Kids.set, h, if_true, Kids.KeysOk]
      exact ⟨by rw [← h]; exact hc.1, ht, hc.2.2⟩
    · simp only [Kids.set, h, if_false, Kids.KeysOk]
      refine ⟨?_, hc.2.1, set_keysOk r n t hc.2.2 ht⟩
      rw [find_set_other r n m t (fun h' => h h'.symm)]
      exact hc.1

theorem find_keysOk : ∀ (cs : Kids) (n : Chars) (c : Tree), cs.KeysOk → cs.find n = some c → c.KeysOk
  | .nil, n, c, _, h => by simp [Kids.find] at h
  | .cons m u r, n, c, hc, h => by
    simp only [Kids.KeysOk] at hc
    simp only [Kids.find] at h
    split at h
    · simp only [Option.some.injEq] at h; rw [← h]; exact hc.2.1
    · exact find_keysOk r n c hc.2.2 h

theorem access_keysOk {α : Type} (f : Tree → Tree × Out α) (hf : ∀ t, t.KeysOk → (f t).1.KeysOk) :
    ∀ (p : List Chars) (t : Tree), t.KeysOk → (access t p f).1.KeysOk
  | [], t, h => by cases t; exact hf _ h
  | n :: ns, .node d cs, h => by
    simp only [access]
    split
    · exact h
    · split
      · exact access_keysOk f hf ns _ h
      · simp only [Tree.KeysOk] at h ⊢
        apply set_keysOk _ _ _ h
        apply access_keysOk f hf ns
        cases hfn : cs.find n with
        | none => simp [fresh, Tree.KeysOk, Kids.KeysOk]
        | some c => exact find_keysOk cs n c h hfn

theorem setCond_find_none : ∀ (cs : Kids) (n : Chars), cs.find n = none → cs.setCond.find n = none
  | .nil, n, _ => by simp [Kids.setCond, Kids.find]
  | .cons m t r, n, h => by
    simp only [Kids.find] at h
    split at h
    · simp at h
    · rename_i hm; simp [Kids.setCond, Kids.find, hm, setCond_find_none r n h]

mutual
theorem setCond_keysOk : ∀ (t : Tree), t.KeysOk → t.setCond.KeysOk
  | .node d cs, h => by
    simp only [Tree.KeysOk, Tree.setCond] at h ⊢
    exact setCond_keysOk_kids cs h
theorem setCond_keysOk_kids : ∀ (cs : Kids), cs.KeysOk → cs.setCond.KeysOk
  | .nil, _ => by simp [Kids.setCond, Kids.KeysOk]
  | .cons n t r, h => by
    simp only [Kids.KeysOk, Kids.setCond] at h ⊢
    exact ⟨setCond_find_none r n h.1, setCond_keysOk t h.2.1, setCond_keysOk_kids r h.2.2⟩
end

theorem act_keysOk (env : Env) (op : Op) (t : Tree) (h : t.KeysOk) : (op.act env t).1.KeysOk := by
  by_cases hop : op.isSetCond = false
  · have hk := act_kids env op hop t
    generalize (op.act env t).1 = a at *
    cases a; cases t
    simp only [Tree.kids] at hk
    subst hk
    simpa [Tree.KeysOk] using h
  · cases op with
    | setCond p => exact setCond_keysOk t h
    | _ => simp [Op.isSetCond] at hop

theorem run_keysOk (env : Env) : ∀ (ops : List Op) (t : Tree), t.KeysOk → (run env t ops).KeysOk
  | [], t, h => h
  | op :: ops, t, h => run_keysOk env ops _ (access_keysOk _ (act_keysOk env op) op.path t h)

/-- An option counts as unused: it has a value that was never read since it was set, its source is not excluded, and it
was not declared conditionally used. -/
def Unread (ex : List Chars) (d : Data) : Prop :=
  d.used = false ∧ (∀ s, d.source = some s → s ∉ ex) ∧ d.cond = false

instance (ex : List Chars) (d : Data) : Decidable (Unread ex d) := by
  unfold Unread
  cases h : d.source with
  | none => simp only [reduceCtorEq, false_implies, implies_true, true_and]; infer_instance
  | some s =>
    have : (∀ s', some s = some s' → s' ∉ ex) ↔ s ∉ ex := by simp
    rw [this]; infer_instance

theorem excluded_iff (ex : List Chars) (d : Data) : (d.used || excluded ex d) = false ↔ Unread ex d := by
  unfold Unread excluded
  cases h : d.source <;> simp

theorem unused_find (ex : List Chars) : ∀ (cs : Kids), cs.KeysOk → ∀ n,
    (cs.unused ex).find n = (cs.find n).bind (fun c => match c with
      | .node d ks =>
        if d.isSection = false then (if d.used || excluded ex d then none else some (.node d ks))
        else if (ks.unused ex).isEmpty then none else some (.node d (ks.unused ex)))
  | .nil, _, n => by simp [Kids.unused, Kids.find]
  | .cons m (.node d ks) r, h, n => by
    simp only [Kids.KeysOk] at h
    have ih := unused_find ex r h.2.2
    have hnone : (r.unused ex).find m = none := by rw [ih m, h.1]; rfl
    by_cases hm : m = n
    · subst hm
      simp only [Kids.unused, Kids.find, if_true, Option.bind_some]
      cases hs : d.isSection with
      | false =>
        simp only [Bool.not_false, if_true]
        by_cases hu : (d.used || excluded ex d) = true
        · simp only [hu, if_true]; exact hnone
        · simp [hu, Kids.find]
      | true =>
        simp only [Bool.not_true, Bool.false_eq_true, if_false, Bool.true_eq_false]
        by_cases hu : (ks.unused ex).isEmpty = true
        · simp only [hu, if_true]; exact hnone
        · simp [hu, Kids.find]
    · simp only [Kids.unused, Kids.find, hm, if_false]
      rw [← ih n]
      split
      · split
        · rfl
        · simp [Kids.find, hm]
      · split
        · rfl
        · simp [Kids.find, hm]

theorem Inv_child {d : Data} {cs : Kids} {n : Chars} {c : Tree} (h : Inv (.node d cs)) (hf : cs.find n = some c) :
    Inv c := by
  intro p e hl hs
  have := h (n :: p) e (by rw [lookup_node_cons, hf]; exact hl) hs
  refine ⟨this.1, fun m => ?_⟩
  have := this.2 m
  rw [List.cons_append, lookup_node_cons, hf] at this
  exact this

/-- What `getUnused` returns, option by option: exactly the options with a value that are unread. -/
theorem C12_unused_exact (ex : List Chars) : ∀ (p : List Chars) (t : Tree), t.KeysOk → Inv t →
    t.data.isSection = true → p ≠ [] →
    (t.unused ex).valueAt p = (t.valueAt p).filter (fun d => decide (Unread ex d))
  | [], _, _, _, _, h => absurd rfl h
  | n :: ns, .node d cs, hk, hi, hs, _ => by
    simp only [Tree.data] at hs
    simp only [Tree.KeysOk] at hk
    simp only [Tree.unused, hs, Bool.not_true, Bool.false_eq_true, if_false, Tree.valueAt, lookup_node_cons]
    rw [unused_find ex cs hk n]
    cases hf : cs.find n with
    | none => simp
    | some c =>
      cases c with
      | node e ks =>
        have hci := Inv_child hi hf
        have hck := find_keysOk cs n _ hk hf
        simp only [Option.bind_some]
        by_cases hes : e.isSection = false
        · simp only [hes, if_true]
          cases ns with
          | nil =>
            rw [lookup_nil]
            by_cases hu : (d.used || excluded ex e) = true
            all_goals
              by_cases hu : (e.used || excluded ex e) = true
              · have : ¬ Unread ex e := fun h => by rw [(excluded_iff ex e).mpr h] at hu; simp at hu
                simp [hu, Tree.data, Option.filter, hes, this]
              · have : Unread ex e := (excluded_iff ex e).mp (by simpa using hu)
                simp [hu, lookup_nil, Tree.data, Option.filter, hes, this]
          | cons m ms =>
            have hempty : ks.find m = none := by
              have := (hci [] e rfl hes).2 m
              rw [List.nil_append, lookup_node_cons] at this
              cases hkm : ks.find m with
              | none => rfl
              | some u => rw [hkm] at this; simp [lookup_nil] at this
            rw [lookup_node_cons, hempty]
            by_cases hu : (e.used || excluded ex e) = true
            · simp [hu]
            · simp [hu, lookup_node_cons, hempty]
        · have hes' : e.isSection = true := by simpa using hes
          simp only [hes, if_false]
          cases ns with
          | nil =>
            rw [lookup_nil]
            by_cases hu : (ks.unused ex).isEmpty = true
            · simp [hu, Tree.data, Option.filter, hes']
            · simp [hu, lookup_nil, Tree.data, Option.filter, hes']
          | cons m ms =>
            have ih := C12_unused_exact ex (m :: ms) (.node e ks) hck hci hes' (by simp)
            simp only [Tree.unused, hes', Bool.not_true, Bool.false_eq_true, if_false, Tree.valueAt] at ih
            rw [← ih]
            by_cases hu : (ks.unused ex).isEmpty = true
            · have := (isEmpty_iff _).mp hu m
              simp [hu, lookup_node_cons, this]
            · simp [hu, lookup_node_cons]

/-- A non-empty unused tree contains an option. -/
theorem unused_nonempty (ex : List Chars) : ∀ (cs : Kids), cs.KeysOk → (cs.unused ex).isEmpty = false →
    ∃ n ns e, ((cs.unused ex).find n).bind (fun c => c.lookup ns) = some e ∧ e.isSection = false
  | .nil, _, h => by simp [Kids.unused, Kids.isEmpty] at h
  | .cons m (.node d ks) r, hk, h => by
    have hfind := unused_find ex (.cons m (.node d ks) r) hk
    simp only [Kids.KeysOk, Tree.KeysOk] at hk
    have rec_r : (r.unused ex).isEmpty = false →
        ((Kids.cons m (.node d ks) r).unused ex = r.unused ex) →
        ∃ n ns e, (((Kids.cons m (.node d ks) r).unused ex).find n).bind (fun c => c.lookup ns) = some e ∧
          e.isSection = false := by
      intro h1 h2; rw [h2]; exact unused_nonempty ex r hk.2.2 h1
    by_cases hs : d.isSection = false
    · by_cases hu : (d.used || excluded ex d) = true
      · have heq : (Kids.cons m (.node d ks) r).unused ex = r.unused ex := by simp [Kids.unused, hs, hu]
        rw [heq] at h; exact rec_r h heq
      · refine ⟨m, [], d, ?_, hs⟩
        rw [hfind m]
        simp only [Kids.find, if_true, Option.bind_some, hs]
        rw [if_neg hu]
        rfl
    · by_cases hu : (ks.unused ex).isEmpty = true
      · have heq : (Kids.cons m (.node d ks) r).unused ex = r.unused ex := by simp [Kids.unused, hs, hu]
        rw [heq] at h; exact rec_r h heq
      · obtain ⟨n, ns, e, h1, h2⟩ := unused_nonempty ex ks hk.2.1 (by simpa using hu)
        refine ⟨m, n :: ns, e, ?_, h2⟩
        rw [hfind m]
        simp only [Kids.find, if_true, Option.bind_some]
        rw [if_neg hs, if_neg hu]
        simp only [Option.bind_some, lookup_node_cons]
        exact h1

/-- `checkForUnusedOptions` throws exactly when some option below the root was given a value (by anyone but "Output" and
"user_default"), never read since, and not declared conditionally used. -/
theorem C12_check_exact (t : Tree) (hk : t.KeysOk) (hi : Inv t) (hs : t.data.isSection = true) :
    (checkUnused t).isOk = false ↔
      ∃ p e, p ≠ [] ∧ t.valueAt p = some e ∧ Unread [outputSource, userDefault] e := by
  cases t with
  | node d cs =>
    have hs' : d.isSection = true := hs
    have hk' : cs.KeysOk := hk
    have hcheck : (checkUnused (.node d cs)).isOk = (cs.unused [outputSource, userDefault]).isEmpty := by
      simp only [checkUnused, Tree.unused, hs', Bool.not_true, Bool.false_eq_true, if_false]
      cases (cs.unused [outputSource, userDefault]).isEmpty <;> simp [Out.isOk]
    rw [hcheck]
    constructor
    · intro h
      obtain ⟨n, ns, e, h1, h2⟩ := unused_nonempty _ cs hk' h
      have := C12_unused_exact [outputSource, userDefault] (n :: ns) (.node d cs) hk hi hs (by simp)
      simp only [Tree.unused, hs', Bool.not_true, Bool.false_eq_true, if_false, Tree.valueAt, lookup_node_cons] at this
      rw [h1] at this
      simp only [Option.filter, h2, Bool.not_false, if_true] at this
      refine ⟨n :: ns, e, by simp, ?_⟩
      simp only [Tree.valueAt, lookup_node_cons]
      generalize (cs.find n).bind (fun c => c.lookup ns) = o at *
      cases o with
      | none => simp at this
      | some e' =>
        simp only at this ⊢
        split at this
        · rename_i x hx
          split at this
          · rename_i hu
            simp only [Option.some.injEq] at this
            subst this
            exact ⟨by simpa [Option.filter] using hx, by simpa using hu⟩
          · simp at this
        · simp at this
    · rintro ⟨p, e, hp, hv, hu⟩
      have := C12_unused_exact [outputSource, userDefault] p (.node d cs) hk hi hs hp
      rw [hv] at this
      simp only [Option.filter, hu, decide_true, if_true] at this
      cases p with
      | nil => exact absurd rfl hp
      | cons n ns =>
        simp only [Tree.unused, hs', Bool.not_true, Bool.false_eq_true, if_false, Tree.valueAt, lookup_node_cons] at this
        by_contra hempty
        have hempty' : (cs.unused [outputSource, userDefault]).isEmpty = true := by simpa using hempty
        rw [(isEmpty_iff _).mp hempty' n] at this
        simp at this

/-- `getFlattenedKeys` lists exactly the full names of the values below. -/
theorem flatKeys_iff (k : Chars) : ∀ (cs : Kids), cs.KeysOk →
    (∀ n c, cs.find n = some c → Inv c) →
    (k ∈ cs.flatKeys ↔ ∃ n ns e, (cs.find n).bind (fun c => c.lookup ns) = some e ∧ e.isSection = false ∧
      e.fullName = k)
  | .nil, _, _ => by simp [Kids.flatKeys, Kids.find]
  | .cons m (.node d ks) r, hk, hi => by
    simp only [Kids.KeysOk, Tree.KeysOk] at hk
    have hir : ∀ n c, r.find n = some c → Inv c := by
      intro n c hf
      have : m ≠ n := by rintro rfl; rw [hk.1] at hf; simp at hf
      exact hi n c (by simp [Kids.find, this, hf])
    have him : Inv (.node d ks) := hi m _ (by simp [Kids.find])
    have ih := flatKeys_iff k r hk.2.2 hir
    simp only [Kids.flatKeys, List.mem_append, ih, Tree.flatKeys]
    have left : k ∈ (if d.isSection = true then ks.flatKeys else [d.fullName]) ↔
        ∃ ns e, (Tree.node d ks).lookup ns = some e ∧ e.isSection = false ∧ e.fullName = k := by
      by_cases hs : d.isSection = true
      · rw [if_pos hs]
        rw [flatKeys_iff k ks hk.2.1 (fun n c hf => Inv_child him hf)]
        constructor
        · rintro ⟨n, ns, e, h1, h2, h3⟩; exact ⟨n :: ns, e, by rw [lookup_node_cons]; exact h1, h2, h3⟩
        · rintro ⟨ns, e, h1, h2, h3⟩
          cases ns with
          | nil => simp [lookup_nil, Tree.data] at h1; subst h1; simp [hs] at h2
          | cons n ns => exact ⟨n, ns, e, by rw [← lookup_node_cons d]; exact h1, h2, h3⟩
      · rw [if_neg hs]
        have hs' : d.isSection = false := by simpa using hs
        simp only [List.mem_singleton]
        constructor
        · rintro rfl; exact ⟨[], d, rfl, hs', rfl⟩
        · rintro ⟨ns, e, h1, h2, h3⟩
          cases ns with
          | nil => simp [lookup_nil, Tree.data] at h1; subst h1; exact h3.symm
          | cons n ns =>
            have := (him [] d rfl hs').2 n
            rw [List.nil_append, lookup_node_cons] at this
            rw [lookup_node_cons] at h1
            cases hf : ks.find n with
            | none => rw [hf] at h1; simp at h1
            | some u => rw [hf] at this; simp [lookup_nil] at this
    rw [left]
    constructor
    · rintro (⟨ns, e, h1, h2, h3⟩ | ⟨n, ns, e, h1, h2, h3⟩)
      · exact ⟨m, ns, e, by simpa [Kids.find] using h1, h2, h3⟩
      · have : m ≠ n := by rintro rfl; rw [hk.1] at h1; simp at h1
        exact ⟨n, ns, e, by simpa [Kids.find, this] using h1, h2, h3⟩
    · rintro ⟨n, ns, e, h1, h2, h3⟩
      by_cases hm : m = n
      · subst hm
        simp only [Kids.find, if_true, Option.bind_some] at h1
        exact .inl ⟨ns, e, h1, h2, h3⟩
      · simp only [Kids.find, hm, if_false] at h1
        exact .inr ⟨n, ns, e, h1, h2, h3⟩

theorem unused_keysOk (ex : List Chars) : ∀ (cs : Kids), cs.KeysOk → (cs.unused ex).KeysOk
  | .nil, _ => by simp [Kids.unused, Kids.KeysOk]
  | .cons m (.node d ks) r, hk => by
    simp only [Kids.KeysOk, Tree.KeysOk] at hk
    have ih := unused_keysOk ex r hk.2.2
    have ihk := unused_keysOk ex ks hk.2.1
    have hnone : (r.unused ex).find m = none := by rw [unused_find ex r hk.2.2 m, hk.1]; rfl
    simp only [Kids.unused]
    split
    · split
      · exact ih
      · simp only [Kids.KeysOk, Tree.KeysOk]; exact ⟨hnone, hk.2.1, ih⟩
    · split
      · exact ih
      · simp only [Kids.KeysOk, Tree.KeysOk]; exact ⟨hnone, ihk, ih⟩

theorem unused_lookup_none (ex : List Chars) : ∀ (p : List Chars) (d d' : Data) (cs : Kids), cs.KeysOk →
    (Tree.node d cs).lookup p = none → (Tree.node d' (cs.unused ex)).lookup p = none
  | [], d, d', cs, _, h => by simp [Tree.lookup] at h
  | n :: ns, d, d', cs, hk, h => by
    rw [lookup_node_cons] at h ⊢
    rw [unused_find ex cs hk n]
    cases hf : cs.find n with
    | none => rfl
    | some c =>
      cases c with
      | node e ks =>
        rw [hf] at h
        simp only [Option.bind_some] at h ⊢
        have hck : ks.KeysOk := find_keysOk cs n _ hk hf
        split
        · split
          · rfl
          · simpa using h
        · split
          · rfl
          · simp only [Option.bind_some]; exact unused_lookup_none ex ns e e ks hck h

/-- The keys listed in the report (`getFlattenedKeys` of the unused tree) are exactly the full names of the unread
options. -/
theorem C12_reported_keys (ex : List Chars) (t : Tree) (hk : t.KeysOk) (hi : Inv t) (hs : t.data.isSection = true)
    (k : Chars) :
    k ∈ (t.unused ex).kids.flatKeys ↔ ∃ p e, p ≠ [] ∧ t.valueAt p = some e ∧ Unread ex e ∧ e.fullName = k := by
  cases t with
  | node d cs =>
    have hs' : d.isSection = true := hs
    have hk' : cs.KeysOk := hk
    have hex := fun p hp => C12_unused_exact ex p (.node d cs) hk hi hs hp
    have hkids : ((Tree.node d cs).unused ex).kids = cs.unused ex := by
      simp [Tree.unused, hs', Tree.kids]
    have hval : ∀ n ns, ((Tree.node d cs).unused ex).valueAt (n :: ns) =
        (((cs.unused ex).find n).bind (fun c => c.lookup ns)).filter (fun d => !d.isSection) := by
      intro n ns; simp [Tree.unused, hs', Tree.valueAt, lookup_node_cons]
    have key : ∀ n ns e, ((cs.unused ex).find n).bind (fun c => c.lookup ns) = some e ∧ e.isSection = false ↔
        ((Tree.node d cs).valueAt (n :: ns) = some e ∧ Unread ex e) := by
      intro n ns e
      have h1 := hval n ns
      rw [hex (n :: ns) (by simp)] at h1
      constructor
      · rintro ⟨h2, h3⟩
        rw [h2] at h1
        simp only [Option.filter, h3, Bool.not_false, if_true] at h1
        cases hv : (Tree.node d cs).valueAt (n :: ns) with
        | none => rw [hv] at h1; simp at h1
        | some e' =>
          rw [hv] at h1
          simp only at h1
          split at h1
          · rename_i hu
            simp only [Option.some.injEq] at h1
            subst h1
            exact ⟨rfl, by simpa using hu⟩
          · simp at h1
      · rintro ⟨h2, h3⟩
        rw [h2] at h1
        simp only [Option.filter, h3, decide_true, if_true] at h1
        cases hv : ((cs.unused ex).find n).bind (fun c => c.lookup ns) with
        | none => rw [hv] at h1; simp at h1
        | some e' =>
          rw [hv] at h1
          simp only at h1
          split at h1
          · rename_i hu
            simp only [Option.some.injEq] at h1
            subst h1
            exact ⟨rfl, by simpa using hu⟩
          · simp at h1
    have hinv : Inv (.node d (cs.unused ex)) := by
      intro p e hl hse
      cases p with
      | nil => simp [lookup_nil, Tree.data] at hl; subst hl; rw [hs'] at hse; simp at hse
      | cons n ns =>
        rw [lookup_node_cons] at hl
        have hv := ((key n ns e).mp ⟨hl, hse⟩).1
        have hl' : (Tree.node d cs).lookup (n :: ns) = some e := by
          simp only [Tree.valueAt, Option.filter] at hv
          cases hll : (Tree.node d cs).lookup (n :: ns) with
          | none => rw [hll] at hv; simp at hv
          | some e' =>
            rw [hll] at hv
            simp only at hv
            split at hv
            · exact hv
            · simp at hv
        obtain ⟨h1, h2⟩ := hi (n :: ns) e hl' hse
        exact ⟨h1, fun m => unused_lookup_none ex _ d d cs hk' (h2 m)⟩
    rw [hkids, flatKeys_iff k (cs.unused ex) (unused_keysOk ex cs hk') (fun n c hf => Inv_child hinv hf)]
    constructor
    · rintro ⟨n, ns, e, h1, h2, h3⟩
      obtain ⟨g1, g2⟩ := (key n ns e).mp ⟨h1, h2⟩
      exact ⟨n :: ns, e, by simp, g1, g2, h3⟩
    · rintro ⟨p, e, hp, h1, h2, h3⟩
      cases p with
      | nil => exact absurd rfl hp
      | cons n ns =>
        obtain ⟨g1, g2⟩ := (key n ns e).mpr ⟨h1, h2⟩
        exact ⟨n, ns, e, g1, g2, h3⟩

/-- `setConditionallyUsed` on `p` exempts exactly the existing options at or below `p`. -/
theorem C12_conditionally_used (env : Env) (t : Tree) (p : List Chars) (hc : Clean p) (hb : ¬ Blocked t p)
    (q : List Chars) (d : Data) (h : t.lookup q = some d) :
    (step env t (.setCond p)).1.lookup q = some { d with cond := d.cond || decide (p <+: q) } := by
  obtain ⟨_, h2, h3⟩ := access_gen (Op.act env (.setCond p)) p t hc hb
  simp only [step, Op.path]
  by_cases hpq : p <+: q
  · have hpq' := hpq
    obtain ⟨r, rfl⟩ := hpq
    rw [h2]
    simp only [Op.act, setCond_lookup]
    cases hu : t.sub p with
    | none => rw [lookup_append, hu] at h; simp at h
    | some u =>
      rw [lookup_append, hu] at h
      rw [subOrFresh_of_sub p t u hu]
      simp only [Option.bind_some] at h
      rw [h]
      simp [hpq']
  · rw [h3 q hpq]
    simp only [hpq, decide_false, Bool.or_false]
    split
    · rw [subOrFresh_data_of_lookup h]
    · exact h

theorem run_root_section (env : Env) (ops : List Op) (hc : ∀ op ∈ ops, Clean op.path) (hne : ∀ op ∈ ops, op.path ≠ []) :
    ∀ t : Tree, t.data.isSection = true → (run env t ops).data.isSection = true := by
  induction ops with
  | nil => intro t h; exact h
  | cons op ops ih =>
    intro t h
    refine ih (fun o ho => hc o (by simp [ho])) (fun o ho => hne o (by simp [ho])) _ ?_
    have := hne op (by simp)
    unfold step
    cases t with
    | node d cs =>
      cases hp : op.path with
      | nil => exact absurd hp this
      | cons n ns =>
        have hd : d.isSection = true := h
        have hn : n ≠ [] := hc op (by simp) n (by rw [hp]; simp)
        show (access (Tree.node d cs) op.path (Op.act env op)).1.data.isSection = true
        rw [hp]
        simp only [access, hd, Bool.not_true, Bool.false_eq_true, if_false, hn, Tree.data]

/-- History form: after any history of calls (without `setConditionallyUsed`) on an empty tree, the check throws exactly
when some option's cell — the one fed with the calls naming that option — holds a value that was not read since it was
written, from a source other than "Output" and "user_default". -/
theorem C12_history (env : Env) (ops : List Op) (hc : ∀ op ∈ ops, Clean op.path) (hne : ∀ op ∈ ops, op.path ≠ [])
    (hcond : ∀ op ∈ ops, op.isSetCond = false) :
    (checkUnused (run env emptyTree ops)).isOk = false ↔
      ∃ p c, p ≠ [] ∧
        (log env emptyTree ops).foldl (fun c o => if o.1.path = p then specStep env c o.1 o.2 else c) none = some c ∧
        c.used = false ∧ c.source ≠ some outputSource ∧ c.source ≠ some userDefault := by
  have hcondInv : ∀ p d, (run env emptyTree ops).lookup p = some d → d.cond = false := by
    have gen : ∀ (ops : List Op) (t : Tree), (∀ op ∈ ops, Clean op.path) → (∀ op ∈ ops, op.isSetCond = false) →
        (∀ p d, t.lookup p = some d → d.cond = false) →
        ∀ p d, (run env t ops).lookup p = some d → d.cond = false := by
      intro ops
      induction ops with
      | nil => intro t _ _ h; exact h
      | cons op ops ih =>
        intro t hc hcond h
        refine ih (step env t op).1 (fun o ho => hc o (by simp [ho])) (fun o ho => hcond o (by simp [ho])) ?_
        have hco := hc op (by simp)
        have hop := hcond op (by simp)
        intro p d hl
        by_cases hb : Blocked t op.path
        · rw [(step_blocked env t op hco hb).2] at hl; exact h p d hl
        · obtain ⟨_, h2⟩ := access_free (op.act env) (act_kids env op hop) op.path t hco hb
          unfold step at hl
          rw [h2] at hl
          have hsub : ∀ q, (subOrFresh t q).data.cond = false := by
            intro q
            rcases subOrFresh_data_cases t q with ⟨d, hl, hd⟩ | ⟨_, nm, hnm⟩
            · rw [hd]; exact h q d hl
            · rw [hnm]; rfl
          have hassign : ∀ v s u, (assign v s u).1.data.cond = u.data.cond := by
            intro v s u
            cases u with
            | node d cs =>
              have key : ∀ dd : Data, (setNoCheck v s (.node dd cs)).1.data.cond = dd.cond := by
                intro dd; rw [setNoCheck_ok]; split <;> rfl
              simp only [assign]
              split
              · exact key d
              · split
                · rfl
                · split
                  · rfl
                  · exact key d
          have has : ∀ ty u, (as env ty u).1.data.cond = u.data.cond := by
            intro ty u
            cases u with
            | node d cs => simp only [as]; split; rfl; split <;> rfl
          have hforce : ∀ v s u, (force v s u).1.data.cond = u.data.cond := by
            intro v s u; cases u with | node d cs => simp only [force]; rw [hassign]; rfl
          split at hl
          · simp only [Option.some.injEq] at hl
            rw [← hl]
            have h0 := hsub op.path
            obtain ⟨d0, cs0, hu0⟩ := exists_node (subOrFresh t op.path)
            rw [hu0] at h0 ⊢
            have e2 : (op.act env (.node d0 cs0)).1.data.cond = (Tree.node d0 cs0).data.cond := by
              cases op with
              | assign p v s => exact hassign _ _ _
              | force p v s => exact hforce _ _ _
              | assignRepeat p v b s =>
                have h1 := hforce v s (.node d0 cs0)
                simp only [Op.act, assignRepeat]
                split
                · rename_i heq; rw [heq] at h1; simp only [Tree.data] at h1 ⊢; cases b <;> exact h1
                · exact h1
              | read p ty => exact has _ _
              | withDefault p ty v =>
                have h1 := hassign v defaultSource (.node d0 cs0)
                have h2 := has ty (.node d0 cs0)
                simp only [Op.act, withDefault]
                split
                · split
                  · rename_i heq; rw [heq] at h1; exact h1
                  · rename_i heq; rw [heq] at h1; exact h1
                · split
                  · rename_i heq; rw [heq] at h2; exact h2
                  · rename_i heq; rw [heq] at h2
                    split
                    · exact h2
                    · split <;> exact h2
              | withDefaultConst p ty v =>
                have h2 := has ty (.node d0 cs0)
                simp only [Op.act, withDefaultConst]
                split
                · rfl
                · split
                  · rename_i heq; rw [heq] at h2; exact h2
                  · rename_i heq; rw [heq] at h2
                    split
                    · exact h2
                    · split <;> exact h2
              | overrideDefault p ty v =>
                have h1 := hassign v userDefault (.node d0 cs0)
                have h2 := has ty (.node d0 cs0)
                simp only [Op.act, overrideDefault]
                split
                · split
                  · rename_i heq; rw [heq] at h1; exact h1
                  · rename_i heq; rw [heq] at h1; exact h1
                · exact h2
              | setCond p => simp [Op.isSetCond] at hop
              | touch p => rfl
            rw [e2]; exact h0
          · split at hl
            · simp only [Option.some.injEq] at hl; rw [← hl]; exact hsub _
            · exact h p d hl
    refine gen ops emptyTree hc hcond ?_
    intro p d hl
    rw [emptyTree, lookup_fresh] at hl
    split at hl
    · simp at hl; subst hl; rfl
    · simp at hl
  rw [C12_check_exact _ (run_keysOk env ops _ (by simp [emptyTree, fresh, Tree.KeysOk, Kids.KeysOk]))
    (C09_reachable_inv env ops hc) (run_root_section env ops hc hne _ rfl)]
  constructor
  · rintro ⟨p, e, hp, hv, hu⟩
    refine ⟨p, cellOf e, hp, ?_, hu.1, ?_, ?_⟩
    · rw [← C09_history env ops hc p, hv]; rfl
    · intro h; exact hu.2.1 _ h (by simp)
    · intro h; exact hu.2.1 _ h (by simp)
  · rintro ⟨p, c, hp, hv, hu, h1, h2⟩
    rw [← C09_history env ops hc p] at hv
    cases he : (run env emptyTree ops).valueAt p with
    | none => rw [he] at hv; simp at hv
    | some e =>
      rw [he] at hv
      simp only [Option.map_some, Option.some.injEq] at hv
      subst hv
      refine ⟨p, e, hp, he, hu, ?_, ?_⟩
      · intro s hs
        simp only [List.mem_cons, List.not_mem_nil, or_false, not_or]
        simp only [cellOf, hs, ne_eq, Option.some.injEq] at h1 h2
        exact ⟨h1, h2⟩
      · apply hcondInv p e
        simp only [Tree.valueAt, Option.filter] at he
        cases hl : (run env emptyTree ops).lookup p with
        | none => rw [hl] at he; simp at he
        | some d =>
          rw [hl] at he
          simp only at he
          split at he
          · simpa using he
          · simp at he

section Examples
-- an unread option is reported, a read one is not, a default is not
example : (checkUnused (run exEnv emptyTree [.assign pA (.int 3) ['f']])).isOk = false := by decide
example : (checkUnused (run exEnv emptyTree [.assign pA (.int 3) ['f'], .read pA .int])).isOk = true := by decide
example : (checkUnused (run exEnv emptyTree [.withDefault pA .int (.int 3)])).isOk = true := by decide
example : (checkUnused (run exEnv emptyTree [.assign pA (.int 3) ['f'], .setCond [['a']]])).isOk = true := by decide
end Examples
end Verif.Opt
