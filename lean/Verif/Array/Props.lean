import Verif.Array.Lemmas2
/-!
# C07, C08: value semantics of Array and the recycling store
-/

namespace Verif.Array
open State
variable {V : Type}

/-! ## Specification: a machine of plain values

The abstract state is just the list of contents of the Array objects; nothing is shared. -/

/-- What each operation does to the contents a program sees, if every Array had its own private data.
`g` stands for the unspecified contents of newly allocated memory. -/
def Spec (c : List (Option (List V))) : Op V → List (Option (List V)) → Prop
  | .new len, c' => ∃ g : List V, g.length = len ∧ c' = c ++ [some g]
  | .newEmpty, c' => c' = c ++ [none]
  | .copyCtor src, c' => ∃ v, c[src]? = some v ∧ c' = c ++ [v]
  | .moveCtor src, c' => ∃ v, c[src]? = some v ∧ c' = c.set src none ++ [v]
  | .assign dst src, c' => ∃ v, c[src]? = some v ∧ dst < c.length ∧ c' = c.set dst v
  | .destroy k, c' => k < c.length ∧ c' = c.set k none
  | .reallocate k len, c' => k < c.length ∧ ∃ g : List V, g.length = len ∧ c' = c.set k (some g)
  | .ensureUnique k, c' => k < c.length ∧ c' = c
  | .write k i v, c' => ∃ d, c[k]? = some (some d) ∧ i < d.length ∧ c' = c.set k (some (d.set i v))
  | .disableStore, c' => c' = c
  | .cleanup, c' => c' = c

/-- The states a program can reach: any history of operations by any threads from program start. -/
def Reachable (s : State V) : Prop := ∃ n os, (State.init V n).run os = .ok s

theorem Reachable.inv {s : State V} (h : Reachable s) : Inv s := by
  obtain ⟨n, os, e⟩ := h
  exact run_inv (inv_init n) e

/-- No other Array object shares the data of Array `k`. -/
def Unshared (s : State V) (k : Nat) : Prop :=
  ∀ b, s.handles[k]? = some (some b) → ∀ i, s.handles[i]? = some (some b) → i = k

/-- **C07** Every operation other than a raw write, in every reachable state, changes the visible
contents exactly as in the value machine: in particular `ensureUnique`, copies, releases, reallocation
through the recycling store, and store clean-up never change the contents of any other Array. -/
theorem C07_step_refines_values {s s' : State V} (h : Reachable s) (t : Nat) (j : V) (o : Op V)
    (hw : ∀ k i v, o ≠ .write k i v) (e : s.step t j o = .ok s') : Spec s.contents o s'.contents := by
  have hI := h.inv
  cases o <;> simp only [State.step, Except.ok.injEq] at e
  case new len =>
    obtain ⟨p, d, hh, hd, hlen, hpn, hm, _⟩ := getPush_spec hI e
    refine ⟨d, hlen, ?_⟩
    rw [contents_eq, contents_eq, hh, view_append]
    congr 1
    · apply view_congr
      intro c hc
      exact hm c (by rintro rfl; exact hpn hc)
    · simp [view, hd]
  case newEmpty => rw [← e]; simp [Spec, contents]
  case copyCtor src =>
    obtain ⟨p, hp, rfl, _⟩ := copyCtor_spec hI e
    refine ⟨p.bind s.mem, view_getElem? hp, ?_⟩
    simp [contents]
  case moveCtor src =>
    obtain ⟨p, hp, rfl, _⟩ := moveCtor_spec hI e
    refine ⟨p.bind s.mem, view_getElem? hp, ?_⟩
    simp [contents, List.map_set]
  case assign dst src =>
    obtain ⟨p, hp, hd, hh, hm, _⟩ := assign_spec hI e
    refine ⟨p.bind s.mem, view_getElem? hp, by rw [contents_eq, view_length]; exact hd, ?_⟩
    rw [contents_eq, contents_eq, view_congr hm, hh, view_set]
  case destroy k =>
    obtain ⟨hh, hk, hm, _⟩ := release_spec hI e
    refine ⟨by rw [contents_eq, view_length]; exact hk, ?_⟩
    rw [contents_eq, contents_eq, view_congr hm, hh, view_set]
    rfl
  case reallocate k len =>
    obtain ⟨p, g, hh, hk, hg, hlen, hm, _⟩ := reallocate_spec hI e
    refine ⟨by rw [contents_eq, view_length]; exact hk, g, hlen, ?_⟩
    rw [contents_eq, contents_eq, hh]
    apply List.ext_getElem?
    intro i
    by_cases hi : k = i
    · subst hi
      rw [view_getElem? (p := some p) (by rw [List.getElem?_set_self hk]),
        List.getElem?_set_self (by rw [view_length]; exact hk)]
      simp [hg]
    · rw [List.getElem?_set_ne hi]
      unfold view
      rw [List.getElem?_map, List.getElem?_map, List.getElem?_set_ne hi]
      cases hx : s.handles[i]? with
      | none => rfl
      | some x =>
        cases x with
        | none => rfl
        | some c =>
          have hc : some c ∈ s.handles.set k none := by
            rw [List.mem_iff_getElem?]
            exact ⟨i, by rw [List.getElem?_set_ne hi]; exact hx⟩
          simp [(hm c hc).2]
  case ensureUnique k =>
    obtain ⟨hk, hl, hc, _⟩ := ensureUnique_spec hI e
    exact ⟨by rw [contents_eq, view_length]; omega, hc⟩
  case write k i v => exact absurd rfl (hw k i v)
  case disableStore => rw [← e]; rfl
  case cleanup =>
    rw [← e]
    show view _ _ = view _ _
    apply view_congr
    intro c hc
    show (State.cleanup s).mem c = s.mem c
    simp only [State.cleanup]
    rw [if_neg (by intro hx; exact hx.2 hc)]

/-- **C07** After `a.ensureUnique()` no other Array shares `a`'s data. -/
theorem C07_ensureUnique_unshared {s s' : State V} (h : Reachable s) (t k : Nat) (j : V)
    (e : s.ensureUnique t k j = .ok s') : Unshared s' k ∧ s'.contents = s.contents := by
  obtain ⟨_, _, hc, _, hu⟩ := ensureUnique_spec h.inv e
  exact ⟨hu, hc⟩

/-- **C07** A write through an unshared Array changes that element of that Array and nothing else. -/
theorem C07_unshared_write {s s' : State V} (h : Reachable s) (k i : Nat) (v : V) (hu : Unshared s k)
    (e : s.write k i v = .ok s') : Spec s.contents (.write k i v) s'.contents := by
  obtain ⟨b, d, hk, hd, hi, rfl, _⟩ := write_spec h.inv e
  have hlt := (List.getElem?_eq_some_iff.1 hk).1
  refine ⟨d, ?_, hi, ?_⟩
  · have : (view s.mem s.handles)[k]? = some ((some b).bind s.mem) := view_getElem? hk
    rw [contents_eq, this]; simp [hd]
  · rw [contents_eq, contents_eq]
    apply List.ext_getElem?
    intro n
    by_cases hn : k = n
    · subst hn
      rw [List.getElem?_set_self (by rw [view_length]; exact hlt)]
      show (view (setMem s.mem b (some (d.set i v))) s.handles)[k]? = _
      rw [view_getElem? hk]; simp [setMem]
    · rw [List.getElem?_set_ne hn]
      unfold view
      rw [List.getElem?_map, List.getElem?_map]
      cases hx : s.handles[n]? with
      | none => rfl
      | some x =>
        cases x with
        | none => rfl
        | some c =>
          have hcb : c ≠ b := by rintro rfl; exact hn (hu c hk n hx).symm
          simp [setMem, hcb]

/-- Programs that follow the documented rule "call `ensureUnique` before writing". -/
inductive UOp (V : Type) where
  | plain (o : Op V) (notWrite : ∀ k i v, o ≠ .write k i v)
  | safeWrite (k i : Nat) (v : V)

/-- Run one disciplined operation. -/
def UOp.step (s : State V) (t : Nat) (j : V) : UOp V → Out (State V)
  | .plain o _ => s.step t j o
  | .safeWrite k i v => match s.ensureUnique t k j with
    | .ok s1 => s1.write k i v
    | .error e => .error e

/-- Run a disciplined program. -/
def UOp.run (s : State V) : List (Nat × V × UOp V) → Out (State V)
  | [] => .ok s
  | (t, j, o) :: os => match o.step s t j with
    | .ok s' => UOp.run s' os
    | .error e => .error e

/-- The value machine's behaviour of a disciplined program. -/
inductive SpecRun : List (Option (List V)) → List (UOp V) → List (Option (List V)) → Prop where
  | nil (c) : SpecRun c [] c
  | plain {c c' c''} {o hw} {os} : Spec c o c' → SpecRun c' os c'' → SpecRun c (.plain o hw :: os) c''
  | write {c c' c''} {k i v} {os} :
      Spec c (.write k i v) c' → SpecRun c' os c'' → SpecRun c (.safeWrite k i v :: os) c''

theorem Reachable.step {s s' : State V} (h : Reachable s) {t : Nat} {j : V} {o : Op V}
    (e : s.step t j o = .ok s') : Reachable s' := by
  obtain ⟨n, os, hr⟩ := h
  refine ⟨n, os ++ [(t, j, o)], ?_⟩
  generalize State.init V n = s0 at hr
  induction os generalizing s0 with
  | nil => simp only [State.run, Except.ok.injEq] at hr; subst hr; simp [State.run, e]
  | cons a os ih =>
    obtain ⟨t', j', o'⟩ := a
    simp only [State.run, List.cons_append] at hr ⊢
    split at hr
    · rename_i s1 h1; exact ih _ hr
    · simp at hr

/-- **C07** A whole disciplined program, on any threads and with any recycling of memory, computes exactly
what the value machine computes: copy-on-write sharing is unobservable. -/
theorem C07_program_refines_values (s s' : State V) (h : Reachable s)
    (os : List (Nat × V × UOp V)) (e : UOp.run s os = .ok s') :
    SpecRun s.contents (os.map (fun x => x.2.2)) s'.contents := by
  induction os generalizing s with
  | nil => simp only [UOp.run, Except.ok.injEq] at e; subst e; exact .nil _
  | cons a os ih =>
    obtain ⟨t, j, o⟩ := a
    simp only [UOp.run] at e
    split at e
    · rename_i s1 h1
      cases o with
      | plain o hw =>
        exact .plain (C07_step_refines_values h t j o hw h1) (ih s1 (h.step h1) e)
      | safeWrite k i v =>
        simp only [UOp.step] at h1
        split at h1
        · rename_i s2 h2
          have hr2 : Reachable s2 := h.step (o := .ensureUnique k) h2
          obtain ⟨hu, hc⟩ := C07_ensureUnique_unshared h t k j h2
          have hw := C07_unshared_write hr2 k i v hu h1
          rw [hc] at hw
          exact .write hw (ih s1 (hr2.step (t := t) (j := j) (o := .write k i v) h1) e)
        · simp at h1
    · simp at e

/-- A disciplined program with sharing, copy-on-write and recycling; both sides agree. -/
example : ∃ s, UOp.run (State.init Nat 2)
    [(0, 9, .plain (.new 2) (by simp)), (0, 9, .safeWrite 0 0 5), (0, 9, .safeWrite 0 1 6),
     (0, 9, .plain (.copyCtor 0) (by simp)), (0, 9, .safeWrite 1 0 7), (0, 9, .plain (.destroy 1) (by simp)),
     (0, 9, .plain (.new 2) (by simp))] = .ok s ∧
    s.contents = [some [5, 6], none, some [7, 6]] := ⟨_, rfl, by decide⟩

/-- Without `ensureUnique` a write is visible through a copy: the hypothesis `Unshared` is needed. -/
example : ∃ s, (State.init Nat 1).run [(0, 0, .new 1), (0, 0, .copyCtor 0), (0, 0, .write 0 0 3)] = .ok s ∧
    s.contents = [some [3], some [3]] := ⟨_, rfl, by decide⟩

/-! ## C08: the store -/

/-- **C08** In every reachable state: a block in a store is referenced by no Array and is there once;
it is recorded under its true length; every allocated block is reachable from an Array or a store
(no leak); every Array's block is allocated (no use after free). -/
theorem C08_store_bookkeeping {s : State V} (h : Reachable s) :
    (∀ b ∈ s.stored, some b ∉ s.handles) ∧ s.stored.Nodup ∧
    (∀ st ∈ s.arena, ∀ e ∈ st, ∃ d, s.mem e.2 = some d ∧ d.length = e.1) ∧
    (∀ b, s.mem b ≠ none → some b ∈ s.handles ∨ b ∈ s.stored) ∧
    (∀ b, some b ∈ s.handles → s.mem b ≠ none) := by
  have hI := h.inv
  refine ⟨fun b hb hh => (hI.live b hh).2 hb, hI.nodup, ?_, hI.noleak, fun b hb => (hI.live b hb).1⟩
  intro st hst e he
  exact hI.sizes e (List.mem_flatten.2 ⟨st, hst, he⟩)

/-- **C08** A block handed out for a request of length `len` has exactly that length and is referenced
by no other Array and no store. -/
theorem C08_get_fresh {s s' : State V} (h : Reachable s) (t len : Nat) (j : V)
    (e : s.new t len j = .ok s') :
    ∃ p d, s'.handles = s.handles ++ [some p] ∧ some p ∉ s.handles ∧ p ∉ s'.stored ∧
      s'.mem p = some d ∧ d.length = len := by
  obtain ⟨p, d, hh, hd, hl, hp, _, _, hps, _⟩ := getPush_spec h.inv e
  exact ⟨p, d, hh, hp, hps, hd, hl⟩

/-- **C08** Disabling the store is irreversible, and once it is disabled no operation ever adds a block to a
store. -/
theorem C08_disable_irreversible {s s' : State V} (h : Reachable s) (t : Nat) (j : V) (o : Op V)
    (hd : s.useStore = false) (e : s.step t j o = .ok s') :
    s'.useStore = false ∧ ∀ b ∈ s'.stored, b ∈ s.stored := by
  have hI := h.inv
  have getD : ∀ {s s' : State V} {t len : Nat} {j : V}, s.useStore = false →
      s.getPush t len j = .ok s' → s'.useStore = false ∧ ∀ b ∈ s'.stored, b ∈ s.stored := by
    intro s s' t len j hd e
    unfold State.getPush at e
    split at e
    · simp at e
    · rename_i st hst
      split at e
      · simp only [Except.ok.injEq] at e
        subst e
        refine ⟨hd, fun b hb => ?_⟩
        unfold stored at hb ⊢
        rw [List.mem_map] at hb ⊢
        obtain ⟨x, hx, rfl⟩ := hb
        refine ⟨x, ?_, rfl⟩
        have := (flatten_set_perm hst).mem_iff.1 hx
        rw [(flatten_perm_of_getElem? hst).mem_iff]
        rw [List.mem_append] at this ⊢
        rcases this with h | h
        · exact Or.inl (List.mem_of_mem_eraseP h)
        · exact Or.inr h
      · simp only [Except.ok.injEq] at e
        subst e
        exact ⟨hd, fun b hb => hb⟩
  have relD : ∀ {s s' : State V} {t k : Nat}, s.useStore = false →
      s.release t k = .ok s' → s'.useStore = false ∧ ∀ b ∈ s'.stored, b ∈ s.stored := by
    intro s s' t k hd e
    unfold State.release at e
    repeat' split at e
    all_goals first
      | (simp at e; done)
      | (simp only [Except.ok.injEq] at e; subst e; exact ⟨hd, fun b hb => hb⟩)
      | (exfalso; simp_all; done)
  have copD : ∀ {s s' : State V} {k : Nat}, s.useStore = false →
      s.copyCtor k = .ok s' → s'.useStore = false ∧ ∀ b ∈ s'.stored, b ∈ s.stored := by
    intro s s' k hd e
    unfold State.copyCtor at e
    split at e
    · simp at e
    · simp only [Except.ok.injEq] at e; subst e; exact ⟨hd, fun b hb => hb⟩
  have movD : ∀ {s s' : State V} {k : Nat}, s.useStore = false →
      s.moveLast k = .ok s' → s'.useStore = false ∧ ∀ b ∈ s'.stored, b ∈ s.stored := by
    intro s s' k hd e
    unfold State.moveLast at e
    split at e
    · simp at e
    · simp only [Except.ok.injEq] at e; subst e; exact ⟨hd, fun b hb => hb⟩
  have swaD : ∀ {s s' : State V} {k : Nat}, s.useStore = false →
      s.swapLast k = .ok s' → s'.useStore = false ∧ ∀ b ∈ s'.stored, b ∈ s.stored := by
    intro s s' k hd e
    unfold State.swapLast at e
    split at e
    · simp only [Except.ok.injEq] at e; subst e; exact ⟨hd, fun b hb => hb⟩
    · simp at e
  cases o <;> simp only [State.step, Except.ok.injEq] at e
  case new len => exact getD hd e
  case newEmpty => subst e; exact ⟨hd, fun b hb => hb⟩
  case copyCtor src => exact copD hd e
  case moveCtor src =>
    unfold State.moveCtor at e
    split at e
    · simp at e
    · simp only [Except.ok.injEq] at e; subst e; exact ⟨hd, fun b hb => hb⟩
  case assign dst src =>
    unfold State.assign at e
    simp only [bind, Except.bind] at e
    split at e
    · simp at e
    · rename_i s1 h1
      have a1 := copD hd h1
      split at e
      · split at e
        · simp at e
        · rename_i s2 h2
          have a2 := swaD a1.1 h2
          split at e
          · simp at e
          · rename_i s3 h3
            have a3 := relD a2.1 h3
            simp only [Except.ok.injEq] at e
            subst e
            exact ⟨a3.1, fun b hb => a1.2 b (a2.2 b (a3.2 b hb))⟩
      · simp at e
  case destroy k => exact relD hd e
  case reallocate k len =>
    unfold State.reallocate at e
    simp only [bind, Except.bind] at e
    split at e
    · simp at e
    · rename_i s1 h1
      have a1 := relD hd h1
      split at e
      · simp at e
      · rename_i s2 h2
        have a2 := getD a1.1 h2
        have a3 := movD a2.1 e
        exact ⟨a3.1, fun b hb => a1.2 b (a2.2 b (a3.2 b hb))⟩
  case ensureUnique k =>
    unfold State.ensureUnique at e
    simp only [bind, Except.bind] at e
    split at e
    · simp at e
    · simp only [Except.ok.injEq] at e; subst e; exact ⟨hd, fun b hb => hb⟩
    · split at e
      · simp only [Except.ok.injEq] at e; subst e; exact ⟨hd, fun b hb => hb⟩
      · split at e
        · simp at e
        · split at e
          · simp at e
          · rename_i s1 h1
            have a1 := getD hd h1
            split at e
            · split at e
              · simp at e
              · rename_i s3 h3
                have a3 := relD (by exact a1.1) h3
                have a4 := movD a3.1 e
                exact ⟨a4.1, fun b hb => a1.2 b (a3.2 b (a4.2 b hb))⟩
            · simp at e
  case write k i v =>
    obtain ⟨b, d, _, _, _, rfl, _⟩ := write_spec hI e
    exact ⟨hd, fun b hb => hb⟩
  case disableStore => subst e; exact ⟨rfl, fun b hb => hb⟩
  case cleanup => subst e; exact ⟨rfl, fun b hb => by simp [State.cleanup, stored] at hb⟩

/-- **C08** After `cleanup()` the stores are empty (and by `C08_disable_irreversible` stay empty). -/
theorem C08_cleanup_empties (s : State V) : s.cleanup.stored = [] ∧ s.cleanup.useStore = false := by
  simp [State.cleanup, stored]

/-! ### No undefined behaviour -/

/-- Array objects named by an operation exist. -/
def Valid (s : State V) : Op V → Prop
  | .copyCtor k | .moveCtor k | .destroy k | .reallocate k _ | .ensureUnique k => k < s.handles.length
  | .assign d k => d < s.handles.length ∧ k < s.handles.length
  | .write k i _ => ∃ b d, s.handles[k]? = some (some b) ∧ s.mem b = some d ∧ i < d.length
  | _ => True

/-- **C08** Full claim: operations on existing Arrays by a thread the arena was created for never run into
undefined behaviour.  Proved here as long as the executing thread still has a store in the arena, which
always holds for the master thread (`C08_master_has_store`) and for every thread until `cleanup`. -/
theorem C08_no_ub_partial {s : State V} (h : Reachable s) (t : Nat) (j : V) (o : Op V)
    (ht : t < s.arena.length) (hv : Valid s o) : ∃ s', s.step t j o = .ok s' := by
  have hI := h.inv
  cases o <;> simp only [State.step]
  case new len => exact getPush_ok s t len j ht
  case newEmpty => exact ⟨_, rfl⟩
  case copyCtor k =>
    unfold State.copyCtor
    rw [List.getElem?_eq_getElem hv]; exact ⟨_, rfl⟩
  case moveCtor k =>
    unfold State.moveCtor
    rw [List.getElem?_eq_getElem hv]; exact ⟨_, rfl⟩
  case assign d k =>
    obtain ⟨hd, hk⟩ := hv
    unfold State.assign
    obtain ⟨s1, h1⟩ : ∃ s1, s.copyCtor k = .ok s1 := by
      unfold State.copyCtor; rw [List.getElem?_eq_getElem hk]; exact ⟨_, rfl⟩
    obtain ⟨p, hp, rfl, hI1⟩ := copyCtor_spec hI h1
    simp only [h1, bind, Except.bind, if_pos hd]
    obtain ⟨q, hq⟩ : ∃ q, s.handles[d]? = some q := ⟨_, List.getElem?_eq_getElem hd⟩
    have hsw : ({ s with handles := s.handles ++ [p] } : State V).swapLast d =
        .ok { s with handles := s.handles.set d p ++ [q] } := by
      unfold swapLast
      simp only [List.getElem?_append_left hd, hq, List.getLast?_concat, List.dropLast_concat]
      rw [List.set_append_left _ _ hd]
    simp only [hsw]
    have hI2 : Inv ({ s with handles := s.handles.set d p ++ [q] } : State V) := by
      refine inv_of_same_refs hI rfl rfl rfl (fun b => ?_)
      simp only [List.mem_append, List.mem_singleton]
      constructor
      · rintro (hx | hx)
        · rcases List.mem_or_eq_of_mem_set hx with hx | hx
          · exact hx
          · rw [hx]; exact List.mem_of_getElem? hp
        · rw [hx]; exact List.mem_of_getElem? hq
      · intro hx
        by_cases hqb : q = some b
        · right; exact hqb.symm
        · left
          rw [List.mem_iff_getElem?] at hx ⊢
          obtain ⟨i, hi⟩ := hx
          refine ⟨i, ?_⟩
          rw [List.getElem?_set_ne]
          · exact hi
          · rintro rfl; rw [hq] at hi; simp at hi; exact hqb hi
    obtain ⟨s3, h3⟩ := release_ok hI2 t ((s.handles ++ [p]).length - 1) ht (by simp)
    rw [h3]; exact ⟨_, rfl⟩
  case destroy k => exact release_ok hI t k ht hv
  case reallocate k len =>
    obtain ⟨s1, h1⟩ := release_ok hI t k ht hv
    obtain ⟨_, _, _, hI1, _, ha1⟩ := release_spec hI h1
    obtain ⟨s2, h2⟩ := getPush_ok s1 t len j (by omega)
    obtain ⟨p, d, hh2, _⟩ := getPush_spec hI1 h2
    unfold State.reallocate
    simp only [h1, h2, bind, Except.bind]
    unfold State.moveLast
    rw [hh2, List.getLast?_concat]; exact ⟨_, rfl⟩
  case ensureUnique k =>
    unfold State.ensureUnique
    rw [List.getElem?_eq_getElem hv]
    cases hx : s.handles[k] with
    | none => exact ⟨_, rfl⟩
    | some b =>
      have hb := hI.live b (by rw [← hx]; exact List.getElem_mem hv)
      simp only
      split
      · exact ⟨_, rfl⟩
      · cases hm : s.mem b with
        | none => exact absurd hm hb.1
        | some d =>
          obtain ⟨s1, h1⟩ := getPush_ok s t d.length j ht
          obtain ⟨p, g, hh1, _, _, _, _, hI1, _, _, ha1⟩ := getPush_spec hI h1
          simp only [h1, bind, Except.bind, hh1, List.getLast?_concat]
          rw [← hh1]
          have hI2 := inv_setMem (b := p) (d := d) hI1 (by rw [hh1]; simp)
          obtain ⟨s3, h3⟩ := release_ok hI2 t k (by show t < s1.arena.length; omega)
            (by have hv' : k < s.handles.length := hv
                show k < s1.handles.length; rw [hh1]; simp; omega)
          rw [h3]
          simp only
          obtain ⟨hh3, _⟩ := release_spec hI2 h3
          unfold State.moveLast
          rw [hh3]
          simp only [hh1]
          rw [List.set_append_left _ _ hv, List.getLast?_concat]; exact ⟨_, rfl⟩
  case write k i v =>
    obtain ⟨b, d, hk, hd, hi⟩ := hv
    unfold State.write
    simp only [hk, hd, if_pos hi]
    exact ⟨_, rfl⟩
  case disableStore => exact ⟨_, rfl⟩
  case cleanup => exact ⟨_, rfl⟩

/-- **C08, violated with OpenMP** (finding F17).  `cleanup()` shrinks the arena to a single store, but
`get`/`release` keep indexing it with the thread number, also when the store is disabled: after
`cleanup()` creating an Array on thread 1 of a two-thread run is an out-of-bounds access. -/
theorem C08_ub_after_cleanup : ∃ s : State Nat, Reachable s ∧ (∃ os, (State.init Nat 2).run os = .ok s) ∧
    ∃ m, s.step 1 0 (.new 3) = .error (.ub m) :=
  ⟨_, ⟨2, [(0, 0, .cleanup)], rfl⟩, ⟨[(0, 0, .cleanup)], rfl⟩, _, rfl⟩

theorem step_arena_pos {s s' : State V} {t : Nat} {j : V} {o : Op V} (h : Inv s)
    (e : s.step t j o = .ok s') (hp : 0 < s.arena.length) : 0 < s'.arena.length := by
  cases o <;> simp only [State.step, Except.ok.injEq] at e
  case new len => obtain ⟨_, _, _, _, _, _, _, _, _, _, ha⟩ := getPush_spec h e; omega
  case newEmpty => rw [← e]; exact hp
  case copyCtor src => obtain ⟨_, _, rfl, _⟩ := copyCtor_spec h e; exact hp
  case moveCtor src => obtain ⟨_, _, rfl, _⟩ := moveCtor_spec h e; exact hp
  case assign d sr =>
    unfold State.assign at e
    simp only [bind, Except.bind] at e
    split at e
    · simp at e
    · rename_i s1 h1
      obtain ⟨p, hpp, rfl, hI1⟩ := copyCtor_spec h h1
      split at e
      · rename_i hd
        obtain ⟨q, hq⟩ : ∃ q, s.handles[d]? = some q := ⟨_, List.getElem?_eq_getElem hd⟩
        split at e
        · simp at e
        · rename_i s2 h2
          have ha2 : s2.arena = s.arena := by
            unfold State.swapLast at h2
            split at h2
            · simp only [Except.ok.injEq] at h2; rw [← h2]
            · simp at h2
          split at e
          · simp at e
          · rename_i s3 h3
            have : s3.arena.length = s2.arena.length := by
              unfold State.release at h3
              repeat' split at h3
              all_goals first
                | (simp at h3; done)
                | (simp only [Except.ok.injEq] at h3; subst h3; first | rfl | simp)
            simp only [Except.ok.injEq] at e
            rw [← e]; show 0 < s3.arena.length
            rw [this, ha2]; exact hp
      · simp at e
  case destroy k => obtain ⟨_, _, _, _, _, ha⟩ := release_spec h e; omega
  case reallocate k len =>
    unfold State.reallocate at e
    simp only [bind, Except.bind] at e
    split at e
    · simp at e
    · rename_i s1 h1
      obtain ⟨_, _, _, hI1, _, ha1⟩ := release_spec h h1
      split at e
      · simp at e
      · rename_i s2 h2
        obtain ⟨_, _, _, _, _, _, _, _, _, _, ha2⟩ := getPush_spec hI1 h2
        unfold State.moveLast at e
        split at e
        · simp at e
        · simp only [Except.ok.injEq] at e; rw [← e]; show 0 < s2.arena.length; omega
  case ensureUnique k =>
    unfold State.ensureUnique at e
    simp only [bind, Except.bind] at e
    split at e
    · simp at e
    · simp only [Except.ok.injEq] at e; rw [← e]; exact hp
    · split at e
      · simp only [Except.ok.injEq] at e; rw [← e]; exact hp
      · split at e
        · simp at e
        · rename_i d hd
          split at e
          · simp at e
          · rename_i s1 h1
            obtain ⟨p, g, hh1, _, _, _, _, hI1, _, _, ha1⟩ := getPush_spec h h1
            rw [hh1, List.getLast?_concat] at e
            simp only at e
            rw [← hh1] at e
            have hI2 := inv_setMem (b := p) (d := d) hI1 (by rw [hh1]; simp)
            split at e
            · simp at e
            · rename_i s3 h3
              obtain ⟨_, _, _, _, _, ha3⟩ := release_spec hI2 h3
              have ha3' : s3.arena.length = s1.arena.length := ha3
              unfold State.moveLast at e
              split at e
              · simp at e
              · simp only [Except.ok.injEq] at e; rw [← e]; show 0 < s3.arena.length; omega
  case write k i v => obtain ⟨_, _, _, _, _, rfl, _⟩ := write_spec h e; exact hp
  case disableStore => rw [← e]; exact hp
  case cleanup => rw [← e]; simp [State.cleanup]

/-- **C08** The master thread (thread 0) always has a store, before and after `cleanup`, so a
single-threaded program never meets undefined behaviour in Array bookkeeping. -/
theorem C08_master_has_store {n : Nat} (hn : 0 < n) {os : List (Nat × V × Op V)} {s : State V}
    (e : (State.init V n).run os = .ok s) : 0 < s.arena.length := by
  have key : ∀ (s0 : State V), Inv s0 → 0 < s0.arena.length → s0.run os = .ok s → 0 < s.arena.length := by
    clear e
    induction os with
    | nil => intro s0 _ hp e; simp only [State.run, Except.ok.injEq] at e; exact e ▸ hp
    | cons a os ih =>
      obtain ⟨t, j, o⟩ := a
      intro s0 hI hp e
      simp only [State.run] at e
      split at e
      · rename_i s1 h1; exact ih s1 (step_inv hI h1) (step_arena_pos hI h1 hp) e
      · simp at e
  exact key _ (inv_init n) (by simpa [State.init] using hn) e

example : ∃ s : State Nat, (State.init Nat 1).run
    [(0, 1, .new 4), (0, 1, .copyCtor 0), (0, 1, .ensureUnique 0), (0, 1, .destroy 0), (0, 1, .cleanup),
     (0, 1, .reallocate 1 2)] = .ok s ∧ s.contents = [none, some [1, 1]] ∧ s.stored = [] :=
  ⟨_, rfl, by decide, by decide⟩

end Verif.Array
