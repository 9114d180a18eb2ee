import Verif.Mesh.CAcc

/-! # C91: theorems about the cache of coordinates data -/
namespace Verif.CAcc

variable {V : Type}

/-! ## Specification -/

/-- Whether an accessor for the address has been made since its data was last cleared. -/
def cachedAfter (a : Nat) : List (Op V) → Bool → Bool
  | [], b => b
  | .construct a' _ :: os, b => cachedAfter a os (b || a' == a)
  | .clear none :: os, _ => cachedAfter a os false
  | .clear (some a') :: os, b => cachedAfter a os (b && a' != a)
  | _ :: os, b => cachedAfter a os b

/-- The event clears the data of the address. -/
def Clears (a : Nat) : Op V → Prop
  | .clear none => True
  | .clear (some a') => a' = a
  | _ => False

/-- The event concerns the object at the address. -/
def Touches (a : Nat) : Op V → Prop
  | .create a' _ => a' = a
  | .destroy a' => a' = a
  | .modify a' _ _ _ => a' = a
  | _ => False

/-! ## Layout -/

theorem offset_lt (s : Sym) : offset s < stripe := by cases s <;> decide

theorem offset_inj : ∀ s t, offset s = offset t → s = t := by
  intro s t h; cases s <;> cases t <;> first | rfl | (exact absurd h (by decide))

theorem mem_copies (s : Sym) : s ∈ copies := by cases s <;> decide

theorem cell_inj {i j : Nat} {s t : Sym} (h : stripe * i + offset s = stripe * j + offset t) : i = j ∧ s = t := by
  have h1 := offset_lt s
  have h2 := offset_lt t
  unfold stripe at *
  have : i = j := by omega
  subst this
  exact ⟨rfl, offset_inj s t (by omega)⟩

theorem copies_foldl (c : Coords V) (ind : Nat) (l : List Sym) : ∀ (m : Nat → V) (i : Nat) (s : Sym),
    (l.foldl (fun m s => write m (stripe * ind + offset s) (c.val s ind)) m) (stripe * i + offset s)
      = if i = ind ∧ s ∈ l then c.val s ind else m (stripe * i + offset s) := by
  induction l with
  | nil => intro m i s; simp
  | cons t l ih =>
    intro m i s
    rw [List.foldl_cons, ih]
    by_cases h : i = ind ∧ s ∈ l
    · rw [if_pos h, if_pos ⟨h.1, List.mem_cons_of_mem _ h.2⟩]
    · rw [if_neg h, write]
      by_cases h2 : stripe * i + offset s = stripe * ind + offset t
      · obtain ⟨h3, h4⟩ := cell_inj h2
        subst h3; subst h4
        rw [if_pos rfl, if_pos ⟨rfl, by simp⟩]
      · rw [if_neg h2, if_neg]
        rintro ⟨rfl, h4⟩
        rcases List.mem_cons.1 h4 with rfl | h5
        · exact h2 rfl
        · exact h ⟨rfl, h5⟩

theorem copyPoint_spec (c : Coords V) (m : Nat → V) (ind i : Nat) (s : Sym) :
    copyPoint c m ind (stripe * i + offset s) = if i = ind then c.val s ind else m (stripe * i + offset s) := by
  unfold copyPoint
  rw [copies_foldl]
  simp [mem_copies]

theorem copyPoints_spec (c : Coords V) (l : List Nat) : ∀ (m : Nat → V) (i : Nat) (s : Sym),
    l.foldl (copyPoint c) m (stripe * i + offset s) = if i ∈ l then c.val s i else m (stripe * i + offset s) := by
  induction l with
  | nil => intro m i s; simp
  | cons t l ih =>
    intro m i s
    rw [List.foldl_cons, ih, copyPoint_spec]
    by_cases h : i ∈ l
    · simp [h]
    · by_cases h2 : i = t
      · subst h2; simp
      · simp [h, h2]

theorem copyAll_spec (d : Bool) (c : Coords V) (m : Nat → V) (i : Nat) (s : Sym) (hi : i < points d c) :
    copyAll d c m (stripe * i + offset s) = c.val s i := by
  unfold copyAll
  rw [copyPoints_spec, if_pos (List.mem_range.2 hi)]

/-- **C91, layout.** The cells for different points or different quantities are different, and all lie in the array. -/
theorem C91_layout (d : Bool) (c : Coords V) :
    (∀ i j s t, stripe * i + offset s = stripe * j + offset t → i = j ∧ s = t)
    ∧ ∀ i s, i < points d c → stripe * i + offset s < arraySize d c := by
  refine ⟨fun i j s t h => cell_inj h, fun i s hi => ?_⟩
  have h1 := offset_lt s
  have h2 : arraySize d c = stripe * points d c := by
    unfold arraySize points; cases d <;> simp <;> ring
  rw [h2]
  calc stripe * i + offset s < stripe * i + stripe := by omega
    _ = stripe * (i + 1) := by ring
    _ ≤ stripe * points d c := Nat.mul_le_mul_left _ hi

/-- The number of the metric point that belongs to a 3D index. -/
theorem cell_eq (d : Bool) (b : Nat) (c : Coords V) (x y z : Nat) (hx : x < c.nx) (hy : y < c.ny) (hz : z < c.nz) (s : Sym) :
    let p := if d then (x * c.ny + y) * c.nz + z else x * c.ny + y
    cell d ⟨b, c.nz⟩ ((x * c.ny + y) * c.nz + z) s = stripe * p + offset s ∧ p < points d c := by
  have h1 : x * c.ny + y < c.nx * c.ny := by
    calc x * c.ny + y < x * c.ny + c.ny := by omega
      _ = (x + 1) * c.ny := by ring
      _ ≤ c.nx * c.ny := Nat.mul_le_mul_right _ hx
  cases d
  · refine ⟨?_, by simpa [points] using h1⟩
    have : ((x * c.ny + y) * c.nz + z) / c.nz = x * c.ny + y := by
      rw [Nat.mul_comm, Nat.mul_add_div (by omega), Nat.div_eq_of_lt hz, Nat.add_zero]
    simp only [cell, Bool.false_eq_true, if_false, this]
  · refine ⟨rfl, ?_⟩
    simp only [if_true, points]
    calc (x * c.ny + y) * c.nz + z < (x * c.ny + y) * c.nz + c.nz := by omega
      _ = (x * c.ny + y + 1) * c.nz := by ring
      _ ≤ c.nx * c.ny * c.nz := Nat.mul_le_mul_right _ h1

/-! ## Histories -/

/-- No two cached addresses are equal, nor two blocks. -/
structure Inv (s : St V) : Prop where
  addrs : (s.store.map Prod.fst).Nodup
  blocks : (s.store.map Prod.snd).Nodup

theorem lookup_cons_self {β : Type} (l : List (Nat × β)) (a : Nat) (y : β) : ((a, y) :: l).lookup a = some y := by
  rw [List.lookup_cons, beq_self_eq_true]

theorem lookup_cons_ne {β : Type} (l : List (Nat × β)) {a x : Nat} (y : β) (h : a ≠ x) :
    ((x, y) :: l).lookup a = l.lookup a := by
  rw [List.lookup_cons, beq_eq_false_iff_ne.2 h]

theorem lookup_none {β : Type} (l : List (Nat × β)) (a : Nat) : l.lookup a = none ↔ a ∉ l.map Prod.fst := by
  induction l with
  | nil => simp
  | cons e l ih =>
    obtain ⟨x, y⟩ := e
    by_cases h : a = x
    · subst h; rw [lookup_cons_self]; simp
    · rw [lookup_cons_ne _ _ h, ih, List.map_cons, List.mem_cons, not_or]
      exact ⟨fun k => ⟨h, k⟩, fun k => k.2⟩

theorem lookup_some_mem {β : Type} {l : List (Nat × β)} {a : Nat} {b : β} (h : l.lookup a = some b) : (a, b) ∈ l := by
  induction l with
  | nil => simp at h
  | cons e l ih =>
    obtain ⟨x, y⟩ := e
    by_cases h2 : a = x
    · subst h2; rw [lookup_cons_self] at h; cases h; simp
    · rw [lookup_cons_ne _ _ h2] at h; exact List.mem_cons_of_mem _ (ih h)

theorem lookup_append_none {β : Type} {l m : List (Nat × β)} {a : Nat} (h : l.lookup a = none) :
    (l ++ m).lookup a = m.lookup a := by
  induction l with
  | nil => rfl
  | cons e l ih =>
    obtain ⟨x, y⟩ := e
    by_cases h2 : a = x
    · subst h2; rw [lookup_cons_self] at h; cases h
    · rw [lookup_cons_ne _ _ h2] at h
      rw [List.cons_append, lookup_cons_ne _ _ h2]; exact ih h

theorem lookup_append_some {β : Type} {l m : List (Nat × β)} {a : Nat} {b : β} (h : l.lookup a = some b) :
    (l ++ m).lookup a = some b := by
  induction l with
  | nil => simp at h
  | cons e l ih =>
    obtain ⟨x, y⟩ := e
    rw [List.cons_append]
    by_cases h2 : a = x
    · subst h2; rw [lookup_cons_self] at h ⊢; exact h
    · rw [lookup_cons_ne _ _ h2] at h ⊢; exact ih h

theorem lookup_filter_ne {β : Type} (l : List (Nat × β)) (a a' : Nat) (h : a' ≠ a) :
    (l.filter fun e => e.1 ≠ a').lookup a = l.lookup a := by
  induction l with
  | nil => rfl
  | cons e l ih =>
    obtain ⟨x, y⟩ := e
    by_cases h2 : x = a'
    · subst h2
      rw [List.filter_cons_of_neg (by simp), ih, lookup_cons_ne _ _ (Ne.symm h)]
    · rw [List.filter_cons_of_pos (by simpa using h2), List.lookup_cons, List.lookup_cons, ih]

theorem lookup_filter_self {β : Type} (l : List (Nat × β)) (a : Nat) : (l.filter fun e => e.1 ≠ a).lookup a = none := by
  rw [lookup_none]
  intro h
  obtain ⟨e, he, h2⟩ := List.mem_map.1 h
  have := (List.mem_filter.1 he).2
  simp [h2] at this

theorem construct_store (d : Bool) (s : St V) (a : Nat) (c : Coords V) (blk : Nat) :
    (construct d s a c blk).1.store = (if (s.store.lookup a).isSome then s.store else s.store ++ [(a, blk)])
    ∧ (construct d s a c blk).1.coords = s.coords := by
  unfold construct
  cases h : s.store.lookup a <;> simp

theorem step_inv (d : Bool) (s s' : St V) (o : Op V) (h : step d s o = some s') (hs : Inv s) : Inv s' := by
  cases o with
  | create a c =>
    simp only [step] at h
    split_ifs at h
    cases h; exact ⟨hs.1, hs.2⟩
  | destroy a => simp only [step, Option.some.injEq] at h; subst h; exact ⟨hs.1, hs.2⟩
  | modify a t i v => simp only [step, Option.some.injEq] at h; subst h; exact ⟨hs.1, hs.2⟩
  | construct a blk =>
    simp only [step] at h
    cases hc : s.coords.lookup a with
    | none => simp [hc] at h
    | some c =>
      simp only [hc] at h
      split_ifs at h with hb
      cases h
      have hst := (construct_store d s a c blk).1
      cases hl : s.store.lookup a with
      | some b => rw [hl] at hst; simp at hst; exact ⟨hst ▸ hs.1, hst ▸ hs.2⟩
      | none =>
        rw [hl] at hst; simp at hst
        refine ⟨?_, ?_⟩
        · rw [hst, List.map_append, List.nodup_append]
          refine ⟨hs.1, by simp, ?_⟩
          intro x hx y hy
          simp at hy; subst hy
          rintro rfl
          exact (lookup_none _ _).1 hl hx
        · rw [hst, List.map_append, List.nodup_append]
          refine ⟨hs.2, by simp, ?_⟩
          intro x hx y hy
          simp at hy; subst hy
          rintro rfl
          exact hb hx
  | clear a =>
    simp only [step, Option.some.injEq] at h; subst h
    cases a with
    | none => exact ⟨by simp [clear], by simp [clear]⟩
    | some a => exact ⟨hs.1.sublist (List.filter_sublist.map _), hs.2.sublist (List.filter_sublist.map _)⟩
  | other blk i v =>
    simp only [step] at h
    split_ifs at h
    cases h; exact ⟨hs.1, hs.2⟩

theorem step_cached (d : Bool) (s s' : St V) (o : Op V) (h : step d s o = some s') (a : Nat) :
    (s'.store.lookup a).isSome = cachedAfter a [o] (s.store.lookup a).isSome := by
  cases o with
  | create a' c =>
    simp only [step] at h
    split_ifs at h
    cases h; rfl
  | destroy a' => simp only [step, Option.some.injEq] at h; subst h; rfl
  | modify a' t i v => simp only [step, Option.some.injEq] at h; subst h; rfl
  | construct a' blk =>
    simp only [step] at h
    cases hc : s.coords.lookup a' with
    | none => simp [hc] at h
    | some c =>
      simp only [hc] at h
      split_ifs at h with hb
      cases h
      rw [(construct_store d s a' c blk).1]
      simp only [cachedAfter]
      cases hl : s.store.lookup a' with
      | some b =>
        simp only [Option.isSome_some, if_true]
        by_cases e : a' = a
        · subst e; simp [hl]
        · simp [e]
      | none =>
        simp only [Option.isSome_none, Bool.false_eq_true, if_false]
        cases hl2 : s.store.lookup a with
        | some b => rw [lookup_append_some hl2]; rfl
        | none =>
          rw [lookup_append_none hl2]
          by_cases e : a = a'
          · subst e; rw [lookup_cons_self]; simp
          · rw [lookup_cons_ne _ _ e]; simp [Ne.symm e]
  | clear a' =>
    simp only [step, Option.some.injEq] at h; subst h
    cases a' with
    | none => simp [clear, cachedAfter]
    | some a' =>
      simp only [clear, cachedAfter]
      by_cases e : a' = a
      · subst e; rw [lookup_filter_self]; simp
      · rw [lookup_filter_ne _ _ _ e]; simp [e]
  | other blk i v =>
    simp only [step] at h
    split_ifs at h
    cases h; rfl

theorem cachedAfter_cons (a : Nat) (o : Op V) (os : List (Op V)) (b : Bool) :
    cachedAfter a (o :: os) b = cachedAfter a os (cachedAfter a [o] b) := by
  cases o with
  | clear x => cases x <;> rfl
  | _ => rfl

theorem run_inv (d : Bool) : ∀ (os : List (Op V)) (s s' : St V), run d s os = some s' → Inv s →
    Inv s' ∧ ∀ a, (s'.store.lookup a).isSome = cachedAfter a os (s.store.lookup a).isSome := by
  intro os
  induction os with
  | nil => intro s s' h hs; simp only [run, Option.some.injEq] at h; subst h; exact ⟨hs, fun a => rfl⟩
  | cons o os ih =>
    intro s s' h hs
    simp only [run] at h
    cases h1 : step d s o with
    | none => simp [h1] at h
    | some t =>
      simp only [h1, Option.bind_some] at h
      obtain ⟨i1, i2⟩ := ih t s' h (step_inv d s t o h1 hs)
      refine ⟨i1, fun a => ?_⟩
      rw [i2, cachedAfter_cons, step_cached d s t o h1 a]

/-- An event that does not clear the data of an address leaves its block and the memory of it alone. -/
theorem step_keeps (d : Bool) (s s' : St V) (o : Op V) (h : step d s o = some s') (a b : Nat) (hl : s.store.lookup a = some b)
    (hc : ¬ Clears a o) : s'.store.lookup a = some b ∧ s'.mem b = s.mem b := by
  have hb : b ∈ s.store.map Prod.snd := List.mem_map.2 ⟨(a, b), lookup_some_mem hl, rfl⟩
  cases o with
  | create a' c =>
    simp only [step] at h
    split_ifs at h
    cases h; exact ⟨hl, rfl⟩
  | destroy a' => simp only [step, Option.some.injEq] at h; subst h; exact ⟨hl, rfl⟩
  | modify a' t i v => simp only [step, Option.some.injEq] at h; subst h; exact ⟨hl, rfl⟩
  | construct a' blk =>
    simp only [step] at h
    cases hco : s.coords.lookup a' with
    | none => simp [hco] at h
    | some c =>
      simp only [hco] at h
      split_ifs at h with hbl
      cases h
      have hne : b ≠ blk := fun e => hbl (e ▸ hb)
      unfold construct
      cases hl2 : s.store.lookup a' with
      | some b' => exact ⟨hl, rfl⟩
      | none => exact ⟨lookup_append_some hl, by simp [hne]⟩
  | clear a' =>
    simp only [step, Option.some.injEq] at h; subst h
    cases a' with
    | none => exact (hc trivial).elim
    | some a' =>
      refine ⟨?_, rfl⟩
      exact (lookup_filter_ne _ _ _ (fun e => hc e)).trans hl
  | other blk i v =>
    simp only [step] at h
    split_ifs at h with hbl
    cases h
    refine ⟨hl, ?_⟩
    have hne : b ≠ blk := fun e => hbl (e ▸ hb)
    simp [hne]

theorem run_keeps (d : Bool) (a b : Nat) : ∀ (os : List (Op V)) (s s' : St V), run d s os = some s' →
    s.store.lookup a = some b → (∀ o ∈ os, ¬ Clears a o) → s'.store.lookup a = some b ∧ s'.mem b = s.mem b := by
  intro os
  induction os with
  | nil => intro s s' h hl _; simp only [run, Option.some.injEq] at h; subst h; exact ⟨hl, rfl⟩
  | cons o os ih =>
    intro s s' h hl hc
    simp only [run] at h
    cases h1 : step d s o with
    | none => simp [h1] at h
    | some t =>
      simp only [h1, Option.bind_some] at h
      obtain ⟨k1, k2⟩ := step_keeps d s t o h1 a b hl (hc o (by simp))
      obtain ⟨k3, k4⟩ := ih t s' h k1 (fun o' ho' => hc o' (List.mem_cons_of_mem _ ho'))
      exact ⟨k3, k4.trans k2⟩

theorem run_append (d : Bool) : ∀ (os ps : List (Op V)) (s : St V),
    run d s (os ++ ps) = (run d s os).bind fun t => run d t ps := by
  intro os
  induction os with
  | nil => intro ps s; rfl
  | cons o os ih =>
    intro ps s
    simp only [List.cons_append, run]
    cases step d s o with
    | none => rfl
    | some t => simp [ih]

theorem step_coords (d : Bool) (s s' : St V) (o : Op V) (h : step d s o = some s') (a : Nat) (ht : ¬ Touches a o) :
    s'.coords.lookup a = s.coords.lookup a := by
  cases o with
  | create a' c =>
    simp only [step] at h
    split_ifs at h
    cases h
    have : a ≠ a' := fun e => ht e.symm
    exact lookup_cons_ne _ _ this
  | destroy a' =>
    simp only [step, Option.some.injEq] at h; subst h
    exact lookup_filter_ne _ _ _ (fun e => ht e)
  | modify a' t i v =>
    simp only [step, Option.some.injEq] at h; subst h
    have hne : a ≠ a' := fun e => ht e.symm
    simp only
    induction s.coords with
    | nil => rfl
    | cons e l ih =>
      obtain ⟨x, y⟩ := e
      rw [List.map_cons]
      by_cases hx : x = a'
      · subst hx; rw [if_pos rfl, lookup_cons_ne _ _ hne, lookup_cons_ne _ _ hne, ih]
      · rw [if_neg hx, List.lookup_cons, List.lookup_cons, ih]
  | construct a' blk =>
    simp only [step] at h
    cases hco : s.coords.lookup a' with
    | none => simp [hco] at h
    | some c =>
      simp only [hco] at h
      split_ifs at h
      cases h
      rw [(construct_store d s a' c blk).2]
  | clear a' =>
    simp only [step, Option.some.injEq] at h; subst h
    cases a' <;> rfl
  | other blk i v =>
    simp only [step] at h
    split_ifs at h
    cases h; rfl

theorem run_coords (d : Bool) (a : Nat) : ∀ (os : List (Op V)) (s s' : St V), run d s os = some s' →
    (∀ o ∈ os, ¬ Touches a o) → s'.coords.lookup a = s.coords.lookup a := by
  intro os
  induction os with
  | nil => intro s s' h _; simp only [run, Option.some.injEq] at h; subst h; rfl
  | cons o os ih =>
    intro s s' h hc
    simp only [run] at h
    cases h1 : step d s o with
    | none => simp [h1] at h
    | some t =>
      simp only [h1, Option.bind_some] at h
      rw [ih t s' h (fun o' ho' => hc o' (List.mem_cons_of_mem _ ho')), step_coords d s t o h1 a (hc o (by simp))]

/-- **C91, snapshot.** In any possible history: an accessor made when nothing is cached for the address gives, for every
quantity and every point, the value the object has then; and it and every accessor made for the address later give these values
until the data is cleared, whatever else happens. -/
theorem C91_snapshot (d : Bool) (mem : Nat → Nat → V) (h1 h2 : List (Op V)) (a blk : Nat) (s0 s1 s2 : St V) (c c2 : Coords V)
    (e1 : run d (start mem) h1 = some s0) (hun : cachedAfter a h1 false = false) (hc : s0.coords.lookup a = some c)
    (hb : step d s0 (.construct a blk) = some s1) (e2 : run d s1 h2 = some s2) (hcl : ∀ o ∈ h2, ¬ Clears a o) (blk2 : Nat)
    (x y z : Nat) (hx : x < c.nx) (hy : y < c.ny) (hz : z < c.nz) (s : Sym) :
    lookup d s2 (construct d s0 a c blk).2 ((x * c.ny + y) * c.nz + z) s
        = c.val s (if d then (x * c.ny + y) * c.nz + z else x * c.ny + y)
    ∧ (c2.nz = c.nz → (construct d s2 a c2 blk2).2 = (construct d s0 a c blk).2 ∧ (construct d s2 a c2 blk2).1 = s2) := by
  have hinv := run_inv d h1 (start mem) s0 e1 ⟨by simp [start], by simp [start]⟩
  have hnone : s0.store.lookup a = none := by
    have := hinv.2 a
    rw [show ((start mem).store.lookup a).isSome = false from rfl, hun] at this
    simpa using this
  simp only [step, hc] at hb
  split_ifs at hb with hbl
  simp only [Option.some.injEq] at hb
  have hcon : construct d s0 a c blk = (⟨s0.coords, s0.store ++ [(a, blk)],
        fun b => if b = blk then copyAll d c (s0.mem blk) else s0.mem b⟩, ⟨blk, c.nz⟩) := by
    simp [construct, hnone]
  have hl1 : s1.store.lookup a = some blk := by
    rw [← hb, hcon]
    show (s0.store ++ [(a, blk)]).lookup a = some blk
    rw [lookup_append_none hnone]; simp
  have hm1 : s1.mem blk = copyAll d c (s0.mem blk) := by rw [← hb, hcon]; simp
  obtain ⟨k1, k2⟩ := run_keeps d a blk h2 s1 s2 e2 hl1 hcl
  have hacc : (construct d s0 a c blk).2 = ⟨blk, c.nz⟩ := by rw [hcon]
  refine ⟨?_, ?_⟩
  · obtain ⟨q1, q2⟩ := cell_eq d blk c x y z hx hy hz s
    rw [hacc, lookup, q1]
    show s2.mem blk _ = _
    rw [k2, hm1, copyAll_spec d c _ _ s q2]
  · intro hnz
    rw [hacc]
    simp [construct, k1, hnz]

/-- **C91, current values.** If the object has not been changed, destroyed or made since the data was cached, every accessor
made for it gives its values. -/
theorem C91_current_partial (d : Bool) (mem : Nat → Nat → V) (h1 h2 : List (Op V)) (a blk : Nat) (s0 s1 s2 : St V)
    (c2 : Coords V) (e1 : run d (start mem) h1 = some s0) (hun : cachedAfter a h1 false = false)
    (hb : step d s0 (.construct a blk) = some s1) (e2 : run d s1 h2 = some s2) (hcl : ∀ o ∈ h2, ¬ Clears a o)
    (ht : ∀ o ∈ h2, ¬ Touches a o) (hc2 : s2.coords.lookup a = some c2) (blk2 : Nat)
    (x y z : Nat) (hx : x < c2.nx) (hy : y < c2.ny) (hz : z < c2.nz) (s : Sym) :
    lookup d s2 (construct d s2 a c2 blk2).2 ((x * c2.ny + y) * c2.nz + z) s
        = c2.val s (if d then (x * c2.ny + y) * c2.nz + z else x * c2.ny + y) := by
  have hc1 : s1.coords.lookup a = some c2 := by rw [← run_coords d a h2 s1 s2 e2 ht]; exact hc2
  have hc : s0.coords.lookup a = some c2 := by
    rw [← step_coords d s0 s1 _ hb a (fun h => h)]; exact hc1
  obtain ⟨k1, k2⟩ := C91_snapshot d mem h1 h2 a blk s0 s1 s2 c2 c2 e1 hun hc hb e2 hcl blk2 x y z hx hy hz s
  rw [(k2 rfl).1]; exact k1

/-- **C91, `clear`.** It returns the number of arrays removed: all that are cached, or one or none for a given object; nothing
is cached for it afterwards, and for other objects nothing changes. -/
theorem C91_clear (d : Bool) (mem : Nat → Nat → V) (h : List (Op V)) (s : St V) (e : run d (start mem) h = some s) :
    (∃ l : List Nat, l.Nodup ∧ (∀ a, a ∈ l ↔ cachedAfter a h false = true) ∧ (clear s none).2 = l.length)
    ∧ (∀ a, (clear s (some a)).2 = if cachedAfter a h false then 1 else 0)
    ∧ (∀ a, (clear s none).1.store.lookup a = none) ∧ (∀ a, (clear s (some a)).1.store.lookup a = none)
    ∧ (∀ a b, a ≠ b → (clear s (some a)).1.store.lookup b = s.store.lookup b)
    ∧ ∀ x, (clear s x).1.mem = s.mem ∧ (clear s x).1.coords = s.coords := by
  obtain ⟨hi, hcached⟩ := run_inv d h (start mem) s e ⟨by simp [start], by simp [start]⟩
  have hcached : ∀ a, (s.store.lookup a).isSome = cachedAfter a h false := hcached
  have hmem : ∀ a, a ∈ s.store.map Prod.fst ↔ cachedAfter a h false = true := by
    intro a
    rw [← hcached a]
    constructor
    · intro hm
      by_contra hc
      exact (lookup_none s.store a).1 (Option.not_isSome_iff_eq_none.1 hc) hm
    · intro hs
      by_contra hm
      rw [(lookup_none s.store a).2 hm] at hs
      simp at hs
  refine ⟨⟨s.store.map Prod.fst, hi.1, hmem, by simp [clear]⟩, ?_, fun a => rfl, ?_, ?_, ?_⟩
  · intro a
    show (s.store.filter (fun e => e.1 = a)).length = _
    have : (s.store.filter (fun e => e.1 = a)).length = (s.store.map Prod.fst).count a := by
      rw [List.count_eq_countP, List.countP_map, List.countP_eq_length_filter]
      congr 1
    rw [this]
    by_cases hc : cachedAfter a h false = true
    · rw [if_pos hc, List.count_eq_one_of_mem hi.1 ((hmem a).2 hc)]
    · rw [if_neg hc, List.count_eq_zero_of_not_mem (fun h => hc ((hmem a).1 h))]
  · intro a; exact lookup_filter_self _ _
  · intro a b hab; exact lookup_filter_ne _ _ _ hab
  · intro x; cases x <;> exact ⟨rfl, rfl⟩

/-- The event `modify` changes one value and no other. -/
theorem C91_modify {V : Type} (c : Coords V) (s : Sym) (i : Nat) (v : V) :
    (c.set s i v).val s i = v ∧ ∀ t j, t ≠ s ∨ j ≠ i → (c.set s i v).val t j = c.val t j := by
  refine ⟨by simp [Coords.set], fun t j h => ?_⟩
  simp only [Coords.set]
  rw [if_neg]
  rintro ⟨rfl, rfl⟩
  simp at h

end Verif.CAcc
