/-
C38: model of `include/bout/generic_factory.hxx` and its properties.
-/
import Verif.Options.Props
import Mathlib.Order.Defs.LinearOrder
import Mathlib.Data.List.Lex
import Mathlib.Data.Char

namespace Verif.Factory
open Verif

/-! ## `std::map` -/

/-- `std::map<K, V>`: the pairs in the order of the iterator. -/
abbrev Map (K V : Type) := List (K × V)

variable {K V : Type} [LinearOrder K]

/-- `std::map::insert(pair)`, and whether the pair was inserted (`.second`). -/
def mapInsert (k : K) (v : V) : Map K V → Map K V × Bool
  | [] => ([(k, v)], true)
  | p :: ps =>
    if k < p.1 then ((k, v) :: p :: ps, true)
    else if k = p.1 then (p :: ps, false)
    else (p :: (mapInsert k v ps).1, (mapInsert k v ps).2)

/-- `std::map::erase(key)`, and the number of elements removed. -/
def mapErase (k : K) (m : Map K V) : Map K V × Nat :=
  (m.filter (fun p => decide (p.1 ≠ k)), (m.filter (fun p => decide (p.1 = k))).length)

/-- `std::map::find(key)`. -/
def mapFind (k : K) (m : Map K V) : Option V := (m.find? (fun p => decide (p.1 = k))).map Prod.snd

/-! ## The factory -/

/-- generic_factory.hxx:64-71: the two maps.  A creator is a function of its arguments that may throw. -/
structure Factory (K A B : Type) where
  types : Map K (A → Out B) := []
  unavailable : Map K String := []

variable {A B : Type}

/-- generic_factory.hxx:111-113 `add`. -/
def Factory.add (F : Factory K A B) (n : K) (c : A → Out B) : Factory K A B × Bool :=
  ({ types := (mapInsert n c F.types).1, unavailable := F.unavailable }, (mapInsert n c F.types).2)
/-- generic_factory.hxx:122-124 `addUnavailable`. -/
def Factory.addUnavailable (F : Factory K A B) (n : K) (why : String) : Factory K A B × Bool :=
  ({ types := F.types, unavailable := (mapInsert n why F.unavailable).1 }, (mapInsert n why F.unavailable).2)
/-- generic_factory.hxx:130 `remove`. -/
def Factory.remove (F : Factory K A B) (n : K) : Factory K A B × Bool :=
  ({ types := (mapErase n F.types).1, unavailable := F.unavailable }, decide ((mapErase n F.types).2 = 1))
/-- generic_factory.hxx:136-138 `removeUnavailable`. -/
def Factory.removeUnavailable (F : Factory K A B) (n : K) : Factory K A B × Bool :=
  ({ types := F.types, unavailable := (mapErase n F.unavailable).1 }, decide ((mapErase n F.unavailable).2 = 1))

/-- What `create` does: run a creator, or throw one of two exceptions. -/
inductive Result (B : Type) where
  | made (o : Out B)
  | unavailable (why : String)
  | notFound

/-- generic_factory.hxx:168-193 `create(name, args...)`. -/
def Factory.create (F : Factory K A B) (n : K) (a : A) : Result B :=
  match mapFind n F.types with
  | some c => .made (c a)
  | none =>
    match mapFind n F.unavailable with
    | some why => .unavailable why
    | none => .notFound

/-- generic_factory.hxx:207-214 `listAvailable`. -/
def Factory.listAvailable (F : Factory K A B) : List K := F.types.map Prod.fst
/-- generic_factory.hxx:216-223 `listUnavailableReasons`, without formatting. -/
def Factory.listUnavailable (F : Factory K A B) : List (K × String) := F.unavailable

/-- A call that changes the factory. -/
inductive Call (K A B : Type) where
  | add (n : K) (c : A → Out B)
  | addUnavailable (n : K) (why : String)
  | remove (n : K)
  | removeUnavailable (n : K)

/-- One call, with the returned flag. -/
def Factory.step (F : Factory K A B) : Call K A B → Factory K A B × Bool
  | .add n c => F.add n c
  | .addUnavailable n why => F.addUnavailable n why
  | .remove n => F.remove n
  | .removeUnavailable n => F.removeUnavailable n

/-- A history of calls on a new factory. -/
def run (h : List (Call K A B)) : Factory K A B := h.foldl (fun F e => (F.step e).1) {}

/-! ## Specification -/

/-- The name is registered: it was added and not removed afterwards. -/
def Registered (h : List (Call K A B)) (n : K) : Prop :=
  ∃ h1 c h2, h = h1 ++ .add n c :: h2 ∧ Call.remove n ∉ h2
/-- The creator in force: that of the first `add` since the name was last unregistered. -/
def Creator (h : List (Call K A B)) (n : K) (c : A → Out B) : Prop :=
  ∃ h1 h2, h = h1 ++ .add n c :: h2 ∧ Call.remove n ∉ h2 ∧ ¬ Registered h1 n
/-- The name is known to be unavailable. -/
def Known (h : List (Call K A B)) (n : K) : Prop :=
  ∃ h1 why h2, h = h1 ++ .addUnavailable n why :: h2 ∧ Call.removeUnavailable n ∉ h2
/-- The reason in force. -/
def Reason (h : List (Call K A B)) (n : K) (why : String) : Prop :=
  ∃ h1 h2, h = h1 ++ .addUnavailable n why :: h2 ∧ Call.removeUnavailable n ∉ h2 ∧ ¬ Known h1 n

/-! ## Maps -/

/-- The iterator's order. -/
def Sorted (m : Map K V) : Prop := m.Pairwise (fun p q => p.1 < q.1)

theorem mapInsert_mem (k : K) (v : V) (m : Map K V) (p : K × V) (h : p ∈ (mapInsert k v m).1) : p ∈ m ∨ p = (k, v) := by
  induction m with
  | nil => simp [mapInsert] at h; exact Or.inr h
  | cons q qs ih =>
    unfold mapInsert at h
    by_cases h1 : k < q.1
    · rw [if_pos h1] at h
      simp only [List.mem_cons] at h ⊢
      tauto
    · rw [if_neg h1] at h
      by_cases h2 : k = q.1
      · rw [if_pos h2] at h; exact Or.inl h
      · rw [if_neg h2] at h
        simp only [List.mem_cons] at h ⊢
        rcases h with h | h
        · exact Or.inl (Or.inl h)
        · rcases ih h with h | h
          · exact Or.inl (Or.inr h)
          · exact Or.inr h

theorem mapInsert_sorted (k : K) (v : V) (m : Map K V) (h : Sorted m) : Sorted (mapInsert k v m).1 := by
  induction m with
  | nil => simp [mapInsert, Sorted]
  | cons q qs ih =>
    have hq := List.pairwise_cons.1 h
    unfold mapInsert
    by_cases h1 : k < q.1
    · rw [if_pos h1]
      refine List.pairwise_cons.2 ⟨?_, h⟩
      intro p hp
      rcases List.mem_cons.1 hp with rfl | hp
      · exact h1
      · exact lt_trans h1 (hq.1 p hp)
    · rw [if_neg h1]
      by_cases h2 : k = q.1
      · rw [if_pos h2]; exact h
      · rw [if_neg h2]
        refine List.pairwise_cons.2 ⟨?_, ih hq.2⟩
        intro p hp
        rcases mapInsert_mem k v qs p hp with hp | rfl
        · exact hq.1 p hp
        · exact lt_of_le_of_ne (not_lt.1 h1) (Ne.symm h2)

theorem find_none_of_lt (k : K) (m : Map K V) (h : ∀ p ∈ m, k < p.1) : mapFind k m = none := by
  unfold mapFind
  rw [List.find?_eq_none.2]
  · rfl
  · intro p hp
    simpa using (ne_of_lt (h p hp)).symm

theorem mapFind_cons (k : K) (q : K × V) (qs : Map K V) :
    mapFind k (q :: qs) = if q.1 = k then some q.2 else mapFind k qs := by
  unfold mapFind
  by_cases h : q.1 = k
  · rw [if_pos h, List.find?_cons_of_pos (by simpa using h)]; rfl
  · rw [if_neg h, List.find?_cons_of_neg (by simpa using h)]

theorem mapInsert_find (k : K) (v : V) (m : Map K V) (h : Sorted m) (j : K) :
    mapFind j (mapInsert k v m).1 = (if j = k then some ((mapFind k m).getD v) else mapFind j m) ∧
    ((mapInsert k v m).2 = true ↔ mapFind k m = none) := by
  induction m with
  | nil =>
    simp only [mapInsert, mapFind_cons]
    have : ∀ j, mapFind j ([] : Map K V) = none := fun _ => rfl
    simp only [this, Option.getD_none]
    refine ⟨?_, by simp⟩
    by_cases e : j = k
    · rw [if_pos e, if_pos e.symm]
    · rw [if_neg e, if_neg (Ne.symm e)]
  | cons q qs ih =>
    have hq := List.pairwise_cons.1 h
    obtain ⟨i1, i2⟩ := ih hq.2
    unfold mapInsert
    by_cases h1 : k < q.1
    · rw [if_pos h1]
      have hn : mapFind k (q :: qs) = none := find_none_of_lt k _ (fun p hp => by
        rcases List.mem_cons.1 hp with rfl | hp
        · exact h1
        · exact lt_trans h1 (hq.1 p hp))
      simp only [hn, Option.getD_none]
      refine ⟨?_, by simp⟩
      rw [mapFind_cons]
      by_cases e : j = k
      · rw [if_pos e, if_pos e.symm]
      · rw [if_neg e, if_neg (Ne.symm e)]
    · rw [if_neg h1]
      by_cases h2 : k = q.1
      · rw [if_pos h2]
        simp only [mapFind_cons, if_pos h2.symm, Option.getD_some, Bool.false_eq_true, reduceCtorEq, and_true]
        by_cases e : j = k
        · rw [if_pos e, if_pos (e.trans h2).symm]
        · rw [if_neg e]
      · rw [if_neg h2]
        simp only [mapFind_cons, if_neg (Ne.symm h2)]
        refine ⟨?_, i2⟩
        by_cases e : q.1 = j
        · rw [if_pos e, if_neg (by rw [← e]; exact Ne.symm h2), if_pos e]
        · rw [if_neg e, if_neg e, i1]

theorem mapErase_sorted (k : K) (m : Map K V) (h : Sorted m) : Sorted (mapErase k m).1 := List.Pairwise.filter _ h

theorem mapErase_find (k : K) (m : Map K V) (h : Sorted m) (j : K) :
    mapFind j (mapErase k m).1 = (if j = k then none else mapFind j m) ∧
    ((mapErase k m).2 = 1 ↔ mapFind k m ≠ none) := by
  unfold mapErase
  induction m with
  | nil =>
    have : ∀ j, mapFind j ([] : Map K V) = none := fun _ => rfl
    simp [this]
  | cons q qs ih =>
    have hq := List.pairwise_cons.1 h
    obtain ⟨i1, i2⟩ := ih hq.2
    simp only at i1 i2 ⊢
    rw [mapFind_cons, mapFind_cons]
    by_cases e : q.1 = k
    · rw [List.filter_cons_of_neg (by simpa using e), List.filter_cons_of_pos (by simpa using e), i1, if_pos e]
      refine ⟨?_, ?_⟩
      · by_cases ej : j = k
        · rw [if_pos ej, if_pos ej]
        · rw [if_neg ej, if_neg ej, if_neg (by rw [e]; exact Ne.symm ej)]
      · have : qs.filter (fun p => decide (p.1 = k)) = [] := by
          rw [List.filter_eq_nil_iff]
          intro p hp
          simp only [decide_eq_true_eq]
          exact fun h' => absurd (hq.1 p hp) (by rw [e, h']; exact lt_irrefl _)
        rw [this]; simp
    · rw [List.filter_cons_of_pos (by simpa using e), List.filter_cons_of_neg (by simpa using e), if_neg e, mapFind_cons, i1]
      refine ⟨?_, i2⟩
      by_cases ej : j = k
      · rw [if_pos ej, if_neg (by rw [ej]; exact e), if_pos ej]
      · rw [if_neg ej, if_neg ej]

theorem find_isSome (k : K) (m : Map K V) : (mapFind k m ≠ none) ↔ k ∈ m.map Prod.fst := by
  induction m with
  | nil => simp [mapFind]
  | cons q qs ih =>
    rw [mapFind_cons]
    by_cases e : q.1 = k
    · simp [e]
    · rw [if_neg e, ih]
      simp [Ne.symm e]

/-- Sorted maps with the same content are equal. -/
theorem sorted_ext (m m' : Map K V) (h : Sorted m) (h' : Sorted m') (e : ∀ k, mapFind k m = mapFind k m') : m = m' := by
  induction m generalizing m' with
  | nil =>
    cases m' with
    | nil => rfl
    | cons q qs => have := e q.1; rw [mapFind_cons, if_pos rfl] at this; simp [mapFind] at this
  | cons p ps ih =>
    cases m' with
    | nil => have := e p.1; rw [mapFind_cons, if_pos rfl] at this; simp [mapFind] at this
    | cons q qs =>
      have hp := List.pairwise_cons.1 h
      have hq := List.pairwise_cons.1 h'
      have hk : p.1 = q.1 := by
        rcases lt_trichotomy p.1 q.1 with hl | he | hl
        · exfalso
          have := e p.1
          rw [mapFind_cons, if_pos rfl, find_none_of_lt p.1 (q :: qs)] at this
          · simp at this
          · intro x hx
            rcases List.mem_cons.1 hx with rfl | hx
            · exact hl
            · exact lt_trans hl (hq.1 x hx)
        · exact he
        · exfalso
          have := e q.1
          rw [mapFind_cons q.1 q qs, if_pos rfl, find_none_of_lt q.1 (p :: ps)] at this
          · simp at this
          · intro x hx
            rcases List.mem_cons.1 hx with rfl | hx
            · exact hl
            · exact lt_trans hl (hp.1 x hx)
      have hv : p.2 = q.2 := by
        have := e p.1
        rw [mapFind_cons, if_pos rfl, mapFind_cons, if_pos hk.symm] at this
        injection this
      have hpq : p = q := Prod.ext hk hv
      subst hpq
      congr 1
      refine ih qs hp.2 hq.2 (fun k => ?_)
      by_cases hk : p.1 = k
      · subst hk
        rw [find_none_of_lt _ _ hp.1, find_none_of_lt _ _ hq.1]
      · have := e k
        rwa [mapFind_cons, mapFind_cons, if_neg hk, if_neg hk] at this

/-! ## Histories -/

/-- What `create` depends on, computed along the history. -/
def creatorOf (n : K) : List (Call K A B) → Option (A → Out B) → Option (A → Out B)
  | [], c => c
  | .add m x :: h, c => creatorOf n h (if n = m then some (c.getD x) else c)
  | .remove m :: h, c => creatorOf n h (if n = m then none else c)
  | _ :: h, c => creatorOf n h c

def reasonOf (n : K) : List (Call K A B) → Option String → Option String
  | [], c => c
  | .addUnavailable m x :: h, c => reasonOf n h (if n = m then some (c.getD x) else c)
  | .removeUnavailable m :: h, c => reasonOf n h (if n = m then none else c)
  | _ :: h, c => reasonOf n h c

theorem run_inv (h : List (Call K A B)) (F : Factory K A B) (s1 : Sorted F.types) (s2 : Sorted F.unavailable) :
    Sorted (h.foldl (fun F e => (F.step e).1) F).types ∧ Sorted (h.foldl (fun F e => (F.step e).1) F).unavailable ∧
    (∀ n, mapFind n (h.foldl (fun F e => (F.step e).1) F).types = creatorOf n h (mapFind n F.types)) ∧
    (∀ n, mapFind n (h.foldl (fun F e => (F.step e).1) F).unavailable = reasonOf n h (mapFind n F.unavailable)) := by
  induction h generalizing F with
  | nil => exact ⟨s1, s2, fun _ => rfl, fun _ => rfl⟩
  | cons e h ih =>
    simp only [List.foldl_cons]
    cases e with
    | add m c =>
      obtain ⟨a, b, p, q⟩ := ih (F.step (.add m c)).1 (mapInsert_sorted m c _ s1) s2
      refine ⟨a, b, fun n => ?_, fun n => ?_⟩
      · rw [p n, creatorOf]
        show creatorOf n h (mapFind n (mapInsert m c F.types).1) = _
        rw [(mapInsert_find m c F.types s1 n).1]
        by_cases e : n = m
        · subst e; rfl
        · rw [if_neg e, if_neg e]
      · rw [q n]; rfl
    | addUnavailable m c =>
      obtain ⟨a, b, p, q⟩ := ih (F.step (.addUnavailable m c)).1 s1 (mapInsert_sorted m c _ s2)
      refine ⟨a, b, fun n => ?_, fun n => ?_⟩
      · rw [p n]; rfl
      · rw [q n, reasonOf]
        show reasonOf n h (mapFind n (mapInsert m c F.unavailable).1) = _
        rw [(mapInsert_find m c F.unavailable s2 n).1]
        by_cases e : n = m
        · subst e; rfl
        · rw [if_neg e, if_neg e]
    | remove m =>
      obtain ⟨a, b, p, q⟩ := ih (F.step (.remove m)).1 (mapErase_sorted m _ s1) s2
      refine ⟨a, b, fun n => ?_, fun n => ?_⟩
      · rw [p n, creatorOf]
        show creatorOf n h (mapFind n (mapErase m F.types).1) = _
        rw [(mapErase_find m F.types s1 n).1]
      · rw [q n]; rfl
    | removeUnavailable m =>
      obtain ⟨a, b, p, q⟩ := ih (F.step (.removeUnavailable m)).1 s1 (mapErase_sorted m _ s2)
      refine ⟨a, b, fun n => ?_, fun n => ?_⟩
      · rw [p n]; rfl
      · rw [q n, reasonOf]
        show reasonOf n h (mapFind n (mapErase m F.unavailable).1) = _
        rw [(mapErase_find m F.unavailable s2 n).1]

theorem run_sorted (h : List (Call K A B)) : Sorted (run h).types ∧ Sorted (run h).unavailable :=
  ⟨(run_inv h {} List.Pairwise.nil List.Pairwise.nil).1, (run_inv h {} List.Pairwise.nil List.Pairwise.nil).2.1⟩

theorem snoc_split {α : Type} (h : List α) (e : α) (h1 : List α) (x : α) (h2 : List α)
    (hh : h ++ [e] = h1 ++ x :: h2) : (h2 = [] ∧ h = h1 ∧ e = x) ∨ ∃ h2', h2 = h2' ++ [e] ∧ h = h1 ++ x :: h2' := by
  rcases List.eq_nil_or_concat h2 with rfl | ⟨h2', y, rfl⟩
  · left
    have := List.append_inj' hh rfl
    refine ⟨rfl, this.1, ?_⟩
    simpa using this.2
  · right
    rw [List.concat_eq_append] at hh ⊢
    rw [show h1 ++ x :: (h2' ++ [y]) = (h1 ++ x :: h2') ++ [y] by simp] at hh
    have := List.append_inj' hh rfl
    have hy : e = y := by simpa using this.2
    exact ⟨h2', by rw [hy], this.1⟩

theorem registered_snoc (h : List (Call K A B)) (e : Call K A B) (n : K) :
    Registered (h ++ [e]) n ↔ ((∃ c, e = .add n c) ∨ (Registered h n ∧ e ≠ .remove n)) := by
  constructor
  · rintro ⟨h1, c, h2, hh, hr⟩
    rcases snoc_split _ _ _ _ _ hh with ⟨_, _, rfl⟩ | ⟨h2', rfl, rfl⟩
    · exact Or.inl ⟨c, rfl⟩
    · refine Or.inr ⟨⟨h1, c, h2', rfl, fun hm => hr (by simp [hm])⟩, fun he => hr (by simp [he])⟩
  · rintro (⟨c, rfl⟩ | ⟨⟨h1, c, h2, rfl, hr⟩, he⟩)
    · exact ⟨h, c, [], by simp, by simp⟩
    · refine ⟨h1, c, h2 ++ [e], by simp, ?_⟩
      simp only [List.mem_append, List.mem_singleton, not_or]
      exact ⟨hr, Ne.symm he⟩

theorem creator_snoc (h : List (Call K A B)) (e : Call K A B) (n : K) (c : A → Out B) :
    Creator (h ++ [e]) n c ↔ ((e = .add n c ∧ ¬ Registered h n) ∨ (Creator h n c ∧ e ≠ .remove n)) := by
  constructor
  · rintro ⟨h1, h2, hh, hr, hn⟩
    rcases snoc_split _ _ _ _ _ hh with ⟨_, rfl, rfl⟩ | ⟨h2', rfl, rfl⟩
    · exact Or.inl ⟨rfl, hn⟩
    · refine Or.inr ⟨⟨h1, h2', rfl, fun hm => hr (by simp [hm]), hn⟩, fun he => hr (by simp [he])⟩
  · rintro (⟨rfl, hn⟩ | ⟨⟨h1, h2, rfl, hr, hn⟩, he⟩)
    · exact ⟨h, [], by simp, by simp, hn⟩
    · refine ⟨h1, h2 ++ [e], by simp, ?_, hn⟩
      simp only [List.mem_append, List.mem_singleton, not_or]
      exact ⟨hr, Ne.symm he⟩

theorem known_snoc (h : List (Call K A B)) (e : Call K A B) (n : K) :
    Known (h ++ [e]) n ↔ ((∃ c, e = .addUnavailable n c) ∨ (Known h n ∧ e ≠ .removeUnavailable n)) := by
  constructor
  · rintro ⟨h1, c, h2, hh, hr⟩
    rcases snoc_split _ _ _ _ _ hh with ⟨_, _, rfl⟩ | ⟨h2', rfl, rfl⟩
    · exact Or.inl ⟨c, rfl⟩
    · refine Or.inr ⟨⟨h1, c, h2', rfl, fun hm => hr (by simp [hm])⟩, fun he => hr (by simp [he])⟩
  · rintro (⟨c, rfl⟩ | ⟨⟨h1, c, h2, rfl, hr⟩, he⟩)
    · exact ⟨h, c, [], by simp, by simp⟩
    · refine ⟨h1, c, h2 ++ [e], by simp, ?_⟩
      simp only [List.mem_append, List.mem_singleton, not_or]
      exact ⟨hr, Ne.symm he⟩

theorem reason_snoc (h : List (Call K A B)) (e : Call K A B) (n : K) (c : String) :
    Reason (h ++ [e]) n c ↔
      ((e = .addUnavailable n c ∧ ¬ Known h n) ∨ (Reason h n c ∧ e ≠ .removeUnavailable n)) := by
  constructor
  · rintro ⟨h1, h2, hh, hr, hn⟩
    rcases snoc_split _ _ _ _ _ hh with ⟨_, rfl, rfl⟩ | ⟨h2', rfl, rfl⟩
    · exact Or.inl ⟨rfl, hn⟩
    · refine Or.inr ⟨⟨h1, h2', rfl, fun hm => hr (by simp [hm]), hn⟩, fun he => hr (by simp [he])⟩
  · rintro (⟨rfl, hn⟩ | ⟨⟨h1, h2, rfl, hr, hn⟩, he⟩)
    · exact ⟨h, [], by simp, by simp, hn⟩
    · refine ⟨h1, h2 ++ [e], by simp, ?_, hn⟩
      simp only [List.mem_append, List.mem_singleton, not_or]
      exact ⟨hr, Ne.symm he⟩

theorem run_snoc (h : List (Call K A B)) (e : Call K A B) : run (h ++ [e]) = ((run h).step e).1 := by
  simp [run, List.foldl_append]

/-- The map of types holds exactly the creators in force. -/
theorem types_spec (h : List (Call K A B)) (n : K) :
    (∀ c, mapFind n (run h).types = some c ↔ Creator h n c) ∧ (mapFind n (run h).types ≠ none ↔ Registered h n) := by
  induction h using List.reverseRecOn with
  | nil =>
    have : mapFind n (run ([] : List (Call K A B))).types = none := rfl
    rw [this]
    refine ⟨fun c => ?_, ?_⟩
    · simp [Creator]
    · simp [Registered]
  | append_singleton h e ih =>
    obtain ⟨i1, i2⟩ := ih
    have so := (run_sorted h).1
    rw [run_snoc]
    have none_iff : mapFind n (run h).types = none ↔ ¬ Registered h n := by rw [← i2]; simp
    constructor
    · intro c
      rw [creator_snoc, ← i1 c, ← none_iff]
      cases e with
      | add m x =>
        show mapFind n (mapInsert m x (run h).types).1 = some c ↔ _
        rw [(mapInsert_find m x _ so n).1]
        by_cases en : n = m
        · subst en
          rw [if_pos rfl]
          cases hm : mapFind n (run h).types <;> simp
        · rw [if_neg en]
          simp [Ne.symm en]
      | addUnavailable m x => simp [Factory.step, Factory.addUnavailable]
      | remove m =>
        show mapFind n (mapErase m (run h).types).1 = some c ↔ _
        rw [(mapErase_find m _ so n).1]
        by_cases en : n = m
        · subst en; simp
        · rw [if_neg en]; simp [Ne.symm en]
      | removeUnavailable m => simp [Factory.step, Factory.removeUnavailable]
    · rw [registered_snoc, ← i2]
      cases e with
      | add m x =>
        show mapFind n (mapInsert m x (run h).types).1 ≠ none ↔ _
        rw [(mapInsert_find m x _ so n).1]
        by_cases en : n = m
        · subst en; simp
        · rw [if_neg en]; simp [Ne.symm en]
      | addUnavailable m x => simp [Factory.step, Factory.addUnavailable]
      | remove m =>
        show mapFind n (mapErase m (run h).types).1 ≠ none ↔ _
        rw [(mapErase_find m _ so n).1]
        by_cases en : n = m
        · subst en; simp
        · rw [if_neg en]; simp [Ne.symm en]
      | removeUnavailable m => simp [Factory.step, Factory.removeUnavailable]

theorem unavailable_spec (h : List (Call K A B)) (n : K) :
    (∀ c, mapFind n (run h).unavailable = some c ↔ Reason h n c) ∧ (mapFind n (run h).unavailable ≠ none ↔ Known h n) := by
  induction h using List.reverseRecOn with
  | nil =>
    have : mapFind n (run ([] : List (Call K A B))).unavailable = none := rfl
    rw [this]
    refine ⟨fun c => ?_, ?_⟩
    · simp [Reason]
    · simp [Known]
  | append_singleton h e ih =>
    obtain ⟨i1, i2⟩ := ih
    have so := (run_sorted h).2
    rw [run_snoc]
    have none_iff : mapFind n (run h).unavailable = none ↔ ¬ Known h n := by rw [← i2]; simp
    constructor
    · intro c
      rw [reason_snoc, ← i1 c, ← none_iff]
      cases e with
      | addUnavailable m x =>
        show mapFind n (mapInsert m x (run h).unavailable).1 = some c ↔ _
        rw [(mapInsert_find m x _ so n).1]
        by_cases en : n = m
        · subst en
          rw [if_pos rfl]
          cases hm : mapFind n (run h).unavailable <;> simp
        · rw [if_neg en]
          simp [Ne.symm en]
      | add m x => simp [Factory.step, Factory.add]
      | removeUnavailable m =>
        show mapFind n (mapErase m (run h).unavailable).1 = some c ↔ _
        rw [(mapErase_find m _ so n).1]
        by_cases en : n = m
        · subst en; simp
        · rw [if_neg en]; simp [Ne.symm en]
      | remove m => simp [Factory.step, Factory.remove]
    · rw [known_snoc, ← i2]
      cases e with
      | addUnavailable m x =>
        show mapFind n (mapInsert m x (run h).unavailable).1 ≠ none ↔ _
        rw [(mapInsert_find m x _ so n).1]
        by_cases en : n = m
        · subst en; simp
        · rw [if_neg en]; simp [Ne.symm en]
      | add m x => simp [Factory.step, Factory.add]
      | removeUnavailable m =>
        show mapFind n (mapErase m (run h).unavailable).1 ≠ none ↔ _
        rw [(mapErase_find m _ so n).1]
        by_cases en : n = m
        · subst en; simp
        · rw [if_neg en]; simp [Ne.symm en]
      | remove m => simp [Factory.step, Factory.remove]

/-! ## C38 -/

/-- **C38.** After any history, `create` runs the creator in force with the given arguments; if there is none it throws, giving the
reason in force if the name is known to be unavailable. -/
theorem C38_create (h : List (Call K A B)) (n : K) (a : A) :
    (∀ c, Creator h n c → (run h).create n a = .made (c a)) ∧
    (∀ why, ¬ Registered h n → Reason h n why → (run h).create n a = .unavailable why) ∧
    (¬ Registered h n → ¬ Known h n → (run h).create n a = .notFound) := by
  obtain ⟨t1, t2⟩ := types_spec h n
  obtain ⟨u1, u2⟩ := unavailable_spec h n
  have tn : ¬ Registered h n → mapFind n (run h).types = none := fun hh => by
    by_contra hc; exact hh (t2.1 hc)
  refine ⟨fun c hc => ?_, fun why hr hw => ?_, fun hr hk => ?_⟩
  · unfold Factory.create
    rw [(t1 c).2 hc]
  · unfold Factory.create
    rw [tn hr, (u1 why).2 hw]
  · unfold Factory.create
    have : mapFind n (run h).unavailable = none := by by_contra hc; exact hk (u2.1 hc)
    rw [tn hr, this]

/-- **C38.** Exactly the registered names have a creator in force, and it is unique; likewise for reasons. -/
theorem C38_creator_unique (h : List (Call K A B)) (n : K) :
    (Registered h n ↔ ∃ c, Creator h n c) ∧ (∀ c c', Creator h n c → Creator h n c' → c = c') ∧
    (Known h n ↔ ∃ w, Reason h n w) ∧ (∀ w w', Reason h n w → Reason h n w' → w = w') := by
  obtain ⟨t1, t2⟩ := types_spec h n
  obtain ⟨u1, u2⟩ := unavailable_spec h n
  refine ⟨?_, ?_, ?_, ?_⟩
  · rw [← t2]; simp only [← t1]; exact Option.ne_none_iff_exists'
  · intro c c' h1 h2
    have := ((t1 c).2 h1).symm.trans ((t1 c').2 h2)
    injection this
  · rw [← u2]; simp only [← u1]; exact Option.ne_none_iff_exists'
  · intro c c' h1 h2
    have := ((u1 c).2 h1).symm.trans ((u1 c').2 h2)
    injection this

/-- **C38.** The returned flags: `add` succeeds exactly for a name that is not registered, `remove` exactly for one that is; the same
for unavailable names. -/
theorem C38_flags (h : List (Call K A B)) (n : K) (c : A → Out B) (why : String) :
    (((run h).add n c).2 = true ↔ ¬ Registered h n) ∧ (((run h).remove n).2 = true ↔ Registered h n) ∧
    (((run h).addUnavailable n why).2 = true ↔ ¬ Known h n) ∧ (((run h).removeUnavailable n).2 = true ↔ Known h n) := by
  obtain ⟨_, t2⟩ := types_spec h n
  obtain ⟨_, u2⟩ := unavailable_spec h n
  obtain ⟨s1, s2⟩ := run_sorted h
  refine ⟨?_, ?_, ?_, ?_⟩
  · rw [← t2, not_not]; exact (mapInsert_find n c _ s1 n).2
  · rw [← t2]; simp only [Factory.remove, decide_eq_true_eq]; exact (mapErase_find n _ s1 n).2
  · rw [← u2, not_not]; exact (mapInsert_find n why _ s2 n).2
  · rw [← u2]; simp only [Factory.removeUnavailable, decide_eq_true_eq]; exact (mapErase_find n _ s2 n).2

/-- **C38.** `listAvailable` lists exactly the registered names, each once, in increasing order; the unavailable list has exactly the
reasons in force. -/
theorem C38_list (h : List (Call K A B)) :
    (∀ n, n ∈ (run h).listAvailable ↔ Registered h n) ∧ (run h).listAvailable.Pairwise (· < ·) ∧
    (∀ n why, (n, why) ∈ (run h).listUnavailable ↔ Reason h n why) := by
  obtain ⟨s1, s2⟩ := run_sorted h
  refine ⟨fun n => ?_, List.pairwise_map.2 s1, fun n why => ?_⟩
  · rw [← (types_spec h n).2, find_isSome]; rfl
  · rw [← (unavailable_spec h n).1]
    show (n, why) ∈ (run h).unavailable ↔ _
    generalize (run h).unavailable = m at s2 ⊢
    induction m with
    | nil => simp [mapFind]
    | cons q qs ih =>
      have hq := List.pairwise_cons.1 s2
      rw [mapFind_cons, List.mem_cons, ih hq.2]
      by_cases e : q.1 = n
      · rw [if_pos e]
        subst e
        rw [find_none_of_lt _ _ hq.1]
        obtain ⟨q1, q2⟩ := q
        simp [eq_comm]
      · rw [if_neg e]
        constructor
        · rintro (h' | h')
          · exact absurd (by rw [← h']) e
          · exact h'
        · exact Or.inr

theorem create_congr (F G : Factory K A B) (n : K) (a : A) (h1 : mapFind n F.types = mapFind n G.types)
    (h2 : mapFind n F.unavailable = mapFind n G.unavailable) : F.create n a = G.create n a := by
  unfold Factory.create
  rw [h1, h2]

/-- **C38.** A later `add` of a registered name, and calls about other names, change nothing for this name. -/
theorem C38_frame (h : List (Call K A B)) (n m : K) (a : A) (c : A → Out B) (why : String) :
    (Registered h n → (run (h ++ [.add n c])).create n a = (run h).create n a) ∧
    (m ≠ n → (run (h ++ [.add m c])).create n a = (run h).create n a ∧
      (run (h ++ [.remove m])).create n a = (run h).create n a ∧
      (run (h ++ [.addUnavailable m why])).create n a = (run h).create n a ∧
      (run (h ++ [.removeUnavailable m])).create n a = (run h).create n a) := by
  obtain ⟨s1, s2⟩ := run_sorted h
  constructor
  · intro hr
    rw [run_snoc]
    have h1 := (mapInsert_find n c _ s1 n).1
    rw [if_pos rfl] at h1
    have h2 := (types_spec h n).2.2 hr
    obtain ⟨x, hx⟩ := Option.ne_none_iff_exists'.1 h2
    refine create_congr _ _ n a (h1.trans ?_) rfl
    rw [hx]; rfl
  · intro hm
    have hm' : ¬ n = m := Ne.symm hm
    have h1 := (mapInsert_find m c _ s1 n).1
    have h2 := (mapErase_find m _ s1 n).1
    have h3 := (mapInsert_find m why _ s2 n).1
    have h4 := (mapErase_find m _ s2 n).1
    rw [if_neg hm'] at h1 h2 h3 h4
    refine ⟨?_, ?_, ?_, ?_⟩ <;> rw [run_snoc]
    · exact create_congr _ _ n a h1 rfl
    · exact create_congr _ _ n a h2 rfl
    · exact create_congr _ _ n a rfl h3
    · exact create_congr _ _ n a rfl h4

/-- The name a registration is about, if any. -/
def addName : Call K A B → Option (Bool × K)
  | .add n _ => some (true, n)
  | .addUnavailable n _ => some (false, n)
  | _ => none

theorem creatorOf_perm (n : K) (h h' : List (Call K A B)) (p : h.Perm h') (reg : ∀ e ∈ h, addName e ≠ none)
    (nd : (h.map addName).Nodup) (c : Option (A → Out B)) :
    creatorOf n h c = creatorOf n h' c := by
  induction p generalizing c with
  | nil => rfl
  | cons e _ ih =>
    have nd' : _ := (List.nodup_cons.1 nd).2
    have reg' := fun x hx => reg x (List.mem_cons_of_mem _ hx)
    cases e <;> simp only [creatorOf] <;> exact ih reg' nd' _
  | swap e f l =>
    have h1 := reg e (by simp)
    have h2 := reg f (by simp)
    have hne : addName f ≠ addName e := by
      simp only [List.map_cons, List.nodup_cons, List.mem_cons, not_or] at nd
      exact nd.1.1
    cases e <;> cases f <;> simp only [addName, ne_eq, not_true_eq_false, not_false_eq_true] at h1 h2 <;>
      simp only [creatorOf]
    rename_i a x b y
    simp only [addName, ne_eq, Option.some.injEq, Prod.mk.injEq, true_and] at hne
    by_cases ea : n = a
    · by_cases eb : n = b
      · exact absurd (eb.symm.trans ea) hne
      · simp [ea, eb]
        rw [if_neg (fun hh => eb (ea.trans hh))]
    · by_cases eb : n = b
      · simp [ea, eb]
        rw [if_neg (fun hh => ea (eb.trans hh))]
      · simp [ea, eb]
  | trans p1 p2 ih1 ih2 =>
    rw [ih1 reg nd]
    exact ih2 (fun e he => reg e (p1.mem_iff.2 he)) ((p1.map _).nodup_iff.1 nd) c

theorem reasonOf_perm (n : K) (h h' : List (Call K A B)) (p : h.Perm h') (reg : ∀ e ∈ h, addName e ≠ none)
    (nd : (h.map addName).Nodup) (c : Option String) :
    reasonOf n h c = reasonOf n h' c := by
  induction p generalizing c with
  | nil => rfl
  | cons e _ ih =>
    have nd' : _ := (List.nodup_cons.1 nd).2
    have reg' := fun x hx => reg x (List.mem_cons_of_mem _ hx)
    cases e <;> simp only [reasonOf] <;> exact ih reg' nd' _
  | swap e f l =>
    have h1 := reg e (by simp)
    have h2 := reg f (by simp)
    have hne : addName f ≠ addName e := by
      simp only [List.map_cons, List.nodup_cons, List.mem_cons, not_or] at nd
      exact nd.1.1
    cases e <;> cases f <;> simp only [addName, ne_eq, not_true_eq_false, not_false_eq_true] at h1 h2 <;>
      simp only [reasonOf]
    rename_i a x b y
    simp only [addName, ne_eq, Option.some.injEq, Prod.mk.injEq, true_and] at hne
    by_cases ea : n = a
    · by_cases eb : n = b
      · exact absurd (eb.symm.trans ea) hne
      · simp [ea, eb]
        rw [if_neg (fun hh => eb (ea.trans hh))]
    · by_cases eb : n = b
      · simp [ea, eb]
        rw [if_neg (fun hh => ea (eb.trans hh))]
      · simp [ea, eb]
  | trans p1 p2 ih1 ih2 =>
    rw [ih1 reg nd]
    exact ih2 (fun e he => reg e (p1.mem_iff.2 he)) ((p1.map _).nodup_iff.1 nd) c

/-- **C38.** The order of static initialisation does not matter: registering types under different names in any order gives the
same factory. -/
theorem C38_registration_order (h h' : List (Call K A B)) (p : h.Perm h') (reg : ∀ e ∈ h, addName e ≠ none)
    (nd : (h.map addName).Nodup) : run h = run h' := by
  obtain ⟨a1, a2, a3, a4⟩ := run_inv h ({} : Factory K A B) List.Pairwise.nil List.Pairwise.nil
  obtain ⟨b1, b2, b3, b4⟩ := run_inv h' ({} : Factory K A B) List.Pairwise.nil List.Pairwise.nil
  have e1 : (run h).types = (run h').types := sorted_ext _ _ a1 b1 (fun k => by
    refine (a3 k).trans (Eq.trans ?_ (b3 k).symm); exact creatorOf_perm k h h' p reg nd _)
  have e2 : (run h).unavailable = (run h').unavailable := sorted_ext _ _ a2 b2 (fun k => by
    refine (a4 k).trans (Eq.trans ?_ (b4 k).symm); exact reasonOf_perm k h h' p reg nd _)
  cases hh : run h
  cases hh' : run h'
  rw [hh, hh'] at e1 e2
  simp only at e1 e2
  rw [e1, e2]

/-- **C38.** With a repeated name the order does matter: the first registration wins. -/
theorem C38_first_wins (n : K) (c c' : A → Out B) (a : A) :
    (run [.add n c, .add n c']).create n a = .made (c a) := by
  refine (C38_create _ n a).1 c ⟨[], [.add n c'], rfl, by simp, ?_⟩
  rintro ⟨h1, x, h2, e, _⟩
  simp at e

/-! ## Choosing the type from the options -/

open Verif.Opt Verif.Str

/-- generic_factory.hxx:146-156 `getType(options)` followed by `create(type, args)` (L153-156, L201-203); `sec` is the path of the options
section (`section_name` if none was given), `opt` and `dflt` are `option_name` and `default_type`. -/
def createFrom (env : Env) (F : Factory Chars A B) (t : Tree) (sec : List Chars) (opt dflt : Chars) (a : A) :
    Tree × Out (Result B) :=
  match step env t (.withDefault (sec ++ [opt]) .str (.str dflt)) with
  | (t', .error e) => (t', .error e)
  | (t', .ok (some (.str n))) => (t', .ok (F.create n a))
  | (t', .ok _) => (t', .error (.exc "not a string"))

/-- **C38.** Without the option the default type is created and recorded as a default; with a user's value that type is created, whatever
the default. -/
theorem C38_type_from_options (env : Env) (henv : EnvOk env) (h : List (Call Chars A B)) (t : Tree) (sec : List Chars)
    (opt dflt : Chars) (a : A) (hc : Clean (sec ++ [opt])) (hi : Inv t) :
    (¬ Blocked t (sec ++ [opt]) → ¬ HasKids t (sec ++ [opt]) → t.valueAt (sec ++ [opt]) = none →
      (createFrom env (run h) t sec opt dflt a).2 = .ok ((run h).create dflt a) ∧
      ((createFrom env (run h) t sec opt dflt a).1.valueAt (sec ++ [opt])).map cellOf =
        some ⟨.str dflt, some defaultSource, true⟩) ∧
    (∀ e n, t.valueAt (sec ++ [opt]) = some e → e.value = .str n → e.source ≠ some defaultSource →
      (createFrom env (run h) t sec opt dflt a).2 = .ok ((run h).create n a)) := by
  constructor
  · intro hb hk hu
    obtain ⟨h1, h2⟩ := C10_unset env t (sec ++ [opt]) .str (.str dflt) hc hb hk hu
    unfold createFrom
    cases hs : step env t (.withDefault (sec ++ [opt]) .str (.str dflt)) with
    | mk t' o =>
      rw [hs] at h1 h2
      simp only at h1 h2
      subst h1
      exact ⟨rfl, h2⟩
  · intro e n he hv hsrc
    have h1 := C10_user_value_wins env henv t (sec ++ [opt]) .str (.str dflt) hc hi e he (by rw [hv]; rfl) hsrc
    unfold createFrom
    cases hs : step env t (.withDefault (sec ++ [opt]) .str (.str dflt)) with
    | mk t' o =>
      rw [hs] at h1
      simp only at h1
      subst h1
      rw [hv]

section Examples
/-- A history with a repeated name, a removal and an unavailable type. -/
def exHist : List (Call Nat Nat Nat) :=
  [.add 3 (fun a => .ok (a + 1)), .add 1 (fun a => .ok a), .add 3 (fun a => .ok (a + 2)), .addUnavailable 7 "no PETSc",
   .remove 1, .remove 3, .add 3 (fun a => .ok (a + 5))]

example : Registered exHist 3 ∧ ¬ Registered exHist 1 ∧ Known exHist 7 := by
  have h1 := (types_spec exHist 3).2
  have h2 := (types_spec exHist 1).2
  have h3 := (unavailable_spec exHist 7).2
  refine ⟨h1.1 ?_, fun hh => h2.2 hh rfl, h3.1 ?_⟩
  · have : mapFind 3 (run exHist).types = some (fun a => .ok (a + 5)) := rfl
    rw [this]; simp
  · have : mapFind 7 (run exHist).unavailable = some "no PETSc" := rfl
    rw [this]; simp
example : (run exHist).create 3 10 = .made (.ok 15) := rfl
example : (run exHist).create 7 10 = .unavailable "no PETSc" := rfl
example : (run exHist).listAvailable = [3] := rfl
end Examples

end Verif.Factory
