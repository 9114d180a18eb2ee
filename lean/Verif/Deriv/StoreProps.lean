import Verif.Deriv.Store
import Mathlib.Data.List.Nodup

/-!
# C65: which method a call gets

Theorems about every history of registrations, initialisations and forced defaults, and every hash function.
-/
namespace Verif.Deriv
open Verif.Str Verif.Num

variable {F : Type}

/-! ## Specification -/

/-- The hash does not confuse the keys of the given names: no two different (direction, staggering, name) give the same
key. -/
def KeyInj (hash : Chars → Key) (names : Chars → Prop) : Prop :=
  ∀ d s n d' s' n', names n → names n' → getKey hash d s n = getKey hash d' s' n' → d = d' ∧ s = s' ∧ n = n'

/-- The function of the first registration, in a history, of a method of this type, direction, staggering and name. -/
def firstRegistered (t : Deriv) (d : Dir) (st : Stagger) (name : Chars) : List (Op F) → Option F
  | [] => none
  | .register flow f t' d' st' n' :: rest =>
    if flow = t'.isFlow ∧ t' = t ∧ d' = d ∧ st' = st ∧ n' = name then some f
    else firstRegistered t d st name rest
  | _ :: rest => firstRegistered t d st name rest

/-- The names a history registers methods under. -/
def regNames : List (Op F) → List Chars
  | [] => []
  | .register _ _ _ _ _ n :: rest => n :: regNames rest
  | _ :: rest => regNames rest

/-- The names of the derivative types. -/
def IsTypeName (n : Chars) : Prop := ∃ t : Deriv, n = t.name

/-! ## The maps -/

theorem find_cons (k k' : Key) {V : Type} (v : V) (l : List (Key × V)) :
    find k ((k', v) :: l) = if k' = k then some v else find k l := rfl

theorem map_add (s : Store F) (t t' : Deriv) (k : Key) (f : F) (tk : Key) (n : Chars) :
    (s.add t k f tk n).map t' = if t' = t then (k, f) :: s.map t' else s.map t' := by
  cases t <;> cases t' <;> rfl

theorem defaults_add (s : Store F) (t : Deriv) (k : Key) (f : F) (tk : Key) (n : Chars) :
    (s.add t k f tk n).defaults = s.defaults := by cases t <;> rfl

theorem map_setDefault (s : Store F) (k : Key) (n : Chars) (t : Deriv) : (s.setDefault k n).map t = s.map t := by
  cases t <;> rfl

theorem foldl_map_eq (g : Store F → Dir × Deriv → Store F) (t : Deriv) (hg : ∀ s p, (g s p).map t = s.map t)
    (l : List (Dir × Deriv)) (s : Store F) : (l.foldl g s).map t = s.map t := by
  induction l generalizing s with
  | nil => rfl
  | cons p l ih => rw [List.foldl_cons, ih, hg]

theorem map_setDefaults (hash : Chars → Key) (s : Store F) (t : Deriv) : (setDefaults hash s).map t = s.map t := by
  refine foldl_map_eq _ t (fun s p => ?_) _ s
  simp only [setDefault1, map_setDefault]

theorem map_initialise (hash : Chars → Key) (o : Opts) (s : Store F) (t : Deriv) :
    (initialise hash o s).map t = s.map t := by
  refine foldl_map_eq _ t (fun s p => ?_) _ s
  simp only [initialise1, map_setDefault]

theorem map_fresh (hash : Chars → Key) (t : Deriv) : (fresh hash : Store F).map t = [] := by
  rw [fresh, map_setDefaults]; cases t <;> rfl

theorem register_ok {hash : Chars → Key} {flow : Bool} {f : F} {t : Deriv} {d : Dir} {st : Stagger} {n : Chars}
    {s s' : Store F} (h : register hash flow f t d st n s = .ok s') :
    flow = t.isFlow ∧ find (getKey hash d st n) (s.map t) = none ∧
      s' = s.add t (getKey hash d st n) f (getKey hash d st t.name) n := by
  unfold register at h
  dsimp only at h
  by_cases h1 : t.isFlow ≠ flow
  · rw [if_pos h1] at h; cases h
  · rw [if_neg h1] at h
    by_cases h2 : (find (getKey hash d st n) (s.map t)).isSome
    · rw [if_pos h2] at h; cases h
    · rw [if_neg h2] at h
      refine ⟨(not_not.mp h1).symm, ?_, (Except.ok.inj h).symm⟩
      simpa using h2

theorem register_ok_of {hash : Chars → Key} {flow : Bool} {f : F} {t : Deriv} {d : Dir} {st : Stagger} {n : Chars}
    {s : Store F} (h1 : flow = t.isFlow) (h2 : find (getKey hash d st n) (s.map t) = none) :
    register hash flow f t d st n s = .ok (s.add t (getKey hash d st n) f (getKey hash d st t.name) n) := by
  simp [register, h1, h2]

/-- The first registration in a history whose *key* and type match; registrations with a wrong signature throw. -/
def firstKey (hash : Chars → Key) (t : Deriv) (k : Key) : List (Op F) → Option F
  | [] => none
  | .register flow f t' d' st' n' :: rest =>
    if flow = t'.isFlow ∧ t' = t ∧ getKey hash d' st' n' = k then some f else firstKey hash t k rest
  | _ :: rest => firstKey hash t k rest

theorem find_step (hash : Chars → Key) (t : Deriv) (k : Key) (s : Store F) (op : Op F) :
    find k ((step hash s op).map t) = (find k (s.map t)).or (firstKey hash t k [op]) := by
  cases op with
  | initialise o => simp [step, map_initialise, firstKey]
  | force n t' d st => simp [step, Verif.Deriv.force, map_setDefault, firstKey]
  | register flow f t' d st n =>
    simp only [step, firstKey]
    cases hr : register hash flow f t' d st n s with
    | ok s' =>
      obtain ⟨h1, h2, h3⟩ := register_ok hr
      dsimp only
      rw [h3, map_add]
      by_cases ht : t = t'
      · subst ht
        rw [if_pos rfl, find_cons]
        by_cases hk : getKey hash d st n = k
        · subst hk
          rw [if_pos rfl, if_pos ⟨h1, rfl, rfl⟩, h2]; rfl
        · rw [if_neg hk, if_neg (fun h => hk h.2.2)]; simp
      · rw [if_neg ht, if_neg (fun h => ht h.2.1.symm)]; simp
    | error e =>
      dsimp only
      by_cases hc : flow = t'.isFlow ∧ t' = t ∧ getKey hash d st n = k
      · obtain ⟨h1, rfl, rfl⟩ := hc
        have : find (getKey hash d st n) (s.map t') ≠ none := by
          intro hn
          rw [register_ok_of h1 hn] at hr; cases hr
        obtain ⟨g, hg⟩ := Option.ne_none_iff_exists'.mp this
        rw [hg]; rfl
      · rw [if_neg hc]; simp

theorem find_foldl (hash : Chars → Key) (t : Deriv) (k : Key) (h : List (Op F)) (s : Store F) :
    find k ((h.foldl (step hash) s).map t) = (find k (s.map t)).or (firstKey hash t k h) := by
  induction h generalizing s with
  | nil => simp [firstKey]
  | cons op h ih =>
    rw [List.foldl_cons, ih, find_step]
    cases hf : find k (s.map t) with
    | some g => simp
    | none =>
      simp only [Option.none_or]
      cases op with
      | register flow f t' d' st' n' =>
        simp only [firstKey]
        split <;> simp
      | initialise o => simp [firstKey]
      | force n t' d st => simp [firstKey]

theorem find_after (hash : Chars → Key) (t : Deriv) (k : Key) (h : List (Op F)) :
    find k ((after hash h).map t) = firstKey hash t k h := by
  rw [after, find_foldl, map_fresh]; simp [find]

theorem firstKey_eq (hash : Chars → Key) (t : Deriv) (d : Dir) (st : Stagger) (name : Chars) (h : List (Op F))
    (hinj : KeyInj hash (fun n => n ∈ regNames h ∨ n = name)) :
    firstKey hash t (getKey hash d st name) h = firstRegistered t d st name h := by
  induction h with
  | nil => rfl
  | cons op h ih =>
    cases op with
    | initialise o => exact ih hinj
    | force n t' d' st' => exact ih hinj
    | register flow f t' d' st' n' =>
      have ih' := ih (fun a b c a' b' c' h1 h2 => hinj a b c a' b' c'
        (h1.imp (fun x => List.mem_cons_of_mem _ x) id) (h2.imp (fun x => List.mem_cons_of_mem _ x) id))
      simp only [firstKey, firstRegistered, ih']
      refine if_congr ?_ rfl rfl
      constructor
      · rintro ⟨h1, h2, h3⟩
        obtain ⟨e1, e2, e3⟩ := hinj _ _ _ _ _ _ (Or.inl (by simp [regNames])) (Or.inr rfl) h3
        exact ⟨h1, h2, e1, e2, e3⟩
      · rintro ⟨h1, h2, e1, e2, e3⟩
        subst e1 e2 e3
        exact ⟨h1, h2, rfl⟩

/-! ## The default methods -/

/-- The default method of a derivative type, direction and staggering. -/
def defOf (hash : Chars → Key) (s : Store F) (d : Dir) (st : Stagger) (t : Deriv) : Option Chars :=
  find (getKey hash d st t.name) s.defaults

theorem find_setDefault (s : Store F) (k k' : Key) (n : Chars) :
    find k (s.setDefault k' n).defaults = if k' = k then some n else find k s.defaults := rfl

theorem isSome_setDefault (s : Store F) (k k' : Key) (n : Chars) (h : (find k s.defaults).isSome) :
    (find k (s.setDefault k' n).defaults).isSome := by
  rw [find_setDefault]; split
  · rfl
  · exact h

theorem mem_pairs (d : Dir) (t : Deriv) : (d, t) ∈ pairs := by cases d <;> cases t <;> decide

theorem pairs_nodup : pairs.Nodup := by decide

theorem isSome_foldl (k : Key) (g : Store F → Dir × Deriv → Store F)
    (hg : ∀ s p, (find k s.defaults).isSome → (find k (g s p).defaults).isSome)
    (l : List (Dir × Deriv)) (s : Store F) (h : (find k s.defaults).isSome) :
    (find k (l.foldl g s).defaults).isSome := by
  induction l generalizing s with
  | nil => exact h
  | cons p l ih => exact ih _ (hg s p h)

theorem setDefault1_some (hash : Chars → Key) (s : Store F) (d : Dir) (t : Deriv) (st : Stagger) :
    (find (getKey hash d st t.name) (setDefault1 hash s d t).defaults).isSome := by
  simp only [setDefault1]
  cases st with
  | none =>
    apply isSome_setDefault; apply isSome_setDefault
    rw [find_setDefault, if_pos rfl]; rfl
  | l2c =>
    apply isSome_setDefault
    rw [find_setDefault, if_pos rfl]; rfl
  | c2l => rw [find_setDefault, if_pos rfl]; rfl

theorem setDefaults_some (hash : Chars → Key) (s : Store F) (d : Dir) (t : Deriv) (st : Stagger) :
    (find (getKey hash d st t.name) (setDefaults hash s).defaults).isSome := by
  have hkeep : ∀ (s : Store F) (p : Dir × Deriv), (find (getKey hash d st t.name) s.defaults).isSome →
      (find (getKey hash d st t.name) (setDefault1 hash s p.1 p.2).defaults).isSome := by
    intro s p h
    simp only [setDefault1]
    exact isSome_setDefault _ _ _ _ (isSome_setDefault _ _ _ _ (isSome_setDefault _ _ _ _ h))
  have key : ∀ (l : List (Dir × Deriv)) (s : Store F), (d, t) ∈ l →
      (find (getKey hash d st t.name) (l.foldl (fun s p => setDefault1 hash s p.1 p.2) s).defaults).isSome := by
    intro l
    induction l with
    | nil => intro s h; cases h
    | cons p l ih =>
      intro s h
      rcases List.mem_cons.mp h with h | h
      · subst h
        exact isSome_foldl _ _ hkeep l _ (setDefault1_some hash s d t st)
      · exact ih _ h
  exact key pairs s (mem_pairs d t)

theorem step_some (hash : Chars → Key) (s : Store F) (op : Op F) (k : Key) (h : (find k s.defaults).isSome) :
    (find k (step hash s op).defaults).isSome := by
  cases op with
  | initialise o =>
    refine isSome_foldl _ _ (fun s p h => ?_) _ _ h
    simp only [initialise1]
    exact isSome_setDefault _ _ _ _ (isSome_setDefault _ _ _ _ (isSome_setDefault _ _ _ _ h))
  | force n t d st => exact isSome_setDefault _ _ _ _ h
  | register flow f t d st n =>
    simp only [step]
    cases hr : register hash flow f t d st n s with
    | error e => exact h
    | ok s' =>
      obtain ⟨_, _, h3⟩ := register_ok hr
      dsimp only
      rw [h3, defaults_add]; exact h

theorem after_some (hash : Chars → Key) (h : List (Op F)) (d : Dir) (st : Stagger) (t : Deriv) :
    (find (getKey hash d st t.name) (after hash h).defaults).isSome := by
  have key : ∀ (h : List (Op F)) (s : Store F), (find (getKey hash d st t.name) s.defaults).isSome →
      (find (getKey hash d st t.name) (h.foldl (step hash) s).defaults).isSome := by
    intro h
    induction h with
    | nil => intro s hs; exact hs
    | cons op h ih => intro s hs; exact ih _ (step_some hash s op _ hs)
  exact key h _ (setDefaults_some hash _ d t st)

/-! ## C65 -/

/-- **C65.** A lookup by name.  After any history of registrations (some of which may have thrown), initialisations and
forced defaults, asking for a method by its name, with the right signature, gives the function of the first
registration under exactly that type, direction, staggering and name, and throws if there was none. -/
theorem C65_lookup (hash : Chars → Key) (h : List (Op F)) (t : Deriv) (d : Dir) (st : Stagger) (name : Chars)
    (hname : name ≠ defaultName) (hinj : KeyInj hash (fun n => n ∈ regNames h ∨ n = name)) :
    get hash t.isFlow name d st t (after hash h) =
      match firstRegistered t d st name h with
      | some f => .ok f
      | none => .error .notFound := by
  obtain ⟨dflt, hd⟩ := Option.isSome_iff_exists.mp (after_some hash h d st t)
  simp only [get, hd, ne_eq, not_true_eq_false, if_false, nameLookup, hname, not_false_eq_true, if_true, find_after]
  rw [firstKey_eq hash t d st name h hinj]
  rfl

/-- **C65.** Without any assumption on the hash function: a registration that did not throw is what its name gives from
then on, whatever is registered, initialised or forced before and after. -/
theorem C65_accepted_is_used (hash : Chars → Key) (pre post : List (Op F)) (f : F) (t : Deriv) (d : Dir) (st : Stagger)
    (name : Chars) (hname : name ≠ defaultName) (s' : Store F)
    (hacc : register hash t.isFlow f t d st name (after hash pre) = .ok s') :
    get hash t.isFlow name d st t (after hash (pre ++ .register t.isFlow f t d st name :: post)) = .ok f := by
  obtain ⟨-, h2, -⟩ := register_ok hacc
  rw [find_after] at h2
  have hk : firstKey hash t (getKey hash d st name) (pre ++ .register t.isFlow f t d st name :: post) = some f := by
    revert h2
    clear hacc
    induction pre with
    | nil => intro _; simp [firstKey]
    | cons op pre ih =>
      cases op with
      | initialise o => exact ih
      | force n t' d' st' => exact ih
      | register flow g t' d' st' n' =>
        intro h2
        simp only [List.cons_append, firstKey] at h2 ⊢
        by_cases hc : flow = t'.isFlow ∧ t' = t ∧ getKey hash d' st' n' = getKey hash d st name
        · rw [if_pos hc] at h2; cases h2
        · rw [if_neg hc] at h2 ⊢; exact ih h2
  obtain ⟨dflt, hd⟩ := Option.isSome_iff_exists.mp
    (after_some hash (pre ++ .register t.isFlow f t d st name :: post) d st t)
  simp only [get, hd, ne_eq, not_true_eq_false, if_false, nameLookup, hname, not_false_eq_true, if_true, find_after, hk]

/-- **C65.** A method cannot be overridden: a registration is accepted exactly if no earlier one had the same type,
direction, staggering and name, and its function signature fits the type. -/
theorem C65_register_accepted (hash : Chars → Key) (h : List (Op F)) (flow : Bool) (f : F) (t : Deriv) (d : Dir)
    (st : Stagger) (name : Chars) (hinj : KeyInj hash (fun n => n ∈ regNames h ∨ n = name)) :
    (∃ s', register hash flow f t d st name (after hash h) = .ok s') ↔
      flow = t.isFlow ∧ firstRegistered t d st name h = none := by
  rw [← firstKey_eq hash t d st name h hinj, ← find_after]
  constructor
  · rintro ⟨s', hs⟩
    obtain ⟨h1, h2, _⟩ := register_ok hs
    exact ⟨h1, h2⟩
  · rintro ⟨h1, h2⟩
    exact ⟨_, register_ok_of h1 h2⟩

/-- **C65.** A lookup with the default name gives what asking for the current default method by its name would give. -/
theorem C65_default_is_a_name (hash : Chars → Key) (h : List (Op F)) (t : Deriv) (d : Dir) (st : Stagger) :
    ∃ dflt, defOf hash (after hash h) d st t = some dflt ∧
      (dflt ≠ defaultName → get hash t.isFlow defaultName d st t (after hash h) =
        get hash t.isFlow dflt d st t (after hash h)) := by
  obtain ⟨dflt, hd⟩ := Option.isSome_iff_exists.mp (after_some hash h d st t)
  refine ⟨dflt, hd, fun hne => ?_⟩
  simp [get, hd, nameLookup, hne]

/-- The default method the manual describes: for an unstaggered derivative the entry in the section of the direction,
else the one in `[diff]`, else what it was before; for a staggered one the entry in the `stag` section of the direction,
else the unstaggered default; always in upper case. -/
def defaultSpec (o : Opts) (prev : Chars) (d : Dir) (st : Stagger) (t : Deriv) : Chars :=
  let plain := ((o d.sect t.opt).or (o "diff".toList t.opt)).getD prev
  match st with
  | .none => upper plain
  | _ => upper ((o (d.sect ++ "stag".toList) t.opt).getD (upper plain))

theorem typeKey_inj {hash : Chars → Key} (hinj : KeyInj hash IsTypeName) {d d' : Dir} {s s' : Stagger} {t t' : Deriv}
    (h : getKey hash d s t.name = getKey hash d' s' t'.name) : d = d' ∧ s = s' ∧ t = t' := by
  obtain ⟨h1, h2, h3⟩ := hinj _ _ _ _ _ _ ⟨t, rfl⟩ ⟨t', rfl⟩ h
  refine ⟨h1, h2, ?_⟩
  revert h3
  cases t <;> cases t' <;> first | (intro _; rfl) | (intro h3; exact absurd h3 (by decide))

theorem init1_other (hash : Chars → Key) (hinj : KeyInj hash IsTypeName) (o : Opts) (s : Store F) (d d' : Dir)
    (t t' : Deriv) (st : Stagger) (hne : (d', t') ≠ (d, t)) :
    defOf hash (initialise1 hash o s d' t') d st t = defOf hash s d st t := by
  have hk : ∀ s', getKey hash d' s' t'.name ≠ getKey hash d st t.name := by
    intro s' h
    obtain ⟨h1, _, h3⟩ := typeKey_inj hinj h
    exact hne (by rw [h1, h3])
  simp only [defOf, initialise1, find_setDefault, if_neg (hk _)]

theorem init1_self (hash : Chars → Key) (hinj : KeyInj hash IsTypeName) (o : Opts) (s : Store F) (d : Dir)
    (t : Deriv) (st : Stagger) :
    defOf hash (initialise1 hash o s d t) d st t =
      some (defaultSpec o ((defOf hash s d .none t).getD []) d st t) := by
  have hk : ∀ s s', s ≠ s' → getKey hash d s t.name ≠ getKey hash d s' t.name := by
    intro s s' hne h
    exact hne (typeKey_inj hinj h).2.1
  simp only [defOf, initialise1, find_setDefault, defaultSpec]
  generalize o (d.sect ++ "stag".toList) t.opt = os
  generalize o d.sect t.opt = o1
  generalize o "diff".toList t.opt = o2
  cases st with
  | none =>
    rw [if_neg (hk _ _ (by decide)), if_neg (hk _ _ (by decide)), if_pos rfl]
    cases o1 <;> cases o2 <;> rfl
  | l2c =>
    rw [if_neg (hk _ _ (by decide)), if_pos rfl]
    cases os <;> cases o1 <;> cases o2 <;> rfl
  | c2l =>
    rw [if_pos rfl]
    cases os <;> cases o1 <;> cases o2 <;> rfl

theorem defOf_initialise (hash : Chars → Key) (hinj : KeyInj hash IsTypeName) (o : Opts) (s : Store F) (d : Dir)
    (t : Deriv) (st : Stagger) :
    defOf hash (initialise hash o s) d st t =
      some (defaultSpec o ((defOf hash s d .none t).getD []) d st t) := by
  have hother : ∀ (l : List (Dir × Deriv)) (s : Store F) (st : Stagger), (d, t) ∉ l →
      defOf hash (l.foldl (fun s p => initialise1 hash o s p.1 p.2) s) d st t = defOf hash s d st t := by
    intro l
    induction l with
    | nil => intro s st _; rfl
    | cons p l ih =>
      intro s st hm
      rw [List.foldl_cons, ih _ _ (fun h => hm (List.mem_cons_of_mem _ h)),
        init1_other hash hinj o s d p.1 t p.2 st (fun h => hm (by rw [← h]; simp))]
  have key : ∀ (l : List (Dir × Deriv)) (s : Store F), l.Nodup → (d, t) ∈ l →
      defOf hash (l.foldl (fun s p => initialise1 hash o s p.1 p.2) s) d st t =
        some (defaultSpec o ((defOf hash s d .none t).getD []) d st t) := by
    intro l
    induction l with
    | nil => intro s _ h; cases h
    | cons p l ih =>
      intro s hn h
      obtain ⟨hn1, hn2⟩ := List.nodup_cons.mp hn
      rw [List.foldl_cons]
      by_cases hp : p = (d, t)
      · subst hp
        rw [hother l _ st hn1, init1_self hash hinj]
      · have hm : (d, t) ∈ l := by
          rcases List.mem_cons.mp h with h | h
          · exact absurd h.symm hp
          · exact h
        rw [ih _ hn2 hm, init1_other hash hinj o s d p.1 t p.2 .none hp]
  exact key pairs s pairs_nodup (mem_pairs d t)

theorem setDefaults_eq (hash : Chars → Key) (hinj : KeyInj hash IsTypeName) (s : Store F) (d : Dir)
    (t : Deriv) (st : Stagger) : defOf hash (setDefaults hash s) d st t = some (initialDefault t) := by
  have hup : upper (initialDefault t) = initialDefault t := by cases t <;> decide
  have hself : ∀ s : Store F, defOf hash (setDefault1 hash s d t) d st t = some (initialDefault t) := by
    intro s
    simp only [defOf, setDefault1, find_setDefault, hup]
    cases st <;> simp
  have hkeep : ∀ (s : Store F) (p : Dir × Deriv), defOf hash s d st t = some (initialDefault t) →
      defOf hash (setDefault1 hash s p.1 p.2) d st t = some (initialDefault t) := by
    intro s p h
    by_cases hp : p = (d, t)
    · subst hp; exact hself s
    · have hk : ∀ s', getKey hash p.1 s' p.2.name ≠ getKey hash d st t.name := by
        intro s' h
        obtain ⟨h1, _, h3⟩ := typeKey_inj hinj h
        exact hp (Prod.ext h1 h3)
      simp only [defOf, setDefault1, find_setDefault, if_neg (hk _)]
      exact h
  have key : ∀ (l : List (Dir × Deriv)) (s : Store F), (defOf hash s d st t = some (initialDefault t) ∨ (d, t) ∈ l) →
      defOf hash (l.foldl (fun s p => setDefault1 hash s p.1 p.2) s) d st t = some (initialDefault t) := by
    intro l
    induction l with
    | nil =>
      intro s h
      rcases h with h | h
      · exact h
      · cases h
    | cons p l ih =>
      intro s h
      rw [List.foldl_cons]
      apply ih
      rcases h with h | h
      · exact Or.inl (hkeep s p h)
      · rcases List.mem_cons.mp h with h | h
        · subst h; exact Or.inl (hself s)
        · exact Or.inr h
  exact key pairs s (Or.inr (mem_pairs d t))

/-- **C65.** Where the default methods come from.  After any history followed by reading the options, the default of
each type, direction and staggering is what the manual says: section of the direction, then `[diff]`, then the previous
default; staggered from the `stag` section, then the unstaggered default. -/
theorem C65_default_from_options (hash : Chars → Key) (hinj : KeyInj hash IsTypeName) (h : List (Op F)) (o : Opts)
    (d : Dir) (st : Stagger) (t : Deriv) :
    ∃ prev, defOf hash (after hash h) d .none t = some prev ∧
      defOf hash (after hash (h ++ [.initialise o])) d st t = some (defaultSpec o prev d st t) := by
  obtain ⟨prev, hp⟩ := Option.isSome_iff_exists.mp (after_some hash h d .none t)
  refine ⟨prev, hp, ?_⟩
  have hs : after hash (h ++ [.initialise o]) = initialise hash o (after hash h) := by
    simp [after, List.foldl_append, step]
  rw [hs, defOf_initialise hash hinj]
  have : defOf hash (after hash h) d .none t = some prev := hp
  rw [this]; rfl

/-- **C65.** With nothing but registrations before it, reading the options falls back on the built-in defaults: second
order central differences, first order upwinding. -/
theorem C65_default_builtin (hash : Chars → Key) (hinj : KeyInj hash IsTypeName) (regs : List (Op F))
    (hregs : ∀ op ∈ regs, ∃ flow f t d st n, op = .register flow f t d st n) (o : Opts) (d : Dir) (st : Stagger)
    (t : Deriv) :
    defOf hash (after hash (regs ++ [.initialise o])) d st t = some (defaultSpec o (initialDefault t) d st t) := by
  have hreg : ∀ (l : List (Op F)) (s : Store F), (∀ op ∈ l, ∃ flow f t d st n, op = .register flow f t d st n) →
      (l.foldl (step hash) s).defaults = s.defaults := by
    intro l
    induction l with
    | nil => intro s _; rfl
    | cons op l ih =>
      intro s hl
      rw [List.foldl_cons, ih _ (fun op' h => hl op' (List.mem_cons_of_mem _ h))]
      obtain ⟨flow, f, t, d, st, n, rfl⟩ := hl op (by simp)
      simp only [step]
      cases hr : register hash flow f t d st n s with
      | error e => rfl
      | ok s' =>
        obtain ⟨_, _, h3⟩ := register_ok hr
        dsimp only
        rw [h3, defaults_add]
  have hs : after hash (regs ++ [.initialise o]) = initialise hash o (after hash regs) := by
    simp [after, List.foldl_append, step]
  rw [hs, defOf_initialise hash hinj]
  have h0 : defOf hash (after hash regs) d .none t = some (initialDefault t) := by
    rw [defOf, after, hreg regs _ hregs]
    exact setDefaults_eq hash hinj _ d t .none
  rw [h0]; rfl

theorem upper_upper (hu : ∀ c : Char, c.toUpper.toUpper = c.toUpper) (s : Chars) : upper (upper s) = upper s := by
  simp [upper, List.map_map, hu]

/-- **C65.** A forced default is the default from then on, until the options are read again or it is forced again. -/
theorem C65_force (hash : Chars → Key) (hinj : KeyInj hash IsTypeName) (h : List (Op F)) (name : Chars) (t t' : Deriv)
    (d d' : Dir) (st st' : Stagger) :
    defOf hash (after hash (h ++ [.force name t d st])) d' st' t' =
      if d' = d ∧ st' = st ∧ t' = t then some (upper name) else defOf hash (after hash h) d' st' t' := by
  have hs : after hash (h ++ [.force name t d st]) = force hash name t d st (after hash h) := by
    simp [after, List.foldl_append, step]
  rw [hs, defOf, force, find_setDefault]
  by_cases hk : getKey hash d st t.name = getKey hash d' st' t'.name
  · obtain ⟨h1, h2, h3⟩ := typeKey_inj hinj hk
    rw [if_pos hk, if_pos ⟨h1.symm, h2.symm, h3.symm⟩]
  · rw [if_neg hk, if_neg]
    · rfl
    · rintro ⟨rfl, rfl, rfl⟩; exact hk rfl

theorem key_self (hash : Chars → Key) (d : Dir) (st : Stagger) : getKey hash d st d.name = hash (stagName st) := by
  unfold getKey
  generalize hash d.name = a
  generalize hash (stagName st) = c
  rw [BitVec.xor_comm a c, BitVec.xor_assoc, BitVec.xor_self, BitVec.xor_zero]

/-- **C65, violated for some names.** The key is an exclusive or, so it is not unique, whatever the hash function: a
method called `X` in direction X has the key of one called `Y` in direction Y, and the second registration of the two
throws. -/
theorem C65_key_unique_violated (hash : Chars → Key) (st : Stagger) (f g : F) (t : Deriv) :
    getKey hash .x st "X".toList = getKey hash .y st "Y".toList ∧
    ∃ s1, register hash t.isFlow f t .x st "X".toList (fresh hash) = .ok s1 ∧
      register hash t.isFlow g t .y st "Y".toList s1 = .error .override := by
  have hk : getKey hash .x st "X".toList = getKey hash .y st "Y".toList :=
    (key_self hash .x st).trans (key_self hash .y st).symm
  refine ⟨hk, _, register_ok_of rfl (by rw [map_fresh]; rfl), ?_⟩
  simp only [register, ne_eq, not_true_eq_false, if_false, map_add, if_true, find_cons, hk]
  rfl

/-- A hash that meets the assumptions, on the names the store itself uses. -/
def sampleHash (s : Chars) : Key :=
  let names : List Chars := [Dir.name .x, Dir.name .y, Dir.name .yOrth, Dir.name .z, stagName .none, stagName .c2l,
    stagName .l2c, Deriv.name .standard, Deriv.name .second, Deriv.name .fourth, Deriv.name .upwind, Deriv.name .flux,
    "C2".toList, "C4".toList, "W2".toList, "S2".toList, "U1".toList, "U2".toList, "U3".toList, "W3".toList,
    "FFT".toList, "SPLIT".toList]
  BitVec.ofNat 64 (2 ^ (names.idxOf s))

/-- The names of the built-in methods. -/
def methodNames : List Chars := ["C2".toList, "C4".toList, "W2".toList, "S2".toList, "U1".toList, "U2".toList,
  "U3".toList, "W3".toList, "FFT".toList, "SPLIT".toList]

/-- All combinations of a direction, a staggering and a name of a list. -/
def combos (names : List Chars) : List (Dir × Stagger × Chars) :=
  dirs.flatMap (fun d => [Stagger.none, .c2l, .l2c].flatMap (fun s => names.map (fun n => (d, s, n))))

theorem mem_combos (names : List Chars) (d : Dir) (s : Stagger) (n : Chars) (h : n ∈ names) :
    (d, s, n) ∈ combos names := by
  simp only [combos, List.mem_flatMap, List.mem_map]
  refine ⟨d, by cases d <;> decide, s, by cases s <;> decide, n, h, rfl⟩

theorem keyInj_of_nodup (hash : Chars → Key) (names : List Chars)
    (h : ((combos names).map (fun c => getKey hash c.1 c.2.1 c.2.2)).Nodup) : KeyInj hash (· ∈ names) := by
  intro d s n d' s' n' hn hn' he
  have := List.inj_on_of_nodup_map h (mem_combos names d s n hn) (mem_combos names d' s' n' hn') he
  simpa using this

def typeNames : List Chars := derivs.map Deriv.name

theorem typeKeys_nodup : ((combos typeNames).map (fun c => getKey sampleHash c.1 c.2.1 c.2.2)).Nodup := by
  decide +kernel

theorem methodKeys_nodup : ((combos methodNames).map (fun c => getKey sampleHash c.1 c.2.1 c.2.2)).Nodup := by
  decide +kernel

/-- The assumption on the hash function can be met, for the names of the types and of the built-in methods. -/
example : KeyInj sampleHash IsTypeName ∧ KeyInj sampleHash (· ∈ methodNames) := by
  refine ⟨fun d s n d' s' n' hn hn' he => ?_, keyInj_of_nodup _ _ methodKeys_nodup⟩
  refine keyInj_of_nodup _ _ typeKeys_nodup d s n d' s' n' ?_ ?_ he
  · obtain ⟨t, rfl⟩ := hn
    exact List.mem_map.mpr ⟨t, by cases t <;> decide, rfl⟩
  · obtain ⟨t, rfl⟩ := hn'
    exact List.mem_map.mpr ⟨t, by cases t <;> decide, rfl⟩

end Verif.Deriv
