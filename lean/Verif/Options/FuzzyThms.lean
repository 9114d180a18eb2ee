import Verif.Options.Fuzzy
import Mathlib.Data.List.Perm.Basic
import Mathlib.Data.List.Permutation

/-!
# C85: approximate matches
-/
namespace Verif.Opt
open Verif.Str (Chars)
open Verif.Edit (editDistance Align Opt)

/-! ## Specification -/

/-- `poss` is `k` away from `name`: `k` insertions, deletions, substitutions or transpositions, or
one if only the case differs. -/
def Close (tl : Char → Char) (name poss : Chars) (k : Nat) : Prop :=
  Align name poss k ∨ (name ≠ poss ∧ name.map tl = poss.map tl ∧ k = 1)

/-- The documented distance (options.hxx:340-350): that of the full name, or one more than that of
the name without its sections. -/
def Doc (tl : Char → Char) (name : Chars) (o : Data) (k : Nat) : Prop :=
  Close tl name o.fullName k ∨ ∃ j, k = j + 1 ∧ Close tl name (lastName o.fullName) j

/-- The least number with a property. -/
def Least (P : Nat → Prop) (k : Nat) : Prop := P k ∧ ∀ j, P j → k ≤ j

mutual
/-- The options of a tree which have a value. -/
def Tree.values : Tree → List Data
  | .node d cs => if d.isSection then cs.values else [d]
def Kids.values : Kids → List Data
  | .nil => []
  | .cons _ t r => t.values ++ r.values
end

/-! ## Lists -/

theorem insertBy_perm {α : Type} (lt : α → α → Bool) (m : α) : ∀ l : List α,
    (insertBy lt m l).Perm (m :: l)
  | [] => List.Perm.refl _
  | x :: xs => by
    unfold insertBy
    split
    · exact List.Perm.refl _
    · exact ((insertBy_perm lt m xs).cons x).trans (List.Perm.swap m x xs)

/-- Ordered by distance. -/
def Ordered (l : List Match) : Prop := l.Pairwise fun a b => a.distance ≤ b.distance

theorem insertBy_ordered (m : Match) : ∀ l : List Match, Ordered l → Ordered (insertBy ltMatch m l)
  | [], _ => List.pairwise_singleton _ _
  | x :: xs, h => by
    obtain ⟨h1, h2⟩ := List.pairwise_cons.1 h
    unfold insertBy
    split
    · rename_i hlt
      have hlt' : m.distance < x.distance := of_decide_eq_true hlt
      refine List.pairwise_cons.2 ⟨?_, h⟩
      intro y hy
      rcases List.mem_cons.1 hy with rfl | hy
      · omega
      · have := h1 y hy; omega
    · rename_i hlt
      have hlt' : ¬ m.distance < x.distance := fun hc => hlt (decide_eq_true hc)
      refine List.pairwise_cons.2 ⟨?_, insertBy_ordered m xs h2⟩
      intro y hy
      rcases List.mem_cons.1 ((insertBy_perm ltMatch m xs).mem_iff.1 hy) with rfl | hy
      · omega
      · exact h1 y hy

theorem insertOpt_perm (o : Data) (k : Option Nat) (acc : List Match) :
    (insertOpt o k acc).Perm (acc ++ (k.map (Match.mk o)).toList) := by
  cases k with
  | none => simp [insertOpt]
  | some k =>
    simp only [insertOpt, Option.map_some, Option.toList_some]
    exact (insertBy_perm _ _ _).trans (List.perm_append_singleton _ _).symm

theorem insertOpt_ordered (o : Data) (k : Option Nat) (acc : List Match) (h : Ordered acc) :
    Ordered (insertOpt o k acc) := by
  cases k with
  | none => exact h
  | some k => exact insertBy_ordered _ _ h

theorem foldl_insert_perm (l : List Match) : ∀ acc : List Match,
    (l.foldl (fun a m => insertBy ltMatch m a) acc).Perm (acc ++ l) := by
  induction l with
  | nil => intro acc; simp
  | cons m l ih =>
    intro acc
    rw [List.foldl_cons]
    refine (ih _).trans ?_
    have := (insertBy_perm ltMatch m acc).append_right l
    refine this.trans ?_
    exact (List.perm_middle (l₁ := acc) (l₂ := l) (a := m)).symm

theorem foldl_insert_ordered (l : List Match) : ∀ acc : List Match, Ordered acc →
    Ordered (l.foldl (fun a m => insertBy ltMatch m a) acc) := by
  induction l with
  | nil => intro acc h; exact h
  | cons m l ih => intro acc h; exact ih _ (insertBy_ordered m acc h)

/-- The match of one option. -/
def matchOf (tl : Char → Char) (name : Chars) (D : Nat) (o : Data) : Option Match :=
  (score tl name D o).map (Match.mk o)

theorem near_section (tl : Char → Char) (name : Chars) (D : Nat) (o : Data) (poss : Chars) (x : Nat)
    (h : o.isSection = true) : near tl name D o poss x = none := by
  unfold near; rw [if_pos h]

theorem score_section (tl : Char → Char) (name : Chars) (D : Nat) (o : Data)
    (h : o.isSection = true) : score tl name D o = none := by
  unfold score; rw [near_section _ _ _ _ _ _ h, near_section _ _ _ _ _ _ h]

mutual
theorem find_perm (tl : Char → Char) (name : Chars) (D : Nat) : ∀ t : Tree, t.data.isSection = true →
    (t.fuzzyFind tl name D).Perm (t.values.filterMap (matchOf tl name D)) ∧ Ordered (t.fuzzyFind tl name D)
  | .node d cs, h => by
    have h' : d.isSection = true := h
    unfold Tree.fuzzyFind Tree.values
    rw [near_section _ _ _ _ _ _ h', if_pos h']
    have := loop_perm tl name D cs [] List.Pairwise.nil
    exact ⟨by simpa [insertOpt] using this.1, this.2⟩
theorem loop_perm (tl : Char → Char) (name : Chars) (D : Nat) : ∀ (cs : Kids) (acc : List Match), Ordered acc →
    (cs.fuzzyLoop tl name D acc).Perm (acc ++ cs.values.filterMap (matchOf tl name D))
      ∧ Ordered (cs.fuzzyLoop tl name D acc)
  | .nil, acc, h => by simp [Kids.fuzzyLoop, Kids.values, h]
  | .cons n t r, acc, h => by
    unfold Kids.fuzzyLoop Kids.values
    by_cases hs : t.data.isSection = true
    · simp only [hs, if_true, score_section tl name D t.data hs, insertOpt]
      obtain ⟨p1, o1⟩ := find_perm tl name D t hs
      obtain ⟨p2, o2⟩ := loop_perm tl name D r _ (foldl_insert_ordered (t.fuzzyFind tl name D) acc h)
      refine ⟨p2.trans ?_, o2⟩
      rw [List.filterMap_append, ← List.append_assoc]
      exact ((foldl_insert_perm _ acc).trans (p1.append_left acc)).append_right _
    · have hv : t.values = [t.data] := by
        cases t with
        | node d ks =>
          have hs' : ¬ d.isSection = true := hs
          unfold Tree.values; rw [if_neg hs']; rfl
      simp only [if_neg hs]
      obtain ⟨p2, o2⟩ := loop_perm tl name D r _ (insertOpt_ordered t.data (score tl name D t.data) acc h)
      refine ⟨p2.trans ?_, o2⟩
      rw [List.filterMap_append, ← List.append_assoc, hv]
      refine ((insertOpt_perm t.data _ acc).append_right _).trans ?_
      have : (Option.map (Match.mk t.data) (score tl name D t.data)).toList
          = List.filterMap (matchOf tl name D) [t.data] := by
        unfold matchOf
        cases h : Option.map (Match.mk t.data) (score tl name D t.data) <;> simp [h]
      rw [this]
end

mutual
theorem mem_values : ∀ t : Tree, t.KeysOk → Inv t → ∀ d, d ∈ t.values ↔ ∃ p, t.valueAt p = some d
  | .node e cs, hk, hi, d => by
    unfold Tree.values
    by_cases hs : e.isSection = true
    · rw [if_pos hs, mem_kids cs hk (fun n c hf => Inv_child hi hf) d]
      constructor
      · rintro ⟨n, c, p, hf, hv⟩
        exact ⟨n :: p, by simp only [Tree.valueAt, lookup_node_cons, hf, Option.bind_some]; exact hv⟩
      · rintro ⟨p, hv⟩
        cases p with
        | nil => simp [Tree.valueAt, lookup_nil, Tree.data, Option.filter, hs] at hv
        | cons n ns =>
          simp only [Tree.valueAt, lookup_node_cons] at hv
          cases hf : cs.find n with
          | none => rw [hf] at hv; simp at hv
          | some c => rw [hf] at hv; exact ⟨n, c, ns, hf, hv⟩
    · rw [if_neg hs]
      have hs' : e.isSection = false := by simpa using hs
      constructor
      · intro h
        rw [List.mem_singleton] at h
        subst h
        exact ⟨[], by simp [Tree.valueAt, lookup_nil, Tree.data, Option.filter, hs']⟩
      · rintro ⟨p, hv⟩
        cases p with
        | nil =>
          simp only [Tree.valueAt, lookup_nil, Tree.data, Option.filter, hs', Bool.not_false, if_true,
            Option.some.injEq] at hv
          rw [hv]; exact List.mem_singleton_self _
        | cons n ns =>
          have := (hi [] e (lookup_nil _) hs').2 n
          rw [List.nil_append, lookup_node_cons] at this
          cases hf : cs.find n with
          | none => simp [Tree.valueAt, lookup_node_cons, hf] at hv
          | some c => rw [hf, Option.bind_some, lookup_nil] at this; cases this
theorem mem_kids : ∀ cs : Kids, cs.KeysOk → (∀ n c, cs.find n = some c → Inv c) → ∀ d,
    d ∈ cs.values ↔ ∃ n c p, cs.find n = some c ∧ c.valueAt p = some d
  | .nil, _, _, d => by simp [Kids.values, Kids.find]
  | .cons m t r, hk, hi, d => by
    simp only [Kids.KeysOk] at hk
    have hir : ∀ n c, r.find n = some c → Inv c := by
      intro n c hf
      have : m ≠ n := by rintro rfl; rw [hk.1] at hf; simp at hf
      exact hi n c (by simp [Kids.find, this, hf])
    unfold Kids.values
    rw [List.mem_append, mem_values t hk.2.1 (hi m t (by simp [Kids.find])) d, mem_kids r hk.2.2 hir d]
    constructor
    · rintro (⟨p, h⟩ | ⟨n, c, p, hf, h⟩)
      · exact ⟨m, t, p, by simp [Kids.find], h⟩
      · have : m ≠ n := by rintro rfl; rw [hk.1] at hf; simp at hf
        exact ⟨n, c, p, by simp [Kids.find, this, hf], h⟩
    · rintro ⟨n, c, p, hf, h⟩
      by_cases hm : m = n
      · simp only [Kids.find, hm, if_true, Option.some.injEq] at hf
        subst hf
        exact Or.inl ⟨p, h⟩
      · simp only [Kids.find, hm, if_false] at hf
        exact Or.inr ⟨n, c, p, hf, h⟩
end

/-! ## One name -/

theorem one_le_of_ne {a b : Chars} (h : a ≠ b) {k : Nat} (hk : Align a b k) : 1 ≤ k := by
  have := (Edit.C37_is_minimum a b).2 k hk
  by_contra hc
  have : editDistance a b = 0 := by omega
  exact h ((Edit.C37_zero_iff a b).1 this)

theorem near_spec {tl : Char → Char} {name poss : Chars} {D x k : Nat} {o : Data}
    (h : near tl name D o poss x = some k) :
    ∃ j, k = j + x ∧ Least (Close tl name poss) j
      ∧ (k ≤ D ∨ (name ≠ poss ∧ name.map tl = poss.map tl ∧ j = 1)) := by
  unfold near at h
  split_ifs at h with h1 h2 h3
  · cases h
    refine ⟨1, by omega, ⟨Or.inr ⟨h2.1, h2.2, rfl⟩, ?_⟩, Or.inr ⟨h2.1, h2.2, rfl⟩⟩
    rintro j (hj | ⟨_, _, rfl⟩)
    · exact one_le_of_ne h2.1 hj
    · exact Nat.le_refl _
  · cases h
    have hm := Edit.C37_is_minimum name poss
    refine ⟨_, rfl, ⟨Or.inl hm.1, ?_⟩, Or.inl h3⟩
    rintro j (hj | ⟨a, b, _⟩)
    · exact hm.2 j hj
    · exact absurd ⟨a, b⟩ h2

theorem near_none {tl : Char → Char} {name poss : Chars} {D x j : Nat} {o : Data}
    (hs : o.isSection = false) (h : near tl name D o poss x = none) (hc : Close tl name poss j) :
    D < j + x ∧ ¬ (name ≠ poss ∧ name.map tl = poss.map tl) := by
  unfold near at h
  rw [if_neg (by rw [hs]; exact Bool.false_ne_true)] at h
  split_ifs at h with h2 h3
  refine ⟨?_, h2⟩
  rcases hc with hc | ⟨a, b, _⟩
  · have := (Edit.C37_is_minimum name poss).2 j hc; omega
  · exact absurd ⟨a, b⟩ h2

/-! ## The theorems -/

/-- **C85, the options listed.**  In every tree the options found are options of the tree that
have a value, in order of their distance, none more often than the tree has it; the distance is
one of the documented kind, at most the limit or else for a name that differs only in case; and
every option whose documented distance is within the limit is listed, with a distance within the
limit. -/
theorem C85_find (tl : Char → Char) (name : Chars) (D : Nat) (t : Tree) (hk : t.KeysOk) (hi : Inv t)
    (hs : t.data.isSection = true) :
    let r := t.fuzzyFind tl name D
    r.Pairwise (fun a b => a.distance ≤ b.distance)
      ∧ (∃ l, l.Sublist t.values ∧ (r.map Match.opt).Perm l)
      ∧ (∀ m ∈ r, (∃ p, t.valueAt p = some m.opt) ∧ Doc tl name m.opt m.distance
          ∧ (m.distance ≤ D ∨ m.distance ≤ 2
            ∧ (name.map tl = m.opt.fullName.map tl ∨ name.map tl = (lastName m.opt.fullName).map tl)))
      ∧ (∀ p o k, t.valueAt p = some o → Doc tl name o k → k ≤ D →
          ∃ m ∈ r, m.opt = o ∧ m.distance ≤ max D 2) := by
  intro r
  obtain ⟨hp, ho⟩ := find_perm tl name D t hs
  refine ⟨ho, ?_, ?_, ?_⟩
  · refine ⟨(t.values.filterMap (matchOf tl name D)).map Match.opt, ?_, hp.map _⟩
    rw [List.map_filterMap]
    have : ∀ l : List Data, (l.filterMap fun o => (matchOf tl name D o).map Match.opt).Sublist l := by
      intro l
      induction l with
      | nil => exact List.Sublist.slnil
      | cons o l ih =>
        rw [List.filterMap_cons]
        unfold matchOf at *
        cases score tl name D o with
        | none => exact ih.cons _
        | some k => exact ih.cons_cons _
    exact this _
  · intro m hm
    have := hp.mem_iff.1 hm
    rw [List.mem_filterMap] at this
    obtain ⟨o, hov, hom⟩ := this
    unfold matchOf at hom
    cases hsc : score tl name D o with
    | none => rw [hsc] at hom; cases hom
    | some k =>
      rw [hsc] at hom
      cases hom
      refine ⟨(mem_values t hk hi o).1 hov, ?_⟩
      unfold score at hsc
      cases h1 : near tl name D o o.fullName 0 with
      | some k1 =>
        rw [h1] at hsc
        cases hsc
        obtain ⟨j, e, hl, hd⟩ := near_spec h1
        subst e
        refine ⟨Or.inl hl.1, ?_⟩
        rcases hd with hd | ⟨_, b, c⟩
        · exact Or.inl hd
        · exact Or.inr ⟨le_trans (le_of_eq c) (by decide), Or.inl b⟩
      | none =>
        rw [h1] at hsc
        obtain ⟨j, e, hl, hd⟩ := near_spec hsc
        subst e
        refine ⟨Or.inr ⟨j, rfl, hl.1⟩, ?_⟩
        rcases hd with hd | ⟨_, b, c⟩
        · exact Or.inl hd
        · exact Or.inr ⟨by show j + 1 ≤ 2; omega, Or.inr b⟩
  · intro p o k hv hd hkD
    have hos : o.isSection = false := by
      unfold Tree.valueAt at hv
      have := (Option.filter_eq_some_iff.1 hv).2
      simpa using this
    have hmem := (mem_values t hk hi o).2 ⟨p, hv⟩
    have key : ∃ k', score tl name D o = some k' ∧ k' ≤ max D 2 := by
      unfold score
      cases h1 : near tl name D o o.fullName 0 with
      | some k1 =>
        obtain ⟨j, e, hl, hdd⟩ := near_spec h1
        exact ⟨k1, rfl, by rcases hdd with h | ⟨_, _, h⟩ <;> omega⟩
      | none =>
        rcases hd with hd | ⟨j, e, hd⟩
        · have := (near_none hos h1 hd).1; omega
        · cases h2 : near tl name D o (lastName o.fullName) 1 with
          | none => have := (near_none hos h2 hd).1; omega
          | some k2 =>
            obtain ⟨j, e, hl, hdd⟩ := near_spec h2
            exact ⟨k2, rfl, by rcases hdd with h | ⟨_, _, h⟩ <;> omega⟩
    obtain ⟨k', e, hb⟩ := key
    refine ⟨⟨o, k'⟩, ?_, rfl, hb⟩
    exact hp.mem_iff.2 (List.mem_filterMap.2 ⟨o, hmem, by unfold matchOf; rw [e]; rfl⟩)

/-- **C85, the distance.**  The distance reported is the documented (least) one for every option
whose full name is at this distance, or not within the limit at all. -/
theorem C85_distance_partial (tl : Char → Char) (name : Chars) (D : Nat) (t : Tree) (hk : t.KeysOk)
    (hi : Inv t) (hs : t.data.isSection = true) (p : List Chars) (o : Data) (hv : t.valueAt p = some o)
    (k : Nat) (hd : Least (Doc tl name o) k) (hkD : k ≤ D)
    (hfull : Close tl name o.fullName k ∨ ∀ j, Close tl name o.fullName j → D < j) :
    ⟨o, k⟩ ∈ t.fuzzyFind tl name D := by
  obtain ⟨hp, _⟩ := find_perm tl name D t hs
  have hos : o.isSection = false := by
    unfold Tree.valueAt at hv
    have := (Option.filter_eq_some_iff.1 hv).2
    simpa using this
  have hmem := (mem_values t hk hi o).2 ⟨p, hv⟩
  refine hp.mem_iff.2 (List.mem_filterMap.2 ⟨o, hmem, ?_⟩)
  unfold matchOf
  have : score tl name D o = some k := by
    unfold score
    cases h1 : near tl name D o o.fullName 0 with
    | some k1 =>
      obtain ⟨j, e, hl, hdd⟩ := near_spec h1
      rcases hfull with hf | hf
      · have a := hl.2 k hf
        have b := hd.2 j (Or.inl hl.1)
        simp only
        congr 1; omega
      · exfalso
        have a := hf j hl.1
        rcases hdd with h | ⟨h1', h2', rfl⟩
        · omega
        · have hk0 : k = 0 := by omega
          subst hk0
          rcases hd.1 with h | ⟨j', h, _⟩
          · have := hf 0 h; omega
          · omega
    | none =>
      have hn : ¬ Close tl name o.fullName k := fun hc => by
        have := (near_none hos h1 hc).1; omega
      rcases hd.1 with h | ⟨j, e, hj⟩
      · exact absurd h hn
      · cases h2 : near tl name D o (lastName o.fullName) 1 with
        | none => have := (near_none hos h2 hj).1; omega
        | some k2 =>
          obtain ⟨j2, e2, hl, _⟩ := near_spec h2
          have a := hl.2 j hj
          have b := hd.2 (j2 + 1) (Or.inr ⟨j2, rfl, hl.1⟩)
          simp only
          congr 1; omega
  rw [this]; rfl

/-! ## Where the documentation is not met -/

theorem align_prefix {α : Type} [DecidableEq α] (s a : List α) : editDistance a (s ++ a) ≤ s.length := by
  have refl : ∀ l : List α, Align l l 0 := by
    intro l
    induction l using List.reverseRecOn with
    | nil => exact .nil
    | append_singleton a x ih => exact .keep x ih
  have ins : ∀ l : List α, Align [] l l.length := by
    intro l
    induction l using List.reverseRecOn with
    | nil => exact .nil
    | append_singleton a x ih => simpa using Align.ins x ih
  have : Align a (s ++ a) s.length := by
    induction a using List.reverseRecOn with
    | nil => simpa using ins s
    | append_singleton a x ih =>
      rw [← List.append_assoc]
      exact .keep x ih
  exact (Edit.C37_is_minimum _ _).2 _ this

theorem edit_prefix {α : Type} [DecidableEq α] (s a : List α) : editDistance a (s ++ a) = s.length := by
  have := align_prefix s a
  have h := (Edit.C37_bounds a (s ++ a)).2.1
  rw [List.length_append] at h
  omega

/-- **Finding.**  An unqualified name matches an option with that name in a section whose name has
one letter fewer than the limit with as many edits as the section needs, not with the documented
distance 1: the full name is tried first (options.cxx L196-202). -/
theorem C85_unqualified_violated (tl : Char → Char) (key sec : Chars) (D : Nat) (hsec : sec ≠ [])
    (hD : sec.length + 1 ≤ D) (o : Data) (hs : o.isSection = false)
    (hn : o.fullName = sec ++ ':' :: key) (hkey : ':' ∉ key) :
    Least (Doc tl key o) 1 ∧ score tl key D o = some (sec.length + 1) ∧ 2 ≤ sec.length + 1 := by
  have hlen : 1 ≤ sec.length := List.length_pos_iff.2 hsec
  have hlast : lastName o.fullName = key := by
    rw [hn]
    unfold lastName
    rw [List.reverse_append, List.reverse_cons, List.append_assoc]
    have : ∀ l r : Chars, ':' ∉ l → (l ++ (':' :: r)).takeWhile (fun c => decide (c ≠ ':')) = l := by
      intro l r hl
      induction l with
      | nil => simp
      | cons c l ih =>
        simp only [List.mem_cons, not_or] at hl
        rw [List.cons_append, List.takeWhile_cons, ih hl.2]
        simp [Ne.symm hl.1]
    rw [List.singleton_append, this _ _ (by simpa using hkey), List.reverse_reverse]
  have hne : key ≠ o.fullName := by
    intro h
    have := congrArg List.length h
    rw [hn] at this
    simp at this
    omega
  have hcase : ¬ (key.map tl = o.fullName.map tl) := by
    intro h
    have := congrArg List.length h
    rw [hn] at this
    simp at this
    omega
  have hed : editDistance key o.fullName = sec.length + 1 := by
    have := edit_prefix (sec ++ [':']) key
    rw [List.append_assoc, List.singleton_append] at this
    rw [hn, this]; simp
  refine ⟨⟨Or.inr ⟨0, rfl, Or.inl ?_⟩, ?_⟩, ?_, by omega⟩
  · rw [hlast]
    have := Edit.C37_is_minimum key key
    rw [(Edit.C37_zero_iff key key).2 rfl] at this
    exact this.1
  · rintro j (hj | ⟨j', rfl, _⟩)
    · rcases hj with hj | ⟨_, _, rfl⟩
      · exact one_le_of_ne hne hj
      · exact Nat.le_refl _
    · omega
  · unfold score near
    rw [if_neg (by rw [hs]; exact Bool.false_ne_true), if_neg (fun h => hcase h.2), hed,
      if_pos (by omega)]

/-- **Finding.**  Names that differ only in case are found whatever the limit is, also 0. -/
theorem C85_limit_violated (tl : Char → Char) (name : Chars) (o : Data) (hs : o.isSection = false)
    (h1 : name ≠ o.fullName) (h2 : name.map tl = o.fullName.map tl) : score tl name 0 o = some 1 := by
  unfold score near
  rw [if_neg (by rw [hs]; exact Bool.false_ne_true), if_pos ⟨h1, h2⟩]

/-! ## The suggestions for unused options -/

/-- **C85, suggestions.**  Below each unread option, `checkForUnusedOptions` lists exactly the
options that were read, were not set by the solver or the output, are not called so exactly, and
match approximately. -/
theorem C85_suggestions (tl : Char → Char) (t : Tree) (hk : t.KeysOk) (hi : Inv t)
    (hs : t.data.isSection = true) (key : Chars) :
    (∃ ms, (key, ms) ∈ suggestions tl t) ↔
      (∃ p e, p ≠ [] ∧ t.valueAt p = some e ∧ Unread [outputSource, userDefault] e ∧ e.fullName = key)
        ∧ ∃ p o k, t.valueAt p = some o ∧ o.used = true ∧ o.source ≠ some ['S', 'o', 'l', 'v', 'e', 'r']
          ∧ o.source ≠ some ['O', 'u', 't', 'p', 'u', 't'] ∧ o.fullName ≠ key ∧ Doc tl key o k ∧ k ≤ 4 := by
  have hgood : ∀ m : Match, rejected solverSource m = false ↔ m.distance ≠ 0 ∧ m.opt.used = true
      ∧ m.opt.source ≠ some solverSource ∧ m.opt.source ≠ some outputSource := by
    intro m
    unfold rejected
    simp only [Bool.or_eq_false_iff, decide_eq_false_iff_not, Bool.not_eq_false', ne_eq]
    tauto
  obtain ⟨_, _, f1, f2⟩ := C85_find tl key 4 t hk hi hs
  have fp := (find_perm tl key 4 t hs).1
  unfold suggestions
  rw [← C12_reported_keys [outputSource, userDefault] t hk hi hs key]
  constructor
  · rintro ⟨ms, hm⟩
    obtain ⟨hm, hne⟩ := List.mem_filter.1 hm
    obtain ⟨key', hk', he⟩ := List.mem_map.1 hm
    cases he
    refine ⟨hk', ?_⟩
    have hnil : (t.fuzzyFind tl key 4).filter (fun m => !rejected solverSource m) ≠ [] :=
      fun h0 => by simp only at hne; rw [h0] at hne; cases hne
    obtain ⟨m, hmm⟩ := List.exists_mem_of_ne_nil _ hnil
    obtain ⟨hmr, hrej⟩ := List.mem_filter.1 hmm
    obtain ⟨g1, g2, g3, g4⟩ := (hgood m).1 (by simpa using hrej)
    obtain ⟨⟨p, hv⟩, hd, hb⟩ := f1 m hmr
    refine ⟨p, m.opt, m.distance, hv, g2, g3, g4, ?_, hd, by omega⟩
    intro he
    have := fp.mem_iff.1 hmr
    obtain ⟨o, _, hom⟩ := List.mem_filterMap.1 this
    unfold matchOf at hom
    cases hsc : score tl key 4 o with
    | none => rw [hsc] at hom; cases hom
    | some k =>
      rw [hsc] at hom
      cases hom
      simp only at he g1
      have h0 : near tl key 4 o o.fullName 0 = if o.isSection then none else some 0 := by
        unfold near
        rw [he, (Edit.C37_zero_iff key key).2 rfl]
        simp
      unfold score at hsc
      rw [h0] at hsc
      split_ifs at hsc with hsec
      · simp only [near, hsec, if_true] at hsc
        cases hsc
      · simp only [Option.some.injEq] at hsc
        exact g1 hsc.symm
  · rintro ⟨hk', p, o, k, hv, hu, h1, h2, hne, hd, hk4⟩
    obtain ⟨m, hm, rfl, _⟩ := f2 p o k hv hd hk4
    refine ⟨_, List.mem_filter.2 ⟨List.mem_map.2 ⟨key, hk', rfl⟩, ?_⟩⟩
    rw [Bool.not_eq_true', List.isEmpty_eq_false_iff_exists_mem]
    refine ⟨m, List.mem_filter.2 ⟨hm, ?_⟩⟩
    rw [Bool.not_eq_true']
    refine (hgood m).2 ⟨?_, hu, h1, h2⟩
    intro h0
    obtain ⟨_, hd', _⟩ := f1 m hm
    rw [h0] at hd'
    rcases hd' with (h | ⟨_, _, h⟩) | ⟨j, h, _⟩
    · have := (Edit.C37_is_minimum key m.opt.fullName).2 0 h
      exact hne ((Edit.C37_zero_iff _ _).1 (by omega)).symm
    · omega
    · omega

/-- Each list of suggestions holds exactly the acceptable approximate matches, in order. -/
theorem C85_suggestion_lists (tl : Char → Char) (t : Tree) (hs : t.data.isSection = true)
    (key : Chars) (ms : List Match) (h : (key, ms) ∈ suggestions tl t) :
    ms.Pairwise (fun a b => a.distance ≤ b.distance) ∧ ∀ m, m ∈ ms ↔ m ∈ t.fuzzyFind tl key 4
      ∧ m.distance ≠ 0 ∧ m.opt.used = true ∧ m.opt.source ≠ some ['S', 'o', 'l', 'v', 'e', 'r']
      ∧ m.opt.source ≠ some ['O', 'u', 't', 'p', 'u', 't'] := by
  obtain ⟨hm, _⟩ := List.mem_filter.1 h
  obtain ⟨key', _, he⟩ := List.mem_map.1 hm
  cases he
  refine ⟨List.Pairwise.sublist List.filter_sublist (find_perm tl key 4 t hs).2, fun m => ?_⟩
  rw [List.mem_filter]
  unfold rejected solverSource outputSource
  simp only [Bool.not_eq_true', Bool.or_eq_false_iff, decide_eq_false_iff_not, Bool.not_eq_false', ne_eq]
  tauto

end Verif.Opt
