import Verif.Options.FuzzyThms

/-!
# C85: the suggestion for an unknown name in an expression
-/
namespace Verif.Opt
open Verif.Str (Chars)
open Verif.Edit (editDistance Align Opt)

/-- What is found among the generators. -/
def keyMatch (tl : Char → Char) (name : Chars) (D : Nat) (key : Chars) : Option NameMatch :=
  (nearKey tl name D key).map fun k => (key, k)

theorem nearKey_spec {tl : Char → Char} {name key : Chars} {D k : Nat} :
    nearKey tl name D key = some k ↔ Least (Close tl key name) k
      ∧ (k ≤ D ∨ (key ≠ name ∧ key.map tl = name.map tl)) := by
  have hm := Edit.C37_is_minimum key name
  unfold nearKey
  constructor
  · intro h
    split_ifs at h with h2 h3
    · cases h
      refine ⟨⟨Or.inr ⟨h2.1, h2.2, rfl⟩, ?_⟩, Or.inr h2⟩
      rintro j (hj | ⟨_, _, rfl⟩)
      · exact one_le_of_ne h2.1 hj
      · exact Nat.le_refl _
    · cases h
      refine ⟨⟨Or.inl hm.1, ?_⟩, Or.inl h3⟩
      rintro j (hj | ⟨a, b, _⟩)
      · exact hm.2 j hj
      · exact absurd ⟨a, b⟩ h2
  · rintro ⟨⟨hc, hl⟩, hb⟩
    by_cases h2 : key ≠ name ∧ key.map tl = name.map tl
    · rw [if_pos h2]
      have h1 := hl 1 (Or.inr ⟨h2.1, h2.2, rfl⟩)
      rcases hc with hc | ⟨_, _, rfl⟩
      · have := one_le_of_ne h2.1 hc
        congr 1; omega
      · rfl
    · rw [if_neg h2]
      have hk : k = editDistance key name := by
        rcases hc with hc | ⟨a, b, _⟩
        · exact Nat.le_antisymm (hl _ (Or.inl hm.1)) (hm.2 k hc)
        · exact absurd ⟨a, b⟩ h2
      rcases hb with hb | hb
      · rw [if_pos (by omega), hk]
      · exact absurd hb h2

/-- **C85, generators.**  For generators in the order of their map, `fuzzyFind` returns exactly the
names that match approximately with their least distance, but in alphabetical order and not in the
order of the distance, because `operator<` (expressionparser.hxx L140-142) asks for both a smaller
distance and a smaller name. -/
theorem C85_alphabetical (tl : Char → Char) (name : Chars) (D : Nat) (keys : List Chars)
    (hk : keys.Pairwise (· < ·)) :
    parserFind tl name D keys = keys.filterMap (keyMatch tl name D) := by
  have hnl : ∀ a b : Chars, a < b → ¬ b < a := fun a b h h' => List.lt_asymm h h'
  have ins : ∀ (m : NameMatch) (l : List NameMatch), (∀ x ∈ l, x.1 < m.1) → insertBy ltName m l = l ++ [m] := by
    intro m l
    induction l with
    | nil => intro _; rfl
    | cons x xs ih =>
      intro h
      unfold insertBy
      have : ltName m x = false := by
        unfold ltName
        rw [Bool.and_eq_false_iff]
        exact Or.inr (decide_eq_false (hnl _ _ (h x List.mem_cons_self)))
      rw [this, if_neg Bool.false_ne_true, ih fun y hy => h y (List.mem_cons_of_mem _ hy)]
      rfl
  have gen : ∀ (keys : List Chars) (acc : List NameMatch), keys.Pairwise (· < ·) →
      (∀ x ∈ acc, ∀ key ∈ keys, x.1 < key) →
      keys.foldl (fun acc key => match nearKey tl name D key with
        | some k => insertBy ltName (key, k) acc
        | none => acc) acc = acc ++ keys.filterMap (keyMatch tl name D) := by
    intro keys
    induction keys with
    | nil => intro acc _ _; simp
    | cons key keys ih =>
      intro acc hp ha
      obtain ⟨h1, h2⟩ := List.pairwise_cons.1 hp
      rw [List.foldl_cons, List.filterMap_cons]
      unfold keyMatch at *
      cases nearKey tl name D key with
      | none =>
        simp only [Option.map_none]
        exact ih acc h2 fun x hx k hk' => ha x hx k (List.mem_cons_of_mem _ hk')
      | some k =>
        simp only [Option.map_some]
        rw [ins (key, k) acc fun x hx => ha x hx key List.mem_cons_self]
        rw [ih _ h2, List.append_assoc]
        · rfl
        · intro x hx k' hk'
          rcases List.mem_append.1 hx with hx | hx
          · exact ha x hx k' (List.mem_cons_of_mem _ hk')
          · rw [List.mem_singleton] at hx
            subst hx
            exact h1 k' hk'
  have := gen keys [] hk (by simp)
  exact this

/-- **C85, the suggestion.**  With no options, the name suggested is the alphabetically first one
that matches approximately but not exactly; there is a suggestion exactly when such a name exists. -/
theorem C85_did_you_mean_partial (tl : Char → Char) (name : Chars) (D : Nat) (keys : List Chars)
    (hk : keys.Pairwise (· < ·)) :
    (∀ s, didYouMean (factoryFind tl name D keys none) = some s →
      s ∈ keys ∧ s ≠ name ∧ (∃ k, Least (Close tl s name) k
        ∧ (k ≤ D ∨ s.map tl = name.map tl)))
    ∧ (didYouMean (factoryFind tl name D keys none) = none → ∀ s ∈ keys, s ≠ name → ∀ k,
        Close tl s name k → D < k) := by
  unfold factoryFind
  rw [C85_alphabetical tl name D keys hk]
  have hz : ∀ {s k}, nearKey tl name D s = some k → (k ≠ 0 ↔ s ≠ name) := by
    intro s k h
    obtain ⟨⟨hc, hl⟩, _⟩ := nearKey_spec.1 h
    constructor
    · rintro hk rfl
      have hm := Edit.C37_is_minimum s s
      rw [(Edit.C37_zero_iff s s).2 rfl] at hm
      have := hl 0 (Or.inl hm.1)
      omega
    · rintro hs rfl
      rcases hc with hc | ⟨_, _, h0⟩
      · have := one_le_of_ne hs hc; omega
      · omega
  constructor
  · intro s hs
    unfold didYouMean at hs
    obtain ⟨m, hm, rfl⟩ := Option.map_eq_some_iff.1 hs
    have hmem := List.mem_of_mem_head? hm
    obtain ⟨h1, h2⟩ := List.mem_filter.1 hmem
    obtain ⟨key, hkey, hkm⟩ := List.mem_filterMap.1 h1
    unfold keyMatch at hkm
    obtain ⟨k, hn, rfl⟩ := Option.map_eq_some_iff.1 hkm
    obtain ⟨hl, hb⟩ := nearKey_spec.1 hn
    refine ⟨hkey, (hz hn).1 (by simpa using h2), k, hl, ?_⟩
    rcases hb with hb | hb
    · exact Or.inl hb
    · exact Or.inr hb.2
  · intro hs s hmem hne k hc
    unfold didYouMean at hs
    rw [Option.map_eq_none_iff, List.head?_eq_none_iff, List.filter_eq_nil_iff] at hs
    by_contra hle
    have hex : ∃ j, nearKey tl name D s = some j := by
      unfold nearKey
      split_ifs with h2 h3
      · exact ⟨_, rfl⟩
      · exact ⟨_, rfl⟩
      · exfalso
        rcases hc with hc | ⟨a, b, _⟩
        · have := (Edit.C37_is_minimum s name).2 k hc; omega
        · exact h2 ⟨a, b⟩
    obtain ⟨j, hj⟩ := hex
    have := hs (s, j) (List.mem_filterMap.2 ⟨s, hmem, by unfold keyMatch; rw [hj]; rfl⟩)
    simp only [Bool.not_eq_true', decide_eq_false_iff_not, not_not] at this
    exact (hz hj).2 hne this

/-- **C85, expressions with options.**  With options, the matches found are those among the generators together with those
among the options, each option under its full name with its distance: nothing is lost and nothing added. -/
theorem C85_expression_matches (tl : Char → Char) (name : Chars) (D : Nat) (keys : List Chars)
    (hk : keys.Pairwise (· < ·)) (t : Tree) :
    (factoryFind tl name D keys (some t)).Perm
      (keys.filterMap (keyMatch tl name D) ++ (t.fuzzyFind tl name D).map fun m => (m.opt.fullName, m.distance)) := by
  have gen : ∀ (L : List Match) (acc : List NameMatch),
      (L.foldl (fun acc m => insertBy ltName (m.opt.fullName, m.distance) acc) acc).Perm
        (acc ++ L.map fun m => (m.opt.fullName, m.distance)) := by
    intro L
    induction L with
    | nil => intro acc; simp
    | cons m L ih =>
      intro acc
      rw [List.foldl_cons, List.map_cons]
      exact (ih _).trans (((insertBy_perm ltName _ acc).append_right _).trans List.perm_middle.symm)
  have := gen (t.fuzzyFind tl name D) (parserFind tl name D keys)
  have e := C85_alphabetical tl name D keys hk
  exact this.trans (by rw [e])

/-! ## Where the documentation is not met -/

/-- Generators of `FieldFactory`, in the order of the map. -/
def exFuzzyKeys : List Chars :=
  ["cos".toList, "cosh".toList, "sin".toList, "sinh".toList, "sqrt".toList, "tan".toList, "tanh".toList]

/-- **Finding.**  For the misspelling `sanh` the message asks "Did you mean 'sin'?", two edits away,
although `sinh` and `tanh` are one edit away. -/
theorem C85_order_violated (tl : Char → Char) (h : tl = fun c => c.toLower) :
    didYouMean (factoryFind tl "sanh".toList 2 exFuzzyKeys none) = some "sin".toList
      ∧ editDistance "sin".toList "sanh".toList = 2 ∧ editDistance "sinh".toList "sanh".toList = 1 := by
  subst h
  decide +kernel

/-- **Finding.**  The comparison of `std::multiset<ExpressionParser::FuzzyMatch>` is not a strict
weak ordering, which the container requires: there are `x`, `y`, `z` with neither `x`, `y` nor `y`, `z`
comparable, but `x` less than `z`. -/
theorem C85_comparison_violated : ∃ x y z : NameMatch, ltName x y = false ∧ ltName y x = false
    ∧ ltName y z = false ∧ ltName z y = false ∧ ltName x z = true :=
  ⟨("a".toList, 1), ("z".toList, 0), ("b".toList, 2), by decide +kernel⟩

/-! ## The hypotheses are met -/

/-- `mesh:nx` is set and read, `nx` and `mesh:NY` are set and never read, `mesh:ny` is read. -/
def exFuzzyOps : List Op :=
  [.assign ["mesh".toList, "nx".toList] (.int 3) "f".toList, .read ["mesh".toList, "nx".toList] .int,
    .assign ["nx".toList] (.int 4) "f".toList, .assign ["mesh".toList, "NY".toList] (.int 4) "f".toList,
    .withDefault ["mesh".toList, "ny".toList] .int (.int 5)]

def exFuzzyTree : Tree := run exEnv emptyTree exFuzzyOps

theorem exFuzzyTree_ok : exFuzzyTree.KeysOk ∧ Inv exFuzzyTree ∧ exFuzzyTree.data.isSection = true :=
  ⟨run_keysOk exEnv exFuzzyOps emptyTree (by simp [emptyTree, fresh, Tree.KeysOk, Kids.KeysOk]),
    C09_reachable_inv exEnv exFuzzyOps (by unfold Clean; decide), by decide +kernel⟩

/-- `nx` has no suggestion within four edits but `mesh:nx`, found by its own name; the documented
distance is 1. -/
theorem exFuzzySuggestions : (suggestions (fun c => c.toLower) exFuzzyTree).map (fun e =>
      (e.1, e.2.map fun m => (m.opt.fullName, m.distance)))
    = [("mesh:NY".toList, [("mesh:ny".toList, 1), ("mesh:nx".toList, 2)]),
       ("nx".toList, [("mesh:nx".toList, 1), ("mesh:ny".toList, 2)])] := by decide +kernel

def exFuzzyNx : Data := (exFuzzyTree.valueAt ["nx".toList]).getD emptyTree.data

theorem exFuzzyNx_unread : Unread [outputSource, userDefault] exFuzzyNx :=
  (excluded_iff _ _).1 (by decide +kernel)

example : ∃ ms, ("nx".toList, ms) ∈ suggestions (fun c => c.toLower) exFuzzyTree := by
  refine (C85_suggestions _ exFuzzyTree exFuzzyTree_ok.1 exFuzzyTree_ok.2.1 exFuzzyTree_ok.2.2 "nx".toList).2 ⟨?_, ?_⟩
  · exact ⟨["nx".toList], exFuzzyNx, by decide, by decide +kernel, exFuzzyNx_unread, by decide +kernel⟩
  · refine ⟨["mesh".toList, "nx".toList], _, 1, rfl, by decide +kernel, by decide +kernel,
      by decide +kernel, by decide +kernel, ?_, by omega⟩
    exact Or.inr ⟨0, rfl, Or.inl (.keep 'x' (.keep 'n' .nil))⟩

/-- An option `ab:nx` is reported at distance 3, not 1. -/
example : score (fun c => c.toLower) "nx".toList 4
    { fullName := "ab:nx".toList, isSection := false } = some 3 :=
  (C85_unqualified_violated _ "nx".toList "ab".toList 4 (by decide) (by decide) _ rfl rfl
    (by decide)).2.1

example := C85_distance_partial (fun c => c.toLower) "nx".toList 4 exFuzzyTree exFuzzyTree_ok.1 exFuzzyTree_ok.2.1
  exFuzzyTree_ok.2.2 ["nx".toList] _ rfl 0
  ⟨Or.inl (Or.inl (.keep 'x' (.keep 'n' .nil))), fun _ _ => Nat.zero_le _⟩ (by omega)
  (Or.inl (Or.inl (.keep 'x' (.keep 'n' .nil))))

example := C85_limit_violated (fun c => c.toLower) "NX".toList
  { fullName := "nx".toList, isSection := false } rfl (by decide) (by decide)

theorem exFuzzySorted : exFuzzyKeys.Pairwise (· < ·) := by decide +kernel

example := (C85_did_you_mean_partial (fun c => c.toLower) "sanh".toList 2 exFuzzyKeys exFuzzySorted).1

end Verif.Opt
