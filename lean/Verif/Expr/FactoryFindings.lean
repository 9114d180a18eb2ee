import Verif.Expr.FactoryThms
/-!
# C67: what is not so
-/
namespace Verif.Expr.Fac
open Verif.Str (Chars)
open Verif.Expr
variable {R : Type} [Zero R] {env : Env R}

theorem keyOf_root {n : Chars} (h : ':' ∉ n) : keyOf [] n = n := by simp [keyOf, h, str]
theorem keyOf_one {s n : Chars} (h : ':' ∉ n) (hs : s ≠ []) : keyOf [s] n = s ++ ':' :: n := by
  simp [keyOf, h, str, List.length_pos_iff, hs]

theorem val_ne {p q : Path} {n m v : Chars} (h : q ≠ p) (es : List ((Path × Chars) × Chars)) :
    (⟨((p, n), v) :: es⟩ : Tree).val q m = (⟨es⟩ : Tree).val q m := by
  have : ((q, m) == (p, n)) = false := beq_eq_false_iff_ne.mpr (by simp [h])
  simp only [Tree.val, List.lookup_cons, this]

theorem findOption_plain (t : Tree) {n : Chars} (h : ':' ∉ n) (p : Path) :
    findOption t p n = match findUp t n p with
      | some r => .ok r
      | none => .error (.parse "Cannot find variable") := by
  rw [findOption, colons, colonsFrom_none _ _ h, if_pos rfl]
  cases findUp t n p <;> rfl

/-- Resolving a plain name whose option is a registered generator. -/
theorem resolve_gen (he : EnvOk env) {t : Tree} {n c : Chars} (hn : ':' ∉ n) (hpc : Plain env c) {g : Gen R}
    {f : List (Gen R) → Except Err (Gen R)} (hg : env.gen c = some f) (hf : f [] = .ok g) {st : St R} {s : Path}
    (h1 : st.cache.lookup (keyOf st.options n) = none) (h2 : keyOf st.options n ∉ st.lookup)
    (h3 : findUp t n st.options = some (s, c)) (h4 : st.cache.lookup (textKey (some s) c) = none) :
    resolve env t n st = some (.ok g, { st with
      cache := (keyOf st.options n, g) :: (textKey (some s) c, g) :: st.cache }) := by
  rw [resolve, h1]
  simp only
  rw [if_neg h2, findOption_plain t hn, h3]
  simp only
  rw [parse_gen he hpc hg hf (some s) _ (by simpa using h4)]
  rfl

/-- Finding: after an exception the factory does not recover.  With `a = b` and `b` not set, parsing `a` throws, rightly.
Once `b` has been set (and the cache cleaned), `a` has a meaning, but parsing it fails with "infinite recursion", because
the names being looked up when the exception was thrown are still on the list. -/
theorem C67_after_exception_violated (he : EnvOk env) {a b c : Chars} (ha : Plain env a) (hb : Plain env b)
    (hpc : Plain env c) (hab : a ≠ b) (hca : ':' ∉ a) (hcb : ':' ∉ b) (hga : env.gen a = none) (hgb : env.gen b = none)
    {g : Gen R} {f : List (Gen R) → Except Err (Gen R)} (hg : env.gen c = some f) (hf : f [] = .ok g) :
    ∃ e st, parse env ⟨[(([], a), b)]⟩ a (some []) ⟨[], [], []⟩ = some (.error e, st) ∧
      Means Denotes (own ⟨[(([], a), b), (([], b), c)]⟩) env 3 [] a g ∧
      parse env ⟨[(([], a), b), (([], b), c)]⟩ a (some []) (cleanCache st) =
        some (.error (.parse "Infinite recursion"), cleanCache st) := by
  have hba : b ≠ a := fun h => hab h.symm
  have hbb : ((([] : Path), b) == (([] : Path), a)) = false := beq_eq_false_iff_ne.mpr (by simp [hba])
  have hres : resolve env ⟨[(([], a), b)]⟩ a (⟨[], [], []⟩ : St R) =
      some (.error (.parse "Cannot find variable"), ⟨[], [a], []⟩) := by
    rw [resolve]
    simp only [List.lookup_nil, keyOf_root hca]
    rw [if_neg (by simp), findOption_plain _ hca]
    simp only [findUp, Tree.val, List.lookup_cons, beq_self_eq_true, Option.map_some]
    rw [parse_name_error he hb hgb (some []) _ (by simp) (e := .parse "Cannot find variable") (st' := ⟨[], [a], []⟩) ?_]
    · rfl
    · rw [resolve]
      simp only [List.lookup_nil, Option.getD, keyOf_root hcb]
      rw [if_neg (by simp [hba]), findOption_plain _ hcb]
      simp [findUp, Tree.val, List.lookup_cons, hbb]
  refine ⟨_, _, parse_name_error he ha hga (some []) _ (by simp) hres, ?_, ?_⟩
  · refine ⟨fun n => if n = a then .ok (some g) else .error .number, name_denotes ha hga (by simp), ?_⟩
    intro n g' hn
    by_cases h : n = a
    · subst h
      simp at hn
      subst hn
      refine ⟨[], b, by simp [own, hca, findUp, Tree.val], ?_⟩
      refine ⟨fun n => if n = b then .ok (some g) else .error .number, name_denotes hb hgb (by simp), ?_⟩
      intro n g' hn
      by_cases h : n = b
      · subst h
        simp at hn
        subst hn
        refine ⟨[], c, by simp [own, hcb, findUp, Tree.val, List.lookup_cons, hbb], ?_⟩
        exact ⟨fun n => .error .number, gen_denotes hpc hg hf, by intro n g' h; simp at h⟩
      · simp [h] at hn
    · simp [h] at hn
  · refine parse_name_error he ha hga (some []) _ (by simp [cleanCache]) ?_
    rw [resolve]
    simp [cleanCache, keyOf_root hca]

/-- Finding: names of options in nested sections are not found.  With `c` set in section `a:b`, the name `a:b:c` is
looked up in a section `a:b:c`. -/
theorem C67_nested_violated {a b c v : Chars} (ha : ':' ∉ a) (hb : ':' ∉ b) (hc : ':' ∉ c) (hna : a ≠ [])
    (hnb : b ≠ []) (hnc : c ≠ []) (p : Path) :
    (⟨[(([b, a], c), v)]⟩ : Tree).val [b, a] c = some v ∧
    findOption ⟨[(([b, a], c), v)]⟩ p (a ++ ':' :: (b ++ ':' :: c)) = .error (.parse "Cannot find variable") := by
  refine ⟨by simp [Tree.val], ?_⟩
  have hcol : colons (a ++ ':' :: (b ++ ':' :: c)) = [a.length, a.length + 1 + b.length] := by
    have h1 : ∀ (i : Nat) (x y : Chars), ':' ∉ x → colonsFrom i (x ++ ':' :: y) =
        (i + x.length) :: colonsFrom (i + x.length + 1) y := by
      intro i x y
      induction x generalizing i with
      | nil => intro _; simp [colonsFrom]
      | cons d x ih =>
        intro h
        rw [List.mem_cons, not_or] at h
        rw [List.cons_append, colonsFrom, if_neg (fun e => h.1 e.symm), ih _ h.2]
        simp
        constructor
        · omega
        · congr 1; omega
    rw [colons, h1 0 a _ ha, h1 _ b _ hb, colonsFrom_none _ _ hc]
    simp
  have hw : walk (a ++ ':' :: (b ++ ':' :: c)) [a.length, a.length + 1 + b.length] ([], 0) =
      ([(c.take a.length), b, a].filter (· ≠ []), a.length + 1 + b.length + 1) := by
    simp only [walk, List.drop_zero]
    have h1 : (a ++ ':' :: (b ++ ':' :: c)).take a.length = a := by simp
    have h2 : ((a ++ ':' :: (b ++ ':' :: c)).drop (a.length + 1)).take (a.length + 1 + b.length) =
        b ++ ':' :: c.take a.length := by
      rw [List.drop_append]
      simp only [Nat.le_add_right, List.drop_of_length_le, List.nil_append, Nat.add_sub_cancel_left, List.drop_succ_cons,
        List.drop_zero]
      rw [show a.length + 1 + b.length = b.length + (a.length + 1) by omega, List.take_length_add_append]
      simp
    rw [h1, h2, if_pos (List.length_pos_iff.mpr hna), if_pos (by simp; omega)]
    have hct : ':' ∉ c.take a.length := fun h => hc (List.mem_of_mem_take h)
    simp only [child, pieces_plain _ ha, pieces_append _ _ hct, pieces_plain _ hb]
    have hne : c.take a.length ≠ [] := by
      intro h
      have := congrArg List.length h
      rw [List.length_take] at this
      have h1 := List.length_pos_iff.mpr hna
      have h2 := List.length_pos_iff.mpr hnc
      simp only [List.length_nil] at this
      omega
    simp [hna, hnb, hne]
  unfold findOption
  rw [hcol, if_neg (by simp)]
  simp only [hw]
  have hne : c.take a.length ≠ [] := by
    intro h
    have := congrArg List.length h
    rw [List.length_take] at this
    have h1 := List.length_pos_iff.mpr hna
    have h2 := List.length_pos_iff.mpr hnc
    simp only [List.length_nil] at this
    omega
  have : (⟨[(([b, a], c), v)]⟩ : Tree).val ([c.take a.length, b, a].filter (· ≠ []))
      ((a ++ ':' :: (b ++ ':' :: c)).drop (a.length + 1 + b.length + 1)) = none := by
    rw [val_ne]
    · rfl
    · intro h
      have := congrArg List.length h
      simp [hna, hnb, hne] at this
  rw [this]

/-- Finding: whether a qualified name is found depends on what has been parsed before.  With `b` set in the root only,
parsing `s:b` throws, but not after `b` has been parsed in section `s`. -/
theorem C67_qualified_violated (he : EnvOk env) {s b c : Chars} (hs : s ≠ []) (hcs : ':' ∉ s) (hcb : ':' ∉ b)
    (hsb : Plain env (s ++ ':' :: b)) (hb : Plain env b) (hpc : Plain env c) (hga : env.gen (s ++ ':' :: b) = none)
    (hgb : env.gen b = none) {g : Gen R} {f : List (Gen R) → Except Err (Gen R)} (hg : env.gen c = some f)
    (hf : f [] = .ok g) (hbh : '#' ∉ b) (hsh : '#' ∉ s) :
    (∃ e st, parse env ⟨[(([], b), c)]⟩ (s ++ ':' :: b) (some []) ⟨[], [], []⟩ = some (.error e, st)) ∧
    ∃ st st', parse env ⟨[(([], b), c)]⟩ b (some [s]) ⟨[], [], []⟩ = some (.ok g, st) ∧
      parse env ⟨[(([], b), c)]⟩ (s ++ ':' :: b) (some []) st = some (.ok g, st') := by
  have hcol : ':' ∈ s ++ ':' :: b := by simp
  have hk : keyOf [] (s ++ ':' :: b) = s ++ ':' :: b := by rw [keyOf, if_pos hcol]
  have hcount : (s ++ ':' :: b).count ':' ≤ 1 := by
    rw [List.count_append, List.count_cons_self, List.count_eq_zero_of_not_mem hcs, List.count_eq_zero_of_not_mem hcb]
  have hown : own ⟨[(([], b), c)]⟩ [] (s ++ ':' :: b) = none := by
    obtain ⟨x, y, h1, h2, h3, h4, h5⟩ := one_colon hcount hcol
    have hxy : x = s ∧ y = b := by
      have e1 := pieces_append x y h3
      rw [← h1, pieces_append s b hcb, pieces_plain _ h2, pieces_plain _ hcs] at e1
      simp at e1
      exact ⟨e1.1.symm, e1.2.symm⟩
    rw [own, if_pos hcol, ref_colon h1 h4 h5, hxy.1, hxy.2, if_neg hs]
    simp only
    rw [val_ne (by simp)]
    rfl
  constructor
  · refine ⟨.parse "Cannot find variable", ⟨[], [], []⟩, parse_name_error he hsb hga (some []) _ (by simp) ?_⟩
    rw [resolve]
    simp only [List.lookup_nil, Option.getD]
    rw [if_neg (by simp), findOption_own _ _ hcount, hown]
  · have hfind : findUp ⟨[(([], b), c)]⟩ b [s] = some ([], c) := by
      rw [findUp, val_ne (by simp)]
      simp [findUp, Tree.val]
    have hr := resolve_gen he (t := ⟨[(([], b), c)]⟩) (n := b) hcb hpc hg hf (st := ⟨[], [], [s]⟩) (s := []) (by simp)
      (by simp) hfind (by simp)
    rw [show keyOf (⟨[], [], [s]⟩ : St R).options b = s ++ ':' :: b from keyOf_one hcb hs] at hr
    have h1 := parse_name he hb hgb (some [s]) ⟨[], [], []⟩ (by simp) hr
    have hr2 : resolve env ⟨[(([], b), c)]⟩ (s ++ ':' :: b)
        ⟨[(textKey (some [s]) b, g), (s ++ ':' :: b, g), (textKey (some []) c, g)], [], []⟩ =
        some (.ok g, ⟨[(textKey (some [s]) b, g), (s ++ ':' :: b, g), (textKey (some []) c, g)], [], []⟩) := by
      rw [resolve]
      have a1 : (s ++ ':' :: b == textKey (some [s]) b) = false := by
        simp only [textKey, str, if_true, beq_eq_false_iff_ne, ne_eq]
        intro h
        simp at h
      simp only [hk, List.lookup_cons, a1, beq_self_eq_true]
    refine ⟨_, _, h1, parse_name he hsb hga (some []) _ ?_ hr2⟩
    have a1 : (textKey (some []) (s ++ ':' :: b) == textKey (some [s]) b) = false := by
      simp only [textKey, str, if_true, List.nil_append, beq_eq_false_iff_ne, ne_eq]
      intro h
      cases s with
      | nil => exact hs rfl
      | cons d s => simp only [List.cons_append, List.cons.injEq] at h; rw [← h.1] at hsh; simp at hsh
    have a2 : (textKey (some []) (s ++ ':' :: b) == s ++ ':' :: b) = false := by
      simp only [textKey, str, List.nil_append, beq_eq_false_iff_ne, ne_eq]
      intro h
      have := congrArg List.length h
      simp at this
    have a3 : (textKey (some []) (s ++ ':' :: b) == textKey (some []) c) = false := by
      simp only [textKey, str, List.nil_append, beq_eq_false_iff_ne, ne_eq]
      intro h
      simp only [List.cons.injEq, true_and] at h
      rw [← h, hga] at hg
      cases hg
    simp only [List.lookup_cons, a1, a2, a3, List.lookup_nil]

/-- Finding: with no section given, the text is read in the section the factory was created for, but filed as if it had
been read in the root: parsing it in the root then returns the other meaning. -/
theorem C67_default_section_violated (he : EnvOk env) {s b c d : Chars} (hs : s ≠ []) (hcb : ':' ∉ b)
    (hb : Plain env b) (hpc : Plain env c) (hgb : env.gen b = none) {g g' : Gen R}
    {f : List (Gen R) → Except Err (Gen R)} (hg : env.gen c = some f) (hf : f [] = .ok g)
    (hpd : Plain env d) {f' : List (Gen R) → Except Err (Gen R)} (hg' : env.gen d = some f') (hf' : f' [] = .ok g') :
    Means Denotes (own ⟨[(([s], b), c), (([], b), d)]⟩) env 2 [] b g' ∧
    ∃ st, parse env ⟨[(([s], b), c), (([], b), d)]⟩ b none ⟨[], [], [s]⟩ = some (.ok g, st) ∧
      parse env ⟨[(([s], b), c), (([], b), d)]⟩ b (some []) st = some (.ok g, st) := by
  constructor
  · refine ⟨fun n => if n = b then .ok (some g') else .error .number, name_denotes hb hgb (by simp), ?_⟩
    intro n k hn
    by_cases h : n = b
    · subst h
      simp at hn
      subst hn
      refine ⟨[], d, by rw [own, if_neg hcb, findUp, val_ne (by simp)]; simp [Tree.val], ?_⟩
      exact ⟨fun n => .error .number, gen_denotes hpd hg' hf', by intro n g' h; simp at h⟩
    · simp [h] at hn
  · have hfind : findUp ⟨[(([s], b), c), (([], b), d)]⟩ b [s] = some ([s], c) := by
      simp [findUp, Tree.val, List.lookup_cons]
    have hr := resolve_gen he (t := ⟨[(([s], b), c), (([], b), d)]⟩) (n := b) hcb hpc hg hf (st := ⟨[], [], [s]⟩)
      (s := [s]) (by simp) (by simp) hfind (by simp)
    have h1 := parse_name he hb hgb none ⟨[], [], [s]⟩ (by simp) hr
    refine ⟨_, h1, ?_⟩
    rw [parse]
    simp [textKey, str, List.lookup_cons]

/-- Finding: a change of the options has no effect on texts already parsed, unless `cleanCache` is called. -/
theorem C67_stale_violated (he : EnvOk env) {b c d : Chars} (hcb : ':' ∉ b) (hb : Plain env b) (hpc : Plain env c)
    (hgb : env.gen b = none) {g g' : Gen R} {f : List (Gen R) → Except Err (Gen R)} (hg : env.gen c = some f)
    (hf : f [] = .ok g) (hpd : Plain env d) {f' : List (Gen R) → Except Err (Gen R)} (hg' : env.gen d = some f')
    (hf' : f' [] = .ok g') :
    Means Denotes (own ⟨[(([], b), d)]⟩) env 2 [] b g' ∧
    ∃ st, parse env ⟨[(([], b), c)]⟩ b (some []) ⟨[], [], []⟩ = some (.ok g, st) ∧
      parse env ⟨[(([], b), d)]⟩ b (some []) st = some (.ok g, st) := by
  constructor
  · refine ⟨fun n => if n = b then .ok (some g') else .error .number, name_denotes hb hgb (by simp), ?_⟩
    intro n k hn
    by_cases h : n = b
    · subst h
      simp at hn
      subst hn
      refine ⟨[], d, by simp [own, hcb, findUp, Tree.val], ?_⟩
      exact ⟨fun n => .error .number, gen_denotes hpd hg' hf', by intro n g' h; simp at h⟩
    · simp [h] at hn
  · have hr := resolve_gen he (t := ⟨[(([], b), c)]⟩) (n := b) hcb hpc hg hf (st := ⟨[], [], []⟩)
      (s := []) (by simp) (by simp) (by simp [findUp, Tree.val]) (by simp)
    have h1 := parse_name he hb hgb (some []) ⟨[], [], []⟩ (by simp) hr
    refine ⟨_, h1, ?_⟩
    rw [parse]
    simp

/-! ## Concrete cases -/

/-- The standard characters and operators, with one registered generator, `pi`. -/
def exEnv : Env Int where
  reserved := stdReserved
  prec := stdPrec
  gen n := if n = "pi".toList then some fun _ => .ok (.val 3) else none
  resolve _ := .ok none
  stod _ := none

theorem exEnv_ok : EnvOk exEnv where
  reserved := by decide
  backslash := by decide
  notOp := by decide
  nonneg := by
    intro c p h
    simp only [exEnv, stdPrec] at h
    split at h
    · cases h; decide
    · split at h
      · cases h; decide
      · split at h
        · cases h; decide
        · cases h

theorem exEnv_gens : GensOk exEnv := by
  intro s f a m h
  simp only [exEnv] at h
  split at h
  · cases h; simp
  · cases h

theorem exPlain (c : Char) (h : c ∉ stdReserved ∧ isSpace c = false ∧ c ≠ '\\' ∧ c ≠ '`')
    (hd : isDigit c = false ∧ c ≠ '.') : Plain exEnv [c] :=
  ⟨by intro d hd; simp only [List.mem_singleton] at hd; subst hd; exact h, by simp, c, [], rfl, hd⟩

/-- `a = b`, `b = pi`: the text `a` has a meaning ... -/
def exTree : Tree := ⟨[(([], ['a']), ['b']), (([], ['b']), "pi".toList)]⟩

theorem exTree_ok : TreeOk exEnv exTree := by
  intro e he
  simp only [exTree, List.mem_cons, List.not_mem_nil, or_false] at he
  rcases he with rfl | rfl
  · exact ⟨by intro a h; simp at h, by unfold TextOk NameOk; decide⟩
  · exact ⟨by intro a h; simp at h, by unfold TextOk NameOk; decide⟩

/-- ... which a new factory finds. -/
example : ∃ st', parse exEnv exTree ['a'] (some []) ⟨[], [], []⟩ = some (.ok (.val 3), st') := by
  have hpi : Plain exEnv "pi".toList := ⟨by decide, by decide, 'p', ['i'], rfl, by decide, by decide⟩
  obtain ⟨_, _, _, hm, _⟩ := C67_after_exception_violated exEnv_ok (exPlain 'a' (by decide) (by decide))
    (exPlain 'b' (by decide) (by decide)) hpi (by decide) (by decide) (by decide) rfl rfl
    (g := .val 3) (f := fun _ => .ok (.val 3)) rfl rfl
  exact C67_finds_meaning exEnv_ok exEnv_gens (.created exTree [] exTree_ok) rfl
    (by unfold TextOk NameOk; decide) (by intro a h; simp at h) hm

/-- `a = b`, `b = a`: an exception. -/
example : ∃ e st', parse exEnv ⟨[(([], ['a']), ['b']), (([], ['b']), ['a'])]⟩ ['a'] (some []) ⟨[], [], []⟩ =
    some (.error e, st') := by
  have ha := exPlain 'a' (by decide) (by decide)
  have hb := exPlain 'b' (by decide) (by decide)
  refine C67_circular exEnv_gens (.created _ [] ?_) (fun p x => p = [] ∧ (x = ['a'] ∨ x = ['b'])) ?_
    (by unfold TextOk NameOk; decide) (by intro a h; simp at h) ⟨rfl, .inl rfl⟩
  · intro e he
    simp only [List.mem_cons, List.not_mem_nil, or_false] at he
    rcases he with rfl | rfl
    · exact ⟨by intro a h; simp at h, by unfold TextOk NameOk; decide⟩
    · exact ⟨by intro a h; simp at h, by unfold TextOk NameOk; decide⟩
  · rintro p x ⟨rfl, hx⟩ ρ g hp
    rcases hx with rfl | rfl
    · obtain ⟨g', hg'⟩ := name_needs exEnv_ok ha rfl hp
      refine ⟨['a'], g', hg', fun s y h => ?_⟩
      have h2 : inherited ⟨[(([], ['a']), ['b']), (([], ['b']), ['a'])]⟩ [] ['a'] = some ([], ['b']) := by decide
      rw [h2] at h
      cases h
      exact ⟨rfl, .inr rfl⟩
    · obtain ⟨g', hg'⟩ := name_needs exEnv_ok hb rfl hp
      refine ⟨['b'], g', hg', fun s y h => ?_⟩
      have h2 : inherited ⟨[(([], ['a']), ['b']), (([], ['b']), ['a'])]⟩ [] ['b'] = some ([], ['a']) := by decide
      rw [h2] at h
      cases h
      exact ⟨rfl, .inl rfl⟩

end Verif.Expr.Fac
