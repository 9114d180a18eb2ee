import Verif.Expr.FactoryTerm
/-!
# C67: expressions in the options

What `FieldFactory::parse` returns, in every state the factory can get into.
-/
namespace Verif.Expr.Fac
open Verif.Str (Chars)
open Verif.Expr
variable {R : Type} [Zero R] {env : Env R} {t : Tree}

/-- The states a factory can be in, with the options tree of the moment: created in some section; after any call of
`parse`, successful or not; after the options have been changed and `cleanCache` called. -/
inductive Reached (env : Env R) : Tree → St R → Prop where
  | created (t : Tree) (p : Path) (ht : TreeOk env t) : Reached env t ⟨[], [], p⟩
  | parsed (t : Tree) (st : St R) (x : Chars) (p : Path) (r : Except Err (Gen R) × St R) (h : Reached env t st)
      (hx : TextOk env x) (hp : PathOk p) (hr : parse env t x (some p) st = some r) : Reached env t r.2
  | changed (t t' : Tree) (st : St R) (h : Reached env t st) (ht : TreeOk env t') : Reached env t' (cleanCache st)

theorem reached_ok (hna : GensOk env) {t : Tree} {st : St R} (h : Reached env t st) : TreeOk env t ∧ CacheOk env t st := by
  induction h with
  | created t p ht => exact ⟨ht, by intro k g hk; simp at hk⟩
  | parsed t st x p r _ hx hp hr ih => exact ⟨ih.1, ((sound hna ih.1).2.1 x _ st r hr p rfl hx hp ih.2).1⟩
  | changed t t' st _ ht _ => exact ⟨ht, by intro k g hk; simp [cleanCache] at hk⟩

/-- Whatever has been parsed before, and whether or not it threw: if `parse` returns a generator, this is what the text
means in its section, with every name standing for the option it names, to any depth.  (A qualified name may be found in
an enclosing section: see `C67_qualified_violated`.) -/
theorem C67_returns_meaning (hna : GensOk env) {st st' : St R} (hst : Reached env t st) {x : Chars} {p : Path}
    (hx : TextOk env x) (hp : PathOk p) {g : Gen R} (h : parse env t x (some p) st = some (.ok g, st')) :
    ∃ h, Means Parses (inherited t) env h p x g := by
  obtain ⟨ht, hc⟩ := reached_ok hna hst
  exact (((sound hna ht).2.1 x _ st _ h p rfl hx hp hc).2 g rfl).2.2

/-- What a text means is unique. -/
theorem C67_one_meaning {F : Path → Chars → Option (Path × Chars)} {h1 h2 : Nat} {p : Path} {x : Chars} {g1 g2 : Gen R}
    (a : Means Parses F env h1 p x g1) (b : Means Parses F env h2 p x g2) : g1 = g2 := means_unique a b

/-- So the generator returned does not depend on what the factory has done before. -/
theorem C67_history (hna : GensOk env) {st1 st2 st1' st2' : St R} (h1 : Reached env t st1) (h2 : Reached env t st2)
    {x : Chars} {p : Path} (hx : TextOk env x) (hp : PathOk p) {g1 g2 : Gen R}
    (e1 : parse env t x (some p) st1 = some (.ok g1, st1')) (e2 : parse env t x (some p) st2 = some (.ok g2, st2')) :
    g1 = g2 := by
  obtain ⟨_, a⟩ := C67_returns_meaning hna h1 hx hp e1
  obtain ⟨_, b⟩ := C67_returns_meaning hna h2 hx hp e2
  exact means_unique a b

omit [Zero R] in
theorem envOk_withR (he : EnvOk env) (ρ : Chars → Except Err (Option (Gen R))) : EnvOk (withR env ρ) :=
  ⟨he.reserved, he.backslash, he.notOp, he.nonneg⟩

/-- If the text has a meaning by the grammar of expressions, `parse` returns it, unless an exception has been thrown
before (see `C67_after_exception_violated`). -/
theorem C67_finds_meaning (he : EnvOk env) (hna : GensOk env) {st : St R} (hst : Reached env t st)
    (hl : st.lookup = []) {x : Chars} {p : Path} (hx : TextOk env x) (hp : PathOk p) {g : Gen R} {h : Nat}
    (hm : Means Denotes (own t) env h p x g) : ∃ st', parse env t x (some p) st = some (.ok g, st') := by
  obtain ⟨ht, hc⟩ := reached_ok hna hst
  have hP : Means Parses (own t) env h p x g :=
    hm.weaken (fun ρ y g' hd => C14_parse (envOk_withR he ρ) hd) (fun _ _ _ h => h)
  rw [parse]
  cases hl2 : st.cache.lookup (textKey (some p) x) with
  | some g0 =>
    obtain ⟨k, hk⟩ := cache_text hc hp hl2
    refine ⟨st, ?_⟩
    simp only
    rw [means_unique hk (hP.weaken (fun _ _ _ h => h) (fun _ _ _ => own_inherited))]
  | none =>
    obtain ⟨st', hr⟩ := complete_run hna ht h p x g hp hx hP { st with options := p } rfl hc (by
      rw [hl]; intro k hk; simp at hk)
    have hr' : run env t x [] { st with options := (some p).getD st.options } = some (.ok g, st') := hr
    simp only
    rw [hr']
    exact ⟨_, rfl⟩

/-- After a call that returns, the factory is ready for the next one. -/
theorem C67_ready {st st' : St R} {x : Chars} {opt : Option Path} {g : Gen R}
    (h : parse env t x opt st = some (.ok g, st')) : st'.lookup = st.lookup ∧ st'.options = st.options := by
  obtain ⟨h1, h2⟩ := restores.2.1 x opt st _ h g rfl
  exact ⟨h2, h1⟩

/-- Circular definitions: if reading any text of a collection needs a name that leads back into the collection, `parse`
throws for each of them. -/
theorem C67_circular (hna : GensOk env) {st : St R} (hst : Reached env t st) (C : Path → Chars → Prop)
    (hC : ∀ p x, C p x → ∀ ρ g, parseString (withR env ρ) x = pure g →
      ∃ n g', ρ n = .ok (some g') ∧ ∀ s y, inherited t p n = some (s, y) → C s y)
    {x : Chars} {p : Path} (hx : TextOk env x) (hp : PathOk p) (hcx : C p x) :
    ∃ e st', parse env t x (some p) st = some (.error e, st') := by
  have hno : ∀ (h : Nat) (p : Path) (x : Chars) (g : Gen R), C p x → ¬ Means Parses (inherited t) env h p x g := by
    intro h
    induction h with
    | zero => intro p x g _ hm; exact hm
    | succ h ih =>
      rintro p x g hc ⟨ρ, hD, hρ⟩
      obtain ⟨n, g', hn, hs⟩ := hC p x hc ρ g hD
      obtain ⟨s, y, hf, hm⟩ := hρ n g' hn
      exact ih s y g' (hs s y hf) hm
  obtain ⟨⟨res, st'⟩, hr⟩ := C67_terminates hna t x (some p) st
  cases res with
  | error e => exact ⟨e, st', hr⟩
  | ok g =>
    obtain ⟨h, hm⟩ := C67_returns_meaning hna hst hx hp hr
    exact absurd hm (hno h p x g hcx)

/-! ## Texts that are just a name -/

/-- A name that can be written as it is. -/
def Plain (env : Env R) (n : Chars) : Prop :=
  (∀ c ∈ n, c ∉ env.reserved ∧ isSpace c = false ∧ c ≠ '\\' ∧ c ≠ '`') ∧ n ≠ "sum".toList ∧
    ∃ c r, n = c :: r ∧ isDigit c = false ∧ c ≠ '.'

omit [Zero R] in
theorem plain_spelled {n : Chars} (h : Plain env n) : Spelled env [.sym n] n := by
  obtain ⟨h1, h2, c, r, hn, hd, hdot⟩ := h
  have hs : ∀ m : Chars, (∀ c ∈ m, c ∉ env.reserved ∧ isSpace c = false ∧ c ≠ '\\' ∧ c ≠ '`') →
      SymText env.reserved m m := by
    intro m
    induction m with
    | nil => intro _; exact .nil
    | cons c m ih =>
      intro hm
      obtain ⟨a1, a2, a3, a4⟩ := hm c List.mem_cons_self
      exact .plain c m m a1 a2 a3 a4 (ih fun d hd => hm d (List.mem_cons_of_mem _ hd))
  have := Spelled.cons (env := env) [] n [] (.sym n) [] (by simp)
    ⟨hs n h1, c, r, hn, hd, hdot, (h1 c (by rw [hn]; exact List.mem_cons_self)).2.1⟩ (by simp [Boundary]) (.nil [] (by simp))
  simpa using this

theorem name_denotes {n : Chars} (h : Plain env n) {g : Gen R} {ρ : Chars → Except Err (Option (Gen R))}
    (hg : env.gen n = none) (hr : ρ n = .ok (some g)) : Denotes (withR env ρ) n g :=
  ⟨[.sym n], [.sym n], plain_spelled (env := withR env ρ) h, rfl, .prim _ _ _ (.resolved n g h.2.1 hg hr)⟩

theorem gen_denotes {n : Chars} (h : Plain env n) {g : Gen R} {ρ : Chars → Except Err (Option (Gen R))}
    {f : List (Gen R) → Except Err (Gen R)} (hg : env.gen n = some f) (hf : f [] = .ok g) : Denotes (withR env ρ) n g :=
  ⟨[.sym n], [.sym n], plain_spelled (env := withR env ρ) h, rfl, .prim _ _ _ (.name n f g h.2.1 hg hf)⟩

theorem name_ask (he : EnvOk env) {n : Chars} (h : Plain env n) (hg : env.gen n = none) :
    parseString (withR env (known [])) n = throw (.ask n) := by
  have key : ∀ g : Gen R, parseString (withR env (known [])) n = pure g ∨
      parseString (withR env (known [])) n = throw (.ask n) := by
    intro g
    let ρ : Chars → Except Err (Option (Gen R)) := fun m => if m = n then .ok (some g) else .error .number
    have hp := C14_parse (envOk_withR he ρ) (name_denotes h hg (show ρ n = .ok (some g) by simp [ρ]))
    rcases parse_sim env n [] ρ (by simp) with hs | ⟨m, h1, h2, h3, h4⟩
    · left; rw [hs, hp]
    · right
      obtain ⟨g', hg'⟩ := h4 g hp
      have : m = n := by
        by_contra hne
        simp [ρ, hne] at hg'
      rw [h3, this]
  rcases key (.param []) with h1 | h1
  · rcases key (.param ['x']) with h2 | h2
    · rw [h1] at h2
      cases h2
    · exact h2
  · exact h1

/-- Such a text cannot be read without a meaning for the name. -/
theorem name_needs (he : EnvOk env) {n : Chars} (h : Plain env n) (hg : env.gen n = none)
    {ρ : Chars → Except Err (Option (Gen R))} {g : Gen R} (hp : parseString (withR env ρ) n = pure g) :
    ∃ g', ρ n = .ok (some g') := by
  rcases parse_sim env n [] ρ (by simp) with hs | ⟨m, h1, h2, h3, h4⟩
  · rw [name_ask he h hg, hp] at hs
    cases hs
  · rw [name_ask he h hg] at h3
    cases h3
    exact h4 g hp

/-- A text that is a registered generator. -/
theorem parse_gen (he : EnvOk env) {c : Chars} (h : Plain env c) {g : Gen R} {f : List (Gen R) → Except Err (Gen R)}
    (hg : env.gen c = some f) (hf : f [] = .ok g) (opt : Option Path) (st : St R)
    (hc : st.cache.lookup (textKey opt c) = none) :
    parse env t c opt st = some (.ok g, { st with cache := (textKey opt c, g) :: st.cache }) := by
  have hp := C14_parse (envOk_withR he (known [])) (gen_denotes (ρ := known []) h hg hf)
  rw [parse, hc]
  simp only
  rw [run, hp]
  rfl

/-- A text that is the name of an option. -/
theorem parse_name (he : EnvOk env) {n : Chars} (h : Plain env n) (hg : env.gen n = none) (opt : Option Path) (st : St R)
    (hc : st.cache.lookup (textKey opt n) = none) {g : Gen R} {st' : St R}
    (hr : resolve env t n { st with options := opt.getD st.options } = some (.ok g, st')) :
    parse env t n opt st =
      some (.ok g, { st' with cache := (textKey opt n, g) :: st'.cache, options := st.options }) := by
  have hp : parseString (withR env (known [(n, g)])) n = pure g :=
    C14_parse (envOk_withR he _) (name_denotes h hg (by simp [known]))
  have hrun : run env t n [] { st with options := opt.getD st.options } = some (.ok g, st') := by
    rw [run, name_ask he h hg]
    have : (throw (Err.ask n) : P (Gen R)).run = some (.error (.ask n)) := rfl
    simp only [this, bind, Option.bind, hr]
    rw [run, hp]
    rfl
  rw [parse, hc]
  simp only
  rw [hrun]
  rfl

theorem parse_name_error (he : EnvOk env) {n : Chars} (h : Plain env n) (hg : env.gen n = none) (opt : Option Path)
    (st : St R) (hc : st.cache.lookup (textKey opt n) = none) {e : Err} {st' : St R}
    (hr : resolve env t n { st with options := opt.getD st.options } = some (.error e, st')) :
    parse env t n opt st = some (.error e, st') := by
  have hrun : run env t n [] { st with options := opt.getD st.options } = some (.error e, st') := by
    rw [run, name_ask he h hg]
    have : (throw (Err.ask n) : P (Gen R)).run = some (.error (.ask n)) := rfl
    simp only [this, bind, Option.bind, hr]
  rw [parse, hc]
  simp only
  rw [hrun]
  rfl

end Verif.Expr.Fac
