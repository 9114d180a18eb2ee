import Verif.Expr.Eval
/-!
# C15 and C41: values of expressions
-/
namespace Verif.Expr
open Verif.Str (Chars)
open scoped Classical

/-- The value a string has: it parses, and the generator evaluates to `v`. -/
def Value (env : Env ℝ) (fns : Fns) (ctx : Ctx) (s : Chars) (v : ℝ) : Prop :=
  ∃ g, parseString env s = pure g ∧ eval fns g ctx = .ok v

/-- The text spells an expression all of whose operators outside brackets bind more tightly than `-`, with tree `g`. -/
def Tight (env : Env ℝ) (s : Chars) (g : Gen ℝ) : Prop :=
  ∃ p items ts, env.prec '-' = some p ∧ Spelled env items s ∧ tokens env false items = some ts ∧ Expr env (p + 1) ts g

theorem text_ch {env : Env ℝ} (hok : EnvOk env) (c : Char) (hc : c ∈ "+-*/^[](),=".toList) : Text env (.ch c) [c] := by
  have hmem : c ∈ "+-*/^[](){},=".toList := by
    revert hc
    have : ∀ c ∈ "+-*/^[](),=".toList, c ∈ "+-*/^[](){},=".toList := by decide
    exact this c
  refine ⟨rfl, hok.reserved c hmem, ?_⟩
  have : ∀ c ∈ "+-*/^[](),=".toList, c ≠ '`' ∧ c ≠ '{' ∧ isDigit c = false ∧ c ≠ '.' ∧ isSpace c = false := by decide
  exact this c hc

theorem spelled_ch {env : Env ℝ} (hok : EnvOk env) (c : Char) (hc : c ∈ "+-*/^[](),=".toList) {items : List Item}
    {s : Chars} (h : Spelled env items s) : Spelled env (.ch c :: items) (c :: s) := by
  have := Spelled.cons [] [c] s (.ch c) items (by simp) (text_ch hok c hc) trivial h
  simpa using this

theorem tokens_ch {env : Env ℝ} (c : Char) {items : List Item} {ts : List (Tok ℝ)}
    (h : tokens env false items = some ts) : tokens env false (.ch c :: items) = some (.ch c :: ts) := by
  simp [tokens, h]

/-- A minus sign in front of an expression (of tighter-binding operators: products, powers, brackets) gives the negated
value. -/
theorem C15_leading_minus_partial {env : Env ℝ} (hok : EnvOk env) {s : Chars} {g : Gen ℝ} (h : Tight env s g) (fns : Fns)
    (ctx : Ctx) (v : ℝ) (hv : eval fns g ctx = .ok v) : Value env fns ctx ('-' :: s) (-v) := by
  obtain ⟨p, items, ts, hp, h1, h2, h3⟩ := h
  refine ⟨.bin '-' (.val 0) g, C14_parse hok ⟨.ch '-' :: items, .ch '-' :: ts, spelled_ch hok '-' (by decide) h1,
    tokens_ch '-' h2, .neg 0 p ts g hp (hok.nonneg _ _ hp) h3⟩, ?_⟩
  simp [eval, hv, applyOp]

/-- Likewise in brackets, wherever those occur: `(-e)` is a primary whose value is the negated value of `e`. -/
theorem C15_minus_in_brackets {env : Env ℝ} (hok : EnvOk env) {p : ℤ} (hp : env.prec '-' = some p) {ts : List (Tok ℝ)}
    {g : Gen ℝ} (h : Expr env (p + 1) ts g) : ∃ g', Prim env ([.ch '('] ++ ([.ch '-'] ++ ts) ++ [.ch ')']) g' ∧
      ∀ fns ctx v, eval fns g ctx = .ok v → eval fns g' ctx = .ok (-v) :=
  ⟨.bin '-' (.val 0) g, .paren _ _ (.neg 0 p ts g hp (hok.nonneg _ _ hp) h), by
    intro fns ctx v hv; simp [eval, hv, applyOp]⟩

/-- The tokens of a number followed by something that multiplies implicitly are those of the explicit product. -/
theorem tokens_implicit {env : Env ℝ} (i : Item) (hi : (∃ n, i = .sym n) ∨ (∃ n, i = .par n) ∨ i = .ch '(') (t : Chars)
    (b : List Item) : ∀ (a : List Item) (prev : Bool),
    tokens env prev (a ++ .num t :: i :: b) = tokens env prev (a ++ .num t :: .ch '*' :: i :: b) := by
  intro a
  induction a with
  | nil =>
    intro prev
    have : tokens env true (i :: b) = tokens env true (.ch '*' :: i :: b) := by
      rcases hi with ⟨n, rfl⟩ | ⟨n, rfl⟩ | rfl <;>
      · simp only [tokens]
        cases tokens env false b <;> simp
    simp only [List.nil_append]
    unfold tokens
    rw [this]
  | cons x a ih =>
    intro prev
    cases x <;> simp only [List.cons_append, tokens, ih]

/-- A number directly followed by a name, a {parameter} or an opening parenthesis multiplies it: the string parses just
as the one with an explicit `*` between them. -/
theorem C15_implicit_multiplication {env : Env ℝ} (hok : EnvOk env) (a b : List Item) (t : Chars) (i : Item)
    (hi : (∃ n, i = .sym n) ∨ (∃ n, i = .par n) ∨ i = .ch '(') (s s' : Chars)
    (hs : Spelled env (a ++ .num t :: i :: b) s) (hs' : Spelled env (a ++ .num t :: .ch '*' :: i :: b) s')
    (ts : List (Tok ℝ)) (g : Gen ℝ) (ht : tokens env false (a ++ .num t :: .ch '*' :: i :: b) = some ts)
    (hg : Expr env 0 ts g) : parseString env s = pure g ∧ parseString env s' = pure g :=
  ⟨C14_parse hok ⟨_, ts, hs, by rw [tokens_implicit i hi]; exact ht, hg⟩, C14_parse hok ⟨_, ts, hs', ht, hg⟩⟩

/-- Violation: a minus sign after a binary operator of the same or a tighter precedence does not negate its operand. For
all primaries `a` and `b`, the text of `a op -b` parses as `(a op 0) - b`. -/
theorem C15_minus_after_operator_violated {env : Env ℝ} (hok : EnvOk env) (c : Char) (p q : ℤ) (hp : env.prec c = some p)
    (hq : env.prec '-' = some q) (hpq : q ≤ p) (t1 t2 : List (Tok ℝ)) (a b : Gen ℝ) (ha : Prim env t1 a)
    (hb : Prim env t2 b) (items : List Item) (s : Chars) (hs : Spelled env items s)
    (ht : tokens env false items = some (t1 ++ .ch c :: .ch '-' :: t2)) :
    parseString env s = pure (.bin '-' (.bin c a (.val 0)) b) := by
  obtain ⟨l, hl, htk⟩ := lexer_ok hok hs (lexInit s) _ rfl (by simpa [lexInit] using ht)
  obtain ⟨l1, e1, s1⟩ := (grammar_ok hok).1 t1 a ha l _ p htk (.inr ⟨c, _, rfl, .inr (.inr (.inr ⟨p, hp, le_refl _⟩))⟩)
  obtain ⟨c1, l2, n2, s2⟩ := toks_cons s1
  obtain ⟨c2, l3, n3, s3⟩ := toks_cons s2
  obtain ⟨l4, e4, s4⟩ := (grammar_ok hok).1 t2 b hb l3 [] 0 (by simpa using s3) (.inl rfl)
  simp only [HasTok] at c1 c2
  have hend := toks_nil s4
  have hfm : findOp env (.ch '-') = some ('-', q) := by simp [findOp, hq]
  have step1 : (parsePrimary env l2 >>= fun r => parseRHS env (p + 1) r.1 r.2) = pure (.val 0, l2) := by
    rw [parsePrimary, c2]
    simp only [if_true, bind_ok]
    rw [parseRHS, c2, if_neg (by decide), hfm]
    simp only
    rw [if_pos (by omega)]
  have step2 : (parsePrimary env l3 >>= fun r => parseRHS env (q + 1) r.1 r.2) = pure (b, l4) := by
    rw [e4, bind_ok]
    exact rhs_end (by rw [hend]; rfl) b
  have hexpr : parseExpr env l = pure (.bin '-' (.bin c a (.val 0)) b, l4) := by
    rw [parseExpr, e1, bind_ok,
      rhs_step c1 (op_not_end hok hp) hp (hok.nonneg _ _ hp) n2 step1,
      rhs_step c2 (op_not_end hok hq) hq (hok.nonneg _ _ hq) n3 step2]
    exact rhs_end (by rw [hend]; rfl) _
  unfold parseString
  rw [next_ok hl, bind_ok, hexpr, bind_ok]
  simp only [hend, if_true]

/-! ### The standard parser -/

/-- A stand-in for `std::stod` on digit strings. -/
def natOf (s : Chars) : ℕ := s.foldl (fun n c => 10 * n + (c.toNat - 48)) 0

/-- The parser as constructed (expressionparser.cxx:208-221) with `std::stod` restricted to digit strings. -/
noncomputable def stdEnv : Env ℝ where
  reserved := stdReserved
  prec := stdPrec
  gen := fun s => if s = ['x'] ∨ s = ['y'] ∨ s = ['z'] ∨ s = ['t'] then some (fun _ => .ok (.ext s [])) else none
  resolve := fun _ => .ok none
  stod := fun s => if s.all isDigit then some (natOf s : ℝ) else none

theorem stdEnv_ok : EnvOk stdEnv where
  reserved := by decide
  backslash := by decide
  notOp := by decide
  nonneg := by
    intro c p h
    simp only [stdEnv, stdPrec] at h
    split at h
    · cases h; decide
    · split at h
      · cases h; decide
      · split at h
        · cases h; decide
        · simp at h

theorem digits_text (n : Chars) (hn : n ≠ []) (h : ∀ c ∈ n, isDigit c = true) : NumText n n :=
  ⟨n, [], [], [], h, .inl rfl, by simpa using hn, .inl ⟨rfl, rfl⟩, by simp, by simp⟩

/-- Violation, concretely: `2*-3` has the value -3 instead of -6, and `2--3` the value -1 instead of 5. -/
theorem C15_two_times_minus_three_violated (fns : Fns) (ctx : Ctx) :
    Value stdEnv fns ctx "2*-3".toList (-3) ∧ Value stdEnv fns ctx "2--3".toList (-1) := by
  have hd : ∀ (d : Char), isDigit d = true → ∀ (s : Chars) (items : List Item),
      (∀ c, s.head? = some c → isDigit c = false ∧ c ≠ '.' ∧ c ≠ 'e' ∧ c ≠ 'E') → Spelled stdEnv items s →
      Spelled stdEnv (.num [d] :: items) (d :: s) := by
    intro d hd s items hs h
    have := Spelled.cons [] [d] s (.num [d]) items (by simp) (digits_text [d] (by simp) (by simpa using hd)) hs h
    simpa using this
  have h3 : Spelled stdEnv [.num ['3']] ['3'] := hd '3' (by decide) [] [] (by simp) (.nil [] (by simp))
  have hm3 := spelled_ch stdEnv_ok '-' (by decide) h3
  have hv2 : stdEnv.stod ['2'] = some (2 : ℝ) := by simp [stdEnv, natOf, show isDigit '2' = true by decide]
  have hv3 : stdEnv.stod ['3'] = some (3 : ℝ) := by simp [stdEnv, natOf, show isDigit '3' = true by decide]
  constructor
  · have hs := hd '2' (by decide) _ _ (by simp; decide) (spelled_ch stdEnv_ok '*' (by decide) hm3)
    refine ⟨_, C15_minus_after_operator_violated stdEnv_ok '*' 20 10 (by rfl) (by rfl) (by omega) [.num 2] [.num 3] _ _
      (.num 2) (.num 3) _ _ hs (by simp [tokens, hv2, hv3]), ?_⟩
    simp [eval, applyOp]
  · have hs := hd '2' (by decide) _ _ (by simp; decide) (spelled_ch stdEnv_ok '-' (by decide) hm3)
    refine ⟨_, C15_minus_after_operator_violated stdEnv_ok '-' 10 10 (by rfl) (by rfl) (by omega) [.num 2] [.num 3] _ _
      (.num 2) (.num 3) _ _ hs (by simp [tokens, hv2, hv3]), ?_⟩
    simp [eval, applyOp]
    norm_num

/-! ### C41: sums, scopes and selection functions -/

theorem sumLoop_ok (f : ℕ → Except EvErr ℝ) (v : ℕ → ℝ) : ∀ n, (∀ i < n, f i = .ok (v i)) →
    sumLoop f n = .ok (∑ i ∈ Finset.range n, v i)
  | 0, _ => by simp [sumLoop]
  | n + 1, h => by
    rw [sumLoop, sumLoop_ok f v n (fun i hi => h i (by omega)), h n (by omega), Finset.sum_range_succ]

theorem roundInt_near (x : ℝ) (n : ℕ) (h : |x - n| ≤ 1 / 10000) : roundInt x = n := by
  obtain ⟨h1, h2⟩ := abs_le.mp h
  unfold roundInt
  by_cases hx : x > 0
  · rw [if_pos hx]
    unfold truncInt
    rw [if_pos (by linarith), Int.floor_eq_iff]
    constructor
    · push_cast; linarith
    · push_cast; linarith
  · rw [if_neg hx]
    have hn : n = 0 := by
      by_contra hne
      have : (1 : ℝ) ≤ n := by exact_mod_cast Nat.one_le_iff_ne_zero.mpr hne
      linarith
    subst hn
    unfold truncInt
    rw [if_neg (by linarith), Int.ceil_eq_iff]
    constructor
    · push_cast; push_cast at h1; linarith
    · push_cast; linarith

/-- `sum(i, n, e)` is the sum of `e` for `{i}` = 0, ..., n-1, whatever `{i}` was outside; counts within 1e-4 of the
integer are accepted. -/
theorem C41_sum (fns : Fns) (ctx : Ctx) (i : Chars) (c e : Gen ℝ) (cv : ℝ) (n : ℕ) (v : ℕ → ℝ)
    (hc : eval fns c ctx = .ok cv) (hn : |cv - n| ≤ 1 / 10000)
    (he : ∀ k < n, eval fns e (ctx.set i k) = .ok (v k)) :
    eval fns (.sum i c e) ctx = .ok (∑ k ∈ Finset.range n, v k) := by
  have hr := roundInt_near cv n hn
  rw [eval, hc]
  simp only [hr]
  rw [if_neg (by push_cast; exact not_lt.mpr hn), if_neg (by simp)]
  simpa using sumLoop_ok _ v n he

/-- A count that is negative or not within 1e-4 of an integer is an error. -/
theorem C41_sum_bad_count (fns : Fns) (ctx : Ctx) (i : Chars) (c e : Gen ℝ) (cv : ℝ) (hc : eval fns c ctx = .ok cv)
    (hn : ∀ n : ℕ, 1 / 10000 < |cv - n|) : eval fns (.sum i c e) ctx = .error .badCount := by
  rw [eval, hc]
  simp only
  by_cases h1 : |cv - (roundInt cv : ℝ)| > 1 / 10000
  · rw [if_pos h1]
  · rw [if_neg h1]
    by_cases h2 : roundInt cv < 0
    · rw [if_pos h2]
    · exfalso
      have := hn (roundInt cv).toNat
      have he : (((roundInt cv).toNat : ℕ) : ℝ) = (roundInt cv : ℝ) := by
        have : (((roundInt cv).toNat : ℕ) : ℤ) = roundInt cv := Int.toNat_of_nonneg (by omega)
        exact_mod_cast this
      rw [he] at this
      exact h1 this

/-- The last definition of a name in a list of values. -/
def lastDef (n : Chars) : List (Chars × ℝ) → Option ℝ
  | [] => none
  | (m, v) :: vs => match lastDef n vs with
    | some w => some w
    | none => if n = m then some v else none

theorem evalVars_ok (fns : Fns) (ctx : Ctx) : ∀ (vars : List (Chars × Gen ℝ)) (vals : List ℝ) (c' : Ctx),
    vars.length = vals.length → (∀ p ∈ vars.zip vals, eval fns p.1.2 ctx = .ok p.2) →
    evalVars fns vars ctx c' = .ok (fun n => match lastDef n ((vars.map (·.1)).zip vals) with
      | some w => some w
      | none => c' n)
  | [], [], c', _, _ => by simp [evalVars, lastDef]
  | [], _ :: _, _, h, _ => by simp at h
  | _ :: _, [], _, h, _ => by simp at h
  | p :: vars, v :: vals, c', h, hv => by
    have h1 := hv (p, v) (by simp)
    rw [evalVars, h1]
    simp only
    rw [evalVars_ok fns ctx vars vals _ (by simpa using h) (fun q hq => hv q (by simp [hq]))]
    congr 1
    funext n
    simp only [List.map_cons, List.zip_cons_cons, lastDef]
    cases lastDef n ((vars.map (·.1)).zip vals) with
    | some w => rfl
    | none =>
      by_cases hn : n = p.1
      · simp [Ctx.set, hn]
      · simp [Ctx.set, hn]

/-- `[a=e1, b=e2, ...](e)` evaluates `e` where each name has the value its definition has *outside*: the definitions do
not see each other, the last definition of a name wins, all other names keep their outer value. -/
theorem C41_context (fns : Fns) (ctx : Ctx) (vars : List (Chars × Gen ℝ)) (e : Gen ℝ) (vals : List ℝ)
    (hl : vars.length = vals.length) (hv : ∀ p ∈ vars.zip vals, eval fns p.1.2 ctx = .ok p.2) :
    eval fns (.ctx vars e) ctx = eval fns e (fun n => match lastDef n ((vars.map (·.1)).zip vals) with
      | some w => some w
      | none => ctx n) := by
  rw [eval, evalVars_ok fns ctx vars vals ctx hl hv]

theorem minLoop_spec : ∀ (l : List ℝ) (r : ℝ), (minLoop r l = r ∨ minLoop r l ∈ l) ∧ minLoop r l ≤ r ∧ ∀ x ∈ l, minLoop r l ≤ x
  | [], r => by simp [minLoop]
  | v :: vs, r => by
    obtain ⟨h1, h2, h3⟩ := minLoop_spec vs (if v < r then v else r)
    simp only [minLoop]
    by_cases h : v < r
    · rw [if_pos h] at h1 h2 h3 ⊢
      refine ⟨.inr ?_, by linarith, ?_⟩
      · rcases h1 with h | h
        · rw [h]; simp
        · exact List.mem_cons_of_mem _ h
      · intro x hx
        rcases List.mem_cons.mp hx with rfl | hx
        · exact h2
        · exact h3 x hx
    · rw [if_neg h] at h1 h2 h3 ⊢
      refine ⟨?_, h2, ?_⟩
      · rcases h1 with h | h
        · exact .inl h
        · exact .inr (List.mem_cons_of_mem _ h)
      · intro x hx
        rcases List.mem_cons.mp hx with rfl | hx
        · linarith [not_lt.mp h]
        · exact h3 x hx

theorem maxLoop_spec : ∀ (l : List ℝ) (r : ℝ), (maxLoop r l = r ∨ maxLoop r l ∈ l) ∧ r ≤ maxLoop r l ∧ ∀ x ∈ l, x ≤ maxLoop r l
  | [], r => by simp [maxLoop]
  | v :: vs, r => by
    obtain ⟨h1, h2, h3⟩ := maxLoop_spec vs (if v > r then v else r)
    simp only [maxLoop]
    by_cases h : v > r
    · rw [if_pos h] at h1 h2 h3 ⊢
      refine ⟨.inr ?_, by linarith, ?_⟩
      · rcases h1 with h | h
        · rw [h]; simp
        · exact List.mem_cons_of_mem _ h
      · intro x hx
        rcases List.mem_cons.mp hx with rfl | hx
        · exact h2
        · exact h3 x hx
    · rw [if_neg h] at h1 h2 h3 ⊢
      refine ⟨?_, h2, ?_⟩
      · rcases h1 with h | h
        · exact .inl h
        · exact .inr (List.mem_cons_of_mem _ h)
      · intro x hx
        rcases List.mem_cons.mp hx with rfl | hx
        · linarith [not_lt.mp h]
        · exact h3 x hx

/-- `evalArgs` evaluates each argument. -/
theorem evalArgs_ok (fns : Fns) (ctx : Ctx) : ∀ (gs : List (Gen ℝ)) (vs : List ℝ), gs.length = vs.length →
    (∀ p ∈ gs.zip vs, eval fns p.1 ctx = .ok p.2) → evalArgs fns gs ctx = .ok vs
  | [], [], _, _ => by simp [evalArgs]
  | [], _ :: _, h, _ => by simp at h
  | _ :: _, [], h, _ => by simp at h
  | g :: gs, v :: vs, h, hv => by
    rw [evalArgs, hv (g, v) (by simp)]
    simp only
    rw [evalArgs_ok fns ctx gs vs (by simpa using h) (fun p hp => hv p (by simp [hp]))]

/-- `min(...)` of any number of arguments is the smallest of their values and `max(...)` the largest. -/
theorem C41_min_max (fns : Fns) (ctx : Ctx) (gs : List (Gen ℝ)) (vs : List ℝ) (hl : gs.length = vs.length)
    (hne : vs ≠ []) (hv : ∀ p ∈ gs.zip vs, eval fns p.1 ctx = .ok p.2) :
    (∃ m ∈ vs, eval fns (.ext "min".toList gs) ctx = .ok m ∧ ∀ x ∈ vs, m ≤ x) ∧
    (∃ m ∈ vs, eval fns (.ext "max".toList gs) ctx = .ok m ∧ ∀ x ∈ vs, x ≤ m) := by
  cases vs with
  | nil => exact absurd rfl hne
  | cons v vs =>
    have ha := evalArgs_ok fns ctx gs (v :: vs) hl hv
    constructor
    · obtain ⟨h1, h2, h3⟩ := minLoop_spec (v :: vs) v
      refine ⟨minLoop v (v :: vs), ?_, ?_, h3⟩
      · rcases h1 with h | h
        · rw [h]; simp
        · exact h
      · rw [eval, ha]
        simp only [applyFn]
        rw [if_neg (by decide), if_pos trivial]
    · obtain ⟨h1, h2, h3⟩ := maxLoop_spec (v :: vs) v
      refine ⟨maxLoop v (v :: vs), ?_, ?_, h3⟩
      · rcases h1 with h | h
        · rw [h]; simp
        · exact h
      · rw [eval, ha]
        simp only [applyFn]
        rw [if_neg (by decide), if_neg (by decide), if_pos trivial]

/-- `clamp(v, lo, hi)` with `lo ≤ hi` lies in [lo, hi] and is `v` if `v` does; `where(t, a, b)` is `a` if `t > 0`, else `b`. -/
theorem C41_clamp_where (fns : Fns) (ctx : Ctx) (g1 g2 g3 : Gen ℝ) (a b c : ℝ) (h1 : eval fns g1 ctx = .ok a)
    (h2 : eval fns g2 ctx = .ok b) (h3 : eval fns g3 ctx = .ok c) :
    (b ≤ c → ∃ r, eval fns (.ext "clamp".toList [g1, g2, g3]) ctx = .ok r ∧ b ≤ r ∧ r ≤ c ∧ (b ≤ a → a ≤ c → r = a)) ∧
    eval fns (.ext "where".toList [g1, g2, g3]) ctx = .ok (if 0 < a then b else c) := by
  have ha : evalArgs fns [g1, g2, g3] ctx = .ok [a, b, c] :=
    evalArgs_ok fns ctx _ _ rfl (by simp; exact ⟨h1, h2, h3⟩)
  constructor
  · intro hbc
    refine ⟨if a < b then b else if a > c then c else a, ?_, ?_, ?_, ?_⟩
    · rw [eval, ha]
      simp only [applyFn]
      rw [if_neg (by decide), if_neg (by decide), if_neg (by decide), if_pos trivial]
    · split
      · exact le_refl _
      · split
        · exact hbc
        · rename_i h _; exact not_lt.mp h
    · split
      · exact hbc
      · split
        · exact le_refl _
        · rename_i _ h; exact not_lt.mp h
    · intro h1 h2
      rw [if_neg (not_lt.mpr h1), if_neg (not_lt.mpr h2)]
  · rw [eval, ha]
    simp only [applyFn]
    rw [if_neg (by decide), if_neg (by decide), if_neg (by decide), if_neg (by decide), if_pos trivial]

section Examples
/-- The hypotheses of `C14_parse` are met by `-2^3 + 2x`: it denotes `(0 - (2^3)) + (2*x)`. -/
example : Denotes stdEnv "-2^3 + 2x".toList
    (.bin '+' (.bin '-' (.val 0) (.bin '^' (.val 2) (.val 3))) (.bin '*' (.val 2) (.ext ['x'] []))) := by
  have hd : ∀ (w : Chars) (d : Char), (∀ c ∈ w, isSpace c = true) → isDigit d = true → ∀ (s : Chars) (items : List Item),
      (∀ c, s.head? = some c → isDigit c = false ∧ c ≠ '.' ∧ c ≠ 'e' ∧ c ≠ 'E') → Spelled stdEnv items s →
      Spelled stdEnv (.num [d] :: items) (w ++ d :: s) := by
    intro w d hw hd s items hs h
    have := Spelled.cons w [d] s (.num [d]) items hw (digits_text [d] (by simp) (by simpa using hd)) hs h
    simpa using this
  have hv2 : stdEnv.stod ['2'] = some (2 : ℝ) := by simp [stdEnv, natOf, show isDigit '2' = true by decide]
  have hv3 : stdEnv.stod ['3'] = some (3 : ℝ) := by simp [stdEnv, natOf, show isDigit '3' = true by decide]
  have hx : Spelled stdEnv [.sym ['x']] ['x'] := by
    have := Spelled.cons (env := stdEnv) [] ['x'] [] (.sym ['x']) [] (by simp)
      ⟨.plain 'x' [] [] (by decide) (by decide) (by decide) (by decide) .nil, 'x', [], rfl, by decide, by decide, by decide⟩
      (by simp [Boundary]) (.nil [] (by simp))
    simpa using this
  have h2x := hd [' '] '2' (by decide) (by decide) _ _ (by simp; decide) hx
  have hp := Spelled.cons [' '] ['+'] _ (.ch '+') _ (by decide) (text_ch stdEnv_ok '+' (by decide)) trivial h2x
  have h3 := hd [] '3' (by decide) (by decide) _ _ (by simp; decide) hp
  have h2 := hd [] '2' (by decide) (by decide) _ _ (by simp; decide) (spelled_ch stdEnv_ok '^' (by decide) h3)
  refine ⟨_, [.ch '-', .num 2, .ch '^', .num 3, .ch '+', .num 2, .ch '*', .sym ['x']],
    spelled_ch stdEnv_ok '-' (by decide) h2, by simp [tokens, hv2, hv3], ?_⟩
  exact .bin 0 10 '+' [.ch '-', .num 2, .ch '^', .num 3] [.num 2, .ch '*', .sym ['x']] _ _ rfl (by decide)
    (.neg 10 10 _ _ rfl (by decide) (.bin 11 30 '^' [.num 2] [.num 3] _ _ rfl (by decide) (.prim _ _ _ (.num 2))
      (.prim _ _ _ (.num 3))))
    (.bin 11 20 '*' [.num 2] [.sym ['x']] _ _ rfl (by decide) (.prim _ _ _ (.num 2))
      (.prim _ _ _ (.name ['x'] (fun _ => .ok (.ext ['x'] [])) _ (by decide) (by simp [stdEnv]) rfl)))
end Examples

end Verif.Expr
