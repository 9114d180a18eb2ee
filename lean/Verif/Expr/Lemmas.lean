import Verif.Expr.Spec
/-!
# Expression parser: the parser reads the grammar
-/
namespace Verif.Expr
open Verif.Str (Chars)
variable {R : Type}

/-- The current token with its data. -/
def HasTok (l : Lex R) : Tok R → Prop
  | .num v => l.curtok = .num ∧ l.curval = v
  | .sym s => l.curtok = .sym ∧ l.curident = s
  | .par s => l.curtok = .par ∧ l.curident = s
  | .ch c => l.curtok = .ch c

/-- The tokens the lexer will deliver, the current one first. -/
inductive Toks (env : Env R) : Lex R → List (Tok R) → Prop where
  | nil (l : Lex R) (h : l.curtok = .eof) : Toks env l []
  | cons (l l' : Lex R) (t : Tok R) (ts : List (Tok R)) (h : HasTok l t) (hn : nextToken env l = .ok l')
      (hr : Toks env l' ts) : Toks env l (t :: ts)

/-- `rest` begins with the end of an expression or an operator of precedence at most `k`. -/
def Stop (env : Env R) (k : Int) (rest : List (Tok R)) : Prop :=
  rest = [] ∨ ∃ c r, rest = .ch c :: r ∧ (c = ')' ∨ c = ',' ∨ c = ']' ∨ ∃ q, env.prec c = some q ∧ q ≤ k)

/-- `rest` begins with the end of an expression or an operator. -/
def Stop' (env : Env R) (rest : List (Tok R)) : Prop := ∃ k, Stop env k rest

section Monad
variable {α β : Type}
theorem bind_ok (x : α) (f : α → P β) : ((pure x : P α) >>= f) = f x := rfl
theorem next_ok {env : Env R} {l l' : Lex R} (h : nextToken env l = .ok l') : next env l = pure l' := by
  unfold next; rw [h]; rfl
theorem lift_ok {x : α} : lift (.ok x) = (pure x : P α) := rfl
end Monad

theorem toks_cons {env : Env R} {l : Lex R} {t : Tok R} {ts : List (Tok R)} (h : Toks env l (t :: ts)) :
    HasTok l t ∧ ∃ l', next env l = pure l' ∧ Toks env l' ts := by
  cases h with
  | cons _ l' _ _ h1 h2 h3 => exact ⟨h1, l', next_ok h2, h3⟩

theorem toks_nil {env : Env R} {l : Lex R} (h : Toks env l []) : l.curtok = .eof := by cases h; assumption

theorem stop_mono {env : Env R} {k k' : Int} {rest : List (Tok R)} (hk : k ≤ k') (h : Stop env k rest) :
    Stop env k' rest := by
  rcases h with h | ⟨c, r, h1, h2⟩
  · exact .inl h
  · refine .inr ⟨c, r, h1, ?_⟩
    rcases h2 with h | h | h | ⟨q, h3, h4⟩
    · exact .inl h
    · exact .inr (.inl h)
    · exact .inr (.inr (.inl h))
    · exact .inr (.inr (.inr ⟨q, h3, by omega⟩))

/-- With a `Stop`, the current token is not '(' nor a number. -/
theorem stop_cur {env : Env R} (hok : EnvOk env) {k : Int} {rest : List (Tok R)} (h : Stop env k rest) {l : Lex R}
    (ht : Toks env l rest) : l.curtok ≠ .ch '(' := by
  rcases h with rfl | ⟨c, r, rfl, h2⟩
  · rw [toks_nil ht]; simp
  · have := (toks_cons ht).1
    simp only [HasTok] at this
    rw [this]
    intro hc
    simp at hc
    subst hc
    rcases h2 with h | h | h | ⟨q, h3, h4⟩
    · exact absurd h (by decide)
    · exact absurd h (by decide)
    · exact absurd h (by decide)
    · rw [hok.notOp '(' (by decide)] at h3; simp at h3

/-- The value of a number survives reading the next token when that is not a number. -/
theorem nextToken_curval {env : Env R} {l l' : Lex R} (h : nextToken env l = .ok l') (hn : l'.curtok ≠ .num) :
    l'.curval = l.curval := by
  unfold nextToken at h
  cases hd : l.rest.dropWhile isSpace with
  | nil => simp only [hd] at h; cases h; rfl
  | cons c cs =>
    simp only [hd] at h
    split at h
    · cases h1 : lexNum false false [] (c :: cs) with
      | error e => simp [h1] at h
      | ok x =>
        cases h2 : env.stod x.1 with
        | none => simp [h1, h2] at h
        | some v => simp only [h1, h2] at h; cases h; simp at hn
    · split at h
      · split at h
        · cases h; rfl
        · cases h1 : lexSym env.reserved false [] (c :: cs) with
          | error e => simp [h1] at h
          | ok x => simp only [h1] at h; cases h; rfl
      · split at h
        · cases h; rfl
        · split at h
          · split at h
            · cases h; rfl
            · cases cs with
              | nil => simp at h
              | cons d ds =>
                cases h1 : lexPar [d] ds with
                | error e => simp [h1] at h
                | ok x => simp only [h1] at h; cases h; rfl
          · cases h; rfl

theorem stop_not_num {env : Env R} {k : Int} {rest : List (Tok R)} (h : Stop env k rest) {l : Lex R}
    (ht : Toks env l rest) : l.curtok ≠ .num := by
  rcases h with rfl | ⟨c, r, rfl, h2⟩
  · rw [toks_nil ht]; simp
  · have := (toks_cons ht).1
    simp only [HasTok] at this
    rw [this]; simp

variable [Zero R]

/-- At the end of an expression, or at an operator of lower precedence, `parseRHS` returns. -/
theorem rhs_stop {env : Env R} {j k : Int} {rest : List (Tok R)} (h : Stop env k rest) (hjk : k < j) {l : Lex R}
    (ht : Toks env l rest) (g : Gen R) : parseRHS env j g l = pure (g, l) := by
  rw [parseRHS]
  rcases h with rfl | ⟨c, r, rfl, h2⟩
  · rw [toks_nil ht]; rfl
  · have hc := (toks_cons ht).1
    simp only [HasTok] at hc
    rw [hc]
    by_cases he : isEnd (.ch c) = true
    · rw [if_pos he]
    · rw [if_neg he]
      rcases h2 with h | h | h | ⟨q, h3, h4⟩
      · subst h; exact absurd rfl he
      · subst h; exact absurd rfl he
      · subst h; exact absurd rfl he
      · simp only [findOp, h3, Option.map_some]
        rw [if_pos (by omega)]

/-- At the end of an expression `parseRHS` returns whatever the precedence. -/
theorem rhs_end {env : Env R} {j : Int} {l : Lex R} (he : isEnd l.curtok = true) (g : Gen R) :
    parseRHS env j g l = pure (g, l) := by
  rw [parseRHS, if_pos he]

/-- One operator: the right operand is exactly what parsing a primary and then operators of higher precedence gives. -/
theorem rhs_step {env : Env R} {j p : Int} {c : Char} {l l1 : Lex R} {lhs : Gen R} (hc : l.curtok = .ch c)
    (he : isEnd (.ch c) = false) (hp : env.prec c = some p) (hjp : j ≤ p) (hn : next env l = pure l1)
    {g2 : Gen R} {l2 : Lex R}
    (h2 : (parsePrimary env l1 >>= fun r => parseRHS env (p + 1) r.1 r.2) = pure (g2, l2)) :
    parseRHS env j lhs l = parseRHS env j (.bin c lhs g2) l2 := by
  have hfind : findOp env (.ch c) = some (c, p) := by simp [findOp, hp]
  rw [parseRHS, hc]
  simp only [he, Bool.false_eq_true, if_false, hfind]
  rw [if_neg (by omega), hn, bind_ok]
  -- look at what the primary gives
  cases hprim : parsePrimary env l1 with
  | none => rw [hprim] at h2; exact absurd h2 (by intro h; cases h)
  | some o =>
    cases o with
    | error e => rw [hprim] at h2; exact absurd h2 (by intro h; cases h)
    | ok r =>
      have hpr : (some (Except.ok r) : P (Gen R × Lex R)) = (pure r : P (Gen R × Lex R)) := rfl
      rw [hprim, hpr, bind_ok] at h2
      rw [hpr, bind_ok]
      by_cases hend : isEnd r.2.curtok = true
      · rw [if_pos hend]
        rw [rhs_end hend] at h2
        have : (r.1, r.2) = (g2, l2) := by injection h2 with h; injection h
        obtain ⟨h3, h4⟩ := Prod.mk.inj this
        rw [h3, h4, rhs_end (by rw [← h4]; exact hend)]
      · rw [if_neg hend]
        cases hop : findOp env r.2.curtok with
        | none =>
          rw [parseRHS, if_neg hend, hop] at h2
          exact absurd h2 (by intro h; cases h)
        | some cq =>
          obtain ⟨c', q⟩ := cq
          simp only
          by_cases hpq : p < q
          · rw [if_pos hpq, h2, bind_ok]
          · rw [if_neg hpq]
            rw [parseRHS, if_neg hend, hop] at h2
            simp only at h2
            rw [if_pos (by omega)] at h2
            have : (r.1, r.2) = (g2, l2) := by injection h2 with h; injection h
            obtain ⟨h3, h4⟩ := Prod.mk.inj this
            rw [h3, h4]

/-! The statements proved by induction on the grammar. -/

/-- `parsePrimary` reads a primary. -/
def PrimOk (env : Env R) (ts : List (Tok R)) (g : Gen R) : Prop :=
  ∀ (l : Lex R) (rest : List (Tok R)) (k : Int), Toks env l (ts ++ rest) → Stop env k rest →
    ∃ l', parsePrimary env l = pure (g, l') ∧ Toks env l' rest

/-- A primary followed by `parseRHS` reads an expression and goes on from there. -/
def ExprOk (env : Env R) (k : Int) (ts : List (Tok R)) (g : Gen R) : Prop :=
  ∀ (j : Int), j ≤ k → ∀ (l : Lex R) (rest : List (Tok R)), Toks env l (ts ++ rest) → Stop env k rest →
    ∃ l', Toks env l' rest ∧ (parsePrimary env l >>= fun r => parseRHS env j r.1 r.2) = parseRHS env j g l'

/-- The argument loop reads a list. -/
def ArgsOk (env : Env R) (ts : List (Tok R)) (gs : List (Gen R)) : Prop :=
  ∀ (f : List (Gen R) → Except Err (Gen R)) (acc : List (Gen R)) (g : Gen R) (l : Lex R) (rest : List (Tok R)),
    Toks env l (ts ++ (.ch ')' :: rest)) → f (acc ++ gs) = .ok g →
    ∃ l', parseArgs env f acc l = pure (g, l') ∧ Toks env l' rest

/-- The definitions of a context, then the expression in it. -/
def VarsOk (env : Env R) (ts : List (Tok R)) (vs : List (Chars × Gen R)) : Prop :=
  ∀ (acc : List (Chars × Gen R)) (l : Lex R) (rest : List (Tok R)), Toks env l (ts ++ (.ch ']' :: rest)) →
    ∃ l', parseVars env acc l = parseVars env (acc ++ vs) l' ∧ Toks env l' (.ch ']' :: rest)

theorem stop_ch {env : Env R} (k : Int) (c : Char) (h : c = ')' ∨ c = ',' ∨ c = ']') (r : List (Tok R)) :
    Stop env k (.ch c :: r) := by
  refine .inr ⟨c, r, rfl, ?_⟩
  rcases h with h | h | h
  · exact .inl h
  · exact .inr (.inl h)
  · exact .inr (.inr (.inl h))

/-- A complete expression followed by a closing token. -/
theorem expr_closed {env : Env R} {ts : List (Tok R)} {g : Gen R} (h : ExprOk env 0 ts g) {l : Lex R} {c : Char}
    (hc : c = ')' ∨ c = ',' ∨ c = ']') {r : List (Tok R)} (ht : Toks env l (ts ++ (.ch c :: r))) :
    ∃ l', parseExpr env l = pure (g, l') ∧ Toks env l' (.ch c :: r) := by
  obtain ⟨l', h1, h2⟩ := h 0 (Int.le_refl _) l _ ht (stop_ch 0 c hc r)
  refine ⟨l', ?_, h1⟩
  rw [parseExpr, h2]
  apply rhs_end
  have := (toks_cons h1).1
  simp only [HasTok] at this
  rw [this]
  rcases hc with rfl | rfl | rfl <;> rfl

theorem op_not_end {env : Env R} (hok : EnvOk env) {c : Char} {p : Int} (h : env.prec c = some p) :
    isEnd (.ch c) = false := by
  by_contra hne
  have he : isEnd (.ch c) = true := by simpa using hne
  simp only [isEnd, Bool.or_eq_true, decide_eq_true_eq, Cur.ch.injEq, reduceCtorEq, false_or] at he
  have : c ∈ "[](){},=".toList := by
    rcases he with (h | h) | h <;> rw [h] <;> decide
  rw [hok.notOp c this] at h
  simp at h

theorem prim_head {env : Env R} {ts : List (Tok R)} {g : Gen R} (h : Prim env ts g) :
    ∃ t r, ts = t :: r ∧ t ≠ .ch ')' := by
  cases h <;> exact ⟨_, _, rfl, by simp⟩

theorem expr_head {env : Env R} : ∀ {k : Int} {ts : List (Tok R)} {g : Gen R}, Expr env k ts g →
    ∃ t r, ts = t :: r ∧ t ≠ .ch ')'
  | _, _, _, .prim _ _ _ h => prim_head h
  | _, _, _, .bin _ _ _ _ _ _ _ _ _ h1 _ => by
    obtain ⟨t, r, h, hne⟩ := expr_head h1
    exact ⟨t, _, by rw [h]; rfl, hne⟩
  | _, _, _, .neg _ _ _ _ _ _ _ => ⟨_, _, rfl, by simp⟩

theorem args_head {env : Env R} {ts : List (Tok R)} {gs : List (Gen R)} (h : Args env ts gs) :
    ∃ t r, ts = t :: r ∧ t ≠ .ch ')' := by
  cases h with
  | one _ _ h => exact expr_head h
  | more _ _ _ _ h _ =>
    obtain ⟨t, r, h, hne⟩ := expr_head h
    exact ⟨t, _, by rw [h]; rfl, hne⟩

theorem grammar_ok {env : Env R} (hok : EnvOk env) :
    (∀ ts g, Prim env ts g → PrimOk env ts g) ∧ (∀ k ts g, Expr env k ts g → ExprOk env k ts g) ∧
    (∀ ts gs, Args env ts gs → ArgsOk env ts gs) ∧ (∀ ts vs, Vars env ts vs → VarsOk env ts vs) := by
  have hnum : ∀ v : R, PrimOk env [.num v] (.val v) := by
    intro v l rest k ht hs
    obtain ⟨h1, l', h2, h3⟩ := toks_cons ht
    refine ⟨l', ?_, h3⟩
    have hv : l'.curval = v := by
      rw [← h1.2]
      cases ht with
      | cons _ l'' _ _ _ hn hr =>
        have : l'' = l' := by rw [next_ok hn] at h2; injection h2 with h; injection h
        subst this
        exact nextToken_curval hn (stop_not_num hs h3)
    rw [parsePrimary, h1.1]
    simp only [h2, bind_ok, hv]
  have hpar : ∀ s : Chars, PrimOk env [.par s] (.param s) := by
    intro s l rest k ht hs
    obtain ⟨h1, l', h2, h3⟩ := toks_cons ht
    refine ⟨l', ?_, h3⟩
    rw [parsePrimary, h1.1]
    simp only [h2, bind_ok, h1.2]
  have hname : ∀ (s : Chars) (f : List (Gen R) → Except Err (Gen R)) (g : Gen R), s ≠ "sum".toList →
      env.gen s = some f → f [] = .ok g → PrimOk env [.sym s] g := by
    intro s f g hs hf hg l rest k ht hst
    obtain ⟨h1, l', h2, h3⟩ := toks_cons ht
    refine ⟨l', ?_, h3⟩
    rw [parsePrimary, h1.1]
    simp only []
    rw [parseIdent, h2, bind_ok, h1.2, if_neg hs, if_neg (stop_cur hok hst h3), hf]
    simp only [hg, lift_ok, bind_ok]
  have hres : ∀ (s : Chars) (g : Gen R), s ≠ "sum".toList → env.gen s = none → env.resolve s = .ok (some g) →
      PrimOk env [.sym s] g := by
    intro s g hs hf hg l rest k ht hst
    obtain ⟨h1, l', h2, h3⟩ := toks_cons ht
    refine ⟨l', ?_, h3⟩
    rw [parsePrimary, h1.1]
    simp only []
    rw [parseIdent, h2, bind_ok, h1.2, if_neg hs, if_neg (stop_cur hok hst h3), hf]
    simp only [hg, lift_ok, bind_ok]
  have hcall0 : ∀ (s : Chars) (f : List (Gen R) → Except Err (Gen R)) (g : Gen R), s ≠ "sum".toList →
      env.gen s = some f → f [] = .ok g → PrimOk env [.sym s, .ch '(', .ch ')'] g := by
    intro s f g hs hf hg l rest k ht hst
    obtain ⟨h1, l1, n1, t1⟩ := toks_cons ht
    obtain ⟨c1, l2, n2, t2⟩ := toks_cons t1
    obtain ⟨c2, l3, n3, t3⟩ := toks_cons t2
    refine ⟨l3, ?_, t3⟩
    simp only [HasTok] at c1 c2
    rw [parsePrimary, h1.1]
    simp only []
    rw [parseIdent, n1, bind_ok, h1.2, if_neg hs, if_pos c1, hf]
    simp only []
    rw [n2, bind_ok, if_pos c2, n3, bind_ok, hg, lift_ok, bind_ok]
  have hparen : ∀ (ts : List (Tok R)) (g : Gen R), ExprOk env 0 ts g → ∀ (l : Lex R) (rest : List (Tok R)),
      Toks env l ([.ch '('] ++ ts ++ [.ch ')'] ++ rest) → ∃ l', parseParen env l = pure (g, l') ∧ Toks env l' rest := by
    intro ts g ih l rest ht
    simp only [List.cons_append, List.nil_append, List.append_assoc] at ht
    obtain ⟨c1, l1, n1, t1⟩ := toks_cons ht
    obtain ⟨l2, e2, t2⟩ := expr_closed ih (.inl rfl) t1
    obtain ⟨c3, l3, n3, t3⟩ := toks_cons t2
    refine ⟨l3, ?_, t3⟩
    simp only [HasTok] at c3
    rw [parseParen, n1, bind_ok, e2, bind_ok, if_pos (.inl c3), n3, bind_ok]
  have hcall : ∀ (s : Chars) (f : List (Gen R) → Except Err (Gen R)) (ts : List (Tok R)) (gs : List (Gen R))
      (g : Gen R), s ≠ "sum".toList → env.gen s = some f → Args env ts gs → f gs = .ok g → ArgsOk env ts gs →
      PrimOk env ([.sym s, .ch '('] ++ ts ++ [.ch ')']) g := by
    intro s f ts gs g hs hf ha hg ih l rest k ht hst
    simp only [List.cons_append, List.nil_append, List.append_assoc] at ht
    obtain ⟨h1, l1, n1, t1⟩ := toks_cons ht
    obtain ⟨c1, l2, n2, t2⟩ := toks_cons t1
    simp only [HasTok] at c1
    obtain ⟨t, r, htr, hne⟩ := args_head ha
    have c2 : ¬ l2.curtok = .ch ')' := by
      rw [htr] at t2
      have := (toks_cons t2).1
      cases t with
      | ch c => simp only [HasTok] at this; rw [this]; intro h; simp at h; subst h; exact hne rfl
      | num v => rw [this.1]; simp
      | sym v => rw [this.1]; simp
      | par v => rw [this.1]; simp
    obtain ⟨l3, e3, t3⟩ := ih f [] g l2 rest t2 (by simpa using hg)
    refine ⟨l3, ?_, t3⟩
    rw [parsePrimary, h1.1]
    simp only []
    rw [parseIdent, n1, bind_ok, h1.2, if_neg hs, if_pos c1, hf]
    simp only []
    rw [n2, bind_ok, if_neg c2, e3]
  have hparenP : ∀ (ts : List (Tok R)) (g : Gen R), Expr env 0 ts g → ExprOk env 0 ts g →
      PrimOk env ([.ch '('] ++ ts ++ [.ch ')']) g := by
    intro ts g _ ih l rest k ht hst
    have c1 := (toks_cons ht).1
    simp only [HasTok] at c1
    rw [parsePrimary, c1]
    exact hparen ts g ih l rest ht
  have hsum : ∀ (i : Chars) (t1 t2 : List (Tok R)) (g1 g2 : Gen R), Expr env 0 t1 g1 → Expr env 0 t2 g2 →
      ExprOk env 0 t1 g1 → ExprOk env 0 t2 g2 →
      PrimOk env ([.sym "sum".toList, .ch '(', .sym i, .ch ','] ++ t1 ++ [.ch ','] ++ t2 ++ [.ch ')']) (.sum i g1 g2) := by
    intro i t1 t2 g1 g2 _ _ ih1 ih2 l rest k ht hst
    simp only [List.cons_append, List.nil_append, List.append_assoc] at ht
    obtain ⟨h1, l1, n1, s1⟩ := toks_cons ht
    obtain ⟨c1, l2, n2, s2⟩ := toks_cons s1
    obtain ⟨c2, l3, n3, s3⟩ := toks_cons s2
    obtain ⟨c3, l4, n4, s4⟩ := toks_cons s3
    obtain ⟨l5, e5, s5⟩ := expr_closed ih1 (.inr (.inl rfl)) s4
    obtain ⟨c5, l6, n6, s6⟩ := toks_cons s5
    obtain ⟨l7, e7, s7⟩ := expr_closed ih2 (.inl rfl) s6
    obtain ⟨c7, l8, n8, s8⟩ := toks_cons s7
    simp only [HasTok] at c1 c3 c5 c7
    refine ⟨l8, ?_, s8⟩
    rw [parsePrimary, h1.1]
    simp only []
    rw [parseIdent, n1, bind_ok, h1.2, if_pos rfl, if_pos c1, n2, bind_ok, if_pos (.inl c2.1), n3, bind_ok, if_pos c3,
      n4, bind_ok, e5, bind_ok, if_pos c5, n6, bind_ok, e7, bind_ok, if_pos c7, n8, bind_ok, c2.2]
  have hctx : ∀ (t1 t2 : List (Tok R)) (vs : List (Chars × Gen R)) (g : Gen R), Vars env t1 vs → Expr env 0 t2 g →
      VarsOk env t1 vs → ExprOk env 0 t2 g →
      PrimOk env ([.ch '['] ++ t1 ++ [.ch ']', .ch '('] ++ t2 ++ [.ch ')']) (.ctx vs g) := by
    intro t1 t2 vs g _ _ ih1 ih2 l rest k ht hst
    simp only [List.cons_append, List.nil_append, List.append_assoc] at ht
    obtain ⟨c0, l1, n1, s1⟩ := toks_cons ht
    obtain ⟨l2, e2, s2⟩ := ih1 [] l1 _ s1
    obtain ⟨c2, l3, n3, s3⟩ := toks_cons s2
    have c3 := (toks_cons s3).1
    obtain ⟨l4, e4, s4⟩ := hparen t2 g ih2 l3 rest (by simpa using s3)
    simp only [HasTok] at c0 c2 c3
    refine ⟨l4, ?_, s4⟩
    rw [parsePrimary, c0]
    simp only []
    rw [if_neg (by decide), if_neg (by decide), if_pos trivial, n1, bind_ok, e2, parseVars, if_pos c2, n3, bind_ok,
      if_pos c3, e4, bind_ok]
    rfl
  have hprim : ∀ (k : Int) (ts : List (Tok R)) (g : Gen R), Prim env ts g → PrimOk env ts g → ExprOk env k ts g := by
    intro k ts g _ ih j hj l rest ht hst
    obtain ⟨l', h1, h2⟩ := ih l rest k ht hst
    exact ⟨l', h2, by rw [h1, bind_ok]⟩
  have hbin : ∀ (k p : Int) (c : Char) (t1 t2 : List (Tok R)) (g1 g2 : Gen R), env.prec c = some p → k ≤ p →
      Expr env p t1 g1 → Expr env (p + 1) t2 g2 → ExprOk env p t1 g1 → ExprOk env (p + 1) t2 g2 →
      ExprOk env k (t1 ++ [.ch c] ++ t2) (.bin c g1 g2) := by
    intro k p c t1 t2 g1 g2 hp hk _ _ ih1 ih2 j hj l rest ht hst
    simp only [List.cons_append, List.nil_append, List.append_assoc] at ht
    obtain ⟨l1, s1, e1⟩ := ih1 j (by omega) l _ ht (.inr ⟨c, _, rfl, .inr (.inr (.inr ⟨p, hp, Int.le_refl _⟩))⟩)
    obtain ⟨c1, l2, n2, s2⟩ := toks_cons s1
    simp only [HasTok] at c1
    obtain ⟨l3, s3, e3⟩ := ih2 (p + 1) (Int.le_refl _) l2 rest s2 (stop_mono (by omega) hst)
    rw [rhs_stop hst (by omega) s3] at e3
    refine ⟨l3, s3, ?_⟩
    rw [e1]
    exact rhs_step c1 (op_not_end hok hp) hp (by omega) n2 e3
  have hneg : ∀ (k p : Int) (t : List (Tok R)) (g : Gen R), env.prec '-' = some p → k ≤ p →
      Expr env (p + 1) t g → ExprOk env (p + 1) t g → ExprOk env k ([.ch '-'] ++ t) (.bin '-' (.val 0) g) := by
    intro k p t g hp hk _ ih j hj l rest ht hst
    simp only [List.cons_append, List.nil_append, List.append_assoc] at ht
    obtain ⟨c1, l2, n2, s2⟩ := toks_cons ht
    simp only [HasTok] at c1
    obtain ⟨l3, s3, e3⟩ := ih (p + 1) (Int.le_refl _) l2 rest s2 (stop_mono (by omega) hst)
    rw [rhs_stop hst (by omega) s3] at e3
    refine ⟨l3, s3, ?_⟩
    rw [parsePrimary, c1]
    simp only [if_true, bind_ok]
    exact rhs_step c1 (op_not_end hok hp) hp (by omega) n2 e3
  have hone : ∀ (ts : List (Tok R)) (g : Gen R), Expr env 0 ts g → ExprOk env 0 ts g → ArgsOk env ts [g] := by
    intro ts g _ ih f acc g' l rest ht hf
    obtain ⟨l1, e1, s1⟩ := expr_closed ih (.inl rfl) ht
    obtain ⟨c1, l2, n2, s2⟩ := toks_cons s1
    simp only [HasTok] at c1
    refine ⟨l2, ?_, s2⟩
    rw [parseArgs, e1, bind_ok, if_pos c1, n2, bind_ok, hf, lift_ok, bind_ok]
  have hmore : ∀ (t1 t2 : List (Tok R)) (g : Gen R) (gs : List (Gen R)), Expr env 0 t1 g → Args env t2 gs →
      ExprOk env 0 t1 g → ArgsOk env t2 gs → ArgsOk env (t1 ++ [.ch ','] ++ t2) (g :: gs) := by
    intro t1 t2 g gs _ _ ih1 ih2 f acc g' l rest ht hf
    simp only [List.cons_append, List.nil_append, List.append_assoc] at ht
    obtain ⟨l1, e1, s1⟩ := expr_closed ih1 (.inr (.inl rfl)) ht
    obtain ⟨c1, l2, n2, s2⟩ := toks_cons s1
    simp only [HasTok] at c1
    obtain ⟨l3, e3, s3⟩ := ih2 f (acc ++ [g]) g' l2 rest s2 (by simpa using hf)
    refine ⟨l3, ?_, s3⟩
    rw [parseArgs, e1, bind_ok, if_neg (by rw [c1]; simp), if_pos c1, n2, bind_ok, e3]
  have hvnil : VarsOk env [] [] := by
    intro acc l rest ht
    exact ⟨l, by simp, by simpa using ht⟩
  have hvone : ∀ (s : Chars) (ts : List (Tok R)) (g : Gen R), Expr env 0 ts g → ExprOk env 0 ts g →
      VarsOk env ([.sym s, .ch '='] ++ ts) [(s, g)] := by
    intro s ts g _ ih acc l rest ht
    simp only [List.cons_append, List.nil_append, List.append_assoc] at ht
    obtain ⟨c0, l1, n1, s1⟩ := toks_cons ht
    obtain ⟨c1, l2, n2, s2⟩ := toks_cons s1
    obtain ⟨l3, e3, s3⟩ := expr_closed ih (.inr (.inr rfl)) s2
    have c3 := (toks_cons s3).1
    simp only [HasTok] at c1 c3
    refine ⟨l3, ?_, s3⟩
    rw [parseVars, if_neg (by rw [c0.1]; simp), if_pos c0.1, n1, bind_ok, if_pos c1, n2, bind_ok, e3, bind_ok,
      if_neg (by rw [c3]; simp), c0.2]
  have hvmore : ∀ (s : Chars) (t1 t2 : List (Tok R)) (g : Gen R) (vs : List (Chars × Gen R)), Expr env 0 t1 g →
      Vars env t2 vs → ExprOk env 0 t1 g → VarsOk env t2 vs →
      VarsOk env ([.sym s, .ch '='] ++ t1 ++ [.ch ','] ++ t2) ((s, g) :: vs) := by
    intro s t1 t2 g vs _ _ ih1 ih2 acc l rest ht
    simp only [List.cons_append, List.nil_append, List.append_assoc] at ht
    obtain ⟨c0, l1, n1, s1⟩ := toks_cons ht
    obtain ⟨c1, l2, n2, s2⟩ := toks_cons s1
    obtain ⟨l3, e3, s3⟩ := expr_closed ih1 (.inr (.inl rfl)) s2
    obtain ⟨c3, l4, n4, s4⟩ := toks_cons s3
    obtain ⟨l5, e5, s5⟩ := ih2 (acc ++ [(s, g)]) l4 rest s4
    simp only [HasTok] at c1 c3
    refine ⟨l5, ?_, s5⟩
    rw [parseVars, if_neg (by rw [c0.1]; simp), if_pos c0.1, n1, bind_ok, if_pos c1, n2, bind_ok, e3, bind_ok,
      if_pos c3, n4, bind_ok, c0.2, e5]
    simp
  refine ⟨?_, ?_, ?_, ?_⟩
  · intro ts g h
    exact Prim.rec (motive_1 := fun ts g _ => PrimOk env ts g) (motive_2 := fun k ts g _ => ExprOk env k ts g)
      (motive_3 := fun ts gs _ => ArgsOk env ts gs) (motive_4 := fun ts vs _ => VarsOk env ts vs)
      hnum hpar hname hres hcall0 hcall hparenP hsum hctx hprim hbin hneg hone hmore hvnil hvone hvmore h
  · intro k ts g h
    exact Expr.rec (motive_1 := fun ts g _ => PrimOk env ts g) (motive_2 := fun k ts g _ => ExprOk env k ts g)
      (motive_3 := fun ts gs _ => ArgsOk env ts gs) (motive_4 := fun ts vs _ => VarsOk env ts vs)
      hnum hpar hname hres hcall0 hcall hparenP hsum hctx hprim hbin hneg hone hmore hvnil hvone hvmore h
  · intro ts gs h
    exact Args.rec (motive_1 := fun ts g _ => PrimOk env ts g) (motive_2 := fun k ts g _ => ExprOk env k ts g)
      (motive_3 := fun ts gs _ => ArgsOk env ts gs) (motive_4 := fun ts vs _ => VarsOk env ts vs)
      hnum hpar hname hres hcall0 hcall hparenP hsum hctx hprim hbin hneg hone hmore hvnil hvone hvmore h
  · intro ts vs h
    exact Vars.rec (motive_1 := fun ts g _ => PrimOk env ts g) (motive_2 := fun k ts g _ => ExprOk env k ts g)
      (motive_3 := fun ts gs _ => ArgsOk env ts gs) (motive_4 := fun ts vs _ => VarsOk env ts vs)
      hnum hpar hname hres hcall0 hcall hparenP hsum hctx hprim hbin hneg hone hmore hvnil hvone hvmore h

end Verif.Expr
