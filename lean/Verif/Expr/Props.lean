import Verif.Expr.Lexing
/-!
# C14: parsing
-/
namespace Verif.Expr
open Verif.Str (Chars)
variable {R : Type} [Zero R]

/-- Every string that denotes a generator tree (by the grammar of `Spec`: precedence, left associativity, brackets,
function calls, sums, contexts, leading minus, any whitespace) is parsed to exactly that tree, for every table of
operators and generators; in particular the whole string is consumed. -/
theorem C14_parse {env : Env R} (hok : EnvOk env) {s : Chars} {g : Gen R} (h : Denotes env s g) :
    parseString env s = pure g := by
  obtain ⟨items, ts, h1, h2, h3⟩ := h
  obtain ⟨l, hl, ht⟩ := lexer_ok hok h1 (lexInit s) ts rfl (by simpa [lexInit] using h2)
  obtain ⟨l', ht', he⟩ := (grammar_ok hok).2.1 0 ts g h3 0 (Int.le_refl _) l [] (by simpa using ht) (.inl rfl)
  have hend := toks_nil ht'
  have hexpr : parseExpr env l = pure (g, l') := by
    rw [parseExpr, he]
    exact rhs_end (by rw [hend]; rfl) g
  unfold parseString
  rw [next_ok hl, bind_ok, hexpr, bind_ok]
  simp only [hend, if_true]

/-- The grammar is unambiguous: a string denotes at most one generator tree. -/
theorem C14_unambiguous {env : Env R} (hok : EnvOk env) {s : Chars} {g1 g2 : Gen R} (h1 : Denotes env s g1)
    (h2 : Denotes env s g2) : g1 = g2 := by
  have e1 := C14_parse hok h1
  have e2 := C14_parse hok h2
  rw [e1] at e2
  injection e2 with h
  injection h

/-! ### Termination -/

omit [Zero R] in
theorem lexNum_len : ∀ (dec exp : Bool) (acc s : Chars) (r : Chars × Chars), lexNum dec exp acc s = .ok r →
    r.2.length ≤ s.length
  | dec, exp, acc, [], r, h => by simp [lexNum] at h; subst h; simp
  | dec, exp, acc, [c], r, h => by
    rw [lexNum.eq_def] at h
    simp only at h
    by_cases h1 : c = '.'
    · rw [if_pos h1] at h
      by_cases h2 : (dec || exp) = true
      · rw [if_pos h2] at h; simp at h
      · rw [if_neg h2] at h
        have := lexNum_len _ _ _ _ _ h
        simp at this ⊢
        simp [this]
    · rw [if_neg h1] at h
      by_cases h2 : c = 'E' ∨ c = 'e'
      · rw [if_pos h2] at h
        by_cases h3 : exp = true
        · rw [if_pos h3] at h; simp at h
        · rw [if_neg h3] at h; simp at h
      · rw [if_neg h2] at h
        by_cases h3 : isDigit c = false
        · rw [if_pos h3] at h; cases h; simp
        · rw [if_neg h3] at h
          have := lexNum_len _ _ _ _ _ h
          simp at this ⊢
          simp [this]
  | dec, exp, acc, c :: d :: ds, r, h => by
    rw [lexNum.eq_def] at h
    simp only at h
    by_cases h1 : c = '.'
    · rw [if_pos h1] at h
      by_cases h2 : (dec || exp) = true
      · rw [if_pos h2] at h; simp at h
      · rw [if_neg h2] at h
        have := lexNum_len _ _ _ _ _ h
        simp at this ⊢; omega
    · rw [if_neg h1] at h
      by_cases h2 : c = 'E' ∨ c = 'e'
      · rw [if_pos h2] at h
        by_cases h3 : exp = true
        · rw [if_pos h3] at h; simp at h
        · rw [if_neg h3] at h
          by_cases h4 : d ≠ '+' ∧ d ≠ '-' ∧ isDigit d = false
          · rw [if_pos h4] at h; simp at h
          · rw [if_neg h4] at h
            have := lexNum_len _ _ _ _ _ h
            simp at this ⊢; omega
      · rw [if_neg h2] at h
        by_cases h3 : isDigit c = false
        · rw [if_pos h3] at h; cases h; simp
        · rw [if_neg h3] at h
          have := lexNum_len _ _ _ _ _ h
          simp at this ⊢; omega
termination_by _ _ _ s => s.length

/-- A number consumes at least its first character. -/
theorem lexNum_first (c : Char) (cs : Chars) (hc : isDigit c = true ∨ c = '.') (r : Chars × Chars)
    (h : lexNum false false [] (c :: cs) = .ok r) : r.2.length ≤ cs.length := by
  rw [lexNum.eq_def] at h
  simp only at h
  by_cases h1 : c = '.'
  · rw [if_pos h1] at h
    simp only [Bool.or_self, Bool.false_eq_true, if_false] at h
    exact lexNum_len _ _ _ _ _ h
  · rw [if_neg h1] at h
    have hd : isDigit c = true := by rcases hc with h | h; exact h; exact absurd h h1
    obtain ⟨_, h2, h3, _⟩ := digit_facts c hd
    rw [if_neg (by simp [h2, h3]), if_neg (by simp [hd])] at h
    exact lexNum_len _ _ _ _ _ h

omit [Zero R] in
theorem lexSym_len (reserved : Chars) : ∀ (b : Bool) (acc s : Chars) (r : Chars × Chars),
    lexSym reserved b acc s = .ok r → r.2.length ≤ s.length
  | false, acc, [], r, h => by simp [lexSym] at h; subst h; simp
  | true, acc, [], r, h => by simp [lexSym] at h
  | true, acc, c :: cs, r, h => by
    rw [lexSym.eq_def] at h
    simp only at h
    by_cases h1 : c = '`'
    · rw [if_pos h1] at h; have := lexSym_len reserved _ _ _ _ h; simp; omega
    · rw [if_neg h1] at h; have := lexSym_len reserved _ _ _ _ h; simp; omega
  | false, acc, [c], r, h => by
    rw [lexSym.eq_def] at h
    simp only at h
    by_cases h1 : c = '\\'
    · rw [if_pos h1] at h; simp at h
    · rw [if_neg h1] at h
      by_cases h2 : c = '`'
      · rw [if_pos h2] at h; simp at h
      · rw [if_neg h2] at h
        by_cases h3 : isSpace c = true ∨ c ∈ reserved
        · rw [if_pos h3] at h; cases h; simp
        · rw [if_neg h3] at h; have := lexSym_len reserved _ _ _ _ h; simp at this ⊢; simp [this]
  | false, acc, c :: d :: ds, r, h => by
    rw [lexSym.eq_def] at h
    simp only at h
    by_cases h1 : c = '\\'
    · rw [if_pos h1] at h; have := lexSym_len reserved _ _ _ _ h; simp; omega
    · rw [if_neg h1] at h
      by_cases h2 : c = '`'
      · rw [if_pos h2] at h; have := lexSym_len reserved _ _ _ _ h; simp; omega
      · rw [if_neg h2] at h
        by_cases h3 : isSpace c = true ∨ c ∈ reserved
        · rw [if_pos h3] at h; cases h; simp
        · rw [if_neg h3] at h; have := lexSym_len reserved _ _ _ _ h; simp at this ⊢; omega
termination_by _ _ s => s.length

theorem lexSym_first (reserved : Chars) (c : Char) (cs : Chars) (hs : isSpace c = false)
    (hc : c = '`' ∨ c ∉ reserved) (r : Chars × Chars) (h : lexSym reserved false [] (c :: cs) = .ok r) :
    r.2.length ≤ cs.length := by
  rw [lexSym.eq_def] at h
  simp only at h
  by_cases h1 : c = '\\'
  · rw [if_pos h1] at h
    cases cs with
    | nil => simp at h
    | cons d ds => have := lexSym_len reserved _ _ _ _ h; simp; omega
  · rw [if_neg h1] at h
    by_cases h2 : c = '`'
    · rw [if_pos h2] at h
      cases cs with
      | nil => simp at h
      | cons d ds => have := lexSym_len reserved _ _ _ _ h; simp; omega
    · rw [if_neg h2] at h
      have hr : c ∉ reserved := by rcases hc with h | h; exact absurd h h2; exact h
      rw [if_neg (by simp [hs, hr])] at h
      exact lexSym_len reserved _ _ _ _ h

omit [Zero R] in
theorem lexPar_len : ∀ (acc s : Chars) (r : Chars × Chars), lexPar acc s = .ok r → r.2.length ≤ s.length
  | _, [], _, h => by simp [lexPar] at h
  | acc, c :: cs, r, h => by
    simp only [lexPar] at h
    by_cases h1 : c = '{'
    · rw [if_pos h1] at h; simp at h
    · rw [if_neg h1] at h
      by_cases h2 : c = '}'
      · rw [if_pos h2] at h; cases h; simp
      · rw [if_neg h2] at h; have := lexPar_len _ _ _ h; simp; omega

/-- How much input is left: it decreases with every token. -/
def measure (l : Lex R) : Nat :=
  if l.curtok = .eof then 0 else 2 * l.rest.length + 2 + (if l.curtok = .num then 1 else 0)

omit [Zero R] in
theorem nextToken_measure {env : Env R} {l l' : Lex R} (h : nextToken env l = .ok l') (hne : l.curtok ≠ .eof) :
    measure l' < measure l := by
  have hdl : (l.rest.dropWhile isSpace).length ≤ l.rest.length := (List.dropWhile_sublist _).length_le
  have hm : measure l = 2 * l.rest.length + 2 + (if l.curtok = .num then 1 else 0) := by
    unfold measure; rw [if_neg hne]
  have hbound : ∀ k : Lex R, 2 * k.rest.length + 3 ≤ 2 * l.rest.length + 1 → measure k < measure l := by
    intro k hk
    rw [hm]
    unfold measure
    split
    · omega
    · split <;> omega
  have hstar : l.curtok = .num → ∀ k : Lex R, k.curtok = .ch '*' → k.rest.length ≤ l.rest.length → measure k < measure l := by
    intro hn k hk hr
    rw [hm, hn]
    unfold measure
    simp only [hk]
    simp
    omega
  unfold nextToken at h
  cases hd : l.rest.dropWhile isSpace with
  | nil =>
    simp only [hd] at h
    cases h
    rw [hm]
    simp only [measure, if_true]
    omega
  | cons c cs =>
    have hcs : cs.length + 1 ≤ l.rest.length := by rw [hd] at hdl; simpa using hdl
    have hsp : isSpace c = false := by
      have := List.head?_dropWhile_not isSpace l.rest
      rw [hd] at this
      simpa using this
    simp only [hd] at h
    by_cases h1 : isDigit c = true ∨ c = '.'
    · rw [if_pos h1] at h
      cases h2 : lexNum false false [] (c :: cs) with
      | error e => simp [h2] at h
      | ok x =>
        have := lexNum_first c cs h1 x h2
        cases h3 : env.stod x.1 with
        | none => simp [h2, h3] at h
        | some v => simp only [h2, h3] at h; cases h; apply hbound; simp only; omega
    · rw [if_neg h1] at h
      by_cases h2 : c = '`' ∨ c ∉ env.reserved
      · rw [if_pos h2] at h
        by_cases hn : l.curtok = .num
        · rw [if_pos hn] at h; cases h
          exact hstar hn _ rfl (by simp; omega)
        · rw [if_neg hn] at h
          cases h3 : lexSym env.reserved false [] (c :: cs) with
          | error e => simp [h3] at h
          | ok x =>
            have := lexSym_first env.reserved c cs hsp h2 x h3
            simp only [h3] at h; cases h; apply hbound; simp only; omega
      · rw [if_neg h2] at h
        by_cases h3 : c = '(' ∧ l.curtok = .num
        · rw [if_pos h3] at h; cases h
          exact hstar h3.2 _ rfl (by simp; omega)
        · rw [if_neg h3] at h
          by_cases h4 : c = '{'
          · rw [if_pos h4] at h
            by_cases hn : l.curtok = .num
            · rw [if_pos hn] at h; cases h
              exact hstar hn _ rfl (by simp; omega)
            · rw [if_neg hn] at h
              cases cs with
              | nil => simp at h
              | cons d ds =>
                cases h5 : lexPar [d] ds with
                | error e => simp [h5] at h
                | ok x =>
                  have := lexPar_len _ _ _ h5
                  simp only [h5] at h; cases h; apply hbound; simp at hcs ⊢; omega
          · rw [if_neg h4] at h; cases h; apply hbound; simp only; omega

/-- Terminates, and never gives back input. -/
def Good (l : Lex R) (x : P (Gen R × Lex R)) : Prop :=
  ∃ o : Except Err (Gen R × Lex R), x = (some o : Option _) ∧ ∀ r, o = .ok r → measure r.2 ≤ measure l

omit [Zero R] in
theorem good_throw (l : Lex R) (e : Err) : Good l (throw e) := ⟨.error e, rfl, by simp⟩
omit [Zero R] in
theorem good_pure (l : Lex R) (r : Gen R × Lex R) (h : measure r.2 ≤ measure l) : Good l (pure r) :=
  ⟨.ok r, rfl, by rintro _ ⟨⟩; exact h⟩

omit [Zero R] in
theorem good_next {env : Env R} {l l0 : Lex R} {f : Lex R → P (Gen R × Lex R)} (hne : l.curtok ≠ .eof)
    (h : ∀ l', measure l' < measure l → Good l0 (f l')) : Good l0 (next env l >>= f) := by
  unfold next
  cases hn : nextToken env l with
  | error e => exact ⟨.error e, rfl, by simp⟩
  | ok l' => exact h l' (nextToken_measure hn hne)

omit [Zero R] in
theorem good_lift {l0 : Lex R} {α : Type} (x : Except Err α) {f : α → P (Gen R × Lex R)}
    (h : ∀ a, Good l0 (f a)) : Good l0 (lift x >>= f) := by
  cases x with
  | error e => exact ⟨.error e, rfl, by simp⟩
  | ok a => exact h a

omit [Zero R] in
theorem good_bind {l l0 : Lex R} {x : P (Gen R × Lex R)} {f : Gen R × Lex R → P (Gen R × Lex R)} (hx : Good l x)
    (h : ∀ r, measure r.2 ≤ measure l → Good l0 (f r)) : Good l0 (x >>= f) := by
  obtain ⟨o, rfl, hr⟩ := hx
  cases o with
  | error e => exact ⟨.error e, rfl, by simp⟩
  | ok r => exact h r (hr r rfl)

omit [Zero R] in
theorem good_weaken {l l0 : Lex R} {x : P (Gen R × Lex R)} (hx : Good l x) (h : measure l ≤ measure l0) : Good l0 x := by
  obtain ⟨o, rfl, hr⟩ := hx
  exact ⟨o, rfl, fun r h' => Nat.le_trans (hr r h') h⟩

omit [Zero R] in
theorem ne_eof_of {l : Lex R} {t : Cur} (h : l.curtok = t) (ht : t ≠ .eof) : l.curtok ≠ .eof := by rw [h]; exact ht

theorem all_good (env : Env R) : ∀ (n : Nat),
    (∀ l : Lex R, measure l ≤ n → Good l (parsePrimary env l)) ∧
    (∀ (k : Int) (lhs : Gen R) (l : Lex R), measure l ≤ n → Good l (parseRHS env k lhs l)) ∧
    (∀ l : Lex R, measure l ≤ n → Good l (parseExpr env l)) ∧
    (∀ f acc (l : Lex R), measure l ≤ n → Good l (parseArgs env f acc l)) ∧
    (∀ acc (l : Lex R), measure l ≤ n → Good l (parseVars env acc l)) ∧
    (∀ l : Lex R, l.curtok ≠ .eof → measure l ≤ n → Good l (parseParen env l)) := by
  intro n
  induction n using Nat.strongRecOn with
  | ind n ih =>
    have lt : ∀ {l l' : Lex R}, measure l ≤ n → measure l' < measure l → measure l' < n := fun h1 h2 => by omega
    have paren : ∀ l : Lex R, l.curtok ≠ .eof → measure l ≤ n → Good l (parseParen env l) := by
      intro l hne hl
      rw [parseParen]
      refine good_next hne fun l1 h1 => ?_
      refine good_bind ((ih _ (lt hl h1)).2.2.1 l1 (Nat.le_refl _)) fun r hr => ?_
      by_cases hc : r.2.curtok = .ch ')' ∨ r.2.curtok = .ch ']'
      · rw [if_pos hc]
        refine good_next (by rcases hc with h | h <;> exact ne_eof_of h (by simp)) fun l2 h2 => ?_
        exact good_pure _ _ (by simp only; omega)
      · rw [if_neg hc]; exact good_throw _ _
    have ident : ∀ l : Lex R, l.curtok = .sym → measure l ≤ n → Good l (parseIdent env l) := by
      intro l hc hl
      rw [parseIdent]
      refine good_next (ne_eof_of hc (by simp)) fun l1 h1 => ?_
      by_cases hs : l.curident = "sum".toList
      · rw [if_pos hs]
        by_cases c1 : l1.curtok = .ch '('
        · rw [if_pos c1]
          refine good_next (ne_eof_of c1 (by simp)) fun l2 h2 => ?_
          by_cases c2 : l2.curtok = .sym ∨ l2.curtok = .par
          · rw [if_pos c2]
            refine good_next (by rcases c2 with h | h <;> exact ne_eof_of h (by simp)) fun l3 h3 => ?_
            by_cases c3 : l3.curtok = .ch ','
            · rw [if_pos c3]
              refine good_next (ne_eof_of c3 (by simp)) fun l4 h4 => ?_
              refine good_bind ((ih _ (lt hl (by omega))).2.2.1 l4 (Nat.le_refl _)) fun r1 hr1 => ?_
              by_cases c4 : r1.2.curtok = .ch ','
              · rw [if_pos c4]
                refine good_next (ne_eof_of c4 (by simp)) fun l5 h5 => ?_
                refine good_bind ((ih _ (lt hl (by omega))).2.2.1 l5 (Nat.le_refl _)) fun r2 hr2 => ?_
                by_cases c5 : r2.2.curtok = .ch ')'
                · rw [if_pos c5]
                  refine good_next (ne_eof_of c5 (by simp)) fun l6 h6 => ?_
                  exact good_pure _ _ (by simp only; omega)
                · rw [if_neg c5]; exact good_throw _ _
              · rw [if_neg c4]; exact good_throw _ _
            · rw [if_neg c3]; exact good_throw _ _
          · rw [if_neg c2]; exact good_throw _ _
        · rw [if_neg c1]; exact good_throw _ _
      · rw [if_neg hs]
        by_cases c1 : l1.curtok = .ch '('
        · rw [if_pos c1]
          cases env.gen l.curident with
          | none => exact good_throw _ _
          | some f =>
            simp only
            refine good_next (ne_eof_of c1 (by simp)) fun l2 h2 => ?_
            by_cases c2 : l2.curtok = .ch ')'
            · rw [if_pos c2]
              refine good_next (ne_eof_of c2 (by simp)) fun l3 h3 => ?_
              exact good_lift _ fun g => good_pure _ _ (by simp only; omega)
            · rw [if_neg c2]
              exact good_weaken ((ih _ (lt hl (by omega))).2.2.2.1 f [] l2 (Nat.le_refl _)) (by omega)
        · rw [if_neg c1]
          cases env.gen l.curident with
          | none =>
            simp only
            refine good_lift _ fun o => ?_
            cases o with
            | none => exact good_throw _ _
            | some g => exact good_pure _ _ (by simp only; omega)
          | some f => exact good_lift _ fun g => good_pure _ _ (by simp only; omega)
    have primary : ∀ l : Lex R, measure l ≤ n → Good l (parsePrimary env l) := by
      intro l hl
      rw [parsePrimary]
      cases hc : l.curtok with
      | eof => exact good_throw _ _
      | num => exact good_next (ne_eof_of hc (by simp)) fun l' h => good_pure _ _ (by simp only; omega)
      | sym => exact ident l hc hl
      | par => exact good_next (ne_eof_of hc (by simp)) fun l' h => good_pure _ _ (by simp only; omega)
      | ch c =>
        simp only
        by_cases h1 : c = '-'
        · rw [if_pos h1]; exact good_pure _ _ (Nat.le_refl _)
        · rw [if_neg h1]
          by_cases h2 : c = '('
          · rw [if_pos h2]; exact paren l (ne_eof_of hc (by simp)) hl
          · rw [if_neg h2]
            by_cases h3 : c = '['
            · rw [if_pos h3]
              exact good_next (ne_eof_of hc (by simp)) fun l' h =>
                good_weaken ((ih _ (lt hl h)).2.2.2.2.1 [] l' (Nat.le_refl _)) (by omega)
            · rw [if_neg h3]; exact good_throw _ _
    have rhs : ∀ (k : Int) (lhs : Gen R) (l : Lex R), measure l ≤ n → Good l (parseRHS env k lhs l) := by
      intro k lhs l hl
      rw [parseRHS]
      by_cases he : isEnd l.curtok = true
      · rw [if_pos he]; exact good_pure _ _ (Nat.le_refl _)
      · rw [if_neg he]
        cases hf : findOp env l.curtok with
        | none => exact good_throw _ _
        | some cp =>
          obtain ⟨c, p⟩ := cp
          simp only
          by_cases hp : p < k
          · rw [if_pos hp]; exact good_pure _ _ (Nat.le_refl _)
          · rw [if_neg hp]
            have hne : l.curtok ≠ .eof := by intro h; rw [h] at he; exact he rfl
            refine good_next hne fun l1 h1 => ?_
            refine good_bind ((ih _ (lt hl h1)).1 l1 (Nat.le_refl _)) fun r hr => ?_
            by_cases he2 : isEnd r.2.curtok = true
            · rw [if_pos he2]; exact good_pure _ _ (by simp only; omega)
            · rw [if_neg he2]
              cases hf2 : findOp env r.2.curtok with
              | none => exact good_throw _ _
              | some cq =>
                obtain ⟨c', q⟩ := cq
                simp only
                by_cases hpq : p < q
                · rw [if_pos hpq]
                  refine good_bind ((ih (measure r.2) (lt hl (by omega))).2.1 _ _ r.2 (Nat.le_refl _)) fun r' hr' => ?_
                  exact good_weaken ((ih (measure r'.2) (lt hl (by omega))).2.1 _ _ r'.2 (Nat.le_refl _)) (by omega)
                · rw [if_neg hpq]
                  exact good_weaken ((ih (measure r.2) (lt hl (by omega))).2.1 _ _ r.2 (Nat.le_refl _)) (by omega)
    have expr : ∀ l : Lex R, measure l ≤ n → Good l (parseExpr env l) := by
      intro l hl
      rw [parseExpr]
      exact good_bind (primary l hl) fun r hr => good_weaken (rhs 0 r.1 r.2 (by omega)) hr
    refine ⟨primary, rhs, expr, ?_, ?_, paren⟩
    · intro f acc l hl
      rw [parseArgs]
      refine good_bind (expr l hl) fun r hr => ?_
      by_cases c1 : r.2.curtok = .ch ')'
      · rw [if_pos c1]
        exact good_next (ne_eof_of c1 (by simp)) fun l' h => good_lift _ fun g => good_pure _ _ (by simp only; omega)
      · rw [if_neg c1]
        by_cases c2 : r.2.curtok = .ch ','
        · rw [if_pos c2]
          exact good_next (ne_eof_of c2 (by simp)) fun l' h =>
            good_weaken ((ih (measure l') (by omega)).2.2.2.1 f _ l' (Nat.le_refl _)) (by omega)
        · rw [if_neg c2]; exact good_throw _ _
    · intro acc l hl
      rw [parseVars]
      by_cases c1 : l.curtok = .ch ']'
      · rw [if_pos c1]
        refine good_next (ne_eof_of c1 (by simp)) fun l1 h1 => ?_
        by_cases c2 : l1.curtok = .ch '('
        · rw [if_pos c2]
          refine good_bind ((ih (measure l1) (by omega)).2.2.2.2.2 l1 (ne_eof_of c2 (by simp)) (Nat.le_refl _)) fun r hr => ?_
          exact good_pure _ _ (by simp only; omega)
        · rw [if_neg c2]; exact good_throw _ _
      · rw [if_neg c1]
        by_cases c2 : l.curtok = .sym
        · rw [if_pos c2]
          refine good_next (ne_eof_of c2 (by simp)) fun l1 h1 => ?_
          by_cases c3 : l1.curtok = .ch '='
          · rw [if_pos c3]
            refine good_next (ne_eof_of c3 (by simp)) fun l2 h2 => ?_
            refine good_bind ((ih (measure l2) (by omega)).2.2.1 l2 (Nat.le_refl _)) fun r hr => ?_
            by_cases c4 : r.2.curtok = .ch ','
            · rw [if_pos c4]
              exact good_next (ne_eof_of c4 (by simp)) fun l3 h3 =>
                good_weaken ((ih (measure l3) (by omega)).2.2.2.2.1 _ l3 (Nat.le_refl _)) (by omega)
            · rw [if_neg c4]
              exact good_weaken ((ih (measure r.2) (by omega)).2.2.2.2.1 _ r.2 (Nat.le_refl _)) (by omega)
          · rw [if_neg c3]; exact good_throw _ _
        · rw [if_neg c2]; exact good_throw _ _

/-- Parsing any string whatsoever terminates: it yields a generator or an exception. -/
theorem C14_terminates (env : Env R) (s : Chars) :
    ∃ o : Except Err (Gen R), parseString env s = (some o : Option (Except Err (Gen R))) := by
  unfold parseString next
  cases hn : nextToken env (lexInit s) with
  | error e => exact ⟨.error e, rfl⟩
  | ok l =>
    obtain ⟨o, h, _⟩ := (all_good env (measure l)).2.2.1 l (Nat.le_refl _)
    have : (ExceptT.mk (some (Except.ok l)) : P (Lex R)) = pure l := rfl
    rw [this, bind_ok, h]
    cases o with
    | error e => exact ⟨.error e, rfl⟩
    | ok r =>
      have h2 : (some (Except.ok r) : P (Gen R × Lex R)) = (pure r : P (Gen R × Lex R)) := rfl
      rw [h2, bind_ok]
      by_cases hc : r.2.curtok = .eof
      · rw [if_pos hc]; exact ⟨.ok r.1, rfl⟩
      · rw [if_neg hc]; exact ⟨_, rfl⟩

end Verif.Expr
