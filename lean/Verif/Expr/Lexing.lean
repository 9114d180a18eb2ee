import Verif.Expr.Lemmas
/-!
# Expression parser: the lexer delivers the tokens the text spells
-/
namespace Verif.Expr
open Verif.Str (Chars)
variable {R : Type}

theorem digit_facts (c : Char) (h : isDigit c = true) : c ≠ '.' ∧ c ≠ 'e' ∧ c ≠ 'E' ∧ isSpace c = false := by
  have hd : '0' ≤ c ∧ c ≤ '9' := by simpa [isDigit] using h
  have hn : (48 : Nat) ≤ c.toNat ∧ c.toNat ≤ 57 := ⟨hd.1, hd.2⟩
  refine ⟨?_, ?_, ?_, ?_⟩
  · rintro rfl; exact absurd hn (by decide)
  · rintro rfl; exact absurd hn (by decide)
  · rintro rfl; exact absurd hn (by decide)
  · cases hs : isSpace c with
    | false => rfl
    | true =>
      simp only [isSpace, Bool.or_eq_true, decide_eq_true_eq] at hs
      rcases hs with ((((rfl | rfl) | rfl) | rfl) | rfl) | rfl <;> exact absurd hn (by decide)

/-- What ends a number. -/
def NumEnd (s : Chars) : Prop := ∀ c, s.head? = some c → isDigit c = false ∧ c ≠ '.' ∧ c ≠ 'e' ∧ c ≠ 'E'

theorem lexNum_end (dec exp : Bool) (acc s : Chars) (h : NumEnd s) : lexNum dec exp acc s = .ok (acc, s) := by
  cases s with
  | nil => rfl
  | cons c cs =>
    obtain ⟨h1, h2, h3, h4⟩ := h c rfl
    cases cs <;> simp [lexNum, h1, h2, h3, h4]

theorem lexNum_digits (dec exp : Bool) (s : Chars) : ∀ (ds acc : Chars), (∀ c ∈ ds, isDigit c = true) →
    lexNum dec exp acc (ds ++ s) = lexNum dec exp (acc ++ ds) s
  | [], acc, _ => by simp
  | d :: ds, acc, h => by
    obtain ⟨h1, h2, h3, _⟩ := digit_facts d (h d (by simp))
    have hd := h d (by simp)
    have ih := lexNum_digits dec exp s ds (acc ++ [d]) (fun c hc => h c (by simp [hc]))
    have : lexNum dec exp acc (d :: (ds ++ s)) = lexNum dec exp (acc ++ [d]) (ds ++ s) := by
      rw [lexNum.eq_def]
      simp [h1, h2, h3, hd]
    rw [List.cons_append, this, ih]
    simp

theorem lexNum_text {t norm s : Chars} (h : NumText t norm) (hs : NumEnd s) :
    lexNum false false [] (t ++ s) = .ok (norm, s) := by
  obtain ⟨d1, d2, e, en, h1, h2, _, h4, rfl, rfl⟩ := h
  have hexp : ∀ (dec : Bool) (acc : Chars), lexNum dec false acc (e ++ s) = .ok (acc ++ en, s) := by
    intro dec acc
    rcases h4 with ⟨rfl, rfl⟩ | ⟨x, c, ds, rfl, rfl, hx, hc, hds⟩
    · simpa using lexNum_end dec false acc s hs
    · have hx' : x = 'E' ∨ x = 'e' := hx.symm
      have hxd : ¬ x = '.' := by rcases hx with rfl | rfl <;> decide
      have hc' : ¬ (c ≠ '+' ∧ c ≠ '-' ∧ isDigit c = false) := by
        rintro ⟨a, b, d⟩
        rcases hc with h | h | h
        · exact a h
        · exact b h
        · rw [h] at d; simp at d
      have : lexNum dec false acc (x :: c :: (ds ++ s)) = lexNum dec true (acc ++ ['e', c]) (ds ++ s) := by
        rw [lexNum.eq_def]
        simp only
        rw [if_neg hxd, if_pos hx', if_neg (by simp), if_neg hc']
      simp only [List.cons_append]
      rw [this, lexNum_digits dec true s ds _ hds, lexNum_end _ _ _ _ hs]
      simp
  rw [List.append_assoc, List.append_assoc, lexNum_digits false false _ d1 [] h1]
  rcases h2 with rfl | ⟨d3, rfl, h3⟩
  · simp only [List.nil_append]; rw [hexp]; simp
  · have : lexNum false false ([] ++ d1) (('.' :: d3) ++ (e ++ s)) = lexNum true false ([] ++ d1 ++ ['.']) (d3 ++ (e ++ s)) := by
      rw [List.cons_append, lexNum.eq_def]
      simp
    rw [this, lexNum_digits true false _ d3 _ h3, hexp]
    simp

theorem numText_head {t norm : Chars} (h : NumText t norm) :
    ∃ c r, t = c :: r ∧ (isDigit c = true ∨ c = '.') ∧ isSpace c = false := by
  obtain ⟨d1, d2, e, en, h1, h2, hne, _, rfl, _⟩ := h
  cases d1 with
  | cons c r => exact ⟨c, r ++ d2 ++ e, rfl, .inl (h1 c (by simp)), (digit_facts c (h1 c (by simp))).2.2.2⟩
  | nil =>
    rcases h2 with rfl | ⟨d3, rfl, _⟩
    · simp at hne
    · exact ⟨'.', d3 ++ e, rfl, .inr rfl, by decide⟩

/-- What ends a symbol. -/
def SymEnd (reserved s : Chars) : Prop :=
  ∀ c, s.head? = some c → c ≠ '\\' ∧ c ≠ '`' ∧ (isSpace c = true ∨ c ∈ reserved)

theorem lexSym_end (reserved acc s : Chars) (h : SymEnd reserved s) : lexSym reserved false acc s = .ok (acc, s) := by
  cases s with
  | nil => rfl
  | cons c cs =>
    obtain ⟨h1, h2, h3⟩ := h c rfl
    rw [lexSym.eq_def]
    simp only
    rw [if_neg h1, if_neg h2, if_pos h3]

theorem lexSym_quoted (reserved s : Chars) : ∀ (q acc : Chars), '`' ∉ q →
    lexSym reserved true acc (q ++ '`' :: s) = lexSym reserved false (acc ++ q) s
  | [], acc, _ => by
    rw [List.nil_append, lexSym.eq_def]
    simp
  | c :: q, acc, h => by
    simp only [List.mem_cons, not_or] at h
    have hc : ¬ c = '`' := fun e => h.1 e.symm
    have : lexSym reserved true acc (c :: (q ++ '`' :: s)) = lexSym reserved true (acc ++ [c]) (q ++ '`' :: s) := by
      rw [lexSym.eq_def]
      simp only
      rw [if_neg hc]
    rw [List.cons_append, this, lexSym_quoted reserved s q _ h.2]
    simp

theorem lexSym_text {reserved n t : Chars} (h : SymText reserved n t) : ∀ (acc s : Chars), SymEnd reserved s →
    lexSym reserved false acc (t ++ s) = .ok (acc ++ n, s) := by
  induction h with
  | nil => intro acc s hs; simpa using lexSym_end reserved acc s hs
  | plain c n t h1 h2 h3 h4 _ ih =>
    intro acc s hs
    have : lexSym reserved false acc (c :: (t ++ s)) = lexSym reserved false (acc ++ [c]) (t ++ s) := by
      rw [lexSym.eq_def]
      simp only
      rw [if_neg h3, if_neg h4, if_neg (by simp [h1, h2])]
    rw [List.cons_append, this, ih _ s hs]
    simp
  | esc c n t _ ih =>
    intro acc s hs
    have : lexSym reserved false acc ('\\' :: c :: (t ++ s)) = lexSym reserved false (acc ++ [c]) (t ++ s) := by
      rw [lexSym.eq_def]
      simp
    rw [List.cons_append, List.cons_append, this, ih _ s hs]
    simp
  | quote q n t hq hb _ ih =>
    intro acc s hs
    cases q with
    | nil => exact absurd rfl hq
    | cons c q =>
      simp only [List.mem_cons, not_or] at hb
      have : lexSym reserved false acc ('`' :: c :: (q ++ '`' :: (t ++ s))) =
          lexSym reserved true (acc ++ [c]) (q ++ '`' :: (t ++ s)) := by
        rw [lexSym.eq_def]
        simp
      have e : '`' :: (c :: q) ++ '`' :: t ++ s = '`' :: c :: (q ++ '`' :: (t ++ s)) := by simp
      rw [e, this, lexSym_quoted reserved _ q _ hb.2, ih _ s hs]
      simp

theorem lexPar_text (s : Chars) : ∀ (n acc : Chars), '{' ∉ n → '}' ∉ n →
    lexPar acc (n ++ '}' :: s) = .ok (acc ++ n, s)
  | [], acc, _, _ => by simp [lexPar]
  | c :: n, acc, h1, h2 => by
    simp only [List.mem_cons, not_or] at h1 h2
    have hc1 : ¬ c = '{' := fun e => h1.1 e.symm
    have hc2 : ¬ c = '}' := fun e => h2.1 e.symm
    simp only [List.cons_append, lexPar, hc1, hc2, if_false]
    rw [lexPar_text s n _ h1.2 h2.2]
    simp

theorem dropWhile_ws (w s : Chars) (hw : ∀ c ∈ w, isSpace c = true) (hs : ∀ c, s.head? = some c → isSpace c = false) :
    (w ++ s).dropWhile isSpace = s := by
  induction w with
  | nil =>
    cases s with
    | nil => rfl
    | cons c r => simp [hs c rfl]
  | cons a w ih =>
    simp only [List.cons_append, List.dropWhile_cons, hw a (by simp), if_true]
    exact ih (fun c hc => hw c (by simp [hc]))

theorem symText_head {reserved n t : Chars} (h : SymText reserved n t) (hb : '\\' ∉ reserved) {c : Char} {r : Chars}
    (ht : t = c :: r) : c = '`' ∨ c ∉ reserved := by
  cases h with
  | nil => simp at ht
  | plain d n t h1 h2 h3 h4 h => injection ht with e _; subst e; exact .inr h1
  | esc d n t h => injection ht with e _; subst e; exact .inr hb
  | quote q n t hq hb h => injection ht with e _; exact .inl e.symm

/-- From any lexer state, reading the next token starts delivering the tokens of the text. -/
theorem lexer_ok {env : Env R} (hok : EnvOk env) {items : List Item} {s : Chars} (h : Spelled env items s) :
    ∀ (l : Lex R) (ts : List (Tok R)), l.rest = s → tokens env (decide (l.curtok = .num)) items = some ts →
    ∃ l', nextToken env l = .ok l' ∧ Toks env l' ts := by
  induction h with
  | nil w hw =>
    intro l ts hl ht
    simp [tokens] at ht
    subst ht
    refine ⟨{ l with curtok := .eof, rest := [] }, ?_, .nil _ rfl⟩
    unfold nextToken
    rw [hl]
    have := dropWhile_ws w [] hw (by simp)
    rw [List.append_nil] at this
    rw [this]
  | cons w t s i is hw ht hb hs ih =>
    intro l ts hl htk
    cases i with
    | num norm =>
      simp only [Text] at ht
      obtain ⟨c, r, htc, hcd, hcs⟩ := numText_head ht
      have hdrop : l.rest.dropWhile isSpace = c :: (r ++ s) := by
        rw [hl, List.append_assoc]
        rw [dropWhile_ws w (t ++ s) hw (by rw [htc]; simp only [List.cons_append, List.head?_cons]; rintro _ ⟨⟩; exact hcs)]
        rw [htc]; rfl
      cases hv : env.stod norm with
      | none => simp [tokens, hv] at htk
      | some v =>
        cases hrest : tokens env true is with
        | none => simp [tokens, hv, hrest] at htk
        | some ts' =>
          simp [tokens, hv, hrest] at htk
          subst htk
          let l' : Lex R := { l with curtok := .num, curval := v, rest := s }
          obtain ⟨l'', h1, h2⟩ := ih l' ts' rfl (by simpa [l'] using hrest)
          refine ⟨l', ?_, .cons l' l'' _ _ ⟨rfl, rfl⟩ h1 h2⟩
          unfold nextToken
          rw [hdrop]
          simp only
          rw [if_pos hcd]
          have := lexNum_text ht hb
          rw [htc, List.cons_append] at this
          simp only [this, hv, l']
    | sym n =>
      obtain ⟨hst, c, r, htc, hcd, hcdot, hcs⟩ := ht
      have hdrop : ∀ w' : Chars, (∀ c ∈ w', isSpace c = true) → (w' ++ (t ++ s)).dropWhile isSpace = c :: (r ++ s) := by
        intro w' hw'
        rw [dropWhile_ws w' (t ++ s) hw' (by rw [htc]; simp only [List.cons_append, List.head?_cons]; rintro _ ⟨⟩; exact hcs)]
        rw [htc]; rfl
      have hlex : lexSym env.reserved false [] (c :: (r ++ s)) = .ok (n, s) := by
        have := lexSym_text hst [] s hb
        rw [htc, List.cons_append] at this
        simpa using this
      have hnd : ¬ (isDigit c = true ∨ c = '.') := by simp [hcd, hcdot]
      have hhd := symText_head hst hok.backslash htc
      -- the symbol itself
      have key : ∀ (k : Lex R) (w' : Chars) (ts' : List (Tok R)), (∀ c ∈ w', isSpace c = true) → k.rest = w' ++ (t ++ s) →
          k.curtok ≠ .num → tokens env false is = some ts' →
          ∃ l', nextToken env k = .ok l' ∧ Toks env l' (.sym n :: ts') := by
        intro k w' ts' hw' hk hkn hts
        let l' : Lex R := { k with curtok := .sym, curident := n, rest := s }
        obtain ⟨l'', h1, h2⟩ := ih l' ts' rfl (by simpa [l'] using hts)
        refine ⟨l', ?_, .cons l' l'' _ _ ⟨rfl, rfl⟩ h1 h2⟩
        unfold nextToken
        rw [hk, hdrop w' hw']
        simp only
        rw [if_neg hnd, if_pos hhd, if_neg hkn]
        simp only [hlex, l']
      cases hrest : tokens env false is with
      | none => simp [tokens, hrest] at htk
      | some ts' =>
        by_cases hn : l.curtok = .num
        · simp [tokens, hrest, hn] at htk
          subst htk
          let l1 : Lex R := { l with curtok := .ch '*', rest := c :: (r ++ s) }
          obtain ⟨l2, h1, h2⟩ := key l1 [] ts' (by simp) (by simp [l1, htc]) (by simp [l1]) hrest
          refine ⟨l1, ?_, .cons l1 l2 _ _ rfl h1 h2⟩
          unfold nextToken
          rw [hl, List.append_assoc, hdrop w hw]
          simp only
          rw [if_neg hnd, if_pos hhd, if_pos hn]
        · simp [tokens, hrest, hn] at htk
          subst htk
          exact key l w ts' hw (by rw [hl]; simp) hn hrest
    | par n =>
      obtain ⟨htc, hne, hn1, hn2⟩ := ht
      have hdrop : ∀ w' : Chars, (∀ c ∈ w', isSpace c = true) →
          (w' ++ (t ++ s)).dropWhile isSpace = '{' :: (n ++ '}' :: s) := by
        intro w' hw'
        rw [dropWhile_ws w' (t ++ s) hw' (by rw [htc]; simp only [List.cons_append, List.head?_cons]; rintro _ ⟨⟩; decide)]
        rw [htc]; simp
      have hnd : ¬ (isDigit '{' = true ∨ '{' = '.') := by decide
      have hres : ¬ ('{' = '`' ∨ '{' ∉ env.reserved) := by
        have := hok.reserved '{' (by decide)
        simp [this]
      have hpar : ¬ ('{' = '(' ∧ l.curtok = .num) := by simp
      have key : ∀ (k : Lex R) (w' : Chars) (ts' : List (Tok R)), (∀ c ∈ w', isSpace c = true) → k.rest = w' ++ (t ++ s) →
          k.curtok ≠ .num → tokens env false is = some ts' →
          ∃ l', nextToken env k = .ok l' ∧ Toks env l' (.par n :: ts') := by
        intro k w' ts' hw' hk hkn hts
        let l' : Lex R := { k with curtok := .par, curident := n, rest := s }
        obtain ⟨l'', h1, h2⟩ := ih l' ts' rfl (by simpa [l'] using hts)
        refine ⟨l', ?_, .cons l' l'' _ _ ⟨rfl, rfl⟩ h1 h2⟩
        unfold nextToken
        rw [hk, hdrop w' hw']
        simp only
        rw [if_neg hnd, if_neg hres, if_neg (by simp), if_pos trivial, if_neg hkn]
        cases hnc : n with
        | nil => exact absurd hnc hne
        | cons d n' =>
          rw [hnc] at hn1 hn2
          simp only [List.mem_cons, not_or] at hn1 hn2
          simp only [List.cons_append]
          rw [lexPar_text s n' [d] hn1.2 hn2.2]
          simp [l', hnc]
      cases hrest : tokens env false is with
      | none => simp [tokens, hrest] at htk
      | some ts' =>
        by_cases hn : l.curtok = .num
        · simp [tokens, hrest, hn] at htk
          subst htk
          let l1 : Lex R := { l with curtok := .ch '*', rest := '{' :: (n ++ '}' :: s) }
          obtain ⟨l2, h1, h2⟩ := key l1 [] ts' (by simp) (by simp [l1, htc]) (by simp [l1]) hrest
          refine ⟨l1, ?_, .cons l1 l2 _ _ rfl h1 h2⟩
          unfold nextToken
          rw [hl, List.append_assoc, hdrop w hw]
          simp only
          rw [if_neg hnd, if_neg hres, if_neg (by simp), if_pos trivial, if_pos hn]
        · simp [tokens, hrest, hn] at htk
          subst htk
          exact key l w ts' hw (by rw [hl]; simp) hn hrest
    | ch c =>
      obtain ⟨htc, hcr, hcb, hcbr, hcd, hcdot, hcs⟩ := ht
      have hdrop : ∀ w' : Chars, (∀ c ∈ w', isSpace c = true) → (w' ++ (t ++ s)).dropWhile isSpace = c :: s := by
        intro w' hw'
        rw [dropWhile_ws w' (t ++ s) hw' (by rw [htc]; simp only [List.cons_append, List.head?_cons]; rintro _ ⟨⟩; exact hcs)]
        rw [htc]; rfl
      have hnd : ¬ (isDigit c = true ∨ c = '.') := by simp [hcd, hcdot]
      have hres : ¬ (c = '`' ∨ c ∉ env.reserved) := by simp [hcr, hcb]
      have key : ∀ (k : Lex R) (w' : Chars) (ts' : List (Tok R)), (∀ c ∈ w', isSpace c = true) → k.rest = w' ++ (t ++ s) →
          ¬ (c = '(' ∧ k.curtok = .num) → tokens env false is = some ts' →
          ∃ l', nextToken env k = .ok l' ∧ Toks env l' (.ch c :: ts') := by
        intro k w' ts' hw' hk hkn hts
        let l' : Lex R := { k with curtok := .ch c, rest := s }
        obtain ⟨l'', h1, h2⟩ := ih l' ts' rfl (by simpa [l'] using hts)
        refine ⟨l', ?_, .cons l' l'' _ _ rfl h1 h2⟩
        unfold nextToken
        rw [hk, hdrop w' hw']
        simp only
        rw [if_neg hnd, if_neg hres, if_neg hkn, if_neg hcbr]
      cases hrest : tokens env false is with
      | none => simp [tokens, hrest] at htk
      | some ts' =>
        by_cases hn : l.curtok = .num ∧ c = '('
        · simp [tokens, hrest, hn] at htk
          subst htk
          let l1 : Lex R := { l with curtok := .ch '*', rest := c :: s }
          obtain ⟨l2, h1, h2⟩ := key l1 [] ts' (by simp) (by simp [l1, htc]) (by simp [l1]) hrest
          rw [hn.2] at h2
          refine ⟨l1, ?_, .cons l1 l2 _ _ rfl h1 h2⟩
          unfold nextToken
          rw [hl, List.append_assoc, hdrop w hw]
          simp only
          rw [if_neg hnd, if_neg hres, if_pos ⟨hn.2, hn.1⟩]
        · simp [tokens, hrest, hn] at htk
          subst htk
          exact key l w ts' hw (by rw [hl]; simp) (fun h => hn ⟨h.2, h.1⟩) hrest

end Verif.Expr
