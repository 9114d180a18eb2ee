import Verif.Expr.Factory
import Mathlib.Data.List.Infix
/-!
# FieldFactory: running the parser with fewer answers

With the answers for only some names, the parser does what it does with all of them, or stops at a name occurring in the
text.
-/
namespace Verif.Expr.Fac
open Verif.Str (Chars)
open Verif.Expr
variable {R : Type}

/-- The names that can be read off the text, starting anywhere in it. -/
def symsOf (reserved : Chars) (text : Chars) : List Chars :=
  text.tails.filterMap fun t => match lexSym reserved false [] t with
    | .ok r => some r.1
    | .error _ => none

theorem mem_syms {reserved text t : Chars} {r : Chars × Chars} (ht : t <:+ text)
    (h : lexSym reserved false [] t = .ok r) : r.1 ∈ symsOf reserved text := by
  unfold symsOf
  rw [List.mem_filterMap]
  exact ⟨t, (List.mem_tails _ _).mpr ht, by simp [h]⟩

theorem suf_cons {c : Char} {s t : Chars} (h : s <:+ t) : s <:+ c :: t := h.trans (List.suffix_cons _ _)

theorem lexNum_suf : ∀ (dec exp : Bool) (acc s : Chars) (r : Chars × Chars), lexNum dec exp acc s = .ok r → r.2 <:+ s
  | _, _, _, [], r, h => by simp [lexNum] at h; subst h; simp
  | dec, exp, acc, [c], r, h => by
    simp only [lexNum] at h
    split at h
    · split at h
      · simp at h
      · cases h; exact List.suffix_cons _ _
    · split at h
      · split at h <;> simp at h
      · split at h
        · cases h; exact List.suffix_refl _
        · cases h; exact List.suffix_cons _ _
  | dec, exp, acc, c :: d :: ds, r, h => by
    rw [lexNum] at h
    split at h
    · split at h
      · simp at h
      · exact suf_cons (lexNum_suf _ _ _ _ _ h)
    · split at h
      · split at h
        · simp at h
        · split at h
          · simp at h
          · exact suf_cons (suf_cons (lexNum_suf _ _ _ _ _ h))
      · split at h
        · cases h; exact List.suffix_refl _
        · exact suf_cons (lexNum_suf _ _ _ _ _ h)

theorem lexSym_suf (reserved : Chars) : ∀ (b : Bool) (acc s : Chars) (r : Chars × Chars),
    lexSym reserved b acc s = .ok r → r.2 <:+ s
  | false, _, [], r, h => by simp [lexSym] at h; subst h; simp
  | true, _, [], r, h => by simp [lexSym] at h
  | true, acc, c :: cs, r, h => by
    simp only [lexSym] at h
    split at h <;> exact suf_cons (lexSym_suf reserved _ _ _ _ h)
  | false, acc, [c], r, h => by
    simp only [lexSym] at h
    by_cases h1 : c = '\\'
    · rw [if_pos h1] at h; simp at h
    · rw [if_neg h1] at h
      by_cases h2 : c = '`'
      · rw [if_pos h2] at h; simp at h
      · rw [if_neg h2] at h
        split at h <;> cases h
        · exact List.suffix_refl _
        · exact List.suffix_cons _ _
  | false, acc, c :: d :: ds, r, h => by
    rw [lexSym] at h
    by_cases h1 : c = '\\'
    · rw [if_pos h1] at h; exact suf_cons (suf_cons (lexSym_suf reserved _ _ _ _ h))
    · rw [if_neg h1] at h
      by_cases h2 : c = '`'
      · rw [if_pos h2] at h; exact suf_cons (suf_cons (lexSym_suf reserved _ _ _ _ h))
      · rw [if_neg h2] at h
        split at h
        · cases h; exact List.suffix_refl _
        · exact suf_cons (lexSym_suf reserved _ _ _ _ h)

theorem lexPar_suf : ∀ (acc s : Chars) (r : Chars × Chars), lexPar acc s = .ok r → r.2 <:+ s
  | _, [], _, h => by simp [lexPar] at h
  | acc, c :: cs, r, h => by
    simp only [lexPar] at h
    split at h
    · simp at h
    · split at h
      · cases h; exact List.suffix_cons _ _
      · exact suf_cons (lexPar_suf _ _ _ h)

/-- The lexer is somewhere in the text. -/
def Inv (env : Env R) (text : Chars) (l : Lex R) : Prop :=
  (l.curtok = .sym → l.curident ∈ symsOf env.reserved text) ∧ l.rest <:+ text

theorem next_inv {env : Env R} {text : Chars} {l l' : Lex R} (h : nextToken env l = .ok l') (hi : Inv env text l) :
    Inv env text l' := by
  have hd : l.rest.dropWhile isSpace <:+ text := (List.dropWhile_suffix _).trans hi.2
  unfold nextToken at h
  cases hc : l.rest.dropWhile isSpace with
  | nil => rw [hc] at h; cases h; exact ⟨by simp, List.nil_suffix⟩
  | cons c cs =>
    rw [hc] at h hd
    have hcs : cs <:+ text := (List.suffix_cons c cs).trans hd
    dsimp only at h
    split at h
    · split at h
      · simp at h
      · rename_i s r h2
        split at h
        · simp at h
        · cases h
          exact ⟨by simp, (lexNum_suf _ _ _ _ _ h2).trans hd⟩
    · split at h
      · split at h
        · cases h; exact ⟨by simp, hd⟩
        · split at h
          · simp at h
          · rename_i s r h2
            cases h
            exact ⟨fun _ => mem_syms hd h2, (lexSym_suf _ _ _ _ _ h2).trans hd⟩
      · split at h
        · cases h; exact ⟨by simp, hd⟩
        · split at h
          · split at h
            · cases h; exact ⟨by simp, hd⟩
            · split at h
              · simp at h
              · split at h
                · simp at h
                · rename_i d ds s r h2
                  cases h
                  exact ⟨by simp, (lexPar_suf _ _ _ h2).trans ((List.suffix_cons _ _).trans hcs)⟩
          · cases h; exact ⟨by simp, hcs⟩

theorem lexNum_ask (m : Chars) : ∀ (dec exp : Bool) (acc s : Chars), lexNum dec exp acc s ≠ .error (.ask m)
  | _, _, _, [], h => by simp [lexNum] at h
  | dec, exp, acc, [c], h => by
    simp only [lexNum] at h
    split at h
    · split at h <;> simp at h
    · split at h
      · split at h <;> simp at h
      · split at h <;> simp at h
  | dec, exp, acc, c :: d :: ds, h => by
    rw [lexNum] at h
    split at h
    · split at h
      · simp at h
      · exact lexNum_ask m _ _ _ _ h
    · split at h
      · split at h
        · simp at h
        · split at h
          · simp at h
          · exact lexNum_ask m _ _ _ _ h
      · split at h
        · simp at h
        · exact lexNum_ask m _ _ _ _ h

theorem lexSym_ask (reserved m : Chars) : ∀ (b : Bool) (acc s : Chars), lexSym reserved b acc s ≠ .error (.ask m)
  | false, _, [], h => by simp [lexSym] at h
  | true, _, [], h => by simp [lexSym] at h
  | true, acc, c :: cs, h => by
    simp only [lexSym] at h
    split at h <;> exact lexSym_ask reserved m _ _ _ h
  | false, acc, [c], h => by
    simp only [lexSym] at h
    by_cases h1 : c = '\\'
    · rw [if_pos h1] at h; simp at h
    · rw [if_neg h1] at h
      by_cases h2 : c = '`'
      · rw [if_pos h2] at h; simp at h
      · rw [if_neg h2] at h
        split at h <;> simp at h
  | false, acc, c :: d :: ds, h => by
    rw [lexSym] at h
    by_cases h1 : c = '\\'
    · rw [if_pos h1] at h; exact lexSym_ask reserved m _ _ _ h
    · rw [if_neg h1] at h
      by_cases h2 : c = '`'
      · rw [if_pos h2] at h; exact lexSym_ask reserved m _ _ _ h
      · rw [if_neg h2] at h
        split at h
        · simp at h
        · exact lexSym_ask reserved m _ _ _ h

theorem lexPar_ask (m : Chars) : ∀ (acc s : Chars), lexPar acc s ≠ .error (.ask m)
  | _, [], h => by simp [lexPar] at h
  | acc, c :: cs, h => by
    simp only [lexPar] at h
    split at h
    · simp at h
    · split at h
      · simp at h
      · exact lexPar_ask m _ _ h

theorem next_ask (env : Env R) (l : Lex R) (m : Chars) : nextToken env l ≠ .error (.ask m) := by
  intro h
  unfold nextToken at h
  split at h
  · simp at h
  · split at h
    · split at h
      · rename_i h2; cases h; exact lexNum_ask m _ _ _ _ h2
      · split at h <;> simp at h
    · split at h
      · split at h
        · simp at h
        · split at h
          · rename_i h2; cases h; exact lexSym_ask _ m _ _ _ h2
          · simp at h
      · split at h
        · simp at h
        · split at h
          · split at h
            · simp at h
            · split at h
              · simp at h
              · split at h
                · rename_i h2; cases h; exact lexPar_ask m _ _ h2
                · simp at h
          · simp at h

/-- The meanings and the registered generators never answer with `ask`, which is no exception of the program. -/
def NoAsk (env : Env R) (ρ : Chars → Except Err (Option (Gen R))) : Prop :=
  (∀ n m, ρ n ≠ .error (.ask m)) ∧ ∀ s f a m, env.gen s = some f → f a ≠ .error (.ask m)

section
variable [Zero R] (env : Env R) (text : Chars) (ans : List (Chars × Gen R)) (ρ : Chars → Except Err (Option (Gen R)))

/-- What the run with some answers (`x`) and with all of them (`y`) have to do with each other. -/
def Sim (l : Lex R) (x y : P (Gen R × Lex R)) : Prop :=
  (∃ o : Except Err (Gen R × Lex R), y = (some o : Option _) ∧
    (∀ r, o = .ok r → measure r.2 ≤ measure l ∧ Inv env text r.2) ∧ (NoAsk env ρ → ∀ m, o ≠ .error (.ask m))) ∧
  (x = y ∨ ∃ n, n ∈ symsOf env.reserved text ∧ ans.lookup n = none ∧ x = throw (.ask n) ∧
    ∀ r, y = pure r → ∃ g, ρ n = .ok (some g))

variable {env text ans ρ}

omit [Zero R] in
theorem sim_throw (l : Lex R) (e : Err) (he : ∀ m, e ≠ .ask m) : Sim env text ans ρ l (throw e) (throw e) :=
  ⟨⟨.error e, rfl, by simp, fun _ m h => he m (by cases h; rfl)⟩, .inl rfl⟩

omit [Zero R] in
theorem sim_pure (l : Lex R) (r : Gen R × Lex R) (h : measure r.2 ≤ measure l) (hi : Inv env text r.2) :
    Sim env text ans ρ l (pure r) (pure r) :=
  ⟨⟨.ok r, rfl, by rintro _ ⟨⟩; exact ⟨h, hi⟩, by simp⟩, .inl rfl⟩

omit [Zero R] in
theorem nextToken_withR (r : Chars → Except Err (Option (Gen R))) (l : Lex R) :
    nextToken (withR env r) l = nextToken env l := rfl

omit [Zero R] in
theorem sim_next {l l0 : Lex R} {f g : Lex R → P (Gen R × Lex R)} (hne : l.curtok ≠ .eof) (hi : Inv env text l)
    (h : ∀ l', measure l' < measure l → Inv env text l' → Sim env text ans ρ l0 (f l') (g l')) :
    Sim env text ans ρ l0 (next (withR env (known ans)) l >>= f) (next (withR env ρ) l >>= g) := by
  unfold next
  rw [nextToken_withR, nextToken_withR]
  cases hn : nextToken env l with
  | error e => exact sim_throw _ _ fun m h => next_ask env l m (by rw [hn, h])
  | ok l' => exact h l' (nextToken_measure hn hne) (next_inv hn hi)

omit [Zero R] in
theorem sim_lift {l0 : Lex R} {α : Type} (x : Except Err α) {f g : α → P (Gen R × Lex R)}
    (hx : NoAsk env ρ → ∀ m, x ≠ .error (.ask m)) (h : ∀ a, Sim env text ans ρ l0 (f a) (g a)) : Sim env text ans ρ l0 (lift x >>= f) (lift x >>= g) := by
  cases x with
  | error e => exact ⟨⟨.error e, rfl, by simp, fun ha m h => hx ha m (by cases h; rfl)⟩, .inl rfl⟩
  | ok a => exact h a

omit [Zero R] in
theorem sim_bind {l l0 : Lex R} {x y : P (Gen R × Lex R)} {f g : Gen R × Lex R → P (Gen R × Lex R)}
    (hx : Sim env text ans ρ l x y)
    (h : ∀ r, measure r.2 ≤ measure l → Inv env text r.2 → Sim env text ans ρ l0 (f r) (g r)) :
    Sim env text ans ρ l0 (x >>= f) (y >>= g) := by
  obtain ⟨⟨o, hy, hr, hna⟩, hxy⟩ := hx
  cases o with
  | error e =>
    have hy' : y >>= g = throw e := by rw [hy]; rfl
    refine ⟨⟨.error e, hy', by simp, fun ha m h => hna ha m (by cases h; rfl)⟩, ?_⟩
    rcases hxy with rfl | ⟨n, h1, h2, h3, h4⟩
    · left; rw [hy']; rw [hy]; rfl
    · refine .inr ⟨n, h1, h2, by rw [h3]; rfl, ?_⟩
      intro r hr'
      rw [hy'] at hr'
      cases hr'
  | ok r =>
    have hyr : y = pure r := hy
    have hy' : y >>= g = g r := by rw [hyr]; rfl
    obtain ⟨hm, hv⟩ := hr r rfl
    obtain ⟨hg, hfg⟩ := h r hm hv
    rw [hy']
    refine ⟨hg, ?_⟩
    rcases hxy with rfl | ⟨n, h1, h2, h3, h4⟩
    · rw [hyr]; exact hfg
    · exact .inr ⟨n, h1, h2, by rw [h3]; rfl, fun _ _ => h4 r hyr⟩

omit [Zero R] in
theorem sim_weaken {l l0 : Lex R} {x y : P (Gen R × Lex R)} (hx : Sim env text ans ρ l x y)
    (h : measure l ≤ measure l0) : Sim env text ans ρ l0 x y := by
  obtain ⟨⟨o, hy, hr, hna⟩, hxy⟩ := hx
  exact ⟨⟨o, hy, fun r h' => ⟨Nat.le_trans (hr r h').1 h, (hr r h').2⟩, hna⟩, hxy⟩

omit [Zero R] in
theorem sim_resolve {l0 : Lex R} {n : Chars} {f g : Option (Gen R) → P (Gen R × Lex R)}
    (hext : ∀ n g, ans.lookup n = some g → ρ n = .ok (some g)) (hn : n ∈ symsOf env.reserved text)
    (hnone : g none = throw (.parse "Couldn't find generator"))
    (h : ∀ a, Sim env text ans ρ l0 (f a) (g a)) :
    Sim env text ans ρ l0 (lift ((withR env (known ans)).resolve n) >>= f) (lift ((withR env ρ).resolve n) >>= g) := by
  cases ha : ans.lookup n with
  | some a =>
    have h1 : (withR env (known ans)).resolve n = .ok (some a) := by simp [withR, known, ha]
    have h2 : (withR env ρ).resolve n = .ok (some a) := hext n a ha
    rw [h1, h2]
    exact h (some a)
  | none =>
    have h1 : (withR env (known ans)).resolve n = .error (.ask n) := by simp [withR, known, ha]
    rw [h1]
    cases h2 : ρ n with
    | error e =>
      have h2' : (withR env ρ).resolve n = .error e := h2
      rw [h2']
      exact ⟨⟨.error e, rfl, by simp, fun hna m h => hna.1 n m (by cases h; exact h2)⟩, .inr ⟨n, hn, ha, rfl, fun r hr => by cases hr⟩⟩
    | ok o =>
      have h2' : (withR env ρ).resolve n = .ok o := h2
      rw [h2']
      refine ⟨(h o).1, .inr ⟨n, hn, ha, rfl, fun r hr => ?_⟩⟩
      cases o with
      | some g' => exact ⟨g', h2⟩
      | none =>
        have : g none = pure r := hr
        rw [hnone] at this
        cases this

theorem all_sim (hext : ∀ n g, ans.lookup n = some g → ρ n = .ok (some g)) : ∀ (n : Nat),
    (∀ l : Lex R, Inv env text l → measure l ≤ n →
      Sim env text ans ρ l (parsePrimary (withR env (known ans)) l) (parsePrimary (withR env ρ) l)) ∧
    (∀ (k : Int) (lhs : Gen R) (l : Lex R), Inv env text l → measure l ≤ n →
      Sim env text ans ρ l (parseRHS (withR env (known ans)) k lhs l) (parseRHS (withR env ρ) k lhs l)) ∧
    (∀ l : Lex R, Inv env text l → measure l ≤ n →
      Sim env text ans ρ l (parseExpr (withR env (known ans)) l) (parseExpr (withR env ρ) l)) ∧
    (∀ f acc (l : Lex R), (NoAsk env ρ → ∀ a m, f a ≠ .error (.ask m)) → Inv env text l → measure l ≤ n →
      Sim env text ans ρ l (parseArgs (withR env (known ans)) f acc l) (parseArgs (withR env ρ) f acc l)) ∧
    (∀ acc (l : Lex R), Inv env text l → measure l ≤ n →
      Sim env text ans ρ l (parseVars (withR env (known ans)) acc l) (parseVars (withR env ρ) acc l)) ∧
    (∀ l : Lex R, l.curtok ≠ .eof → Inv env text l → measure l ≤ n →
      Sim env text ans ρ l (parseParen (withR env (known ans)) l) (parseParen (withR env ρ) l)) := by
  intro n
  induction n using Nat.strongRecOn with
  | ind n ih =>
    have lt : ∀ {l l' : Lex R}, measure l ≤ n → measure l' < measure l → measure l' < n := fun h1 h2 => by omega
    have hgen : ∀ s, (withR env (known ans)).gen s = (withR env ρ).gen s := fun _ => rfl
    have hop : ∀ s, findOp (withR env (known ans)) s = findOp (withR env ρ) s := fun s => by cases s <;> rfl
    have paren : ∀ l : Lex R, l.curtok ≠ .eof → Inv env text l → measure l ≤ n →
        Sim env text ans ρ l (parseParen (withR env (known ans)) l) (parseParen (withR env ρ) l) := by
      intro l hne hi hl
      rw [parseParen, parseParen]
      refine sim_next hne hi fun l1 h1 i1 => ?_
      refine sim_bind ((ih _ (lt hl h1)).2.2.1 l1 i1 (Nat.le_refl _)) fun r hr ir => ?_
      by_cases hc : r.2.curtok = .ch ')' ∨ r.2.curtok = .ch ']'
      · rw [if_pos hc, if_pos hc]
        refine sim_next (by rcases hc with h | h <;> exact ne_eof_of h (by simp)) ir fun l2 h2 i2 => ?_
        exact sim_pure _ _ (by simp only; omega) i2
      · rw [if_neg hc, if_neg hc]; exact sim_throw _ _ (by simp)
    have ident : ∀ l : Lex R, l.curtok = .sym → Inv env text l → measure l ≤ n →
        Sim env text ans ρ l (parseIdent (withR env (known ans)) l) (parseIdent (withR env ρ) l) := by
      intro l hc hi hl
      have hsym := hi.1 hc
      rw [parseIdent, parseIdent]
      refine sim_next (ne_eof_of hc (by simp)) hi fun l1 h1 i1 => ?_
      by_cases hs : l.curident = "sum".toList
      · rw [if_pos hs, if_pos hs]
        by_cases c1 : l1.curtok = .ch '('
        · rw [if_pos c1, if_pos c1]
          refine sim_next (ne_eof_of c1 (by simp)) i1 fun l2 h2 i2 => ?_
          by_cases c2 : l2.curtok = .sym ∨ l2.curtok = .par
          · rw [if_pos c2, if_pos c2]
            refine sim_next (by rcases c2 with h | h <;> exact ne_eof_of h (by simp)) i2 fun l3 h3 i3 => ?_
            by_cases c3 : l3.curtok = .ch ','
            · rw [if_pos c3, if_pos c3]
              refine sim_next (ne_eof_of c3 (by simp)) i3 fun l4 h4 i4 => ?_
              refine sim_bind ((ih _ (lt hl (by omega))).2.2.1 l4 i4 (Nat.le_refl _)) fun r1 hr1 ir1 => ?_
              by_cases c4 : r1.2.curtok = .ch ','
              · rw [if_pos c4, if_pos c4]
                refine sim_next (ne_eof_of c4 (by simp)) ir1 fun l5 h5 i5 => ?_
                refine sim_bind ((ih _ (lt hl (by omega))).2.2.1 l5 i5 (Nat.le_refl _)) fun r2 hr2 ir2 => ?_
                by_cases c5 : r2.2.curtok = .ch ')'
                · rw [if_pos c5, if_pos c5]
                  refine sim_next (ne_eof_of c5 (by simp)) ir2 fun l6 h6 i6 => ?_
                  exact sim_pure _ _ (by simp only; omega) i6
                · rw [if_neg c5, if_neg c5]; exact sim_throw _ _ (by simp)
              · rw [if_neg c4, if_neg c4]; exact sim_throw _ _ (by simp)
            · rw [if_neg c3, if_neg c3]; exact sim_throw _ _ (by simp)
          · rw [if_neg c2, if_neg c2]; exact sim_throw _ _ (by simp)
        · rw [if_neg c1, if_neg c1]; exact sim_throw _ _ (by simp)
      · rw [if_neg hs, if_neg hs]
        by_cases c1 : l1.curtok = .ch '('
        · rw [if_pos c1, if_pos c1, hgen]
          cases hgs : (withR env ρ).gen l.curident with
          | none => exact sim_throw _ _ (by simp)
          | some f =>
            simp only
            refine sim_next (ne_eof_of c1 (by simp)) i1 fun l2 h2 i2 => ?_
            by_cases c2 : l2.curtok = .ch ')'
            · rw [if_pos c2, if_pos c2]
              refine sim_next (ne_eof_of c2 (by simp)) i2 fun l3 h3 i3 => ?_
              exact sim_lift _ (fun hna m => hna.2 _ f [] m hgs) fun g => sim_pure _ _ (by simp only; omega) i3
            · rw [if_neg c2, if_neg c2]
              exact sim_weaken ((ih _ (lt hl (by omega))).2.2.2.1 f [] l2 (fun hna a m => hna.2 _ f a m hgs) i2 (Nat.le_refl _)) (by omega)
        · rw [if_neg c1, if_neg c1, hgen]
          cases hgs : (withR env ρ).gen l.curident with
          | none =>
            simp only
            refine sim_resolve hext hsym rfl fun o => ?_
            cases o with
            | none => exact sim_throw _ _ (by simp)
            | some g => exact sim_pure _ _ (by simp only; omega) i1
          | some f => exact sim_lift _ (fun hna m => hna.2 _ f [] m hgs) fun g => sim_pure _ _ (by simp only; omega) i1
    have primary : ∀ l : Lex R, Inv env text l → measure l ≤ n →
        Sim env text ans ρ l (parsePrimary (withR env (known ans)) l) (parsePrimary (withR env ρ) l) := by
      intro l hi hl
      rw [parsePrimary, parsePrimary]
      cases hc : l.curtok with
      | eof => exact sim_throw _ _ (by simp)
      | num => exact sim_next (ne_eof_of hc (by simp)) hi fun l' h i => sim_pure _ _ (by simp only; omega) i
      | sym => exact ident l hc hi hl
      | par => exact sim_next (ne_eof_of hc (by simp)) hi fun l' h i => sim_pure _ _ (by simp only; omega) i
      | ch c =>
        simp only
        by_cases h1 : c = '-'
        · rw [if_pos h1, if_pos h1]; exact sim_pure _ _ (Nat.le_refl _) hi
        · rw [if_neg h1, if_neg h1]
          by_cases h2 : c = '('
          · rw [if_pos h2, if_pos h2]; exact paren l (ne_eof_of hc (by simp)) hi hl
          · rw [if_neg h2, if_neg h2]
            by_cases h3 : c = '['
            · rw [if_pos h3, if_pos h3]
              exact sim_next (ne_eof_of hc (by simp)) hi fun l' h i =>
                sim_weaken ((ih _ (lt hl h)).2.2.2.2.1 [] l' i (Nat.le_refl _)) (by omega)
            · rw [if_neg h3, if_neg h3]; exact sim_throw _ _ (by simp)
    have rhs : ∀ (k : Int) (lhs : Gen R) (l : Lex R), Inv env text l → measure l ≤ n →
        Sim env text ans ρ l (parseRHS (withR env (known ans)) k lhs l) (parseRHS (withR env ρ) k lhs l) := by
      intro k lhs l hi hl
      rw [parseRHS, parseRHS]
      by_cases he : isEnd l.curtok = true
      · rw [if_pos he, if_pos he]; exact sim_pure _ _ (Nat.le_refl _) hi
      · rw [if_neg he, if_neg he, hop]
        cases hf : findOp (withR env ρ) l.curtok with
        | none => exact sim_throw _ _ (by simp)
        | some cp =>
          obtain ⟨c, p⟩ := cp
          simp only
          by_cases hp : p < k
          · rw [if_pos hp, if_pos hp]; exact sim_pure _ _ (Nat.le_refl _) hi
          · rw [if_neg hp, if_neg hp]
            have hne : l.curtok ≠ .eof := by intro h; rw [h] at he; exact he rfl
            refine sim_next hne hi fun l1 h1 i1 => ?_
            refine sim_bind ((ih _ (lt hl h1)).1 l1 i1 (Nat.le_refl _)) fun r hr ir => ?_
            by_cases he2 : isEnd r.2.curtok = true
            · rw [if_pos he2, if_pos he2]; exact sim_pure _ _ (by simp only; omega) ir
            · rw [if_neg he2, if_neg he2, hop]
              cases hf2 : findOp (withR env ρ) r.2.curtok with
              | none => exact sim_throw _ _ (by simp)
              | some cq =>
                obtain ⟨c', q⟩ := cq
                simp only
                by_cases hpq : p < q
                · rw [if_pos hpq, if_pos hpq]
                  refine sim_bind ((ih (measure r.2) (lt hl (by omega))).2.1 _ _ r.2 ir (Nat.le_refl _)) fun r' hr' ir' => ?_
                  exact sim_weaken ((ih (measure r'.2) (lt hl (by omega))).2.1 _ _ r'.2 ir' (Nat.le_refl _)) (by omega)
                · rw [if_neg hpq, if_neg hpq]
                  exact sim_weaken ((ih (measure r.2) (lt hl (by omega))).2.1 _ _ r.2 ir (Nat.le_refl _)) (by omega)
    have expr : ∀ l : Lex R, Inv env text l → measure l ≤ n →
        Sim env text ans ρ l (parseExpr (withR env (known ans)) l) (parseExpr (withR env ρ) l) := by
      intro l hi hl
      rw [parseExpr, parseExpr]
      exact sim_bind (primary l hi hl) fun r hr ir => sim_weaken (rhs 0 r.1 r.2 ir (by omega)) hr
    refine ⟨primary, rhs, expr, ?_, ?_, paren⟩
    · intro f acc l hf hi hl
      rw [parseArgs, parseArgs]
      refine sim_bind (expr l hi hl) fun r hr ir => ?_
      by_cases c1 : r.2.curtok = .ch ')'
      · rw [if_pos c1, if_pos c1]
        exact sim_next (ne_eof_of c1 (by simp)) ir fun l' h i =>
          sim_lift _ (fun hna m => hf hna _ m) fun g => sim_pure _ _ (by simp only; omega) i
      · rw [if_neg c1, if_neg c1]
        by_cases c2 : r.2.curtok = .ch ','
        · rw [if_pos c2, if_pos c2]
          exact sim_next (ne_eof_of c2 (by simp)) ir fun l' h i =>
            sim_weaken ((ih (measure l') (by omega)).2.2.2.1 f _ l' hf i (Nat.le_refl _)) (by omega)
        · rw [if_neg c2, if_neg c2]; exact sim_throw _ _ (by simp)
    · intro acc l hi hl
      rw [parseVars, parseVars]
      by_cases c1 : l.curtok = .ch ']'
      · rw [if_pos c1, if_pos c1]
        refine sim_next (ne_eof_of c1 (by simp)) hi fun l1 h1 i1 => ?_
        by_cases c2 : l1.curtok = .ch '('
        · rw [if_pos c2, if_pos c2]
          refine sim_bind ((ih (measure l1) (by omega)).2.2.2.2.2 l1 (ne_eof_of c2 (by simp)) i1 (Nat.le_refl _)) fun r hr ir => ?_
          exact sim_pure _ _ (by simp only; omega) ir
        · rw [if_neg c2, if_neg c2]; exact sim_throw _ _ (by simp)
      · rw [if_neg c1, if_neg c1]
        by_cases c2 : l.curtok = .sym
        · rw [if_pos c2, if_pos c2]
          refine sim_next (ne_eof_of c2 (by simp)) hi fun l1 h1 i1 => ?_
          by_cases c3 : l1.curtok = .ch '='
          · rw [if_pos c3, if_pos c3]
            refine sim_next (ne_eof_of c3 (by simp)) i1 fun l2 h2 i2 => ?_
            refine sim_bind ((ih (measure l2) (by omega)).2.2.1 l2 i2 (Nat.le_refl _)) fun r hr ir => ?_
            by_cases c4 : r.2.curtok = .ch ','
            · rw [if_pos c4, if_pos c4]
              exact sim_next (ne_eof_of c4 (by simp)) ir fun l3 h3 i3 =>
                sim_weaken ((ih (measure l3) (by omega)).2.2.2.2.1 _ l3 i3 (Nat.le_refl _)) (by omega)
            · rw [if_neg c4, if_neg c4]
              exact sim_weaken ((ih (measure r.2) (by omega)).2.2.2.2.1 _ r.2 ir (Nat.le_refl _)) (by omega)
          · rw [if_neg c3, if_neg c3]; exact sim_throw _ _ (by simp)
        · rw [if_neg c2, if_neg c2]; exact sim_throw _ _ (by simp)

theorem parse_noask (env : Env R) (text : Chars) (ρ : Chars → Except Err (Option (Gen R))) (h : NoAsk env ρ)
    (n : Chars) : parseString (withR env ρ) text ≠ throw (.ask n) := by
  unfold parseString next
  rw [nextToken_withR]
  cases hn : nextToken env (lexInit text) with
  | error e =>
    have e1 : ∀ f : Lex R → P (Gen R), (ExceptT.mk (some (Except.error e)) : P (Lex R)) >>= f = throw e := fun _ => rfl
    rw [e1]
    intro he
    cases he
    exact next_ask env _ n hn
  | ok l =>
    have hi : Inv env text l := next_inv hn ⟨by simp [lexInit], by simp [lexInit]⟩
    have h1 := (all_sim (env := env) (text := text) (ans := []) (ρ := ρ) (by simp) (measure l)).2.2.1 l hi
      (Nat.le_refl _)
    have e1 : ∀ f : Lex R → P (Gen R), (ExceptT.mk (some (Except.ok l)) : P (Lex R)) >>= f = f l := fun _ => rfl
    rw [e1]
    obtain ⟨⟨o, hy, hr, hna⟩, _⟩ := h1
    cases o with
    | error e =>
      have hy' : parseExpr (withR env ρ) l = throw e := hy
      have e2 : ∀ (f : Gen R × Lex R → P (Gen R)), (throw e : P (Gen R × Lex R)) >>= f = throw e :=
        fun _ => rfl
      rw [hy', e2]
      intro he
      cases he
      exact hna h n rfl
    | ok r =>
      have hy' : parseExpr (withR env ρ) l = pure r := hy
      have e2 : ∀ (f : Gen R × Lex R → P (Gen R)), (pure r : P (Gen R × Lex R)) >>= f = f r := fun _ => rfl
      rw [hy', e2]
      by_cases hc : r.2.curtok = .eof
      · rw [if_pos hc]; intro he; cases he
      · rw [if_neg hc]; intro he; cases he

/-- The run with some answers gives the result of the run with all of them, or stops at a name of the text that has no
answer yet; if the latter succeeds that name has a meaning. -/
theorem parse_sim (env : Env R) (text : Chars) (ans : List (Chars × Gen R)) (ρ : Chars → Except Err (Option (Gen R)))
    (hext : ∀ n g, ans.lookup n = some g → ρ n = .ok (some g)) :
    parseString (withR env (known ans)) text = parseString (withR env ρ) text ∨
    ∃ n, n ∈ symsOf env.reserved text ∧ ans.lookup n = none ∧
      parseString (withR env (known ans)) text = throw (.ask n) ∧
      ∀ g, parseString (withR env ρ) text = pure g → ∃ g', ρ n = .ok (some g') := by
  unfold parseString next
  rw [nextToken_withR, nextToken_withR]
  cases hn : nextToken env (lexInit text) with
  | error e =>
    have e1 : ∀ f : Lex R → P (Gen R), (ExceptT.mk (some (Except.error e)) : P (Lex R)) >>= f = throw e := fun _ => rfl
    rw [e1, e1]
    exact .inl rfl
  | ok l =>
    have hi : Inv env text l := next_inv hn ⟨by simp [lexInit], by simp [lexInit]⟩
    have h := (all_sim (env := env) (text := text) hext (measure l)).2.2.1 l hi (Nat.le_refl _)
    have e1 : ∀ f : Lex R → P (Gen R), (ExceptT.mk (some (Except.ok l)) : P (Lex R)) >>= f = f l := fun _ => rfl
    rw [e1, e1]
    obtain ⟨⟨o, hy, hr, _⟩, hxy | ⟨n, h1, h2, h3, h4⟩⟩ := h
    · rw [hxy]; exact .inl rfl
    · have e2 : ∀ (e : Err) (f : Gen R × Lex R → P (Gen R)), (throw e : P (Gen R × Lex R)) >>= f = throw e :=
        fun _ _ => rfl
      refine .inr ⟨n, h1, h2, by rw [h3, e2], fun g hg => ?_⟩
      cases o with
      | error e =>
        have hy' : parseExpr (withR env ρ) l = throw e := hy
        rw [hy', e2] at hg
        cases hg
      | ok r => exact h4 r hy
end

end Verif.Expr.Fac
