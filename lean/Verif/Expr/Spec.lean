import Verif.Expr.Model
/-!
# Expression parser: specification

What an expression string means, stated without the parser: how text spells tokens, and a grammar of token sequences
with the generator tree each one denotes.
-/
namespace Verif.Expr
open Verif.Str (Chars)
variable {R : Type}

/-- A token with its data. -/
inductive Tok (R : Type) where
  | num (v : R)
  | sym (s : Chars)
  | par (s : Chars)
  | ch (c : Char)

/-! ## Grammar -/

section
variable [Zero R] (env : Env R)

mutual
/-- Primary expressions. -/
inductive Prim : List (Tok R) → Gen R → Prop where
  | num (v : R) : Prim [.num v] (.val v)
  | par (s : Chars) : Prim [.par s] (.param s)
  /-- a name alone, which stands for a registered generator without arguments ... -/
  | name (s : Chars) (f : List (Gen R) → Except Err (Gen R)) (g : Gen R) (hs : s ≠ "sum".toList)
      (hf : env.gen s = some f) (hg : f [] = .ok g) : Prim [.sym s] g
  /-- ... or for whatever it resolves to -/
  | resolved (s : Chars) (g : Gen R) (hs : s ≠ "sum".toList)
      (hf : env.gen s = none) (hg : env.resolve s = .ok (some g)) : Prim [.sym s] g
  /-- `f()` -/
  | call0 (s : Chars) (f : List (Gen R) → Except Err (Gen R)) (g : Gen R) (hs : s ≠ "sum".toList)
      (hf : env.gen s = some f) (hg : f [] = .ok g) : Prim [.sym s, .ch '(', .ch ')'] g
  /-- `f(e1, e2, ...)` -/
  | call (s : Chars) (f : List (Gen R) → Except Err (Gen R)) (ts : List (Tok R)) (gs : List (Gen R)) (g : Gen R)
      (hs : s ≠ "sum".toList) (hf : env.gen s = some f) (ha : Args ts gs) (hg : f gs = .ok g) :
      Prim ([.sym s, .ch '('] ++ ts ++ [.ch ')']) g
  /-- `(e)` -/
  | paren (ts : List (Tok R)) (g : Gen R) (h : Expr 0 ts g) : Prim ([.ch '('] ++ ts ++ [.ch ')']) g
  /-- `sum(i, n, e)` -/
  | sum (i : Chars) (t1 t2 : List (Tok R)) (g1 g2 : Gen R) (h1 : Expr 0 t1 g1) (h2 : Expr 0 t2 g2) :
      Prim ([.sym "sum".toList, .ch '(', .sym i, .ch ','] ++ t1 ++ [.ch ','] ++ t2 ++ [.ch ')']) (.sum i g1 g2)
  /-- `[a=e1, b=e2](e)` -/
  | ctx (t1 t2 : List (Tok R)) (vs : List (Chars × Gen R)) (g : Gen R) (h1 : Vars t1 vs) (h2 : Expr 0 t2 g) :
      Prim ([.ch '['] ++ t1 ++ [.ch ']', .ch '('] ++ t2 ++ [.ch ')']) (.ctx vs g)

/-- `Expr k ts g`: `ts` is an expression whose operators outside brackets all have precedence at least `k`, and denotes
`g`.  Operators associate to the left: the left operand may contain operators of the same precedence, the right operand
only of a higher one. -/
inductive Expr : Int → List (Tok R) → Gen R → Prop where
  | prim (k : Int) (ts : List (Tok R)) (g : Gen R) (h : Prim ts g) : Expr k ts g
  | bin (k p : Int) (c : Char) (t1 t2 : List (Tok R)) (g1 g2 : Gen R) (hp : env.prec c = some p) (hk : k ≤ p)
      (h1 : Expr p t1 g1) (h2 : Expr (p + 1) t2 g2) : Expr k (t1 ++ [.ch c] ++ t2) (.bin c g1 g2)
  /-- A leading minus sign is `0 - ...`. -/
  | neg (k p : Int) (t : List (Tok R)) (g : Gen R) (hp : env.prec '-' = some p) (hk : k ≤ p)
      (h : Expr (p + 1) t g) : Expr k ([.ch '-'] ++ t) (.bin '-' (.val 0) g)

/-- Non-empty comma-separated list. -/
inductive Args : List (Tok R) → List (Gen R) → Prop where
  | one (ts : List (Tok R)) (g : Gen R) (h : Expr 0 ts g) : Args ts [g]
  | more (t1 t2 : List (Tok R)) (g : Gen R) (gs : List (Gen R)) (h1 : Expr 0 t1 g) (h2 : Args t2 gs) :
      Args (t1 ++ [.ch ','] ++ t2) (g :: gs)

/-- Comma-separated list of definitions, possibly empty. -/
inductive Vars : List (Tok R) → List (Chars × Gen R) → Prop where
  | nil : Vars [] []
  | one (s : Chars) (ts : List (Tok R)) (g : Gen R) (h : Expr 0 ts g) : Vars ([.sym s, .ch '='] ++ ts) [(s, g)]
  | more (s : Chars) (t1 t2 : List (Tok R)) (g : Gen R) (vs : List (Chars × Gen R)) (h1 : Expr 0 t1 g)
      (h2 : Vars t2 vs) : Vars ([.sym s, .ch '='] ++ t1 ++ [.ch ','] ++ t2) ((s, g) :: vs)
end
end

/-! ## Text -/

/-- A piece of the text. -/
inductive Item where
  /-- a number, with the text that denotes it -/
  | num (text : Chars)
  | sym (name : Chars)
  | par (name : Chars)
  | ch (c : Char)

/-- Number text and the normalised text whose value it has (an 'E' becomes 'e'): digits with at most one '.', then
optionally an exponent. -/
def NumText (t norm : Chars) : Prop :=
  ∃ d1 d2 : Chars, ∃ e en : Chars,
    (∀ c ∈ d1, isDigit c = true) ∧
    (d2 = [] ∨ ∃ d3, d2 = '.' :: d3 ∧ ∀ c ∈ d3, isDigit c = true) ∧ d1 ++ d2 ≠ [] ∧
    ((e = [] ∧ en = []) ∨ ∃ x s ds, e = x :: s :: ds ∧ en = 'e' :: s :: ds ∧ (x = 'e' ∨ x = 'E') ∧
      (s = '+' ∨ s = '-' ∨ isDigit s = true) ∧ ∀ c ∈ ds, isDigit c = true) ∧
    t = d1 ++ d2 ++ e ∧ norm = d1 ++ d2 ++ en

/-- `SymText reserved name text`: the text spells the name, using plain characters, `\`-escaped characters and
backquoted parts. -/
inductive SymText (reserved : Chars) : Chars → Chars → Prop where
  | nil : SymText reserved [] []
  | plain (c : Char) (n t : Chars) (h1 : c ∉ reserved) (h2 : isSpace c = false) (h3 : c ≠ '\\') (h4 : c ≠ '`')
      (h : SymText reserved n t) : SymText reserved (c :: n) (c :: t)
  | esc (c : Char) (n t : Chars) (h : SymText reserved n t) : SymText reserved (c :: n) ('\\' :: c :: t)
  | quote (q n t : Chars) (hq : q ≠ []) (hb : '`' ∉ q) (h : SymText reserved n t) :
      SymText reserved (q ++ n) ('`' :: q ++ '`' :: t)

/-- The text of an item. -/
def Text (env : Env R) : Item → Chars → Prop
  | .num norm, t => NumText t norm
  | .sym n, t => SymText env.reserved n t ∧ ∃ c r, t = c :: r ∧ isDigit c = false ∧ c ≠ '.' ∧ isSpace c = false
  | .par n, t => t = '{' :: n ++ ['}'] ∧ n ≠ [] ∧ '{' ∉ n ∧ '}' ∉ n
  | .ch c, t => t = [c] ∧ c ∈ env.reserved ∧ c ≠ '`' ∧ c ≠ '{' ∧ isDigit c = false ∧ c ≠ '.' ∧ isSpace c = false

/-- What may directly follow an item: a number must not be continued by a digit, '.', 'e' or 'E'; a symbol must be ended
by whitespace or a reserved character. -/
def Boundary (env : Env R) : Item → Chars → Prop
  | .num _, s => ∀ c, s.head? = some c → isDigit c = false ∧ c ≠ '.' ∧ c ≠ 'e' ∧ c ≠ 'E'
  | .sym _, s => ∀ c, s.head? = some c → c ≠ '\\' ∧ c ≠ '`' ∧ (isSpace c = true ∨ c ∈ env.reserved)
  | _, _ => True

/-- The string spells the items, with any whitespace before, between and after them. -/
inductive Spelled (env : Env R) : List Item → Chars → Prop where
  | nil (w : Chars) (hw : ∀ c ∈ w, isSpace c = true) : Spelled env [] w
  | cons (w t s : Chars) (i : Item) (is : List Item) (hw : ∀ c ∈ w, isSpace c = true) (ht : Text env i t)
      (hb : Boundary env i s) (h : Spelled env is s) : Spelled env (i :: is) (w ++ t ++ s)

/-- The value of the items: the tokens, with a multiplication sign inserted between a number and a directly following
name, parameter or opening parenthesis. `none` if a number has no value. -/
def tokens (env : Env R) : Bool → List Item → Option (List (Tok R))
  | _, [] => some []
  | _, .num t :: is => match env.stod t, tokens env true is with
    | some v, some ts => some (.num v :: ts)
    | _, _ => none
  | b, .sym s :: is => (tokens env false is).map (fun ts => if b then .ch '*' :: .sym s :: ts else .sym s :: ts)
  | b, .par s :: is => (tokens env false is).map (fun ts => if b then .ch '*' :: .par s :: ts else .par s :: ts)
  | b, .ch c :: is => (tokens env false is).map (fun ts => if b ∧ c = '(' then .ch '*' :: .ch c :: ts else .ch c :: ts)

/-- A well-formed environment: the structural characters are reserved and are not operators; backslash is not reserved;
precedences are non-negative. -/
structure EnvOk (env : Env R) : Prop where
  reserved : ∀ c ∈ "+-*/^[](){},=".toList, c ∈ env.reserved
  backslash : '\\' ∉ env.reserved
  notOp : ∀ c ∈ "[](){},=".toList, env.prec c = none
  nonneg : ∀ c p, env.prec c = some p → 0 ≤ p

/-- The string denotes the generator. -/
def Denotes [Zero R] (env : Env R) (s : Chars) (g : Gen R) : Prop :=
  ∃ items ts, Spelled env items s ∧ tokens env false items = some ts ∧ Expr env 0 ts g

end Verif.Expr
