import Verif.Sys.Str
import Mathlib.Algebra.Group.Defs
/-!
# Expression parser: executable model

Models `src/sys/expressionparser.cxx` and `include/bout/sys/expressionparser.hxx`.

* The input is a list of characters; the C++ reads bytes, so a non-ASCII UTF-8 character is several symbol characters.
  Byte 0xFF, which the C++ confuses with EOF, is not modelled (it does not occur in UTF-8).
* Numbers live in an arbitrary type `R`; `std::stod` is a parameter of the environment.
* The parser functions are partial fixed points (`none` = does not terminate); that they terminate on every input is a
  theorem (`C14_terminates`).
-/
namespace Verif.Expr
open Verif.Str (Chars)

/-- A tree of generators (`FieldGenerator` objects). -/
inductive Gen (R : Type) where
  /-- `FieldValue` -/
  | val (v : R)
  /-- `FieldParam` -/
  | param (name : Chars)
  /-- `FieldContext` -/
  | ctx (vars : List (Chars × Gen R)) (e : Gen R)
  /-- `FieldSum` -/
  | sum (sym : Chars) (count e : Gen R)
  /-- `FieldBinary` -/
  | bin (op : Char) (l r : Gen R)
  /-- any other generator, made by cloning the one registered under this name with these arguments -/
  | ext (name : Chars) (args : List (Gen R))

/-- The exceptions: `ParseException` (with its kind, not its text) and what `std::stod` throws.  `ask` is not an exception
of the parser: it is how `Factory.lean` interrupts it where it calls `resolve` on a name. -/
inductive Err where
  | parse (what : String)
  | number
  | ask (name : Chars)
  deriving DecidableEq, Repr

/-- What the parser object holds: the characters that end a symbol, the precedences of the binary operators, the
registered generators with their `clone`, the virtual `resolve`, and `std::stod`. -/
structure Env (R : Type) where
  reserved : Chars
  prec : Char → Option Int
  gen : Chars → Option (List (Gen R) → Except Err (Gen R))
  resolve : Chars → Except Err (Option (Gen R))
  stod : Chars → Option R

/-- expressionparser.hxx:166 with expressionparser.cxx:210-214: the default reserved characters. -/
def stdReserved : Chars := "+-*/^[](){},=".toList

/-- expressionparser.cxx:210-214: the standard operators. -/
def stdPrec (c : Char) : Option Int :=
  if c = '+' ∨ c = '-' then some 10 else if c = '*' ∨ c = '/' then some 20 else if c = '^' then some 30 else none

/-- `curtok`: 0, -1, -2, -3 or a character. -/
inductive Cur where
  | eof | num | sym | par
  | ch (c : Char)
  deriving DecidableEq, Repr

/-- `LexInfo` (expressionparser.hxx:175-187).  `rest` is `LastChar` followed by what is left in the stream; it is empty
once `LastChar` is EOF. -/
structure Lex (R : Type) where
  curtok : Cur
  curval : R
  curident : Chars
  rest : Chars

/-- `isspace` in the C locale. -/
def isSpace (c : Char) : Bool := c = ' ' || c = '\t' || c = '\n' || c = '\x0b' || c = '\x0c' || c = '\r'

/-- `isdigit`. -/
def isDigit (c : Char) : Bool := decide ('0' ≤ c) && decide (c ≤ '9')

/-- expressionparser.cxx:585-617: the characters of a number.  Returns the text given to `std::stod` and the rest. -/
def lexNum (dec exp : Bool) (acc : Chars) : Chars → Except Err (Chars × Chars)
  | [] => .ok (acc, [])
  | c :: cs =>
    if c = '.' then
      if dec || exp then .error (.parse "Unexpected '.'") else lexNum true exp (acc ++ ['.']) cs
    else if c = 'E' ∨ c = 'e' then
      if exp then .error (.parse "extra 'e'")
      else match cs with
        | [] => .error (.parse "after 'e'")
        | d :: ds =>
          if d ≠ '+' ∧ d ≠ '-' ∧ isDigit d = false then .error (.parse "after 'e'")
          else lexNum dec true (acc ++ ['e', d]) ds
    else if isDigit c = false then .ok (acc, c :: cs)
    else lexNum dec exp (acc ++ [c]) cs

/-- expressionparser.cxx:631-663: the characters of a symbol; `quoted` is set inside backquotes.  The C++ do-while loop
is entered only when its condition holds, so it is a while loop. -/
def lexSym (reserved : Chars) : Bool → Chars → Chars → Except Err (Chars × Chars)
  | false, acc, [] => .ok (acc, [])
  | true, _, [] => .error (.parse "expecting `")
  | false, acc, c :: cs =>
    if c = '\\' then
      match cs with
      | [] => .error (.parse "after \\")
      | d :: ds => lexSym reserved false (acc ++ [d]) ds
    else if c = '`' then
      match cs with
      | [] => .error (.parse "expecting `")
      | d :: ds => lexSym reserved true (acc ++ [d]) ds
    else if isSpace c ∨ c ∈ reserved then .ok (acc, c :: cs)
    else lexSym reserved false (acc ++ [c]) cs
  | true, acc, c :: cs => if c = '`' then lexSym reserved false acc cs else lexSym reserved true (acc ++ [c]) cs

/-- expressionparser.cxx:688-700: the name of a `{parameter}`, after its first character. -/
def lexPar (acc : Chars) : Chars → Except Err (Chars × Chars)
  | [] => .error (.parse "expecting }")
  | c :: cs =>
    if c = '{' then .error (.parse "Unexpected {") else if c = '}' then .ok (acc, cs) else lexPar (acc ++ [c]) cs

variable {R : Type}

/-- expressionparser.cxx:573-710 `LexInfo::nextToken`. -/
def nextToken (env : Env R) (l : Lex R) : Except Err (Lex R) :=
  match l.rest.dropWhile isSpace with
  | [] => .ok { l with curtok := .eof, rest := [] }
  | c :: cs =>
    if isDigit c = true ∨ c = '.' then
      match lexNum false false [] (c :: cs) with
      | .error e => .error e
      | .ok (s, r) => match env.stod s with
        | none => .error .number
        | some v => .ok { l with curtok := .num, curval := v, rest := r }
    else if c = '`' ∨ c ∉ env.reserved then
      if l.curtok = .num then .ok { l with curtok := .ch '*', rest := c :: cs }
      else match lexSym env.reserved false [] (c :: cs) with
        | .error e => .error e
        | .ok (s, r) => .ok { l with curtok := .sym, curident := s, rest := r }
    else if c = '(' ∧ l.curtok = .num then .ok { l with curtok := .ch '*', rest := c :: cs }
    else if c = '{' then
      if l.curtok = .num then .ok { l with curtok := .ch '*', rest := c :: cs }
      else match cs with
        | [] => .error (.parse "expecting }")
        | d :: ds => match lexPar [d] ds with
          | .error e => .error e
          | .ok (s, r) => .ok { l with curtok := .par, curident := s, rest := r }
    else .ok { l with curtok := .ch c, rest := cs }

/-- The parser's monad: `none` is non-termination. -/
abbrev P := ExceptT Err Option

/-- `lex.nextToken()` inside the parser. -/
def next (env : Env R) (l : Lex R) : P (Lex R) := ExceptT.mk (some (nextToken env l))

/-- expressionparser.cxx:505-507, 531-532: the tokens at which an expression ends. -/
def isEnd (t : Cur) : Bool := t = .eof || t = .ch ')' || t = .ch ',' || t = .ch ']'

/-- `bin_op.find(lex.curtok)` and its precedence. -/
def findOp (env : Env R) : Cur → Option (Char × Int)
  | .ch c => (env.prec c).map (fun p => (c, p))
  | _ => none

/-- Lift a result into the parser. -/
def lift {α : Type} (x : Except Err α) : P α := ExceptT.mk (some x)

variable [Zero R]

mutual
/-- expressionparser.cxx:465-495 `parsePrimary`; a '-' is not consumed and stands for an implicit 0. Note that the value
of a number is read after the next token has been read. -/
def parsePrimary (env : Env R) (l : Lex R) : P (Gen R × Lex R) :=
  match l.curtok with
  | .num => next env l >>= fun l' => pure (.val l'.curval, l')
  | .sym => parseIdent env l
  | .par => next env l >>= fun l' => pure (.param l.curident, l')
  | .eof => throw (.parse "Unexpected token")
  | .ch c =>
    if c = '-' then pure (.val 0, l)
    else if c = '(' then parseParen env l
    else if c = '[' then next env l >>= fun l' => parseVars env [] l'
    else throw (.parse "Unexpected token")
partial_fixpoint

/-- expressionparser.cxx:271-399 `parseIdentifierExpr`. -/
def parseIdent (env : Env R) (l : Lex R) : P (Gen R × Lex R) :=
  next env l >>= fun l1 =>
  if l.curident = "sum".toList then
    if l1.curtok = .ch '(' then
      next env l1 >>= fun l2 =>
      if l2.curtok = .sym ∨ l2.curtok = .par then
        next env l2 >>= fun l3 =>
        if l3.curtok = .ch ',' then
          next env l3 >>= fun l4 =>
          parseExpr env l4 >>= fun r1 =>
          if r1.2.curtok = .ch ',' then
            next env r1.2 >>= fun l5 =>
            parseExpr env l5 >>= fun r2 =>
            if r2.2.curtok = .ch ')' then
              next env r2.2 >>= fun l6 => pure (.sum l2.curident r1.1 r2.1, l6)
            else throw (.parse "Expecting ) in sum")
          else throw (.parse "Expecting , after count")
        else throw (.parse "Expecting , after symbol")
      else throw (.parse "Expecting symbol")
    else throw (.parse "Expecting ( after sum")
  else if l1.curtok = .ch '(' then
    match env.gen l.curident with
    | none => throw (.parse "Couldn't find generator")
    | some f =>
      next env l1 >>= fun l2 =>
      if l2.curtok = .ch ')' then next env l2 >>= fun l3 => lift (f []) >>= fun g => pure (g, l3)
      else parseArgs env f [] l2
  else
    match env.gen l.curident with
    | none => lift (env.resolve l.curident) >>= fun o => match o with
      | none => throw (.parse "Couldn't find generator")
      | some g => pure (g, l1)
    | some f => lift (f []) >>= fun g => pure (g, l1)
partial_fixpoint

/-- expressionparser.cxx:366-383: the argument loop. -/
def parseArgs (env : Env R) (f : List (Gen R) → Except Err (Gen R)) (acc : List (Gen R)) (l : Lex R) :
    P (Gen R × Lex R) :=
  parseExpr env l >>= fun r =>
  if r.2.curtok = .ch ')' then
    next env r.2 >>= fun l' => lift (f (acc ++ [r.1])) >>= fun g => pure (g, l')
  else if r.2.curtok = .ch ',' then
    next env r.2 >>= fun l' => parseArgs env f (acc ++ [r.1]) l'
  else throw (.parse "Expecting , or )")
partial_fixpoint

/-- expressionparser.cxx:401-413 `parseParenExpr`: closes with ')' or ']'. -/
def parseParen (env : Env R) (l : Lex R) : P (Gen R × Lex R) :=
  next env l >>= fun l1 =>
  parseExpr env l1 >>= fun r =>
  if r.2.curtok = .ch ')' ∨ r.2.curtok = .ch ']' then next env r.2 >>= fun l2 => pure (r.1, l2)
  else throw (.parse "Expecting ) or ]")
partial_fixpoint

/-- expressionparser.cxx:416-463 `parseContextExpr` after the '['. -/
def parseVars (env : Env R) (acc : List (Chars × Gen R)) (l : Lex R) : P (Gen R × Lex R) :=
  if l.curtok = .ch ']' then
    next env l >>= fun l1 =>
    if l1.curtok = .ch '(' then parseParen env l1 >>= fun r => pure (.ctx acc r.1, r.2)
    else throw (.parse "Expecting ( after ]")
  else if l.curtok = .sym then
    next env l >>= fun l1 =>
    if l1.curtok = .ch '=' then
      next env l1 >>= fun l2 =>
      parseExpr env l2 >>= fun r =>
      if r.2.curtok = .ch ',' then next env r.2 >>= fun l3 => parseVars env (acc ++ [(l.curident, r.1)]) l3
      else parseVars env (acc ++ [(l.curident, r.1)]) r.2
    else throw (.parse "Expecting =")
  else throw (.parse "Expecting identifier")
partial_fixpoint

/-- expressionparser.cxx:497-554 `parseBinOpRHS`. -/
def parseRHS (env : Env R) (k : Int) (lhs : Gen R) (l : Lex R) : P (Gen R × Lex R) :=
  if isEnd l.curtok then pure (lhs, l)
  else match findOp env l.curtok with
    | none => throw (.parse "Unexpected binary operator")
    | some (c, p) =>
      if p < k then pure (lhs, l)
      else
        next env l >>= fun l1 =>
        parsePrimary env l1 >>= fun r =>
        if isEnd r.2.curtok then pure (.bin c lhs r.1, r.2)
        else match findOp env r.2.curtok with
          | none => throw (.parse "Unexpected character")
          | some (_, q) =>
            if p < q then
              parseRHS env (p + 1) r.1 r.2 >>= fun r' => parseRHS env k (.bin c lhs r'.1) r'.2
            else parseRHS env k (.bin c lhs r.1) r.2
partial_fixpoint

/-- expressionparser.cxx:556-559 `parseExpression`. -/
def parseExpr (env : Env R) (l : Lex R) : P (Gen R × Lex R) :=
  parsePrimary env l >>= fun r => parseRHS env 0 r.1 r.2
partial_fixpoint
end

/-- expressionparser.cxx:564-571: the lexer before its first token (`curval` is uninitialised; here 0). -/
def lexInit (s : Chars) : Lex R := { curtok := .eof, curval := 0, curident := [], rest := s }

/-- expressionparser.cxx:233-246 `parseString`. -/
def parseString (env : Env R) (s : Chars) : P (Gen R) :=
  next env (lexInit s) >>= fun l =>
  parseExpr env l >>= fun r =>
  if r.2.curtok = .eof then pure r.1 else throw (.parse "Tokens remaining")

end Verif.Expr
