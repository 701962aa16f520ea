import Verif.Tests.Basic

/-! # `/repo/tests/test_expr.py` and `/repo/README.md` -/

namespace Reparsec.Tests.Expr

open Reparsec Reparsec.Tests

set_option maxRecDepth 100000

/-- `tests/parsers/expr.py:9-14` -/
def opAction (s : String) : Except Exn (Int → Int → Except Exn Int) :=
  if s == "+" then .ok fun a b => .ok (a + b)
  else if s == "-" then .ok fun a b => .ok (a - b)
  else if s == "*" then .ok fun a b => .ok (a * b)
  else .error (.user "KeyError")

abbrev E := P Char Unit (fun _ => Int)

/-- `tests/parsers/expr.py:17-32` -/
def spaces : E String := .regexp (re (star isSpace))
def number : E Int := .seql (.map (.regexp (re (plus isDigit))) toInt) spaces
def mulOp : E (Int → Int → Except Exn Int) :=
  .seql (.fmap (.regexp (re (one (· == '*')))) opAction) spaces
def addOp : E (Int → Int → Except Exn Int) :=
  .seql (.fmap (.regexp (re (one fun c => c == '-' || c == '+'))) opAction) spaces
def lParen : E String := .seql (lit "(") spaces
def rParen : E String := .seql (lit ")") spaces
def expr : E Int := .ref ()
def env : Env Char Unit (fun _ => Int) := fun _ =>
  some (.chainl1 (.chainl1 (.alt number (.between lParen rParen expr)) mulOp) addOp)
def parser : E Int := .seql expr .eof

abbrev eval (s : String) := runText env parser s false false

example : eval "1" = .ret (.ok 1) := rfl
example : eval "1 + 2" = .ret (.ok 3) := rfl
example : eval "2 - 1" = .ret (.ok 1) := rfl
example : eval "2 * 3" = .ret (.ok 6) := rfl
example : eval "1 + 2 * 3" = .ret (.ok 7) := rfl
example : eval "(1 + 2) * 3" = .ret (.ok 9) := rfl
example : eval "((1) + (2))" = .ret (.ok 3) := rfl

example : eval "" = .ret (.error "at 1:1: expected '('") := rfl
example : eval "1 1" = .ret (.error "at 1:3: expected end of file") := rfl
example : eval "1 +" = .ret (.error "at 1:4: expected '('") := rfl
example : eval "1 )" = .ret (.error "at 1:3: expected end of file") := rfl
example : eval "1 + 2 * * (3 + 4)" = .ret (.error "at 1:9: expected '('") := rfl

example : runText env parser "1 1" true true = .ret (.ok 1) := rfl
example : runText env parser "1 1" true false
    = .ret (.error "at 1:3: expected end of file (skipped 1 token)") := rfl
example : runText env parser "1 )" true true = .ret (.ok 1) := rfl
example : runText env parser "1 )" true false
    = .ret (.error "at 1:3: expected end of file (skipped 1 token)") := rfl
example : runText env parser "1 + 2 * * (3 + 4 5)" true true = .ret (.ok 15) := rfl
example : runText env parser "1 + 2 * * (3 + 4 5)" true false
    = .ret (.error ("at 1:9: expected '(' (skipped 2 tokens), " ++
        "at 1:18: expected ')' (skipped 1 token)")) := rfl

/-! `README.md:54-97` -/

example : run env parser "1 + 2 * (3 + 4)" false false = .ret (.ok 15) := rfl
example : run env parser "1 + 2 * * (3 + 4 5)" false false
    = .ret (.error "at 8: expected '('") := rfl
example : run env parser "1 + 2 * * (3 + 4 5)" true false
    = .ret (.error ("at 8: expected '(' (skipped 2 tokens), " ++
        "at 17: expected ')' (skipped 1 token)")) := rfl
example : run env parser "1 + 2 * * (3 + 4 5)" true true = .ret (.ok 15) := rfl
example : runText env parser "1 +\n2 * * (\n3 + 4 5)" true false
    = .ret (.error ("at 2:5: expected '(' (skipped 2 tokens), " ++
        "at 3:7: expected ')' (skipped 1 token)")) := rfl

end Reparsec.Tests.Expr
