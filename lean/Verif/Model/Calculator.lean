import Verif.Model.Parser

/-!
# The calculator of the README

`README.md:26-58` and `tests/parsers/expr.py:1-32`, as a parser of the model.  Python's `re` is not
modelled; the four regular expressions that occur are given as functions, over any classes of digits (`\d`) and
spaces (`\s`).  `int` is any function that may raise (`int` raises `ValueError` for more than 4300 digits).
-/

namespace Reparsec.Calculator

open Reparsec

/-- What the calculator takes from Python: `\d`, `\s` and `int`. -/
structure Chars where
  digit : Char → Bool
  space : Char → Bool
  int : List Char → Except Exn Int

/-- `c*`, as in `regexp(r"\s*")`, `README.md:41`: the longest run of such characters. -/
def star (c : Char → Bool) : Matcher Char (List Char) where
  run s pos := some (pos + ((s.drop pos).takeWhile c).length, .ok (some ((s.drop pos).takeWhile c)))
  bounds s pos e v hp h := by
    simp only [Option.some.injEq, Prod.mk.injEq] at h
    have h1 := (List.takeWhile_prefix c (l := s.drop pos)).length_le
    rw [List.length_drop] at h1
    omega

/-- `c+`, as in `regexp(r"\d+")`, `README.md:42`: the longest run of such characters, if there is one. -/
def plus (c : Char → Bool) : Matcher Char (List Char) where
  run s pos := if (s.drop pos).takeWhile c = [] then none else
    some (pos + ((s.drop pos).takeWhile c).length, .ok (some ((s.drop pos).takeWhile c)))
  bounds s pos e v hp h := by
    split at h
    · cases h
    · simp only [Option.some.injEq, Prod.mk.injEq] at h
      have h1 := (List.takeWhile_prefix c (l := s.drop pos)).length_le
      rw [List.length_drop] at h1
      omega

/-- `[..]`, as in `regexp(r"[*]")` and `regexp(r"[-+]")`, `README.md:43-44`: one such character. -/
def one (c : Char → Bool) : Matcher Char (List Char) where
  run s pos := match s[pos]? with
    | none => none
    | some x => if c x then some (pos + 1, .ok (some [x])) else none
  bounds s pos e v hp h := by
    split at h
    · cases h
    · next x hx =>
      have := (List.getElem?_eq_some_iff.1 hx).1
      split at h
      · simp only [Option.some.injEq, Prod.mk.injEq] at h; omega
      · cases h

/-- `op_action`, `README.md:33-38`, `tests/parsers/expr.py:8-13`. -/
def opAction (op : List Char) : Except Exn (Int → Int → Except Exn Int) :=
  if op = ['+'] then .ok fun a b => .ok (a + b)
  else if op = ['-'] then .ok fun a b => .ok (a - b)
  else if op = ['*'] then .ok fun a b => .ok (a * b)
  else .error (.user "KeyError")

abbrev E := P Char Unit (fun _ => Int)

/-- `README.md:41` -/
def spaces (C : Chars) : E (List Char) := .regexp (star C.space)
/-- `README.md:42` -/
def number (C : Chars) : E Int := .seql (.fmap (.regexp (plus C.digit)) C.int) (spaces C)
/-- `README.md:43` -/
def mulOp (C : Chars) : E (Int → Int → Except Exn Int) :=
  .seql (.fmap (.regexp (one (· == '*'))) opAction) (spaces C)
/-- `README.md:44` -/
def addOp (C : Chars) : E (Int → Int → Except Exn Int) :=
  .seql (.fmap (.regexp (one fun c => c == '-' || c == '+')) opAction) (spaces C)
/-- `README.md:45` -/
def lParen (C : Chars) : E (List Char) := .seql (.literal ['('] "'('" (by simp)) (spaces C)
/-- `README.md:46` -/
def rParen (C : Chars) : E (List Char) := .seql (.literal [')'] "')'" (by simp)) (spaces C)
/-- `expr = Delay[str, int]()`, `README.md:48` -/
def expr : E Int := .ref ()
/-- `number | expr.between(l_paren, r_paren)`, `README.md:51-52` -/
def factor (C : Chars) : E Int := .alt (number C) (.between (lParen C) (rParen C) expr)
/-- `.chainl1(mul_op)`, `README.md:54` -/
def term (C : Chars) : E Int := .chainl1 (factor C) (mulOp C)
/-- `expr.define(..)`, `README.md:49-56` -/
def env (C : Chars) : Env Char Unit (fun _ => Int) := fun _ => some (.chainl1 (term C) (addOp C))
/-- `parser = expr << eof()`, `README.md:58` -/
def parser : E Int := .seql expr .eof

end Reparsec.Calculator
