import Verif.Model.Calculator

/-!
# Arithmetic expressions and their values

Specification for C70: no parser, no positions.
-/

namespace Reparsec.Calculator

/-- Digits and spaces are different characters, and neither is one of `( ) * + -`. -/
structure Chars.OK (C : Chars) : Prop where
  apart : ∀ c, C.digit c = true → C.space c = false
  digit : ∀ c ∈ ['(', ')', '*', '+', '-'], C.digit c = false
  space : ∀ c ∈ ['(', ')', '*', '+', '-'], C.space c = false

inductive Level where
  | factor
  | term
  | expr

/-- The word consists of spaces. -/
def Blank (C : Chars) (w : List Char) : Prop := ∀ c ∈ w, C.space c = true

/-- `Value C l w v`: the text `w` is an expression (a term, a factor), and its value is `v`.  `*` binds more
tightly than `+` and `-`; operators of the same precedence associate to the left; spaces may follow every number,
operator and parenthesis. -/
inductive Value (C : Chars) : Level → List Char → Int → Prop
  | number {ds sp : List Char} {v : Int} : ds ≠ [] → (∀ c ∈ ds, C.digit c = true) → Blank C sp →
      C.int ds = .ok v → Value C .factor (ds ++ sp) v
  | parens {sp w sp' : List Char} {v : Int} : Blank C sp → Value C .expr w v → Blank C sp' →
      Value C .factor ('(' :: (sp ++ (w ++ ')' :: sp'))) v
  | term {w : List Char} {v : Int} : Value C .factor w v → Value C .term w v
  | times {w sp w' : List Char} {a b : Int} : Value C .term w a → Blank C sp → Value C .factor w' b →
      Value C .term (w ++ '*' :: (sp ++ w')) (a * b)
  | expr {w : List Char} {v : Int} : Value C .term w v → Value C .expr w v
  | add {w sp w' : List Char} {a b : Int} : Value C .expr w a → Blank C sp → Value C .term w' b →
      Value C .expr (w ++ '+' :: (sp ++ w')) (a + b)
  | sub {w sp w' : List Char} {a b : Int} : Value C .expr w a → Blank C sp → Value C .term w' b →
      Value C .expr (w ++ '-' :: (sp ++ w')) (a - b)

end Reparsec.Calculator
