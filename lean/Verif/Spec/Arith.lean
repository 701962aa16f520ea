import Verif.Spec.Calculator

/-!
# Expressions as trees, and how they are written

Specification for C70: expressions with as few parentheses as the precedences allow, or with more.
-/

namespace Reparsec.Calculator

/-- An expression. -/
inductive Tree where
  | num (digits : List Char)
  | add (a b : Tree)
  | sub (a b : Tree)
  | mul (a b : Tree)

/-- The value of an expression: integer arithmetic. -/
def Tree.value (int : List Char → Int) : Tree → Int
  | .num ds => int ds
  | .add a b => a.value int + b.value int
  | .sub a b => a.value int - b.value int
  | .mul a b => a.value int * b.value int

/-- The numbers are written in digits, and `int` reads them. -/
def Tree.OK (C : Chars) (int : List Char → Int) : Tree → Prop
  | .num ds => ds ≠ [] ∧ (∀ c ∈ ds, C.digit c = true) ∧ C.int ds = .ok (int ds)
  | .add a b => a.OK C int ∧ b.OK C int
  | .sub a b => a.OK C int ∧ b.OK C int
  | .mul a b => a.OK C int ∧ b.OK C int

/-- Spaces `sp` follow every number, operator and parenthesis. -/
def parenIf (sp : List Char) (p : Bool) (w : List Char) : List Char :=
  if p then '(' :: (sp ++ (w ++ ')' :: sp)) else w

/-- The expression where a factor (`l = .factor`), an operand of `+` and `-` on the right (`l = .term`), or any
expression may be, with the necessary parentheses: around sums and differences that are a factor or a right operand,
and around products that are a right factor. -/
def Tree.text (sp : List Char) : Level → Tree → List Char
  | _, .num ds => ds ++ sp
  | l, .add a b => parenIf sp (match l with | .expr => false | _ => true)
      (a.text sp .expr ++ '+' :: (sp ++ b.text sp .term))
  | l, .sub a b => parenIf sp (match l with | .expr => false | _ => true)
      (a.text sp .expr ++ '-' :: (sp ++ b.text sp .term))
  | l, .mul a b => parenIf sp (match l with | .factor => true | _ => false)
      (a.text sp .term ++ '*' :: (sp ++ b.text sp .factor))

/-- `w` is the expression written in some way: with any spaces after each number, operator and parenthesis, with the
necessary parentheses, and with any other pairs of parentheses around operands. -/
inductive Written (C : Chars) : Level → Tree → List Char → Prop
  | num {l ds sp} : Blank C sp → Written C l (.num ds) (ds ++ sp)
  | add {a b w w' sp} : Written C .expr a w → Blank C sp → Written C .term b w' →
      Written C .expr (.add a b) (w ++ '+' :: (sp ++ w'))
  | sub {a b w w' sp} : Written C .expr a w → Blank C sp → Written C .term b w' →
      Written C .expr (.sub a b) (w ++ '-' :: (sp ++ w'))
  | mul {l a b w w' sp} : l ≠ .factor → Written C .term a w → Blank C sp → Written C .factor b w' →
      Written C l (.mul a b) (w ++ '*' :: (sp ++ w'))
  | parens {l t w sp sp'} : Blank C sp → Written C .expr t w → Blank C sp' →
      Written C l t ('(' :: (sp ++ (w ++ ')' :: sp')))

end Reparsec.Calculator
