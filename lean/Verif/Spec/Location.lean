import Verif.Model.Lexer

/-!
# What the reported locations should be
-/

namespace Reparsec

/-- The characters before position `p` on the same line: what follows the last newline. -/
def lineStart (s : List Char) (p : Nat) : List Char :=
  ((s.take p).reverse.takeWhile (· ≠ '\n')).reverse

/-- The exact location of position `p` of a text: its index, the number of newlines before it, and
the number of characters before it on its line. -/
def exactLoc (s : List Char) (p : Nat) : Loc :=
  ⟨p, (s.take p).count '\n', (lineStart s p).length⟩

/-- The location of position `p` of a token list: where the token at `p` starts; at the end of the
list, where the last token ends. -/
inductive TokenLoc (s : List Token) (p : Nat) : Loc → Prop
  | token {t : Token} : s[p]? = some t → TokenLoc s p t.start
  | atEnd {t : Token} : s.length ≤ p → s.getLast? = some t → TokenLoc s p t.stop
  | empty : s = [] → TokenLoc s p ⟨p, 0, 0⟩

end Reparsec
