import Verif.Spec.Grammar
import Verif.Model.Repr

/-!
# String literals of Python

Specification for C91: what a string literal denotes; and which labels are the default ones. Of the escapes of Python
those of `\N`, octal numbers, `\a`, `\b`, `\f`, `\v` and line continuation are left out; so are triple quotes and prefixes.
-/

namespace Reparsec.PyRepr

/-- The escapes of one character: the character after the backslash, and what it stands for. -/
inductive Short : Char → Char → Prop
  | backslash : Short '\\' '\\'
  | single : Short '\'' '\''
  | double : Short '"' '"'
  | lineFeed : Short 'n' '\n'
  | carriageReturn : Short 'r' '\r'
  | tab : Short 't' '\t'

/-- A hexadecimal digit and its value. -/
inductive HexDigit : Char → Nat → Prop
  | digit (k : Fin 10) : HexDigit (Char.ofNat ('0'.toNat + k)) k
  | lower (k : Fin 6) : HexDigit (Char.ofNat ('a'.toNat + k)) (10 + k)
  | upper (k : Fin 6) : HexDigit (Char.ofNat ('A'.toNat + k)) (10 + k)

/-- Hexadecimal digits and their value. -/
inductive HexValue : List Char → Nat → Prop
  | nil : HexValue [] 0
  | snoc {w n c k} : HexValue w n → HexDigit c k → HexValue (w ++ [c]) (16 * n + k)

/-- `Inside q w s`: between quotes `q`, `w` denotes `s`. -/
inductive Inside (q : Char) : List Char → List Char → Prop
  | nil : Inside q [] []
  | char {c w s} : c ≠ q → c ≠ '\\' → c ≠ '\n' → c ≠ '\r' → Inside q w s → Inside q (c :: w) (c :: s)
  | short {e c w s} : Short e c → Inside q w s → Inside q ('\\' :: e :: w) (c :: s)
  | hex2 {h c w s} : h.length = 2 → HexValue h c.toNat → Inside q w s → Inside q ('\\' :: 'x' :: (h ++ w)) (c :: s)
  | hex4 {h c w s} : h.length = 4 → HexValue h c.toNat → Inside q w s → Inside q ('\\' :: 'u' :: (h ++ w)) (c :: s)
  | hex8 {h c w s} : h.length = 8 → HexValue h c.toNat → Inside q w s → Inside q ('\\' :: 'U' :: (h ++ w)) (c :: s)

/-- The string literal `w` denotes `s`. -/
def Denotes (w : String) (s : List Char) : Prop :=
  ∃ q b, (q = '\'' ∨ q = '"') ∧ w.toList = q :: (b ++ [q]) ∧ Inside q b s

variable {ρ : Type} {Γ : ρ → Type}

/-- The labels of what may be inserted are the default ones. A value given to `recover_with` has a label that is a string
literal, of a text for which the grammar gives that value (as the default label is, if the value is the text). -/
def defaultLabels (printable : Char → Bool) (env : Env Char ρ Γ) : {α : Type} → P Char ρ Γ α → Prop
  | _, .sym s l => l = repr printable [s]
  | _, .literal s ss _ => ss = repr printable s
  | _, .recoverWith p x vs => ∃ t, Denotes vs t ∧ Lang env p t x
  | _, .recoverWithFn p fn lbl => ∀ s i x, fn s i = .ok x → ∃ t, Denotes (lbl x) t ∧ Lang env p t x
  | _, _ => True

end Reparsec.PyRepr
