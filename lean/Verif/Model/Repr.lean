import Verif.Model.Parser

/-!
# `repr` of strings

The label of `sym(s)`, of `literal(s)` and of what `recover_with(x)` inserts is `repr` of it, if the user gives none
(`src/reparsec/core/sequence.py:138-141`, `src/reparsec/core/scannerless.py:25,38`,
`src/reparsec/core/combinators.py:497,526`).  Everywhere else in the model labels are parameters. Here `repr` of a `str`
is modelled (`unicode_repr` of CPython); which characters beyond ASCII are printable is a parameter. Characters are those
of Lean: there are no lone surrogates.
-/

namespace Reparsec.PyRepr

/-- `0123456789abcdef[n]` -/
def hexChar (n : Nat) : Char := Char.ofNat (if n < 10 then '0'.toNat + n else 'a'.toNat + (n - 10))

/-- `n` with `k` hexadecimal digits. -/
def hex : (k n : Nat) → List Char
  | 0, _ => []
  | k + 1, n => hex k (n / 16) ++ [hexChar (n % 16)]

/-- One character, between quotes `q`. -/
def escape (printable : Char → Bool) (q c : Char) : List Char :=
  if c = q ∨ c = '\\' then ['\\', c]
  else if c = '\t' then ['\\', 't']
  else if c = '\n' then ['\\', 'n']
  else if c = '\r' then ['\\', 'r']
  else if c.toNat < 32 ∨ c.toNat = 127 then '\\' :: 'x' :: hex 2 c.toNat
  else if c.toNat < 127 ∨ printable c then [c]
  else if c.toNat < 256 then '\\' :: 'x' :: hex 2 c.toNat
  else if c.toNat < 65536 then '\\' :: 'u' :: hex 4 c.toNat
  else '\\' :: 'U' :: hex 8 c.toNat

/-- Single quotes, but double quotes if there are single quotes in the string, and no double quotes. -/
def quote (s : List Char) : Char := if '\'' ∈ s ∧ '"' ∉ s then '"' else '\''

/-- `repr(s)` -/
def repr (printable : Char → Bool) (s : List Char) : String :=
  String.ofList (quote s :: (s.flatMap (escape printable (quote s)) ++ [quote s]))

variable {ρ : Type} {Γ : ρ → Type}

/-- `sym(s)` without a label, on a `str`: `src/reparsec/core/sequence.py:137-145` -/
def sym (printable : Char → Bool) (s : Char) : P Char ρ Γ Char := .sym s (repr printable [s])

/-- `literal(s)`: `src/reparsec/core/scannerless.py:23-76` -/
def literal (printable : Char → Bool) (s : List Char) (h : s ≠ []) : P Char ρ Γ (List Char) :=
  .literal s (repr printable s) h

end Reparsec.PyRepr
