import Verif.Model.RegexParsers

/-!
# `unescape` and `int` in the JSON parsers of the tests

`tests/parsers/json_scannerless.py:8-24` and `tests/parsers/json.py:25-42` (the same code): `unescape` with its regular
expression and `re.sub`; and Python's `int` on what the parsers call it with.  A Python string is a sequence of code
points, which need not be Unicode scalar values (`chr(0xD800)` is allowed), so the result of `unescape` is a list of
numbers.
-/

namespace Reparsec

/-- `pat.sub(repl, s)`: every match, from left to right, is replaced by what `repl` makes of it; what is not matched is
kept. `fuel` is the length of `l`. Simplification: a match of no characters counts as none (the expression of
`unescape` has no such matches). -/
def Re.sub (re : Re) (repl : Found → Except Exn (List Nat)) : (fuel : Nat) → List Char → Except Exn (List Nat)
  | _, [] => .ok []
  | 0, _ :: _ => .ok []
  | fuel + 1, c :: l =>
    let copy := do
      let rest ← re.sub repl fuel l
      return c.toNat :: rest
    match re.match (c :: l) with
    | none => copy
    | some m =>
      if m.len = 0 then copy
      else do
        let x ← repl m
        let rest ← re.sub repl fuel ((c :: l).drop m.len)
        return x ++ rest

namespace JsonText

open Re Json

/-- `simple`, `tests/parsers/json_scannerless.py:12-15`: an escape character and the code point it stands for -/
def simpleTable : List (Char × Nat) :=
  [('"', '"'.toNat), ('\\', '\\'.toNat), ('/', '/'.toNat), ('b', 8), ('f', 12), ('n', 10), ('r', 13), ('t', 9)]

/-- `escape`, `tests/parsers/json_scannerless.py:8-10` -/
def escapeRe : Re := .seq (chr '\\') (.alt (.group "simple" (.cls isSimple)) (.seq (chr 'u')
  (.group "unicode" (.seq (.cls isHex) (.seq (.cls isHex) (.seq (.cls isHex) (.cls isHex)))))))

/-- A digit of `int(.., 16)`. -/
def hexDigit (c : Char) : Nat :=
  if c.toNat ≤ '9'.toNat then c.toNat - '0'.toNat
  else if c.toNat ≤ 'F'.toNat then c.toNat - 'A'.toNat + 10
  else c.toNat - 'a'.toNat + 10

/-- `int(s, 16)`, for hexadecimal digits. -/
def parseHex (l : List Char) : Nat := l.foldl (fun n c => 16 * n + hexDigit c) 0

/-- `sub`, `tests/parsers/json_scannerless.py:19-22`. The group that took part in the match is given by `lastgroup`, that
of the group closed last. (A `KeyError` is called `user "KeyError"`, an `IndexError` or a `TypeError` likewise.) -/
def subst (m : Found) : Except Exn (List Nat) :=
  if (m.caps.getLast?.map (·.1)) = some "unicode" then
    match m.group "unicode" with
    | some x => .ok [parseHex x]
    | none => .error (.user "TypeError")
  else
    match m.group "simple" with
    | some [c] =>
      match simpleTable.lookup c with
      | some n => .ok [n]
      | none => .error (.user "KeyError")
    | _ => .error (.user "KeyError")

/-- `unescape`, `tests/parsers/json_scannerless.py:18-24` -/
def unescapeCodes (s : List Char) : Except Exn (List Nat) := escapeRe.sub subst s.length s

/-- The string of these code points, if they are Unicode scalar values. -/
def stringOf? (x : List Nat) : Option String :=
  if ∀ n ∈ x, n.isValidChar then some (String.ofList (x.map Char.ofNat)) else none

/-- `unescape` with a result in `String`. Simplification: where Python's string has surrogates (which no `String` of Lean
has) the model raises an exception. -/
def unescape (s : String) : Except Exn String := do
  let x ← unescapeCodes s.toList
  match stringOf? x with
  | some s => .ok s
  | none => .error (.user "surrogates")

/-- `int(s)`, for digits. -/
def parseDigits (l : List Char) : Except Exn Nat :=
  if l ≠ [] ∧ l.all isDigit = true then .ok (l.foldl (fun n c => 10 * n + (c.toNat - '0'.toNat)) 0)
  else .error (.valueError "invalid literal for int() with base 10")

/-- `int(s)`, `tests/parsers/json_scannerless.py:44`, for digits after an optional minus sign. Simplifications: other
strings are never parsed; there is no limit for the number of digits (Python 3.11 and later have one, 4300, by
default). -/
def parseInt (s : String) : Except Exn Int :=
  match s.toList with
  | [] => .error (.valueError "invalid literal for int() with base 10")
  | c :: l => if c = '-' then (parseDigits l).map fun n => -Int.ofNat n else (parseDigits (c :: l)).map Int.ofNat

/-- The functions of the parsers, with any `float`. -/
def pyFns {F : Type} (float : String → Except Exn F) : Fns F := ⟨unescape, parseInt, float⟩

end JsonText

end Reparsec
