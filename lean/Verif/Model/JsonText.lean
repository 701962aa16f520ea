import Verif.Model.Json
import Verif.Model.Yamlish

/-!
# The scannerless JSON parser of the tests

`tests/parsers/json_scannerless.py:1-70`, as a parser of the model.  Python's `re` is not modelled; each regular
expression that occurs is given as a function from the rest of the text to the length of its match.  All of them can be
matched without backtracking: where a repetition gives up a character, what follows in the expression does not match that
character.  `unescape` (`:18-24`), `int` and `float` are any functions, which may raise.
-/

namespace Reparsec.JsonText

open Reparsec Json

/-- `[ \n\r\t]` -/
def isSpace (c : Char) : Bool := c == ' ' || c == '\n' || c == '\r' || c == '\t'

/-- `[0-9]` -/
def isDigit (c : Char) : Bool := decide ('0' ≤ c ∧ c ≤ '9')

/-- `[1-9]` -/
def isNonZero (c : Char) : Bool := decide ('1' ≤ c ∧ c ≤ '9')

/-- `[0-9a-fA-F]` -/
def isHex (c : Char) : Bool := isDigit c || decide ('a' ≤ c ∧ c ≤ 'f') || decide ('A' ≤ c ∧ c ≤ 'F')

/-- `["\\/bfnrt]` -/
def isSimple (c : Char) : Bool := ['"', '\\', '/', 'b', 'f', 'n', 'r', 't'].contains c

/-- `[\x20\x21\x23-\x5B\x5D-\U0010FFFF]` -/
def isPlain (c : Char) : Bool := decide (' ' ≤ c) && c != '"' && c != '\\'

/-- `[0-9]+` -/
def digitsLen (l : List Char) : Option Nat :=
  if (l.takeWhile isDigit).length = 0 then none else some (l.takeWhile isDigit).length

/-- `0|[1-9][0-9]*` -/
def natLen : List Char → Option Nat
  | [] => none
  | c :: l => if c = '0' then some 1 else if isNonZero c then some (1 + (l.takeWhile isDigit).length) else none

/-- `-?(?:0|[1-9][0-9]*)`, `tests/parsers/json_scannerless.py:44` -/
def intLen (l : List Char) : Option Nat :=
  match l with
  | [] => none
  | c :: l' => if c = '-' then (natLen l').map (1 + ·) else natLen l

/-- `\.[0-9]+` -/
def fracLen : List Char → Option Nat
  | [] => none
  | c :: l => if c = '.' then (digitsLen l).map (1 + ·) else none

/-- `[-+]?[0-9]+` -/
def powerLen (l : List Char) : Option Nat :=
  match l with
  | [] => none
  | c :: l' => if c = '-' ∨ c = '+' then (digitsLen l').map (1 + ·) else digitsLen l

/-- `[eE][-+]?[0-9]+` -/
def expLen : List Char → Option Nat
  | [] => none
  | c :: l => if c = 'e' ∨ c = 'E' then (powerLen l).map (1 + ·) else none

/-- `(?:\.[0-9]+)?(?:[eE][-+]?[0-9]+)|(?:\.[0-9]+)` -/
def tailLen (l : List Char) : Option Nat :=
  match fracLen l with
  | none => expLen l
  | some n =>
    match expLen (l.drop n) with
    | none => some n
    | some m => some (n + m)

/-- `-?(?:0|[1-9][0-9]*)(?:(?:\.[0-9]+)?(?:[eE][-+]?[0-9]+)|(?:\.[0-9]+))`, `tests/parsers/json_scannerless.py:45-47` -/
def numLen (l : List Char) : Option Nat :=
  match intLen l with
  | none => none
  | some n => (tailLen (l.drop n)).map (n + ·)

/-- A word. -/
def wordLen (x l : List Char) : Option Nat := if x.isPrefixOf l then some x.length else none

/-- `true|false`, `tests/parsers/json_scannerless.py:48` -/
def boolLen (l : List Char) : Option Nat :=
  match wordLen ['t', 'r', 'u', 'e'] l with
  | some n => some n
  | none => wordLen ['f', 'a', 'l', 's', 'e'] l

/-- `null`, `tests/parsers/json_scannerless.py:49` -/
def nullLen (l : List Char) : Option Nat := wordLen ['n', 'u', 'l', 'l'] l

/-- `(?:[\x20\x21\x23-\x5B\x5D-\U0010FFFF]|\\(?:["\\/bfnrt]|u[0-9a-fA-F]{4}))*`: the length of the longest match -/
def bodyLen : List Char → Nat
  | [] => 0
  | c :: l =>
    if c = '\\' then
      match l with
      | [] => 0
      | d :: l' =>
        if isSimple d then 2 + bodyLen l'
        else if d = 'u' then
          match l' with
          | h1 :: h2 :: h3 :: h4 :: l'' =>
            if isHex h1 && isHex h2 && isHex h3 && isHex h4 then 6 + bodyLen l'' else 0
          | _ => 0
        else 0
    else if isPlain c then 1 + bodyLen l
    else 0

/-- `"((?:[\x20\x21\x23-\x5B\x5D-\U0010FFFF]|\\(?:["\\/bfnrt]|u[0-9a-fA-F]{4}))+)"`,
`tests/parsers/json_scannerless.py:40-42` -/
def strLen : List Char → Option Nat
  | [] => none
  | c :: l =>
    if c = '"' ∧ bodyLen l ≠ 0 ∧ l[bodyLen l]? = some '"' then some (bodyLen l + 2) else none

/-- `ows`, `tests/parsers/json_scannerless.py:27`; and what `token` adds, `:31` -/
def owsLen (l : List Char) : Nat := (l.takeWhile isSpace).length

theorem takeWhile_le (f : Char → Bool) (l : List Char) : (l.takeWhile f).length ≤ l.length :=
  (List.takeWhile_prefix f).length_le

/-- `regexp(pat + r"[ \n\r\t]*", 1)`, `tests/parsers/json_scannerless.py:30-31`: the match is what `pat` matches and the
white space after it; the value is group 1, which is the match of `pat` but for the first `cut` and the last `cut`
characters. -/
def tokenMatcher (f : List Char → Option Nat) (cut : Nat) : Matcher Char String where
  run s pos := (f (s.drop pos)).map fun n =>
    let t := (s.drop pos).take n
    (pos + t.length + owsLen ((s.drop pos).drop n), .ok (some (String.ofList ((t.take (t.length - cut)).drop cut))))
  bounds s pos e v hp h := by
    rw [Option.map_eq_some_iff] at h
    obtain ⟨n, -, h⟩ := h
    simp only [Prod.mk.injEq, List.length_take, List.length_drop] at h
    have h1 := takeWhile_le isSpace ((s.drop pos).drop n)
    rw [List.length_drop, List.length_drop] at h1
    have : owsLen ((s.drop pos).drop n) = (((s.drop pos).drop n).takeWhile isSpace).length := rfl
    omega

variable {F : Type}

abbrev E (F : Type) := P Char Unit (fun _ => V F)

/-- `ows`, `tests/parsers/json_scannerless.py:27` -/
def ows : E F String := .regexp (Yamlish.matcher (fun l => some (owsLen l)) fun l n h => by
  cases h
  exact takeWhile_le isSpace l)
/-- `token`, `tests/parsers/json_scannerless.py:30-31` -/
def token (f : List Char → Option Nat) (cut : Nat := 0) : E F String := .regexp (tokenMatcher f cut)
/-- `punct`, `tests/parsers/json_scannerless.py:34-35` -/
def punct (x : Char) : E F (List Char) :=
  .seql (.literal [x] (String.ofList ['\'', x, '\'']) (List.cons_ne_nil _ _)) ows
/-- `tests/parsers/json_scannerless.py:38` -/
def value : E F (V F) := .ref ()
/-- `tests/parsers/json_scannerless.py:40-43` -/
def string (J : Fns F) : E F String := .fmap (.label (token strLen 1) "string") J.unescape
/-- `tests/parsers/json_scannerless.py:44` -/
def integer (J : Fns F) : E F (V F) := .fmap (.label (token intLen) "integer") fun s => (J.int s).map .int
/-- `tests/parsers/json_scannerless.py:45-47` -/
def number (J : Fns F) : E F (V F) := .fmap (.label (token numLen) "number") fun s => (J.float s).map .float
/-- `tests/parsers/json_scannerless.py:48` -/
def boolean : E F (V F) := .fmap (.label (token boolLen) "bool") fun s => .ok (.bool (s == "true"))
/-- `tests/parsers/json_scannerless.py:49` -/
def null : E F (V F) := .fmap (.label (token nullLen) "null") fun _ => .ok .null
/-- `(string.recover_with("a", ..) << punct(":")) + value`, `tests/parsers/json_scannerless.py:51` -/
def member (J : Fns F) : E F (String × V F) :=
  .seq (.seql (.recoverWith (string J) "a" "'\"a\"'") (punct ':')) value
/-- `tests/parsers/json_scannerless.py:50-54` -/
def jsonDict (J : Fns F) : E F (V F) :=
  .label (.between (punct '{') (punct '}')
    (.fmap (.sepBy (member J) (punct ',')) fun kvs => .ok (.dict (pyDict kvs)))) "object"
/-- `tests/parsers/json_scannerless.py:55-57` (in Python a `list` is a value without further ado) -/
def jsonList : E F (V F) :=
  .label (.between (punct '[') (punct ']')
    (.fmap (.sepBy value (punct ',')) fun vs => .ok (.list vs))) "list"
/-- `number | integer | boolean | null | string`, `tests/parsers/json_scannerless.py:61` -/
def scalar (J : Fns F) : E F (V F) :=
  .alt (.alt (.alt (.alt (number J) (integer J)) boolean) null)
    (.fmap (string J) fun s => .ok (.str s))
/-- `value.define(..)`, `tests/parsers/json_scannerless.py:59-64` -/
def env (J : Fns F) : Env Char Unit (fun _ => V F) := fun _ =>
  some (.label (.alt (.alt (.recoverWith (scalar J) (.int 1) "1") (.recover (jsonDict J)))
    (.recover jsonList)) "value")
/-- `tests/parsers/json_scannerless.py:66` -/
def parser : E F (V F) := .seql (.seqr ows value) .eof

end Reparsec.JsonText
