import Verif.Model.Lexer

/-!
# The JSON parser of the tests

`tests/parsers/json.py:35-76`, as a parser of the model. The tokens are those of `split_tokens(src, spec)` (see
`Model/Lexer`; the regular expression `spec`, `tests/parsers/json.py:8-22`, is modelled in `Model/JsonLexer`). `unescape`
(`:36-42`), `int` and `float` are any functions, which may raise.
-/

namespace Reparsec.Json

open Reparsec

/-- What the parser takes from Python. -/
structure Fns (F : Type) where
  unescape : String → Except Exn String
  int : String → Except Exn Int
  float : String → Except Exn F

/-- The values: Python's `None`, `bool`, `int`, `float`, `str`, `list` and `dict`. A `dict` is the list of
its items, in the order in which the keys were first set. -/
inductive V (F : Type) where
  | null
  | bool (b : Bool)
  | int (i : Int)
  | float (x : F)
  | str (s : String)
  | list (vs : List (V F))
  | dict (kvs : List (String × V F))

/-- `d[k] = v` -/
def setItem {β : Type} (k : String) (v : β) : List (String × β) → List (String × β)
  | [] => [(k, v)]
  | (k', v') :: d => if k' = k then (k, v) :: d else (k', v') :: setItem k v d

/-- `dict(kvs)`, for a list of pairs. -/
def pyDict {β : Type} (kvs : List (String × β)) : List (String × β) :=
  kvs.foldl (fun d kv => setItem kv.1 kv.2 d) []

variable {F : Type}

abbrev E (F : Type) := P Token Unit (fun _ => V F)

/-- `punct`, `tests/parsers/json.py:45-46` -/
def punct (x : String) : E F Token := .sym ⟨"punct", x, ⟨0, 0, 0⟩, ⟨0, 0, 0⟩⟩ ("'" ++ x ++ "'")
/-- `tests/parsers/json.py:49` -/
def value : E F (V F) := .ref ()
/-- `tests/parsers/json.py:51` -/
def string (J : Fns F) : E F String := .fmap (.token "string") fun t => J.unescape t.value
/-- `tests/parsers/json.py:52` -/
def integer (J : Fns F) : E F (V F) := .fmap (.token "integer") fun t => (J.int t.value).map .int
/-- `tests/parsers/json.py:53` -/
def number (J : Fns F) : E F (V F) := .fmap (.token "float") fun t => (J.float t.value).map .float
/-- `tests/parsers/json.py:54` -/
def boolean : E F (V F) := .fmap (.token "bool") fun t => .ok (.bool (t.value == "true"))
/-- `tests/parsers/json.py:55` -/
def null : E F (V F) := .fmap (.token "null") fun _ => .ok .null
/-- `(string.recover_with("a", ..) << punct(":")) + value`, `tests/parsers/json.py:57` -/
def member (J : Fns F) : E F (String × V F) :=
  .seq (.seql (.recoverWith (string J) "a" "'\"a\"'") (punct ":")) value
/-- `tests/parsers/json.py:56-60` -/
def jsonDict (J : Fns F) : E F (V F) :=
  .label (.between (punct "{") (punct "}")
    (.fmap (.sepBy (member J) (punct ",")) fun kvs => .ok (.dict (pyDict kvs)))) "object"
/-- `tests/parsers/json.py:61-63` (in Python a `list` is a value without further ado) -/
def jsonList : E F (V F) :=
  .label (.between (punct "[") (punct "]")
    (.fmap (.sepBy value (punct ",")) fun vs => .ok (.list vs))) "list"
/-- `integer | number | boolean | null | string`, `tests/parsers/json.py:67` -/
def scalar (J : Fns F) : E F (V F) :=
  .alt (.alt (.alt (.alt (integer J) (number J)) boolean) null)
    (.fmap (string J) fun s => .ok (.str s))
/-- `value.define(..)`, `tests/parsers/json.py:65-70` -/
def env (J : Fns F) : Env Token Unit (fun _ => V F) := fun _ =>
  some (.label (.alt (.alt (.recoverWith (scalar J) (.int 1) "1") (.recover (jsonDict J)))
    (.recover jsonList)) "value")
/-- `tests/parsers/json.py:72` -/
def parser : E F (V F) := .seql value .eof

end Reparsec.Json
