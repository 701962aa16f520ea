import Verif.Tests.Basic

/-! # `/repo/tests/test_json_scannerless.py` (the examples are generated from its tables)

Numbers with a fraction or an exponent are kept as text (Python's `float` is not modelled). -/

namespace Reparsec.Tests.JsonScannerless

open Reparsec Reparsec.Tests

set_option maxRecDepth 100000

inductive V
  | null
  | bool (b : Bool)
  | int (i : Int)
  | float (s : String)
  | str (s : String)
  | list (vs : List V)
  | dict (kvs : List (String × V))

/-- `int(s)` -/
def toIntS (s : String) : Int :=
  match s.toList with
  | '-' :: cs => - toInt (String.ofList cs)
  | _ => toInt s

/-- `unescape`, for the escapes used in the tables. -/
def unescapeL : List Char → List Char
  | '\\' :: 'n' :: cs => '\n' :: unescapeL cs
  | c :: cs => c :: unescapeL cs
  | [] => []
def unescape (s : String) : String := String.ofList (unescapeL s.toList)

/-- `-?(?:0|[1-9][0-9]*)` -/
def intRe : List Char → Option (Nat × List Char)
  | '-' :: s => match plus isDigit s with
    | some (n, v) => some (n + 1, '-' :: v)
    | none => none
  | s => plus isDigit s

/-- The fraction and the exponent (not both empty). -/
def fracRe (s : List Char) : Option (Nat × List Char) :=
  let frac : List Char × List Char := match s with
    | '.' :: s' => match plus isDigit s' with
      | some (n, v) => ('.' :: v, s'.drop n)
      | none => ([], s)
    | _ => ([], s)
  let expo : List Char := match frac.2 with
    | 'e' :: s' => match plus isDigit s' with
      | some (_, v) => 'e' :: v
      | none => []
    | _ => []
  match frac.1 ++ expo with
  | [] => none
  | v => some (v.length, v)

def floatRe (s : List Char) : Option (Nat × List Char) :=
  match intRe s with
  | none => none
  | some (n, v) => match fracRe (s.drop n) with
    | none => none
    | some (m, w) => some (n + m, v ++ w)

/-- The inside of a string (escapes are two characters here), up to the closing quote. -/
def strBody : List Char → Option (List Char × List Char)
  | '"' :: s => some ([], s)
  | '\\' :: c :: s => match strBody s with
    | some (v, r) => some ('\\' :: c :: v, r)
    | none => none
  | c :: s => match strBody s with
    | some (v, r) => some (c :: v, r)
    | none => none
  | [] => none

def strRe : List Char → Option (Nat × List Char)
  | '"' :: s => match strBody s with
    | some (c :: v, _) => some (v.length + 3, c :: v)
    | _ => none
  | _ => none

def litRe (w : String) (s : List Char) : Option (Nat × List Char) :=
  if w.toList.isPrefixOf s then some (w.toList.length, w.toList) else none

def orRe (f g : List Char → Option (Nat × List Char)) (s : List Char) :
    Option (Nat × List Char) :=
  match f s with
  | some r => some r
  | none => g s

abbrev E := P Char Unit (fun _ => V)

/-- `tests/parsers/json_scannerless.py:27-68` -/
def ows : E String := .regexp (re (star isSpace))
def token (f : List Char → Option (Nat × List Char)) : E String :=
  .regexp (re (andThen f (star isSpace)))
def punct (p : String) (h : p.toList ≠ [] := by decide) : E String := .seql (lit p h) ows
def value : E V := .ref ()
def string : E String := .map (.label (token strRe) "string") unescape
def integer : E V := .map (.label (token intRe) "integer") fun s => .int (toIntS s)
def number : E V := .map (.label (token floatRe) "number") .float
def boolean : E V :=
  .map (.label (token (orRe (litRe "true") (litRe "false"))) "bool") fun s => .bool (s == "true")
def null : E V := .map (.label (token (litRe "null")) "null") fun _ => .null
def jsonDict : E V :=
  .label (.between (punct "{") (punct "}")
    (.map (.sepBy (.seq (.seql (.recoverWith string "a" "'\"a\"'") (punct ":")) value)
      (punct ",")) .dict)) "object"
def jsonList : E V :=
  .label (.between (punct "[") (punct "]") (.map (.sepBy value (punct ",")) .list)) "list"

def env : Env Char Unit (fun _ => V) := fun _ =>
  some (.label (.alt (.alt
    (.recoverWith (.alt (.alt (.alt (.alt number integer) boolean) null) (.map string .str))
      (.int 1) "1")
    (.recover jsonDict)) (.recover jsonList)) "value")

def parser : E V := .seql (.seqr ows value) .eof

def loads (s : String) (recover b : Bool) := runText env parser s recover b

example : loads "1" false false = .ret (.ok (.int 1)) := rfl
example : loads "12" false false = .ret (.ok (.int 12)) := rfl
example : loads "-1" false false = .ret (.ok (.int (-1))) := rfl
example : loads "1.0" false false = .ret (.ok (.float "1.0")) := rfl
example : loads "10.0" false false = .ret (.ok (.float "10.0")) := rfl
example : loads "1.0e2" false false = .ret (.ok (.float "1.0e2")) := rfl
example : loads "-1.0" false false = .ret (.ok (.float "-1.0")) := rfl
example : loads "true" false false = .ret (.ok (.bool true)) := rfl
example : loads "false" false false = .ret (.ok (.bool false)) := rfl
example : loads "null" false false = .ret (.ok .null) := rfl
example : loads "\"string\\nvalue\"" false false = .ret (.ok (.str "string\nvalue")) := rfl
example : loads "{}" false false = .ret (.ok (.dict [])) := rfl
example : loads "{\"bool\": true, \"number\": 1}" false false = .ret (.ok (.dict [("bool", (.bool true)), ("number", (.int 1))])) := rfl
example : loads "{\"nested\": {\"bool\": false}}" false false = .ret (.ok (.dict [("nested", (.dict [("bool", (.bool false))]))])) := rfl
example : loads "[1, 2, 3]" false false = .ret (.ok (.list [(.int 1), (.int 2), (.int 3)])) := rfl
example : loads "[1, [2, 3]]" false false = .ret (.ok (.list [(.int 1), (.list [(.int 2), (.int 3)])])) := rfl

example : loads "" false false
    = .ret (.error "at 1:1: expected value") := rfl
example : loads "1 1" false false
    = .ret (.error "at 1:3: expected end of file") := rfl
example : loads "{" false false
    = .ret (.error "at 1:2: expected string or '}'") := rfl
example : loads "{\"key\"" false false
    = .ret (.error "at 1:7: expected ':'") := rfl
example : loads "{\"key\":" false false
    = .ret (.error "at 1:8: expected value") := rfl
example : loads "{\"key\": 0" false false
    = .ret (.error "at 1:10: expected ',' or '}'") := rfl
example : loads "{\"key\": 0," false false
    = .ret (.error "at 1:11: expected string") := rfl
example : loads "[" false false
    = .ret (.error "at 1:2: expected value or ']'") := rfl
example : loads "[0" false false
    = .ret (.error "at 1:3: expected ',' or ']'") := rfl
example : loads "[0," false false
    = .ret (.error "at 1:4: expected value") := rfl

example : loads "1 1" true true = .ret (.ok (.int 1)) := rfl
example : loads "1 1" true false
    = .ret (.error ("at 1:3: expected end of file (skipped 1 token)")) := rfl
example : loads "{" true true = .ret (.ok (.dict [])) := rfl
example : loads "{" true false
    = .ret (.error ("at 1:2: expected string or '}' (inserted '}')")) := rfl
example : loads "[1 2]" true true = .ret (.ok (.list [(.int 1)])) := rfl
example : loads "[1 2]" true false
    = .ret (.error ("at 1:4: expected ',' or ']' (skipped 1 token)")) := rfl
example : loads "[1, , 2]" true true = .ret (.ok (.list [(.int 1), (.int 1), (.int 2)])) := rfl
example : loads "[1, , 2]" true false
    = .ret (.error ("at 1:5: expected value (inserted 1)")) := rfl
example : loads "[1, [{, 2]" true true = .ret (.ok (.list [(.int 1), (.list [(.dict []), (.int 2)])])) := rfl
example : loads "[1, [{, 2]" true false
    = .ret (.error ("at 1:7: expected string or '}' (inserted '}'), " ++
        "at 1:11: expected ',' or ']' (inserted ']')")) := rfl
example : loads "[1, }, 2]" true true = .ret (.ok (.list [(.int 1), (.dict []), (.int 2)])) := rfl
example : loads "[1, }, 2]" true false
    = .ret (.error ("at 1:5: expected value (inserted '{')")) := rfl
example : loads "{\"key\": }" true true = .ret (.ok (.dict [("key", (.int 1))])) := rfl
example : loads "{\"key\": }" true false
    = .ret (.error ("at 1:9: expected value (inserted 1)")) := rfl
example : loads "{\"key\": ]" true true = .ret (.ok (.dict [("key", (.list []))])) := rfl
example : loads "{\"key\": ]" true false
    = .ret (.error ("at 1:9: expected value (inserted '['), " ++
        "at 1:10: expected ',' or '}' (inserted '}')")) := rfl
example : loads "{\"key\": 2]" true true = .ret (.ok (.dict [("key", (.int 2))])) := rfl
example : loads "{\"key\": 2]" true false
    = .ret (.error ("at 1:10: expected ',' or '}' (inserted '}'), " ++
        "at 1:10: expected end of file (skipped 1 token)")) := rfl
example : loads "{\"key\": 0," true true = .ret (.ok (.dict [("key", (.int 0)), ("a", (.int 1))])) := rfl
example : loads "{\"key\": 0," true false
    = .ret (.error ("at 1:11: expected string (inserted '\"a\"'), " ++
        "at 1:11: expected ':' (inserted ':'), " ++
        "at 1:11: expected value (inserted 1), " ++
        "at 1:11: expected ',' or '}' (inserted '}')")) := rfl
example : loads "{\"key\": 0, ]" true true = .ret (.ok (.dict [("key", (.int 0)), ("a", (.list []))])) := rfl
example : loads "{\"key\": 0, ]" true false
    = .ret (.error ("at 1:12: expected string (inserted '\"a\"'), " ++
        "at 1:12: expected ':' (inserted ':'), " ++
        "at 1:12: expected value (inserted '['), " ++
        "at 1:13: expected ',' or '}' (inserted '}')")) := rfl
example : loads "{\"key\": @}" true true = .ret (.ok (.dict [("key", (.int 1))])) := rfl
example : loads "{\"key\": @}" true false
    = .ret (.error ("at 1:9: expected value (inserted 1), " ++
        "at 1:9: expected ',' or '}' (skipped 1 token)")) := rfl
example : loads "{\"a\", \"b\", \"c\", \"d\"}" true true = .ret (.ok (.dict [("a", (.str "b")), ("c", (.str "d"))])) := rfl
example : loads "{\"a\", \"b\", \"c\", \"d\"}" true false
    = .ret (.error ("at 1:5: expected ':' (inserted ':'), " ++
        "at 1:5: expected value (skipped 2 tokens), " ++
        "at 1:15: expected ':' (inserted ':'), " ++
        "at 1:15: expected value (skipped 2 tokens)")) := rfl

end Reparsec.Tests.JsonScannerless
