import Verif.Tests.Basic

/-! # `/repo/tests/test_json.py` (the examples are generated from its tables)

Numbers with a fraction or an exponent are kept as text (Python's `float` is not modelled). -/

namespace Reparsec.Tests.Json

open Reparsec Reparsec.Tests

set_option maxRecDepth 100000

inductive V
  | null
  | bool (b : Bool)
  | int (i : Int)
  | float (s : String)
  | str (s : String)
  | list (vs : List V)
  | dict (kvs : List (String × V))

/-- `int(s)` -/
def toIntS (s : String) : Int :=
  match s.toList with
  | '-' :: cs => - toInt (String.ofList cs)
  | _ => toInt s

/-- `unescape`, for the escapes used in the tables. -/
def unescapeL : List Char → List Char
  | '\\' :: 'n' :: cs => '\n' :: unescapeL cs
  | c :: cs => c :: unescapeL cs
  | [] => []
def unescape (s : String) : String := String.ofList (unescapeL s.toList)

/-- `-?(?:0|[1-9][0-9]*)` -/
def intRe : List Char → Option (Nat × List Char)
  | '-' :: s => match plus isDigit s with
    | some (n, v) => some (n + 1, '-' :: v)
    | none => none
  | s => plus isDigit s

/-- The fraction and the exponent (not both empty). -/
def fracRe (s : List Char) : Option (Nat × List Char) :=
  let frac : List Char × List Char := match s with
    | '.' :: s' => match plus isDigit s' with
      | some (n, v) => ('.' :: v, s'.drop n)
      | none => ([], s)
    | _ => ([], s)
  let expo : List Char := match frac.2 with
    | 'e' :: s' => match plus isDigit s' with
      | some (_, v) => 'e' :: v
      | none => []
    | _ => []
  match frac.1 ++ expo with
  | [] => none
  | v => some (v.length, v)

def floatRe (s : List Char) : Option (Nat × List Char) :=
  match intRe s with
  | none => none
  | some (n, v) => match fracRe (s.drop n) with
    | none => none
    | some (m, w) => some (n + m, v ++ w)

/-- The inside of a string (escapes are two characters here), up to the closing quote. -/
def strBody : List Char → Option (List Char × List Char)
  | '"' :: s => some ([], s)
  | '\\' :: c :: s => match strBody s with
    | some (v, r) => some ('\\' :: c :: v, r)
    | none => none
  | c :: s => match strBody s with
    | some (v, r) => some (c :: v, r)
    | none => none
  | [] => none

def strRe : List Char → Option (Nat × List Char)
  | '"' :: s => match strBody s with
    | some (c :: v, _) => some (v.length + 3, c :: v)
    | _ => none
  | _ => none

def litRe (w : String) (s : List Char) : Option (Nat × List Char) :=
  if w.toList.isPrefixOf s then some (w.toList.length, w.toList) else none

def orRe (f g : List Char → Option (Nat × List Char)) (s : List Char) :
    Option (Nat × List Char) :=
  match f s with
  | some r => some r
  | none => g s

/-- `tests/parsers/json.py:8-22` -/
def specFn (s : List Char) : Option (Nat × Option (String × List Char)) :=
  let named (k : String) (f : List Char → Option (Nat × List Char)) :=
    (f s).map fun r => (r.1, some (k, r.2))
  ((plus isSpace s).map fun r => (r.1, none))
  <|> named "punct" (one fun c => "{}:,[]".toList.contains c)
  <|> named "bool" (orRe (litRe "true") (litRe "false"))
  <|> named "null" (litRe "null")
  <|> named "float" floatRe
  <|> named "integer" intRe
  <|> named "string" strRe
  <|> named "_" (one fun _ => true)

def spec : LexSpec where
  run s pos :=
    match specFn (s.drop pos) with
    | none => none
    | some (n, g) => some ⟨pos + min n (s.length - pos), g.map fun x => (x.1, String.ofList x.2)⟩
  bounds s pos m hp h := by
    cases hf : specFn (s.drop pos) with
    | none => rw [hf] at h; simp at h
    | some x =>
      rw [hf] at h
      simp only [Option.some.injEq] at h
      subst h
      simp only
      omega

abbrev E := P Token Unit (fun _ => V)

/-- `tests/parsers/json.py:44-76` -/
def punct (x : String) : E Token := .sym ⟨"punct", x, ⟨0, 0, 0⟩, ⟨0, 0, 0⟩⟩ ("'" ++ x ++ "'")
def value : E V := .ref ()
def string : E String := .map (.token "string") fun t => unescape t.value
def integer : E V := .map (.token "integer") fun t => .int (toIntS t.value)
def number : E V := .map (.token "float") fun t => .float t.value
def boolean : E V := .map (.token "bool") fun t => .bool (t.value == "true")
def null : E V := .map (.token "null") fun _ => .null
def jsonDict : E V :=
  .label (.between (punct "{") (punct "}")
    (.map (.sepBy (.seq (.seql (.recoverWith string "a" "'\"a\"'") (punct ":")) value)
      (punct ",")) .dict)) "object"
def jsonList : E V :=
  .label (.between (punct "[") (punct "]") (.map (.sepBy value (punct ",")) .list)) "list"

def env : Env Token Unit (fun _ => V) := fun _ =>
  some (.label (.alt (.alt
    (.recoverWith (.alt (.alt (.alt (.alt integer number) boolean) null) (.map string .str))
      (.int 1) "1")
    (.recover jsonDict)) (.recover jsonList)) "value")

def parser : E V := .seql value .eof

def loads (s : String) (recover b : Bool) := runTokens spec env parser s recover b

example : loads "1" false false = .ret (.ok (.int 1)) := rfl
example : loads "12" false false = .ret (.ok (.int 12)) := rfl
example : loads "-1" false false = .ret (.ok (.int (-1))) := rfl
example : loads "1.0" false false = .ret (.ok (.float "1.0")) := rfl
example : loads "10.0" false false = .ret (.ok (.float "10.0")) := rfl
example : loads "1.0e2" false false = .ret (.ok (.float "1.0e2")) := rfl
example : loads "-1.0" false false = .ret (.ok (.float "-1.0")) := rfl
example : loads "true" false false = .ret (.ok (.bool true)) := rfl
example : loads "false" false false = .ret (.ok (.bool false)) := rfl
example : loads "null" false false = .ret (.ok .null) := rfl
example : loads "\"string\\nvalue\"" false false = .ret (.ok (.str "string\nvalue")) := rfl
example : loads "{}" false false = .ret (.ok (.dict [])) := rfl
example : loads "{\"bool\": true, \"number\": 1}" false false = .ret (.ok (.dict [("bool", (.bool true)), ("number", (.int 1))])) := rfl
example : loads "{\"nested\": {\"bool\": false}}" false false = .ret (.ok (.dict [("nested", (.dict [("bool", (.bool false))]))])) := rfl
example : loads "[1, 2, 3]" false false = .ret (.ok (.list [(.int 1), (.int 2), (.int 3)])) := rfl
example : loads "[1, [2, 3]]" false false = .ret (.ok (.list [(.int 1), (.list [(.int 2), (.int 3)])])) := rfl

example : loads "" false false
    = .ret (.error "at 1:1: expected value") := rfl
example : loads "1 1" false false
    = .ret (.error "at 1:3: expected end of file") := rfl
example : loads "{" false false
    = .ret (.error "at 1:2: expected string or '}'") := rfl
example : loads "{\"key\"" false false
    = .ret (.error "at 1:7: expected ':'") := rfl
example : loads "{\"key\":" false false
    = .ret (.error "at 1:8: expected value") := rfl
example : loads "{\"key\": 0" false false
    = .ret (.error "at 1:10: expected ',' or '}'") := rfl
example : loads "{\"key\": 0," false false
    = .ret (.error "at 1:11: expected string") := rfl
example : loads "[" false false
    = .ret (.error "at 1:2: expected value or ']'") := rfl
example : loads "[0" false false
    = .ret (.error "at 1:3: expected ',' or ']'") := rfl
example : loads "[0," false false
    = .ret (.error "at 1:4: expected value") := rfl

example : loads "1 1" true true = .ret (.ok (.int 1)) := rfl
example : loads "1 1" true false
    = .ret (.error ("at 1:3: expected end of file (skipped 1 token)")) := rfl
example : loads "{" true true = .ret (.ok (.dict [])) := rfl
example : loads "{" true false
    = .ret (.error ("at 1:2: expected string or '}' (inserted '}')")) := rfl
example : loads "[1 2]" true true = .ret (.ok (.list [(.int 1)])) := rfl
example : loads "[1 2]" true false
    = .ret (.error ("at 1:4: expected ',' or ']' (skipped 1 token)")) := rfl
example : loads "[1, , 2]" true true = .ret (.ok (.list [(.int 1), (.int 1), (.int 2)])) := rfl
example : loads "[1, , 2]" true false
    = .ret (.error ("at 1:5: expected value (inserted 1)")) := rfl
example : loads "[1, [{, 2]" true true = .ret (.ok (.list [(.int 1), (.list [(.dict []), (.int 2)])])) := rfl
example : loads "[1, [{, 2]" true false
    = .ret (.error ("at 1:7: expected string or '}' (inserted '}'), " ++
        "at 1:11: expected ',' or ']' (inserted ']')")) := rfl
example : loads "[1, }, 2]" true true = .ret (.ok (.list [(.int 1), (.dict []), (.int 2)])) := rfl
example : loads "[1, }, 2]" true false
    = .ret (.error ("at 1:5: expected value (inserted '{')")) := rfl
example : loads "{\"key\": }" true true = .ret (.ok (.dict [("key", (.int 1))])) := rfl
example : loads "{\"key\": }" true false
    = .ret (.error ("at 1:9: expected value (inserted 1)")) := rfl
example : loads "{\"key\": ]" true true = .ret (.ok (.dict [("key", (.list []))])) := rfl
example : loads "{\"key\": ]" true false
    = .ret (.error ("at 1:9: expected value (inserted '['), " ++
        "at 1:10: expected ',' or '}' (inserted '}')")) := rfl
example : loads "{\"key\": 2]" true true = .ret (.ok (.dict [("key", (.int 2))])) := rfl
example : loads "{\"key\": 2]" true false
    = .ret (.error ("at 1:10: expected ',' or '}' (inserted '}'), " ++
        "at 1:10: expected end of file (skipped 1 token)")) := rfl
example : loads "{\"key\": 0," true true = .ret (.ok (.dict [("key", (.int 0)), ("a", (.int 1))])) := rfl
example : loads "{\"key\": 0," true false
    = .ret (.error ("at 1:11: expected string (inserted '\"a\"'), " ++
        "at 1:11: expected ':' (inserted ':'), " ++
        "at 1:11: expected value (inserted 1), " ++
        "at 1:11: expected ',' or '}' (inserted '}')")) := rfl
example : loads "{\"key\": 0, ]" true true = .ret (.ok (.dict [("key", (.int 0)), ("a", (.list []))])) := rfl
example : loads "{\"key\": 0, ]" true false
    = .ret (.error ("at 1:12: expected string (inserted '\"a\"'), " ++
        "at 1:12: expected ':' (inserted ':'), " ++
        "at 1:12: expected value (inserted '['), " ++
        "at 1:13: expected ',' or '}' (inserted '}')")) := rfl
example : loads "{\"key\": @}" true true = .ret (.ok (.dict [("key", (.int 1))])) := rfl
example : loads "{\"key\": @}" true false
    = .ret (.error ("at 1:9: expected value (inserted 1), " ++
        "at 1:9: expected ',' or '}' (skipped 1 token)")) := rfl
example : loads "{\"a\", \"b\", \"c\", \"d\"}" true true = .ret (.ok (.dict [("a", (.str "b")), ("c", (.str "d"))])) := rfl
example : loads "{\"a\", \"b\", \"c\", \"d\"}" true false
    = .ret (.error ("at 1:5: expected ':' (inserted ':'), " ++
        "at 1:5: expected value (skipped 1 token), " ++
        "at 1:15: expected ':' (inserted ':'), " ++
        "at 1:15: expected value (skipped 1 token)")) := rfl

end Reparsec.Tests.Json
