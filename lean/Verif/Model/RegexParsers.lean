import Verif.Model.Regex

/-!
# The regular expressions of the parsers of the tests

As they are written in `tests/parsers/*.py` and `README.md`; and the parsers made of them, which are those of
`Model/Calculator`, `Model/Yamlish`, `Model/Json`, `Model/JsonText` but for the regular expressions.
-/

namespace Reparsec

open Re

namespace JsonText

open Json (V Fns pyDict)

/-- `[ \n\r\t]*`, `tests/parsers/json_scannerless.py:27`, `:31` -/
def wsRe : Re := .star (.cls isSpace)
/-- `-?(?:0|[1-9][0-9]*)`, `tests/parsers/json_scannerless.py:44`, `json.py:16` -/
def intRe : Re := .seq (opt (chr '-')) (.alt (chr '0') (.seq (.cls isNonZero) (.star (.cls isDigit))))
/-- `\.[0-9]+` -/
def fracRe : Re := .seq (chr '.') (plus (.cls isDigit))
/-- `[eE][-+]?[0-9]+` -/
def expRe : Re := .seq (.cls fun c => c == 'e' || c == 'E') (.seq (opt (.cls fun c => c == '-' || c == '+'))
  (plus (.cls isDigit)))
/-- `-?(?:0|[1-9][0-9]*)(?:(?:\.[0-9]+)?(?:[eE][-+]?[0-9]+)|(?:\.[0-9]+))`,
`tests/parsers/json_scannerless.py:46`, `json.py:13-15` -/
def numRe : Re := .seq intRe (.alt (.seq (opt fracRe) expRe) fracRe)
/-- `true|false`, `tests/parsers/json_scannerless.py:48`, `json.py:11` -/
def boolRe : Re := .alt (word ['t', 'r', 'u', 'e']) (word ['f', 'a', 'l', 's', 'e'])
/-- `null`, `tests/parsers/json_scannerless.py:49`, `json.py:12` -/
def nullRe : Re := word ['n', 'u', 'l', 'l']
/-- `[\x20\x21\x23-\x5B\x5D-\U0010FFFF]|\\(?:["\\/bfnrt]|u[0-9a-fA-F]{4})`,
`tests/parsers/json_scannerless.py:41-42`, `json.py:18-19` -/
def itemRe : Re := .alt (.cls isPlain) (.seq (chr '\\') (.alt (.cls isSimple) (.seq (chr 'u')
  (.seq (.cls isHex) (.seq (.cls isHex) (.seq (.cls isHex) (.cls isHex)))))))
/-- `"((?:..)+)"`, `tests/parsers/json_scannerless.py:40-42`; `"(?P<string>(?:..)+)"`, `json.py:17-20` -/
def strRe (name : String) : Re := .seq (chr '"') (.seq (.group name (plus itemRe)) (chr '"'))
/-- `spec`, `tests/parsers/json.py:8-22` -/
def specRe : Re :=
  .alt (plus (.cls isSpace)) <| .alt (.group "punct" (.cls isPunct)) <| .alt (.group "bool" boolRe) <|
  .alt (.group "null" nullRe) <| .alt (.group "float" numRe) <| .alt (.group "integer" intRe) <|
  .alt (strRe "string") (.group "_" (.cls fun c => c != '\n'))

variable {F : Type}

namespace AsWritten

/-- `ows`, `tests/parsers/json_scannerless.py:27` -/
def ows : E F String := .regexp (wsRe.matcher String.ofList)
/-- `token`, `tests/parsers/json_scannerless.py:30-31` -/
def token (re : Re) : E F String := .regexp ((Re.seq re wsRe).matcher String.ofList (some "1"))
/-- `punct`, `tests/parsers/json_scannerless.py:34-35` -/
def punct (x : Char) : E F (List Char) :=
  .seql (.literal [x] (String.ofList ['\'', x, '\'']) (List.cons_ne_nil _ _)) ows
/-- `tests/parsers/json_scannerless.py:40-43` -/
def string (J : Fns F) : E F String := .fmap (.label (token (strRe "1")) "string") J.unescape
/-- `tests/parsers/json_scannerless.py:44` -/
def integer (J : Fns F) : E F (V F) :=
  .fmap (.label (token (.group "1" intRe)) "integer") fun s => (J.int s).map .int
/-- `tests/parsers/json_scannerless.py:45-47` -/
def number (J : Fns F) : E F (V F) :=
  .fmap (.label (token (.group "1" numRe)) "number") fun s => (J.float s).map .float
/-- `tests/parsers/json_scannerless.py:48` -/
def boolean : E F (V F) := .fmap (.label (token (.group "1" boolRe)) "bool") fun s => .ok (.bool (s == "true"))
/-- `tests/parsers/json_scannerless.py:49` -/
def null : E F (V F) := .fmap (.label (token (.group "1" nullRe)) "null") fun _ => .ok .null
/-- `tests/parsers/json_scannerless.py:51` -/
def member (J : Fns F) : E F (String × V F) :=
  .seq (.seql (.recoverWith (string J) "a" "'\"a\"'") (punct ':')) value
/-- `tests/parsers/json_scannerless.py:50-54` -/
def jsonDict (J : Fns F) : E F (V F) :=
  .label (.between (punct '{') (punct '}')
    (.fmap (.sepBy (member J) (punct ',')) fun kvs => .ok (.dict (pyDict kvs)))) "object"
/-- `tests/parsers/json_scannerless.py:55-57` -/
def jsonList : E F (V F) :=
  .label (.between (punct '[') (punct ']')
    (.fmap (.sepBy value (punct ',')) fun vs => .ok (.list vs))) "list"
/-- `tests/parsers/json_scannerless.py:61` -/
def scalar (J : Fns F) : E F (V F) :=
  .alt (.alt (.alt (.alt (number J) (integer J)) boolean) null)
    (.fmap (string J) fun s => .ok (.str s))
/-- `tests/parsers/json_scannerless.py:59-64` -/
def env (J : Fns F) : Env Char Unit (fun _ => V F) := fun _ =>
  some (.label (.alt (.alt (.recoverWith (scalar J) (.int 1) "1") (.recover (jsonDict J)))
    (.recover jsonList)) "value")
/-- `tests/parsers/json_scannerless.py:66` -/
def parser : E F (V F) := .seql (.seqr ows value) .eof
/-- `spec`, `tests/parsers/json.py:8-22` -/
def jsonSpec : LexSpec := specRe.lexSpec

end AsWritten

end JsonText

namespace Yamlish.AsWritten

/-- `\n\s*`, `tests/parsers/yamlish.py:8` -/
def eol (space : Char → Bool) : E String := .regexp ((Re.seq (chr '\n') (.star (.cls space))).matcher String.ofList)
/-- `\s*`, `tests/parsers/yamlish.py:9` -/
def ows (space : Char → Bool) : E String := .regexp ((Re.star (.cls space)).matcher String.ofList)
/-- `[a-zA-Z_][a-zA-Z_0-9]*`, `tests/parsers/yamlish.py:10` -/
def ident : E String := .regexp ((Re.seq (.cls isStart) (.star (.cls isPart))).matcher String.ofList)
/-- `[ \t]*:[ \t]*`, `tests/parsers/yamlish.py:11` -/
def colon : E String := .regexp ((Re.seq (.star (.cls isBlank)) (.seq (chr ':') (.star (.cls isBlank)))).matcher
  String.ofList)
/-- `tests/parsers/yamlish.py:16` -/
def scalar (space : Char → Bool) : E V := .map (.seql ident (.alt (.map (eol space) fun _ => ()) .eof)) .str
/-- `tests/parsers/yamlish.py:17` -/
def nested (space : Char → Bool) : E V :=
  .seqr (eol space) (.indented 4 (.map (.seq pair pairs) fun vs => .dict (Json.pyDict (vs.1 :: vs.2))))
/-- `tests/parsers/yamlish.py:15-18` -/
def value (space : Char → Bool) : E V := .alt (scalar space) (nested space)
/-- `tests/parsers/yamlish.py:19` -/
def env (space : Char → Bool) : Env Char Unit (fun _ => String × V) := fun _ =>
  some (.seq (.seql ident colon) (value space))
/-- `tests/parsers/yamlish.py:21` -/
def parser (space : Char → Bool) : E V :=
  .seql (.seqr (ows space) (.map pairs fun kvs => .dict (Json.pyDict kvs))) .eof

end Yamlish.AsWritten

namespace Calculator.AsWritten

/-- `\s*`, `README.md:41` -/
def spaces (C : Chars) : E (List Char) := .regexp ((Re.star (.cls C.space)).matcher id)
/-- `\d+`, `README.md:42` -/
def number (C : Chars) : E Int := .seql (.fmap (.regexp ((Re.plus (.cls C.digit)).matcher id)) C.int) (spaces C)
/-- `[*]`, `README.md:43` -/
def mulOp (C : Chars) : E (Int → Int → Except Exn Int) :=
  .seql (.fmap (.regexp ((Re.cls (· == '*')).matcher id)) opAction) (spaces C)
/-- `[-+]`, `README.md:44` -/
def addOp (C : Chars) : E (Int → Int → Except Exn Int) :=
  .seql (.fmap (.regexp ((Re.cls fun c => c == '-' || c == '+').matcher id)) opAction) (spaces C)
/-- `README.md:45` -/
def lParen (C : Chars) : E (List Char) := .seql (.literal ['('] "'('" (by simp)) (spaces C)
/-- `README.md:46` -/
def rParen (C : Chars) : E (List Char) := .seql (.literal [')'] "')'" (by simp)) (spaces C)
/-- `README.md:51-52` -/
def factor (C : Chars) : E Int := .alt (number C) (.between (lParen C) (rParen C) expr)
/-- `README.md:54` -/
def term (C : Chars) : E Int := .chainl1 (factor C) (mulOp C)
/-- `README.md:49-56` -/
def env (C : Chars) : Env Char Unit (fun _ => Int) := fun _ => some (.chainl1 (term C) (addOp C))

end Calculator.AsWritten

end Reparsec
