import Verif.Tests.Basic

/-! # `/repo/tests/test_yamlish.py` -/

namespace Reparsec.Tests.Yamlish

open Reparsec Reparsec.Tests

set_option maxRecDepth 100000

inductive V
  | str (s : String)
  | dict (kvs : List (String × V))

abbrev E := P Char Unit (fun _ => String × V)

/-- `tests/parsers/yamlish.py:8-27` -/
def eol : E String := .regexp (re (andThen (one (· == '\n')) (star isSpace)))
def ows : E String := .regexp (re (star isSpace))
def ident : E String := .regexp (re (plus fun c => isLetter c || c == '_' || isDigit c))
def blank (c : Char) : Bool := c == ' ' || c == '\t'
def colon : E String :=
  .regexp (re (andThen (star blank) (andThen (one (· == ':')) (star blank))))
def pair : E (String × V) := .ref ()
def pairs : E (List (String × V)) := .many (.aligned pair)
def value : E V :=
  .alt (.map (.seql ident (.alt (.map eol fun _ => ()) .eof)) .str)
    (.seqr eol (.indented 4 (.map (.seq pair pairs) fun vs => .dict (vs.1 :: vs.2))))
def env : Env Char Unit (fun _ => String × V) := fun _ => some (.seq (.seql ident colon) value)
def parser : E V := .seql (.seqr ows (.map pairs .dict)) .eof

abbrev loads (s : String) := runText env parser s false false

example : loads "key: value" = .ret (.ok (.dict [("key", .str "value")])) := rfl
example : loads "\nfoo: bar\nbaz: qux\n"
    = .ret (.ok (.dict [("foo", .str "bar"), ("baz", .str "qux")])) := rfl
example : loads "\nfoo:\n    bar: baz\n    qux: quux\n  "
    = .ret (.ok (.dict [("foo", .dict [("bar", .str "baz"), ("qux", .str "quux")])])) := rfl
example : loads "\nfoo:\n    bar: baz\nqux: quux\n"
    = .ret (.ok (.dict [("foo", .dict [("bar", .str "baz")]), ("qux", .str "quux")])) := rfl

end Reparsec.Tests.Yamlish
