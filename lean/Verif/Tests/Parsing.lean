import Verif.Tests.Basic

/-! # `/repo/tests/test_parsing.py`, `test_layout.py`, `test_validation.py` -/

namespace Reparsec.Tests.Parsing

open Reparsec Reparsec.Tests

set_option maxRecDepth 100000

abbrev E := P Char Empty (fun _ => Unit)

def sym (c : Char) : E String :=
  .map (.sym c ("'" ++ String.ofList [c] ++ "'")) fun c => String.ofList [c]

/-- `letter`, `digit`, `sequence.py:73-78` -/
def letter : E String :=
  .map (.label (.satisfy fun c => .ok (isLetter c)) "letter") fun c => String.ofList [c]
def digit : E String :=
  .map (.label (.satisfy fun c => .ok (isDigit c)) "digit") fun c => String.ofList [c]

def a := sym 'a'
def b := sym 'b'

def maybeAB : E String :=
  .map (.seq (.map (.maybe a) fun | some v => v | none => "None") b) fun v => v.1 ++ v.2

def ident : E String :=
  .map (.seq (.alt letter (sym '_')) (.many (.alt (.alt letter digit) (sym '_'))))
    fun v => v.1 ++ v.2.foldl (· ++ ·) ""

def emptyFst : E String := .alt (.pure "a") b
def emptySnd : E String := .alt a (.pure "b")
def bindLetter : E String :=
  .alt (.bind letter fun l => if l == "d" then digit else letter) (.pure "!")
def attemptSeq : E String :=
  .alt (.attempt (.map (.seq a b) fun v => v.1 ++ v.2)) (.pure "!")
def chains : E String :=
  .chainr1
    (.chainl1 letter
      (.seqr (sym '>') (.pure fun a b => .ok ("(" ++ a ++ ">" ++ b ++ ")"))))
    (.seqr (sym '<') (.pure fun a b => .ok ("(" ++ a ++ "<" ++ b ++ ")")))

/-- The value in both modes. -/
def both (p : E String) (s : String) := (run noEnv p s false false, run noEnv p s true false)

abbrev ok (s : String) : Out (Except String String) × Out (Except String String) :=
  (.ret (.ok s), .ret (.ok s))

example : both (.pure "a") "" = ok "a" := rfl
example : both (.pureFn (.ok "a")) "" = ok "a" := rfl
example : both (.bind (.pure "a") fun _ => b) "b" = ok "b" := rfl
example : both (.seql a b) "ab" = ok "a" := rfl
example : both (.seqr a b) "ab" = ok "b" := rfl
example : both maybeAB "ab" = ok "ab" := rfl
example : both maybeAB "b" = ok "Noneb" := rfl
example : both ident "a" = ok "a" := rfl
example : both ident "ab" = ok "ab" := rfl
example : both ident "a_b" = ok "a_b" := rfl
example : both ident "a0_b" = ok "a0_b" := rfl
example : both ident "_a0_b" = ok "_a0_b" := rfl
example : both ident "_a0_b." = ok "_a0_b" := rfl
example : both emptyFst "a" = ok "a" := rfl
example : both emptyFst "b" = ok "a" := rfl
example : both emptyFst "c" = ok "a" := rfl
example : both emptySnd "a" = ok "a" := rfl
example : both emptySnd "b" = ok "b" := rfl
example : both emptySnd "c" = ok "b" := rfl
example : both bindLetter "ab" = ok "b" := rfl
example : both bindLetter "d0" = ok "0" := rfl
example : both bindLetter "00" = ok "!" := rfl
example : both attemptSeq "ab" = ok "ab" := rfl
example : both attemptSeq "ac" = ok "!" := rfl
example : both chains "a" = ok "a" := rfl
example : both chains "a>b" = ok "(a>b)" := rfl
example : both chains "a<b" = ok "(a<b)" := rfl
example : both chains "a>b>c" = ok "((a>b)>c)" := rfl
example : both chains "a<b<c" = ok "(a<(b<c))" := rfl
example : both chains "a>b<c" = ok "((a>b)<c)" := rfl
example : both chains "a<b>c" = ok "(a<(b>c))" := rfl
example : both chains "a>b<c>d" = ok "((a>b)<(c>d))" := rfl
example : both chains "a<b>c<d" = ok "(a<((b>c)<d))" := rfl

/-- The first expected list. -/
def firstExpected (getLoc : Loc → List Char → Nat → Loc) (p : E String) (s : String)
    (recover : Bool) : Out (List String) := do
  let r ← parse noEnv 60 p s.toList recover 5 getLoc
  match r.unwrap defaultFmtLoc false with
  | .ok _ => return ["no error"]
  | .error e => return (e.errors.head?.map (·.expected)).getD ["no error"]

example : firstExpected defaultGetLoc ident "0" false = .ret ["letter", "'_'"] := rfl
example : firstExpected defaultGetLoc ident "0" true = .ret ["letter", "'_'"] := rfl

/-! `test_layout.py` -/

def ws : E String := .regexp (re (plus isSpace))

def bothText (p : E String) (s : String) :=
  (runText noEnv (.seql p .eof) s false false, runText noEnv (.seql p .eof) s true false)

example : bothText (.block a) "a" = ok "a" := rfl
example : bothText (.aligned a) "a" = ok "a" := rfl
example : bothText (.block (.aligned a)) "a" = ok "a" := rfl
example : bothText (.seqr ws (.indented 2 a)) "  a" = ok "a" := rfl

example : firstExpected scannerlessGetLoc (.seqr ws (.indented 2 a)) " a" false
    = .ret ["indentation"] := rfl
example : firstExpected scannerlessGetLoc (.seqr ws (.indented 2 a)) " a" true
    = .ret ["indentation"] := rfl
example : firstExpected scannerlessGetLoc (.seqr ws (.aligned a)) " a" false
    = .ret ["indentation"] := rfl
example : firstExpected scannerlessGetLoc (.seqr ws (.aligned a)) " a" true
    = .ret ["indentation"] := rfl

/-! `test_validation.py` -/

example : ∃ m, run noEnv (.map (.many .eof) fun _ => "") "" false false
    = .raise (.runtimeError m) := ⟨_, rfl⟩
example : ∃ m, run noEnv (.map (.many .eof) fun _ => "") "" true false
    = .raise (.runtimeError m) := ⟨_, rfl⟩
example : ∃ m, (P.literal? [] "''" : Except Exn (P Char Empty (fun _ => Unit) (List Char)))
    = .error (.valueError m) := ⟨_, rfl⟩

end Reparsec.Tests.Parsing
