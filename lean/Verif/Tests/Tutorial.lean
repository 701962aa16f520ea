import Verif.Tests.Basic

/-! # `/repo/docs/source/pages/tutorial.rst`, `/repo/tests/test_tuples.py`, and the docstrings of
`lexer.py` -/

namespace Reparsec.Tests.Tutorial

open Reparsec Reparsec.Tests

set_option maxRecDepth 100000

abbrev E := P Char Empty (fun _ => Unit)

def digit0 : E Char := .satisfy fun c => .ok (isDigit c)

example : run noEnv digit0 "123" false false = .ret (.ok '1') := rfl
example : run noEnv digit0 "a" false false = .ret (.error "at 0: unexpected input") := rfl

def digits (digit : E Char) : E (Char × List Char) := .seq digit (.many digit)

example : run noEnv (digits digit0) "123" false false = .ret (.ok ('1', ['2', '3'])) := rfl

def num (v : Char × List Char) : Int := toInt (String.ofList (v.1 :: v.2))
def number0 : E Int := .map (digits digit0) num

example : run noEnv number0 "123" false false = .ret (.ok 123) := rfl
example : run noEnv (.sepBy number0 (.sym ',' "','")) "12,34,56" false false
    = .ret (.ok [12, 34, 56]) := rfl

def spaces : E (List Char) := .many (.satisfy fun c => .ok (isSpace c))
def number1 : E Int := .seql number0 spaces
def comma : E Char := .seql (.sym ',' "','") spaces
def list1 : E (List Int) := .seqr spaces (.sepBy number1 comma)

example : run noEnv list1 " 1 , 2 " false false = .ret (.ok [1, 2]) := rfl
example : run noEnv list1 "1,a" false false = .ret (.error "at 2: unexpected input") := rfl
example : run noEnv list1 "1a" false false = .ret (.ok [1]) := rfl

def list2 : E (List Int) := .seql (.seqr spaces (.sepBy number1 comma)) .eof

example : run noEnv list2 "1a" false false
    = .ret (.error "at 1: expected ',' or end of file") := rfl
example : run noEnv list2 "1 2" false false
    = .ret (.error "at 2: expected ',' or end of file") := rfl
example : run noEnv list2 "1," false false = .ret (.error "at 2: unexpected input") := rfl

def digit : E Char := .label digit0 "digit"
def number : E Int := .seql (.label (.map (digits digit) num) "number") spaces
def list3 : E (List Int) := .seql (.seqr spaces (.sepBy number comma)) .eof

example : run noEnv list3 "1," false false = .ret (.error "at 2: expected number") := rfl
example : run noEnv list3 "1 2" true true = .ret (.ok [1]) := rfl
example : run noEnv list3 "1," true true = .ret (.error "at 2: expected number") := rfl

def list4 : E (List Int) :=
  .seql (.seqr spaces (.sepBy (.recoverWith number 0 "0") comma)) .eof

example : run noEnv list4 "1," true true = .ret (.ok [1, 0]) := rfl
example : run noEnv list4 "1,,,2 3" true true = .ret (.ok [1, 0, 0, 2]) := rfl
example : run noEnv list4 "1,,,2 3" true false
    = .ret (.error ("at 2: expected number (inserted 0), at 3: expected number (inserted 0), " ++
        "at 6: expected ',' or end of file (skipped 1 token)")) := rfl
example : runText noEnv list4 "1,,\n ,2\n3\n" true false
    = .ret (.error ("at 1:3: expected number (inserted 0), " ++
        "at 2:2: expected number (inserted 0), " ++
        "at 3:1: expected ',' or end of file (skipped 2 tokens)")) := rfl
example : runText noEnv list4 "1, 2, 3" true false = .ret (.ok [1, 2, 3]) := rfl
example : runText noEnv list4 "1, ,2 3" true false
    = .ret (.error ("at 1:4: expected number (inserted 0), " ++
        "at 1:7: expected ',' or end of file (skipped 1 token)")) := rfl

/-! `test_tuples.py`: tuples are nested pairs here. -/

def s (c : Char) : E Char := .sym c ("'" ++ String.ofList [c] ++ "'")
def sc (c : Char) : E Char := .seql (s c) (s ',')

example : run noEnv (.thenNext (sc 'a') (s 'b')) "a,b" false false = .ret (.ok ('a', 'b')) := rfl
example : run noEnv (.thenNext (sc 'a') (sc 'b')) "a,b," false false = .ret (.ok ('a', 'b')) := rfl
example : run noEnv (.thenNext (.thenNext (sc 'a') (sc 'b')) (s 'c')) "a,b,c" false false
    = .ret (.ok (('a', 'b'), 'c')) := rfl
example : run noEnv (.thenNext (.thenNext (.thenNext (sc 'a') (sc 'b')) (sc 'c')) (sc 'd'))
    "a,b,c,d," false false = .ret (.ok ((('a', 'b'), 'c'), 'd')) := rfl
example : run noEnv (.map (.thenNext (.thenNext (s 'a') (s 'b')) (s 'c'))
    fun v => (v.2, v.1.2, v.1.1)) "abc" false false = .ret (.ok ('c', 'b', 'a')) := rfl

/-! `lexer.py:88-151` -/

def specFn (s : List Char) : Option (Nat × Option (String × List Char)) :=
  ((plus isDigit s).map fun r => (r.1, some ("num", r.2)))
  <|> ((one (· == '+') s).map fun r => (r.1, some ("op", r.2)))
  <|> ((plus isSpace s).map fun r => (r.1, none))

def spec : LexSpec where
  run s pos :=
    match specFn (s.drop pos) with
    | none => none
    | some (n, g) => some ⟨pos + min n (s.length - pos), g.map fun x => (x.1, String.ofList x.2)⟩
  bounds s pos m hp h := by
    cases hf : specFn (s.drop pos) with
    | none => rw [hf] at h; simp at h
    | some x =>
      rw [hf] at h
      simp only [Option.some.injEq] at h
      subst h
      simp only
      omega

example : splitTokens "1 + 2 + 3".toList spec 60 = .ret
    [⟨"num", "1", ⟨0, 0, 0⟩, ⟨1, 0, 1⟩⟩, ⟨"op", "+", ⟨2, 0, 2⟩, ⟨3, 0, 3⟩⟩,
     ⟨"num", "2", ⟨4, 0, 4⟩, ⟨5, 0, 5⟩⟩, ⟨"op", "+", ⟨6, 0, 6⟩, ⟨7, 0, 7⟩⟩,
     ⟨"num", "3", ⟨8, 0, 8⟩, ⟨9, 0, 9⟩⟩] := rfl

example : runTokens (ρ := Empty) (Γ := fun _ => Unit) spec noEnv (.token "num") "1" false false
    = .ret (.ok ⟨"num", "1", ⟨0, 0, 0⟩, ⟨1, 0, 1⟩⟩) := rfl
example : runTokens (ρ := Empty) (Γ := fun _ => Unit) spec noEnv (.token "num") "+" false false
    = .ret (.error "at 1:1: expected num") := rfl
example : runTokens (ρ := Empty) (Γ := fun _ => Unit) spec noEnv (.tokenIns "num" "0") "+" true true
    = .ret (.ok ⟨"num", "0", ⟨0, 0, 0⟩, ⟨0, 0, 0⟩⟩) := rfl

end Reparsec.Tests.Tutorial
