import Verif.Model.Json

/-!
# The indentation-sensitive parser of the tests

`tests/parsers/yamlish.py:1-27`, as a parser of the model.  Python's `re` is not modelled; the four regular expressions
that occur are given as functions from the rest of the text to the length of the match, over any class of spaces (`\s`).
-/

namespace Reparsec.Yamlish

open Reparsec

/-- A regular expression given by the length of its match at the beginning of a text. -/
def matcher (f : List Char → Option Nat) (hf : ∀ l n, f l = some n → n ≤ l.length) : Matcher Char String where
  run s pos := (f (s.drop pos)).map fun n => (pos + n, .ok (some (String.ofList ((s.drop pos).take n))))
  bounds s pos e v hp h := by
    cases hn : f (s.drop pos) with
    | none => rw [hn] at h; cases h
    | some n =>
      rw [hn] at h
      have := hf _ _ hn
      rw [List.length_drop] at this
      simp only [Option.map_some, Option.some.injEq, Prod.mk.injEq] at h
      omega

/-- `[a-zA-Z_]` -/
def isStart (c : Char) : Bool :=
  decide ('a' ≤ c ∧ c ≤ 'z') || decide ('A' ≤ c ∧ c ≤ 'Z') || c == '_'

/-- `[a-zA-Z_0-9]` -/
def isPart (c : Char) : Bool := isStart c || decide ('0' ≤ c ∧ c ≤ '9')

/-- `[ \t]` -/
def isBlank (c : Char) : Bool := c == ' ' || c == '\t'

/-- `[a-zA-Z_][a-zA-Z_0-9]*` -/
def identLen : List Char → Option Nat
  | [] => none
  | c :: l => if isStart c then some (1 + (l.takeWhile isPart).length) else none

/-- `\n\s*` -/
def eolLen (space : Char → Bool) : List Char → Option Nat
  | [] => none
  | c :: l => if c = '\n' then some (1 + (l.takeWhile space).length) else none

/-- `\s*` -/
def owsLen (space : Char → Bool) (l : List Char) : Option Nat := some (l.takeWhile space).length

/-- `[ \t]*:[ \t]*` (blanks are no colons, so there is no need to backtrack) -/
def colonLen (l : List Char) : Option Nat :=
  match l.dropWhile isBlank with
  | [] => none
  | c :: l' =>
    if c = ':' then some ((l.takeWhile isBlank).length + 1 + (l'.takeWhile isBlank).length) else none

theorem takeWhile_le (f : Char → Bool) (l : List Char) : (l.takeWhile f).length ≤ l.length :=
  (List.takeWhile_prefix f).length_le

theorem identLen_le (l : List Char) (n : Nat) (h : identLen l = some n) : n ≤ l.length := by
  cases l with
  | nil => cases h
  | cons c l =>
    simp only [identLen] at h
    split at h
    · have := takeWhile_le isPart l
      simp only [Option.some.injEq, List.length_cons] at h ⊢; omega
    · cases h

theorem eolLen_le (space : Char → Bool) (l : List Char) (n : Nat) (h : eolLen space l = some n) : n ≤ l.length := by
  cases l with
  | nil => cases h
  | cons c l =>
    simp only [eolLen] at h
    split at h
    · have := takeWhile_le space l
      simp only [Option.some.injEq, List.length_cons] at h ⊢; omega
    · cases h

theorem owsLen_le (space : Char → Bool) (l : List Char) (n : Nat) (h : owsLen space l = some n) : n ≤ l.length := by
  cases h
  exact takeWhile_le space l

theorem colonLen_le (l : List Char) (n : Nat) (h : colonLen l = some n) : n ≤ l.length := by
  simp only [colonLen] at h
  split at h
  · cases h
  · next c l' hl =>
    split at h
    · have h1 := takeWhile_le isBlank l'
      have h2 := congrArg List.length (List.takeWhile_append_dropWhile (p := isBlank) (l := l))
      rw [hl] at h2
      simp only [List.length_append, List.length_cons, Option.some.injEq] at h2 h
      omega
    · cases h

/-- The values: Python's `str` and `dict` (its items, in the order in which the keys were first set). -/
inductive V where
  | str (s : String)
  | dict (kvs : List (String × V))

abbrev E := P Char Unit (fun _ => String × V)

/-- `tests/parsers/yamlish.py:8` -/
def eol (space : Char → Bool) : E String := .regexp (matcher (eolLen space) (eolLen_le space))
/-- `tests/parsers/yamlish.py:9` -/
def ows (space : Char → Bool) : E String := .regexp (matcher (owsLen space) (owsLen_le space))
/-- `tests/parsers/yamlish.py:10` -/
def ident : E String := .regexp (matcher identLen identLen_le)
/-- `tests/parsers/yamlish.py:11` -/
def colon : E String := .regexp (matcher colonLen colonLen_le)
/-- `tests/parsers/yamlish.py:13` -/
def pair : E (String × V) := .ref ()
/-- `tests/parsers/yamlish.py:14` -/
def pairs : E (List (String × V)) := .many (.aligned pair)
/-- `ident << (eol | eof())`, `tests/parsers/yamlish.py:16` (a `str` is a value without further ado; of the
two alternatives only that one succeeds matters) -/
def scalar (space : Char → Bool) : E V := .map (.seql ident (.alt (.map (eol space) fun _ => ()) .eof)) .str
/-- `eol >> indented(4, (pair + pairs).fmap(..))`, `tests/parsers/yamlish.py:17` -/
def nested (space : Char → Bool) : E V :=
  .seqr (eol space) (.indented 4 (.map (.seq pair pairs) fun vs => .dict (Json.pyDict (vs.1 :: vs.2))))
/-- `tests/parsers/yamlish.py:15-18` -/
def value (space : Char → Bool) : E V := .alt (scalar space) (nested space)
/-- `pair.define(..)`, `tests/parsers/yamlish.py:19` -/
def env (space : Char → Bool) : Env Char Unit (fun _ => String × V) := fun _ =>
  some (.seq (.seql ident colon) (value space))
/-- `tests/parsers/yamlish.py:21` -/
def parser (space : Char → Bool) : E V :=
  .seql (.seqr (ows space) (.map pairs fun kvs => .dict (Json.pyDict kvs))) .eof

end Reparsec.Yamlish
