import Verif.Model.JsonText

/-!
# The lexer of the JSON parser of the tests

`tests/parsers/json.py:8-22`.  Python's `re` is not modelled; the alternatives of the regular expression are given as
functions from the rest of the text to the length of the match, tried in order (see `Model/JsonText`).
-/

namespace Reparsec.JsonText

open Reparsec

/-- `[{}:,[\]]`, `tests/parsers/json.py:10` -/
def isPunct (c : Char) : Bool := ['{', '}', ':', ',', '[', ']'].contains c

/-- One such character. -/
def oneLen (f : Char → Bool) : List Char → Option Nat
  | [] => none
  | c :: _ => if f c then some 1 else none

/-- `(?P<kind>..)`: the length of the match, and the text of the group, which is the match but for the first `cut` and
the last `cut` characters. -/
def named (kind : String) (f : List Char → Option Nat) (cut : Nat) (l : List Char) :
    Option (Nat × Option (String × String)) :=
  (f l).map fun n =>
    let t := l.take n
    (t.length, some (kind, String.ofList ((t.take (t.length - cut)).drop cut)))

/-- `spec`, `tests/parsers/json.py:8-22`: the length of the match, and the named group. -/
def lexLen (l : List Char) : Option (Nat × Option (String × String)) :=
  if owsLen l ≠ 0 then some (owsLen l, none)
  else (named "punct" (oneLen isPunct) 0 l).or <| (named "bool" boolLen 0 l).or <| (named "null" nullLen 0 l).or <|
    (named "float" numLen 0 l).or <| (named "integer" intLen 0 l).or <| (named "string" strLen 1 l).or <|
    named "_" (oneLen fun c => c != '\n') 0 l

theorem named_le {kind : String} {f : List Char → Option Nat} {cut : Nat} {l : List Char}
    {r : Nat × Option (String × String)} (h : named kind f cut l = some r) : r.1 ≤ l.length := by
  obtain ⟨n, -, rfl⟩ := Option.map_eq_some_iff.1 h
  exact (List.take_prefix _ _).length_le

theorem lexLen_le {l : List Char} {r : Nat × Option (String × String)} (h : lexLen l = some r) : r.1 ≤ l.length := by
  unfold lexLen at h
  split at h
  · cases h; exact takeWhile_le isSpace l
  · simp only [Option.or_eq_some_iff] at h
    rcases h with h | ⟨-, h | ⟨-, h | ⟨-, h | ⟨-, h | ⟨-, h | ⟨-, h⟩⟩⟩⟩⟩⟩ <;> exact named_le h

/-- `spec`, `tests/parsers/json.py:8-22` -/
def jsonSpec : LexSpec where
  run src pos := (lexLen (src.drop pos)).map fun r => ⟨pos + r.1, r.2⟩
  bounds src pos m hp h := by
    obtain ⟨r, hr, rfl⟩ := Option.map_eq_some_iff.1 h
    have := lexLen_le hr
    rw [List.length_drop] at this
    dsimp only
    omega

end Reparsec.JsonText
