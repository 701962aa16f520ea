import Verif.Model.Lexer
import Verif.Model.Delay

/-!
# Tests of the model: helpers

The tables of `/repo/tests` are evaluated in the model by the kernel.  These files test the model;
they prove no property.
-/

namespace Reparsec.Tests

open Reparsec

variable {ρ : Type} {Γ : ρ → Type} {α : Type}

/-- No `Delay` objects. -/
def noEnv {τ : Type} : Env τ Empty (fun _ => Unit) := fun i => i.elim

/-- A regular expression, as the function that gives the number of matched characters and the
selected group. -/
def re (f : List Char → Option (Nat × List Char)) : Matcher Char String where
  run s pos :=
    match f (s.drop pos) with
    | none => none
    | some (n, v) => some (pos + min n (s.length - pos), .ok (some (String.ofList v)))
  bounds s pos e v hp h := by
    cases hf : f (s.drop pos) with
    | none => rw [hf] at h; simp at h
    | some x =>
      rw [hf] at h
      simp only [Option.some.injEq, Prod.mk.injEq] at h
      omega

/-- `c*` -/
def star (c : Char → Bool) (s : List Char) : Option (Nat × List Char) :=
  let v := s.takeWhile c
  some (v.length, v)

/-- `c+` -/
def plus (c : Char → Bool) (s : List Char) : Option (Nat × List Char) :=
  match s.takeWhile c with
  | [] => none
  | v => some (v.length, v)

/-- `c` -/
def one (c : Char → Bool) (s : List Char) : Option (Nat × List Char) :=
  match s with
  | [] => none
  | x :: _ => if c x then some (1, [x]) else none

/-- One expression after the other; the group is the first. -/
def andThen (f g : List Char → Option (Nat × List Char)) (s : List Char) :
    Option (Nat × List Char) :=
  match f s with
  | none => none
  | some (n, v) => match g (s.drop n) with
    | none => none
    | some (m, _) => some (n + m, v)

/-- `\s` on the characters used here. -/
def isSpace (c : Char) : Bool := c == ' ' || c == '\n' || c == '\t' || c == '\r'

/-- `\d` on the characters used here. -/
def isDigit (c : Char) : Bool := '0' ≤ c && c ≤ '9'

/-- `[a-zA-Z]` -/
def isLetter (c : Char) : Bool := ('a' ≤ c && c ≤ 'z') || ('A' ≤ c && c ≤ 'Z')

/-- `int(s)` of a sequence of digits. -/
def toInt (s : String) : Int :=
  s.toList.foldl (fun n c => n * 10 + ((c.toNat : Int) - 48)) 0

/-- `literal(s)` of a string. -/
def lit (s : String) (h : s.toList ≠ [] := by decide) : P Char ρ Γ String :=
  .map (.literal s.toList ("'" ++ s ++ "'") h) fun _ => s

/-- What `unwrap` gives: the value, or the text of the error. -/
def show? : Except ParseError α → Except String α
  | .ok a => .ok a
  | .error e => .error e.str

/-- `parser.parse(data, recover=recover).unwrap(recover=b)` -/
def run (env : Env Char ρ Γ) (p : P Char ρ Γ α) (s : String) (recover b : Bool) :
    Out (Except String α) := do
  let r ← parse env 60 p s.toList recover 5 defaultGetLoc
  return show? (r.unwrap defaultFmtLoc b)

/-- `parse(parser, data, recover=recover).unwrap(recover=b)` of `reparsec.scannerless` -/
def runText (env : Env Char ρ Γ) (p : P Char ρ Γ α) (s : String) (recover b : Bool) :
    Out (Except String α) := do
  let r ← scannerlessParse env 60 p s.toList recover
  return show? (r.unwrap lineColFmtLoc b)

/-- `parse(parser, split_tokens(data, spec), recover=recover).unwrap(recover=b)` of
`reparsec.lexer` -/
def runTokens (spec : LexSpec) (env : Env Token ρ Γ) (p : P Token ρ Γ α) (s : String)
    (recover b : Bool) : Out (Except String α) := do
  let ts ← splitTokens s.toList spec 60
  let r ← lexerParse env 60 p ts recover
  return show? (r.unwrap lineColFmtLoc b)

end Reparsec.Tests
