import Verif.Model.Lexer

/-!
# `iter_tokens` as a generator

`Model/Lexer` runs the loop of `iter_tokens` to its end, as `split_tokens` does.  Here it is a generator: it runs when
`next` is called, up to the next `yield`.
-/

namespace Reparsec

/-- What a call of `next` on the generator gives: a token; `StopIteration`; or an exception of its body. -/
inductive TokenEvent where
  | token (t : Token)
  | stops
  | raises (e : Exn)
deriving DecidableEq, Repr

/-- A generator of `iter_tokens`: the local variables `pos`, `line`, `col` and `loc` at the head of the loop, or `none`
if its body has returned or raised. (At a `yield`, the rest of the body only sets `pos` and `loc` to `end` and
`end_loc`: `lexer.py:76-77`.) -/
structure TokenGenState where
  pos : Nat
  line : Nat
  col : Nat
  loc : Loc

abbrev TokenGen := Option TokenGenState

/-- Models the loop of `iter_tokens`, `lexer.py:58-77`, up to the next `yield`. -/
def tokenLoop (src : List Char) (spec : LexSpec) : (fuel : Nat) → TokenGenState → Out (TokenEvent × TokenGen)
  | 0, _ => .diverge
  | fuel + 1, g =>
    if g.pos < src.length then
      match spec.run src g.pos with
      | none => .ret (.raises (.lexError g.loc), none)
      | some m =>
        let nl := countNl src g.pos m.stop
        let line := if nl ≠ 0 then g.line + nl else g.line
        let col := if nl ≠ 0 then m.stop - ((rfindNl src g.pos m.stop).getD 0) - 1 else g.col + (m.stop - g.pos)
        let g' : TokenGenState := ⟨m.stop, line, col, ⟨m.stop, line, col⟩⟩
        match m.group with
        | some (kind, value) => .ret (.token ⟨kind, value, g.loc, g'.loc⟩, some g')
        | none => tokenLoop src spec fuel g'
    else .ret (.stops, none)

/-- Models `iter_tokens(src, spec)`, `lexer.py:52-57`: the body does not run before the first `next`. -/
def tokenGen : TokenGen := some ⟨0, 0, 0, ⟨0, 0, 0⟩⟩

/-- `next(gen)` (Python's generators: after the end of the body, `StopIteration` again and again). -/
def nextToken (src : List Char) (spec : LexSpec) (fuel : Nat) : TokenGen → Out (TokenEvent × TokenGen)
  | none => .ret (.stops, none)
  | some g => tokenLoop src spec fuel g

/-- The results of `n` calls of `next` in a row. -/
def nextTokens (src : List Char) (spec : LexSpec) (fuel : Nat) : Nat → TokenGen → Out (List TokenEvent)
  | 0, _ => .ret []
  | n + 1, g => do
    let (x, g') ← nextToken src spec fuel g
    let xs ← nextTokens src spec fuel n g'
    return x :: xs

end Reparsec
