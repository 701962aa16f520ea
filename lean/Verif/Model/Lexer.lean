import Verif.Model.Parser

/-!
# The lexer

Models `src/reparsec/lexer.py`.
-/

namespace Reparsec

variable {ρ : Type} {Γ : ρ → Type} {α : Type}

/-- Models `Token`, `lexer.py:18-32`. -/
structure Token where
  kind : String
  value : String
  start : Loc := ⟨0, 0, 0⟩
  stop : Loc := ⟨0, 0, 0⟩
deriving DecidableEq, Repr

/-- Token equality ignores the locations (`compare=False`, `lexer.py:31-32`). -/
instance : BEq Token where
  beq a b := a.kind == b.kind && a.value == b.value

/-- What `spec.match(src, pos=pos)` (`lexer.py:59`) gives when it matches: `match.end()`, and,
if `match.lastgroup` is not `None`, that name together with `match.group(kind)`. -/
structure LexMatch where
  stop : Nat
  group : Option (String × String)

/-- A compiled lexer specification. Python's `re` is not modelled; assumed: a match found at
`pos` lies within the source. -/
structure LexSpec where
  run : List Char → Nat → Option LexMatch
  bounds : ∀ src pos m, pos ≤ src.length → run src pos = some m →
    pos ≤ m.stop ∧ m.stop ≤ src.length

/-- Lines 63-70 of `lexer.py`: the location after a match of `src[pos:stop]` that began at
`loc`. -/
def lexEndLoc (src : List Char) (pos stop : Nat) (loc : Loc) : Loc :=
  let nl := countNl src pos stop
  if nl ≠ 0 then
    ⟨stop, loc.line + nl, stop - ((rfindNl src pos stop).getD 0) - 1⟩
  else ⟨stop, loc.line, loc.col + (stop - pos)⟩

/-- The loop of `iter_tokens`, `lexer.py:52-77`. The loop variables `line` and `col` always
equal `loc.line` and `loc.col`; the generator is consumed eagerly, as by `split_tokens`. -/
def iterTokens (src : List Char) (spec : LexSpec) :
    (fuel : Nat) → (pos : Nat) → Loc → Out (List Token)
  | 0, _, _ => .diverge
  | fuel + 1, pos, loc =>
    if pos < src.length then
      match spec.run src pos with
      | none => .raise (.lexError loc)
      | some m => do
        let endLoc := lexEndLoc src pos m.stop loc
        let rest ← iterTokens src spec fuel m.stop endLoc
        match m.group with
        | some (kind, value) => return ⟨kind, value, loc, endLoc⟩ :: rest
        | none => return rest
    else .ret []

/-- Models `split_tokens`, `lexer.py:80-101`. -/
def splitTokens (src : List Char) (spec : LexSpec) (fuel : Nat) : Out (List Token) :=
  iterTokens src spec fuel 0 ⟨0, 0, 0⟩

/-- Models `_loc_from_stream`, `lexer.py:176-181`. -/
def locFromStream (stream : List Token) (pos : Nat) : Loc :=
  match stream[pos]? with
  | some t => t.start
  | none =>
    match stream.getLast? with
    | some t => t.stop
    | none => ⟨pos, 0, 0⟩

/-- Models `token`, `lexer.py:104-125`. -/
def P.token (kind : String) : P Token ρ Γ Token :=
  .label (.satisfy fun t => .ok (t.kind == kind)) kind

/-- Models `token_ins`, `lexer.py:128-154`. -/
def P.tokenIns (kind insValue : String) : P Token ρ Γ Token :=
  .recoverWithFn (P.token kind)
    (fun stream pos =>
      let loc := locFromStream stream pos
      .ok ⟨kind, insValue, loc, loc⟩)
    (fun _ => kind)

/-- The `get_loc` of `lexer.parse`, `lexer.py:171`. -/
def lexerGetLoc : Loc → List Token → Nat → Loc := fun _ s p => locFromStream s p

/-- Models `lexer.parse`, `lexer.py:157-173`. -/
def lexerParse (env : Env Token ρ Γ) (fuel : Nat) (p : P Token ρ Γ α) (stream : List Token)
    (recover : Bool) : Out (Result Token α) :=
  parse env fuel p stream recover 5 lexerGetLoc

end Reparsec
