import Verif.Model.AppendCombs

/-!
# The limited stack, with `Append` objects

`Model/Stack.lean` with the functions of `Model/AppendCombs.lean`; and what looking at the result needs of the stack.
-/

namespace Reparsec.App.Stk

open Reparsec.Stk (Frames call recursionError)

variable {τ α β γ : Type}

/-- The parse functions of a parser object, depending on the number of frames that are left when they are
called. -/
abbrev LFns (τ α : Type) := Frames → ParseFns τ α

/-- Both functions take a frame. -/
def framed (body : LFns τ α) : LFns τ α := fun d =>
  ⟨fun stream pos ctx => call (fun d => (body d).fast stream pos ctx) d,
   fun stream pos ctx ins rem => call (fun d => (body d).fn stream pos ctx ins rem) d⟩

/-- The fast function is that of the argument (no frame), the other one takes a frame:
`_recover_fast`, `_recover_with_fast`, `_recover_with_fn_fast`, `core/combinators.py:443-444,467-468,
505-506`. -/
def framedFn (p : LFns τ α) (body : LFns τ α) : LFns τ α := fun d =>
  ⟨(p d).fast,
   fun stream pos ctx ins rem => call (fun d => (body d).fn stream pos ctx ins rem) d⟩

/-- A call of `continue_parse`, `core/recovery.py:18-45`, which calls a lambda for every repair: two
frames. -/
def continueParse (d : Frames) (ra : Recovered τ α) (ins : Int)
    (parse : Frames → α → Nat → Ctx τ → Int → Out (Result τ β)) (merge : α → β → γ) :
    Out (Result τ γ) :=
  call (fun d => App.continueParse ra ins
    (fun v p c r => call (fun d => parse d v p c r) d) merge) d

/-- The body of the function made by `_bind`, `core/combinators.py:118-143`. -/
def bindFn (p : LFns τ α) (fn : α → LFns τ β) (d : Frames) : Fn τ β :=
  fun stream pos ctx ins rem => do
  match ← (p d).fn stream pos ctx ins rem with
  | .error e => .ret (.error e)
  | .recovered ra =>
    continueParse d ra ins (fun d v p c r => (framed (fn v) d).fn stream p c ins (some r))
      (fun _ v => v)
  | .ok ra =>
    if ra.consumed then
      let rb ← (framed (fn ra.value) d).fn stream ra.pos ra.ctx ins (some ins)
      return rb.prependExpected ra.expected ra.consumed
    else
      let rb ← (framed (fn ra.value) d).fn stream ra.pos ra.ctx ins rem
      return rb.prependExpected ra.expected ra.consumed

/-- Models `bind`, `core/combinators.py:102-149`. The parser object that the callback returns is run by its
method `parse_fn` or `parse_fast_fn`, which takes a frame (simplification: also if it is a `Delay` object,
whose frame is counted again in `table`). -/
def bindFns (p : LFns τ α) (fn : α → LFns τ β) : LFns τ β :=
  framed fun d => ⟨bindFast (p d) (fun a => framed (fn a) d), bindFn p fn d⟩

/-- The body of the function made by `_seq_h`, `core/combinators.py:172-196`. -/
def seqFn (p : LFns τ α) (q : LFns τ β) (merge : α → β → γ) (d : Frames) : Fn τ γ :=
  fun stream pos ctx ins rem => do
  match ← (p d).fn stream pos ctx ins rem with
  | .error e => .ret (.error e)
  | .recovered ra =>
    continueParse d ra ins (fun d _ p c r => (q d).fn stream p c ins (some r)) merge
  | .ok ra =>
    let va := ra.value
    let rb ← (q d).fn stream ra.pos ra.ctx ins (if ra.consumed then some ins else rem)
    return (rb.fmap fun vb => merge va vb).prependExpected ra.expected ra.consumed

/-- Models `_seq`, `core/combinators.py:152-205`. -/
def seqFns (p : LFns τ α) (q : LFns τ β) (merge : α → β → γ) : LFns τ γ :=
  framed fun d => ⟨seqFast (p d) (q d) merge, seqFn p q merge d⟩

/-- The loop of `_many`, `core/combinators.py:349-370`; `d` frames are left for the calls it makes. The
items are parsed in a loop, but after a repair `many` is called again, from the lambda at `:365`. -/
def manyLoop (p : LFns τ α) (stream : List τ) (ins : Int) :
    (fuel : Nat) → Frames → Nat → Ctx τ → Bool → List α → Out (Result τ (List α))
  | 0, _, _, _, _, _ => .diverge
  | fuel + 1, d, pos, ctx, consumed, value => do
    match ← (p d).fn stream pos ctx ins none with
    | .ok r =>
      if r.consumed then manyLoop p stream ins fuel d r.pos r.ctx true (value ++ [r.value])
      else .raise manyExn
    | .recovered r =>
      continueParse d r ins
        (fun d _ p' c _ => call (fun d => manyLoop p stream ins fuel d p' c false []) d)
        (fun a b => value ++ a :: b)
    | .error e =>
      if e.consumed then .ret (.error e)
      else .ret (.ok { value := value, pos := pos, ctx := ctx, expected := e.expected,
                       consumed := consumed })

/-- Models `many`, `core/combinators.py:324-376`. -/
def manyFns (fuel : Nat) (p : LFns τ α) : LFns τ (List α) :=
  framed fun d =>
    ⟨fun stream pos ctx => manyFastLoop (p d).fast stream fuel pos ctx false [],
     fun stream pos ctx ins _rem => manyLoop p stream ins fuel d pos ctx false []⟩

variable {ρ : Type} {Γ : ρ → Type}

/-- The functions of a parser object, as `denoteWith` in `Model/Parser.lean`. -/
def denoteWith [BEq τ] (fuel : Nat) (tbl : (i : ρ) → LFns τ (Γ i)) :
    {α : Type} → P τ ρ Γ α → LFns τ α
  | _, .pure x => framed fun _ => pureFns x
  | _, .pureFn x => framed fun _ => pureFnFns x
  | _, .unexpected x => framed fun _ => unexpectedFns x
  | _, .eof => framed fun _ => eofFns
  | _, .satisfy test => framed fun _ => satisfyFns test
  | _, .sym s l => framed fun _ => symFns s l
  | _, .literal s ss _ => framed fun _ => literalFns s ss
  | _, .regexp m => framed fun _ => regexpFns m
  | _, .fmap p fn => framed fun d => fmapFns (denoteWith fuel tbl p d) fn
  | _, .alt p q => framed fun d => altFns (denoteWith fuel tbl p d) (denoteWith fuel tbl q d)
  | _, .bind p fn => bindFns (denoteWith fuel tbl p) (fun a => denoteWith fuel tbl (fn a))
  | _, .seqWith p q merge => seqFns (denoteWith fuel tbl p) (denoteWith fuel tbl q) merge
  | _, .maybe p => framed fun d => maybeFns (denoteWith fuel tbl p d)
  | _, .many p => manyFns fuel (denoteWith fuel tbl p)
  | _, .attempt p => framed fun d => attemptFns (denoteWith fuel tbl p d)
  | _, .label p x => framed fun d => labelFns (denoteWith fuel tbl p d) x
  | _, .recover p => framedFn (denoteWith fuel tbl p) fun d => recoverFns (denoteWith fuel tbl p d)
  | _, .recoverWith p x vs =>
    framedFn (denoteWith fuel tbl p) fun d => recoverWithFns (denoteWith fuel tbl p d) x vs
  | _, .recoverWithFn p fn lbl =>
    framedFn (denoteWith fuel tbl p) fun d => recoverWithFnFns (denoteWith fuel tbl p d) fn lbl
  | _, .block p => framed fun d => blockFns (denoteWith fuel tbl p d)
  | _, .aligned p => framed fun d => alignedFns (denoteWith fuel tbl p d)
  | _, .indented delta p => framed fun d => indentedFns delta (denoteWith fuel tbl p d)
  | _, .ref i => tbl i

/-- The functions of the `Delay` objects: the methods `parse_fast_fn` and `parse_fn`, `parser.py:793-801`,
take a frame. (Simplification: `Delay.to_fns`, `parser.py:803-806`, avoids that frame in parsers that are
built after the definition.) -/
def table [BEq τ] (env : Env τ ρ Γ) : (fuel : Nat) → (i : ρ) → LFns τ (Γ i)
  | 0, _ => framed fun _ => divergeFns
  | fuel + 1, i =>
    match env i with
    | none => framed (framed fun _ => undefinedFns)
    | some p => framed (denoteWith fuel (table env fuel) p)

/-- The two functions of a parser object (`to_fns`). -/
def denote [BEq τ] (env : Env τ ρ Γ) (fuel : Nat) (p : P τ ρ Γ α) : LFns τ α :=
  denoteWith fuel (table env fuel) p

/-- Models `Parser.parse`, `parser.py:30-55`, called when `d` frames are left: a frame of its own and one of
the method it calls (`parser.py:492-502`). -/
def parse [BEq τ] (env : Env τ ρ Γ) (fuel : Nat) (d : Frames) (p : P τ ρ Γ α) (stream : List τ)
    (recover : Bool) (maxInsertions : Int) (getLoc : Loc → List τ → Nat → Loc) :
    Out (Result τ α) :=
  call (fun d =>
    if recover then
      (framed (denote env fuel p) d).fn stream 0 (initCtx getLoc) maxInsertions (some maxInsertions)
    else do
      let r ← (framed (denote env fuel p) d).fast stream 0 (initCtx getLoc)
      return r.toResult) d

/-! ### Looking at the result -/

/-- Iterating over an `Iterable[str]`, `list(...)` at `types.py:118,127,138`: the generator function `Append.__iter__`,
`core/chain.py:17-19`, has a frame while it goes through its parts; lists and tuples need none. -/
def iterate : Exp → Frames → Out (List String)
  | .leaf l, _ => .ret l
  | .app a b, d => call (fun d => do
      let x ← iterate a d
      let y ← iterate b d
      return x ++ y) d

/-- The list comprehension at `types.py:136-141`. -/
def errorItems (fmtLoc : Loc → String) (d : Frames) : List OpItem → Out (List ErrorItem)
  | [] => .ret []
  | i :: is => do
    let l ← iterate i.expected d
    let rest ← errorItems fmtLoc d is
    return { loc := i.loc, locStr := fmtLoc i.loc, expected := l, op := some i.op } :: rest

/-- Models `ResultWrapper.unwrap`, `types.py:109-142`, called when `d` frames are left; a list comprehension has a frame
(in CPython before 3.12). Not counted are the calls of `fmt_loc`, of the `key` of `min` and of constructors. -/
def unwrap (fmtLoc : Loc → String) (recover : Bool) (d : Frames) (r : Result τ α) : Out (Except ParseError α) :=
  call (fun d =>
    match r with
    | .ok r => .ret (.ok r.value)
    | .error e => do
      let l ← iterate e.expected d
      return .error ⟨[{ loc := e.loc, locStr := fmtLoc e.loc, expected := l }]⟩
    | .recovered r =>
      match r.repairs with
      | [] => do
        let l ← iterate r.expected d
        return .error ⟨[{ loc := r.loc, locStr := fmtLoc r.loc, expected := l }]⟩
      | p :: ps =>
        let repair := minRepair p ps
        if recover then .ret (.ok repair.value)
        else do
          let l ← call (fun d => errorItems fmtLoc d repair.ops) d
          return .error ⟨l⟩) d

end Reparsec.App.Stk
