import Verif.Model.Parser

/-!
# The same code with a limited stack

CPython limits the depth of nested calls (`sys.getrecursionlimit()`, 1000 unless it is changed): a call
that exceeds the limit raises `RecursionError`. The models in `Model/Combs.lean` and `Model/Parser.lean`
know no such limit. Here every parse function gets the number of stack frames that are left when it is
called.

Counted are the frames of the functions that call parse functions, directly or not: the parse functions of
`core/*.py` themselves, the methods `parse_fn` and `parse_fast_fn` of parser objects where they are called
(`parser.py:492-502,793-801`), `continue_parse` and the lambda it is given (`core/recovery.py:18-45`), and
`Parser.parse`. Not counted: functions that return before the next parse function is called (constructors,
`fmap`, `prepend_expected`, `get_loc`, callbacks, ...). They need a few more frames, a constant number
unless a callback of the user needs more.

What the functions do in their frames is taken from `Model/Combs.lean`; only `bind`, `_seq` and `many`,
which call parse functions from different depths, are spelled out again.
-/

namespace Reparsec.Stk

variable {τ α β γ : Type}

/-- How many frames are left; `none`: no limit. -/
abbrev Frames := Option Nat

/-- `RecursionError`, a subclass of `RuntimeError`. -/
def recursionError : Exn := .runtimeError "maximum recursion depth exceeded"

/-- Calling a function: `body d` is what it does when `d` frames are left for the calls it makes. -/
def call {ω : Type} (body : Frames → Out ω) : Frames → Out ω
  | none => body none
  | some 0 => .raise recursionError
  | some (d + 1) => body (some d)

/-- The parse functions of a parser object, depending on the number of frames that are left when they are
called. -/
abbrev LFns (τ α : Type) := Frames → ParseFns τ α

/-- Both functions take a frame. -/
def framed (body : LFns τ α) : LFns τ α := fun d =>
  ⟨fun stream pos ctx => call (fun d => (body d).fast stream pos ctx) d,
   fun stream pos ctx ins rem => call (fun d => (body d).fn stream pos ctx ins rem) d⟩

/-- The fast function is that of the argument (no frame), the other one takes a frame:
`_recover_fast`, `_recover_with_fast`, `_recover_with_fn_fast`, `core/combinators.py:443-444,467-468,
505-506`. -/
def framedFn (p : LFns τ α) (body : LFns τ α) : LFns τ α := fun d =>
  ⟨(p d).fast,
   fun stream pos ctx ins rem => call (fun d => (body d).fn stream pos ctx ins rem) d⟩

/-- A call of `continue_parse`, `core/recovery.py:18-45`, which calls a lambda for every repair: two
frames. -/
def continueParse (d : Frames) (ra : Recovered τ α) (ins : Int)
    (parse : Frames → α → Nat → Ctx τ → Int → Out (Result τ β)) (merge : α → β → γ) :
    Out (Result τ γ) :=
  call (fun d => Reparsec.continueParse ra ins
    (fun v p c r => call (fun d => parse d v p c r) d) merge) d

/-- The body of the function made by `_bind`, `core/combinators.py:118-143`. -/
def bindFn (p : LFns τ α) (fn : α → LFns τ β) (d : Frames) : Fn τ β :=
  fun stream pos ctx ins rem => do
  match ← (p d).fn stream pos ctx ins rem with
  | .error e => .ret (.error e)
  | .recovered ra =>
    continueParse d ra ins (fun d v p c r => (framed (fn v) d).fn stream p c ins (some r))
      (fun _ v => v)
  | .ok ra =>
    if ra.consumed then
      let rb ← (framed (fn ra.value) d).fn stream ra.pos ra.ctx ins (some ins)
      return rb.prependExpected ra.expected ra.consumed
    else
      let rb ← (framed (fn ra.value) d).fn stream ra.pos ra.ctx ins rem
      return rb.prependExpected ra.expected ra.consumed

/-- Models `bind`, `core/combinators.py:102-149`. The parser object that the callback returns is run by its
method `parse_fn` or `parse_fast_fn`, which takes a frame (simplification: also if it is a `Delay` object,
whose frame is counted again in `table`). -/
def bindFns (p : LFns τ α) (fn : α → LFns τ β) : LFns τ β :=
  framed fun d => ⟨bindFast (p d) (fun a => framed (fn a) d), bindFn p fn d⟩

/-- The body of the function made by `_seq_h`, `core/combinators.py:172-196`. -/
def seqFn (p : LFns τ α) (q : LFns τ β) (merge : α → β → γ) (d : Frames) : Fn τ γ :=
  fun stream pos ctx ins rem => do
  match ← (p d).fn stream pos ctx ins rem with
  | .error e => .ret (.error e)
  | .recovered ra =>
    continueParse d ra ins (fun d _ p c r => (q d).fn stream p c ins (some r)) merge
  | .ok ra =>
    let va := ra.value
    let rb ← (q d).fn stream ra.pos ra.ctx ins (if ra.consumed then some ins else rem)
    return (rb.fmap fun vb => merge va vb).prependExpected ra.expected ra.consumed

/-- Models `_seq`, `core/combinators.py:152-205`. -/
def seqFns (p : LFns τ α) (q : LFns τ β) (merge : α → β → γ) : LFns τ γ :=
  framed fun d => ⟨seqFast (p d) (q d) merge, seqFn p q merge d⟩

/-- The loop of `_many`, `core/combinators.py:349-370`; `d` frames are left for the calls it makes. The
items are parsed in a loop, but after a repair `many` is called again, from the lambda at `:365`. -/
def manyLoop (p : LFns τ α) (stream : List τ) (ins : Int) :
    (fuel : Nat) → Frames → Nat → Ctx τ → Bool → List α → Out (Result τ (List α))
  | 0, _, _, _, _, _ => .diverge
  | fuel + 1, d, pos, ctx, consumed, value => do
    match ← (p d).fn stream pos ctx ins none with
    | .ok r =>
      if r.consumed then manyLoop p stream ins fuel d r.pos r.ctx true (value ++ [r.value])
      else .raise manyExn
    | .recovered r =>
      continueParse d r ins
        (fun d _ p' c _ => call (fun d => manyLoop p stream ins fuel d p' c false []) d)
        (fun a b => value ++ a :: b)
    | .error e =>
      if e.consumed then .ret (.error e)
      else .ret (.ok { value := value, pos := pos, ctx := ctx, expected := e.expected,
                       consumed := consumed })

/-- Models `many`, `core/combinators.py:324-376`. -/
def manyFns (fuel : Nat) (p : LFns τ α) : LFns τ (List α) :=
  framed fun d =>
    ⟨fun stream pos ctx => manyFastLoop (p d).fast stream fuel pos ctx false [],
     fun stream pos ctx ins _rem => manyLoop p stream ins fuel d pos ctx false []⟩

variable {ρ : Type} {Γ : ρ → Type}

/-- The functions of a parser object, as `denoteWith` in `Model/Parser.lean`. -/
def denoteWith [BEq τ] (fuel : Nat) (tbl : (i : ρ) → LFns τ (Γ i)) :
    {α : Type} → P τ ρ Γ α → LFns τ α
  | _, .pure x => framed fun _ => pureFns x
  | _, .pureFn x => framed fun _ => pureFnFns x
  | _, .unexpected x => framed fun _ => unexpectedFns x
  | _, .eof => framed fun _ => eofFns
  | _, .satisfy test => framed fun _ => satisfyFns test
  | _, .sym s l => framed fun _ => symFns s l
  | _, .literal s ss _ => framed fun _ => literalFns s ss
  | _, .regexp m => framed fun _ => regexpFns m
  | _, .fmap p fn => framed fun d => fmapFns (denoteWith fuel tbl p d) fn
  | _, .alt p q => framed fun d => altFns (denoteWith fuel tbl p d) (denoteWith fuel tbl q d)
  | _, .bind p fn => bindFns (denoteWith fuel tbl p) (fun a => denoteWith fuel tbl (fn a))
  | _, .seqWith p q merge => seqFns (denoteWith fuel tbl p) (denoteWith fuel tbl q) merge
  | _, .maybe p => framed fun d => maybeFns (denoteWith fuel tbl p d)
  | _, .many p => manyFns fuel (denoteWith fuel tbl p)
  | _, .attempt p => framed fun d => attemptFns (denoteWith fuel tbl p d)
  | _, .label p x => framed fun d => labelFns (denoteWith fuel tbl p d) x
  | _, .recover p => framedFn (denoteWith fuel tbl p) fun d => recoverFns (denoteWith fuel tbl p d)
  | _, .recoverWith p x vs =>
    framedFn (denoteWith fuel tbl p) fun d => recoverWithFns (denoteWith fuel tbl p d) x vs
  | _, .recoverWithFn p fn lbl =>
    framedFn (denoteWith fuel tbl p) fun d => recoverWithFnFns (denoteWith fuel tbl p d) fn lbl
  | _, .block p => framed fun d => blockFns (denoteWith fuel tbl p d)
  | _, .aligned p => framed fun d => alignedFns (denoteWith fuel tbl p d)
  | _, .indented delta p => framed fun d => indentedFns delta (denoteWith fuel tbl p d)
  | _, .ref i => tbl i

/-- The functions of the `Delay` objects: the methods `parse_fast_fn` and `parse_fn`, `parser.py:793-801`,
take a frame. (Simplification: `Delay.to_fns`, `parser.py:803-806`, avoids that frame in parsers that are
built after the definition.) -/
def table [BEq τ] (env : Env τ ρ Γ) : (fuel : Nat) → (i : ρ) → LFns τ (Γ i)
  | 0, _ => framed fun _ => divergeFns
  | fuel + 1, i =>
    match env i with
    | none => framed (framed fun _ => undefinedFns)
    | some p => framed (denoteWith fuel (table env fuel) p)

/-- The two functions of a parser object (`to_fns`). -/
def denote [BEq τ] (env : Env τ ρ Γ) (fuel : Nat) (p : P τ ρ Γ α) : LFns τ α :=
  denoteWith fuel (table env fuel) p

/-- Models `Parser.parse`, `parser.py:30-55`, called when `d` frames are left: a frame of its own and one of
the method it calls (`parser.py:492-502`). -/
def parse [BEq τ] (env : Env τ ρ Γ) (fuel : Nat) (d : Frames) (p : P τ ρ Γ α) (stream : List τ)
    (recover : Bool) (maxInsertions : Int) (getLoc : Loc → List τ → Nat → Loc) :
    Out (Result τ α) :=
  call (fun d =>
    if recover then
      (framed (denote env fuel p) d).fn stream 0 (initCtx getLoc) maxInsertions (some maxInsertions)
    else do
      let r ← (framed (denote env fuel p) d).fast stream 0 (initCtx getLoc)
      return r.toResult) d

end Reparsec.Stk
