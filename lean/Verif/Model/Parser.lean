import Verif.Model.Prims
import Verif.Model.Combs

/-!
# Parser objects and the public API

Models `src/reparsec/parser.py`, `primitive.py`, `sequence.py`, `scannerless.py`, `layout.py`,
`types.py`.

`P τ ρ Γ α` is the syntax of the parser objects a user can build with the public API over
streams of `τ`, returning values of type `α`.  `ρ` is the set of `Delay` objects
(`parser.py:740-806`), `Γ i` the value type of the `Delay` object `i`.  `denote` gives the two
functions (`ParseFns`) of a parser object; it is the composition of the models of the functions
in `core/`.
-/

namespace Reparsec

/-- Parser objects. Each constructor cites the public function that builds it. -/
inductive P (τ ρ : Type) (Γ : ρ → Type) : Type → Type 1
  /-- `Pure(x)`, `primitive.py:16-26` -/
  | pure {α : Type} (x : α) : P τ ρ Γ α
  /-- `PureFn(fn)`, `primitive.py:29-40` -/
  | pureFn {α : Type} (x : Except Exn α) : P τ ρ Γ α
  /-- `unexpected(expected)`, `primitive.py:43-57` -/
  | unexpected (expected : String) : P τ ρ Γ Unit
  /-- `eof()`, `sequence.py:15-28` -/
  | eof : P τ ρ Γ Unit
  /-- `satisfy(test)`, `sequence.py:31-50` -/
  | satisfy (test : τ → Except Exn Bool) : P τ ρ Γ τ
  /-- `sym(s, label)`, `sequence.py:53-70`; `label` is the label or `repr(s)` -/
  | sym (s : τ) (label : String) : P τ ρ Γ τ
  /-- `literal(s)`, `scannerless.py:16-34`, of a non-empty `s`; `ss` is `repr(s)` -/
  | literal (s : List τ) (ss : String) (h : s ≠ []) : P τ ρ Γ (List τ)
  /-- `regexp(pat, group)`, `scannerless.py:37-57` -/
  | regexp {β : Type} (m : Matcher τ β) : P τ ρ Γ β
  /-- `fmap(parser, fn)`, `parser.py:809-817` -/
  | fmap {α β : Type} (p : P τ ρ Γ α) (fn : α → Except Exn β) : P τ ρ Γ β
  /-- `alt(parser, second)`, `parser.py:869-879` -/
  | alt {α : Type} (p q : P τ ρ Γ α) : P τ ρ Γ α
  /-- `bind(parser, fn)`, `parser.py:820-831` -/
  | bind {α β : Type} (p : P τ ρ Γ α) (fn : α → P τ ρ Γ β) : P τ ρ Γ β
  /-- `seq`, `seql`, `seqr`, `then`, `parser.py:834-866,463-483,520-713`, according to `merge`
  (see `seq`, `seql`, ... below) -/
  | seqWith {α β γ : Type} (p : P τ ρ Γ α) (q : P τ ρ Γ β) (merge : α → β → γ) : P τ ρ Γ γ
  /-- `maybe(parser)`, `parser.py:882-889` -/
  | maybe {α : Type} (p : P τ ρ Γ α) : P τ ρ Γ (Option α)
  /-- `many(parser)`, `parser.py:892-899` -/
  | many {α : Type} (p : P τ ρ Γ α) : P τ ρ Γ (List α)
  /-- `attempt(parser)`, `parser.py:902-909` -/
  | attempt {α : Type} (p : P τ ρ Γ α) : P τ ρ Γ α
  /-- `label(parser, expected)`, `parser.py:912-920` -/
  | label {α : Type} (p : P τ ρ Γ α) (x : String) : P τ ρ Γ α
  /-- `recover(parser)`, `parser.py:923-930` -/
  | recover {α : Type} (p : P τ ρ Γ α) : P τ ρ Γ α
  /-- `recover_with(parser, x, label)`, `parser.py:933-944`; `vs` is the label or `repr(x)` -/
  | recoverWith {α : Type} (p : P τ ρ Γ α) (x : α) (vs : String) : P τ ρ Γ α
  /-- `recover_with_fn(parser, fn, label)`, `parser.py:947-958` -/
  | recoverWithFn {α : Type} (p : P τ ρ Γ α) (fn : List τ → Nat → Except Exn α)
      (lbl : α → String) : P τ ρ Γ α
  /-- `block(parser)`, `layout.py:20-27` -/
  | block {α : Type} (p : P τ ρ Γ α) : P τ ρ Γ α
  /-- `aligned(parser)`, `layout.py:30-37` -/
  | aligned {α : Type} (p : P τ ρ Γ α) : P τ ρ Γ α
  /-- `indented(delta, parser)`, `layout.py:40-49` -/
  | indented {α : Type} (delta : Int) (p : P τ ρ Γ α) : P τ ρ Γ α
  /-- a `Delay` object, `parser.py:740-806` -/
  | ref (i : ρ) : P τ ρ Γ (Γ i)

/-- What each `Delay` object is defined as, if it is (`Delay.define`, `parser.py:768-791`). -/
abbrev Env (τ ρ : Type) (Γ : ρ → Type) := (i : ρ) → Option (P τ ρ Γ (Γ i))

variable {τ ρ : Type} {Γ : ρ → Type} {α β γ δ : Type}

/-- Running out of fuel. -/
def divergeFns : ParseFns τ α := ⟨fun _ _ _ => .diverge, fun _ _ _ _ _ => .diverge⟩

/-- The exception at `parser.py:758,763`. -/
def undefinedExn : Exn := .runtimeError "Delayed parser was not defined"

/-- The functions of a `Delay` object that has not been defined, `parser.py:755-766`. -/
def undefinedFns : ParseFns τ α :=
  ⟨fun _ _ _ => .raise undefinedExn, fun _ _ _ _ _ => .raise undefinedExn⟩

/-- The functions of a parser object, given those of the `Delay` objects: the composition of
the functions of `core/` (`FnParser(combinators.xxx(parser.to_fns(), ...))` throughout
`parser.py`). `fuel` bounds the iterations of each `many` loop. -/
def denoteWith [BEq τ] (fuel : Nat) (tbl : (i : ρ) → ParseFns τ (Γ i)) :
    {α : Type} → P τ ρ Γ α → ParseFns τ α
  | _, .pure x => pureFns x
  | _, .pureFn x => pureFnFns x
  | _, .unexpected x => unexpectedFns x
  | _, .eof => eofFns
  | _, .satisfy test => satisfyFns test
  | _, .sym s l => symFns s l
  | _, .literal s ss _ => literalFns s ss
  | _, .regexp m => regexpFns m
  | _, .fmap p fn => fmapFns (denoteWith fuel tbl p) fn
  | _, .alt p q => altFns (denoteWith fuel tbl p) (denoteWith fuel tbl q)
  | _, .bind p fn => bindFns (denoteWith fuel tbl p) (fun a => denoteWith fuel tbl (fn a))
  | _, .seqWith p q merge => seqFns (denoteWith fuel tbl p) (denoteWith fuel tbl q) merge
  | _, .maybe p => maybeFns (denoteWith fuel tbl p)
  | _, .many p => manyFns fuel (denoteWith fuel tbl p)
  | _, .attempt p => attemptFns (denoteWith fuel tbl p)
  | _, .label p x => labelFns (denoteWith fuel tbl p) x
  | _, .recover p => recoverFns (denoteWith fuel tbl p)
  | _, .recoverWith p x vs => recoverWithFns (denoteWith fuel tbl p) x vs
  | _, .recoverWithFn p fn lbl => recoverWithFnFns (denoteWith fuel tbl p) fn lbl
  | _, .block p => blockFns (denoteWith fuel tbl p)
  | _, .aligned p => alignedFns (denoteWith fuel tbl p)
  | _, .indented delta p => indentedFns delta (denoteWith fuel tbl p)
  | _, .ref i => tbl i

/-- The functions of the `Delay` objects, `parser.py:793-806`; `fuel` bounds the number of
nested calls through `Delay` objects. -/
def table [BEq τ] (env : Env τ ρ Γ) : (fuel : Nat) → (i : ρ) → ParseFns τ (Γ i)
  | 0, _ => divergeFns
  | fuel + 1, i =>
    match env i with
    | none => undefinedFns
    | some p => denoteWith fuel (table env fuel) p

/-- The two functions of a parser object (`to_fns`). -/
def denote [BEq τ] (env : Env τ ρ Γ) (fuel : Nat) (p : P τ ρ Γ α) : ParseFns τ α :=
  denoteWith fuel (table env fuel) p

/-! ### Derived parsers -/

namespace P

/-- `literal(s)`, `core/scannerless.py:68-72`: rejects the empty string. -/
def literal? (s : List τ) (ss : String) : Except Exn (P τ ρ Γ (List τ)) :=
  if h : s = [] then .error (.valueError "Expected non-empty value") else .ok (.literal s ss h)

/-- `fmap` with a function that does not raise. -/
def map (p : P τ ρ Γ α) (f : α → β) : P τ ρ Γ β := .fmap p fun a => .ok (f a)

/-- `seq`, `core/combinators.py:220-223`, `parser.py:834-844`. -/
def seq (p : P τ ρ Γ α) (q : P τ ρ Γ β) : P τ ρ Γ (α × β) := .seqWith p q fun l r => (l, r)

/-- `seql`, `core/combinators.py:208-211`, `parser.py:847-855`. -/
def seql (p : P τ ρ Γ α) (q : P τ ρ Γ β) : P τ ρ Γ α := .seqWith p q fun l _ => l

/-- `seqr`, `core/combinators.py:214-217`, `parser.py:858-866`. -/
def seqr (p : P τ ρ Γ α) (q : P τ ρ Γ β) : P τ ρ Γ β := .seqWith p q fun _ r => r

/-- `Tuple2.then` ... `Tuple7.then`, `parser.py:525-697` with `tuple3` ... `tuple8`,
`core/combinators.py:236-290`: append one more component. The tuple types of Python are
written as left-nested products: `(a, b, c)` is `((a, b), c)`, so `(*a, b)` is `(a, b)`. -/
def thenNext (p : P τ ρ Γ α) (q : P τ ρ Γ β) : P τ ρ Γ (α × β) := .seqWith p q fun a b => (a, b)

/-- `sep_by`, `parser.py:961-973`. -/
def sepBy (p : P τ ρ Γ α) (sep : P τ ρ Γ β) : P τ ρ Γ (List α) :=
  (maybe (seq p (many (seqr sep p)))).map fun
    | none => []
    | some v => [v.1] ++ v.2

/-- `between`, `parser.py:976-987`. -/
def between (op : P τ ρ Γ β) (close : P τ ρ Γ γ) (p : P τ ρ Γ α) : P τ ρ Γ α :=
  seqr op (seql p close)

/-- The loop of `reducer` in `chainl1`, `parser.py:1000-1004`. The operators are user supplied
functions, so they may raise. -/
def chainlReduce : α → List ((α → α → Except Exn α) × α) → Except Exn α
  | res, [] => .ok res
  | res, (op, arg) :: tail =>
    match op res arg with
    | .error e => .error e
    | .ok res' => chainlReduce res' tail

/-- `chainl1`, `parser.py:990-1006`. -/
def chainl1 (arg : P τ ρ Γ α) (op : P τ ρ Γ (α → α → Except Exn α)) : P τ ρ Γ α :=
  .fmap (seq arg (many (seq op arg))) fun v => chainlReduce v.1 v.2

/-- The first loop of `reducer` in `chainr1`, `parser.py:1020-1024`: the final `res` and
`rassoc`. -/
def chainrSplit : α → List ((α → α → Except Exn α) × α) → List (α × (α → α → Except Exn α)) →
    α × List (α × (α → α → Except Exn α))
  | res, [], rassoc => (res, rassoc)
  | res, (op, arg) :: tail, rassoc => chainrSplit arg tail (rassoc ++ [(res, op)])

/-- The second loop of `reducer` in `chainr1`, `parser.py:1025-1027`, over the reversed
`rassoc`. -/
def chainrApply : α → List (α × (α → α → Except Exn α)) → Except Exn α
  | res, [] => .ok res
  | res, (arg, op) :: rest =>
    match op arg res with
    | .error e => .error e
    | .ok res' => chainrApply res' rest

/-- `reducer` in `chainr1`, `parser.py:1019-1027`. -/
def chainrReduce (res : α) (tail : List ((α → α → Except Exn α) × α)) : Except Exn α :=
  let s := chainrSplit res tail []
  chainrApply s.1 s.2.reverse

/-- `chainr1`, `parser.py:1009-1029`. -/
def chainr1 (arg : P τ ρ Γ α) (op : P τ ρ Γ (α → α → Except Exn α)) : P τ ρ Γ α :=
  .fmap (seq arg (many (seq op arg))) fun v => chainrReduce v.1 v.2

end P

/-! ### `Parser.parse` and `ParseResult.unwrap` -/

/-- Models `_get_loc`, `parser.py:21-22`. -/
def defaultGetLoc : Loc → List τ → Nat → Loc := fun _ _ pos => ⟨pos, 0, 0⟩

/-- Models `_fmt_loc`, `parser.py:25-26`. -/
def defaultFmtLoc : Loc → String := fun loc => toString loc.pos

/-- The context `parse` starts from, `parser.py:48`. -/
def initCtx (getLoc : Loc → List τ → Nat → Loc) : Ctx τ := ⟨0, ⟨0, 0, 0⟩, getLoc⟩

/-- Models `Parser.parse`, `parser.py:30-55`, up to wrapping the result together with
`fmt_loc` (`:55`), which is `unwrap`'s argument here. The keyword arguments are explicit. -/
def parse [BEq τ] (env : Env τ ρ Γ) (fuel : Nat) (p : P τ ρ Γ α) (stream : List τ)
    (recover : Bool) (maxInsertions : Int) (getLoc : Loc → List τ → Nat → Loc) :
    Out (Result τ α) :=
  if recover then
    (denote env fuel p).fn stream 0 (initCtx getLoc) maxInsertions (some maxInsertions)
  else do
    let r ← (denote env fuel p).fast stream 0 (initCtx getLoc)
    return r.toResult

/-- Models `ErrorItem`, `types.py:19-33`. -/
structure ErrorItem where
  loc : Loc
  locStr : String
  expected : List String
  op : Option RepairOp := none
deriving DecidableEq, Repr

/-- `', '.join(xs)` as used in `types.py:48,73`. -/
def joinComma : List String → String
  | [] => ""
  | [x] => x
  | x :: y :: rest => x ++ ", " ++ joinComma (y :: rest)

/-- Models `ErrorItem.msg`, `types.py:35-58`. -/
def ErrorItem.msg (i : ErrorItem) : String :=
  let res := "at " ++ i.locStr ++ ": "
  let res :=
    match i.expected with
    | [] => res ++ "unexpected input"
    | [x] => res ++ "expected " ++ x
    | x :: y :: rest =>
      res ++ "expected " ++ joinComma ((x :: y :: rest).dropLast) ++ " or "
        ++ (y :: rest).getLast (by simp)
  match i.op with
  | none => res
  | some (.skip n) =>
    res ++ " (" ++ "skipped " ++ toString n ++ " " ++ (if n = 1 then "token" else "tokens") ++ ")"
  | some (.insert l) => res ++ " (" ++ "inserted " ++ l ++ ")"

/-- Models `ParseError`, `types.py:61-73`. -/
structure ParseError where
  errors : List ErrorItem
deriving DecidableEq, Repr

/-- Models `ParseError.__str__`, `types.py:72-73`. -/
def ParseError.str (e : ParseError) : String := joinComma (e.errors.map ErrorItem.msg)

/-- `a < b` for the keys `(r.cost, -r.pos, r.prio is None)` of `types.py:132`, compared
lexicographically as Python compares tuples (`False < True`). -/
def keyLt (a b : Repair τ α) : Bool :=
  decide (a.cost < b.cost) ||
  (a.cost == b.cost && (decide (a.pos > b.pos) ||
    (a.pos == b.pos && (a.prio.isSome && b.prio.isNone))))

/-- `min(repairs, key=...)`, `types.py:130-133`: the first of the smallest elements. -/
def minRepair (best : Repair τ α) : List (Repair τ α) → Repair τ α
  | [] => best
  | r :: rs => minRepair (if keyLt r best then r else best) rs

/-- The list comprehension at `types.py:136-141`. -/
def errorItems (fmtLoc : Loc → String) (r : Repair τ α) : List ErrorItem :=
  r.ops.map fun item => { loc := item.loc, locStr := fmtLoc item.loc, expected := item.expected,
                          op := some item.op }

/-- Models `ResultWrapper.unwrap`, `types.py:109-142`. -/
def Result.unwrap (fmtLoc : Loc → String) (recover : Bool) : Result τ α → Except ParseError α
  | .ok r => .ok r.value
  | .error e =>
    .error ⟨[{ loc := e.loc, locStr := fmtLoc e.loc, expected := e.expected }]⟩
  | .recovered r =>
    match r.repairs with
    | [] => .error ⟨[{ loc := r.loc, locStr := fmtLoc r.loc, expected := r.expected }]⟩
    | p :: ps =>
      let repair := minRepair p ps
      if recover then .ok repair.value else .error ⟨errorItems fmtLoc repair⟩

/-! ### Line and column tracking -/

/-- Models `stream.count("\n", start, pos)` for `start ≤ pos`, `core/scannerless.py:14`. -/
def countNl (stream : List Char) (start pos : Nat) : Nat :=
  ((stream.take pos).drop start).count '\n'

/-- Models `stream.rfind("\n", start, pos)`, `core/scannerless.py:17`, in the case where it is
found: the largest index below `pos` and not below `start` that holds a newline. `k` counts
down from `pos`. -/
def rfindNl (stream : List Char) (start : Nat) : (k : Nat) → Option Nat
  | 0 => none
  | k + 1 =>
    if k < start then none
    else if stream[k]? = some '\n' then some k
    else rfindNl stream start k

/-- Models `get_loc`, `core/scannerless.py:12-20`. (`rfind` is called only if `count` found a
newline; it then finds one, `rfindNl_isSome`.) -/
def scannerlessGetLoc : Loc → List Char → Nat → Loc := fun loc stream pos =>
  let nlc := countNl stream loc.pos pos
  if nlc ≠ 0 then
    ⟨pos, loc.line + nlc, pos - ((rfindNl stream loc.pos pos).getD 0) - 1⟩
  else ⟨pos, loc.line, loc.col + (pos - loc.pos)⟩

/-- The `fmt_loc` of `scannerless.py:88` and `lexer.py:172`. -/
def lineColFmtLoc : Loc → String := fun l => toString (l.line + 1) ++ ":" ++ toString (l.col + 1)

/-- Models `scannerless.parse`, `scannerless.py:60-89`. -/
def scannerlessParse (env : Env Char ρ Γ) (fuel : Nat) (p : P Char ρ Γ α) (stream : List Char)
    (recover : Bool) : Out (Result Char α) :=
  parse env fuel p stream recover 5 scannerlessGetLoc

end Reparsec
