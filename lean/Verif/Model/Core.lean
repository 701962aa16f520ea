import Verif.Model.Out

/-!
# The core data types and the bookkeeping on them

Models `src/reparsec/core/types.py`, `core/repair.py`, `core/result.py`, `core/chain.py`,
`core/recovery.py`, `core/parser.py`.

Conventions used throughout the model (see DESIGN.md, "Trusted base"):
* a stream (`str` or any `Sequence`) is a `List τ`; a position is a `Nat`;
* `Iterable[str]` (lists, tuples, `Append` trees) is `List String`; `Append(a, b)`
  (`core/chain.py:8-22`), which only ever gets iterated, is `a ++ b`;
* methods that update a freshly created result object in place (`set_expected`,
  `prepend_expected`, `set_ctx`, `recover`'s loop) return the updated value instead.  That
  this is faithful although Python shares some of those objects is proved separately,
  in `Verif/Props/Heap.lean`.
-/

namespace Reparsec

variable {τ α β γ : Type}

/-- Models `Ctx`, `core/types.py:15-23`. Simplification: `mark` is a natural number, it is
only ever `0` or a column. -/
structure Ctx (τ : Type) where
  mark : Nat
  loc : Loc
  getLocFn : Loc → List τ → Nat → Loc

/-- Models `Ctx.get_loc`, `core/types.py:25-26`. -/
def Ctx.getLoc (c : Ctx τ) (stream : List τ) (pos : Nat) : Loc :=
  c.getLocFn c.loc stream pos

/-- Models `Ctx.update_loc`, `core/types.py:28-33`. -/
def Ctx.updateLoc (c : Ctx τ) (stream : List τ) (pos : Nat) : Ctx τ :=
  if pos = c.loc.pos then c
  else { mark := c.mark, loc := c.getLocFn c.loc stream pos, getLocFn := c.getLocFn }

/-- Models `Ctx.set_mark`, `core/types.py:35-36`. -/
def Ctx.setMark (c : Ctx τ) (mark : Nat) : Ctx τ :=
  { mark := mark, loc := c.loc, getLocFn := c.getLocFn }

/-- Models `Skip`, `Insert` and `RepairOp`, `core/repair.py:14-26`. -/
inductive RepairOp where
  | skip (count : Nat)
  | insert (label : String)
deriving DecidableEq, Repr

/-- Models `OpItem`, `core/repair.py:29-34`. -/
structure OpItem where
  op : RepairOp
  loc : Loc
  expected : List String := []
  consumed : Bool := false
deriving DecidableEq, Repr

/-- Models `Repair`, `core/repair.py:37-47`. Python's `prio` is `None`, `0` or `False`
(`False == 0`, and both are "not None"); here `none` or `some 0`. -/
structure Repair (τ α : Type) where
  cost : Nat
  prio : Option Nat
  ins : Int
  ops : List OpItem
  value : α
  pos : Nat
  ctx : Ctx τ
  expected : List String := []
  consumed : Bool := false

/-- One iteration of the loop in `ops_set_expected`, `core/repair.py:51-53`. -/
def OpItem.setExpected (expected : List String) (i : OpItem) : OpItem :=
  if i.consumed then i else { i with expected := expected }

/-- Models `ops_set_expected`, `core/repair.py:50-53`. -/
def opsSetExpected (ops : List OpItem) (expected : List String) : List OpItem :=
  ops.map (OpItem.setExpected expected)

/-- One iteration of the loop in `ops_prepend_expected`, `core/repair.py:58-61`. -/
def OpItem.prependExpected (expected : List String) (consumed : Bool) (i : OpItem) : OpItem :=
  if i.consumed then i
  else { i with expected := expected ++ i.expected, consumed := i.consumed || consumed }

/-- Models `ops_prepend_expected`, `core/repair.py:56-61`. -/
def opsPrependExpected (ops : List OpItem) (expected : List String) (consumed : Bool) :
    List OpItem :=
  ops.map (OpItem.prependExpected expected consumed)

/-- Models `make_insert`, `core/repair.py:64-70`. -/
def makeInsert (rem : Int) (value : α) (pos : Nat) (ctx : Ctx τ) (loc : Loc) (label : String)
    (expected : List String := []) : Repair τ α :=
  { cost := 1, prio := none, ins := rem - 1, ops := [⟨.insert label, loc, expected, false⟩],
    value := value, pos := pos, ctx := ctx, expected := [], consumed := true }

/-- Models `make_user_insert`, `core/repair.py:73-79`. -/
def makeUserInsert (rem : Int) (value : α) (pos : Nat) (ctx : Ctx τ) (loc : Loc)
    (label : String) (expected : List String := []) : Repair τ α :=
  { cost := 1, prio := some 0, ins := rem - 1, ops := [⟨.insert label, loc, expected, false⟩],
    value := value, pos := pos, ctx := ctx, expected := [], consumed := true }

/-- Models `make_skip`, `core/repair.py:82-88` (`prio=False` is `some 0`). -/
def makeSkip (ins : Int) (value : α) (pos : Nat) (ctx : Ctx τ) (loc : Loc) (skip : Nat)
    (expected : List String := []) : Repair τ α :=
  { cost := skip, prio := some 0, ins := ins, ops := [⟨.skip skip, loc, expected, false⟩],
    value := value, pos := pos, ctx := ctx, expected := [], consumed := true }

/-- Models `make_pending_skip`, `core/repair.py:91-96`. -/
def makePendingSkip (ins : Int) (value : α) (pos : Nat) (ctx : Ctx τ) (loc : Loc) (skip : Nat)
    (expected : List String := []) : Repair τ α :=
  { cost := skip, prio := some 0, ins := ins, ops := [⟨.skip skip, loc, expected, false⟩],
    value := value, pos := pos, ctx := ctx, expected := [], consumed := false }

/-- Models `Ok`, `core/result.py:15-26`. -/
structure Ok (τ α : Type) where
  value : α
  pos : Nat
  ctx : Ctx τ
  expected : List String := []
  consumed : Bool := false

/-- Models `Error`, `core/result.py:55-64`. -/
structure Err where
  loc : Loc
  expected : List String := []
  consumed : Bool := false
deriving DecidableEq, Repr

/-- Models `Recovered`, `core/result.py:90-101`. -/
structure Recovered (τ α : Type) where
  repairs : List (Repair τ α)
  minPrio : Option Nat
  loc : Loc
  expected : List String := []
  consumed : Bool := false

/-- Models `SimpleResult`, `core/result.py:151`. -/
inductive Simple (τ α : Type) where
  | ok (r : Ok τ α)
  | error (e : Err)

/-- Models `Result`, `core/result.py:152`. -/
inductive Result (τ α : Type) where
  | ok (r : Ok τ α)
  | error (e : Err)
  | recovered (r : Recovered τ α)

/-- A `SimpleResult` is a `Result` (`core/result.py:152`). -/
def Simple.toResult : Simple τ α → Result τ α
  | .ok r => .ok r
  | .error e => .error e

/-- The attribute `consumed`, present on each kind of result. -/
def Simple.consumed : Simple τ α → Bool
  | .ok r => r.consumed
  | .error e => e.consumed

/-- The attribute `consumed`, present on each kind of result. -/
def Result.consumed : Result τ α → Bool
  | .ok r => r.consumed
  | .error e => e.consumed
  | .recovered r => r.consumed

/-- The attribute `expected`, present on each kind of result. -/
def Result.expected : Result τ α → List String
  | .ok r => r.expected
  | .error e => e.expected
  | .recovered r => r.expected

/-! ### `fmap` -/

/-- Models `Ok.fmap`, `core/result.py:33-36`, for a `fn` that does not raise. -/
def Ok.fmap (fn : α → β) (r : Ok τ α) : Ok τ β :=
  { value := fn r.value, pos := r.pos, ctx := r.ctx, expected := r.expected,
    consumed := r.consumed }

/-- Models `Ok.fmap`, `core/result.py:33-36`, for a user supplied `fn`, which may raise. -/
def Ok.fmapM (fn : α → Except Exn β) (r : Ok τ α) : Out (Ok τ β) := do
  let v ← Out.ofExcept (fn r.value)
  return { value := v, pos := r.pos, ctx := r.ctx, expected := r.expected,
           consumed := r.consumed }

/-- The comprehension body in `Recovered.fmap`, `core/result.py:114-117`. -/
def Repair.fmap (fn : α → β) (r : Repair τ α) : Repair τ β :=
  { cost := r.cost, prio := r.prio, ins := r.ins, ops := r.ops, value := fn r.value,
    pos := r.pos, ctx := r.ctx, expected := r.expected, consumed := r.consumed }

/-- The comprehension body in `Recovered.fmap`, `core/result.py:114-117`; `fn` may raise. -/
def Repair.fmapM (fn : α → Except Exn β) (r : Repair τ α) : Out (Repair τ β) := do
  let v ← Out.ofExcept (fn r.value)
  return { cost := r.cost, prio := r.prio, ins := r.ins, ops := r.ops, value := v,
           pos := r.pos, ctx := r.ctx, expected := r.expected, consumed := r.consumed }

/-- The list comprehension in `Recovered.fmap`, `core/result.py:113-119`. -/
def repairsFmapM (fn : α → Except Exn β) : List (Repair τ α) → Out (List (Repair τ β))
  | [] => .ret []
  | r :: rs => do
    let r' ← r.fmapM fn
    let rs' ← repairsFmapM fn rs
    return r' :: rs'

/-- Models `fmap` of `Ok` and `Error`, `core/result.py:33-36,71-72`, for a pure `fn`. -/
def Simple.fmap (fn : α → β) : Simple τ α → Simple τ β
  | .ok r => .ok (r.fmap fn)
  | .error e => .error e

/-- Models `fmap` of `Ok` and `Error`, `core/result.py:33-36,71-72`. -/
def Simple.fmapM (fn : α → Except Exn β) : Simple τ α → Out (Simple τ β)
  | .ok r => do
    let r' ← r.fmapM fn
    return .ok r'
  | .error e => .ret (.error e)

/-- Models `fmap`, `core/result.py:33-36,71-72,111-121`, for a pure `fn`. -/
def Result.fmap (fn : α → β) : Result τ α → Result τ β
  | .ok r => .ok (r.fmap fn)
  | .error e => .error e
  | .recovered r =>
    .recovered { repairs := r.repairs.map (Repair.fmap fn), minPrio := r.minPrio, loc := r.loc,
                 expected := r.expected, consumed := r.consumed }

/-- Models `fmap`, `core/result.py:33-36,71-72,111-121`. -/
def Result.fmapM (fn : α → Except Exn β) : Result τ α → Out (Result τ β)
  | .ok r => do
    let r' ← r.fmapM fn
    return .ok r'
  | .error e => .ret (.error e)
  | .recovered r => do
    let reps ← repairsFmapM fn r.repairs
    return .recovered { repairs := reps, minPrio := r.minPrio, loc := r.loc,
                        expected := r.expected, consumed := r.consumed }

/-! ### `set_ctx` -/

/-- Models `set_ctx` of `Ok` and `Error`, `core/result.py:38-40,74-75`. -/
def Simple.setCtx (ctx : Ctx τ) : Simple τ α → Simple τ α
  | .ok r => .ok { r with ctx := ctx }
  | .error e => .error e

/-- Models `set_ctx`, `core/result.py:38-40,74-75,123-126`. -/
def Result.setCtx (ctx : Ctx τ) : Result τ α → Result τ α
  | .ok r => .ok { r with ctx := ctx }
  | .error e => .error e
  | .recovered r =>
    .recovered { r with repairs := r.repairs.map fun p => { p with ctx := ctx } }

/-! ### `set_expected` -/

/-- Models `Ok.set_expected`, `core/result.py:42-45`. -/
def Ok.setExpected (expected : List String) (r : Ok τ α) : Ok τ α :=
  if r.consumed then r else { r with expected := expected }

/-- Models `Error.set_expected`, `core/result.py:77-80`. -/
def Err.setExpected (expected : List String) (e : Err) : Err :=
  if e.consumed then e else { e with expected := expected }

/-- The loop body in `Recovered.set_expected`, `core/result.py:131-134`. -/
def Repair.setExpected (expected : List String) (r : Repair τ α) : Repair τ α :=
  { r with
    expected := if r.consumed then r.expected else expected
    ops := opsSetExpected r.ops expected }

/-- Models `Recovered.set_expected`, `core/result.py:128-135`. -/
def Recovered.setExpected (expected : List String) (r : Recovered τ α) : Recovered τ α :=
  { r with
    expected := if r.consumed then r.expected else expected
    repairs := r.repairs.map (Repair.setExpected expected) }

/-- Models `set_expected`, `core/result.py:42-45,77-80`. -/
def Simple.setExpected (expected : List String) : Simple τ α → Simple τ α
  | .ok r => .ok (r.setExpected expected)
  | .error e => .error (e.setExpected expected)

/-- Models `set_expected`, `core/result.py:42-45,77-80,128-135`. -/
def Result.setExpected (expected : List String) : Result τ α → Result τ α
  | .ok r => .ok (r.setExpected expected)
  | .error e => .error (e.setExpected expected)
  | .recovered r => .recovered (r.setExpected expected)

/-! ### `prepend_expected` -/

/-- Models `Ok.prepend_expected`, `core/result.py:47-52`. -/
def Ok.prependExpected (expected : List String) (consumed : Bool) (r : Ok τ α) : Ok τ α :=
  if r.consumed then r
  else { r with expected := expected ++ r.expected, consumed := r.consumed || consumed }

/-- Models `Error.prepend_expected`, `core/result.py:82-87`. -/
def Err.prependExpected (expected : List String) (consumed : Bool) (e : Err) : Err :=
  if e.consumed then e
  else { e with expected := expected ++ e.expected, consumed := e.consumed || consumed }

/-- The loop body in `Recovered.prepend_expected`, `core/result.py:143-147`. -/
def Repair.prependExpected (expected : List String) (consumed : Bool) (r : Repair τ α) :
    Repair τ α :=
  { r with
    expected := if r.consumed then r.expected else expected ++ r.expected
    consumed := r.consumed || consumed
    ops := opsPrependExpected r.ops expected consumed }

/-- Models `Recovered.prepend_expected`, `core/result.py:137-148`. -/
def Recovered.prependExpected (expected : List String) (consumed : Bool) (r : Recovered τ α) :
    Recovered τ α :=
  { r with
    expected := if r.consumed then r.expected else expected ++ r.expected
    consumed := r.consumed || consumed
    repairs := r.repairs.map (Repair.prependExpected expected consumed) }

/-- Models `prepend_expected`, `core/result.py:47-52,82-87`. -/
def Simple.prependExpected (expected : List String) (consumed : Bool) : Simple τ α → Simple τ α
  | .ok r => .ok (r.prependExpected expected consumed)
  | .error e => .error (e.prependExpected expected consumed)

/-- Models `prepend_expected`, `core/result.py:47-52,82-87,137-148`. -/
def Result.prependExpected (expected : List String) (consumed : Bool) :
    Result τ α → Result τ α
  | .ok r => .ok (r.prependExpected expected consumed)
  | .error e => .error (e.prependExpected expected consumed)
  | .recovered r => .recovered (r.prependExpected expected consumed)

/-! ### `core/recovery.py` -/

/-- Models `_append_expected`, `core/recovery.py:78-83`. -/
def appendExpected (ra : Repair τ α) (expected : List String) (consumed : Bool) : List String :=
  if consumed then expected else ra.expected ++ expected

/-- Models `_join_ops`, `core/recovery.py:71-75`. -/
def joinOps (rep : Repair τ α) (repb : Repair τ β) : List OpItem :=
  rep.ops ++ opsPrependExpected repb.ops rep.expected rep.consumed

/-- The loop body of `continue_parse`, `core/recovery.py:25-43`: the repairs that one repair
`r` contributes, given the result `rb` of carrying on from it. -/
def contOne (ins : Int) (merge : α → β → γ) (r : Repair τ α) : Result τ β → List (Repair τ γ)
  | .ok rb =>
    [{ cost := r.cost, prio := r.prio, ins := if r.pos = rb.pos then r.ins else ins,
       ops := r.ops, value := merge r.value rb.value, pos := rb.pos, ctx := rb.ctx,
       expected := appendExpected r rb.expected rb.consumed,
       consumed := r.consumed || rb.consumed }]
  | .error _ => []
  | .recovered rb =>
    rb.repairs.map fun rr =>
      { cost := r.cost + rr.cost, prio := r.prio, ins := rr.ins, ops := joinOps r rr,
        value := merge r.value rr.value, pos := rr.pos, ctx := rr.ctx,
        expected := appendExpected r rr.expected rr.consumed,
        consumed := r.consumed || rr.consumed }

/-- The loop of `continue_parse`, `core/recovery.py:22-43`. -/
def contReps (ins : Int) (parse : α → Nat → Ctx τ → Int → Out (Result τ β))
    (merge : α → β → γ) : List (Repair τ α) → Out (List (Repair τ γ))
  | [] => .ret []
  | r :: rs => do
    let rb ← parse r.value r.pos r.ctx r.ins
    let rest ← contReps ins parse merge rs
    return contOne ins merge r rb ++ rest

/-- Models `continue_parse`, `core/recovery.py:18-45`. `merge` is always one of the library's
own total functions (`combinators.py:133,187,211-289,366`). -/
def continueParse (ra : Recovered τ α) (ins : Int)
    (parse : α → Nat → Ctx τ → Int → Out (Result τ β)) (merge : α → β → γ) :
    Out (Result τ γ) := do
  let reps ← contReps ins parse merge ra.repairs
  return .recovered { repairs := reps, minPrio := ra.minPrio, loc := ra.loc,
                      expected := ra.expected, consumed := ra.consumed }

/-- The test `r.prio is not None and r.prio < min_prio`, `core/recovery.py:54`. -/
def prioBelow (minPrio : Nat) (r : Repair τ α) : Bool :=
  match r.prio with
  | none => false
  | some p => decide (p < minPrio)

/-- `reps` in `join_repairs`, `core/recovery.py:50-59`. -/
def joinReps (ra rb : Recovered τ α) : List (Repair τ α) :=
  match ra.minPrio with
  | some m => ra.repairs ++ rb.repairs.filter (prioBelow m)
  | none => ra.repairs ++ rb.repairs.filter (fun r => r.prio.isSome)

/-- `min_prio` in `join_repairs`, `core/recovery.py:51-60`. -/
def joinMinPrio (ra rb : Recovered τ α) : Option Nat :=
  match ra.minPrio with
  | some m =>
    match rb.minPrio with
    | some m' => if m' < m then some m' else some m
    | none => some m
  | none => rb.minPrio

/-- Models `join_repairs`, `core/recovery.py:48-68`. -/
def joinRepairs (ra rb : Recovered τ α) : Recovered τ α :=
  if ra.consumed then
    { repairs := joinReps ra rb, minPrio := joinMinPrio ra rb, loc := ra.loc,
      expected := ra.expected, consumed := true }
  else if rb.consumed then
    { repairs := joinReps ra rb, minPrio := joinMinPrio ra rb, loc := rb.loc,
      expected := rb.expected, consumed := true }
  else
    { repairs := joinReps ra rb, minPrio := joinMinPrio ra rb, loc := ra.loc,
      expected := ra.expected ++ rb.expected, consumed := ra.consumed || rb.consumed }

/-! ### `core/parser.py` -/

/-- Models `ParseFastFn`, `core/parser.py:14-17`. -/
abbrev FastFn (τ α : Type) := List τ → Nat → Ctx τ → Out (Simple τ α)

/-- Models `ParseFn`, `core/parser.py:18-21`; the last two arguments are `ins` and `rem`. -/
abbrev Fn (τ α : Type) := List τ → Nat → Ctx τ → Int → Option Int → Out (Result τ α)

/-- Models `ParseFns`, `core/parser.py:24-29`. -/
structure ParseFns (τ α : Type) where
  fast : FastFn τ α
  fn : Fn τ α

end Reparsec
