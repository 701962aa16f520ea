import Verif.Model.Parser

/-!
# Callbacks with side effects

`Model/Core` ... `Model/Parser` take the user's callbacks to be functions.  Here the same code is
modelled once more with callbacks that may read and write some state of the user's (`σ`: a symbol
table, counters, a file, ...) and whose results may depend on it.  Every call of a callback is
also recorded, with its name and the state it found, so that one can speak about which callbacks
are called, in which order.

The definitions follow `src/reparsec/core/combinators.py`, `core/primitive.py`,
`core/sequence.py`, `core/layout.py`, `core/recovery.py`, `core/result.py` and `parser.py` line by
line, like those of `Model/Combs` and `Model/Prims`; the data types and the pure bookkeeping
(`set_expected`, `prepend_expected`, `join_repairs`, ...) are shared with `Model/Core`.
Simplifications: as in the pure model, except that callbacks are not assumed to be functions;
`==` of stream elements, regular expressions, `get_loc` and `repr` are still without effects.
-/

namespace Reparsec

/-- A call of a callback: which one, and the state it found. -/
structure Called (σ : Type) where
  name : String
  before : σ

/-- The user's state, and the calls of callbacks so far (oldest first). -/
structure World (σ : Type) where
  state : σ
  calls : List (Called σ)

/-- The outcome of running a piece of Python code: out of fuel, an exception, or a value; in the
last two cases together with the world it leaves behind. -/
inductive Run (σ α : Type) where
  | diverge
  | raise (e : Exn) (w : World σ)
  | ret (a : α) (w : World σ)

/-- A piece of Python code. -/
def Act (σ α : Type) := World σ → Run σ α

variable {σ : Type}

/-- Sequencing: exceptions and divergence propagate. -/
def Run.bind {α β : Type} (x : Run σ α) (f : α → Act σ β) : Run σ β :=
  match x with
  | .diverge => .diverge
  | .raise e w => .raise e w
  | .ret a w => f a w

instance : Monad (Act σ) where
  pure a := fun w => .ret a w
  bind x f := fun w => (x w).bind f

/-- Raising an exception. -/
def Act.raise {α : Type} (e : Exn) : Act σ α := fun w => .raise e w

/-- Running out of fuel. -/
def Act.diverge {α : Type} : Act σ α := fun _ => .diverge

/-- A callback: what it is called in the record of calls, and what it does: given its argument and
the state, it returns or raises and leaves a state. -/
structure Callback (σ α β : Type) where
  name : String
  run : α → σ → Except Exn β × σ

/-- Calling a callback. -/
def Callback.call {α β : Type} (c : Callback σ α β) (a : α) : Act σ β := fun w =>
  let r := c.run a w.state
  let w' : World σ := ⟨r.2, w.calls ++ [⟨c.name, w.state⟩]⟩
  match r.1 with
  | .ok b => .ret b w'
  | .error e => .raise e w'

namespace Eff

variable {τ α β γ : Type}

/-- Models `ParseFastFn`, `core/parser.py:14-17`. -/
abbrev FastFn (σ τ α : Type) := List τ → Nat → Ctx τ → Act σ (Simple τ α)

/-- Models `ParseFn`, `core/parser.py:18-21`. -/
abbrev Fn (σ τ α : Type) := List τ → Nat → Ctx τ → Int → Option Int → Act σ (Result τ α)

/-- Models `ParseFns`, `core/parser.py:24-29`. -/
structure ParseFns (σ τ α : Type) where
  fast : FastFn σ τ α
  fn : Fn σ τ α

/-- Primitives without callbacks are those of `Model/Prims`. -/
def liftOut (x : Out α) : Act σ α := fun w =>
  match x with
  | .diverge => .diverge
  | .raise e => .raise e w
  | .ret a => .ret a w

/-- `Pure`, `unexpected`, `eof`, `sym`, `literal`, `regexp` (`core/primitive.py:11-23,41-60`,
`core/sequence.py:11-44,93-144`, `core/scannerless.py:23-129`) call no callbacks: their functions
are those of `Model/Prims`, and leave the world alone. -/
def lift (f : Reparsec.ParseFns τ α) : ParseFns σ τ α where
  fast s pos ctx := liftOut (f.fast s pos ctx)
  fn s pos ctx ins rem := liftOut (f.fn s pos ctx ins rem)

/-! ### `core/primitive.py`, `core/sequence.py` -/

/-- Models `PureFn`, `core/primitive.py:26-38`. -/
def pureFnFns (c : Callback σ Unit α) : ParseFns σ τ α where
  fast _ pos ctx := do
    let v ← c.call ()
    return .ok { value := v, pos := pos, ctx := ctx }
  fn _ pos ctx _ _ := do
    let v ← c.call ()
    return .ok { value := v, pos := pos, ctx := ctx }

/-- `t = stream[pos]; if test(t)` guarded by `pos < len(stream)`, `core/sequence.py:51-53,64-66,
72-74`. -/
def testAt (test : Callback σ τ Bool) (stream : List τ) (pos : Nat) : Act σ (Option τ) :=
  match stream[pos]? with
  | none => pure none
  | some t => do
    let b ← test.call t
    return if b then some t else none

/-- The loop at `core/sequence.py:71-83`; `k` is the number of iterations left. -/
def scanTest (test : Callback σ τ Bool) (stream : List τ) :
    (k cur : Nat) → Act σ (Option (Nat × τ))
  | 0, _ => pure none
  | k + 1, cur => do
    match ← testAt test stream cur with
    | some t => return some (cur, t)
    | none => scanTest test stream k (cur + 1)

/-- Models `_satisfy_fast`, `core/sequence.py:47-57`. -/
def satisfyFast (test : Callback σ τ Bool) : FastFn σ τ τ := fun stream pos ctx => do
  match ← testAt test stream pos with
  | some t => return .ok { value := t, pos := pos + 1, ctx := ctx, expected := [],
                           consumed := true }
  | none => return .error { loc := ctx.getLoc stream pos }

/-- Models `_satisfy`, `core/sequence.py:60-86`. -/
def satisfyFn (test : Callback σ τ Bool) : Fn σ τ τ := fun stream pos ctx ins rem => do
  match ← testAt test stream pos with
  | some t => return .ok { value := t, pos := pos + 1, ctx := ctx, expected := [],
                           consumed := true }
  | none =>
    match rem with
    | none => return .error { loc := ctx.getLoc stream pos }
    | some _ =>
      let loc := ctx.getLoc stream pos
      match ← scanTest test stream (stream.length - (pos + 1)) (pos + 1) with
      | some (cur, t) =>
        return .recovered
          { repairs := [makeSkip ins t (cur + 1) (ctx.updateLoc stream (cur + 1)) loc
                          (cur - pos)],
            minPrio := some (cur - pos), loc := loc }
      | none => return .error { loc := loc }

/-- Models `satisfy`, `core/sequence.py:89-90`. -/
def satisfyFns (test : Callback σ τ Bool) : ParseFns σ τ τ := ⟨satisfyFast test, satisfyFn test⟩

/-! ### `core/combinators.py` -/

/-- The list comprehension in `Recovered.fmap`, `core/result.py:113-119`. -/
def repairsFmap (c : Callback σ α β) : List (Repair τ α) → Act σ (List (Repair τ β))
  | [] => pure []
  | r :: rs => do
    let v ← c.call r.value
    let rs' ← repairsFmap c rs
    return { cost := r.cost, prio := r.prio, ins := r.ins, ops := r.ops, value := v,
             pos := r.pos, ctx := r.ctx, expected := r.expected, consumed := r.consumed } :: rs'

/-- Models `_fmap_fast`, `core/combinators.py:16-23`, with `Ok.fmap` and `Error.fmap`,
`core/result.py:33-36,71-72`. -/
def fmapFast (p : ParseFns σ τ α) (c : Callback σ α β) : FastFn σ τ β := fun stream pos ctx => do
  match ← p.fast stream pos ctx with
  | .ok r =>
    let v ← c.call r.value
    return .ok { value := v, pos := r.pos, ctx := r.ctx, expected := r.expected,
                 consumed := r.consumed }
  | .error e => return .error e

/-- Models `_fmap`, `core/combinators.py:26-33`, with the `fmap` of each kind of result,
`core/result.py:33-36,71-72,111-121`. -/
def fmapFn (p : ParseFns σ τ α) (c : Callback σ α β) : Fn σ τ β :=
  fun stream pos ctx ins rem => do
  match ← p.fn stream pos ctx ins rem with
  | .ok r =>
    let v ← c.call r.value
    return .ok { value := v, pos := r.pos, ctx := r.ctx, expected := r.expected,
                 consumed := r.consumed }
  | .error e => return .error e
  | .recovered r =>
    let reps ← repairsFmap c r.repairs
    return .recovered { repairs := reps, minPrio := r.minPrio, loc := r.loc,
                        expected := r.expected, consumed := r.consumed }

/-- Models `fmap`, `core/combinators.py:36-37`. -/
def fmapFns (p : ParseFns σ τ α) (c : Callback σ α β) : ParseFns σ τ β :=
  ⟨fmapFast p c, fmapFn p c⟩

/-- Models `_alt_fast`, `core/combinators.py:40-58`. -/
def altFast (p q : ParseFns σ τ α) : FastFn σ τ α := fun stream pos ctx => do
  match ← p.fast stream pos ctx with
  | .ok ra => return .ok ra
  | .error ea =>
    if ea.consumed then return .error ea
    else
      match ← q.fast stream pos ctx with
      | .ok rb =>
        if rb.consumed then return .ok rb
        else return .ok (rb.setExpected (ea.expected ++ rb.expected))
      | .error eb =>
        if eb.consumed then return .error eb
        else return .error { loc := ea.loc, expected := ea.expected ++ eb.expected }

/-- Models lines 79-88 of `_alt`, `core/combinators.py`. -/
def altRecover (p q : ParseFns σ τ α) (stream : List τ) (pos : Nat) (ctx : Ctx τ) (ins : Int)
    (rem : Option Int) (loc : Loc) (expected : List String) : Act σ (Result τ α) :=
  match rem with
  | none => return .error { loc := loc, expected := expected }
  | some rem => do
    let rra ← p.fn stream pos ctx ins (some rem)
    let rrb ← q.fn stream pos ctx ins (some rem)
    match rra, rrb with
    | .recovered rra, .recovered rrb =>
      return .recovered ((joinRepairs rra rrb).setExpected expected)
    | .recovered rra, _ => return .recovered (rra.setExpected expected)
    | _, .recovered rrb => return .recovered (rrb.setExpected expected)
    | _, _ => return .error { loc := loc, expected := expected }

/-- Models lines 73-78 of `_alt`, `core/combinators.py`. -/
def altSecond (p q : ParseFns σ τ α) (stream : List τ) (pos : Nat) (ctx : Ctx τ) (ins : Int)
    (rem : Option Int) (loc : Loc) (expected : List String) : Act σ (Result τ α) := do
  match ← q.fn stream pos ctx ins none with
  | .ok rb =>
    if rb.consumed then return .ok rb
    else return .ok (rb.setExpected (expected ++ rb.expected))
  | .error eb =>
    if eb.consumed then return .error eb
    else altRecover p q stream pos ctx ins rem loc (expected ++ eb.expected)
  | .recovered rb =>
    if rb.consumed then return .recovered rb
    else altRecover p q stream pos ctx ins rem loc (expected ++ rb.expected)

/-- Models `_alt`, `core/combinators.py:61-90`. -/
def altFn (p q : ParseFns σ τ α) : Fn σ τ α := fun stream pos ctx ins rem => do
  match ← p.fn stream pos ctx ins none with
  | .ok ra => return .ok ra
  | .error ea =>
    if ea.consumed then return .error ea
    else altSecond p q stream pos ctx ins rem ea.loc ea.expected
  | .recovered ra =>
    if ra.consumed then return .recovered ra
    else altSecond p q stream pos ctx ins rem ra.loc ra.expected

/-- Models `alt`, `core/combinators.py:93-99`. -/
def altFns (p q : ParseFns σ τ α) : ParseFns σ τ α := ⟨altFast p q, altFn p q⟩

/-- The loop of `continue_parse`, `core/recovery.py:22-43`. -/
def contReps (ins : Int) (parse : α → Nat → Ctx τ → Int → Act σ (Result τ β))
    (merge : α → β → γ) : List (Repair τ α) → Act σ (List (Repair τ γ))
  | [] => pure []
  | r :: rs => do
    let rb ← parse r.value r.pos r.ctx r.ins
    let rest ← contReps ins parse merge rs
    return contOne ins merge r rb ++ rest

/-- Models `continue_parse`, `core/recovery.py:18-45`. -/
def continueParse (ra : Recovered τ α) (ins : Int)
    (parse : α → Nat → Ctx τ → Int → Act σ (Result τ β)) (merge : α → β → γ) :
    Act σ (Result τ γ) := do
  let reps ← contReps ins parse merge ra.repairs
  return .recovered { repairs := reps, minPrio := ra.minPrio, loc := ra.loc,
                      expected := ra.expected, consumed := ra.consumed }

/-- Models `_bind_fast`, `core/combinators.py:102-115`: `fn(ra.value)` is called, then the
function of the parser it returned. -/
def bindFast (p : ParseFns σ τ α) (fn : α → Act σ (ParseFns σ τ β)) : FastFn σ τ β :=
  fun stream pos ctx => do
  match ← p.fast stream pos ctx with
  | .error e => return .error e
  | .ok ra =>
    let g ← fn ra.value
    let rb ← g.fast stream ra.pos ra.ctx
    return rb.prependExpected ra.expected ra.consumed

/-- Models `_bind`, `core/combinators.py:118-143`. -/
def bindFn (p : ParseFns σ τ α) (fn : α → Act σ (ParseFns σ τ β)) : Fn σ τ β :=
  fun stream pos ctx ins rem => do
  match ← p.fn stream pos ctx ins rem with
  | .error e => return .error e
  | .recovered ra =>
    continueParse ra ins
      (fun v p c r => do
        let g ← fn v
        g.fn stream p c ins (some r))
      (fun _ v => v)
  | .ok ra =>
    let g ← fn ra.value
    let rb ← g.fn stream ra.pos ra.ctx ins (if ra.consumed then some ins else rem)
    return rb.prependExpected ra.expected ra.consumed

/-- Models `bind`, `core/combinators.py:146-149`. -/
def bindFns (p : ParseFns σ τ α) (fn : α → Act σ (ParseFns σ τ β)) : ParseFns σ τ β :=
  ⟨bindFast p fn, bindFn p fn⟩

/-- Models `_seq_h_fast`, `core/combinators.py:152-169`. -/
def seqFast (p : ParseFns σ τ α) (q : ParseFns σ τ β) (merge : α → β → γ) : FastFn σ τ γ :=
  fun stream pos ctx => do
  match ← p.fast stream pos ctx with
  | .error e => return .error e
  | .ok ra =>
    let va := ra.value
    let rb ← q.fast stream ra.pos ra.ctx
    return (rb.fmap fun vb => merge va vb).prependExpected ra.expected ra.consumed

/-- Models `_seq_h`, `core/combinators.py:172-196`. -/
def seqFn (p : ParseFns σ τ α) (q : ParseFns σ τ β) (merge : α → β → γ) : Fn σ τ γ :=
  fun stream pos ctx ins rem => do
  match ← p.fn stream pos ctx ins rem with
  | .error e => return .error e
  | .recovered ra =>
    continueParse ra ins (fun _ p c r => q.fn stream p c ins (some r)) merge
  | .ok ra =>
    let va := ra.value
    let rb ← q.fn stream ra.pos ra.ctx ins (if ra.consumed then some ins else rem)
    return (rb.fmap fun vb => merge va vb).prependExpected ra.expected ra.consumed

/-- Models `_seq`, `core/combinators.py:199-205`. -/
def seqFns (p : ParseFns σ τ α) (q : ParseFns σ τ β) (merge : α → β → γ) : ParseFns σ τ γ :=
  ⟨seqFast p q merge, seqFn p q merge⟩

/-- Models `_maybe_fast`, `core/combinators.py:293-303`. -/
def maybeFast (p : ParseFns σ τ α) : FastFn σ τ (Option α) := fun stream pos ctx => do
  match ← p.fast stream pos ctx with
  | .ok r => return .ok (r.fmap some)
  | .error e =>
    if e.consumed then return .error e
    else return .ok { value := none, pos := pos, ctx := ctx, expected := e.expected }

/-- Models `_maybe`, `core/combinators.py:306-317`. -/
def maybeFn (p : ParseFns σ τ α) : Fn σ τ (Option α) := fun stream pos ctx ins _rem => do
  match ← p.fn stream pos ctx ins none with
  | .ok r => return .ok (r.fmap some)
  | .error e =>
    if e.consumed then return .error e
    else return .ok { value := none, pos := pos, ctx := ctx, expected := e.expected }
  | .recovered r =>
    if r.consumed then return (Result.recovered r).fmap some
    else return .ok { value := none, pos := pos, ctx := ctx, expected := r.expected }

/-- Models `maybe`, `core/combinators.py:320-321`. -/
def maybeFns (p : ParseFns σ τ α) : ParseFns σ τ (Option α) := ⟨maybeFast p, maybeFn p⟩

/-- The loop of `_many_fast`, `core/combinators.py:327-341`. -/
def manyFastLoop (p : FastFn σ τ α) (stream : List τ) :
    (fuel : Nat) → Nat → Ctx τ → Bool → List α → Act σ (Simple τ (List α))
  | 0, _, _, _, _ => .diverge
  | fuel + 1, pos, ctx, consumed, value => do
    match ← p stream pos ctx with
    | .ok r =>
      if r.consumed then manyFastLoop p stream fuel r.pos r.ctx true (value ++ [r.value])
      else Act.raise manyExn
    | .error e =>
      if e.consumed then return .error e
      else return .ok { value := value, pos := pos, ctx := ctx, expected := e.expected,
                        consumed := consumed }

/-- The loop of `_many`, `core/combinators.py:349-370`. -/
def manyLoop (p : Fn σ τ α) (stream : List τ) (ins : Int) :
    (fuel : Nat) → Nat → Ctx τ → Bool → List α → Act σ (Result τ (List α))
  | 0, _, _, _, _ => .diverge
  | fuel + 1, pos, ctx, consumed, value => do
    match ← p stream pos ctx ins none with
    | .ok r =>
      if r.consumed then manyLoop p stream ins fuel r.pos r.ctx true (value ++ [r.value])
      else Act.raise manyExn
    | .recovered r =>
      continueParse r ins (fun _ p' c _ => manyLoop p stream ins fuel p' c false [])
        (fun a b => value ++ a :: b)
    | .error e =>
      if e.consumed then return .error e
      else return .ok { value := value, pos := pos, ctx := ctx, expected := e.expected,
                        consumed := consumed }

/-- Models `many`, `core/combinators.py:375-376`. -/
def manyFns (fuel : Nat) (p : ParseFns σ τ α) : ParseFns σ τ (List α) where
  fast stream pos ctx := manyFastLoop p.fast stream fuel pos ctx false []
  fn stream pos ctx ins _rem := manyLoop p.fn stream ins fuel pos ctx false []

/-- Models `_attempt_fast`, `core/combinators.py:379-388`. -/
def attemptFast (p : ParseFns σ τ α) : FastFn σ τ α := fun stream pos ctx => do
  match ← p.fast stream pos ctx with
  | .error e => return .error { loc := e.loc, expected := e.expected }
  | .ok r => return .ok r

/-- Models `_attempt`, `core/combinators.py:391-405`. -/
def attemptFn (p : ParseFns σ τ α) : Fn σ τ α := fun stream pos ctx ins rem =>
  match rem with
  | some rem => p.fn stream pos ctx ins (some rem)
  | none => do
    match ← p.fast stream pos ctx with
    | .error e => return .error { loc := e.loc, expected := e.expected }
    | .ok r => return .ok r

/-- Models `attempt`, `core/combinators.py:408-409`. -/
def attemptFns (p : ParseFns σ τ α) : ParseFns σ τ α := ⟨attemptFast p, attemptFn p⟩

/-- Models `label`, `_label_fast`, `_label`, `core/combinators.py:412-440`. -/
def labelFns (p : ParseFns σ τ α) (x : String) : ParseFns σ τ α where
  fast stream pos ctx := do
    let r ← p.fast stream pos ctx
    return r.setExpected [x]
  fn stream pos ctx ins rem := do
    let r ← p.fn stream pos ctx ins rem
    return r.setExpected [x]

/-- Models `_recover`, `core/combinators.py:447-460`. -/
def recoverFn (p : ParseFns σ τ α) : Fn σ τ α := fun stream pos ctx ins rem => do
  match ← p.fn stream pos ctx ins rem with
  | .recovered r => return .recovered { r with repairs := r.repairs.map Repair.promote }
  | .ok r => return .ok r
  | .error e => return .error e

/-- Models `recover`, `core/combinators.py:443-444,463-464`. -/
def recoverFns (p : ParseFns σ τ α) : ParseFns σ τ α := ⟨p.fast, recoverFn p⟩

/-- Models `_recover_with`, `core/combinators.py:471-491`. -/
def recoverWithFn (p : ParseFns σ τ α) (x : α) (vs : String) : Fn σ τ α :=
  fun stream pos ctx ins rem =>
  match rem with
  | none => p.fn stream pos ctx ins none
  | some rem => do
    match ← p.fn stream pos ctx ins (some rem) with
    | .ok r => return .ok r
    | .error e =>
      if e.consumed then return .error e
      else if rem ≠ 0 then
        let loc := ctx.getLoc stream pos
        let rep := makeUserInsert rem x pos ctx loc vs e.expected
        return .recovered { repairs := [rep], minPrio := none, loc := loc }
      else return .error e
    | .recovered r =>
      if r.consumed then return .recovered r
      else if rem ≠ 0 then
        let loc := ctx.getLoc stream pos
        let rep := makeUserInsert rem x pos ctx loc vs r.expected
        return .recovered { repairs := rep :: r.repairs, minPrio := r.minPrio, loc := loc,
                            expected := r.expected }
      else return .recovered r

/-- Models `recover_with`, `core/combinators.py:467-468,494-502`. -/
def recoverWithFns (p : ParseFns σ τ α) (x : α) (vs : String) : ParseFns σ τ α :=
  ⟨p.fast, recoverWithFn p x vs⟩

/-- Models `_recover_with_fn`, `core/combinators.py:509-534`. -/
def recoverWithFnFn (p : ParseFns σ τ α) (fn : Callback σ (List τ × Nat) α)
    (lbl : α → String) : Fn σ τ α :=
  fun stream pos ctx ins rem =>
  match rem with
  | none => p.fn stream pos ctx ins none
  | some rem => do
    match ← p.fn stream pos ctx ins (some rem) with
    | .ok r => return .ok r
    | .error e =>
      if e.consumed then return .error e
      else if rem ≠ 0 then
        let x ← fn.call (stream, pos)
        let loc := ctx.getLoc stream pos
        let rep := makeUserInsert rem x pos ctx loc (lbl x) e.expected
        return .recovered { repairs := [rep], minPrio := none, loc := loc }
      else return .error e
    | .recovered r =>
      if r.consumed then return .recovered r
      else if rem ≠ 0 then
        let x ← fn.call (stream, pos)
        let loc := ctx.getLoc stream pos
        let rep := makeUserInsert rem x pos ctx loc (lbl x) r.expected
        return .recovered { repairs := rep :: r.repairs, minPrio := r.minPrio, loc := loc,
                            expected := r.expected }
      else return .recovered r

/-- Models `recover_with_fn`, `core/combinators.py:505-506,537-543`. -/
def recoverWithFnFns (p : ParseFns σ τ α) (fn : Callback σ (List τ × Nat) α)
    (lbl : α → String) : ParseFns σ τ α :=
  ⟨p.fast, recoverWithFnFn p fn lbl⟩

/-! ### `core/layout.py` -/

/-- Models `block`, `_block_fast`, `_block`, `core/layout.py:12-37`. -/
def blockFns (p : ParseFns σ τ α) : ParseFns σ τ α where
  fast stream pos ctx := do
    let ctx := ctx.updateLoc stream pos
    let r ← p.fast stream pos (ctx.setMark ctx.loc.col)
    return r.setCtx ctx
  fn stream pos ctx ins rem := do
    let ctx := ctx.updateLoc stream pos
    let r ← p.fn stream pos (ctx.setMark ctx.loc.col) ins rem
    return r.setCtx ctx

/-- Models `aligned`, `_aligned_fast`, `_aligned`, `core/layout.py:40-67`. -/
def alignedFns (p : ParseFns σ τ α) : ParseFns σ τ α where
  fast stream pos ctx :=
    let ctx := ctx.updateLoc stream pos
    if ctx.mark = ctx.loc.col then p.fast stream pos ctx
    else return .error { loc := ctx.loc, expected := ["indentation"] }
  fn stream pos ctx ins rem :=
    let ctx := ctx.updateLoc stream pos
    if ctx.mark = ctx.loc.col then p.fn stream pos ctx ins rem
    else return .error { loc := ctx.loc, expected := ["indentation"] }

/-- Models `indented`, `_indented_fast`, `_indented`, `core/layout.py:70-104`. -/
def indentedFns (delta : Int) (p : ParseFns σ τ α) : ParseFns σ τ α where
  fast stream pos ctx :=
    let ctx := ctx.updateLoc stream pos
    let level := ctx.loc.col
    if (ctx.mark : Int) + delta = level then do
      let r ← p.fast stream pos (ctx.setMark level)
      return r.setCtx ctx
    else return .error { loc := ctx.loc, expected := ["indentation"] }
  fn stream pos ctx ins rem :=
    let ctx := ctx.updateLoc stream pos
    let level := ctx.loc.col
    if (ctx.mark : Int) + delta = level then do
      let r ← p.fn stream pos (ctx.setMark level) ins rem
      return r.setCtx ctx
    else return .error { loc := ctx.loc, expected := ["indentation"] }

/-- Running out of fuel. -/
def divergeFns : ParseFns σ τ α := ⟨fun _ _ _ => .diverge, fun _ _ _ _ _ => .diverge⟩

/-- The functions of a `Delay` object that has not been defined, `parser.py:755-766`. -/
def undefinedFns : ParseFns σ τ α :=
  ⟨fun _ _ _ => .raise undefinedExn, fun _ _ _ _ _ => .raise undefinedExn⟩

/-! ### Parser objects -/

/-- Parser objects with callbacks that have side effects: `Reparsec.P` (`Model/Parser`), with
callbacks in place of functions. -/
inductive P (σ τ ρ : Type) (Γ : ρ → Type) : Type → Type 1
  /-- `Pure(x)`, `primitive.py:16-26` -/
  | pure {α : Type} (x : α) : P σ τ ρ Γ α
  /-- `PureFn(fn)`, `primitive.py:29-40` -/
  | pureFn {α : Type} (fn : Callback σ Unit α) : P σ τ ρ Γ α
  /-- `unexpected(expected)`, `primitive.py:43-57` -/
  | unexpected (expected : String) : P σ τ ρ Γ Unit
  /-- `eof()`, `sequence.py:15-28` -/
  | eof : P σ τ ρ Γ Unit
  /-- `satisfy(test)`, `sequence.py:31-50` -/
  | satisfy (test : Callback σ τ Bool) : P σ τ ρ Γ τ
  /-- `sym(s, label)`, `sequence.py:53-70` -/
  | sym (s : τ) (label : String) : P σ τ ρ Γ τ
  /-- `literal(s)`, `scannerless.py:16-34`, of a non-empty `s` -/
  | literal (s : List τ) (ss : String) (h : s ≠ []) : P σ τ ρ Γ (List τ)
  /-- `regexp(pat, group)`, `scannerless.py:37-57` -/
  | regexp {β : Type} (m : Matcher τ β) : P σ τ ρ Γ β
  /-- `fmap(parser, fn)`, `parser.py:809-817` -/
  | fmap {α β : Type} (p : P σ τ ρ Γ α) (fn : Callback σ α β) : P σ τ ρ Γ β
  /-- `alt(parser, second)`, `parser.py:869-879` -/
  | alt {α : Type} (p q : P σ τ ρ Γ α) : P σ τ ρ Γ α
  /-- `bind(parser, fn)`, `parser.py:820-831`: the callback does what `fn` does, and `k` says which
  parser it returned -/
  | bind {α ι β : Type} (p : P σ τ ρ Γ α) (fn : Callback σ α ι) (k : ι → P σ τ ρ Γ β) : P σ τ ρ Γ β
  /-- `seq`, `seql`, `seqr`, `then`, `parser.py:834-866,463-483,520-713` -/
  | seqWith {α β γ : Type} (p : P σ τ ρ Γ α) (q : P σ τ ρ Γ β) (merge : α → β → γ) : P σ τ ρ Γ γ
  /-- `maybe(parser)`, `parser.py:882-889` -/
  | maybe {α : Type} (p : P σ τ ρ Γ α) : P σ τ ρ Γ (Option α)
  /-- `many(parser)`, `parser.py:892-899` -/
  | many {α : Type} (p : P σ τ ρ Γ α) : P σ τ ρ Γ (List α)
  /-- `attempt(parser)`, `parser.py:902-909` -/
  | attempt {α : Type} (p : P σ τ ρ Γ α) : P σ τ ρ Γ α
  /-- `label(parser, expected)`, `parser.py:912-920` -/
  | label {α : Type} (p : P σ τ ρ Γ α) (x : String) : P σ τ ρ Γ α
  /-- `recover(parser)`, `parser.py:923-930` -/
  | recover {α : Type} (p : P σ τ ρ Γ α) : P σ τ ρ Γ α
  /-- `recover_with(parser, x, label)`, `parser.py:933-944` -/
  | recoverWith {α : Type} (p : P σ τ ρ Γ α) (x : α) (vs : String) : P σ τ ρ Γ α
  /-- `recover_with_fn(parser, fn, label)`, `parser.py:947-958` -/
  | recoverWithFn {α : Type} (p : P σ τ ρ Γ α) (fn : Callback σ (List τ × Nat) α)
      (lbl : α → String) : P σ τ ρ Γ α
  /-- `block(parser)`, `layout.py:20-27` -/
  | block {α : Type} (p : P σ τ ρ Γ α) : P σ τ ρ Γ α
  /-- `aligned(parser)`, `layout.py:30-37` -/
  | aligned {α : Type} (p : P σ τ ρ Γ α) : P σ τ ρ Γ α
  /-- `indented(delta, parser)`, `layout.py:40-49` -/
  | indented {α : Type} (delta : Int) (p : P σ τ ρ Γ α) : P σ τ ρ Γ α
  /-- a `Delay` object, `parser.py:740-806` -/
  | ref (i : ρ) : P σ τ ρ Γ (Γ i)

/-- What each `Delay` object is defined as, if it is (`Delay.define`, `parser.py:768-791`). -/
abbrev Env (σ τ ρ : Type) (Γ : ρ → Type) := (i : ρ) → Option (P σ τ ρ Γ (Γ i))

variable {ρ : Type} {Γ : ρ → Type}

/-- The functions of a parser object, given those of the `Delay` objects. -/
def denoteWith [BEq τ] (fuel : Nat) (tbl : (i : ρ) → ParseFns σ τ (Γ i)) :
    {α : Type} → P σ τ ρ Γ α → ParseFns σ τ α
  | _, .pure x => lift (Reparsec.pureFns x)
  | _, .pureFn c => pureFnFns c
  | _, .unexpected x => lift (Reparsec.unexpectedFns x)
  | _, .eof => lift Reparsec.eofFns
  | _, .satisfy test => satisfyFns test
  | _, .sym s l => lift (Reparsec.symFns s l)
  | _, .literal s ss _ => lift (Reparsec.literalFns s ss)
  | _, .regexp m => lift (Reparsec.regexpFns m)
  | _, .fmap p c => fmapFns (denoteWith fuel tbl p) c
  | _, .alt p q => altFns (denoteWith fuel tbl p) (denoteWith fuel tbl q)
  | _, .bind p c k => bindFns (denoteWith fuel tbl p) fun a => do
      let i ← c.call a
      return denoteWith fuel tbl (k i)
  | _, .seqWith p q merge => seqFns (denoteWith fuel tbl p) (denoteWith fuel tbl q) merge
  | _, .maybe p => maybeFns (denoteWith fuel tbl p)
  | _, .many p => manyFns fuel (denoteWith fuel tbl p)
  | _, .attempt p => attemptFns (denoteWith fuel tbl p)
  | _, .label p x => labelFns (denoteWith fuel tbl p) x
  | _, .recover p => recoverFns (denoteWith fuel tbl p)
  | _, .recoverWith p x vs => recoverWithFns (denoteWith fuel tbl p) x vs
  | _, .recoverWithFn p fn lbl => recoverWithFnFns (denoteWith fuel tbl p) fn lbl
  | _, .block p => blockFns (denoteWith fuel tbl p)
  | _, .aligned p => alignedFns (denoteWith fuel tbl p)
  | _, .indented delta p => indentedFns delta (denoteWith fuel tbl p)
  | _, .ref i => tbl i

/-- The functions of the `Delay` objects, `parser.py:793-806`. -/
def table [BEq τ] (env : Env σ τ ρ Γ) : (fuel : Nat) → (i : ρ) → ParseFns σ τ (Γ i)
  | 0, _ => divergeFns
  | fuel + 1, i =>
    match env i with
    | none => undefinedFns
    | some p => denoteWith fuel (table env fuel) p

/-- The two functions of a parser object (`to_fns`). -/
def denote [BEq τ] (env : Env σ τ ρ Γ) (fuel : Nat) (p : P σ τ ρ Γ α) : ParseFns σ τ α :=
  denoteWith fuel (table env fuel) p

/-- Models `Parser.parse`, `parser.py:30-55`. -/
def parse [BEq τ] (env : Env σ τ ρ Γ) (fuel : Nat) (p : P σ τ ρ Γ α) (stream : List τ)
    (recover : Bool) (maxInsertions : Int) (getLoc : Loc → List τ → Nat → Loc) :
    Act σ (Result τ α) :=
  if recover then
    (denote env fuel p).fn stream 0 (initCtx getLoc) maxInsertions (some maxInsertions)
  else do
    let r ← (denote env fuel p).fast stream 0 (initCtx getLoc)
    return r.toResult

end Eff

end Reparsec
