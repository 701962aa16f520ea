import Verif.Model.Core

/-!
# Combinators

Models `src/reparsec/core/combinators.py` and `core/layout.py`, function by function: each
combinator maps the `ParseFns` of its arguments to a `ParseFns`.
-/

namespace Reparsec

variable {τ α β γ : Type}

/-! ### `fmap` -/

/-- Models `_fmap_fast`, `core/combinators.py:16-23`. -/
def fmapFast (p : ParseFns τ α) (fn : α → Except Exn β) : FastFn τ β := fun stream pos ctx => do
  let r ← p.fast stream pos ctx
  r.fmapM fn

/-- Models `_fmap`, `core/combinators.py:26-33`. -/
def fmapFn (p : ParseFns τ α) (fn : α → Except Exn β) : Fn τ β :=
  fun stream pos ctx ins rem => do
  let r ← p.fn stream pos ctx ins rem
  r.fmapM fn

/-- Models `fmap`, `core/combinators.py:36-37`. -/
def fmapFns (p : ParseFns τ α) (fn : α → Except Exn β) : ParseFns τ β :=
  ⟨fmapFast p fn, fmapFn p fn⟩

/-! ### `alt` -/

/-- Models `_alt_fast`, `core/combinators.py:40-58`. Simplification: both alternatives have
the same value type (Python: a union; embed with `fmap`). -/
def altFast (p q : ParseFns τ α) : FastFn τ α := fun stream pos ctx => do
  match ← p.fast stream pos ctx with
  | .ok ra => .ret (.ok ra)
  | .error ea =>
    if ea.consumed then .ret (.error ea)
    else
      match ← q.fast stream pos ctx with
      | .ok rb =>
        if rb.consumed then .ret (.ok rb)
        else .ret (.ok (rb.setExpected (ea.expected ++ rb.expected)))
      | .error eb =>
        if eb.consumed then .ret (.error eb)
        else .ret (.error { loc := ea.loc, expected := ea.expected ++ eb.expected })

/-- Models lines 79-88 of `_alt`, `core/combinators.py`: both alternatives have failed without
consuming input, with a combined `expected`; `loc` is the first one's location. -/
def altRecover (p q : ParseFns τ α) (stream : List τ) (pos : Nat) (ctx : Ctx τ) (ins : Int)
    (rem : Option Int) (loc : Loc) (expected : List String) : Out (Result τ α) :=
  match rem with
  | none => .ret (.error { loc := loc, expected := expected })
  | some rem => do
    let rra ← p.fn stream pos ctx ins (some rem)
    let rrb ← q.fn stream pos ctx ins (some rem)
    match rra, rrb with
    | .recovered rra, .recovered rrb =>
      .ret (.recovered ((joinRepairs rra rrb).setExpected expected))
    | .recovered rra, _ => .ret (.recovered (rra.setExpected expected))
    | _, .recovered rrb => .ret (.recovered (rrb.setExpected expected))
    | _, _ => .ret (.error { loc := loc, expected := expected })

/-- What `_alt` (`core/combinators.py:71-72`) does when the first alternative gave a result
that is not `Ok` and is not consumed: run the second one (`:73-78`). `loc` and `expected` are
those of the first result. -/
def altSecond (p q : ParseFns τ α) (stream : List τ) (pos : Nat) (ctx : Ctx τ) (ins : Int)
    (rem : Option Int) (loc : Loc) (expected : List String) : Out (Result τ α) := do
  match ← q.fn stream pos ctx ins none with
  | .ok rb =>
    if rb.consumed then .ret (.ok rb)
    else .ret (.ok (rb.setExpected (expected ++ rb.expected)))
  | .error eb =>
    if eb.consumed then .ret (.error eb)
    else altRecover p q stream pos ctx ins rem loc (expected ++ eb.expected)
  | .recovered rb =>
    if rb.consumed then .ret (.recovered rb)
    else altRecover p q stream pos ctx ins rem loc (expected ++ rb.expected)

/-- Models `_alt`, `core/combinators.py:61-90`. -/
def altFn (p q : ParseFns τ α) : Fn τ α := fun stream pos ctx ins rem => do
  match ← p.fn stream pos ctx ins none with
  | .ok ra => .ret (.ok ra)
  | .error ea =>
    if ea.consumed then .ret (.error ea)
    else altSecond p q stream pos ctx ins rem ea.loc ea.expected
  | .recovered ra =>
    if ra.consumed then .ret (.recovered ra)
    else altSecond p q stream pos ctx ins rem ra.loc ra.expected

/-- Models `alt`, `core/combinators.py:93-99`. -/
def altFns (p q : ParseFns τ α) : ParseFns τ α := ⟨altFast p q, altFn p q⟩

/-! ### `bind` -/

/-- Models `_bind_fast`, `core/combinators.py:102-115`. A callback that raises is a callback
that returns a parser that raises when it is run (`pureFnFns`): the two calls are adjacent. -/
def bindFast (p : ParseFns τ α) (fn : α → ParseFns τ β) : FastFn τ β := fun stream pos ctx => do
  match ← p.fast stream pos ctx with
  | .error e => .ret (.error e)
  | .ok ra =>
    let rb ← (fn ra.value).fast stream ra.pos ra.ctx
    return rb.prependExpected ra.expected ra.consumed

/-- Models `_bind`, `core/combinators.py:118-143`. -/
def bindFn (p : ParseFns τ α) (fn : α → ParseFns τ β) : Fn τ β :=
  fun stream pos ctx ins rem => do
  match ← p.fn stream pos ctx ins rem with
  | .error e => .ret (.error e)
  | .recovered ra =>
    continueParse ra ins (fun v p c r => (fn v).fn stream p c ins (some r)) (fun _ v => v)
  | .ok ra =>
    if ra.consumed then
      let rb ← (fn ra.value).fn stream ra.pos ra.ctx ins (some ins)
      return rb.prependExpected ra.expected ra.consumed
    else
      let rb ← (fn ra.value).fn stream ra.pos ra.ctx ins rem
      return rb.prependExpected ra.expected ra.consumed

/-- Models `bind`, `core/combinators.py:146-149`. -/
def bindFns (p : ParseFns τ α) (fn : α → ParseFns τ β) : ParseFns τ β :=
  ⟨bindFast p fn, bindFn p fn⟩

/-! ### `_seq` -/

/-- Models `_seq_h_fast`, `core/combinators.py:152-169`. -/
def seqFast (p : ParseFns τ α) (q : ParseFns τ β) (merge : α → β → γ) : FastFn τ γ :=
  fun stream pos ctx => do
  match ← p.fast stream pos ctx with
  | .error e => .ret (.error e)
  | .ok ra =>
    let va := ra.value
    let rb ← q.fast stream ra.pos ra.ctx
    return (rb.fmap fun vb => merge va vb).prependExpected ra.expected ra.consumed

/-- Models `_seq_h`, `core/combinators.py:172-196`. -/
def seqFn (p : ParseFns τ α) (q : ParseFns τ β) (merge : α → β → γ) : Fn τ γ :=
  fun stream pos ctx ins rem => do
  match ← p.fn stream pos ctx ins rem with
  | .error e => .ret (.error e)
  | .recovered ra =>
    continueParse ra ins (fun _ p c r => q.fn stream p c ins (some r)) merge
  | .ok ra =>
    let va := ra.value
    let rb ← q.fn stream ra.pos ra.ctx ins (if ra.consumed then some ins else rem)
    return (rb.fmap fun vb => merge va vb).prependExpected ra.expected ra.consumed

/-- Models `_seq`, `core/combinators.py:199-205`; `seql`, `seqr`, `seq`, `tuple3` ... `tuple8`
(`:208-290`) are instances. -/
def seqFns (p : ParseFns τ α) (q : ParseFns τ β) (merge : α → β → γ) : ParseFns τ γ :=
  ⟨seqFast p q merge, seqFn p q merge⟩

/-! ### `maybe` -/

/-- Models `_maybe_fast`, `core/combinators.py:293-303`. -/
def maybeFast (p : ParseFns τ α) : FastFn τ (Option α) := fun stream pos ctx => do
  match ← p.fast stream pos ctx with
  | .ok r => .ret (.ok (r.fmap some))
  | .error e =>
    if e.consumed then .ret (.error e)
    else .ret (.ok { value := none, pos := pos, ctx := ctx, expected := e.expected })

/-- Models `_maybe`, `core/combinators.py:306-317`. (Python returns `r` itself where the model
wraps its values in `some`.) -/
def maybeFn (p : ParseFns τ α) : Fn τ (Option α) := fun stream pos ctx ins _rem => do
  match ← p.fn stream pos ctx ins none with
  | .ok r => .ret (.ok (r.fmap some))
  | .error e =>
    if e.consumed then .ret (.error e)
    else .ret (.ok { value := none, pos := pos, ctx := ctx, expected := e.expected })
  | .recovered r =>
    if r.consumed then .ret ((Result.recovered r).fmap some)
    else .ret (.ok { value := none, pos := pos, ctx := ctx, expected := r.expected })

/-- Models `maybe`, `core/combinators.py:320-321`. -/
def maybeFns (p : ParseFns τ α) : ParseFns τ (Option α) := ⟨maybeFast p, maybeFn p⟩

/-! ### `many` -/

/-- The exception raised at `core/combinators.py:333,357`. -/
def manyExn : Exn := .runtimeError "parser shouldn't accept empty string"

/-- The loop of `_many_fast`, `core/combinators.py:327-341`, from the point where `parse_fn` is
called (`:330` and `:338`); the loop variables are `pos`, `ctx`, `consumed`, `value`. -/
def manyFastLoop (p : FastFn τ α) (stream : List τ) :
    (fuel : Nat) → Nat → Ctx τ → Bool → List α → Out (Simple τ (List α))
  | 0, _, _, _, _ => .diverge
  | fuel + 1, pos, ctx, consumed, value => do
    match ← p stream pos ctx with
    | .ok r =>
      if r.consumed then manyFastLoop p stream fuel r.pos r.ctx true (value ++ [r.value])
      else .raise manyExn
    | .error e =>
      if e.consumed then .ret (.error e)
      else .ret (.ok { value := value, pos := pos, ctx := ctx, expected := e.expected,
                       consumed := consumed })

/-- The loop of `_many`, `core/combinators.py:349-370`; the recursive call of `many` at `:365`
starts the loop afresh. -/
def manyLoop (p : Fn τ α) (stream : List τ) (ins : Int) :
    (fuel : Nat) → Nat → Ctx τ → Bool → List α → Out (Result τ (List α))
  | 0, _, _, _, _ => .diverge
  | fuel + 1, pos, ctx, consumed, value => do
    match ← p stream pos ctx ins none with
    | .ok r =>
      if r.consumed then manyLoop p stream ins fuel r.pos r.ctx true (value ++ [r.value])
      else .raise manyExn
    | .recovered r =>
      continueParse r ins (fun _ p' c _ => manyLoop p stream ins fuel p' c false [])
        (fun a b => value ++ a :: b)
    | .error e =>
      if e.consumed then .ret (.error e)
      else .ret (.ok { value := value, pos := pos, ctx := ctx, expected := e.expected,
                       consumed := consumed })

/-- Models `many`, `core/combinators.py:375-376`. -/
def manyFns (fuel : Nat) (p : ParseFns τ α) : ParseFns τ (List α) where
  fast stream pos ctx := manyFastLoop p.fast stream fuel pos ctx false []
  fn stream pos ctx ins _rem := manyLoop p.fn stream ins fuel pos ctx false []

/-! ### `attempt` -/

/-- Models `_attempt_fast`, `core/combinators.py:379-388`. -/
def attemptFast (p : ParseFns τ α) : FastFn τ α := fun stream pos ctx => do
  match ← p.fast stream pos ctx with
  | .error e => .ret (.error { loc := e.loc, expected := e.expected })
  | .ok r => .ret (.ok r)

/-- Models `_attempt`, `core/combinators.py:391-405`. -/
def attemptFn (p : ParseFns τ α) : Fn τ α := fun stream pos ctx ins rem =>
  match rem with
  | some rem => p.fn stream pos ctx ins (some rem)
  | none => do
    match ← p.fast stream pos ctx with
    | .error e => .ret (.error { loc := e.loc, expected := e.expected })
    | .ok r => .ret (.ok r)

/-- Models `attempt`, `core/combinators.py:408-409`. -/
def attemptFns (p : ParseFns τ α) : ParseFns τ α := ⟨attemptFast p, attemptFn p⟩

/-! ### `label` -/

/-- Models `label`, `_label_fast`, `_label`, `core/combinators.py:412-440`. -/
def labelFns (p : ParseFns τ α) (x : String) : ParseFns τ α where
  fast stream pos ctx := do
    let r ← p.fast stream pos ctx
    return r.setExpected [x]
  fn stream pos ctx ins rem := do
    let r ← p.fn stream pos ctx ins rem
    return r.setExpected [x]

/-! ### `recover`, `recover_with`, `recover_with_fn` -/

/-- The loop body at `core/combinators.py:455-457`. -/
def Repair.promote (r : Repair τ α) : Repair τ α :=
  { r with prio := match r.prio with | none => some 0 | some p => some p }

/-- Models `_recover`, `core/combinators.py:447-460`. -/
def recoverFn (p : ParseFns τ α) : Fn τ α := fun stream pos ctx ins rem => do
  match ← p.fn stream pos ctx ins rem with
  | .recovered r => .ret (.recovered { r with repairs := r.repairs.map Repair.promote })
  | .ok r => .ret (.ok r)
  | .error e => .ret (.error e)

/-- Models `recover`, `core/combinators.py:443-444,463-464`. -/
def recoverFns (p : ParseFns τ α) : ParseFns τ α := ⟨p.fast, recoverFn p⟩

/-- Models `_recover_with`, `core/combinators.py:471-491`. -/
def recoverWithFn (p : ParseFns τ α) (x : α) (vs : String) : Fn τ α :=
  fun stream pos ctx ins rem =>
  match rem with
  | none => p.fn stream pos ctx ins none
  | some rem => do
    match ← p.fn stream pos ctx ins (some rem) with
    | .ok r => .ret (.ok r)
    | .error e =>
      if e.consumed then .ret (.error e)
      else if rem ≠ 0 then
        let loc := ctx.getLoc stream pos
        let rep := makeUserInsert rem x pos ctx loc vs e.expected
        .ret (.recovered { repairs := [rep], minPrio := none, loc := loc })
      else .ret (.error e)
    | .recovered r =>
      if r.consumed then .ret (.recovered r)
      else if rem ≠ 0 then
        let loc := ctx.getLoc stream pos
        let rep := makeUserInsert rem x pos ctx loc vs r.expected
        .ret (.recovered { repairs := rep :: r.repairs, minPrio := r.minPrio, loc := loc,
                           expected := r.expected })
      else .ret (.recovered r)

/-- Models `recover_with`, `core/combinators.py:467-468,494-502`. `vs` is the label argument
or `repr(x)`. -/
def recoverWithFns (p : ParseFns τ α) (x : α) (vs : String) : ParseFns τ α :=
  ⟨p.fast, recoverWithFn p x vs⟩

/-- Models `_recover_with_fn`, `core/combinators.py:509-534`. `lbl x` is the label argument or
`repr(x)`. -/
def recoverWithFnFn (p : ParseFns τ α) (fn : List τ → Nat → Except Exn α) (lbl : α → String) :
    Fn τ α :=
  fun stream pos ctx ins rem =>
  match rem with
  | none => p.fn stream pos ctx ins none
  | some rem => do
    match ← p.fn stream pos ctx ins (some rem) with
    | .ok r => .ret (.ok r)
    | .error e =>
      if e.consumed then .ret (.error e)
      else if rem ≠ 0 then
        let x ← Out.ofExcept (fn stream pos)
        let loc := ctx.getLoc stream pos
        let rep := makeUserInsert rem x pos ctx loc (lbl x) e.expected
        .ret (.recovered { repairs := [rep], minPrio := none, loc := loc })
      else .ret (.error e)
    | .recovered r =>
      if r.consumed then .ret (.recovered r)
      else if rem ≠ 0 then
        let x ← Out.ofExcept (fn stream pos)
        let loc := ctx.getLoc stream pos
        let rep := makeUserInsert rem x pos ctx loc (lbl x) r.expected
        .ret (.recovered { repairs := rep :: r.repairs, minPrio := r.minPrio, loc := loc,
                           expected := r.expected })
      else .ret (.recovered r)

/-- Models `recover_with_fn`, `core/combinators.py:505-506,537-543`. -/
def recoverWithFnFns (p : ParseFns τ α) (fn : List τ → Nat → Except Exn α) (lbl : α → String) :
    ParseFns τ α :=
  ⟨p.fast, recoverWithFnFn p fn lbl⟩

/-! ### `core/layout.py` -/

/-- Models `block`, `_block_fast`, `_block`, `core/layout.py:12-37`. -/
def blockFns (p : ParseFns τ α) : ParseFns τ α where
  fast stream pos ctx := do
    let ctx := ctx.updateLoc stream pos
    let r ← p.fast stream pos (ctx.setMark ctx.loc.col)
    return r.setCtx ctx
  fn stream pos ctx ins rem := do
    let ctx := ctx.updateLoc stream pos
    let r ← p.fn stream pos (ctx.setMark ctx.loc.col) ins rem
    return r.setCtx ctx

/-- Models `aligned`, `_aligned_fast`, `_aligned`, `core/layout.py:40-67`. -/
def alignedFns (p : ParseFns τ α) : ParseFns τ α where
  fast stream pos ctx :=
    let ctx := ctx.updateLoc stream pos
    if ctx.mark = ctx.loc.col then p.fast stream pos ctx
    else .ret (.error { loc := ctx.loc, expected := ["indentation"] })
  fn stream pos ctx ins rem :=
    let ctx := ctx.updateLoc stream pos
    if ctx.mark = ctx.loc.col then p.fn stream pos ctx ins rem
    else .ret (.error { loc := ctx.loc, expected := ["indentation"] })

/-- Models `indented`, `_indented_fast`, `_indented`, `core/layout.py:70-104`. -/
def indentedFns (delta : Int) (p : ParseFns τ α) : ParseFns τ α where
  fast stream pos ctx :=
    let ctx := ctx.updateLoc stream pos
    let level := ctx.loc.col
    if (ctx.mark : Int) + delta = level then do
      let r ← p.fast stream pos (ctx.setMark level)
      return r.setCtx ctx
    else .ret (.error { loc := ctx.loc, expected := ["indentation"] })
  fn stream pos ctx ins rem :=
    let ctx := ctx.updateLoc stream pos
    let level := ctx.loc.col
    if (ctx.mark : Int) + delta = level then do
      let r ← p.fn stream pos (ctx.setMark level) ins rem
      return r.setCtx ctx
    else .ret (.error { loc := ctx.loc, expected := ["indentation"] })

end Reparsec
