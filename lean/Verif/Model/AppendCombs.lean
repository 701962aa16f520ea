import Verif.Model.AppendCore

/-!
# Primitive parsers, combinators and layout, with `Append` objects

See `Model/AppendCore.lean`.
-/

namespace Reparsec.App

variable {τ α β γ : Type}

/-! ### `core/primitive.py` -/

/-- Models `Pure`, `core/primitive.py:11-23`. -/
def pureFns (x : α) : ParseFns τ α where
  fast _ pos ctx := .ret (.ok { value := x, pos := pos, ctx := ctx })
  fn _ pos ctx _ _ := .ret (.ok { value := x, pos := pos, ctx := ctx })

/-- Models `PureFn`, `core/primitive.py:26-38`. `x` is what calling the user's function does.
Simplification: the function is a function, i.e. each call does the same. -/
def pureFnFns (x : Except Exn α) : ParseFns τ α where
  fast _ pos ctx := do
    let v ← Out.ofExcept x
    return .ok { value := v, pos := pos, ctx := ctx }
  fn _ pos ctx _ _ := do
    let v ← Out.ofExcept x
    return .ok { value := v, pos := pos, ctx := ctx }

/-- Models `unexpected`, `core/primitive.py:41-60`. -/
def unexpectedFns (expected : String) : ParseFns τ Unit where
  fast stream pos ctx := .ret (.error { loc := ctx.getLoc stream pos, expected := .leaf [expected] })
  fn stream pos ctx _ _ :=
    .ret (.error { loc := ctx.getLoc stream pos, expected := .leaf [expected] })

/-! ### `core/sequence.py` -/

/-- Models `_eof_fast`, `core/sequence.py:11-19`. -/
def eofFast : FastFn τ Unit := fun stream pos ctx =>
  if pos = stream.length then .ret (.ok { value := (), pos := pos, ctx := ctx })
  else .ret (.error { loc := ctx.getLoc stream pos, expected := .leaf ["end of file"] })

/-- Models `_eof`, `core/sequence.py:22-40`. Note: `sl - pos` is computed in `Nat`; positions
never exceed the length of the stream (proved: `frame`). -/
def eofFn : Fn τ Unit := fun stream pos ctx ins rem =>
  if pos = stream.length then .ret (.ok { value := (), pos := pos, ctx := ctx })
  else match rem with
    | none => .ret (.error { loc := ctx.getLoc stream pos, expected := .leaf ["end of file"] })
    | some _ =>
      let loc := ctx.getLoc stream pos
      let sl := stream.length
      .ret (.recovered
        { repairs := [makePendingSkip ins () sl ctx loc (sl - pos) (.leaf ["end of file"])],
          minPrio := none, loc := loc, expected := .leaf ["end of file"] })

/-- Models `eof`, `core/sequence.py:43-44`. -/
def eofFns : ParseFns τ Unit := ⟨eofFast, eofFn⟩

/-- Models `_satisfy_fast`, `core/sequence.py:47-57`. -/
def satisfyFast (test : τ → Except Exn Bool) : FastFn τ τ := fun stream pos ctx => do
  match ← Out.ofExcept (testAt test stream pos) with
  | some t => .ret (.ok { value := t, pos := pos + 1, ctx := ctx, expected := .leaf [],
                          consumed := true })
  | none => .ret (.error { loc := ctx.getLoc stream pos })

/-- Models `_satisfy`, `core/sequence.py:60-86`. -/
def satisfyFn (test : τ → Except Exn Bool) : Fn τ τ := fun stream pos ctx ins rem => do
  match ← Out.ofExcept (testAt test stream pos) with
  | some t => .ret (.ok { value := t, pos := pos + 1, ctx := ctx, expected := .leaf [],
                          consumed := true })
  | none =>
    match rem with
    | none => .ret (.error { loc := ctx.getLoc stream pos })
    | some _ =>
      let loc := ctx.getLoc stream pos
      match ← Out.ofExcept (scan (testAt test stream) (stream.length - (pos + 1)) (pos + 1)) with
      | some (cur, t) =>
        .ret (.recovered
          { repairs := [makeSkip ins t (cur + 1) (ctx.updateLoc stream (cur + 1)) loc
                          (cur - pos)],
            minPrio := some (cur - pos), loc := loc })
      | none => .ret (.error { loc := loc })

/-- Models `satisfy`, `core/sequence.py:89-90`. -/
def satisfyFns (test : τ → Except Exn Bool) : ParseFns τ τ :=
  ⟨satisfyFast test, satisfyFn test⟩

/-- Models `_sym_fast`, `core/sequence.py:93-103`. -/
def symFast [BEq τ] (s : τ) (expected : Exp) : FastFn τ τ := fun stream pos ctx =>
  match symAt s stream pos with
  | some t => .ret (.ok { value := t, pos := pos + 1, ctx := ctx, expected := .leaf [],
                          consumed := true })
  | none => .ret (.error { loc := ctx.getLoc stream pos, expected := expected })

/-- Models `_sym`, `core/sequence.py:106-134`. (`if rem:` is `rem != 0`.) -/
def symFn [BEq τ] (s : τ) (label : String) (expected : Exp) : Fn τ τ :=
  fun stream pos ctx ins rem =>
  match symAt s stream pos with
  | some t => .ret (.ok { value := t, pos := pos + 1, ctx := ctx, expected := .leaf [],
                          consumed := true })
  | none =>
    match rem with
    | none => .ret (.error { loc := ctx.getLoc stream pos, expected := expected })
    | some rem => do
      let loc := ctx.getLoc stream pos
      let reps := if rem ≠ 0 then [makeInsert rem s pos ctx loc label expected] else []
      match ← Out.ofExcept (scan (fun cur => .ok (symAt s stream cur))
          (stream.length - (pos + 1)) (pos + 1)) with
      | some (cur, t) =>
        .ret (.recovered
          { repairs := reps ++ [makeSkip ins t (cur + 1) (ctx.updateLoc stream (cur + 1)) loc
                                  (cur - pos) expected],
            minPrio := some (cur - pos), loc := loc, expected := expected })
      | none =>
        .ret (.recovered { repairs := reps, minPrio := none, loc := loc, expected := expected })

/-- Models `sym`, `core/sequence.py:137-144`. `label` is the label argument or `repr(s)`;
`repr` is not modelled. -/
def symFns [BEq τ] (s : τ) (label : String) : ParseFns τ τ :=
  ⟨symFast s (.leaf [label]), symFn s label (.leaf [label])⟩

/-! ### `core/scannerless.py` -/

/-- Models `_literal_fast`, `core/scannerless.py:23-33`. -/
def literalFast [BEq τ] (s : List τ) (expected : Exp) : FastFn τ (List τ) :=
  fun stream pos ctx =>
  if startsWith s stream pos then
    .ret (.ok { value := s, pos := pos + s.length,
                ctx := ctx.updateLoc stream (pos + s.length), expected := .leaf [],
                consumed := true })
  else .ret (.error { loc := ctx.getLoc stream pos, expected := expected })

/-- Models `_literal`, `core/scannerless.py:36-65`. -/
def literalFn [BEq τ] (s : List τ) (ss : String) (expected : Exp) : Fn τ (List τ) :=
  fun stream pos ctx ins rem =>
  if startsWith s stream pos then
    .ret (.ok { value := s, pos := pos + s.length,
                ctx := ctx.updateLoc stream (pos + s.length), expected := .leaf [],
                consumed := true })
  else match rem with
    | none => .ret (.error { loc := ctx.getLoc stream pos, expected := expected })
    | some rem => do
      let loc := ctx.getLoc stream pos
      let reps := if rem ≠ 0 then [makeInsert rem s pos ctx loc ss expected] else []
      match ← Out.ofExcept (scan
          (fun cur => .ok (if startsWith s stream cur then some () else none))
          (stream.length - (pos + 1)) (pos + 1)) with
      | some (cur, _) =>
        .ret (.recovered
          { repairs := reps ++ [makeSkip ins s (cur + s.length)
                                  (ctx.updateLoc stream (cur + s.length)) loc
                                  (cur - pos) expected],
            minPrio := some (cur - pos), loc := loc, expected := expected })
      | none =>
        .ret (.recovered { repairs := reps, minPrio := none, loc := loc, expected := expected })

/-- Models the functions built by `literal`, `core/scannerless.py:68-72`, for a non-empty `s`
(see `literal?` in `Model/Parser.lean` for the check). `ss` is `repr(s)`. -/
def literalFns [BEq τ] (s : List τ) (ss : String) : ParseFns τ (List τ) :=
  ⟨literalFast s (.leaf [ss]), literalFn s ss (.leaf [ss])⟩

/-- Models `_regexp_fast`, `core/scannerless.py:75-88`. -/
def regexpFast (m : Matcher τ β) : FastFn τ β := fun stream pos ctx => do
  match ← Out.ofExcept (m.at stream pos) with
  | some (e, v) =>
    .ret (.ok { value := v, pos := e, ctx := ctx.updateLoc stream e, expected := .leaf [],
                consumed := decide (e ≠ pos) })
  | none => .ret (.error { loc := ctx.getLoc stream pos })

/-- Models `_regexp`, `core/scannerless.py:91-124`. -/
def regexpFn (m : Matcher τ β) : Fn τ β := fun stream pos ctx ins rem => do
  match ← Out.ofExcept (m.at stream pos) with
  | some (e, v) =>
    .ret (.ok { value := v, pos := e, ctx := ctx.updateLoc stream e, expected := .leaf [],
                consumed := decide (e ≠ pos) })
  | none =>
    match rem with
    | none => .ret (.error { loc := ctx.getLoc stream pos })
    | some _ =>
      let loc := ctx.getLoc stream pos
      match ← Out.ofExcept (scan (m.at stream) (stream.length - (pos + 1)) (pos + 1)) with
      | some (cur, (e, v)) =>
        .ret (.recovered
          { repairs := [makeSkip ins v e (ctx.updateLoc stream e) loc (cur - pos)],
            minPrio := some (cur - pos), loc := loc })
      | none => .ret (.error { loc := loc })

/-- Models `regexp`, `core/scannerless.py:127-129`. -/
def regexpFns (m : Matcher τ β) : ParseFns τ β := ⟨regexpFast m, regexpFn m⟩

/-! ### `fmap` -/

/-- Models `_fmap_fast`, `core/combinators.py:16-23`. -/
def fmapFast (p : ParseFns τ α) (fn : α → Except Exn β) : FastFn τ β := fun stream pos ctx => do
  let r ← p.fast stream pos ctx
  r.fmapM fn

/-- Models `_fmap`, `core/combinators.py:26-33`. -/
def fmapFn (p : ParseFns τ α) (fn : α → Except Exn β) : Fn τ β :=
  fun stream pos ctx ins rem => do
  let r ← p.fn stream pos ctx ins rem
  r.fmapM fn

/-- Models `fmap`, `core/combinators.py:36-37`. -/
def fmapFns (p : ParseFns τ α) (fn : α → Except Exn β) : ParseFns τ β :=
  ⟨fmapFast p fn, fmapFn p fn⟩

/-! ### `alt` -/

/-- Models `_alt_fast`, `core/combinators.py:40-58`. Simplification: both alternatives have
the same value type (Python: a union; embed with `fmap`). -/
def altFast (p q : ParseFns τ α) : FastFn τ α := fun stream pos ctx => do
  match ← p.fast stream pos ctx with
  | .ok ra => .ret (.ok ra)
  | .error ea =>
    if ea.consumed then .ret (.error ea)
    else
      match ← q.fast stream pos ctx with
      | .ok rb =>
        if rb.consumed then .ret (.ok rb)
        else .ret (.ok (rb.setExpected (ea.expected ++ rb.expected)))
      | .error eb =>
        if eb.consumed then .ret (.error eb)
        else .ret (.error { loc := ea.loc, expected := ea.expected ++ eb.expected })

/-- Models lines 79-88 of `_alt`, `core/combinators.py`: both alternatives have failed without
consuming input, with a combined `expected`; `loc` is the first one's location. -/
def altRecover (p q : ParseFns τ α) (stream : List τ) (pos : Nat) (ctx : Ctx τ) (ins : Int)
    (rem : Option Int) (loc : Loc) (expected : Exp) : Out (Result τ α) :=
  match rem with
  | none => .ret (.error { loc := loc, expected := expected })
  | some rem => do
    let rra ← p.fn stream pos ctx ins (some rem)
    let rrb ← q.fn stream pos ctx ins (some rem)
    match rra, rrb with
    | .recovered rra, .recovered rrb =>
      .ret (.recovered ((joinRepairs rra rrb).setExpected expected))
    | .recovered rra, _ => .ret (.recovered (rra.setExpected expected))
    | _, .recovered rrb => .ret (.recovered (rrb.setExpected expected))
    | _, _ => .ret (.error { loc := loc, expected := expected })

/-- What `_alt` (`core/combinators.py:71-72`) does when the first alternative gave a result
that is not `Ok` and is not consumed: run the second one (`:73-78`). `loc` and `expected` are
those of the first result. -/
def altSecond (p q : ParseFns τ α) (stream : List τ) (pos : Nat) (ctx : Ctx τ) (ins : Int)
    (rem : Option Int) (loc : Loc) (expected : Exp) : Out (Result τ α) := do
  match ← q.fn stream pos ctx ins none with
  | .ok rb =>
    if rb.consumed then .ret (.ok rb)
    else .ret (.ok (rb.setExpected (expected ++ rb.expected)))
  | .error eb =>
    if eb.consumed then .ret (.error eb)
    else altRecover p q stream pos ctx ins rem loc (expected ++ eb.expected)
  | .recovered rb =>
    if rb.consumed then .ret (.recovered rb)
    else altRecover p q stream pos ctx ins rem loc (expected ++ rb.expected)

/-- Models `_alt`, `core/combinators.py:61-90`. -/
def altFn (p q : ParseFns τ α) : Fn τ α := fun stream pos ctx ins rem => do
  match ← p.fn stream pos ctx ins none with
  | .ok ra => .ret (.ok ra)
  | .error ea =>
    if ea.consumed then .ret (.error ea)
    else altSecond p q stream pos ctx ins rem ea.loc ea.expected
  | .recovered ra =>
    if ra.consumed then .ret (.recovered ra)
    else altSecond p q stream pos ctx ins rem ra.loc ra.expected

/-- Models `alt`, `core/combinators.py:93-99`. -/
def altFns (p q : ParseFns τ α) : ParseFns τ α := ⟨altFast p q, altFn p q⟩

/-! ### `bind` -/

/-- Models `_bind_fast`, `core/combinators.py:102-115`. A callback that raises is a callback
that returns a parser that raises when it is run (`pureFnFns`): the two calls are adjacent. -/
def bindFast (p : ParseFns τ α) (fn : α → ParseFns τ β) : FastFn τ β := fun stream pos ctx => do
  match ← p.fast stream pos ctx with
  | .error e => .ret (.error e)
  | .ok ra =>
    let rb ← (fn ra.value).fast stream ra.pos ra.ctx
    return rb.prependExpected ra.expected ra.consumed

/-! ### `_seq` -/

/-- Models `_seq_h_fast`, `core/combinators.py:152-169`. -/
def seqFast (p : ParseFns τ α) (q : ParseFns τ β) (merge : α → β → γ) : FastFn τ γ :=
  fun stream pos ctx => do
  match ← p.fast stream pos ctx with
  | .error e => .ret (.error e)
  | .ok ra =>
    let va := ra.value
    let rb ← q.fast stream ra.pos ra.ctx
    return (rb.fmap fun vb => merge va vb).prependExpected ra.expected ra.consumed

/-! ### `maybe` -/

/-- Models `_maybe_fast`, `core/combinators.py:293-303`. -/
def maybeFast (p : ParseFns τ α) : FastFn τ (Option α) := fun stream pos ctx => do
  match ← p.fast stream pos ctx with
  | .ok r => .ret (.ok (r.fmap some))
  | .error e =>
    if e.consumed then .ret (.error e)
    else .ret (.ok { value := none, pos := pos, ctx := ctx, expected := e.expected })

/-- Models `_maybe`, `core/combinators.py:306-317`. (Python returns `r` itself where the model
wraps its values in `some`.) -/
def maybeFn (p : ParseFns τ α) : Fn τ (Option α) := fun stream pos ctx ins _rem => do
  match ← p.fn stream pos ctx ins none with
  | .ok r => .ret (.ok (r.fmap some))
  | .error e =>
    if e.consumed then .ret (.error e)
    else .ret (.ok { value := none, pos := pos, ctx := ctx, expected := e.expected })
  | .recovered r =>
    if r.consumed then .ret ((Result.recovered r).fmap some)
    else .ret (.ok { value := none, pos := pos, ctx := ctx, expected := r.expected })

/-- Models `maybe`, `core/combinators.py:320-321`. -/
def maybeFns (p : ParseFns τ α) : ParseFns τ (Option α) := ⟨maybeFast p, maybeFn p⟩

/-! ### `many` -/

/-- The loop of `_many_fast`, `core/combinators.py:327-341`, from the point where `parse_fn` is
called (`:330` and `:338`); the loop variables are `pos`, `ctx`, `consumed`, `value`. -/
def manyFastLoop (p : FastFn τ α) (stream : List τ) :
    (fuel : Nat) → Nat → Ctx τ → Bool → List α → Out (Simple τ (List α))
  | 0, _, _, _, _ => .diverge
  | fuel + 1, pos, ctx, consumed, value => do
    match ← p stream pos ctx with
    | .ok r =>
      if r.consumed then manyFastLoop p stream fuel r.pos r.ctx true (value ++ [r.value])
      else .raise manyExn
    | .error e =>
      if e.consumed then .ret (.error e)
      else .ret (.ok { value := value, pos := pos, ctx := ctx, expected := e.expected,
                       consumed := consumed })

/-! ### `attempt` -/

/-- Models `_attempt_fast`, `core/combinators.py:379-388`. -/
def attemptFast (p : ParseFns τ α) : FastFn τ α := fun stream pos ctx => do
  match ← p.fast stream pos ctx with
  | .error e => .ret (.error { loc := e.loc, expected := e.expected })
  | .ok r => .ret (.ok r)

/-- Models `_attempt`, `core/combinators.py:391-405`. -/
def attemptFn (p : ParseFns τ α) : Fn τ α := fun stream pos ctx ins rem =>
  match rem with
  | some rem => p.fn stream pos ctx ins (some rem)
  | none => do
    match ← p.fast stream pos ctx with
    | .error e => .ret (.error { loc := e.loc, expected := e.expected })
    | .ok r => .ret (.ok r)

/-- Models `attempt`, `core/combinators.py:408-409`. -/
def attemptFns (p : ParseFns τ α) : ParseFns τ α := ⟨attemptFast p, attemptFn p⟩

/-! ### `label` -/

/-- Models `label`, `_label_fast`, `_label`, `core/combinators.py:412-440`. -/
def labelFns (p : ParseFns τ α) (x : String) : ParseFns τ α where
  fast stream pos ctx := do
    let r ← p.fast stream pos ctx
    return r.setExpected (.leaf [x])
  fn stream pos ctx ins rem := do
    let r ← p.fn stream pos ctx ins rem
    return r.setExpected (.leaf [x])

/-! ### `recover`, `recover_with`, `recover_with_fn` -/

/-- The loop body at `core/combinators.py:455-457`. -/
def Repair.promote (r : Repair τ α) : Repair τ α :=
  { r with prio := match r.prio with | none => some 0 | some p => some p }

/-- Models `_recover`, `core/combinators.py:447-460`. -/
def recoverFn (p : ParseFns τ α) : Fn τ α := fun stream pos ctx ins rem => do
  match ← p.fn stream pos ctx ins rem with
  | .recovered r => .ret (.recovered { r with repairs := r.repairs.map Repair.promote })
  | .ok r => .ret (.ok r)
  | .error e => .ret (.error e)

/-- Models `recover`, `core/combinators.py:443-444,463-464`. -/
def recoverFns (p : ParseFns τ α) : ParseFns τ α := ⟨p.fast, recoverFn p⟩

/-- Models `_recover_with`, `core/combinators.py:471-491`. -/
def recoverWithFn (p : ParseFns τ α) (x : α) (vs : String) : Fn τ α :=
  fun stream pos ctx ins rem =>
  match rem with
  | none => p.fn stream pos ctx ins none
  | some rem => do
    match ← p.fn stream pos ctx ins (some rem) with
    | .ok r => .ret (.ok r)
    | .error e =>
      if e.consumed then .ret (.error e)
      else if rem ≠ 0 then
        let loc := ctx.getLoc stream pos
        let rep := makeUserInsert rem x pos ctx loc vs e.expected
        .ret (.recovered { repairs := [rep], minPrio := none, loc := loc })
      else .ret (.error e)
    | .recovered r =>
      if r.consumed then .ret (.recovered r)
      else if rem ≠ 0 then
        let loc := ctx.getLoc stream pos
        let rep := makeUserInsert rem x pos ctx loc vs r.expected
        .ret (.recovered { repairs := rep :: r.repairs, minPrio := r.minPrio, loc := loc,
                           expected := r.expected })
      else .ret (.recovered r)

/-- Models `recover_with`, `core/combinators.py:467-468,494-502`. `vs` is the label argument
or `repr(x)`. -/
def recoverWithFns (p : ParseFns τ α) (x : α) (vs : String) : ParseFns τ α :=
  ⟨p.fast, recoverWithFn p x vs⟩

/-- Models `_recover_with_fn`, `core/combinators.py:509-534`. `lbl x` is the label argument or
`repr(x)`. -/
def recoverWithFnFn (p : ParseFns τ α) (fn : List τ → Nat → Except Exn α) (lbl : α → String) :
    Fn τ α :=
  fun stream pos ctx ins rem =>
  match rem with
  | none => p.fn stream pos ctx ins none
  | some rem => do
    match ← p.fn stream pos ctx ins (some rem) with
    | .ok r => .ret (.ok r)
    | .error e =>
      if e.consumed then .ret (.error e)
      else if rem ≠ 0 then
        let x ← Out.ofExcept (fn stream pos)
        let loc := ctx.getLoc stream pos
        let rep := makeUserInsert rem x pos ctx loc (lbl x) e.expected
        .ret (.recovered { repairs := [rep], minPrio := none, loc := loc })
      else .ret (.error e)
    | .recovered r =>
      if r.consumed then .ret (.recovered r)
      else if rem ≠ 0 then
        let x ← Out.ofExcept (fn stream pos)
        let loc := ctx.getLoc stream pos
        let rep := makeUserInsert rem x pos ctx loc (lbl x) r.expected
        .ret (.recovered { repairs := rep :: r.repairs, minPrio := r.minPrio, loc := loc,
                           expected := r.expected })
      else .ret (.recovered r)

/-- Models `recover_with_fn`, `core/combinators.py:505-506,537-543`. -/
def recoverWithFnFns (p : ParseFns τ α) (fn : List τ → Nat → Except Exn α) (lbl : α → String) :
    ParseFns τ α :=
  ⟨p.fast, recoverWithFnFn p fn lbl⟩

/-! ### `core/layout.py` -/

/-- Models `block`, `_block_fast`, `_block`, `core/layout.py:12-37`. -/
def blockFns (p : ParseFns τ α) : ParseFns τ α where
  fast stream pos ctx := do
    let ctx := ctx.updateLoc stream pos
    let r ← p.fast stream pos (ctx.setMark ctx.loc.col)
    return r.setCtx ctx
  fn stream pos ctx ins rem := do
    let ctx := ctx.updateLoc stream pos
    let r ← p.fn stream pos (ctx.setMark ctx.loc.col) ins rem
    return r.setCtx ctx

/-- Models `aligned`, `_aligned_fast`, `_aligned`, `core/layout.py:40-67`. -/
def alignedFns (p : ParseFns τ α) : ParseFns τ α where
  fast stream pos ctx :=
    let ctx := ctx.updateLoc stream pos
    if ctx.mark = ctx.loc.col then p.fast stream pos ctx
    else .ret (.error { loc := ctx.loc, expected := .leaf ["indentation"] })
  fn stream pos ctx ins rem :=
    let ctx := ctx.updateLoc stream pos
    if ctx.mark = ctx.loc.col then p.fn stream pos ctx ins rem
    else .ret (.error { loc := ctx.loc, expected := .leaf ["indentation"] })

/-- Models `indented`, `_indented_fast`, `_indented`, `core/layout.py:70-104`. -/
def indentedFns (delta : Int) (p : ParseFns τ α) : ParseFns τ α where
  fast stream pos ctx :=
    let ctx := ctx.updateLoc stream pos
    let level := ctx.loc.col
    if (ctx.mark : Int) + delta = level then do
      let r ← p.fast stream pos (ctx.setMark level)
      return r.setCtx ctx
    else .ret (.error { loc := ctx.loc, expected := .leaf ["indentation"] })
  fn stream pos ctx ins rem :=
    let ctx := ctx.updateLoc stream pos
    let level := ctx.loc.col
    if (ctx.mark : Int) + delta = level then do
      let r ← p.fn stream pos (ctx.setMark level) ins rem
      return r.setCtx ctx
    else .ret (.error { loc := ctx.loc, expected := .leaf ["indentation"] })

/-! ### `parser.py`, `types.py` -/

/-- Running out of fuel. -/
def divergeFns : ParseFns τ α := ⟨fun _ _ _ => .diverge, fun _ _ _ _ _ => .diverge⟩

/-- The functions of a `Delay` object that has not been defined, `parser.py:755-766`. -/
def undefinedFns : ParseFns τ α :=
  ⟨fun _ _ _ => .raise undefinedExn, fun _ _ _ _ _ => .raise undefinedExn⟩

/-- `a < b` for the keys `(r.cost, -r.pos, r.prio is None)` of `types.py:132`, compared
lexicographically as Python compares tuples (`False < True`). -/
def keyLt (a b : Repair τ α) : Bool :=
  decide (a.cost < b.cost) ||
  (a.cost == b.cost && (decide (a.pos > b.pos) ||
    (a.pos == b.pos && (a.prio.isSome && b.prio.isNone))))

/-- `min(repairs, key=...)`, `types.py:130-133`: the first of the smallest elements. -/
def minRepair (best : Repair τ α) : List (Repair τ α) → Repair τ α
  | [] => best
  | r :: rs => minRepair (if keyLt r best then r else best) rs

end Reparsec.App
