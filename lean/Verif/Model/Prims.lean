import Verif.Model.Core

/-!
# Primitive parsers

Models `src/reparsec/core/primitive.py`, `core/sequence.py`, `core/scannerless.py`.
-/

namespace Reparsec

variable {τ α β : Type}

/-! ### `core/primitive.py` -/

/-- Models `Pure`, `core/primitive.py:11-23`. -/
def pureFns (x : α) : ParseFns τ α where
  fast _ pos ctx := .ret (.ok { value := x, pos := pos, ctx := ctx })
  fn _ pos ctx _ _ := .ret (.ok { value := x, pos := pos, ctx := ctx })

/-- Models `PureFn`, `core/primitive.py:26-38`. `x` is what calling the user's function does.
Simplification: the function is a function, i.e. each call does the same. -/
def pureFnFns (x : Except Exn α) : ParseFns τ α where
  fast _ pos ctx := do
    let v ← Out.ofExcept x
    return .ok { value := v, pos := pos, ctx := ctx }
  fn _ pos ctx _ _ := do
    let v ← Out.ofExcept x
    return .ok { value := v, pos := pos, ctx := ctx }

/-- Models `unexpected`, `core/primitive.py:41-60`. -/
def unexpectedFns (expected : String) : ParseFns τ Unit where
  fast stream pos ctx := .ret (.error { loc := ctx.getLoc stream pos, expected := [expected] })
  fn stream pos ctx _ _ :=
    .ret (.error { loc := ctx.getLoc stream pos, expected := [expected] })

/-! ### `core/sequence.py` -/

/-- Models `_eof_fast`, `core/sequence.py:11-19`. -/
def eofFast : FastFn τ Unit := fun stream pos ctx =>
  if pos = stream.length then .ret (.ok { value := (), pos := pos, ctx := ctx })
  else .ret (.error { loc := ctx.getLoc stream pos, expected := ["end of file"] })

/-- Models `_eof`, `core/sequence.py:22-40`. Note: `sl - pos` is computed in `Nat`; positions
never exceed the length of the stream (proved: `frame`). -/
def eofFn : Fn τ Unit := fun stream pos ctx ins rem =>
  if pos = stream.length then .ret (.ok { value := (), pos := pos, ctx := ctx })
  else match rem with
    | none => .ret (.error { loc := ctx.getLoc stream pos, expected := ["end of file"] })
    | some _ =>
      let loc := ctx.getLoc stream pos
      let sl := stream.length
      .ret (.recovered
        { repairs := [makePendingSkip ins () sl ctx loc (sl - pos) ["end of file"]],
          minPrio := none, loc := loc, expected := ["end of file"] })

/-- Models `eof`, `core/sequence.py:43-44`. -/
def eofFns : ParseFns τ Unit := ⟨eofFast, eofFn⟩

/-- The loop `while cur < len(stream): ...; cur += 1` shared by `core/sequence.py:71-83`,
`:120-131`, `core/scannerless.py:52-62`, `:106-121`: look for the first index from `cur` on
at which `hit` finds something. `k` is the number of iterations left, `len(stream) - cur`. -/
def scan (hit : Nat → Except Exn (Option β)) : (k cur : Nat) → Except Exn (Option (Nat × β))
  | 0, _ => .ok none
  | k + 1, cur =>
    match hit cur with
    | .error e => .error e
    | .ok (some b) => .ok (some (cur, b))
    | .ok none => scan hit k (cur + 1)

/-- `t = stream[pos]; if test(t)` guarded by `pos < len(stream)`, `core/sequence.py:51-53`,
`:64-66`, `:72-74`: the token at `pos` if there is one and it passes the test. -/
def testAt (test : τ → Except Exn Bool) (stream : List τ) (pos : Nat) :
    Except Exn (Option τ) :=
  match stream[pos]? with
  | none => .ok none
  | some t =>
    match test t with
    | .error e => .error e
    | .ok true => .ok (some t)
    | .ok false => .ok none

/-- Models `_satisfy_fast`, `core/sequence.py:47-57`. -/
def satisfyFast (test : τ → Except Exn Bool) : FastFn τ τ := fun stream pos ctx => do
  match ← Out.ofExcept (testAt test stream pos) with
  | some t => .ret (.ok { value := t, pos := pos + 1, ctx := ctx, expected := [],
                          consumed := true })
  | none => .ret (.error { loc := ctx.getLoc stream pos })

/-- Models `_satisfy`, `core/sequence.py:60-86`. -/
def satisfyFn (test : τ → Except Exn Bool) : Fn τ τ := fun stream pos ctx ins rem => do
  match ← Out.ofExcept (testAt test stream pos) with
  | some t => .ret (.ok { value := t, pos := pos + 1, ctx := ctx, expected := [],
                          consumed := true })
  | none =>
    match rem with
    | none => .ret (.error { loc := ctx.getLoc stream pos })
    | some _ =>
      let loc := ctx.getLoc stream pos
      match ← Out.ofExcept (scan (testAt test stream) (stream.length - (pos + 1)) (pos + 1)) with
      | some (cur, t) =>
        .ret (.recovered
          { repairs := [makeSkip ins t (cur + 1) (ctx.updateLoc stream (cur + 1)) loc
                          (cur - pos)],
            minPrio := some (cur - pos), loc := loc })
      | none => .ret (.error { loc := loc })

/-- Models `satisfy`, `core/sequence.py:89-90`. -/
def satisfyFns (test : τ → Except Exn Bool) : ParseFns τ τ :=
  ⟨satisfyFast test, satisfyFn test⟩

/-- `t = stream[pos]; if t == s` guarded by `pos < len(stream)`, `core/sequence.py:97-99`,
`:110-112`, `:121-123`. `==` is the token type's own equality. -/
def symAt [BEq τ] (s : τ) (stream : List τ) (pos : Nat) : Option τ :=
  match stream[pos]? with
  | none => none
  | some t => if t == s then some t else none

/-- Models `_sym_fast`, `core/sequence.py:93-103`. -/
def symFast [BEq τ] (s : τ) (expected : List String) : FastFn τ τ := fun stream pos ctx =>
  match symAt s stream pos with
  | some t => .ret (.ok { value := t, pos := pos + 1, ctx := ctx, expected := [],
                          consumed := true })
  | none => .ret (.error { loc := ctx.getLoc stream pos, expected := expected })

/-- Models `_sym`, `core/sequence.py:106-134`. (`if rem:` is `rem != 0`.) -/
def symFn [BEq τ] (s : τ) (label : String) (expected : List String) : Fn τ τ :=
  fun stream pos ctx ins rem =>
  match symAt s stream pos with
  | some t => .ret (.ok { value := t, pos := pos + 1, ctx := ctx, expected := [],
                          consumed := true })
  | none =>
    match rem with
    | none => .ret (.error { loc := ctx.getLoc stream pos, expected := expected })
    | some rem => do
      let loc := ctx.getLoc stream pos
      let reps := if rem ≠ 0 then [makeInsert rem s pos ctx loc label expected] else []
      match ← Out.ofExcept (scan (fun cur => .ok (symAt s stream cur))
          (stream.length - (pos + 1)) (pos + 1)) with
      | some (cur, t) =>
        .ret (.recovered
          { repairs := reps ++ [makeSkip ins t (cur + 1) (ctx.updateLoc stream (cur + 1)) loc
                                  (cur - pos) expected],
            minPrio := some (cur - pos), loc := loc, expected := expected })
      | none =>
        .ret (.recovered { repairs := reps, minPrio := none, loc := loc, expected := expected })

/-- Models `sym`, `core/sequence.py:137-144`. `label` is the label argument or `repr(s)`;
`repr` is not modelled. -/
def symFns [BEq τ] (s : τ) (label : String) : ParseFns τ τ :=
  ⟨symFast s [label], symFn s label [label]⟩

/-! ### `core/scannerless.py` -/

/-- `stream.startswith(s, pos)`, `core/scannerless.py:29,44,54`, on lists (a `str` is the list
of its characters). -/
def startsWith [BEq τ] (s stream : List τ) (pos : Nat) : Bool :=
  s.isPrefixOf (stream.drop pos)

/-- Models `_literal_fast`, `core/scannerless.py:23-33`. -/
def literalFast [BEq τ] (s : List τ) (expected : List String) : FastFn τ (List τ) :=
  fun stream pos ctx =>
  if startsWith s stream pos then
    .ret (.ok { value := s, pos := pos + s.length,
                ctx := ctx.updateLoc stream (pos + s.length), expected := [],
                consumed := true })
  else .ret (.error { loc := ctx.getLoc stream pos, expected := expected })

/-- Models `_literal`, `core/scannerless.py:36-65`. -/
def literalFn [BEq τ] (s : List τ) (ss : String) (expected : List String) : Fn τ (List τ) :=
  fun stream pos ctx ins rem =>
  if startsWith s stream pos then
    .ret (.ok { value := s, pos := pos + s.length,
                ctx := ctx.updateLoc stream (pos + s.length), expected := [],
                consumed := true })
  else match rem with
    | none => .ret (.error { loc := ctx.getLoc stream pos, expected := expected })
    | some rem => do
      let loc := ctx.getLoc stream pos
      let reps := if rem ≠ 0 then [makeInsert rem s pos ctx loc ss expected] else []
      match ← Out.ofExcept (scan
          (fun cur => .ok (if startsWith s stream cur then some () else none))
          (stream.length - (pos + 1)) (pos + 1)) with
      | some (cur, _) =>
        .ret (.recovered
          { repairs := reps ++ [makeSkip ins s (cur + s.length)
                                  (ctx.updateLoc stream (cur + s.length)) loc
                                  (cur - pos) expected],
            minPrio := some (cur - pos), loc := loc, expected := expected })
      | none =>
        .ret (.recovered { repairs := reps, minPrio := none, loc := loc, expected := expected })

/-- Models the functions built by `literal`, `core/scannerless.py:68-72`, for a non-empty `s`
(see `literal?` in `Model/Parser.lean` for the check). `ss` is `repr(s)`. -/
def literalFns [BEq τ] (s : List τ) (ss : String) : ParseFns τ (List τ) :=
  ⟨literalFast s [ss], literalFn s ss [ss]⟩

/-- What is assumed about a compiled regular expression together with a group:
`pat.match(stream, pos=pos)` is `run stream pos`: no match, or a match ending at some index,
for which `r.group(group)` gives a string, gives `None`, or raises (no such group).
Python's `re` is not modelled; `bounds` is the only thing assumed of it: a match found at
`pos` lies within the string. -/
structure Matcher (τ β : Type) where
  run : List τ → Nat → Option (Nat × Except Exn (Option β))
  bounds : ∀ stream pos e v, pos ≤ stream.length → run stream pos = some (e, v) →
    pos ≤ e ∧ e ≤ stream.length

/-- `r = match(stream, pos=pos)`, `v = r.group(group)`, `end = r.end()`,
`core/scannerless.py:80-84`, `:97-101`, `:108-112`. -/
def Matcher.at (m : Matcher τ β) (stream : List τ) (pos : Nat) :
    Except Exn (Option (Nat × β)) :=
  match m.run stream pos with
  | none => .ok none
  | some (_, .error e) => .error e
  | some (_, .ok none) => .ok none
  | some (e, .ok (some v)) => .ok (some (e, v))

/-- Models `_regexp_fast`, `core/scannerless.py:75-88`. -/
def regexpFast (m : Matcher τ β) : FastFn τ β := fun stream pos ctx => do
  match ← Out.ofExcept (m.at stream pos) with
  | some (e, v) =>
    .ret (.ok { value := v, pos := e, ctx := ctx.updateLoc stream e, expected := [],
                consumed := decide (e ≠ pos) })
  | none => .ret (.error { loc := ctx.getLoc stream pos })

/-- Models `_regexp`, `core/scannerless.py:91-124`. -/
def regexpFn (m : Matcher τ β) : Fn τ β := fun stream pos ctx ins rem => do
  match ← Out.ofExcept (m.at stream pos) with
  | some (e, v) =>
    .ret (.ok { value := v, pos := e, ctx := ctx.updateLoc stream e, expected := [],
                consumed := decide (e ≠ pos) })
  | none =>
    match rem with
    | none => .ret (.error { loc := ctx.getLoc stream pos })
    | some _ =>
      let loc := ctx.getLoc stream pos
      match ← Out.ofExcept (scan (m.at stream) (stream.length - (pos + 1)) (pos + 1)) with
      | some (cur, (e, v)) =>
        .ret (.recovered
          { repairs := [makeSkip ins v e (ctx.updateLoc stream e) loc (cur - pos)],
            minPrio := some (cur - pos), loc := loc })
      | none => .ret (.error { loc := loc })

/-- Models `regexp`, `core/scannerless.py:127-129`. -/
def regexpFns (m : Matcher τ β) : ParseFns τ β := ⟨regexpFast m, regexpFn m⟩

end Reparsec
