import Verif.Model.Delay
import Verif.Model.Effects

/-!
# `Delay.define` step by step

`Model/Delay.lean` takes a call of `Delay.define` to be one step. In Python it is several
(`parser.py:788-791`): `self._defined` is read, assigned to, `parser.to_fns()` is called, `self._fns`
is assigned to. Between two of these other threads may run, or the call may be interrupted for good (by an
exception from a signal handler, say). Here each access to an attribute of a `Delay` object is a step of
its own, and while a parser is running, the `Delay` objects may change under it.
-/

namespace Reparsec.Race

variable {τ ρ : Type} {Γ : ρ → Type} {α : Type}

/-- The attributes of the `Delay` objects: `_defined` and `_fns`, `parser.py:765-766`. A `.ref` in
`fns i` stands for bound methods, as in `Model/Delay.lean`. -/
structure Delays (τ ρ : Type) (Γ : ρ → Type) where
  defined : ρ → Bool
  fns : (i : ρ) → P τ ρ Γ (Γ i)

/-- After `Delay()`, `parser.py:754-766`. -/
def Delays.init : Delays τ ρ Γ := ⟨fun _ => false, fun _ => undefinedP⟩

/-- `self._defined = True`, `parser.py:790`. -/
def Delays.mark [DecidableEq ρ] (S : Delays τ ρ Γ) (i : ρ) : Delays τ ρ Γ :=
  { S with defined := fun j => if j = i then true else S.defined j }

/-- `self._fns = c`, `parser.py:791`. -/
def Delays.assign [DecidableEq ρ] (S : Delays τ ρ Γ) (i : ρ) (c : P τ ρ Γ (Γ i)) : Delays τ ρ Γ :=
  { S with fns := fun j => if h : i = j then h ▸ c else S.fns j }

/-- Models `to_fns`, `core/parser.py:46-47`, `parser.py:485-502` and `Delay.to_fns`,
`parser.py:803-806`. The latter reads `_defined` and then perhaps `_fns`; that these are two steps
makes no difference, as `_defined` never becomes false again. -/
def toFns (S : Delays τ ρ Γ) : {α : Type} → Obj τ ρ Γ α → P τ ρ Γ α
  | _, .fn c => c
  | _, .delay i => if S.defined i then S.fns i else .ref i

/-- What a thread is doing. -/
inductive Call (τ ρ : Type) (Γ : ρ → Type) where
  /-- It is not in a call of `define`. It may be in a call of a function that builds a parser: `R` are the
  functions of parts it has got so far. -/
  | build (R : Captures τ ρ Γ)
  /-- In `i.define(o)`, after the check (`parser.py:788`). -/
  | checked (i : ρ) (o : Obj τ ρ Γ (Γ i))
  /-- In `i.define(o)`, after `self._defined = True` (`parser.py:790`). -/
  | marked (i : ρ) (o : Obj τ ρ Γ (Γ i))
  /-- In `i.define(o)`, `o.to_fns()` has returned `c` (`parser.py:791`). -/
  | got (i : ρ) (c : P τ ρ Γ (Γ i))

/-- The functions of parts when the thread begins to build a parser. -/
def noCaptures : Captures τ ρ Γ := fun _ _ _ => False

/-- The functions `R` and one more. -/
inductive WithFns (R : Captures τ ρ Γ) {β : Type} (e' c' : P τ ρ Γ β) :
    (α : Type) → P τ ρ Γ α → P τ ρ Γ α → Prop
  | old {α : Type} {e c : P τ ρ Γ α} : R _ e c → WithFns R e' c' α e c
  | new : WithFns R e' c' β e' c'

/-- One step of a thread. `D` says which expression each `Delay` object is defined by: it is assumed that
all calls of `define` for the same `Delay` object (more than one may be successful if they run at the
same time) pass objects that were built from the same expression. `may o` says that `to_fns` of `o` may
be called now; see `Spec/Race.lean`. -/
inductive Move [DecidableEq ρ] (D : Env τ ρ Γ) (may : {α : Type} → Obj τ ρ Γ α → Prop) : Delays τ ρ Γ → Objects τ ρ Γ → Call τ ρ Γ →
    Delays τ ρ Γ → Objects τ ρ Γ → Call τ ρ Γ → Prop
  /-- `o.to_fns()` -/
  | part {S K R} {α : Type} {e : P τ ρ Γ α} {o : Obj τ ρ Γ α} : K _ e o → may o →
      Move D may S K (.build R) S K (.build (WithFns R e (toFns S o)))
  /-- The function that builds a parser returns. -/
  | made {S K R} {α : Type} {e : P τ ρ Γ α} {o : Obj τ ρ Γ α} : Builds R K e o →
      Move D may S K (.build R) S (WithObj K e o) (.build noCaptures)
  /-- `i.define(o)` raises "already defined", `parser.py:788-789`. -/
  | refused {S K R} {i : ρ} : S.defined i = true → Move D may S K (.build R) S K (.build noCaptures)
  /-- `i.define(o)` goes on, `parser.py:788`. -/
  | check {S K R} {i : ρ} {e : P τ ρ Γ (Γ i)} {o : Obj τ ρ Γ (Γ i)} : D i = some e → K _ e o →
      S.defined i = false → Move D may S K (.build R) S K (.checked i o)
  /-- `parser.py:790` -/
  | mark {S K} {i : ρ} {o : Obj τ ρ Γ (Γ i)} : Move D may S K (.checked i o) (S.mark i) K (.marked i o)
  /-- `parser.to_fns()`, `parser.py:791` -/
  | get {S K} {i : ρ} {o : Obj τ ρ Γ (Γ i)} : may o →
      Move D may S K (.marked i o) S K (.got i (toFns S o))
  /-- `self._fns = ...`, `parser.py:791` -/
  | assign {S K} {i : ρ} {c : P τ ρ Γ (Γ i)} :
      Move D may S K (.got i c) (S.assign i c) K (.build noCaptures)

/-! ### Running a parser while `Delay` objects change -/

/-- A callback without side effects. -/
def steady {α β : Type} (f : α → Except Exn β) : Callback Nat α β := ⟨"", fun a st => (f a, st)⟩

/-- A parser of `Model/Parser.lean` as one of `Model/Effects.lean`. The state there will be the number
of times a bound method of a `Delay` object was called. -/
def embed : {α : Type} → P τ ρ Γ α → Eff.P Nat τ ρ Γ α
  | _, .pure x => .pure x
  | _, .pureFn x => .pureFn (steady fun _ => x)
  | _, .unexpected x => .unexpected x
  | _, .eof => .eof
  | _, .satisfy test => .satisfy (steady test)
  | _, .sym s l => .sym s l
  | _, .literal s ss h => .literal s ss h
  | _, .regexp m => .regexp m
  | _, .fmap p fn => .fmap (embed p) (steady fn)
  | _, .alt p q => .alt (embed p) (embed q)
  | _, .bind p k => .bind (embed p) (steady Except.ok) fun a => embed (k a)
  | _, .seqWith p q m => .seqWith (embed p) (embed q) m
  | _, .maybe p => .maybe (embed p)
  | _, .many p => .many (embed p)
  | _, .attempt p => .attempt (embed p)
  | _, .label p x => .label (embed p) x
  | _, .recover p => .recover (embed p)
  | _, .recoverWith p x vs => .recoverWith (embed p) x vs
  | _, .recoverWithFn p fn lbl => .recoverWithFn (embed p) (steady fun a => fn a.1 a.2) lbl
  | _, .block p => .block (embed p)
  | _, .aligned p => .aligned (embed p)
  | _, .indented d p => .indented d (embed p)
  | _, .ref i => .ref i

/-- The next moment a `Delay` object is looked up. -/
def tick (w : World Nat) : World Nat := ⟨w.state + 1, w.calls⟩

/-- The bound methods of the `Delay` objects, `parser.py:793-801`: they read `self._fns` when they are
called. `seen n` is what the `Delay` objects are like when such a method is called for the `n`-th
time in this run. -/
def table [BEq τ] (seen : Nat → Delays τ ρ Γ) : (fuel : Nat) → (i : ρ) → Eff.ParseFns Nat τ (Γ i)
  | 0, _ => Eff.divergeFns
  | fuel + 1, i =>
    ⟨fun s pos ctx w =>
        (Eff.denoteWith fuel (table seen fuel) (embed ((seen w.state).fns i))).fast s pos ctx (tick w),
     fun s pos ctx ins rem w =>
        (Eff.denoteWith fuel (table seen fuel) (embed ((seen w.state).fns i))).fn s pos ctx ins rem
          (tick w)⟩

/-- The functions of a parser object. -/
def denote [BEq τ] (seen : Nat → Delays τ ρ Γ) (fuel : Nat) (p : P τ ρ Γ α) : Eff.ParseFns Nat τ α :=
  Eff.denoteWith fuel (table seen fuel) (embed p)

/-- Forget the world. -/
def outcome {σ β : Type} : Run σ β → Out β
  | .diverge => .diverge
  | .raise e _ => .raise e
  | .ret a _ => .ret a

/-- Models `Parser.parse`, `parser.py:30-55`, of a parser object. -/
def parse [BEq τ] (seen : Nat → Delays τ ρ Γ) (fuel : Nat) (o : Obj τ ρ Γ α) (stream : List τ)
    (recover : Bool) (maxInsertions : Int) (getLoc : Loc → List τ → Nat → Loc) :
    Out (Result τ α) :=
  if recover then
    outcome ((denote seen fuel o.call).fn stream 0 (initCtx getLoc) maxInsertions
      (some maxInsertions) ⟨0, []⟩)
  else
    (outcome ((denote seen fuel o.call).fast stream 0 (initCtx getLoc) ⟨0, []⟩)).bind fun r =>
      .ret r.toResult

end Reparsec.Race
