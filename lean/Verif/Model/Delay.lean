import Verif.Model.Parser

/-!
# `Delay` objects as they are used by a program

Models `Delay`, `parser.py:740-806`, with its state: `define` may be called at any time, before or
after other parsers have been built from the `Delay` object.  A parser object keeps the functions
its parts had when it was built (`FnParser(combinators.xxx(parser.to_fns(), ...))`); `to_fns` of a
`Delay` object gives its bound methods, which look up the definition when they are called, before it
is defined, and the functions of the definition themselves after that.

In `Model/Parser.lean`, a `Delay` object is `.ref i`, looked up when it is run; `Props/Delay.lean`
proves that this describes every program.
-/

namespace Reparsec

variable {τ ρ : Type} {Γ : ρ → Type} {α β γ : Type}

/-- The state of the `Delay` objects, `parser.py:765-766,790-791`: `some c` if `_defined`, where `c`
describes the functions in `_fns`; a `.ref` in `c` stands for bound methods. -/
abbrev Store (τ ρ : Type) (Γ : ρ → Type) := (i : ρ) → Option (P τ ρ Γ (Γ i))

/-- Parser objects: `FnParser` and its siblings (`parser.py:485-507`), which keep functions, and
`Delay` objects. -/
inductive Obj (τ ρ : Type) (Γ : ρ → Type) : Type → Type 1
  | fn {α : Type} (c : P τ ρ Γ α) : Obj τ ρ Γ α
  | delay (i : ρ) : Obj τ ρ Γ (Γ i)

/-- Models `to_fns`: `core/parser.py:46-47`, `parser.py:485-502`, and `Delay.to_fns`,
`parser.py:803-806`. -/
def Obj.toFns (σ : Store τ ρ Γ) : {α : Type} → Obj τ ρ Γ α → P τ ρ Γ α
  | _, .fn c => c
  | _, .delay i =>
    match σ i with
    | some c => c
    | none => .ref i

/-- Models `parse_fast_fn` and `parse_fn`: `parser.py:492-502`, and those of `Delay`,
`parser.py:793-801`, which look up `_fns` now. -/
def Obj.call : {α : Type} → Obj τ ρ Γ α → P τ ρ Γ α
  | _, .fn c => c
  | _, .delay i => .ref i

/-- The functions made by `Delay.__init__`, `parser.py:754-766`. -/
def undefinedP : P τ ρ Γ α := .pureFn (.error undefinedExn)

/-- Assignment to the fields of one `Delay` object. -/
def Store.set [DecidableEq ρ] (σ : Store τ ρ Γ) (i : ρ) (c : P τ ρ Γ (Γ i)) : Store τ ρ Γ := fun j =>
  if h : i = j then some (h ▸ c) else σ j

/-- The exception at `parser.py:789`. -/
def alreadyDefinedExn : Exn := .runtimeError "Delayed parser was already defined"

/-- Models `Delay.define`, `parser.py:768-791`. `_defined` is set before `parser.to_fns()` is called
(`:790-791`), while `_fns` is still what `__init__` made. -/
def define [DecidableEq ρ] (σ : Store τ ρ Γ) (i : ρ) (o : Obj τ ρ Γ (Γ i)) :
    Except Exn (Store τ ρ Γ) :=
  if (σ i).isSome then .error alreadyDefinedExn
  else
    let σ' := σ.set i undefinedP
    .ok (σ'.set i (o.toFns σ'))

/-- What a program has at some moment: parser objects, each with the expression that made it. -/
abbrev Objects (τ ρ : Type) (Γ : ρ → Type) := (α : Type) → P τ ρ Γ α → Obj τ ρ Γ α → Prop

/-- What `to_fns` has returned: functions, each with the expression of the object it was called
on. -/
abbrev Captures (τ ρ : Type) (Γ : ρ → Type) := (α : Type) → P τ ρ Γ α → P τ ρ Γ α → Prop

/-- `Builds R K e o`: with the functions `R` of its parts and the objects `K` at hand, one call of
the API builds the object `o` for the expression `e` (`parser.py:809-1029`, `primitive.py`,
`sequence.py`, `scannerless.py`, `layout.py`). -/
inductive Builds (R : Captures τ ρ Γ) (K : Objects τ ρ Γ) :
    {α : Type} → P τ ρ Γ α → Obj τ ρ Γ α → Prop
  /-- `Delay()` -/
  | delay (i : ρ) : Builds R K (.ref i) (.delay i)
  | pure {α : Type} (x : α) : Builds R K (.pure x) (.fn (.pure x))
  | pureFn {α : Type} (x : Except Exn α) : Builds R K (.pureFn x) (.fn (.pureFn x))
  | unexpected (x : String) : Builds R K (.unexpected x) (.fn (.unexpected x))
  | eof : Builds R K .eof (.fn .eof)
  | satisfy (test : τ → Except Exn Bool) : Builds R K (.satisfy test) (.fn (.satisfy test))
  | sym (s : τ) (l : String) : Builds R K (.sym s l) (.fn (.sym s l))
  | literal (s : List τ) (ss : String) (h : s ≠ []) :
      Builds R K (.literal s ss h) (.fn (.literal s ss h))
  | regexp {β : Type} (m : Matcher τ β) : Builds R K (.regexp m) (.fn (.regexp m))
  | fmap {α β : Type} {e : P τ ρ Γ α} {c} (fn : α → Except Exn β) : R _ e c →
      Builds R K (.fmap e fn) (.fn (.fmap c fn))
  | alt {α : Type} {e e' : P τ ρ Γ α} {c c'} : R _ e c → R _ e' c' →
      Builds R K (.alt e e') (.fn (.alt c c'))
  /-- The callback returns an object the program already has, or makes a new one when it is called;
  simplification: in a new one, `Delay` objects are looked up when they are run. -/
  | bind {α β : Type} {e : P τ ρ Γ α} {c} {k : α → P τ ρ Γ β} {ko : α → Obj τ ρ Γ β} : R _ e c →
      (∀ a, K _ (k a) (ko a) ∨ ko a = .fn (k a)) →
      Builds R K (.bind e k) (.fn (.bind c fun a => (ko a).call))
  | seqWith {α β γ : Type} {e : P τ ρ Γ α} {e' : P τ ρ Γ β} {c c'} (m : α → β → γ) :
      R _ e c → R _ e' c' → Builds R K (.seqWith e e' m) (.fn (.seqWith c c' m))
  | maybe {α : Type} {e : P τ ρ Γ α} {c} : R _ e c →
      Builds R K (.maybe e) (.fn (.maybe c))
  | many {α : Type} {e : P τ ρ Γ α} {c} : R _ e c → Builds R K (.many e) (.fn (.many c))
  | attempt {α : Type} {e : P τ ρ Γ α} {c} : R _ e c →
      Builds R K (.attempt e) (.fn (.attempt c))
  | label {α : Type} {e : P τ ρ Γ α} {c} (x : String) : R _ e c →
      Builds R K (.label e x) (.fn (.label c x))
  | recover {α : Type} {e : P τ ρ Γ α} {c} : R _ e c →
      Builds R K (.recover e) (.fn (.recover c))
  | recoverWith {α : Type} {e : P τ ρ Γ α} {c} (x : α) (vs : String) : R _ e c →
      Builds R K (.recoverWith e x vs) (.fn (.recoverWith c x vs))
  | recoverWithFn {α : Type} {e : P τ ρ Γ α} {c} (fn : List τ → Nat → Except Exn α)
      (lbl : α → String) : R _ e c →
      Builds R K (.recoverWithFn e fn lbl) (.fn (.recoverWithFn c fn lbl))
  | block {α : Type} {e : P τ ρ Γ α} {c} : R _ e c →
      Builds R K (.block e) (.fn (.block c))
  | aligned {α : Type} {e : P τ ρ Γ α} {c} : R _ e c →
      Builds R K (.aligned e) (.fn (.aligned c))
  | indented {α : Type} {e : P τ ρ Γ α} {c} (d : Int) : R _ e c →
      Builds R K (.indented d e) (.fn (.indented d c))

/-- The objects `K` and one more. -/
inductive WithObj (K : Objects τ ρ Γ) {β : Type} (e' : P τ ρ Γ β) (o' : Obj τ ρ Γ β) :
    (α : Type) → P τ ρ Γ α → Obj τ ρ Γ α → Prop
  | old {α : Type} {e : P τ ρ Γ α} {o : Obj τ ρ Γ α} : K _ e o → WithObj K e' o' α e o
  | new : WithObj K e' o' β e' o'

/-- What `to_fns` returns now, for the objects a program has. -/
def Objects.fns (K : Objects τ ρ Γ) (σ : Store τ ρ Γ) : Captures τ ρ Γ := fun _ e c =>
  ∃ o, K _ e o ∧ c = o.toFns σ

/-- The states a program can reach by calls of the API: the state of the `Delay` objects, the
expression each `Delay` object was defined by, and the parser objects the program has. -/
inductive Reach [DecidableEq ρ] : Store τ ρ Γ → Env τ ρ Γ → Objects τ ρ Γ → Prop
  | start : Reach (fun _ => none) (fun _ => none) (fun _ _ _ => False)
  | build {σ : Store τ ρ Γ} {D : Env τ ρ Γ} {K : Objects τ ρ Γ} {α : Type} {e : P τ ρ Γ α} {o} :
      Reach σ D K → Builds (K.fns σ) K e o → Reach σ D (WithObj K e o)
  /-- A call of `define` that returns. `e.define(e)` is left out, see `C21_define_itself`. -/
  | define {σ σ' : Store τ ρ Γ} {D : Env τ ρ Γ} {K : Objects τ ρ Γ} {i : ρ} {e : P τ ρ Γ (Γ i)}
      {o : Obj τ ρ Γ (Γ i)} : Reach σ D K → K _ e o → o ≠ .delay i → define σ i o = .ok σ' →
      Reach σ' (Store.set D i e) K

end Reparsec
