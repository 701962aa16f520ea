import Verif.Model.Effects
import Verif.Spec.Run

/-!
# Parsing with callbacks that have side effects, without mentioning fuel

`w` is the world when `parse` is called (the user's state, and the calls of callbacks so far), `w'`
the world when it ends.
-/

namespace Reparsec

namespace Eff

variable {σ τ ρ : Type} {Γ : ρ → Type} {α β : Type} [BEq τ]

/-- `p.parse(s, ..)`, called in world `w`, returns `r` and leaves the world `w'`. -/
def Returns (env : Env σ τ ρ Γ) (p : P σ τ ρ Γ α) (s : List τ) (o : Opts τ) (w : World σ)
    (r : Result τ α) (w' : World σ) : Prop :=
  ∃ fuel, parse env fuel p s o.recover o.maxInsertions o.getLoc w = .ret r w'

/-- `p.parse(s, ..)`, called in world `w`, raises `e` and leaves the world `w'`. -/
def Raises (env : Env σ τ ρ Γ) (p : P σ τ ρ Γ α) (s : List τ) (o : Opts τ) (w : World σ)
    (e : Exn) (w' : World σ) : Prop :=
  ∃ fuel, parse env fuel p s o.recover o.maxInsertions o.getLoc w = .raise e w'

/-- `p.parse(s, ..)`, called in world `w`, does not return. -/
def Hangs (env : Env σ τ ρ Γ) (p : P σ τ ρ Γ α) (s : List τ) (o : Opts τ) (w : World σ) : Prop :=
  ∀ fuel, parse env fuel p s o.recover o.maxInsertions o.getLoc w = .diverge

/-- What the callback returns or raises does not depend on the state. -/
def Steady (c : Callback σ α β) : Prop := ∀ a st st', (c.run a st).1 = (c.run a st').1

omit [BEq τ] in
/-- What the callbacks of the parser return or raise does not depend on the state. (They may write
to the state: logs, counters, tables that are read after parsing, ...) -/
inductive AllSteady : {α : Type} → P σ τ ρ Γ α → Prop
  | pure {α : Type} {x : α} : AllSteady (.pure x)
  | pureFn {α : Type} {c : Callback σ Unit α} : Steady c → AllSteady (.pureFn c)
  | unexpected {x : String} : AllSteady (.unexpected x)
  | eof : AllSteady .eof
  | satisfy {c : Callback σ τ Bool} : Steady c → AllSteady (.satisfy c)
  | sym {x : τ} {l : String} : AllSteady (.sym x l)
  | literal {x : List τ} {ss : String} {h : x ≠ []} : AllSteady (.literal x ss h)
  | regexp {β : Type} {m : Matcher τ β} : AllSteady (.regexp m)
  | fmap {α β : Type} {p : P σ τ ρ Γ α} {c : Callback σ α β} : AllSteady p → Steady c →
      AllSteady (.fmap p c)
  | alt {α : Type} {p q : P σ τ ρ Γ α} : AllSteady p → AllSteady q → AllSteady (.alt p q)
  | bind {α ι β : Type} {p : P σ τ ρ Γ α} {c : Callback σ α ι} {k : ι → P σ τ ρ Γ β} :
      AllSteady p → Steady c → (∀ i, AllSteady (k i)) → AllSteady (.bind p c k)
  | seqWith {α β γ : Type} {p : P σ τ ρ Γ α} {q : P σ τ ρ Γ β} {merge : α → β → γ} :
      AllSteady p → AllSteady q → AllSteady (.seqWith p q merge)
  | maybe {α : Type} {p : P σ τ ρ Γ α} : AllSteady p → AllSteady (.maybe p)
  | many {α : Type} {p : P σ τ ρ Γ α} : AllSteady p → AllSteady (.many p)
  | attempt {α : Type} {p : P σ τ ρ Γ α} : AllSteady p → AllSteady (.attempt p)
  | label {α : Type} {p : P σ τ ρ Γ α} {x : String} : AllSteady p → AllSteady (.label p x)
  | recover {α : Type} {p : P σ τ ρ Γ α} : AllSteady p → AllSteady (.recover p)
  | recoverWith {α : Type} {p : P σ τ ρ Γ α} {x : α} {vs : String} : AllSteady p →
      AllSteady (.recoverWith p x vs)
  | recoverWithFn {α : Type} {p : P σ τ ρ Γ α} {c : Callback σ (List τ × Nat) α}
      {lbl : α → String} : AllSteady p → Steady c → AllSteady (.recoverWithFn p c lbl)
  | block {α : Type} {p : P σ τ ρ Γ α} : AllSteady p → AllSteady (.block p)
  | aligned {α : Type} {p : P σ τ ρ Γ α} : AllSteady p → AllSteady (.aligned p)
  | indented {α : Type} {d : Int} {p : P σ τ ρ Γ α} : AllSteady p → AllSteady (.indented d p)
  | ref {i : ρ} : AllSteady (.ref i)

/-- Also the callbacks of all recursive definitions. -/
def EnvSteady (env : Env σ τ ρ Γ) : Prop := ∀ i p, env i = some p → AllSteady p

/-- A callback as a function: what it does in the state `st`. -/
def plainFn (st : σ) (c : Callback σ α β) : α → Except Exn β := fun a => (c.run a st).1

/-- The same parser, its callbacks taken as functions (what they do in the state `st`). -/
def erase (st : σ) : {α : Type} → P σ τ ρ Γ α → Reparsec.P τ ρ Γ α
  | _, .pure x => .pure x
  | _, .pureFn c => .pureFn (plainFn st c ())
  | _, .unexpected x => .unexpected x
  | _, .eof => .eof
  | _, .satisfy c => .satisfy (plainFn st c)
  | _, .sym x l => .sym x l
  | _, .literal x ss h => .literal x ss h
  | _, .regexp m => .regexp m
  | _, .fmap p c => .fmap (erase st p) (plainFn st c)
  | _, .alt p q => .alt (erase st p) (erase st q)
  | _, .bind p c k => .bind (erase st p) fun a =>
      match plainFn st c a with
      | .ok i => erase st (k i)
      | .error e => .pureFn (.error e)
  | _, .seqWith p q merge => .seqWith (erase st p) (erase st q) merge
  | _, .maybe p => .maybe (erase st p)
  | _, .many p => .many (erase st p)
  | _, .attempt p => .attempt (erase st p)
  | _, .label p x => .label (erase st p) x
  | _, .recover p => .recover (erase st p)
  | _, .recoverWith p x vs => .recoverWith (erase st p) x vs
  | _, .recoverWithFn p c lbl => .recoverWithFn (erase st p) (fun s i => plainFn st c (s, i)) lbl
  | _, .block p => .block (erase st p)
  | _, .aligned p => .aligned (erase st p)
  | _, .indented d p => .indented d (erase st p)
  | _, .ref i => .ref i

/-- The same for the recursive definitions. -/
def eraseEnv (st : σ) (env : Env σ τ ρ Γ) : Reparsec.Env τ ρ Γ := fun i => (env i).map (erase st)

/-- A function as a callback without side effects. -/
def quiet (f : α → Except Exn β) : Callback Unit α β := ⟨"", fun a _ => (f a, ())⟩

/-- A parser whose callbacks are functions, as a parser with callbacks. -/
def ofP : {α : Type} → Reparsec.P τ ρ Γ α → P Unit τ ρ Γ α
  | _, .pure x => .pure x
  | _, .pureFn x => .pureFn (quiet fun _ => x)
  | _, .unexpected x => .unexpected x
  | _, .eof => .eof
  | _, .satisfy f => .satisfy (quiet f)
  | _, .sym x l => .sym x l
  | _, .literal x ss h => .literal x ss h
  | _, .regexp m => .regexp m
  | _, .fmap p f => .fmap (ofP p) (quiet f)
  | _, .alt p q => .alt (ofP p) (ofP q)
  | _, .bind p k => .bind (ofP p) (quiet .ok) fun a => ofP (k a)
  | _, .seqWith p q merge => .seqWith (ofP p) (ofP q) merge
  | _, .maybe p => .maybe (ofP p)
  | _, .many p => .many (ofP p)
  | _, .attempt p => .attempt (ofP p)
  | _, .label p x => .label (ofP p) x
  | _, .recover p => .recover (ofP p)
  | _, .recoverWith p x vs => .recoverWith (ofP p) x vs
  | _, .recoverWithFn p f lbl => .recoverWithFn (ofP p) (quiet fun a => f a.1 a.2) lbl
  | _, .block p => .block (ofP p)
  | _, .aligned p => .aligned (ofP p)
  | _, .indented d p => .indented d (ofP p)
  | _, .ref i => .ref i

/-- The same for the recursive definitions. -/
def ofEnv (env : Reparsec.Env τ ρ Γ) : Env Unit τ ρ Γ := fun i => (env i).map ofP

end Eff

end Reparsec
