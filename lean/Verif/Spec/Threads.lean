import Verif.Model.Threads
import Verif.Spec.Run

/-!
# Threads

Any number of threads run `Parser.parse` at the same time, on the same or different parser objects. They
share one memory. In each step some thread does one access to an object (`Model/Threads.lean`); nothing is
assumed about who is next, or that a thread goes on at all. A thread that is interrupted by an exception
from outside (`KeyboardInterrupt`, `MemoryError`, `RecursionError`, a signal handler that raises) is a
thread that takes no further steps.

Elements have the same type `τ` in all threads (Python has only one type of values), the types of results
may differ.
-/

namespace Reparsec.Thr

open Heaped (HOp HRepair HOk HErr HRecovered HResult)

variable {τ α : Type}

/-- The objects there are: for each class and address, the attributes of the object there, if any. -/
abbrev Store (τ : Type) : Type := (c : Cls) → Nat → Option (Cell τ c)

/-- The memory with the attributes of one object replaced (or one object added). -/
def Store.put (S : Store τ) (c : Cls) (a : Nat) (x : Cell τ c) : Store τ := fun c' b =>
  if h : c = c' then if b = a then some (h ▸ x) else S c' b else S c' b

/-- One step of one thread: a new object is put at some free address; an attribute of an object that
exists is read; or assigned to. -/
inductive OpStep : Store τ → Prog τ α → Store τ → Prog τ α → Prop where
  | new {S : Store τ} {c x k} (a : Nat) : S c a = none →
      OpStep S (.new c x k) (S.put c a x) (k a)
  | get {S : Store τ} {c a k x} : S c a = some x → OpStep S (.get c a k) S (k x)
  | set {S : Store τ} {c a f k x} : S c a = some x →
      OpStep S (.set c a f k) (S.put c a (f x)) k

/-- A call of `Parser.parse`: a grammar, a parser, an input, options. `fuel` as in `parse`. -/
structure Job (τ : Type) where
  {ρ : Type}
  {Γ : ρ → Type}
  {α : Type}
  env : Env τ ρ Γ
  p : P τ ρ Γ α
  stream : List τ
  opts : Opts τ
  fuel : Nat

/-- The code a thread runs. -/
def Job.code [BEq τ] (j : Job τ) : Prog τ (HResult j.α) :=
  Thr.parse j.env j.fuel j.p j.stream j.opts.recover j.opts.maxInsertions j.opts.getLoc

/-- What the call does when there is nothing else in the world. -/
def Job.outcome [BEq τ] (j : Job τ) : Out (Result τ j.α) :=
  Reparsec.parse j.env j.fuel j.p j.stream j.opts.recover j.opts.maxInsertions j.opts.getLoc

variable {ι : Type}

/-- The memory, and what each thread has still to do. -/
structure State (jobs : ι → Job τ) where
  store : Store τ
  thread : (t : ι) → Prog τ (HResult (jobs t).α)

/-- Thread `t` takes a step. -/
def Step {jobs : ι → Job τ} (t : ι) (st st' : State jobs) : Prop :=
  OpStep st.store (st.thread t) st'.store (st'.thread t) ∧
    ∀ u, u ≠ t → st'.thread u = st.thread u

/-- The threads are about to start. -/
def start [BEq τ] (jobs : ι → Job τ) (S : Store τ) : State jobs := ⟨S, fun t => (jobs t).code⟩

/-- The states that can come about, whatever the order of the steps. -/
inductive Reachable [BEq τ] (jobs : ι → Job τ) (S : Store τ) : State jobs → Prop where
  | start : Reachable jobs S (start jobs S)
  | step {st st' : State jobs} (t : ι) : Reachable jobs S st → Step t st st' →
      Reachable jobs S st'

/-- An execution that goes on forever; `who n` takes the step number `n`. -/
def Endless [BEq τ] (jobs : ι → Job τ) (S : Store τ) (run : Nat → State jobs) (who : Nat → ι) :
    Prop :=
  run 0 = start jobs S ∧ ∀ n, Step (who n) (run n) (run (n + 1))

/-- There is room: only finitely many addresses are taken. -/
def Store.Room (S : Store τ) : Prop := ∃ N, ∀ c a, N ≤ a → S c a = none

/-! ### Looking at a result -/

/-- The attributes of an `OpItem`, as they are in the memory `S`. -/
def lookOp (S : Store τ) (o : HOp) : Option OpItem :=
  match S .op o.addr with
  | some c => some { op := o.op, loc := o.loc, expected := c.expected, consumed := c.consumed }
  | none => none

/-- All of a list. -/
def lookAll {α β : Type} (f : α → Option β) : List α → Option (List β)
  | [] => some []
  | x :: xs =>
    match f x, lookAll f xs with
    | some y, some ys => some (y :: ys)
    | _, _ => none

/-- The attributes of a `Repair`. -/
def lookRepair (S : Store τ) (r : HRepair α) : Option (Repair τ α) :=
  match S .rep r.addr, lookAll (lookOp S) r.ops with
  | some c, some ops =>
    some { cost := r.cost, prio := c.prio, ins := r.ins, ops := ops, value := r.value,
           pos := r.pos, ctx := c.ctx, expected := c.expected, consumed := c.consumed }
  | _, _ => none

/-- The attributes of a result, of its repairs, and of their operations. -/
def look (S : Store τ) : HResult α → Option (Result τ α)
  | .ok r =>
    match S .ok r.addr with
    | some c => some (.ok { value := r.value, pos := r.pos, ctx := c.ctx,
                            expected := c.expected, consumed := c.consumed })
    | none => none
  | .error e =>
    match S .fail e.addr with
    | some c => some (.error { loc := e.loc, expected := c.expected, consumed := c.consumed })
    | none => none
  | .recovered r =>
    match S .fail r.addr, lookAll (lookRepair S) r.repairs with
    | some c, some reps =>
      some (.recovered { repairs := reps, minPrio := r.minPrio, loc := r.loc,
                         expected := c.expected, consumed := c.consumed })
    | _, _ => none

/-- Nothing more to do: returned, raised, or out of fuel. -/
def Finished : Prog τ α → Prop
  | .ret _ => True
  | .raise _ => True
  | .diverge => True
  | _ => False

end Reparsec.Thr
