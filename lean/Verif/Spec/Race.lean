import Verif.Model.Race
import Verif.Spec.Run

/-!
# Programs that define `Delay` objects in several threads

Any number of threads build parsers and define `Delay` objects, sharing all their objects. In each step
some thread does one access to a `Delay` object (`Model/Race.lean`); nothing is assumed about who is next,
or that a thread goes on at all. A thread that is interrupted takes no further steps.
-/

namespace Reparsec.Race

variable {τ ρ : Type} {Γ : ρ → Type} {α : Type} {ι : Type}

/-- The `Delay` objects, the parser objects there are, and what the threads are doing. -/
structure State (τ ρ : Type) (Γ : ρ → Type) (ι : Type) where
  delays : Delays τ ρ Γ
  objs : Objects τ ρ Γ
  call : ι → Call τ ρ Γ

/-- Nothing has been done. -/
def start : State τ ρ Γ ι := ⟨.init, fun _ _ _ => False, fun _ => .build noCaptures⟩

/-- Some thread is in `i.define(...)`, between the assignment to `_defined` and that to `_fns`. -/
def Halfway (st : State τ ρ Γ ι) (i : ρ) : Prop :=
  ∃ t, (∃ o, st.call t = .marked i o) ∨ ∃ c, st.call t = .got i c

/-- Some thread is in `i.define(...)`, after the check. -/
def Defining (st : State τ ρ Γ ι) (i : ρ) : Prop :=
  (∃ t o, st.call t = .checked i o) ∨ Halfway st i

/-- Which objects `to_fns` may be called on in a state. -/
abbrev Rule (τ ρ : Type) (Γ : ρ → Type) (ι : Type) :=
  State τ ρ Γ ι → {α : Type} → Obj τ ρ Γ α → Prop

/-- No restriction. -/
def anyhow : Rule τ ρ Γ ι := fun _ _ _ => True

/-- No parser is built from a `Delay` object while some thread is halfway through defining that. -/
def carefully : Rule τ ρ Γ ι := fun st {_} o =>
  match o with
  | .fn _ => True
  | .delay i => ¬ Halfway st i

/-- Thread `t` takes a step. -/
def Step [DecidableEq ρ] (D : Env τ ρ Γ) (may : Rule τ ρ Γ ι) (t : ι) (st st' : State τ ρ Γ ι) :
    Prop :=
  Move D (may st) st.delays st.objs (st.call t) st'.delays st'.objs (st'.call t) ∧
    ∀ u, u ≠ t → st'.call u = st.call u

/-- From `st` one gets to `st'` by steps of the threads in `T`, in any order. -/
inductive Later [DecidableEq ρ] (D : Env τ ρ Γ) (may : Rule τ ρ Γ ι) (T : ι → Prop)
    (st : State τ ρ Γ ι) : State τ ρ Γ ι → Prop
  | refl : Later D may T st st
  | step {st' st'' : State τ ρ Γ ι} (t : ι) : Later D may T st st' → T t → Step D may t st' st'' →
      Later D may T st st''

/-- All threads. -/
def everyone : ι → Prop := fun _ => True

/-- The states a program can come to. -/
def Reachable [DecidableEq ρ] (D : Env τ ρ Γ) (may : Rule τ ρ Γ ι) (st : State τ ρ Γ ι) : Prop :=
  Later D may everyone start st

/-- What a parse that begins in the state `st` may see of the `Delay` objects, in the order of its
calls of their methods, while the threads take steps. -/
def Sees [DecidableEq ρ] (D : Env τ ρ Γ) (st : State τ ρ Γ ι) (seen : Nat → Delays τ ρ Γ) : Prop :=
  ∃ S : Nat → State τ ρ Γ ι, Later D anyhow everyone st (S 0) ∧
    (∀ n, Later D anyhow everyone (S n) (S (n + 1))) ∧ ∀ n, seen n = (S n).delays

/-! ### What a call of `parse` does; compare `Spec/Run.lean` -/

section
variable [BEq τ]

/-- It returns `r`. -/
def ReturnsIn (seen : Nat → Delays τ ρ Γ) (o : Obj τ ρ Γ α) (s : List τ) (opts : Opts τ)
    (r : Result τ α) : Prop :=
  ∃ fuel, parse seen fuel o s opts.recover opts.maxInsertions opts.getLoc = .ret r

/-- It raises `x`. -/
def RaisesIn (seen : Nat → Delays τ ρ Γ) (o : Obj τ ρ Γ α) (s : List τ) (opts : Opts τ)
    (x : Exn) : Prop :=
  ∃ fuel, parse seen fuel o s opts.recover opts.maxInsertions opts.getLoc = .raise x

/-- It recurses forever. -/
def HangsIn (seen : Nat → Delays τ ρ Γ) (o : Obj τ ρ Γ α) (s : List τ) (opts : Opts τ) : Prop :=
  ∀ fuel, parse seen fuel o s opts.recover opts.maxInsertions opts.getLoc = .diverge

end

/-- The node is not a `Delay` object outside of `X`. -/
def refIn (X : ρ → Prop) : {α : Type} → P τ ρ Γ α → Prop
  | _, .ref i => X i
  | _, _ => True

end Reparsec.Race
