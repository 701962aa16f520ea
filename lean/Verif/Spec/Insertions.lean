import Verif.Spec.LeftCalls
import Verif.Spec.Grammar

/-!
# Where `recover_with` may be reached

Side conditions of C42.
-/

namespace Reparsec

variable {τ ρ : Type} {Γ : ρ → Type} {α : Type} [BEq τ]

/-- The parser may reach a `recover_with` or `recover_with_fn` at the position where it was started,
other than below a choice (`alt`, `maybe`, `many`) or a `label`. -/
inductive StartsWithInsert (env : Env τ ρ Γ) : {α : Type} → P τ ρ Γ α → Prop
  | recoverWith {α : Type} (p : P τ ρ Γ α) (x : α) (vs : String) :
      StartsWithInsert env (.recoverWith p x vs)
  | recoverWithFn {α : Type} (p : P τ ρ Γ α) (fn : List τ → Nat → Except Exn α)
      (lbl : α → String) : StartsWithInsert env (.recoverWithFn p fn lbl)
  | fmap {α β : Type} (p : P τ ρ Γ α) (fn : α → Except Exn β) :
      StartsWithInsert env p → StartsWithInsert env (.fmap p fn)
  | bindFirst {α β : Type} (p : P τ ρ Γ α) (k : α → P τ ρ Γ β) :
      StartsWithInsert env p → StartsWithInsert env (.bind p k)
  | bindSecond {α β : Type} (p : P τ ρ Γ α) (k : α → P τ ρ Γ β) (a : α) :
      CanBeEmpty env p a → StartsWithInsert env (k a) → StartsWithInsert env (.bind p k)
  | seqFirst {α β γ : Type} (p : P τ ρ Γ α) (q : P τ ρ Γ β) (merge : α → β → γ) :
      StartsWithInsert env p → StartsWithInsert env (.seqWith p q merge)
  | seqSecond {α β γ : Type} (p : P τ ρ Γ α) (q : P τ ρ Γ β) (merge : α → β → γ) (a : α) :
      CanBeEmpty env p a → StartsWithInsert env q → StartsWithInsert env (.seqWith p q merge)
  | recover {α : Type} (p : P τ ρ Γ α) :
      StartsWithInsert env p → StartsWithInsert env (.recover p)
  | block {α : Type} (p : P τ ρ Γ α) : StartsWithInsert env p → StartsWithInsert env (.block p)
  | aligned {α : Type} (p : P τ ρ Γ α) :
      StartsWithInsert env p → StartsWithInsert env (.aligned p)
  | indented {α : Type} (d : Int) (p : P τ ρ Γ α) :
      StartsWithInsert env p → StartsWithInsert env (.indented d p)
  | ref (i : ρ) (q : P τ ρ Γ (Γ i)) :
      env i = some q → StartsWithInsert env q → StartsWithInsert env (.ref i)

/-- The node is not `attempt`, and is not a `recover_with(_fn)` directly around a parser that starts
with another one. -/
def P.plainError (env : Env τ ρ Γ) : {α : Type} → P τ ρ Γ α → Prop
  | _, .attempt _ => False
  | _, .recoverWith p _ _ => ¬ StartsWithInsert env p
  | _, .recoverWithFn p _ _ => ¬ StartsWithInsert env p
  | _, _ => True

/-- The node is not `recover_with` or `recover_with_fn`. -/
def P.notInsert : {α : Type} → P τ ρ Γ α → Prop
  | _, .recoverWith _ _ _ => False
  | _, .recoverWithFn _ _ _ => False
  | _, _ => True

end Reparsec
