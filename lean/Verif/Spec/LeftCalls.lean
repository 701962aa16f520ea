import Verif.Spec.Run

/-!
# Left recursion

Which `Delay` objects a parser may call before any input has been consumed.
-/

namespace Reparsec

variable {τ ρ : Type} {Γ : ρ → Type} {α : Type} [BEq τ]

/-- The parser can succeed with value `a` without consuming anything, somewhere in some input. -/
def CanBeEmpty (env : Env τ ρ Γ) (p : P τ ρ Γ α) (a : α) : Prop :=
  ∃ (s : List τ) (pos : Nat) (ctx ctx' : Ctx τ), pos ≤ s.length ∧ Reads env p s pos ctx a pos ctx'

/-- `p.StartsWith env i`: running `p` may call the `Delay` object `i` at the position where `p`
itself was started. -/
def P.StartsWith (env : Env τ ρ Γ) : {α : Type} → P τ ρ Γ α → ρ → Prop
  | _, .fmap p _, i => p.StartsWith env i
  | _, .alt p q, i => p.StartsWith env i ∨ q.StartsWith env i
  | _, .bind p k, i =>
    p.StartsWith env i ∨ ∃ a, CanBeEmpty env p a ∧ (k a).StartsWith env i
  | _, .seqWith p q _, i =>
    p.StartsWith env i ∨ (∃ a, CanBeEmpty env p a) ∧ q.StartsWith env i
  | _, .maybe p, i => p.StartsWith env i
  | _, .many p, i => p.StartsWith env i
  | _, .attempt p, i => p.StartsWith env i
  | _, .label p _, i => p.StartsWith env i
  | _, .recover p, i => p.StartsWith env i
  | _, .recoverWith p _ _, i => p.StartsWith env i
  | _, .recoverWithFn p _ _, i => p.StartsWith env i
  | _, .block p, i => p.StartsWith env i
  | _, .aligned p, i => p.StartsWith env i
  | _, .indented _ p, i => p.StartsWith env i
  | _, .ref j, i => j = i
  | _, _, _ => False

/-- The definition of the `Delay` object `i` may call the `Delay` object `j` before consuming
anything. -/
def LeftCalls (env : Env τ ρ Γ) (i j : ρ) : Prop :=
  ∃ q, env i = some q ∧ q.StartsWith env j

/-- A chain of one or more such calls leads from `i` to `j`. -/
inductive LeftReaches (env : Env τ ρ Γ) : ρ → ρ → Prop
  | one {i j} : LeftCalls env i j → LeftReaches env i j
  | step {i j k} : LeftCalls env i j → LeftReaches env j k → LeftReaches env i k

end Reparsec
