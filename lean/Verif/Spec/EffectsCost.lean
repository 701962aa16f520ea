import Verif.Spec.EffectsEval

/-!
# Left recursion and lookahead of parsers whose callbacks have side effects

As `Spec/LeftCalls`, for the parsers of `Model/Effects`.
-/

namespace Reparsec.Eff

variable {σ τ ρ : Type} {Γ : ρ → Type} {α : Type}

section
variable [BEq τ]

/-- The parser can succeed with value `a` without consuming anything, somewhere in some input, in some
state. -/
def CanBeEmpty (env : Env σ τ ρ Γ) (p : P σ τ ρ Γ α) (a : α) : Prop :=
  ∃ (s : List τ) (col : Nat → Nat → Prop) (m i : Nat) (w : World σ) (x : List String)
    (w' : World σ), i ≤ s.length ∧ Eval env s col p m i w (.accepts a i x) w'

/-- `p.StartsWith env i`: running `p` may call the `Delay` object `i` at the position where `p`
itself was started. -/
def P.StartsWith (env : Env σ τ ρ Γ) : {α : Type} → P σ τ ρ Γ α → ρ → Prop
  | _, .fmap p _, i => p.StartsWith env i
  | _, .alt p q, i => p.StartsWith env i ∨ q.StartsWith env i
  | _, .bind p c k, i => p.StartsWith env i ∨
      ∃ a st b, CanBeEmpty env p a ∧ (c.run a st).1 = .ok b ∧ (k b).StartsWith env i
  | _, .seqWith p q _, i => p.StartsWith env i ∨ (∃ a, CanBeEmpty env p a) ∧ q.StartsWith env i
  | _, .maybe p, i => p.StartsWith env i
  | _, .many p, i => p.StartsWith env i
  | _, .attempt p, i => p.StartsWith env i
  | _, .label p _, i => p.StartsWith env i
  | _, .recover p, i => p.StartsWith env i
  | _, .recoverWith p _ _, i => p.StartsWith env i
  | _, .recoverWithFn p _ _, i => p.StartsWith env i
  | _, .block p, i => p.StartsWith env i
  | _, .aligned p, i => p.StartsWith env i
  | _, .indented _ p, i => p.StartsWith env i
  | _, .ref j, i => j = i
  | _, _, _ => False

/-- The definition of the `Delay` object `i` may call the `Delay` object `j` before consuming
anything. -/
def LeftCalls (env : Env σ τ ρ Γ) (i j : ρ) : Prop :=
  ∃ q, env i = some q ∧ q.StartsWith env j

/-- A chain of one or more such calls leads from `i` to `j`. -/
inductive LeftReaches (env : Env σ τ ρ Γ) : ρ → ρ → Prop
  | one {i j} : LeftCalls env i j → LeftReaches env i j
  | step {i j k} : LeftCalls env i j → LeftReaches env j k → LeftReaches env i k

end

/-- The parser reads no more than a fixed amount of input: no `many`, no `Delay`, no `bind`. -/
def P.Short : {α : Type} → P σ τ ρ Γ α → Prop
  | _, .fmap p _ => p.Short
  | _, .alt p q => p.Short ∧ q.Short
  | _, .bind _ _ _ => False
  | _, .seqWith p q _ => p.Short ∧ q.Short
  | _, .maybe p => p.Short
  | _, .many _ => False
  | _, .attempt p => p.Short
  | _, .label p _ => p.Short
  | _, .recover p => p.Short
  | _, .recoverWith p _ _ => p.Short
  | _, .recoverWithFn p _ _ => p.Short
  | _, .block p => p.Short
  | _, .aligned p => p.Short
  | _, .indented _ p => p.Short
  | _, .ref _ => False
  | _, _ => True

/-- No `bind`, and `attempt` only around parsers that read a fixed amount of input. -/
def P.Predictive : {α : Type} → P σ τ ρ Γ α → Prop
  | _, .fmap p _ => p.Predictive
  | _, .alt p q => p.Predictive ∧ q.Predictive
  | _, .bind _ _ _ => False
  | _, .seqWith p q _ => p.Predictive ∧ q.Predictive
  | _, .maybe p => p.Predictive
  | _, .many p => p.Predictive
  | _, .attempt p => p.Short
  | _, .label p _ => p.Predictive
  | _, .recover p => p.Predictive
  | _, .recoverWith p _ _ => p.Predictive
  | _, .recoverWithFn p _ _ => p.Predictive
  | _, .block p => p.Predictive
  | _, .aligned p => p.Predictive
  | _, .indented _ p => p.Predictive
  | _, _ => True

/-- The parser, and all recursive definitions. -/
def Predictive (env : Env σ τ ρ Γ) (p : P σ τ ρ Γ α) : Prop :=
  p.Predictive ∧ ∀ i q, env i = some q → q.Predictive

/-- The parser contains no `Delay` object. -/
def P.NoDelay : {α : Type} → P σ τ ρ Γ α → Prop
  | _, .fmap p _ => p.NoDelay
  | _, .alt p q => p.NoDelay ∧ q.NoDelay
  | _, .bind p _ k => p.NoDelay ∧ ∀ i, (k i).NoDelay
  | _, .seqWith p q _ => p.NoDelay ∧ q.NoDelay
  | _, .maybe p => p.NoDelay
  | _, .many p => p.NoDelay
  | _, .attempt p => p.NoDelay
  | _, .label p _ => p.NoDelay
  | _, .recover p => p.NoDelay
  | _, .recoverWith p _ _ => p.NoDelay
  | _, .recoverWithFn p _ _ => p.NoDelay
  | _, .block p => p.NoDelay
  | _, .aligned p => p.NoDelay
  | _, .indented _ p => p.NoDelay
  | _, .ref _ => False
  | _, _ => True

end Reparsec.Eff
