import Verif.Spec.Run

/-!
# Exchanging parts of parsers

Specification for C84.
-/

namespace Reparsec

variable {τ ρ : Type} {Γ : ρ → Type}

/-- `Exchanged R p q`: `q` is `p` with any number of its parts, anywhere in it, exchanged for others; `R` says for
what. (The parts of `p.bind(f)` are `p` and all parsers that `f` returns.) -/
inductive Exchanged (R : (α : Type) → P τ ρ Γ α → P τ ρ Γ α → Prop) :
    {α : Type} → P τ ρ Γ α → P τ ρ Γ α → Prop
  | keep {α : Type} (p : P τ ρ Γ α) : Exchanged R p p
  | part {α : Type} {p q : P τ ρ Γ α} : R α p q → Exchanged R p q
  | fmap {α β : Type} {p p' : P τ ρ Γ α} (fn : α → Except Exn β) : Exchanged R p p' →
      Exchanged R (.fmap p fn) (.fmap p' fn)
  | alt {α : Type} {p p' q q' : P τ ρ Γ α} : Exchanged R p p' → Exchanged R q q' →
      Exchanged R (.alt p q) (.alt p' q')
  | bind {α β : Type} {p p' : P τ ρ Γ α} {f f' : α → P τ ρ Γ β} : Exchanged R p p' →
      (∀ a, Exchanged R (f a) (f' a)) → Exchanged R (.bind p f) (.bind p' f')
  | seqWith {α β γ : Type} {p p' : P τ ρ Γ α} {q q' : P τ ρ Γ β} (merge : α → β → γ) : Exchanged R p p' →
      Exchanged R q q' → Exchanged R (.seqWith p q merge) (.seqWith p' q' merge)
  | maybe {α : Type} {p p' : P τ ρ Γ α} : Exchanged R p p' → Exchanged R (.maybe p) (.maybe p')
  | many {α : Type} {p p' : P τ ρ Γ α} : Exchanged R p p' → Exchanged R (.many p) (.many p')
  | attempt {α : Type} {p p' : P τ ρ Γ α} : Exchanged R p p' → Exchanged R (.attempt p) (.attempt p')
  | label {α : Type} {p p' : P τ ρ Γ α} (x : String) : Exchanged R p p' → Exchanged R (.label p x) (.label p' x)
  | recover {α : Type} {p p' : P τ ρ Γ α} : Exchanged R p p' → Exchanged R (.recover p) (.recover p')
  | recoverWith {α : Type} {p p' : P τ ρ Γ α} (x : α) (vs : String) : Exchanged R p p' →
      Exchanged R (.recoverWith p x vs) (.recoverWith p' x vs)
  | recoverWithFn {α : Type} {p p' : P τ ρ Γ α} (fn : List τ → Nat → Except Exn α) (lbl : α → String) :
      Exchanged R p p' → Exchanged R (.recoverWithFn p fn lbl) (.recoverWithFn p' fn lbl)
  | block {α : Type} {p p' : P τ ρ Γ α} : Exchanged R p p' → Exchanged R (.block p) (.block p')
  | aligned {α : Type} {p p' : P τ ρ Γ α} : Exchanged R p p' → Exchanged R (.aligned p) (.aligned p')
  | indented {α : Type} {p p' : P τ ρ Γ α} (delta : Int) : Exchanged R p p' →
      Exchanged R (.indented delta p) (.indented delta p')

/-- The definitions `env'` are those of `env` with parts exchanged. The same `Delay` objects are defined. -/
def ExchangedDefs (R : (α : Type) → P τ ρ Γ α → P τ ρ Γ α → Prop) (env env' : Env τ ρ Γ) : Prop :=
  ∀ i, (env i = none ∧ env' i = none) ∨ ∃ p p', env i = some p ∧ env' i = some p' ∧ Exchanged R p p'

/-- A `Delay` object, and what it is defined as. -/
inductive Unfolds (env : Env τ ρ Γ) : (α : Type) → P τ ρ Γ α → P τ ρ Γ α → Prop
  | mk {i : ρ} {p : P τ ρ Γ (Γ i)} : env i = some p → Unfolds env (Γ i) (.ref i) p

variable {α : Type} [BEq τ]

/-- Whatever `p` does with the definitions `env`, in both modes, `q` does with the definitions `env'`, if `p` ends at
all. -/
structure Follows (env env' : Env τ ρ Γ) (p q : P τ ρ Γ α) : Prop where
  plain : ∀ s pos ctx o, RunPlain env p s pos ctx o → o ≠ .diverge → RunPlain env' q s pos ctx o
  recovering : ∀ s pos ctx ins rem o, RunRec env p s pos ctx ins rem o → o ≠ .diverge →
    RunRec env' q s pos ctx ins rem o

/-- A call of `p.parse` with the definitions `env` does the same as a call of `q.parse` with the definitions `env'`. -/
def SameParse (env env' : Env τ ρ Γ) (p q : P τ ρ Γ α) (s : List τ) (o : Opts τ) : Prop :=
  (∀ r, Returns env p s o r ↔ Returns env' q s o r) ∧ (∀ e, Raises env p s o e ↔ Raises env' q s o e) ∧
    (Hangs env p s o ↔ Hangs env' q s o)

end Reparsec
