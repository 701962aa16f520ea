import Verif.Spec.Grammar

/-!
# Parsers that look at one element ahead

Specification for C71.
-/

namespace Reparsec

variable {τ ρ : Type} {Γ : ρ → Type} {α : Type} [BEq τ]

/-- The inputs `s` and `s'` have the same first `n + 1` elements: if one ends before that, so does the other. -/
def SameUpTo (n : Nat) (s s' : List τ) : Prop := s'.take (n + 1) = s.take (n + 1)

/-- The regular expression looks at one element beyond what it matches, and at one element if there is no match:
elements further away make no difference. -/
structure Matcher.OneAhead {β : Type} (mt : Matcher τ β) : Prop where
  hit : ∀ s s' i j v, mt.run s i = some (j, .ok (some v)) → SameUpTo j s s' →
    mt.run s' i = some (j, .ok (some v))
  miss : ∀ s s' i, mt.run s i = none ∨ (∃ j, mt.run s i = some (j, .ok none)) → SameUpTo i s s' →
    mt.run s' i = none ∨ ∃ j, mt.run s' i = some (j, .ok none)

/-- The node looks at one element ahead: a literal has one element, a regular expression is `OneAhead`; and no
`attempt`, which takes back what was read. -/
def P.oneAhead : {α : Type} → P τ ρ Γ α → Prop
  | _, .literal x _ _ => x.length = 1
  | _, .regexp mt => mt.OneAhead
  | _, .attempt _ => False
  | _, _ => True

/-- The function of `fmap` does not raise on the values that the grammar assigns to words. -/
def P.totalMap (env : Env τ ρ Γ) : {α : Type} → P τ ρ Γ α → Prop
  | _, .fmap p fn => ∀ w a, Lang env p w a → ∃ b, fn a = .ok b
  | _, _ => True

/-- There is a word of the grammar. -/
def P.productive (env : Env τ ρ Γ) (p : P τ ρ Γ α) : Prop := ∃ w v, Lang env p w v

end Reparsec
