import Verif.Model.Parser

/-!
# Grammars that can always be repaired

Specification for C56.  `p.Fixable T sure first rest` bounds the number of insertions that a repair of
`p` may need at one place of the input:

* `first`: where `p` begins, before anything is read;
* `rest`: at any later place in `p`.

`sure` says that when recovery is on, `p` cannot fail. (With `sure = false` it may fail where it
begins, so that another alternative is tried, but never after it has read something.)
-/

namespace Reparsec

variable {τ ρ : Type} {Γ : ρ → Type}

/-- The same for each `Delay` object. -/
structure FixTable (ρ : Type) where
  sure : ρ → Bool
  first : ρ → Nat
  rest : ρ → Nat

/-- `p` can always be repaired, with at most `first` insertions where it begins and at most `rest` at
any later place. -/
def P.Fixable (T : FixTable ρ) : {α : Type} → P τ ρ Γ α → (sure : Bool) → (first rest : Nat) → Prop
  | _, .pure _, _, _, _ => True
  | _, .pureFn _, _, _, _ => True
  | _, .eof, _, _, _ => True
  -- a terminal that cannot be inserted may be missing
  | _, .unexpected _, sure, _, _ => sure = false
  | _, .satisfy _, sure, _, _ => sure = false
  | _, .regexp _, sure, _, _ => sure = false
  -- one insertion
  | _, .sym _ _, _, first, _ => 1 ≤ first
  | _, .literal _ _ _, _, first, _ => 1 ≤ first
  | _, .recoverWith p _ _, _, first, rest =>
      ∃ sure', p.Fixable T sure' first rest ∧ (sure' = true ∨ 1 ≤ first)
  | _, .recoverWithFn p _ _, _, first, rest =>
      ∃ sure', p.Fixable T sure' first rest ∧ (sure' = true ∨ 1 ≤ first)
  -- the first alternative decides if it is always repaired
  | _, .alt p q, sure, first, rest =>
      (p.Fixable T true first rest ∧ ∃ sure' first', q.Fixable T sure' first' rest) ∨
      (∃ sure', p.Fixable T sure' first rest) ∧ q.Fixable T sure first rest
  -- nothing may be read by the first part or between its last repair and the second part
  | _, .bind p k, sure, first, rest => ∃ f1 f2 r1, f1 + f2 ≤ first ∧ r1 + f2 ≤ rest ∧
      p.Fixable T sure f1 r1 ∧ ∀ a, ∃ r2, r2 ≤ rest ∧ (k a).Fixable T true f2 r2
  | _, .seqWith p q _, sure, first, rest => ∃ f1 f2 r1 r2, f1 + f2 ≤ first ∧ r1 + f2 ≤ rest ∧
      r2 ≤ rest ∧ p.Fixable T sure f1 r1 ∧ q.Fixable T true f2 r2
  -- repaired only after something is read
  | _, .maybe p, _, _, rest => ∃ sure' first', p.Fixable T sure' first' rest
  | _, .many p, _, _, rest => ∃ sure' first', p.Fixable T sure' first' rest
  | _, .fmap p _, sure, first, rest => p.Fixable T sure first rest
  | _, .attempt p, sure, first, rest => p.Fixable T sure first rest
  | _, .label p _, sure, first, rest => p.Fixable T sure first rest
  | _, .recover p, sure, first, rest => p.Fixable T sure first rest
  | _, .block p, sure, first, rest => p.Fixable T sure first rest
  -- wrong indentation is not repaired
  | _, .aligned p, sure, first, rest => sure = false ∧ ∃ sure', p.Fixable T sure' first rest
  | _, .indented _ p, sure, first, rest => sure = false ∧ ∃ sure', p.Fixable T sure' first rest
  | _, .ref x, sure, first, rest =>
      (sure = true → T.sure x = true) ∧ T.first x ≤ first ∧ T.rest x ≤ rest

/-- The table is right for the definitions of the `Delay` objects. -/
def FixTable.OK (T : FixTable ρ) (env : Env τ ρ Γ) : Prop :=
  ∀ x q, env x = some q → q.Fixable T (T.sure x) (T.first x) (T.rest x)

/-- The grammar can always be repaired with at most `k` insertions at each place of the input. -/
def AlwaysFixable {α : Type} (env : Env τ ρ Γ) (k : Nat) (p : P τ ρ Γ α) : Prop :=
  ∃ T : FixTable ρ, T.OK env ∧ p.Fixable T true k k

end Reparsec
