import Verif.Spec.LeftCalls

/-!
# Nested grammars that can always be repaired

Specification for C90.  As `Spec/Fixable` (C56), but the number of insertions that may be needed at one place is bounded
by a function of the number of elements left, so that brackets can be nested: each bracket that is left open costs an
insertion, but it has been read from the input.

`p.Mendable env T start rest`:

* `rest m`: the number of insertions that a repair of `p` may need at one place of the input after `p` has read something,
  if `p` begins where `m` elements are left;
* `start = some (sure, first)`: where `p` begins, before anything is read, it needs at most `first`. `sure` says that when
  recovery is on, `p` cannot fail. (With `sure = false` it may fail where it begins, but never after it has read
  something.)
* `start = none`: nothing is said about repairs where `p` begins. This is enough for a parser that is run without recovery
  until it has read something: what is repeated or optional, and an alternative that is not needed where it begins.
-/

namespace Reparsec

variable {τ ρ : Type} {Γ : ρ → Type} [BEq τ]

/-- The same for each `Delay` object. -/
structure MendTable (ρ : Type) where
  start : ρ → Option (Bool × Nat)
  rest : ρ → Nat → Nat

/-- `r` is enough after something was read, for a parser that begins where `rest` counts from. -/
def Later (r rest : Nat → Nat) : Prop := ∀ m' m, m' < m → r m' ≤ rest m

/-- `r` is enough there and at any later place. -/
def Below (r rest : Nat → Nat) : Prop := ∀ m' m, m' ≤ m → r m' ≤ rest m

/-- What is known (`s`) implies what is needed. -/
def StartsAs (s : Option (Bool × Nat)) : Option (Bool × Nat) → Prop
  | none => True
  | some (sure, first) => ∃ sure' first', s = some (sure', first') ∧ (sure = true → sure' = true) ∧ first' ≤ first

/-- `p` can always be repaired. -/
def P.Mendable (env : Env τ ρ Γ) (T : MendTable ρ) :
    {α : Type} → P τ ρ Γ α → (start : Option (Bool × Nat)) → (rest : Nat → Nat) → Prop
  | _, .pure _, _, _ => True
  | _, .pureFn _, _, _ => True
  | _, .eof, _, _ => True
  -- a terminal that cannot be inserted may be missing
  | _, .unexpected _, start, _ => ∀ n first, start = some (n, first) → n = false
  | _, .satisfy _, start, _ => ∀ n first, start = some (n, first) → n = false
  -- unless it matches everywhere
  | _, .regexp m, start, _ => ∀ n first, start = some (n, first) →
      n = false ∨ ∀ s pos, pos ≤ s.length → m.at s pos ≠ .ok none
  -- one insertion
  | _, .sym _ _, start, _ => ∀ n first, start = some (n, first) → 1 ≤ first
  | _, .literal _ _ _, start, _ => ∀ n first, start = some (n, first) → 1 ≤ first
  | _, .recoverWith p _ _, none, rest => p.Mendable env T none rest
  | _, .recoverWith p _ _, some (_, first), rest =>
      ∃ sure, p.Mendable env T (some (sure, first)) rest ∧ (sure = true ∨ 1 ≤ first)
  | _, .recoverWithFn p _ _, none, rest => p.Mendable env T none rest
  | _, .recoverWithFn p _ _, some (_, first), rest =>
      ∃ sure, p.Mendable env T (some (sure, first)) rest ∧ (sure = true ∨ 1 ≤ first)
  -- where it begins, the first alternative that is always repaired is enough
  | _, .alt p q, none, rest => p.Mendable env T none rest ∧ q.Mendable env T none rest
  | _, .alt p q, some (sure, first), rest =>
      (p.Mendable env T (some (true, first)) rest ∧ q.Mendable env T none rest) ∨
      (∃ sure', p.Mendable env T (some (sure', first)) rest) ∧ q.Mendable env T (some (sure, first)) rest
  -- the second part is always repaired; if nothing is said about where the first part begins, the second part begins
  -- after something was read, or nothing is needed where it begins
  | _, .bind p k, none, rest => ∃ f2 r1, (∀ m, r1 m ≤ rest m ∧ (0 < m → r1 m + f2 ≤ rest m)) ∧
      p.Mendable env T none r1 ∧ ∀ a,
      (∃ r2, Later r2 rest ∧ (k a).Mendable env T (some (true, f2)) r2) ∧
      (CanBeEmpty env p a → ∃ r2, (∀ m, r2 m ≤ rest m) ∧ (k a).Mendable env T none r2)
  | _, .bind p k, some (sure, first), rest => ∃ f1 f2 r1, f1 + f2 ≤ first ∧ (∀ m, r1 m + f2 ≤ rest m) ∧
      p.Mendable env T (some (sure, f1)) r1 ∧ ∀ a, ∃ r2, Below r2 rest ∧ (k a).Mendable env T (some (true, f2)) r2
  | _, .seqWith p q _, none, rest => ∃ f2 r1 r2, (∀ m, r1 m ≤ rest m ∧ (0 < m → r1 m + f2 ≤ rest m)) ∧ Later r2 rest ∧
      p.Mendable env T none r1 ∧ q.Mendable env T (some (true, f2)) r2 ∧
      ((∃ a, CanBeEmpty env p a) → ∃ r2, (∀ m, r2 m ≤ rest m) ∧ q.Mendable env T none r2)
  | _, .seqWith p q _, some (sure, first), rest => ∃ f1 f2 r1 r2, f1 + f2 ≤ first ∧ (∀ m, r1 m + f2 ≤ rest m) ∧
      Below r2 rest ∧ p.Mendable env T (some (sure, f1)) r1 ∧ q.Mendable env T (some (true, f2)) r2
  -- repaired only after something is read
  | _, .maybe p, _, rest => p.Mendable env T none rest
  | _, .many p, _, rest => ∃ r, Below r rest ∧ p.Mendable env T none r
  | _, .fmap p _, start, rest => p.Mendable env T start rest
  -- until recovery is on, nothing is repaired in `p`
  | _, .attempt _, none, _ => True
  | _, .attempt p, some start, rest => p.Mendable env T (some start) rest
  | _, .label p _, start, rest => p.Mendable env T start rest
  | _, .recover p, start, rest => p.Mendable env T start rest
  | _, .block p, start, rest => p.Mendable env T start rest
  -- wrong indentation is not repaired
  | _, .aligned p, none, rest => p.Mendable env T none rest
  | _, .aligned p, some (sure, first), rest => sure = false ∧ ∃ sure', p.Mendable env T (some (sure', first)) rest
  | _, .indented _ p, none, rest => p.Mendable env T none rest
  | _, .indented _ p, some (sure, first), rest => sure = false ∧ ∃ sure', p.Mendable env T (some (sure', first)) rest
  | _, .ref x, start, rest => StartsAs (T.start x) start ∧ ∀ m, T.rest x m ≤ rest m

/-- The table is right for the definitions of the `Delay` objects. -/
def MendTable.OK (T : MendTable ρ) (env : Env τ ρ Γ) : Prop :=
  ∀ x q, env x = some q → q.Mendable env T (T.start x) (T.rest x)

/-- An input of `m` elements can always be repaired with at most `k m` insertions at each place. -/
def AlwaysMendable {α : Type} (env : Env τ ρ Γ) (k : Nat → Nat) (p : P τ ρ Γ α) : Prop :=
  ∃ T : MendTable ρ, T.OK env ∧ ∃ first rest, (∀ m, first ≤ k m ∧ rest m ≤ k m) ∧
    p.Mendable env T (some (true, first)) rest

end Reparsec
