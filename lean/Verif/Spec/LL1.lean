import Verif.Spec.Grammar

/-!
# LL(1) grammars

Specification for C55.  A lookahead is the next element of the input, or `none` at its end.
-/

namespace Reparsec

variable {τ ρ : Type} {Γ : ρ → Type} {α : Type} [BEq τ]

/-- For each `Delay` object: the lookaheads with which it may read something (or raise), with which it may
succeed without reading anything, and which may follow it. -/
structure LLTable (τ ρ : Type) where
  starts : ρ → Option τ → Prop
  empty : ρ → Option τ → Prop
  follow : ρ → Option τ → Prop

/-- `p.empty T la`: with lookahead `la`, `p` may succeed without reading anything. -/
def P.empty (T : LLTable τ ρ) : {α : Type} → P τ ρ Γ α → Option τ → Prop
  | _, .pure _, _ => True
  | _, .pureFn _, _ => True
  | _, .unexpected _, _ => False
  | _, .eof, la => la = none
  | _, .satisfy _, _ => False
  | _, .sym _ _, _ => False
  | _, .literal _ _ _, _ => False
  | _, .regexp m, la => ∃ s i v, s[i]? = la ∧ m.run s i = some (i, .ok (some v))
  | _, .fmap p _, la => p.empty T la
  | _, .alt p q, la => p.empty T la ∨ q.empty T la
  | _, .bind p k, la => p.empty T la ∧ ∃ a, (k a).empty T la
  | _, .seqWith p q _, la => p.empty T la ∧ q.empty T la
  | _, .maybe _, _ => True
  | _, .many _, _ => True
  | _, .attempt p, la => p.empty T la
  | _, .label p _, la => p.empty T la
  | _, .recover p, la => p.empty T la
  | _, .recoverWith p _ _, la => p.empty T la
  | _, .recoverWithFn p _ _, la => p.empty T la
  | _, .block p, la => p.empty T la
  | _, .aligned p, la => p.empty T la
  | _, .indented _ p, la => p.empty T la
  | _, .ref x, la => T.empty x la

/-- `p.starts T la`: with lookahead `la`, `p` may read something (or raise an exception). -/
def P.starts (T : LLTable τ ρ) : {α : Type} → P τ ρ Γ α → Option τ → Prop
  | _, .pure _, _ => False
  | _, .pureFn x, _ => ∃ e, x = .error e
  | _, .unexpected _, _ => False
  | _, .eof, _ => False
  | _, .satisfy test, la => ∃ t, la = some t ∧ test t ≠ .ok false
  | _, .sym x _, la => ∃ t, la = some t ∧ (t == x) = true
  | _, .literal x _ _, la => ∃ t u xs, la = some t ∧ x = u :: xs ∧ (u == t) = true
  | _, .regexp m, la => ∃ s i j v, s[i]? = la ∧ i ≤ j ∧ j ≤ s.length ∧
      m.run s i = some (j, v) ∧ v ≠ .ok none ∧ (i = j → ∃ e, v = .error e)
  | _, .fmap p fn, la => p.starts T la ∨ p.empty T la ∧ ∃ a e, fn a = .error e
  | _, .alt p q, la => p.starts T la ∨ q.starts T la
  | _, .bind p k, la => p.starts T la ∨ p.empty T la ∧ ∃ a, (k a).starts T la
  | _, .seqWith p q _, la => p.starts T la ∨ p.empty T la ∧ q.starts T la
  | _, .maybe p, la => p.starts T la
  | _, .many p, la => p.starts T la ∨ p.empty T la
  | _, .attempt p, la => p.starts T la
  | _, .label p _, la => p.starts T la
  | _, .recover p, la => p.starts T la
  | _, .recoverWith p _ _, la => p.starts T la
  | _, .recoverWithFn p _ _, la => p.starts T la
  | _, .block p, la => p.starts T la
  | _, .aligned p, la => p.starts T la
  | _, .indented _ p, la => p.starts T la
  | _, .ref x, la => T.starts x la

/-- With lookahead `la`, `p` followed by something that begins with a lookahead in `F` may go on:
`p` reads something, or succeeds without reading anything and `la` is in `F`. -/
def P.goesOn (T : LLTable τ ρ) (p : P τ ρ Γ α) (F : Option τ → Prop) (la : Option τ) : Prop :=
  p.starts T la ∨ p.empty T la ∧ F la

/-- `p.LL1 T F`: one element of lookahead tells which way to go everywhere in `p`, when `p` is
followed by something that begins with a lookahead in `F`.

* In `p | q` no lookahead fits both `p` (reading something or not) and `q` (reading something, or
  nothing and then what follows).
* In `maybe(p)` and `many(p)` no lookahead fits both `p` and what follows; an item of `many(p)` is
  never empty. -/
def P.LL1 (T : LLTable τ ρ) : {α : Type} → P τ ρ Γ α → (Option τ → Prop) → Prop
  | _, .alt p q, F => p.LL1 T F ∧ q.LL1 T F ∧
      ∀ la, p.starts T la ∨ p.empty T la → ¬ q.goesOn T F la
  | _, .bind p k, F => p.LL1 T (fun la => ∃ a, (k a).goesOn T F la) ∧ ∀ a, (k a).LL1 T F
  | _, .seqWith p q _, F => p.LL1 T (q.goesOn T F) ∧ q.LL1 T F
  | _, .maybe p, F => p.LL1 T F ∧ ∀ la, p.starts T la ∨ p.empty T la → ¬ F la
  | _, .many p, F => p.LL1 T (fun la => p.starts T la ∨ F la) ∧ (∀ la, ¬ p.empty T la) ∧
      ∀ la, p.starts T la → ¬ F la
  | _, .fmap p _, F => p.LL1 T F
  | _, .attempt p, F => p.LL1 T F
  | _, .label p _, F => p.LL1 T F
  | _, .recover p, F => p.LL1 T F
  | _, .recoverWith p _ _, F => p.LL1 T F
  | _, .recoverWithFn p _ _, F => p.LL1 T F
  | _, .block p, F => p.LL1 T F
  | _, .aligned p, F => p.LL1 T F
  | _, .indented _ p, F => p.LL1 T F
  | _, .ref x, F => ∀ la, F la → T.follow x la
  | _, _, _ => True

/-- The table is right for the definitions of the `Delay` objects, and these are LL(1). -/
structure LLTable.OK (T : LLTable τ ρ) (env : Env τ ρ Γ) : Prop where
  starts : ∀ x q, env x = some q → ∀ la, q.starts T la → T.starts x la
  empty : ∀ x q, env x = some q → ∀ la, q.empty T la → T.empty x la
  /-- a `Delay` object that is not defined raises an exception -/
  undefined : ∀ x, env x = none → ∀ la, T.starts x la
  ll1 : ∀ x q, env x = some q → q.LL1 T (T.follow x)

/-- The grammar `p`, used up to the end of the input, is LL(1). -/
def IsLL1 (env : Env τ ρ Γ) (p : P τ ρ Γ α) : Prop :=
  ∃ T : LLTable τ ρ, T.OK env ∧ p.LL1 T (· = none)

/-- The node is not a regular expression. -/
def P.notRegexp : {α : Type} → P τ ρ Γ α → Prop
  | _, .regexp _ => False
  | _, _ => True

/-- The node is not `eof`. -/
def P.notEof : {α : Type} → P τ ρ Γ α → Prop
  | _, .eof => False
  | _, _ => True

end Reparsec
