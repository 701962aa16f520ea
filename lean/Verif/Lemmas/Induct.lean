import Verif.Model.Parser

/-!
# The induction principle for "every parser built from the public API"

A property of (parser object, its functions) that is closed under every primitive and every
combinator holds of every parser object, for every environment of `Delay` definitions and
every fuel.
-/

namespace Reparsec

variable {τ ρ : Type} {Γ : ρ → Type}

/-- `Q` is closed under everything a parser can be built from. -/
structure Closed [BEq τ] (env : Env τ ρ Γ)
    (Q : {α : Type} → P τ ρ Γ α → ParseFns τ α → Prop) : Prop where
  pure : ∀ {α : Type} (x : α), Q (.pure x) (pureFns x)
  pureFn : ∀ {α : Type} (x : Except Exn α), Q (.pureFn x) (pureFnFns x)
  unexpected : ∀ x, Q (.unexpected x) (unexpectedFns x)
  eof : Q .eof eofFns
  satisfy : ∀ test, Q (.satisfy test) (satisfyFns test)
  sym : ∀ s l, Q (.sym s l) (symFns s l)
  literal : ∀ s ss h, Q (.literal s ss h) (literalFns s ss)
  regexp : ∀ {β : Type} (m : Matcher τ β), Q (.regexp m) (regexpFns m)
  fmap : ∀ {α β : Type} (p : P τ ρ Γ α) f (fn : α → Except Exn β),
    Q p f → Q (.fmap p fn) (fmapFns f fn)
  alt : ∀ {α : Type} (p q : P τ ρ Γ α) f g, Q p f → Q q g → Q (.alt p q) (altFns f g)
  bind : ∀ {α β : Type} (p : P τ ρ Γ α) f (k : α → P τ ρ Γ β) (g : α → ParseFns τ β),
    Q p f → (∀ a, Q (k a) (g a)) → Q (.bind p k) (bindFns f g)
  seqWith : ∀ {α β γ : Type} (p : P τ ρ Γ α) f (q : P τ ρ Γ β) g (merge : α → β → γ),
    Q p f → Q q g → Q (.seqWith p q merge) (seqFns f g merge)
  maybe : ∀ {α : Type} (p : P τ ρ Γ α) f, Q p f → Q (.maybe p) (maybeFns f)
  many : ∀ {α : Type} (p : P τ ρ Γ α) f fuel, Q p f → Q (.many p) (manyFns fuel f)
  attempt : ∀ {α : Type} (p : P τ ρ Γ α) f, Q p f → Q (.attempt p) (attemptFns f)
  label : ∀ {α : Type} (p : P τ ρ Γ α) f x, Q p f → Q (.label p x) (labelFns f x)
  recover : ∀ {α : Type} (p : P τ ρ Γ α) f, Q p f → Q (.recover p) (recoverFns f)
  recoverWith : ∀ {α : Type} (p : P τ ρ Γ α) f x vs, Q p f →
    Q (.recoverWith p x vs) (recoverWithFns f x vs)
  recoverWithFn : ∀ {α : Type} (p : P τ ρ Γ α) f fn lbl, Q p f →
    Q (.recoverWithFn p fn lbl) (recoverWithFnFns f fn lbl)
  block : ∀ {α : Type} (p : P τ ρ Γ α) f, Q p f → Q (.block p) (blockFns f)
  aligned : ∀ {α : Type} (p : P τ ρ Γ α) f, Q p f → Q (.aligned p) (alignedFns f)
  indented : ∀ {α : Type} (p : P τ ρ Γ α) f delta, Q p f →
    Q (.indented delta p) (indentedFns delta f)
  refDiverge : ∀ i, Q (.ref i) divergeFns
  refUndefined : ∀ i, env i = none → Q (.ref i) undefinedFns
  refDefined : ∀ i p f, env i = some p → Q p f → Q (.ref i) f

theorem Closed.denoteWith [BEq τ] {env : Env τ ρ Γ}
    {Q : {α : Type} → P τ ρ Γ α → ParseFns τ α → Prop} (c : Closed env Q) (fuel : Nat)
    (tbl : (i : ρ) → ParseFns τ (Γ i)) (ht : ∀ i, Q (.ref i) (tbl i)) {α : Type}
    (p : P τ ρ Γ α) : Q p (denoteWith fuel tbl p) := by
  induction p with
  | pure x => exact c.pure x
  | pureFn x => exact c.pureFn x
  | unexpected x => exact c.unexpected x
  | eof => exact c.eof
  | satisfy test => exact c.satisfy test
  | sym s l => exact c.sym s l
  | literal s ss h => exact c.literal s ss h
  | regexp m => exact c.regexp m
  | fmap p fn ih => exact c.fmap p _ fn ih
  | alt p q ihp ihq => exact c.alt p q _ _ ihp ihq
  | bind p k ihp ihk => exact c.bind p _ k _ ihp ihk
  | seqWith p q merge ihp ihq => exact c.seqWith p _ q _ merge ihp ihq
  | maybe p ih => exact c.maybe p _ ih
  | many p ih => exact c.many p _ _ ih
  | attempt p ih => exact c.attempt p _ ih
  | label p x ih => exact c.label p _ x ih
  | recover p ih => exact c.recover p _ ih
  | recoverWith p x vs ih => exact c.recoverWith p _ x vs ih
  | recoverWithFn p fn lbl ih => exact c.recoverWithFn p _ fn lbl ih
  | block p ih => exact c.block p _ ih
  | aligned p ih => exact c.aligned p _ ih
  | indented delta p ih => exact c.indented p _ delta ih
  | ref i => exact ht i

theorem Closed.table [BEq τ] {env : Env τ ρ Γ}
    {Q : {α : Type} → P τ ρ Γ α → ParseFns τ α → Prop} (c : Closed env Q) (fuel : Nat) (i : ρ) :
    Q (.ref i) (table env fuel i) := by
  induction fuel generalizing i with
  | zero => exact c.refDiverge i
  | succ n ih =>
    unfold Reparsec.table
    split
    · next h => exact c.refUndefined i h
    · next p h => exact c.refDefined i p _ h (c.denoteWith n _ ih p)

/-- The induction principle. -/
theorem Closed.denote [BEq τ] {env : Env τ ρ Γ}
    {Q : {α : Type} → P τ ρ Γ α → ParseFns τ α → Prop} (c : Closed env Q) (fuel : Nat) {α : Type}
    (p : P τ ρ Γ α) : Q p (denote env fuel p) :=
  c.denoteWith fuel _ (c.table fuel) p

end Reparsec
