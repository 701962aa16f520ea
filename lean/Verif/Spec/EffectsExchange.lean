import Verif.Spec.Effects

/-!
# Exchanging parts of parsers whose callbacks have side effects

Specification for C85 and C86. What is compared are results (or exceptions) and the user's state afterwards, not the
model's record of calls (a callback that is to be recorded can do so in the user's state).
-/

namespace Reparsec

namespace Eff

variable {σ σ' τ ρ : Type} {Γ : ρ → Type} {α β ι : Type}

/-- What a run returned or raised, and the user's state afterwards. -/
def seen : Run σ α → Option (Except Exn α × σ)
  | .diverge => none
  | .raise e w => some (.error e, w.state)
  | .ret a w => some (.ok a, w.state)

section
variable [BEq τ]

/-- The function of `p` without recovery, called at `pos` with the user's state `st`, returns or raises `x` and leaves
the state `st'`. (With no such `x` and `st'`, the call does not end.) -/
def EndsPlain (env : Env σ τ ρ Γ) (p : P σ τ ρ Γ α) (s : List τ) (pos : Nat) (ctx : Ctx τ) (st : σ)
    (x : Except Exn (Simple τ α)) (st' : σ) : Prop :=
  ∃ fuel, seen ((denote env fuel p).fast s pos ctx ⟨st, []⟩) = some (x, st')

/-- The same for the function with recovery. -/
def EndsRec (env : Env σ τ ρ Γ) (p : P σ τ ρ Γ α) (s : List τ) (pos : Nat) (ctx : Ctx τ) (ins : Int)
    (rem : Option Int) (st : σ) (x : Except Exn (Result τ α)) (st' : σ) : Prop :=
  ∃ fuel, seen ((denote env fuel p).fn s pos ctx ins rem ⟨st, []⟩) = some (x, st')

/-- `p.parse(s, ..)`, called with the user's state `st`, returns or raises `x` and leaves the state `st'`. -/
def EndsIn (env : Env σ τ ρ Γ) (p : P σ τ ρ Γ α) (s : List τ) (o : Opts τ) (st : σ)
    (x : Except Exn (Result τ α)) (st' : σ) : Prop :=
  ∃ fuel, seen (parse env fuel p s o.recover o.maxInsertions o.getLoc ⟨st, []⟩) = some (x, st')

/-- `p` and `q` do the same without recovery: in every state and at every position. -/
def SamePlain (env : Env σ τ ρ Γ) (p q : P σ τ ρ Γ α) : Prop :=
  ∀ s pos ctx st x st', EndsPlain env p s pos ctx st x st' ↔ EndsPlain env q s pos ctx st x st'

/-- `p` and `q` do the same, with and without recovery. -/
structure Same (env : Env σ τ ρ Γ) (p q : P σ τ ρ Γ α) : Prop where
  plain : SamePlain env p q
  recovering : ∀ s pos ctx ins rem st x st',
    EndsRec env p s pos ctx ins rem st x st' ↔ EndsRec env q s pos ctx ins rem st x st'

/-- A call of `p.parse` with the definitions `env` does the same as a call of `q.parse` with the definitions `env'`. -/
def SameParse (env env' : Env σ τ ρ Γ) (p q : P σ τ ρ Γ α) (s : List τ) (o : Opts τ) : Prop :=
  ∀ st x st', EndsIn env p s o st x st' ↔ EndsIn env' q s o st x st'

end

/-- `Exchanged R p q`: `q` is `p` with any number of its parts, anywhere in it, exchanged for others; `R` says for
what. (The parts of `p.bind(f)` are `p` and all parsers that `f` returns.) -/
inductive Exchanged (R : (α : Type) → P σ τ ρ Γ α → P σ τ ρ Γ α → Prop) :
    {α : Type} → P σ τ ρ Γ α → P σ τ ρ Γ α → Prop
  | keep {α : Type} (p : P σ τ ρ Γ α) : Exchanged R p p
  | part {α : Type} {p q : P σ τ ρ Γ α} : R α p q → Exchanged R p q
  | fmap {α β : Type} {p p' : P σ τ ρ Γ α} (c : Callback σ α β) : Exchanged R p p' →
      Exchanged R (.fmap p c) (.fmap p' c)
  | alt {α : Type} {p p' q q' : P σ τ ρ Γ α} : Exchanged R p p' → Exchanged R q q' →
      Exchanged R (.alt p q) (.alt p' q')
  | bind {α ι β : Type} {p p' : P σ τ ρ Γ α} (c : Callback σ α ι) {k k' : ι → P σ τ ρ Γ β} : Exchanged R p p' →
      (∀ i, Exchanged R (k i) (k' i)) → Exchanged R (.bind p c k) (.bind p' c k')
  | seqWith {α β γ : Type} {p p' : P σ τ ρ Γ α} {q q' : P σ τ ρ Γ β} (merge : α → β → γ) : Exchanged R p p' →
      Exchanged R q q' → Exchanged R (.seqWith p q merge) (.seqWith p' q' merge)
  | maybe {α : Type} {p p' : P σ τ ρ Γ α} : Exchanged R p p' → Exchanged R (.maybe p) (.maybe p')
  | many {α : Type} {p p' : P σ τ ρ Γ α} : Exchanged R p p' → Exchanged R (.many p) (.many p')
  | attempt {α : Type} {p p' : P σ τ ρ Γ α} : Exchanged R p p' → Exchanged R (.attempt p) (.attempt p')
  | label {α : Type} {p p' : P σ τ ρ Γ α} (x : String) : Exchanged R p p' → Exchanged R (.label p x) (.label p' x)
  | recover {α : Type} {p p' : P σ τ ρ Γ α} : Exchanged R p p' → Exchanged R (.recover p) (.recover p')
  | recoverWith {α : Type} {p p' : P σ τ ρ Γ α} (x : α) (vs : String) : Exchanged R p p' →
      Exchanged R (.recoverWith p x vs) (.recoverWith p' x vs)
  | recoverWithFn {α : Type} {p p' : P σ τ ρ Γ α} (c : Callback σ (List τ × Nat) α) (lbl : α → String) :
      Exchanged R p p' → Exchanged R (.recoverWithFn p c lbl) (.recoverWithFn p' c lbl)
  | block {α : Type} {p p' : P σ τ ρ Γ α} : Exchanged R p p' → Exchanged R (.block p) (.block p')
  | aligned {α : Type} {p p' : P σ τ ρ Γ α} : Exchanged R p p' → Exchanged R (.aligned p) (.aligned p')
  | indented {α : Type} {p p' : P σ τ ρ Γ α} (delta : Int) : Exchanged R p p' →
      Exchanged R (.indented delta p) (.indented delta p')

/-- The definitions `env'` are those of `env` with parts exchanged. The same `Delay` objects are defined. -/
def ExchangedDefs (R : (α : Type) → P σ τ ρ Γ α → P σ τ ρ Γ α → Prop) (env env' : Env σ τ ρ Γ) : Prop :=
  ∀ i, (env i = none ∧ env' i = none) ∨ ∃ p p', env i = some p ∧ env' i = some p' ∧ Exchanged R p p'

/-- A `Delay` object, and what it is defined as. -/
inductive Unfolds (env : Env σ τ ρ Γ) : (α : Type) → P σ τ ρ Γ α → P σ τ ρ Γ α → Prop
  | mk {i : ρ} {p : P σ τ ρ Γ (Γ i)} : env i = some p → Unfolds env (Γ i) (.ref i) p

/-! ### Another representation of the user's state -/

/-- The callback `c'` does with its state what `c` does with its own: from states that correspond to each other, they
return (or raise) the same and leave states that correspond to each other. -/
def Corresponds (R : σ → σ' → Prop) (c : Callback σ α β) (c' : Callback σ' α β) : Prop :=
  ∀ a st st', R st st' → (c.run a st).1 = (c'.run a st').1 ∧ R (c.run a st).2 (c'.run a st').2

/-- The same parser with callbacks that correspond to each other. -/
inductive Represents (R : σ → σ' → Prop) : {α : Type} → P σ τ ρ Γ α → P σ' τ ρ Γ α → Prop
  | pure {α : Type} (x : α) : Represents R (.pure x) (.pure x)
  | pureFn {α : Type} {c : Callback σ Unit α} {c' : Callback σ' Unit α} : Corresponds R c c' →
      Represents R (.pureFn c) (.pureFn c')
  | unexpected (x : String) : Represents R (.unexpected x) (.unexpected x)
  | eof : Represents R .eof .eof
  | satisfy {c : Callback σ τ Bool} {c' : Callback σ' τ Bool} : Corresponds R c c' →
      Represents R (.satisfy c) (.satisfy c')
  | sym (x : τ) (l : String) : Represents R (.sym x l) (.sym x l)
  | literal (x : List τ) (ss : String) (h : x ≠ []) : Represents R (.literal x ss h) (.literal x ss h)
  | regexp {β : Type} (m : Matcher τ β) : Represents R (.regexp m) (.regexp m)
  | fmap {α β : Type} {p : P σ τ ρ Γ α} {p' : P σ' τ ρ Γ α} {c : Callback σ α β} {c' : Callback σ' α β} :
      Represents R p p' → Corresponds R c c' → Represents R (.fmap p c) (.fmap p' c')
  | alt {α : Type} {p q : P σ τ ρ Γ α} {p' q' : P σ' τ ρ Γ α} : Represents R p p' → Represents R q q' →
      Represents R (.alt p q) (.alt p' q')
  | bind {α ι β : Type} {p : P σ τ ρ Γ α} {p' : P σ' τ ρ Γ α} {c : Callback σ α ι} {c' : Callback σ' α ι}
      {k : ι → P σ τ ρ Γ β} {k' : ι → P σ' τ ρ Γ β} : Represents R p p' → Corresponds R c c' →
      (∀ i, Represents R (k i) (k' i)) → Represents R (.bind p c k) (.bind p' c' k')
  | seqWith {α β γ : Type} {p : P σ τ ρ Γ α} {p' : P σ' τ ρ Γ α} {q : P σ τ ρ Γ β} {q' : P σ' τ ρ Γ β}
      (merge : α → β → γ) : Represents R p p' → Represents R q q' →
      Represents R (.seqWith p q merge) (.seqWith p' q' merge)
  | maybe {α : Type} {p : P σ τ ρ Γ α} {p' : P σ' τ ρ Γ α} : Represents R p p' →
      Represents R (.maybe p) (.maybe p')
  | many {α : Type} {p : P σ τ ρ Γ α} {p' : P σ' τ ρ Γ α} : Represents R p p' →
      Represents R (.many p) (.many p')
  | attempt {α : Type} {p : P σ τ ρ Γ α} {p' : P σ' τ ρ Γ α} : Represents R p p' →
      Represents R (.attempt p) (.attempt p')
  | label {α : Type} {p : P σ τ ρ Γ α} {p' : P σ' τ ρ Γ α} (x : String) : Represents R p p' →
      Represents R (.label p x) (.label p' x)
  | recover {α : Type} {p : P σ τ ρ Γ α} {p' : P σ' τ ρ Γ α} : Represents R p p' →
      Represents R (.recover p) (.recover p')
  | recoverWith {α : Type} {p : P σ τ ρ Γ α} {p' : P σ' τ ρ Γ α} (x : α) (vs : String) : Represents R p p' →
      Represents R (.recoverWith p x vs) (.recoverWith p' x vs)
  | recoverWithFn {α : Type} {p : P σ τ ρ Γ α} {p' : P σ' τ ρ Γ α} {c : Callback σ (List τ × Nat) α}
      {c' : Callback σ' (List τ × Nat) α} (lbl : α → String) : Represents R p p' → Corresponds R c c' →
      Represents R (.recoverWithFn p c lbl) (.recoverWithFn p' c' lbl)
  | block {α : Type} {p : P σ τ ρ Γ α} {p' : P σ' τ ρ Γ α} : Represents R p p' →
      Represents R (.block p) (.block p')
  | aligned {α : Type} {p : P σ τ ρ Γ α} {p' : P σ' τ ρ Γ α} : Represents R p p' →
      Represents R (.aligned p) (.aligned p')
  | indented {α : Type} {p : P σ τ ρ Γ α} {p' : P σ' τ ρ Γ α} (delta : Int) : Represents R p p' →
      Represents R (.indented delta p) (.indented delta p')
  | ref (i : ρ) : Represents R (.ref i) (.ref i)

/-- Also in all recursive definitions. -/
def RepresentsDefs (R : σ → σ' → Prop) (env : Env σ τ ρ Γ) (env' : Env σ' τ ρ Γ) : Prop :=
  ∀ i, (env i = none ∧ env' i = none) ∨ ∃ p p', env i = some p ∧ env' i = some p' ∧ Represents R p p'

end Eff

end Reparsec
