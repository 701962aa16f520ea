import Verif.Spec.Grammar

/-!
# Where an exception can come from

Specification for C69.  As `Der` and `Stuck`: only the syntax of parsers, the input and positions.
-/

namespace Reparsec

variable {τ ρ : Type} {Γ : ρ → Type} {α : Type}

/-- What happened when an exception was raised. -/
inductive Source where
  /-- a function given by the user was called, and raised it -/
  | callback
  /-- a regular expression has no such group -/
  | group
  /-- a `Delay` was used that is not defined -/
  | undefined
  /-- an item of `many` accepted the empty string -/
  | emptyItem
deriving DecidableEq, Repr

/-- `Throws env s col ed p m i src e`: reading the input `s` from position `i`, the grammar `p` can come to a place
where `e` is raised, because of `src`.  A callback is applied only to values that have been derived for its
parser (`Der`), or to elements of the input.  `ed` says whether edits are allowed on the way. -/
inductive Throws [BEq τ] (env : Env τ ρ Γ) (s : List τ) (col : Nat → Nat → Prop) (ed : Bool) :
    {α : Type} → P τ ρ Γ α → Nat → Nat → Source → Exn → Prop
  | pureFn {α : Type} {x : Except Exn α} {e m i} : x = .error e →
      Throws env s col ed (.pureFn x) m i .callback e
  /-- the test raised on an element of the input, not before `i` -/
  | satisfy {test : τ → Except Exn Bool} {t : τ} {e m i j} : i ≤ j →
      (ed = false → j = i) → s[j]? = some t →
      test t = .error e → Throws env s col ed (.satisfy test) m i .callback e
  | regexp {β : Type} {mt : Matcher τ β} {e m i j l} : i ≤ j →
      (ed = false → j = i) → mt.run s j = some (l, .error e) →
      Throws env s col ed (.regexp mt) m i .group e
  /-- the function raised on a value of `p` -/
  | fmap {α β : Type} {p : P τ ρ Γ α} {fn : α → Except Exn β} {m i es a j e} :
      Der env s col p m i es a j → (ed = false → es = []) → fn a = .error e →
      Throws env s col ed (.fmap p fn) m i .callback e
  | fmapIn {α β : Type} {p : P τ ρ Γ α} {fn : α → Except Exn β} {m i src e} :
      Throws env s col ed p m i src e → Throws env s col ed (.fmap p fn) m i src e
  | altL {α : Type} {p q : P τ ρ Γ α} {m i src e} :
      Throws env s col ed p m i src e → Throws env s col ed (.alt p q) m i src e
  | altR {α : Type} {p q : P τ ρ Γ α} {m i src e} :
      Throws env s col ed q m i src e → Throws env s col ed (.alt p q) m i src e
  | bindL {α β : Type} {p : P τ ρ Γ α} {k : α → P τ ρ Γ β} {m i src e} :
      Throws env s col ed p m i src e → Throws env s col ed (.bind p k) m i src e
  | bindR {α β : Type} {p : P τ ρ Γ α} {k : α → P τ ρ Γ β} {m i es a j src e} :
      Der env s col p m i es a j → (ed = false → es = []) → Throws env s col ed (k a) m j src e →
      Throws env s col ed (.bind p k) m i src e
  | seqL {α β γ : Type} {p : P τ ρ Γ α} {q : P τ ρ Γ β} {merge : α → β → γ} {m i src e} :
      Throws env s col ed p m i src e → Throws env s col ed (.seqWith p q merge) m i src e
  | seqR {α β γ : Type} {p : P τ ρ Γ α} {q : P τ ρ Γ β} {merge : α → β → γ} {m i es a j src e} :
      Der env s col p m i es a j → (ed = false → es = []) → Throws env s col ed q m j src e →
      Throws env s col ed (.seqWith p q merge) m i src e
  | maybe {α : Type} {p : P τ ρ Γ α} {m i src e} :
      Throws env s col ed p m i src e → Throws env s col ed (.maybe p) m i src e
  | manyHere {α : Type} {p : P τ ρ Γ α} {m i src e} :
      Throws env s col ed p m i src e → Throws env s col ed (.many p) m i src e
  | manyLater {α : Type} {p : P τ ρ Γ α} {m i es v j src e} : Der env s col p m i es v j →
      (ed = false → es = []) → Throws env s col ed (.many p) m j src e → Throws env s col ed (.many p) m i src e
  /-- the item is accepted without reading anything and without any edit -/
  | manyEmpty {α : Type} {p : P τ ρ Γ α} {m i v} : Der env s col p m i [] v i →
      Throws env s col ed (.many p) m i .emptyItem
        (.runtimeError "parser shouldn't accept empty string")
  | attempt {α : Type} {p : P τ ρ Γ α} {m i src e} :
      Throws env s col ed p m i src e → Throws env s col ed (.attempt p) m i src e
  | label {α : Type} {p : P τ ρ Γ α} {x : String} {m i src e} :
      Throws env s col ed p m i src e → Throws env s col ed (.label p x) m i src e
  | recover {α : Type} {p : P τ ρ Γ α} {m i src e} :
      Throws env s col ed p m i src e → Throws env s col ed (.recover p) m i src e
  | recoverWith {α : Type} {p : P τ ρ Γ α} {x : α} {vs : String} {m i src e} :
      Throws env s col ed p m i src e → Throws env s col ed (.recoverWith p x vs) m i src e
  | recoverWithFn {α : Type} {p : P τ ρ Γ α} {fn : List τ → Nat → Except Exn α}
      {lbl : α → String} {m i src e} :
      Throws env s col ed p m i src e → Throws env s col ed (.recoverWithFn p fn lbl) m i src e
  /-- the function that makes the value to be inserted raised -/
  | recoverWithFnHere {α : Type} {p : P τ ρ Γ α} {fn : List τ → Nat → Except Exn α}
      {lbl : α → String} {m i e} : ed = true → fn s i = .error e →
      Throws env s col ed (.recoverWithFn p fn lbl) m i .callback e
  | block {α : Type} {p : P τ ρ Γ α} {m c i src e} : col i c → Throws env s col ed p c i src e →
      Throws env s col ed (.block p) m i src e
  | aligned {α : Type} {p : P τ ρ Γ α} {m i src e} : col i m → Throws env s col ed p m i src e →
      Throws env s col ed (.aligned p) m i src e
  | indented {α : Type} {p : P τ ρ Γ α} {delta : Int} {m c : Nat} {i src e} : col i c →
      (m : Int) + delta = c → Throws env s col ed p c i src e →
      Throws env s col ed (.indented delta p) m i src e
  | ref {x : ρ} {p : P τ ρ Γ (Γ x)} {m i src e} : env x = some p →
      Throws env s col ed p m i src e → Throws env s col ed (.ref x) m i src e
  | refUndefined {x : ρ} {m i} : env x = none → Throws env s col ed (.ref x) m i .undefined
      (.runtimeError "Delayed parser was not defined")

/-- The functions given to this node never raise. -/
def P.calm : {α : Type} → P τ ρ Γ α → Prop
  | _, .pureFn x => ∃ v, x = .ok v
  | _, .satisfy test => ∀ t, ∃ b, test t = .ok b
  | _, .regexp mt => ∀ s j l e, mt.run s j ≠ some (l, .error e)
  | _, .fmap _ fn => ∀ a, ∃ b, fn a = .ok b
  | _, .recoverWithFn _ fn _ => ∀ s i, ∃ v, fn s i = .ok v
  | _, _ => True

/-- With the input `s`, the functions given to this node raise only exceptions in `E`, when they are applied to values
that their parsers can give. -/
def P.raisesOnly [BEq τ] (env : Env τ ρ Γ) (s : List τ) (E : Exn → Prop) : {α : Type} → P τ ρ Γ α → Prop
  | _, .pureFn x => ∀ e, x = .error e → E e
  | _, .satisfy test => ∀ t ∈ s, ∀ e, test t = .error e → E e
  | _, .regexp mt => ∀ j l e, mt.run s j = some (l, .error e) → E e
  | _, .fmap p fn => ∀ col m i es a j e, i ≤ s.length → Der env s col p m i es a j →
      fn a = .error e → E e
  | _, .recoverWithFn _ fn _ => ∀ i e, fn s i = .error e → E e
  | _, _ => True

/-- Every `Delay` object that occurs is defined. -/
def P.defined (env : Env τ ρ Γ) : {α : Type} → P τ ρ Γ α → Prop
  | _, .ref x => env x ≠ none
  | _, _ => True

/-- Where `many` is used, its item never accepts the empty string. -/
def P.properMany [BEq τ] (env : Env τ ρ Γ) : {α : Type} → P τ ρ Γ α → Prop
  | _, .many p => ∀ (s : List τ) col m i v, i ≤ s.length → ¬ Der env s col p m i [] v i
  | _, _ => True

end Reparsec
