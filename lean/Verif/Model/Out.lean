/-!
# Outcomes of running Python code

Every modelled Python function that can raise, or that may fail to return, is a function
into `Out`.  Nothing in `/repo` is modelled in this file: it is the (trusted) encoding of
Python control flow as values.
-/

namespace Reparsec

/-- A location in the input. Models `Loc`, `src/reparsec/core/types.py:9-12`.
Simplification: the fields are natural numbers (Python: `int`). -/
structure Loc where
  pos : Nat
  line : Nat
  col : Nat
deriving DecidableEq, Repr

/-- Exceptions other than `ParseError`.
* `runtimeError`: `core/combinators.py:333,357`, `parser.py:758,763,789`;
* `valueError`: `core/scannerless.py:70`;
* `lexError`: `lexer.py:35-47,61`;
* `user`: whatever a user supplied callback raises. -/
inductive Exn where
  | runtimeError (msg : String)
  | valueError (msg : String)
  | lexError (loc : Loc)
  | user (tag : String)
deriving DecidableEq, Repr

/-- The outcome of running a piece of Python code with bounded fuel: it returned a value,
it raised, or the fuel ran out (`diverge`). -/
inductive Out (α : Type) where
  | diverge
  | raise (e : Exn)
  | ret (a : α)
deriving DecidableEq, Repr

namespace Out

variable {α β : Type}

/-- Sequencing: exceptions and divergence propagate. -/
protected def bind : Out α → (α → Out β) → Out β
  | diverge, _ => diverge
  | raise e, _ => raise e
  | ret a, f => f a

instance : Monad Out where
  pure := ret
  bind := Out.bind

@[simp] theorem bind_def (x : Out α) (f : α → Out β) : (x >>= f) = x.bind f := rfl
@[simp] theorem pure_def (a : α) : (pure a : Out α) = ret a := rfl
@[simp] theorem bind_diverge (f : α → Out β) : (diverge : Out α).bind f = diverge := rfl
@[simp] theorem bind_raise (e : Exn) (f : α → Out β) : (raise e : Out α).bind f = raise e := rfl
@[simp] theorem bind_ret (a : α) (f : α → Out β) : (ret a).bind f = f a := rfl

/-- A user callback either raises or returns. -/
def ofExcept : Except Exn α → Out α
  | .error e => raise e
  | .ok a => ret a

@[simp] theorem ofExcept_ok (a : α) : ofExcept (.ok a) = ret a := rfl
@[simp] theorem ofExcept_error (e : Exn) : (ofExcept (.error e) : Out α) = raise e := rfl

theorem bind_eq_ret {x : Out α} {f : α → Out β} {b : β} :
    x.bind f = ret b ↔ ∃ a, x = ret a ∧ f a = ret b := by
  cases x <;> simp

theorem bind_ne_diverge {x : Out α} {f : α → Out β} :
    x.bind f ≠ diverge ↔ x ≠ diverge ∧ ∀ a, x = ret a → f a ≠ diverge := by
  cases x <;> simp

theorem ofExcept_eq_ret {x : Except Exn α} {a : α} : ofExcept x = ret a ↔ x = .ok a := by
  cases x <;> simp [ofExcept]

@[simp] theorem ofExcept_ne_diverge (x : Except Exn α) : ofExcept x ≠ diverge := by
  cases x <;> simp [ofExcept]

theorem bind_assoc {γ : Type} (x : Out α) (f : α → Out β) (g : β → Out γ) :
    (x.bind f).bind g = x.bind fun a => (f a).bind g := by
  cases x <;> rfl

theorem bind_congr {x : Out α} {f g : α → Out β} (h : ∀ a, f a = g a) :
    x.bind f = x.bind g := by
  cases x <;> simp [h]

@[simp] theorem bind_ret_right (x : Out α) : x.bind ret = x := by
  cases x <;> rfl

end Out

end Reparsec
