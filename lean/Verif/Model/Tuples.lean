import Verif.Model.Parser

/-!
# The classes `TupleParser`, `Tuple2`, ..., `Tuple8`

`Model/Parser` types the values of parsers and writes tuples as nested pairs. Here values are Python's: untyped,
with flat tuples; and parser objects have a class, which decides what `then` and `apply` mean.
-/

namespace Reparsec

/-- Python values, as far as they are tuples. -/
inductive PyVal (A : Type) where
  | atom (a : A)
  | tuple (vs : List (PyVal A))

/-- `*v` in a display or a call: the components of a tuple. Simplification: unpacking anything else is an
error in Python; it does not happen (`C73_values`). -/
def PyVal.star {A : Type} : PyVal A → List (PyVal A)
  | .tuple vs => vs
  | .atom a => [.atom a]

/-- The class of a parser object: `single` for subclasses of `TupleParser` (`FnParser`, `Delay`),
`parser.py:458-484,505,740`; `tuple n` for `Tuple2`, ..., `Tuple8`, `parser.py:519-737`. -/
inductive PyCls where
  | single
  | tuple (n : Nat)
deriving DecidableEq

/-- A parser object. -/
structure PyParser (τ ρ : Type) (Γ : ρ → Type) (A : Type) where
  cls : PyCls
  p : P τ ρ Γ (PyVal A)

namespace PyParser

variable {τ ρ : Type} {Γ : ρ → Type} {A : Type}

/-- What Python raises if the class has no such method. -/
def noAttribute : Exn := .user "AttributeError"

/-- `p + q`, `parser.py:151-171,834-844`, `core/combinators.py:220-223`: an `FnParser`, whatever the classes
of the operands are. -/
def add (p q : PyParser τ ρ Γ A) : PyParser τ ρ Γ A :=
  ⟨.single, .seqWith p.p q.p fun l r => .tuple [l, r]⟩

/-- `fmap`, `parser.py:57-69,809-817`: an `FnParser`. (So are the results of all other methods.) -/
def fmap (p : PyParser τ ρ Γ A) (fn : PyVal A → Except Exn (PyVal A)) : PyParser τ ρ Γ A :=
  ⟨.single, .fmap p.p fn⟩

/-- `TupleParser.then`, `parser.py:464-484`, is `seq`; `Tuple2.then`, ..., `Tuple7.then`,
`parser.py:524-533,554-563,586-595,620-629,654-663,688-697`, are `tuple3`, ..., `tuple8`,
`core/combinators.py:236-290`; `Tuple8` (`parser.py:717-731`) has no `then`. -/
def then_ (p q : PyParser τ ρ Γ A) : Except Exn (PyParser τ ρ Γ A) :=
  match p.cls with
  | .single => .ok ⟨.tuple 2, .seqWith p.p q.p fun l r => .tuple [l, r]⟩
  | .tuple n =>
    if n < 8 then .ok ⟨.tuple (n + 1), .seqWith p.p q.p fun a b => .tuple (a.star ++ [b])⟩
    else .error noAttribute

/-- `Tuple2.apply`, ..., `Tuple8.apply`,
`parser.py:535-542,565-572,597-606,631-640,665-674,699-708,722-731`; there is no `TupleParser.apply`. -/
def apply (p : PyParser τ ρ Γ A) (fn : List (PyVal A) → Except Exn (PyVal A)) :
    Except Exn (PyParser τ ρ Γ A) :=
  match p.cls with
  | .single => .error noAttribute
  | .tuple _ => .ok (p.fmap fun t => fn t.star)

/-- `p.then(q1).then(q2)...`, as the user writes it. -/
def thenAll (p : PyParser τ ρ Γ A) : List (PyParser τ ρ Γ A) → Except Exn (PyParser τ ρ Γ A)
  | [] => .ok p
  | q :: qs => (p.then_ q).bind fun t => t.thenAll qs

end PyParser

end Reparsec
