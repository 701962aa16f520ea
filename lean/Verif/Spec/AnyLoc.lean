import Verif.Lemmas.Recovery

/-!
# Specification: results that differ in their locations only (C76)

`R loc loc'` says which locations correspond; the context kept in a result is not looked at (it carries the
location bookkeeping and the `get_loc` function itself).
-/

namespace Reparsec

variable {τ α : Type}

/-- The same operation of a repair, at corresponding locations. -/
structure OpItem.Relocated (R : Loc → Loc → Prop) (i j : OpItem) : Prop where
  loc : R i.loc j.loc
  op : i.op = j.op
  expected : i.expected = j.expected
  consumed : i.consumed = j.consumed

/-- The same repair, at corresponding locations. -/
structure Repair.Relocated (R : Loc → Loc → Prop) (x y : Repair τ α) : Prop where
  cost : x.cost = y.cost
  prio : x.prio = none ↔ y.prio = none
  ins : x.ins = y.ins
  ops : Each (OpItem.Relocated R) x.ops y.ops
  value : x.value = y.value
  pos : x.pos = y.pos
  expected : x.expected = y.expected
  consumed : x.consumed = y.consumed

/-- The same result, at corresponding locations. -/
def Result.Relocated (R : Loc → Loc → Prop) : Result τ α → Result τ α → Prop
  | .ok x, .ok y => x.value = y.value ∧ x.pos = y.pos ∧ x.expected = y.expected
  | .error d, .error e => R d.loc e.loc ∧ d.expected = e.expected ∧ d.consumed = e.consumed
  | .recovered x, .recovered y => R x.loc y.loc ∧ x.expected = y.expected ∧ x.consumed = y.consumed ∧
      Each (Repair.Relocated R) x.repairs y.repairs
  | _, _ => False

/-- The same value; or the same errors, in the same order, at corresponding locations. -/
def RelocatedUnwrap (R : Loc → Loc → Prop) : Except ParseError α → Except ParseError α → Prop
  | .ok v, .ok v' => v = v'
  | .error d, .error e => Each (fun i j : ErrorItem => R i.loc j.loc ∧ i.expected = j.expected ∧ i.op = j.op)
      d.errors e.errors
  | _, _ => False

end Reparsec
