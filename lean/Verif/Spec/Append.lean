import Verif.Model.AppendStack
import Verif.Spec.Run

/-!
# What `Append` objects stand for, and how deep they are nested

Specification for C83.
-/

namespace Reparsec.App

variable {τ α : Type}

/-- The strings one gets by iterating. -/
def Exp.toList : Exp → List String
  | .leaf l => l
  | .app a b => a.toList ++ b.toList

/-- How many `Append` objects are nested in each other. -/
def Exp.depth : Exp → Nat
  | .leaf _ => 0
  | .app a b => max a.depth b.depth + 1

/-! ### With lists for `Append` objects -/

/-- An operation with the list of what was expected. -/
def OpItem.flat (i : OpItem) : Reparsec.OpItem := ⟨i.op, i.loc, i.expected.toList, i.consumed⟩

/-- A repair with lists of what was expected. -/
def Repair.flat (r : Repair τ α) : Reparsec.Repair τ α :=
  { cost := r.cost, prio := r.prio, ins := r.ins, ops := r.ops.map OpItem.flat, value := r.value, pos := r.pos,
    ctx := r.ctx, expected := r.expected.toList, consumed := r.consumed }

/-- A success with the list of what was expected. -/
def Ok.flat (r : Ok τ α) : Reparsec.Ok τ α := ⟨r.value, r.pos, r.ctx, r.expected.toList, r.consumed⟩

/-- A failure with the list of what was expected. -/
def Err.flat (e : Err) : Reparsec.Err := ⟨e.loc, e.expected.toList, e.consumed⟩

/-- A result with lists of what was expected. -/
def Recovered.flat (r : Recovered τ α) : Reparsec.Recovered τ α :=
  ⟨r.repairs.map Repair.flat, r.minPrio, r.loc, r.expected.toList, r.consumed⟩

/-- A result with lists of what was expected. -/
def Simple.flat : Simple τ α → Reparsec.Simple τ α
  | .ok r => .ok r.flat
  | .error e => .error e.flat

/-- A result with lists of what was expected. -/
def Result.flat : Result τ α → Reparsec.Result τ α
  | .ok r => .ok r.flat
  | .error e => .error e.flat
  | .recovered r => .recovered r.flat

/-! ### How deep the objects in a result are nested -/

/-- No more than `n` levels in a repair. -/
def Repair.Within (n : Nat) (r : Repair τ α) : Prop :=
  r.expected.depth ≤ n ∧ ∀ i ∈ r.ops, i.expected.depth ≤ n

/-- No more than `n` levels. -/
def Simple.Within (n : Nat) : Simple τ α → Prop
  | .ok r => r.expected.depth ≤ n
  | .error e => e.expected.depth ≤ n

/-- No more than `n` levels. -/
def Result.Within (n : Nat) : Result τ α → Prop
  | .ok r => r.expected.depth ≤ n
  | .error e => e.expected.depth ≤ n
  | .recovered r => r.expected.depth ≤ n ∧ ∀ x ∈ r.repairs, x.Within n

end Reparsec.App

namespace Reparsec

variable {τ ρ : Type} {Γ : ρ → Type} {α : Type} [BEq τ]

/-- `p.parse(s, ..)`, called when `d` more stack frames may be used, returns `r`, with the `Append` objects in it. -/
def GivesIn (d : Nat) (env : Env τ ρ Γ) (p : P τ ρ Γ α) (s : List τ) (o : Opts τ) (r : App.Result τ α) : Prop :=
  ∃ fuel, App.Stk.parse env fuel (some d) p s o.recover o.maxInsertions o.getLoc = .ret r

/-- `p.parse(s, ..)`, with no limit of the stack, returns `r`, with the `Append` objects in it. -/
def Gives (env : Env τ ρ Γ) (p : P τ ρ Γ α) (s : List τ) (o : Opts τ) (r : App.Result τ α) : Prop :=
  ∃ fuel, App.Stk.parse env fuel none p s o.recover o.maxInsertions o.getLoc = .ret r

end Reparsec
