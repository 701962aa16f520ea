import Verif.Spec.Run

/-!
# Carrying on after a repair

Specification for C52 - C54: what the candidate repairs of a sequence are, given the candidates of
its first part and what the second part does after each of them.
-/

namespace Reparsec

variable {τ α β γ : Type}

/-- The operations of a repair `y` that follows the candidate `x`: those reported with nothing read
since `x` ended also expect what `x` left expected. -/
def Repair.opsAfter (x : Repair τ α) (y : Repair τ β) : List OpItem :=
  y.ops.map fun i =>
    if i.consumed then i
    else { i with expected := x.expected ++ i.expected, consumed := x.consumed }

/-- The candidates that `x` gives rise to, when the parser run after it gave `y`:

* it succeeded: `x`, ending where that parser ended; the budget of insertions is the full one again
  if that parser advanced;
* it was repaired: `x` followed by each of its repairs, in order, the costs added up;
* it failed: none. -/
def Repair.followedBy (k : Int) (merge : α → β → γ) (x : Repair τ α) :
    Result τ β → List (Repair τ γ)
  | .ok y =>
    [{ cost := x.cost, prio := x.prio, ins := if x.pos < y.pos then k else x.ins, ops := x.ops,
       value := merge x.value y.value, pos := y.pos, ctx := y.ctx,
       expected := if x.pos < y.pos then y.expected else x.expected ++ y.expected,
       consumed := x.consumed || decide (x.pos < y.pos) }]
  | .error _ => []
  | .recovered r =>
    r.repairs.map fun y =>
      { cost := x.cost + y.cost, prio := x.prio, ins := y.ins, ops := x.ops ++ x.opsAfter y,
        value := merge x.value y.value, pos := y.pos, ctx := y.ctx,
        expected := if y.consumed then y.expected else x.expected ++ y.expected,
        consumed := x.consumed || y.consumed }

/-- `Continues run k merge xs o`: carrying on from each of the candidates `xs`, in order, where
`run x` says what happens after `x`, gives all the candidates in `o`; the first exception, or the
first run that does not return, is that of the whole. -/
inductive Continues (run : Repair τ α → Out (Result τ β) → Prop) (k : Int) (merge : α → β → γ) :
    List (Repair τ α) → Out (List (Repair τ γ)) → Prop
  | nil : Continues run k merge [] (.ret [])
  | cons {x xs y zs} : run x (.ret y) → Continues run k merge xs (.ret zs) →
      Continues run k merge (x :: xs) (.ret (x.followedBy k merge y ++ zs))
  | raiseHere {x xs e} : run x (.raise e) → Continues run k merge (x :: xs) (.raise e)
  | raiseLater {x xs y e} : run x (.ret y) → Continues run k merge xs (.raise e) →
      Continues run k merge (x :: xs) (.raise e)
  | hangHere {x xs} : run x .diverge → Continues run k merge (x :: xs) .diverge
  | hangLater {x xs y} : run x (.ret y) → Continues run k merge xs .diverge →
      Continues run k merge (x :: xs) .diverge

/-- The same failure (location, expected list, whether input was consumed) with other candidates. -/
def Recovered.withRepairs (r : Recovered τ α) (reps : List (Repair τ γ)) : Recovered τ γ :=
  { repairs := reps, minPrio := r.minPrio, loc := r.loc, expected := r.expected,
    consumed := r.consumed }

end Reparsec
