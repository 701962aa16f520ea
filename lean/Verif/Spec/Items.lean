import Verif.Spec.Run

/-!
# Repetition, declaratively
-/

namespace Reparsec

variable {τ ρ : Type} {Γ : ρ → Type} {α β : Type} [BEq τ]

/-- `Items env p s i c vs j d`: `p`, run again and again from position `i`, succeeds
`vs.length` times in a row, each time advancing, with the values `vs`; the last one ends at `j`. -/
inductive Items (env : Env τ ρ Γ) (p : P τ ρ Γ α) (s : List τ) :
    Nat → Ctx τ → List α → Nat → Ctx τ → Prop
  | nil {i c} : Items env p s i c [] i c
  | cons {i c v k e vs j d} : Reads env p s i c v k e → i < k → Items env p s k e vs j d →
      Items env p s i c (v :: vs) j d

/-- `Tail env sep p s i c vs j d`: `sep` and then `p` succeed `vs.length` times in a row from `i`,
each pair advancing; `vs` are the values given by `sep` and by `p`. -/
inductive Tail (env : Env τ ρ Γ) (sep : P τ ρ Γ β) (p : P τ ρ Γ α) (s : List τ) :
    Nat → Ctx τ → List (β × α) → Nat → Ctx τ → Prop
  | nil {i c} : Tail env sep p s i c [] i c
  | cons {i c b k e v l f vs j d} : Reads env sep s i c b k e → Reads env p s k e v l f → i < l →
      Tail env sep p s l f vs j d → Tail env sep p s i c ((b, v) :: vs) j d

end Reparsec
