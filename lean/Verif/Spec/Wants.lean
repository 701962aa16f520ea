import Verif.Spec.LeftCalls
import Verif.Spec.Grammar

/-!
# What a parser looks for, and where

Specification for C49 and C51, for runs without recovery.
-/

namespace Reparsec

variable {τ ρ : Type} {Γ : ρ → Type} {α : Type} [BEq τ]

/-- `Wants env s ends p i ctx l q`: while `p` runs from position `i`, something described by `l` is
looked for at position `q` and not found there: a terminal is tried and rejects the input.
`l = none`: a terminal without a label. `label(p, x)` describes as `x` whatever `p` looks for at its
start, and, if `p` accepts the empty string, also that.

With `ends = true` this is everything that is looked for; with `ends = false` everything except what
an item of `many()` that is accepted looked for at the position where it ends: in
`(sym("a") << sym("b").maybe()).many()` on `ac`, the `b` at position 1. -/
inductive Wants (env : Env τ ρ Γ) (s : List τ) (ends : Bool) :
    {α : Type} → P τ ρ Γ α → Nat → Ctx τ → Option String → Nat → Prop
  | unexpected {x : String} {i : Nat} {c : Ctx τ} : Wants env s ends (.unexpected x) i c (some x) i
  | eof {i : Nat} {c : Ctx τ} : i ≠ s.length → Wants env s ends .eof i c (some "end of file") i
  | satisfy {test : τ → Except Exn Bool} {i : Nat} {c : Ctx τ} :
      (∀ t, s[i]? = some t → test t = .ok false) → Wants env s ends (.satisfy test) i c none i
  | sym {x : τ} {l : String} {i : Nat} {c : Ctx τ} :
      (∀ t, s[i]? = some t → (t == x) = false) → Wants env s ends (.sym x l) i c (some l) i
  | literal {x : List τ} {l : String} {h : x ≠ []} {i : Nat} {c : Ctx τ} :
      x.isPrefixOf (s.drop i) = false → Wants env s ends (.literal x l h) i c (some l) i
  | regexp {α : Type} {m : Matcher τ α} {i : Nat} {c : Ctx τ} :
      (∀ j v, m.run s i ≠ some (j, .ok (some v))) → Wants env s ends (.regexp m) i c none i
  | fmap {α β : Type} {p : P τ ρ Γ α} {fn : α → Except Exn β} {i c l q} :
      Wants env s ends p i c l q → Wants env s ends (.fmap p fn) i c l q
  | altFirst {α : Type} {p p' : P τ ρ Γ α} {i c l q} :
      Wants env s ends p i c l q → Wants env s ends (.alt p p') i c l q
  | altSecond {α : Type} {p p' : P τ ρ Γ α} {i c l q} {e : Err} :
      Fails env p s i c e → e.consumed = false → Wants env s ends p' i c l q →
      Wants env s ends (.alt p p') i c l q
  | bindFirst {α β : Type} {p : P τ ρ Γ α} {k : α → P τ ρ Γ β} {i c l q} :
      Wants env s ends p i c l q → Wants env s ends (.bind p k) i c l q
  | bindSecond {α β : Type} {p : P τ ρ Γ α} {k : α → P τ ρ Γ β} {i c l q} {a j c'} :
      Reads env p s i c a j c' → Wants env s ends (k a) j c' l q → Wants env s ends (.bind p k) i c l q
  | seqFirst {α β γ : Type} {p : P τ ρ Γ α} {p' : P τ ρ Γ β} {m : α → β → γ} {i c l q} :
      Wants env s ends p i c l q → Wants env s ends (.seqWith p p' m) i c l q
  | seqSecond {α β γ : Type} {p : P τ ρ Γ α} {p' : P τ ρ Γ β} {m : α → β → γ} {i c l q} {a j c'} :
      Reads env p s i c a j c' → Wants env s ends p' j c' l q → Wants env s ends (.seqWith p p' m) i c l q
  | maybe {α : Type} {p : P τ ρ Γ α} {i c l q} :
      Wants env s ends p i c l q → Wants env s ends (.maybe p) i c l q
  | manyFirst {α : Type} {p : P τ ρ Γ α} {i c l q} :
      Wants env s ends p i c l q → (ends = false → ∀ a c', ¬ Reads env p s i c a q c') →
      Wants env s ends (.many p) i c l q
  | manyLater {α : Type} {p : P τ ρ Γ α} {i c l q} {a j c'} :
      Reads env p s i c a j c' → Wants env s ends (.many p) j c' l q → Wants env s ends (.many p) i c l q
  | attempt {α : Type} {p : P τ ρ Γ α} {i c l q} :
      Wants env s ends p i c l q → Wants env s ends (.attempt p) i c l q
  | labelHere {α : Type} {p : P τ ρ Γ α} {x : String} {i c l} :
      Wants env s ends p i c l i → Wants env s ends (.label p x) i c (some x) i
  | labelEmpty {α : Type} {p : P τ ρ Γ α} {x : String} {i c} {a c'} :
      Reads env p s i c a i c' → Wants env s ends (.label p x) i c (some x) i
  | labelLater {α : Type} {p : P τ ρ Γ α} {x : String} {i c l q} :
      Wants env s ends p i c l q → q ≠ i → Wants env s ends (.label p x) i c l q
  | recover {α : Type} {p : P τ ρ Γ α} {i c l q} :
      Wants env s ends p i c l q → Wants env s ends (.recover p) i c l q
  | recoverWith {α : Type} {p : P τ ρ Γ α} {x : α} {vs : String} {i c l q} :
      Wants env s ends p i c l q → Wants env s ends (.recoverWith p x vs) i c l q
  | recoverWithFn {α : Type} {p : P τ ρ Γ α} {fn : List τ → Nat → Except Exn α}
      {lbl : α → String} {i c l q} :
      Wants env s ends p i c l q → Wants env s ends (.recoverWithFn p fn lbl) i c l q
  | block {α : Type} {p : P τ ρ Γ α} {i c l q} :
      Wants env s ends p i ((c.updateLoc s i).setMark (c.updateLoc s i).loc.col) l q →
      Wants env s ends (.block p) i c l q
  | aligned {α : Type} {p : P τ ρ Γ α} {i c l q} :
      c.mark = (c.updateLoc s i).loc.col → Wants env s ends p i (c.updateLoc s i) l q →
      Wants env s ends (.aligned p) i c l q
  | notAligned {α : Type} {p : P τ ρ Γ α} {i c} : c.mark ≠ (c.updateLoc s i).loc.col →
      Wants env s ends (.aligned p) i c (some "indentation") i
  | indented {α : Type} {p : P τ ρ Γ α} {d : Int} {i c l q} :
      (c.mark : Int) + d = (c.updateLoc s i).loc.col →
      Wants env s ends p i ((c.updateLoc s i).setMark (c.updateLoc s i).loc.col) l q →
      Wants env s ends (.indented d p) i c l q
  | notIndented {α : Type} {p : P τ ρ Γ α} {d : Int} {i c} :
      (c.mark : Int) + d ≠ (c.updateLoc s i).loc.col →
      Wants env s ends (.indented d p) i c (some "indentation") i
  | ref {x : ρ} {p : P τ ρ Γ (Γ x)} {i c l q} :
      env x = some p → Wants env s ends p i c l q → Wants env s ends (.ref x) i c l q

/-- The node is not `attempt`. -/
def P.notAttempt : {α : Type} → P τ ρ Γ α → Prop
  | _, .attempt _ => False
  | _, _ => True

/-- If the node is `many(p)`: wherever `p` succeeds, it has not looked for anything where it ends
(as `sym("a")`, but not `sym("a") << sym("b").maybe()`, which looks for `b`). -/
def P.sharpItems (env : Env τ ρ Γ) : {α : Type} → P τ ρ Γ α → Prop
  | _, .many p => ∀ s i c a j c', Reads env p s i c a j c' → ∀ x, ¬ Wants env s true p i c (some x) j
  | _, _ => True

end Reparsec
