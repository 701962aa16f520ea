import Verif.Model.Stack
import Verif.Spec.Run

/-!
# Running a parser with a limited stack
-/

namespace Reparsec

variable {τ ρ : Type} {Γ : ρ → Type} {α : Type} [BEq τ]

/-- `p.parse(s, ..)`, called when `d` more stack frames may be used, returns `r`. -/
def ReturnsIn (d : Nat) (env : Env τ ρ Γ) (p : P τ ρ Γ α) (s : List τ) (o : Opts τ)
    (r : Result τ α) : Prop :=
  ∃ fuel, Stk.parse env fuel (some d) p s o.recover o.maxInsertions o.getLoc = .ret r

/-- `p.parse(s, ..)`, called when `d` more stack frames may be used, raises `e`. -/
def RaisesIn (d : Nat) (env : Env τ ρ Γ) (p : P τ ρ Γ α) (s : List τ) (o : Opts τ) (e : Exn) :
    Prop :=
  ∃ fuel, Stk.parse env fuel (some d) p s o.recover o.maxInsertions o.getLoc = .raise e

/-- With `d` frames the call does just what it does without a limit: it returns the same, or raises the same. -/
def Suffices (d : Nat) (env : Env τ ρ Γ) (p : P τ ρ Γ α) (s : List τ) (o : Opts τ) : Prop :=
  (∀ r, ReturnsIn d env p s o r ↔ Returns env p s o r) ∧
    ∀ e, RaisesIn d env p s o e ↔ Raises env p s o e

/-- The parser expression is at most `h` high, and has no `Delay` objects. (Below `bind` a level counts
twice, since the parsers made by the callback are called through a method. The height of a `bind` whose
callback makes higher and higher parsers is unbounded.) -/
inductive Height {τ ρ : Type} {Γ : ρ → Type} : {α : Type} → P τ ρ Γ α → Nat → Prop
  | pure {α : Type} {h : Nat} (x : α) : Height (.pure x) (h + 1)
  | pureFn {α : Type} {h : Nat} (x : Except Exn α) : Height (.pureFn x) (h + 1)
  | unexpected {h : Nat} (x : String) : Height (.unexpected x) (h + 1)
  | eof {h : Nat} : Height .eof (h + 1)
  | satisfy {h : Nat} (test : τ → Except Exn Bool) : Height (.satisfy test) (h + 1)
  | sym {h : Nat} (x : τ) (l : String) : Height (.sym x l) (h + 1)
  | literal {h : Nat} (x : List τ) (ss : String) (hx : x ≠ []) : Height (.literal x ss hx) (h + 1)
  | regexp {β : Type} {h : Nat} (m : Matcher τ β) : Height (.regexp m) (h + 1)
  | fmap {α β : Type} {h : Nat} {p : P τ ρ Γ α} (fn : α → Except Exn β) : Height p h →
      Height (.fmap p fn) (h + 1)
  | alt {α : Type} {h : Nat} {p q : P τ ρ Γ α} : Height p h → Height q h →
      Height (.alt p q) (h + 1)
  | bind {α β : Type} {h : Nat} {p : P τ ρ Γ α} {k : α → P τ ρ Γ β} : Height p h →
      (∀ a, Height (k a) h) → Height (.bind p k) (h + 2)
  | seqWith {α β γ : Type} {h : Nat} {p : P τ ρ Γ α} {q : P τ ρ Γ β} (m : α → β → γ) :
      Height p h → Height q h → Height (.seqWith p q m) (h + 1)
  | maybe {α : Type} {h : Nat} {p : P τ ρ Γ α} : Height p h → Height (.maybe p) (h + 1)
  | many {α : Type} {h : Nat} {p : P τ ρ Γ α} : Height p h → Height (.many p) (h + 1)
  | attempt {α : Type} {h : Nat} {p : P τ ρ Γ α} : Height p h → Height (.attempt p) (h + 1)
  | label {α : Type} {h : Nat} {p : P τ ρ Γ α} (x : String) : Height p h →
      Height (.label p x) (h + 1)
  | recover {α : Type} {h : Nat} {p : P τ ρ Γ α} : Height p h → Height (.recover p) (h + 1)
  | recoverWith {α : Type} {h : Nat} {p : P τ ρ Γ α} (x : α) (vs : String) : Height p h →
      Height (.recoverWith p x vs) (h + 1)
  | recoverWithFn {α : Type} {h : Nat} {p : P τ ρ Γ α} (fn : List τ → Nat → Except Exn α)
      (lbl : α → String) : Height p h → Height (.recoverWithFn p fn lbl) (h + 1)
  | block {α : Type} {h : Nat} {p : P τ ρ Γ α} : Height p h → Height (.block p) (h + 1)
  | aligned {α : Type} {h : Nat} {p : P τ ρ Γ α} : Height p h → Height (.aligned p) (h + 1)
  | indented {α : Type} {h : Nat} {p : P τ ρ Γ α} (d : Int) : Height p h →
      Height (.indented d p) (h + 1)

end Reparsec
