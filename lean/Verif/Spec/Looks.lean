import Verif.Spec.Wants

/-!
# What a parser looks for after some edits

Specification for C59.
-/

namespace Reparsec

variable {τ ρ : Type} {Γ : ρ → Type} {α : Type} [BEq τ]

/-- `Looks env s col p m i es l q`: reading the input `s` from position `i`, applying the edits `es`
on the way, the grammar `p` comes to position `q`, and looks there for something described by `l`
that is not there: everything the derivation read before `q` is fine, after the edits.
`l = none`: a terminal without a label. `label(p, x)` describes as `x` whatever `p` looks for at its
start before any edit, and, if `p` derives the empty string, also that. -/
inductive Looks (env : Env τ ρ Γ) (s : List τ) (col : Nat → Nat → Prop) :
    {α : Type} → P τ ρ Γ α → Nat → Nat → List Step → Option String → Nat → Prop
  | unexpected {x : String} {m i} : Looks env s col (.unexpected x) m i [] (some x) i
  | eof {m i} : i ≠ s.length → Looks env s col .eof m i [] (some "end of file") i
  | satisfy {test : τ → Except Exn Bool} {m i} :
      (∀ t, s[i]? = some t → test t = .ok false) → Looks env s col (.satisfy test) m i [] none i
  | sym {x : τ} {l : String} {m i} : (∀ t, s[i]? = some t → (t == x) = false) →
      Looks env s col (.sym x l) m i [] (some l) i
  | literal {x : List τ} {ss : String} {h : x ≠ []} {m i} :
      x.isPrefixOf (s.drop i) = false → Looks env s col (.literal x ss h) m i [] (some ss) i
  | regexp {β : Type} {mt : Matcher τ β} {m i} :
      (∀ j v, mt.run s i ≠ some (j, .ok (some v))) → Looks env s col (.regexp mt) m i [] none i
  | fmap {α β : Type} {p : P τ ρ Γ α} {fn : α → Except Exn β} {m i es l q} :
      Looks env s col p m i es l q → Looks env s col (.fmap p fn) m i es l q
  | altL {α : Type} {p p' : P τ ρ Γ α} {m i es l q} :
      Looks env s col p m i es l q → Looks env s col (.alt p p') m i es l q
  | altR {α : Type} {p p' : P τ ρ Γ α} {m i es l q} :
      Looks env s col p' m i es l q → Looks env s col (.alt p p') m i es l q
  | bindL {α β : Type} {p : P τ ρ Γ α} {k : α → P τ ρ Γ β} {m i es l q} :
      Looks env s col p m i es l q → Looks env s col (.bind p k) m i es l q
  | bindR {α β : Type} {p : P τ ρ Γ α} {k : α → P τ ρ Γ β} {m i es a j es' l q} :
      Der env s col p m i es a j → Looks env s col (k a) m j es' l q →
      Looks env s col (.bind p k) m i (es ++ es') l q
  | seqL {α β γ : Type} {p : P τ ρ Γ α} {p' : P τ ρ Γ β} {merge : α → β → γ} {m i es l q} :
      Looks env s col p m i es l q → Looks env s col (.seqWith p p' merge) m i es l q
  | seqR {α β γ : Type} {p : P τ ρ Γ α} {p' : P τ ρ Γ β} {merge : α → β → γ}
      {m i es a j es' l q} :
      Der env s col p m i es a j → Looks env s col p' m j es' l q →
      Looks env s col (.seqWith p p' merge) m i (es ++ es') l q
  | maybe {α : Type} {p : P τ ρ Γ α} {m i es l q} :
      Looks env s col p m i es l q → Looks env s col (.maybe p) m i es l q
  | manyHere {α : Type} {p : P τ ρ Γ α} {m i es l q} :
      Looks env s col p m i es l q → Looks env s col (.many p) m i es l q
  | manyLater {α : Type} {p : P τ ρ Γ α} {m i es v j es' l q} : Der env s col p m i es v j →
      Looks env s col (.many p) m j es' l q → Looks env s col (.many p) m i (es ++ es') l q
  | attempt {α : Type} {p : P τ ρ Γ α} {m i es l q} :
      Looks env s col p m i es l q → Looks env s col (.attempt p) m i es l q
  | labelHere {α : Type} {p : P τ ρ Γ α} {x : String} {m i l} :
      Looks env s col p m i [] l i → Looks env s col (.label p x) m i [] (some x) i
  | labelEmpty {α : Type} {p : P τ ρ Γ α} {x : String} {m i v} :
      Der env s col p m i [] v i → Looks env s col (.label p x) m i [] (some x) i
  | labelLater {α : Type} {p : P τ ρ Γ α} {x : String} {m i es l q} :
      Looks env s col p m i es l q → es ≠ [] ∨ q ≠ i → Looks env s col (.label p x) m i es l q
  | recover {α : Type} {p : P τ ρ Γ α} {m i es l q} :
      Looks env s col p m i es l q → Looks env s col (.recover p) m i (es.map Step.asked) l q
  | recoverWith {α : Type} {p : P τ ρ Γ α} {x : α} {vs : String} {m i es l q} :
      Looks env s col p m i es l q → Looks env s col (.recoverWith p x vs) m i es l q
  | recoverWithFn {α : Type} {p : P τ ρ Γ α} {fn : List τ → Nat → Except Exn α}
      {lbl : α → String} {m i es l q} :
      Looks env s col p m i es l q → Looks env s col (.recoverWithFn p fn lbl) m i es l q
  | block {α : Type} {p : P τ ρ Γ α} {m c i es l q} : col i c →
      Looks env s col p c i es l q → Looks env s col (.block p) m i es l q
  | aligned {α : Type} {p : P τ ρ Γ α} {m i es l q} : col i m →
      Looks env s col p m i es l q → Looks env s col (.aligned p) m i es l q
  /-- the current column is not the mark -/
  | notAligned {α : Type} {p : P τ ρ Γ α} {m c i} : col i c → c ≠ m →
      Looks env s col (.aligned p) m i [] (some "indentation") i
  | indented {α : Type} {p : P τ ρ Γ α} {delta : Int} {m c : Nat} {i es l q} : col i c →
      (m : Int) + delta = c → Looks env s col p c i es l q →
      Looks env s col (.indented delta p) m i es l q
  /-- the current column is not the mark plus `delta` -/
  | notIndented {α : Type} {p : P τ ρ Γ α} {delta : Int} {m c : Nat} {i} : col i c →
      (m : Int) + delta ≠ c → Looks env s col (.indented delta p) m i [] (some "indentation") i
  | ref {x : ρ} {p : P τ ρ Γ (Γ x)} {m i es l q} : env x = some p →
      Looks env s col p m i es l q → Looks env s col (.ref x) m i es l q

/-- None of the edits drops all the rest of an input of length `n`. (Only `eof()` does that: every
other parser skips up to something that it then reads.) -/
def NoDrop (n : Nat) (es : List Edit) : Prop :=
  ∀ e ∈ es, ∀ k, e.op = .skip k → e.pos + k < n

end Reparsec
