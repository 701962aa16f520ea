import Verif.Spec.Effects
import Verif.Spec.Eval

/-!
# What a parser with side effects does without recovery, as an evaluation relation

The relation of `Spec/Eval`, with the world threaded through it: which callbacks are called, on what,
in which order, and in which states. As there, nothing refers to the parse functions.
-/

namespace Reparsec

/-- The call of `c` on `a` in the world `w` gives `r` (a value or an exception) and leaves `w'`: the
state is what the callback made of it, and the record of calls is one entry longer. -/
inductive Calls {σ α β : Type} (c : Callback σ α β) (a : α) (w : World σ) :
    Except Exn β → World σ → Prop
  | mk {r : Except Exn β} {st : σ} : c.run a w.state = (r, st) →
      Calls c a w r ⟨st, w.calls ++ [⟨c.name, w.state⟩]⟩

namespace Eff

variable {σ τ ρ : Type} {Γ : ρ → Type} {α β : Type}

/-- `Eval env s col p m i w o w'`: without recovery, the parser `p`, started in the world `w` at
position `i` of the input `s` with the layout mark `m`, comes to `o` and leaves the world `w'`.
`col i c`: the column of position `i` is `c`. -/
inductive Eval [BEq τ] (env : Env σ τ ρ Γ) (s : List τ) (col : Nat → Nat → Prop) :
    {α : Type} → P σ τ ρ Γ α → Nat → Nat → World σ → Outcome α → World σ → Prop
  | pure {α : Type} {x : α} {m i w} : Eval env s col (.pure x) m i w (.accepts x i []) w
  | pureFn {α : Type} {c : Callback σ Unit α} {x : α} {m i w w'} : Calls c () w (.ok x) w' →
      Eval env s col (.pureFn c) m i w (.accepts x i []) w'
  | pureFnRaises {α : Type} {c : Callback σ Unit α} {e : Exn} {m i w w'} :
      Calls c () w (.error e) w' → Eval env s col (.pureFn c) m i w (.fails (.raises e)) w'
  | unexpected {x : String} {m i w} :
      Eval env s col (.unexpected x) m i w (.fails (.rejects i [x] false)) w
  | eof {m w} : Eval env s col .eof m s.length w (.accepts () s.length []) w
  | eofNot {m i w} : i ≠ s.length →
      Eval env s col .eof m i w (.fails (.rejects i ["end of file"] false)) w
  /-- the test is called once, on the element at the position -/
  | satisfy {c : Callback σ τ Bool} {t : τ} {m i w w'} : s[i]? = some t →
      Calls c t w (.ok true) w' → Eval env s col (.satisfy c) m i w (.accepts t (i + 1) []) w'
  | satisfyNot {c : Callback σ τ Bool} {t : τ} {m i w w'} : s[i]? = some t →
      Calls c t w (.ok false) w' →
      Eval env s col (.satisfy c) m i w (.fails (.rejects i [] false)) w'
  /-- at the end of the input it is not called -/
  | satisfyEnd {c : Callback σ τ Bool} {m i w} : s[i]? = none →
      Eval env s col (.satisfy c) m i w (.fails (.rejects i [] false)) w
  | satisfyRaises {c : Callback σ τ Bool} {t : τ} {e : Exn} {m i w w'} : s[i]? = some t →
      Calls c t w (.error e) w' → Eval env s col (.satisfy c) m i w (.fails (.raises e)) w'
  | sym {x t : τ} {l : String} {m i w} : s[i]? = some t → (t == x) = true →
      Eval env s col (.sym x l) m i w (.accepts t (i + 1) []) w
  | symNot {x : τ} {l : String} {m i w} : (∀ t, s[i]? = some t → (t == x) = false) →
      Eval env s col (.sym x l) m i w (.fails (.rejects i [l] false)) w
  | literal {x : List τ} {ss : String} {h : x ≠ []} {m i w} : x.isPrefixOf (s.drop i) = true →
      Eval env s col (.literal x ss h) m i w (.accepts x (i + x.length) []) w
  | literalNot {x : List τ} {ss : String} {h : x ≠ []} {m i w} : x.isPrefixOf (s.drop i) = false →
      Eval env s col (.literal x ss h) m i w (.fails (.rejects i [ss] false)) w
  | regexp {β : Type} {mt : Matcher τ β} {v : β} {m i j w} : mt.run s i = some (j, .ok (some v)) →
      Eval env s col (.regexp mt) m i w (.accepts v j []) w
  /-- no match, or the group is not part of it -/
  | regexpNot {β : Type} {mt : Matcher τ β} {m i w} :
      mt.run s i = none ∨ (∃ j, mt.run s i = some (j, .ok none)) →
      Eval env s col (.regexp mt) m i w (.fails (.rejects i [] false)) w
  /-- there is no such group -/
  | regexpRaises {β : Type} {mt : Matcher τ β} {e : Exn} {m i j w} :
      mt.run s i = some (j, .error e) → Eval env s col (.regexp mt) m i w (.fails (.raises e)) w
  /-- the function is called once, after the parser has succeeded -/
  | fmap {α β : Type} {p : P σ τ ρ Γ α} {c : Callback σ α β} {m i a b j x w w1 w2} :
      Eval env s col p m i w (.accepts a j x) w1 → Calls c a w1 (.ok b) w2 →
      Eval env s col (.fmap p c) m i w (.accepts b j x) w2
  | fmapRaises {α β : Type} {p : P σ τ ρ Γ α} {c : Callback σ α β} {m i a e j x w w1 w2} :
      Eval env s col p m i w (.accepts a j x) w1 → Calls c a w1 (.error e) w2 →
      Eval env s col (.fmap p c) m i w (.fails (.raises e)) w2
  /-- and not at all if it has failed -/
  | fmapFails {α β : Type} {p : P σ τ ρ Γ α} {c : Callback σ α β} {m i x w w'} :
      Eval env s col p m i w (.fails x) w' → Eval env s col (.fmap p c) m i w (.fails x) w'
  /-- the first alternative that works is taken -/
  | altFirst {α : Type} {p q : P σ τ ρ Γ α} {m i v j x w w'} :
      Eval env s col p m i w (.accepts v j x) w' →
      Eval env s col (.alt p q) m i w (.accepts v j x) w'
  | altFails {α : Type} {p q : P σ τ ρ Γ α} {m i w w'} {x : Failure} :
      Eval env s col p m i w (.fails x) w' → x.final →
      Eval env s col (.alt p q) m i w (.fails x) w'
  /-- the second alternative is tried only if the first one consumed nothing; it finds the world as
  the first one left it -/
  | altSecond {α : Type} {p q : P σ τ ρ Γ α} {m i k x o w w1 w2} :
      Eval env s col p m i w (.fails (.rejects k x false)) w1 → Eval env s col q m i w1 o w2 →
      Eval env s col (.alt p q) m i w (o.otherwise i k x) w2
  | bindFails {α ι β : Type} {p : P σ τ ρ Γ α} {c : Callback σ α ι} {k : ι → P σ τ ρ Γ β}
      {m i x w w'} : Eval env s col p m i w (.fails x) w' →
      Eval env s col (.bind p c k) m i w (.fails x) w'
  | bindRaises {α ι β : Type} {p : P σ τ ρ Γ α} {c : Callback σ α ι} {k : ι → P σ τ ρ Γ β}
      {m i a j x e w w1 w2} : Eval env s col p m i w (.accepts a j x) w1 →
      Calls c a w1 (.error e) w2 → Eval env s col (.bind p c k) m i w (.fails (.raises e)) w2
  /-- the parser, then the function, once, then the parser it returned -/
  | bind {α ι β : Type} {p : P σ τ ρ Γ α} {c : Callback σ α ι} {k : ι → P σ τ ρ Γ β}
      {m i a j x b o w w1 w2 w3} : Eval env s col p m i w (.accepts a j x) w1 →
      Calls c a w1 (.ok b) w2 → Eval env s col (k b) m j w2 o w3 →
      Eval env s col (.bind p c k) m i w (o.after i j x) w3
  | seqFails {α β γ : Type} {p : P σ τ ρ Γ α} {q : P σ τ ρ Γ β} {merge : α → β → γ} {m i x w w'} :
      Eval env s col p m i w (.fails x) w' →
      Eval env s col (.seqWith p q merge) m i w (.fails x) w'
  | seq {α β γ : Type} {p : P σ τ ρ Γ α} {q : P σ τ ρ Γ β} {merge : α → β → γ}
      {m i a j x o w w1 w2} :
      Eval env s col p m i w (.accepts a j x) w1 → Eval env s col q m j w1 o w2 →
      Eval env s col (.seqWith p q merge) m i w ((o.map (merge a)).after i j x) w2
  | maybe {α : Type} {p : P σ τ ρ Γ α} {m i v j x w w'} :
      Eval env s col p m i w (.accepts v j x) w' →
      Eval env s col (.maybe p) m i w (.accepts (some v) j x) w'
  | maybeNone {α : Type} {p : P σ τ ρ Γ α} {m i q x w w'} :
      Eval env s col p m i w (.fails (.rejects q x false)) w' →
      Eval env s col (.maybe p) m i w (.accepts none i x) w'
  | maybeFails {α : Type} {p : P σ τ ρ Γ α} {m i w w'} {x : Failure} :
      Eval env s col p m i w (.fails x) w' → x.final →
      Eval env s col (.maybe p) m i w (.fails x) w'
  | manyItem {α : Type} {p : P σ τ ρ Γ α} {m i v j x o w w1 w2} :
      Eval env s col p m i w (.accepts v j x) w1 → i < j →
      Eval env s col (.many p) m j w1 o w2 → Eval env s col (.many p) m i w (o.map (v :: ·)) w2
  /-- the effects of the item that was not there stay -/
  | manyEnd {α : Type} {p : P σ τ ρ Γ α} {m i q x w w'} :
      Eval env s col p m i w (.fails (.rejects q x false)) w' →
      Eval env s col (.many p) m i w (.accepts [] i x) w'
  | manyFails {α : Type} {p : P σ τ ρ Γ α} {m i w w'} {x : Failure} :
      Eval env s col p m i w (.fails x) w' → x.final →
      Eval env s col (.many p) m i w (.fails x) w'
  /-- an item that accepts the empty string -/
  | manyEmpty {α : Type} {p : P σ τ ρ Γ α} {m i v x w w'} :
      Eval env s col p m i w (.accepts v i x) w' →
      Eval env s col (.many p) m i w
        (.fails (.raises (.runtimeError "parser shouldn't accept empty string"))) w'
  /-- positions are taken back, effects are not -/
  | attempt {α : Type} {p : P σ τ ρ Γ α} {m i o w w'} : Eval env s col p m i w o w' →
      Eval env s col (.attempt p) m i w o.attempted w'
  | label {α : Type} {p : P σ τ ρ Γ α} {x : String} {m i o w w'} : Eval env s col p m i w o w' →
      Eval env s col (.label p x) m i w (o.labelled i x) w'
  | recover {α : Type} {p : P σ τ ρ Γ α} {m i o w w'} : Eval env s col p m i w o w' →
      Eval env s col (.recover p) m i w o w'
  | recoverWith {α : Type} {p : P σ τ ρ Γ α} {x : α} {vs : String} {m i o w w'} :
      Eval env s col p m i w o w' → Eval env s col (.recoverWith p x vs) m i w o w'
  /-- the function is never called -/
  | recoverWithFn {α : Type} {p : P σ τ ρ Γ α} {c : Callback σ (List τ × Nat) α}
      {lbl : α → String} {m i o w w'} : Eval env s col p m i w o w' →
      Eval env s col (.recoverWithFn p c lbl) m i w o w'
  /-- the mark becomes the current column -/
  | block {α : Type} {p : P σ τ ρ Γ α} {m c i o w w'} : col i c → Eval env s col p c i w o w' →
      Eval env s col (.block p) m i w o w'
  | aligned {α : Type} {p : P σ τ ρ Γ α} {m i o w w'} : col i m → Eval env s col p m i w o w' →
      Eval env s col (.aligned p) m i w o w'
  | alignedNot {α : Type} {p : P σ τ ρ Γ α} {m c i w} : col i c → c ≠ m →
      Eval env s col (.aligned p) m i w (.fails (.rejects i ["indentation"] false)) w
  | indented {α : Type} {p : P σ τ ρ Γ α} {delta : Int} {m c : Nat} {i o w w'} : col i c →
      (m : Int) + delta = c → Eval env s col p c i w o w' →
      Eval env s col (.indented delta p) m i w o w'
  | indentedNot {α : Type} {p : P σ τ ρ Γ α} {delta : Int} {m c : Nat} {i w} : col i c →
      (m : Int) + delta ≠ c →
      Eval env s col (.indented delta p) m i w (.fails (.rejects i ["indentation"] false)) w
  | ref {x : ρ} {p : P σ τ ρ Γ (Γ x)} {m i o w w'} : env x = some p →
      Eval env s col p m i w o w' → Eval env s col (.ref x) m i w o w'
  | refUndefined {x : ρ} {m i w} : env x = none → Eval env s col (.ref x) m i w
      (.fails (.raises (.runtimeError "Delayed parser was not defined"))) w

/-- The call `p.parse(s, get_loc=..)` in the world `w` comes to the outcome and leaves the world `w'`:
it returns a success with the value, the end and the expected list; or an error with a location of the
position, the expected list and `consumed`; or it raises. `rel q loc`: `loc` is the location of
position `q`. -/
def ComesTo [BEq τ] (env : Env σ τ ρ Γ) (p : P σ τ ρ Γ α) (s : List τ)
    (gl : Loc → List τ → Nat → Loc) (rel : Nat → Loc → Prop) (w : World σ) :
    Outcome α → World σ → Prop
  | .accepts v j x, w' => ∃ r, Returns env p s (plain gl) w (.ok r) w' ∧ r.value = v ∧ r.pos = j ∧
      r.expected = x
  | .fails (.rejects q x b), w' => ∃ e, Returns env p s (plain gl) w (.error e) w' ∧ rel q e.loc ∧
      e.expected = x ∧ e.consumed = b
  | .fails (.raises e), w' => Raises env p s (plain gl) w e w'


/-- No layout combinator in the parser. -/
def P.NoLayout : {α : Type} → P σ τ ρ Γ α → Prop
  | _, .fmap p _ => p.NoLayout
  | _, .alt p q => p.NoLayout ∧ q.NoLayout
  | _, .bind p _ k => p.NoLayout ∧ ∀ i, (k i).NoLayout
  | _, .seqWith p q _ => p.NoLayout ∧ q.NoLayout
  | _, .maybe p => p.NoLayout
  | _, .many p => p.NoLayout
  | _, .attempt p => p.NoLayout
  | _, .label p _ => p.NoLayout
  | _, .recover p => p.NoLayout
  | _, .recoverWith p _ _ => p.NoLayout
  | _, .recoverWithFn p _ _ => p.NoLayout
  | _, .block _ => False
  | _, .aligned _ => False
  | _, .indented _ _ => False
  | _, _ => True

/-- Nor in any of the recursive definitions. -/
def NoLayout (env : Env σ τ ρ Γ) (p : P σ τ ρ Γ α) : Prop :=
  p.NoLayout ∧ ∀ i q, env i = some q → q.NoLayout

end Eff

end Reparsec
