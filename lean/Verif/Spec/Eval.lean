import Verif.Model.Parser

/-!
# What a parser does without recovery, as an evaluation relation

Nothing here refers to the parse functions, contexts or result objects: only to the syntax of
parsers, the input, positions and lists of descriptions.  There is no fuel and no bookkeeping of
`consumed`: a success has consumed input iff it advanced.
-/

namespace Reparsec

variable {τ ρ : Type} {Γ : ρ → Type} {α β : Type}

/-- How a parser can fail to give a value. -/
inductive Failure where
  /-- stuck at position `q`, where it looked for `wants`; `begun`: this is final, because input had
  already been consumed -/
  | rejects (q : Nat) (wants : List String) (begun : Bool)
  /-- an exception -/
  | raises (e : Exn)
deriving DecidableEq

/-- No alternative is tried after this failure. -/
def Failure.final : Failure → Prop
  | .rejects _ _ b => b = true
  | .raises _ => True

/-- What a parser can come to. -/
inductive Outcome (α : Type) where
  /-- the value `v`, read up to position `j`; at `j` it could also have gone on with `wants` -/
  | accepts (v : α) (j : Nat) (wants : List String)
  | fails (x : Failure)

/-- Change the value. -/
def Outcome.map (f : α → β) : Outcome α → Outcome β
  | .accepts v j w => .accepts (f v) j w
  | .fails x => .fails x

/-- The outcome of a sequence whose first part went from `i` to `j`, where it could also have gone
on with `w`; the second part started at `j`. What the first part could have gone on with is still of
interest only while the second part has not consumed anything. -/
def Outcome.after (i j : Nat) (w : List String) : Outcome α → Outcome α
  | .accepts v k w' => .accepts v k (if j < k then w' else w ++ w')
  | .fails (.rejects q w' true) => .fails (.rejects q w' true)
  | .fails (.rejects q w' false) => .fails (.rejects q (w ++ w') (decide (i < j)))
  | .fails (.raises e) => .fails (.raises e)

/-- The outcome of a choice at `i` whose first alternative got stuck at `q`, looking for `w`, without
having consumed anything. -/
def Outcome.otherwise (i q : Nat) (w : List String) : Outcome α → Outcome α
  | .accepts v k w' => .accepts v k (if i < k then w' else w ++ w')
  | .fails (.rejects q' w' true) => .fails (.rejects q' w' true)
  | .fails (.rejects _ w' false) => .fails (.rejects q (w ++ w') false)
  | .fails (.raises e) => .fails (.raises e)

/-- The outcome of a labelled parser at `i`. -/
def Outcome.labelled (i : Nat) (x : String) : Outcome α → Outcome α
  | .accepts v k w => .accepts v k (if i < k then w else [x])
  | .fails (.rejects q w true) => .fails (.rejects q w true)
  | .fails (.rejects q _ false) => .fails (.rejects q [x] false)
  | .fails (.raises e) => .fails (.raises e)

/-- The outcome of `attempt`: a failure is never final, unless it is an exception. -/
def Outcome.attempted : Outcome α → Outcome α
  | .fails (.rejects q w _) => .fails (.rejects q w false)
  | o => o

/-- `Eval env s col p m i o`: without recovery, the parser `p` comes to `o` at position `i` of the
input `s`, with the layout mark `m`. `col i c`: the column of position `i` is `c`. -/
inductive Eval [BEq τ] (env : Env τ ρ Γ) (s : List τ) (col : Nat → Nat → Prop) :
    {α : Type} → P τ ρ Γ α → Nat → Nat → Outcome α → Prop
  | pure {α : Type} {x : α} {m i} : Eval env s col (.pure x) m i (.accepts x i [])
  | pureFn {α : Type} {x : α} {m i} : Eval env s col (.pureFn (.ok x)) m i (.accepts x i [])
  | pureFnRaises {α : Type} {e : Exn} {m i} :
      Eval env s col (.pureFn (.error e) : P τ ρ Γ α) m i (.fails (.raises e))
  | unexpected {x : String} {m i} :
      Eval env s col (.unexpected x) m i (.fails (.rejects i [x] false))
  | eof {m} : Eval env s col .eof m s.length (.accepts () s.length [])
  | eofNot {m i} : i ≠ s.length →
      Eval env s col .eof m i (.fails (.rejects i ["end of file"] false))
  | satisfy {test : τ → Except Exn Bool} {t : τ} {m i} : s[i]? = some t → test t = .ok true →
      Eval env s col (.satisfy test) m i (.accepts t (i + 1) [])
  | satisfyNot {test : τ → Except Exn Bool} {m i} : (∀ t, s[i]? = some t → test t = .ok false) →
      Eval env s col (.satisfy test) m i (.fails (.rejects i [] false))
  | satisfyRaises {test : τ → Except Exn Bool} {t : τ} {e : Exn} {m i} : s[i]? = some t →
      test t = .error e → Eval env s col (.satisfy test) m i (.fails (.raises e))
  | sym {x t : τ} {l : String} {m i} : s[i]? = some t → (t == x) = true →
      Eval env s col (.sym x l) m i (.accepts t (i + 1) [])
  | symNot {x : τ} {l : String} {m i} : (∀ t, s[i]? = some t → (t == x) = false) →
      Eval env s col (.sym x l) m i (.fails (.rejects i [l] false))
  | literal {x : List τ} {ss : String} {h : x ≠ []} {m i} : x.isPrefixOf (s.drop i) = true →
      Eval env s col (.literal x ss h) m i (.accepts x (i + x.length) [])
  | literalNot {x : List τ} {ss : String} {h : x ≠ []} {m i} : x.isPrefixOf (s.drop i) = false →
      Eval env s col (.literal x ss h) m i (.fails (.rejects i [ss] false))
  | regexp {β : Type} {mt : Matcher τ β} {v : β} {m i j} : mt.run s i = some (j, .ok (some v)) →
      Eval env s col (.regexp mt) m i (.accepts v j [])
  /-- no match, or the group is not part of it -/
  | regexpNot {β : Type} {mt : Matcher τ β} {m i} :
      mt.run s i = none ∨ (∃ j, mt.run s i = some (j, .ok none)) →
      Eval env s col (.regexp mt) m i (.fails (.rejects i [] false))
  /-- there is no such group -/
  | regexpRaises {β : Type} {mt : Matcher τ β} {e : Exn} {m i j} :
      mt.run s i = some (j, .error e) → Eval env s col (.regexp mt) m i (.fails (.raises e))
  | fmap {α β : Type} {p : P τ ρ Γ α} {fn : α → Except Exn β} {m i a b j w} :
      Eval env s col p m i (.accepts a j w) → fn a = .ok b →
      Eval env s col (.fmap p fn) m i (.accepts b j w)
  | fmapRaises {α β : Type} {p : P τ ρ Γ α} {fn : α → Except Exn β} {m i a e j w} :
      Eval env s col p m i (.accepts a j w) → fn a = .error e →
      Eval env s col (.fmap p fn) m i (.fails (.raises e))
  | fmapFails {α β : Type} {p : P τ ρ Γ α} {fn : α → Except Exn β} {m i x} :
      Eval env s col p m i (.fails x) → Eval env s col (.fmap p fn) m i (.fails x)
  /-- the first alternative that works is taken -/
  | altFirst {α : Type} {p q : P τ ρ Γ α} {m i v j w} :
      Eval env s col p m i (.accepts v j w) → Eval env s col (.alt p q) m i (.accepts v j w)
  | altFails {α : Type} {p q : P τ ρ Γ α} {m i} {x : Failure} :
      Eval env s col p m i (.fails x) → x.final → Eval env s col (.alt p q) m i (.fails x)
  /-- the second alternative is tried only if the first one consumed nothing -/
  | altSecond {α : Type} {p q : P τ ρ Γ α} {m i k w o} :
      Eval env s col p m i (.fails (.rejects k w false)) → Eval env s col q m i o →
      Eval env s col (.alt p q) m i (o.otherwise i k w)
  | bindFails {α β : Type} {p : P τ ρ Γ α} {k : α → P τ ρ Γ β} {m i x} :
      Eval env s col p m i (.fails x) → Eval env s col (.bind p k) m i (.fails x)
  | bind {α β : Type} {p : P τ ρ Γ α} {k : α → P τ ρ Γ β} {m i a j w o} :
      Eval env s col p m i (.accepts a j w) → Eval env s col (k a) m j o →
      Eval env s col (.bind p k) m i (o.after i j w)
  | seqFails {α β γ : Type} {p : P τ ρ Γ α} {q : P τ ρ Γ β} {merge : α → β → γ} {m i x} :
      Eval env s col p m i (.fails x) → Eval env s col (.seqWith p q merge) m i (.fails x)
  | seq {α β γ : Type} {p : P τ ρ Γ α} {q : P τ ρ Γ β} {merge : α → β → γ} {m i a j w o} :
      Eval env s col p m i (.accepts a j w) → Eval env s col q m j o →
      Eval env s col (.seqWith p q merge) m i ((o.map (merge a)).after i j w)
  | maybe {α : Type} {p : P τ ρ Γ α} {m i v j w} : Eval env s col p m i (.accepts v j w) →
      Eval env s col (.maybe p) m i (.accepts (some v) j w)
  | maybeNone {α : Type} {p : P τ ρ Γ α} {m i q w} :
      Eval env s col p m i (.fails (.rejects q w false)) →
      Eval env s col (.maybe p) m i (.accepts none i w)
  | maybeFails {α : Type} {p : P τ ρ Γ α} {m i} {x : Failure} : Eval env s col p m i (.fails x) →
      x.final → Eval env s col (.maybe p) m i (.fails x)
  | manyItem {α : Type} {p : P τ ρ Γ α} {m i v j w o} : Eval env s col p m i (.accepts v j w) →
      i < j → Eval env s col (.many p) m j o → Eval env s col (.many p) m i (o.map (v :: ·))
  | manyEnd {α : Type} {p : P τ ρ Γ α} {m i q w} :
      Eval env s col p m i (.fails (.rejects q w false)) →
      Eval env s col (.many p) m i (.accepts [] i w)
  | manyFails {α : Type} {p : P τ ρ Γ α} {m i} {x : Failure} : Eval env s col p m i (.fails x) →
      x.final → Eval env s col (.many p) m i (.fails x)
  /-- an item that accepts the empty string -/
  | manyEmpty {α : Type} {p : P τ ρ Γ α} {m i v w} : Eval env s col p m i (.accepts v i w) →
      Eval env s col (.many p) m i
        (.fails (.raises (.runtimeError "parser shouldn't accept empty string")))
  | attempt {α : Type} {p : P τ ρ Γ α} {m i o} : Eval env s col p m i o →
      Eval env s col (.attempt p) m i o.attempted
  | label {α : Type} {p : P τ ρ Γ α} {x : String} {m i o} : Eval env s col p m i o →
      Eval env s col (.label p x) m i (o.labelled i x)
  | recover {α : Type} {p : P τ ρ Γ α} {m i o} : Eval env s col p m i o →
      Eval env s col (.recover p) m i o
  | recoverWith {α : Type} {p : P τ ρ Γ α} {x : α} {vs : String} {m i o} :
      Eval env s col p m i o → Eval env s col (.recoverWith p x vs) m i o
  | recoverWithFn {α : Type} {p : P τ ρ Γ α} {fn : List τ → Nat → Except Exn α}
      {lbl : α → String} {m i o} : Eval env s col p m i o →
      Eval env s col (.recoverWithFn p fn lbl) m i o
  /-- the mark becomes the current column -/
  | block {α : Type} {p : P τ ρ Γ α} {m c i o} : col i c → Eval env s col p c i o →
      Eval env s col (.block p) m i o
  | aligned {α : Type} {p : P τ ρ Γ α} {m i o} : col i m → Eval env s col p m i o →
      Eval env s col (.aligned p) m i o
  | alignedNot {α : Type} {p : P τ ρ Γ α} {m c i} : col i c → c ≠ m →
      Eval env s col (.aligned p) m i (.fails (.rejects i ["indentation"] false))
  | indented {α : Type} {p : P τ ρ Γ α} {delta : Int} {m c : Nat} {i o} : col i c →
      (m : Int) + delta = c → Eval env s col p c i o → Eval env s col (.indented delta p) m i o
  | indentedNot {α : Type} {p : P τ ρ Γ α} {delta : Int} {m c : Nat} {i} : col i c →
      (m : Int) + delta ≠ c →
      Eval env s col (.indented delta p) m i (.fails (.rejects i ["indentation"] false))
  | ref {x : ρ} {p : P τ ρ Γ (Γ x)} {m i o} : env x = some p → Eval env s col p m i o →
      Eval env s col (.ref x) m i o
  | refUndefined {x : ρ} {m i} : env x = none → Eval env s col (.ref x) m i
      (.fails (.raises (.runtimeError "Delayed parser was not defined")))

end Reparsec
