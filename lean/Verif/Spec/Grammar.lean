import Verif.Model.Parser

/-!
# A declarative reading of parsers as grammars with edits

Nothing here refers to the parse functions: only to the syntax of parsers, the input, and lists
of edits.  Choice is choice (either branch), `many` is repetition, `maybe` is optional; there is
no commitment, no expected lists, no insertion budget, no fuel.
-/

namespace Reparsec

variable {τ ρ : Type} {Γ : ρ → Type} {α : Type}

/-- An edit of the input: an operation and the input position at which it is applied. -/
structure Edit where
  pos : Nat
  op : RepairOp
deriving DecidableEq, Repr

/-- An edit together with whether it is an automatic insertion: one that a `sym` or `literal` offers
by itself, not inside `recover()`. -/
structure Step where
  edit : Edit
  auto : Bool
deriving DecidableEq, Repr

/-- Drop `n` elements at position `i`. -/
def Step.skip (i n : Nat) : Step := ⟨⟨i, .skip n⟩, false⟩

/-- An automatic insertion. -/
def Step.autoInsert (i : Nat) (l : String) : Step := ⟨⟨i, .insert l⟩, true⟩

/-- An insertion asked for by `recover_with` or `recover_with_fn`. -/
def Step.userInsert (i : Nat) (l : String) : Step := ⟨⟨i, .insert l⟩, false⟩

/-- What `recover()` makes of a step: nothing is an automatic insertion any more. -/
def Step.asked (e : Step) : Step := ⟨e.edit, false⟩

/-- The edits of a derivation. -/
def edits (es : List Step) : List Edit := es.map (·.edit)

/-- The first step is an automatic insertion. -/
def startsAuto : List Step → Bool
  | [] => false
  | e :: _ => e.auto

/-- How many input elements an operation removes. -/
def RepairOp.width : RepairOp → Nat
  | .skip n => n
  | .insert _ => 0

/-- `Der env s col p m i es v j`: reading the input `s` from position `i` to position `j` and
applying the steps `es` on the way, the grammar `p` derives the value `v`.

`m` is the layout mark in force, and `col i c` says that `c` is the column of position `i`
(for streams without a notion of column take `fun _ _ => True`).
`env` gives the definitions of the `Delay` objects. -/
inductive Der [BEq τ] (env : Env τ ρ Γ) (s : List τ) (col : Nat → Nat → Prop) :
    {α : Type} → P τ ρ Γ α → Nat → Nat → List Step → α → Nat → Prop
  | pure {α : Type} {x : α} {m i} : Der env s col (.pure x) m i [] x i
  | pureFn {α : Type} {x : Except Exn α} {v : α} {m i} : x = .ok v →
      Der env s col (.pureFn x) m i [] v i
  | eof {m} : Der env s col .eof m s.length [] () s.length
  /-- drop the rest of the input -/
  | eofSkip {m i} : i < s.length →
      Der env s col .eof m i [.skip i (s.length - i)] () s.length
  | satisfy {test : τ → Except Exn Bool} {t : τ} {m i} : s[i]? = some t → test t = .ok true →
      Der env s col (.satisfy test) m i [] t (i + 1)
  /-- drop some elements, then match -/
  | satisfySkip {test : τ → Except Exn Bool} {t : τ} {m i k} : i < k → s[k]? = some t →
      test t = .ok true → Der env s col (.satisfy test) m i [.skip i (k - i)] t (k + 1)
  | sym {x t : τ} {l : String} {m i} : s[i]? = some t → (t == x) = true →
      Der env s col (.sym x l) m i [] t (i + 1)
  | symSkip {x t : τ} {l : String} {m i k} : i < k → s[k]? = some t → (t == x) = true →
      Der env s col (.sym x l) m i [.skip i (k - i)] t (k + 1)
  /-- pretend that the element is there -/
  | symInsert {x : τ} {l : String} {m i} : Der env s col (.sym x l) m i [.autoInsert i l] x i
  | literal {x : List τ} {ss : String} {h : x ≠ []} {m i} : x.isPrefixOf (s.drop i) = true →
      Der env s col (.literal x ss h) m i [] x (i + x.length)
  | literalSkip {x : List τ} {ss : String} {h : x ≠ []} {m i k} : i < k →
      x.isPrefixOf (s.drop k) = true →
      Der env s col (.literal x ss h) m i [.skip i (k - i)] x (k + x.length)
  | literalInsert {x : List τ} {ss : String} {h : x ≠ []} {m i} :
      Der env s col (.literal x ss h) m i [.autoInsert i ss] x i
  | regexp {β : Type} {mt : Matcher τ β} {v : β} {m i j} :
      mt.run s i = some (j, .ok (some v)) → Der env s col (.regexp mt) m i [] v j
  | regexpSkip {β : Type} {mt : Matcher τ β} {v : β} {m i j k} : i < k → k < s.length →
      mt.run s k = some (j, .ok (some v)) →
      Der env s col (.regexp mt) m i [.skip i (k - i)] v j
  | fmap {α β : Type} {p : P τ ρ Γ α} {fn : α → Except Exn β} {m i es a b j} :
      Der env s col p m i es a j → fn a = .ok b → Der env s col (.fmap p fn) m i es b j
  | altL {α : Type} {p q : P τ ρ Γ α} {m i es v j} :
      Der env s col p m i es v j → Der env s col (.alt p q) m i es v j
  | altR {α : Type} {p q : P τ ρ Γ α} {m i es v j} :
      Der env s col q m i es v j → Der env s col (.alt p q) m i es v j
  | bind {α β : Type} {p : P τ ρ Γ α} {k : α → P τ ρ Γ β} {m i es a j es' b l} :
      Der env s col p m i es a j → Der env s col (k a) m j es' b l →
      Der env s col (.bind p k) m i (es ++ es') b l
  | seqWith {α β γ : Type} {p : P τ ρ Γ α} {q : P τ ρ Γ β} {merge : α → β → γ}
      {m i es a j es' b l} :
      Der env s col p m i es a j → Der env s col q m j es' b l →
      Der env s col (.seqWith p q merge) m i (es ++ es') (merge a b) l
  | maybeNone {α : Type} {p : P τ ρ Γ α} {m i} : Der env s col (.maybe p) m i [] none i
  | maybeSome {α : Type} {p : P τ ρ Γ α} {m i es v j} :
      Der env s col p m i es v j → Der env s col (.maybe p) m i es (some v) j
  | manyNil {α : Type} {p : P τ ρ Γ α} {m i} : Der env s col (.many p) m i [] [] i
  | manyCons {α : Type} {p : P τ ρ Γ α} {m i es v j es' vs l} :
      Der env s col p m i es v j → Der env s col (.many p) m j es' vs l →
      Der env s col (.many p) m i (es ++ es') (v :: vs) l
  | attempt {α : Type} {p : P τ ρ Γ α} {m i es v j} :
      Der env s col p m i es v j → Der env s col (.attempt p) m i es v j
  | label {α : Type} {p : P τ ρ Γ α} {x : String} {m i es v j} :
      Der env s col p m i es v j → Der env s col (.label p x) m i es v j
  | recover {α : Type} {p : P τ ρ Γ α} {m i es v j} :
      Der env s col p m i es v j → Der env s col (.recover p) m i (es.map Step.asked) v j
  | recoverWith {α : Type} {p : P τ ρ Γ α} {x : α} {vs : String} {m i es v j} :
      Der env s col p m i es v j → Der env s col (.recoverWith p x vs) m i es v j
  /-- insert the user supplied value -/
  | recoverWithInsert {α : Type} {p : P τ ρ Γ α} {x : α} {vs : String} {m i} :
      Der env s col (.recoverWith p x vs) m i [.userInsert i vs] x i
  | recoverWithFn {α : Type} {p : P τ ρ Γ α} {fn : List τ → Nat → Except Exn α}
      {lbl : α → String} {m i es v j} :
      Der env s col p m i es v j → Der env s col (.recoverWithFn p fn lbl) m i es v j
  | recoverWithFnInsert {α : Type} {p : P τ ρ Γ α} {fn : List τ → Nat → Except Exn α}
      {lbl : α → String} {x : α} {m i} : fn s i = .ok x →
      Der env s col (.recoverWithFn p fn lbl) m i [.userInsert i (lbl x)] x i
  /-- the mark becomes the current column -/
  | block {α : Type} {p : P τ ρ Γ α} {m c i es v j} : col i c →
      Der env s col p c i es v j → Der env s col (.block p) m i es v j
  /-- the current column is the mark -/
  | aligned {α : Type} {p : P τ ρ Γ α} {m i es v j} : col i m →
      Der env s col p m i es v j → Der env s col (.aligned p) m i es v j
  /-- the current column is the mark plus `delta`, and becomes the mark -/
  | indented {α : Type} {p : P τ ρ Γ α} {delta : Int} {m c : Nat} {i es v j} : col i c →
      (m : Int) + delta = c →
      Der env s col p c i es v j → Der env s col (.indented delta p) m i es v j
  | ref {x : ρ} {p : P τ ρ Γ (Γ x)} {m i es v j} : env x = some p →
      Der env s col p m i es v j → Der env s col (.ref x) m i es v j

/-- As `Der`, with only the edits: forgetting which insertions are automatic. -/
def Derives [BEq τ] (env : Env τ ρ Γ) (s : List τ) (col : Nat → Nat → Prop) (p : P τ ρ Γ α)
    (m i : Nat) (es : List Edit) (v : α) (j : Nat) : Prop :=
  ∃ st, edits st = es ∧ Der env s col p m i st v j

/-- `Stuck env s col p m i q`: reading the input `s` from position `i` without any edit, the
grammar `p` gets stuck at position `q`: everything the derivation read before `q` is fine, and at
`q` it asks for something that is not there. -/
inductive Stuck [BEq τ] (env : Env τ ρ Γ) (s : List τ) (col : Nat → Nat → Prop) :
    {α : Type} → P τ ρ Γ α → Nat → Nat → Nat → Prop
  | unexpected {x : String} {m i} : Stuck env s col (.unexpected x) m i i
  | eof {m i} : i ≠ s.length → Stuck env s col .eof m i i
  | satisfy {test : τ → Except Exn Bool} {m i} :
      (∀ t, s[i]? = some t → test t = .ok false) → Stuck env s col (.satisfy test) m i i
  | sym {x : τ} {l : String} {m i} : (∀ t, s[i]? = some t → (t == x) = false) →
      Stuck env s col (.sym x l) m i i
  | literal {x : List τ} {ss : String} {h : x ≠ []} {m i} :
      x.isPrefixOf (s.drop i) = false → Stuck env s col (.literal x ss h) m i i
  /-- no match, or the group is not part of it -/
  | regexp {β : Type} {mt : Matcher τ β} {m i} :
      (∀ j v, mt.run s i ≠ some (j, .ok (some v))) → Stuck env s col (.regexp mt) m i i
  | fmap {α β : Type} {p : P τ ρ Γ α} {fn : α → Except Exn β} {m i q} :
      Stuck env s col p m i q → Stuck env s col (.fmap p fn) m i q
  | altL {α : Type} {p p' : P τ ρ Γ α} {m i q} :
      Stuck env s col p m i q → Stuck env s col (.alt p p') m i q
  | altR {α : Type} {p p' : P τ ρ Γ α} {m i q} :
      Stuck env s col p' m i q → Stuck env s col (.alt p p') m i q
  | bindL {α β : Type} {p : P τ ρ Γ α} {k : α → P τ ρ Γ β} {m i q} :
      Stuck env s col p m i q → Stuck env s col (.bind p k) m i q
  | bindR {α β : Type} {p : P τ ρ Γ α} {k : α → P τ ρ Γ β} {m i a j q} :
      Der env s col p m i [] a j → Stuck env s col (k a) m j q →
      Stuck env s col (.bind p k) m i q
  | seqL {α β γ : Type} {p : P τ ρ Γ α} {p' : P τ ρ Γ β} {merge : α → β → γ} {m i q} :
      Stuck env s col p m i q → Stuck env s col (.seqWith p p' merge) m i q
  | seqR {α β γ : Type} {p : P τ ρ Γ α} {p' : P τ ρ Γ β} {merge : α → β → γ} {m i a j q} :
      Der env s col p m i [] a j → Stuck env s col p' m j q →
      Stuck env s col (.seqWith p p' merge) m i q
  | maybe {α : Type} {p : P τ ρ Γ α} {m i q} :
      Stuck env s col p m i q → Stuck env s col (.maybe p) m i q
  | manyHere {α : Type} {p : P τ ρ Γ α} {m i q} :
      Stuck env s col p m i q → Stuck env s col (.many p) m i q
  | manyLater {α : Type} {p : P τ ρ Γ α} {m i v j q} : Der env s col p m i [] v j →
      Stuck env s col (.many p) m j q → Stuck env s col (.many p) m i q
  | attempt {α : Type} {p : P τ ρ Γ α} {m i q} :
      Stuck env s col p m i q → Stuck env s col (.attempt p) m i q
  | label {α : Type} {p : P τ ρ Γ α} {x : String} {m i q} :
      Stuck env s col p m i q → Stuck env s col (.label p x) m i q
  | recover {α : Type} {p : P τ ρ Γ α} {m i q} :
      Stuck env s col p m i q → Stuck env s col (.recover p) m i q
  | recoverWith {α : Type} {p : P τ ρ Γ α} {x : α} {vs : String} {m i q} :
      Stuck env s col p m i q → Stuck env s col (.recoverWith p x vs) m i q
  /-- the value to be inserted replaces all of `p`, so the problem is where `p` begins -/
  | recoverWithHere {α : Type} {p : P τ ρ Γ α} {x : α} {vs : String} {m i q} :
      Stuck env s col p m i q → Stuck env s col (.recoverWith p x vs) m i i
  | recoverWithFn {α : Type} {p : P τ ρ Γ α} {fn : List τ → Nat → Except Exn α}
      {lbl : α → String} {m i q} :
      Stuck env s col p m i q → Stuck env s col (.recoverWithFn p fn lbl) m i q
  | recoverWithFnHere {α : Type} {p : P τ ρ Γ α} {fn : List τ → Nat → Except Exn α}
      {lbl : α → String} {m i q} :
      Stuck env s col p m i q → Stuck env s col (.recoverWithFn p fn lbl) m i i
  | block {α : Type} {p : P τ ρ Γ α} {m c i q} : col i c →
      Stuck env s col p c i q → Stuck env s col (.block p) m i q
  | aligned {α : Type} {p : P τ ρ Γ α} {m i q} : col i m →
      Stuck env s col p m i q → Stuck env s col (.aligned p) m i q
  /-- the current column is not the mark -/
  | notAligned {α : Type} {p : P τ ρ Γ α} {m c i} : col i c → c ≠ m →
      Stuck env s col (.aligned p) m i i
  | indented {α : Type} {p : P τ ρ Γ α} {delta : Int} {m c : Nat} {i q} : col i c →
      (m : Int) + delta = c → Stuck env s col p c i q → Stuck env s col (.indented delta p) m i q
  /-- the current column is not the mark plus `delta` -/
  | notIndented {α : Type} {p : P τ ρ Γ α} {delta : Int} {m c : Nat} {i} : col i c →
      (m : Int) + delta ≠ c → Stuck env s col (.indented delta p) m i i
  | ref {x : ρ} {p : P τ ρ Γ (Γ x)} {m i q} : env x = some p →
      Stuck env s col p m i q → Stuck env s col (.ref x) m i q

/-- The edits `es` are applied in order, at positions between `i` and `j`, without overlapping:
each starts where the previous one ended, or later. -/
def InOrder : Nat → List Edit → Nat → Prop
  | i, [], j => i ≤ j
  | i, e :: es, j => i ≤ e.pos ∧ InOrder (e.pos + e.op.width) es j

/-- How many insertions the edits make at input position `q`. -/
def insertsAt (q : Nat) (es : List Edit) : Nat :=
  (es.filter fun e => match e.op with
    | .insert _ => decide (e.pos = q)
    | .skip _ => false).length

/-- The elements of `s` between `i` and `j`. -/
def slice (s : List τ) (i j : Nat) : List τ := (s.take j).drop i

/-- The part of the input `s` from `i` to `j` after applying the edits; `tok l` is what the label
`l` of an insertion stands for. -/
def edited (tok : String → List τ) (s : List τ) : Nat → List Edit → Nat → List τ
  | i, [], j => slice s i j
  | i, e :: es, j =>
    slice s i e.pos ++
      match e.op with
      | .skip n => edited tok s (e.pos + n) es j
      | .insert l => tok l ++ edited tok s e.pos es j

/-- `Lang env p w v`: the grammar `p`, read as a context-free grammar over words, assigns the
value `v` to the word `w`. No input, no positions, no edits. Layout is ignored; `eof` is the empty
word; a regular expression stands for the words it matches in some context. -/
inductive Lang [BEq τ] (env : Env τ ρ Γ) : {α : Type} → P τ ρ Γ α → List τ → α → Prop
  | pure {α : Type} {x : α} : Lang env (.pure x) [] x
  | pureFn {α : Type} {x : Except Exn α} {v : α} : x = .ok v → Lang env (.pureFn x) [] v
  | eof : Lang env .eof [] ()
  | satisfy {test : τ → Except Exn Bool} {t : τ} : test t = .ok true →
      Lang env (.satisfy test) [t] t
  | sym {x t : τ} {l : String} : (t == x) = true → Lang env (.sym x l) [t] t
  | literal {x w : List τ} {ss : String} {h : x ≠ []} : (x == w) = true →
      Lang env (.literal x ss h) w x
  /-- the word is what the expression matches in some context -/
  | regexp {β : Type} {mt : Matcher τ β} {s : List τ} {v : β} {i j : Nat} : i ≤ j →
      j ≤ s.length → mt.run s i = some (j, .ok (some v)) →
      Lang env (.regexp mt) (slice s i j) v
  | fmap {α β : Type} {p : P τ ρ Γ α} {fn : α → Except Exn β} {w a b} :
      Lang env p w a → fn a = .ok b → Lang env (.fmap p fn) w b
  | altL {α : Type} {p q : P τ ρ Γ α} {w v} : Lang env p w v → Lang env (.alt p q) w v
  | altR {α : Type} {p q : P τ ρ Γ α} {w v} : Lang env q w v → Lang env (.alt p q) w v
  | bind {α β : Type} {p : P τ ρ Γ α} {k : α → P τ ρ Γ β} {w a w' b} :
      Lang env p w a → Lang env (k a) w' b → Lang env (.bind p k) (w ++ w') b
  | seqWith {α β γ : Type} {p : P τ ρ Γ α} {q : P τ ρ Γ β} {merge : α → β → γ} {w a w' b} :
      Lang env p w a → Lang env q w' b → Lang env (.seqWith p q merge) (w ++ w') (merge a b)
  | maybeNone {α : Type} {p : P τ ρ Γ α} : Lang env (.maybe p) [] none
  | maybeSome {α : Type} {p : P τ ρ Γ α} {w v} : Lang env p w v → Lang env (.maybe p) w (some v)
  | manyNil {α : Type} {p : P τ ρ Γ α} : Lang env (.many p) [] []
  | manyCons {α : Type} {p : P τ ρ Γ α} {w v w' vs} : Lang env p w v →
      Lang env (.many p) w' vs → Lang env (.many p) (w ++ w') (v :: vs)
  | attempt {α : Type} {p : P τ ρ Γ α} {w v} : Lang env p w v → Lang env (.attempt p) w v
  | label {α : Type} {p : P τ ρ Γ α} {x : String} {w v} : Lang env p w v →
      Lang env (.label p x) w v
  | recover {α : Type} {p : P τ ρ Γ α} {w v} : Lang env p w v → Lang env (.recover p) w v
  | recoverWith {α : Type} {p : P τ ρ Γ α} {x : α} {vs : String} {w v} : Lang env p w v →
      Lang env (.recoverWith p x vs) w v
  | recoverWithFn {α : Type} {p : P τ ρ Γ α} {fn : List τ → Nat → Except Exn α}
      {lbl : α → String} {w v} : Lang env p w v → Lang env (.recoverWithFn p fn lbl) w v
  | block {α : Type} {p : P τ ρ Γ α} {w v} : Lang env p w v → Lang env (.block p) w v
  | aligned {α : Type} {p : P τ ρ Γ α} {w v} : Lang env p w v → Lang env (.aligned p) w v
  | indented {α : Type} {p : P τ ρ Γ α} {delta : Int} {w v} : Lang env p w v →
      Lang env (.indented delta p) w v
  | ref {x : ρ} {p : P τ ρ Γ (Γ x)} {w v} : env x = some p → Lang env p w v →
      Lang env (.ref x) w v

/-- Every node of the parser satisfies `C` (in the parsers returned by `bind`'s function too). -/
def P.All (C : {α : Type} → P τ ρ Γ α → Prop) : {α : Type} → P τ ρ Γ α → Prop
  | _, .fmap p fn => C (.fmap p fn) ∧ p.All C
  | _, .alt p q => C (.alt p q) ∧ p.All C ∧ q.All C
  | _, .bind p k => C (.bind p k) ∧ p.All C ∧ ∀ a, (k a).All C
  | _, .seqWith p q m => C (.seqWith p q m) ∧ p.All C ∧ q.All C
  | _, .maybe p => C (.maybe p) ∧ p.All C
  | _, .many p => C (.many p) ∧ p.All C
  | _, .attempt p => C (.attempt p) ∧ p.All C
  | _, .label p x => C (.label p x) ∧ p.All C
  | _, .recover p => C (.recover p) ∧ p.All C
  | _, .recoverWith p x vs => C (.recoverWith p x vs) ∧ p.All C
  | _, .recoverWithFn p fn lbl => C (.recoverWithFn p fn lbl) ∧ p.All C
  | _, .block p => C (.block p) ∧ p.All C
  | _, .aligned p => C (.aligned p) ∧ p.All C
  | _, .indented d p => C (.indented d p) ∧ p.All C
  | _, p => C p

/-- Every node of the parser, and of every `Delay` definition, satisfies `C`. -/
def Everywhere (env : Env τ ρ Γ) (C : {α : Type} → P τ ρ Γ α → Prop) (p : P τ ρ Γ α) : Prop :=
  p.All C ∧ ∀ i q, env i = some q → q.All C

/-- The node is not `block`, `aligned` or `indented`. -/
def P.notLayout : {α : Type} → P τ ρ Γ α → Prop
  | _, .block _ => False
  | _, .aligned _ => False
  | _, .indented _ _ => False
  | _, _ => True

/-- `tok` says what the labels of insertions stand for: the label of an automatic insertion for what is
inserted, the label of a value given to `recover_with` for a word for which the grammar gives that value (as
`"1"` for `integer.recover_with(1)`). -/
def P.labelled [BEq τ] (env : Env τ ρ Γ) (tok : String → List τ) : {α : Type} → P τ ρ Γ α → Prop
  | _, .sym s l => tok l = [s]
  | _, .literal s ss _ => tok ss = s
  | _, .recoverWith p x vs => Lang env p (tok vs) x
  | _, .recoverWithFn p fn lbl => ∀ s i x, fn s i = .ok x → Lang env p (tok (lbl x)) x
  | _, _ => True

end Reparsec
