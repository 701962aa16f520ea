import Verif.Model.IterTokens
import Verif.Spec.Lexing

/-!
# What `next` on `iter_tokens` should give

Specification for C78.
-/

namespace Reparsec

/-- From position `i`, successive matches of the specification without a named group lead to position `j`. -/
inductive Skips (src : List Char) (spec : LexSpec) : Nat → Nat → Prop
  | here {i : Nat} : Skips src spec i i
  | step {i j : Nat} {m : LexMatch} : i < src.length → spec.run src i = some m → m.group = none →
      Skips src spec m.stop j → Skips src spec i j

/-- `Produces src spec at xs`: successive calls of `next` give `xs`, if the generator is at position `at` of the source
(`none`: it has ended). -/
inductive Produces (src : List Char) (spec : LexSpec) : Option Nat → List TokenEvent → Prop
  | nothing {a : Option Nat} : Produces src spec a []
  /-- the next match with a named group; it need not be longer than that -/
  | token {i k : Nat} {m : LexMatch} {kind value : String} {xs : List TokenEvent} : Skips src spec i k →
      k < src.length → spec.run src k = some m → m.group = some (kind, value) → Produces src spec (some m.stop) xs →
      Produces src spec (some i) (.token ⟨kind, value, exactLoc src k, exactLoc src m.stop⟩ :: xs)
  | ends {i : Nat} {xs : List TokenEvent} : Skips src spec i src.length → Produces src spec none xs →
      Produces src spec (some i) (.stops :: xs)
  | fails {i k : Nat} {xs : List TokenEvent} : Skips src spec i k → k < src.length → spec.run src k = none →
      Produces src spec none xs → Produces src spec (some i) (.raises (.lexError (exactLoc src k)) :: xs)
  | ended {xs : List TokenEvent} : Produces src spec none xs → Produces src spec none (.stops :: xs)

/-- One call of `next` at position `i` gives `x`, and leaves the generator at `j`. -/
inductive ProducesOne (src : List Char) (spec : LexSpec) : Option Nat → TokenEvent → Option Nat → Prop
  | token {i k : Nat} {m : LexMatch} {kind value : String} : Skips src spec i k →
      k < src.length → spec.run src k = some m → m.group = some (kind, value) →
      ProducesOne src spec (some i) (.token ⟨kind, value, exactLoc src k, exactLoc src m.stop⟩) (some m.stop)
  | ends {i : Nat} : Skips src spec i src.length → ProducesOne src spec (some i) .stops none
  | fails {i k : Nat} : Skips src spec i k → k < src.length → spec.run src k = none →
      ProducesOne src spec (some i) (.raises (.lexError (exactLoc src k))) none
  | ended : ProducesOne src spec none .stops none

/-- The generator at `a` gives the events `xs`, and is then at `b`. -/
inductive Passes (src : List Char) (spec : LexSpec) : Option Nat → List TokenEvent → Option Nat → Prop
  | nil {a : Option Nat} : Passes src spec a [] a
  | cons {a b c : Option Nat} {x : TokenEvent} {xs : List TokenEvent} : ProducesOne src spec a x b →
      Passes src spec b xs c → Passes src spec a (x :: xs) c

/-- From `i`, the loop comes to an empty match without a named group, without having come to one with a named group. -/
def SpinsFrom (src : List Char) (spec : LexSpec) (i : Nat) : Prop :=
  ∃ k m, Skips src spec i k ∧ k < src.length ∧ spec.run src k = some m ∧ m.group = none ∧ m.stop = k

end Reparsec
