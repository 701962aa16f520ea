import Verif.Spec.Location

/-!
# What `split_tokens` should return

Read a source from left to right with a specification: at each position the specification either
matches (with or without a named group) or does not.
-/

namespace Reparsec

/-- From position `i`, successive matches of the specification lead to position `j`. -/
inductive Reaches (src : List Char) (spec : LexSpec) : Nat → Nat → Prop
  | here {i : Nat} : Reaches src spec i i
  | step {i j : Nat} {m : LexMatch} : i < src.length → spec.run src i = some m →
      Reaches src spec m.stop j → Reaches src spec i j

/-- `Tiles src spec i toks`: successive matches of the specification, from `i` on, exhaust the
source, and `toks` are those with a named group, in order: its name, its text, and the exact
locations of both ends of the match. -/
inductive Tiles (src : List Char) (spec : LexSpec) : Nat → List Token → Prop
  | done : Tiles src spec src.length []
  | space {i : Nat} {m : LexMatch} {toks : List Token} : i < src.length →
      spec.run src i = some m → m.group = none → Tiles src spec m.stop toks →
      Tiles src spec i toks
  | token {i : Nat} {m : LexMatch} {kind value : String} {toks : List Token} : i < src.length →
      spec.run src i = some m → m.group = some (kind, value) → Tiles src spec m.stop toks →
      Tiles src spec i (⟨kind, value, exactLoc src i, exactLoc src m.stop⟩ :: toks)

end Reparsec
