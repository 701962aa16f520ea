import Verif.Model.Regex
import Verif.Spec.Lexing

/-!
# The language of a regular expression

Specification for C82: `Lang`, with no search and no order of alternatives; and `Tries`, the matches at a place in the
order in which a backtracking matcher prefers them.
-/

namespace Reparsec

/-- `re.Lang w`: the expression describes the text `w`. -/
inductive Re.Lang : Re → List Char → Prop
  | eps : Re.Lang .eps []
  | cls {f c} : f c = true → Re.Lang (.cls f) [c]
  | seq {a b u v} : Re.Lang a u → Re.Lang b v → Re.Lang (.seq a b) (u ++ v)
  | altL {a b w} : Re.Lang a w → Re.Lang (.alt a b) w
  | altR {a b w} : Re.Lang b w → Re.Lang (.alt a b) w
  | none {a} : Re.Lang (.star a) []
  | more {a u v} : Re.Lang a u → Re.Lang (.star a) v → Re.Lang (.star a) (u ++ v)
  | group {n a w} : Re.Lang a w → Re.Lang (.group n a) w

/-- `re.Tries l ms`: `ms` are all matches of `re` at the beginning of `l`, the preferred ones first: matches by `a` before
matches by `b` in `a|b`; in `ab` first all that begin with the preferred match of `a`; in `a*` one more repetition before
none, and a repetition that matches nothing is the last one. -/
inductive Re.Tries : Re → List Char → List Found → Prop
  | eps {l} : Re.Tries .eps l [⟨0, []⟩]
  | cls {f c l} : f c = true → Re.Tries (.cls f) (c :: l) [⟨1, []⟩]
  | clsNot {f c l} : f c = false → Re.Tries (.cls f) (c :: l) []
  | clsEnd {f} : Re.Tries (.cls f) [] []
  | seq {a b l ms} {rest : Found → List Found} : Re.Tries a l ms →
      (∀ m ∈ ms, Re.Tries b (l.drop m.len) (rest m)) →
      Re.Tries (.seq a b) l (ms.flatMap fun m => (rest m).map fun m' => ⟨m.len + m'.len, m.caps ++ m'.caps⟩)
  | alt {a b l ms ms'} : Re.Tries a l ms → Re.Tries b l ms' → Re.Tries (.alt a b) l (ms ++ ms')
  | star {a l ms} {rest : Found → List Found} : Re.Tries a l ms →
      (∀ m ∈ ms, m.len ≠ 0 → Re.Tries (.star a) (l.drop m.len) (rest m)) →
      Re.Tries (.star a) l ((ms.flatMap fun m => if m.len = 0 then [m] else
        (rest m).map fun m' => (⟨m.len + m'.len, m.caps ++ m'.caps⟩ : Found)) ++ [⟨0, []⟩])
  | group {n a l ms} : Re.Tries a l ms →
      Re.Tries (.group n a) l (ms.map fun m => ⟨m.len, m.caps ++ [(n, l.take m.len)]⟩)

/-- `b` is a part of `re`. -/
def Re.Has (b : Re) : Re → Prop
  | .eps => b = .eps
  | .cls f => b = .cls f
  | .seq a a' => b = .seq a a' ∨ b.Has a ∨ b.Has a'
  | .alt a a' => b = .alt a a' ∨ b.Has a ∨ b.Has a'
  | .star a => b = .star a ∨ b.Has a
  | .group n a => b = .group n a ∨ b.Has a

/-- What `regexp(pat, group)` is to return: the whole match, or the last text of the group, if it took part. -/
def Found.value (m : Found) (l : List Char) : Option String → Option (List Char)
  | none => some (l.take m.len)
  | some name => (m.caps.filter (·.1 = name)).getLast?.map (·.2)

/-- `re.Splits src i toks`: the preferred matches of the expression, one after the other from `i` on, exhaust the source,
and `toks` are those in which a group took part: the kind is the name of the group that was closed last, the value its
text; the locations are those of the whole match. -/
inductive Re.Splits (re : Re) (src : List Char) : Nat → List Token → Prop
  | done : Re.Splits re src src.length []
  | skip {i toks m ms} : i < src.length → re.Tries (src.drop i) (m :: ms) → m.caps = [] →
      Re.Splits re src (i + m.len) toks → Re.Splits re src i toks
  | token {i toks m ms caps name text} : i < src.length → re.Tries (src.drop i) (m :: ms) →
      m.caps = caps ++ [(name, text)] → Re.Splits re src (i + m.len) toks →
      Re.Splits re src i (⟨name, String.ofList text, exactLoc src i, exactLoc src (i + m.len)⟩ :: toks)

end Reparsec
