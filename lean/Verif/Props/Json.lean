import Verif.Lemmas.Json
import Verif.Props.LL1
import Verif.Props.Exceptions
import Verif.Props.Lexing

/-!
# C75: the JSON parser of the tests computes the values of JSON texts
-/

namespace Reparsec

open Json

variable {F : Type} {J : Fns F} {s : List Token}

/-! ### The grammar is LL(1) -/

namespace Json

/-- The next token is of this kind. -/
def IsKind (k : String) (la : Option Token) : Prop := ∃ t, la = some t ∧ t.kind = k

/-- The next token is this punctuation mark. -/
def IsMark (x : String) (la : Option Token) : Prop := ∃ t, la = some t ∧ Punct x t

section
variable {T : LLTable Token Unit} {la : Option Token} {α : Type}

theorem token_starts {k : String} : (.token k : E F Token).starts T la ↔ IsKind k la := by
  simp [P.token, P.starts, IsKind]

theorem token_empty {k : String} : (.token k : E F Token).empty T la ↔ False := by
  simp [P.token, P.empty]

theorem punct_starts {x : String} : (punct x : E F Token).starts T la ↔ IsMark x la := by
  simp only [punct, P.starts, IsMark, punct_beq]

theorem punct_empty {x : String} : (punct x : E F Token).empty T la ↔ False := by
  simp [punct, P.empty]

theorem token_ll1 {k : String} {G : Option Token → Prop} : (.token k : E F Token).LL1 T G ↔ True := Iff.rfl

theorem punct_ll1 {x : String} {G : Option Token → Prop} : (punct x : E F Token).LL1 T G ↔ True := Iff.rfl

theorem isKind_some {k : String} {t : Token} : IsKind k (some t) ↔ t.kind = k := by simp [IsKind]
theorem isMark_some {x : String} {t : Token} : IsMark x (some t) ↔ t.kind = "punct" ∧ t.value = x := by
  simp [IsMark, Punct]
theorem isKind_none {k : String} : IsKind k none ↔ False := by simp [IsKind]
theorem isMark_none {x : String} : IsMark x none ↔ False := by simp [IsMark]

end

/-- The next token is that of a scalar. -/
def IsScalar (la : Option Token) : Prop :=
  IsKind "integer" la ∨ IsKind "float" la ∨ IsKind "bool" la ∨ IsKind "null" la ∨ IsKind "string" la

/-- Lookaheads: values begin with a scalar or an opening bracket, and end at a comma, a closing bracket or the end of
the input. -/
def table : LLTable Token Unit where
  starts _ la := IsScalar la ∨ IsMark "{" la ∨ IsMark "[" la
  empty _ _ := False
  follow _ la := la = none ∨ IsMark "," la ∨ IsMark "]" la ∨ IsMark "}" la

theorem ll1 (J : Fns F) : IsLL1 (env J) value := by
  refine ⟨table, ⟨?_, ?_, ?_, ?_⟩, fun la h => .inl h⟩
  · rintro x q ⟨⟩ la h
    simp only [P.starts, P.empty, scalar, integer, number, boolean, null, string, jsonDict, jsonList, P.between,
      P.seqr, P.seql, token_starts, token_empty, punct_starts, punct_empty, false_and, or_false] at h
    simp only [table, IsScalar]
    tauto
  · rintro x q ⟨⟩ la h
    simp only [P.empty, scalar, integer, number, boolean, null, string, jsonDict, jsonList, P.between,
      P.seqr, P.seql, token_empty, punct_empty, false_and, or_false] at h
  · rintro x ⟨⟩
  · rintro x q ⟨⟩
    simp only [P.LL1, P.starts, P.empty, P.goesOn, scalar, integer, number, boolean, null, string, jsonDict,
      jsonList, P.between, member, P.sepBy, P.map, P.seq, value, P.seqr, P.seql, token_starts, token_empty,
      punct_starts, punct_empty, false_and, or_false, token_ll1, punct_ll1, true_and, and_true]
    simp only [table, IsScalar, false_and, or_false]
    refine ⟨⟨⟨⟨⟨?_, ?_⟩, ?_⟩, ?_⟩, ⟨⟨?_, ?_, ?_, ?_⟩, ?_⟩, ?_⟩, ⟨⟨?_, ?_, ?_, ?_⟩, ?_⟩, ?_⟩
    all_goals
      rintro (_ | t)
      · simp [isKind_none, isMark_none]
      · first
          | exact id
          | simp only [isKind_some, isMark_some]
            grind

/-! ### It always ends -/

theorem contextFree (J : Fns F) : Everywhere (env J) P.contextFree value := by
  refine ⟨⟨trivial, trivial, trivial⟩, ?_⟩
  rintro i q ⟨⟩
  simp [P.All, scalar, integer, number, boolean, null, string, jsonDict, jsonList, P.between, member, P.sepBy, P.map,
    P.seq, value, P.seqr, P.seql, P.token, punct, P.contextFree, P.notRegexp, P.notEof, P.notLayout]

theorem punct_reads {x : String} {a : Token} : ¬ CanBeEmpty (env J) (punct x) a :=
  P.Consumes.not_empty (p := punct x) (by simp only [punct, P.Consumes]) a

theorem wf (J : Fns F) : WellFounded fun j i => LeftCalls (env J) i j := by
  have h : ∀ i j, ¬ LeftCalls (env J) i j := by
    rintro i j ⟨q, ⟨⟩, hs⟩
    simp only [P.StartsWith, scalar, integer, number, boolean, null, string, jsonDict, jsonList, P.between,
      P.seqr, P.seql, P.token, punct, false_or, or_false] at hs
    rcases hs with ⟨⟨a, ha⟩, -⟩ | ⟨⟨a, ha⟩, -⟩
    · exact punct_reads ha
    · exact punct_reads ha
  exact ⟨fun i => ⟨i, fun j h' => absurd h' (h i j)⟩⟩

theorem notLayout (J : Fns F) : Everywhere (env J) P.notLayout value :=
  have h : ∀ {α : Type} (q : E F α), q.contextFree → q.notLayout := fun _ h => h.2.2
  ⟨(contextFree J).1.mono h, fun i q hq => ((contextFree J).2 i q hq).mono h⟩

end Json

/-! ### C75 -/

/-- **C75**: `parser.parse(s).unwrap()` returns `v` if and only if the tokens `s` are the JSON text of the value `v`.
For every `get_loc`, so for `lexer.parse` too. -/
theorem C75_exact (gl : Loc → List Token → Nat → Loc) (fmt : Loc → String) (v : V F) :
    (∃ r, Returns (env J) parser s (plain gl) r ∧ r.unwrap fmt false = .ok v) ↔ Denotes J s v :=
  (C55_exact (ll1 J) (contextFree J) (wf J) gl fmt v).trans lang_iff

/-- C75: a JSON text has only one value. -/
theorem C75_unambiguous {v v' : V F} (h : Denotes J s v) (h' : Denotes J s v') : v = v' :=
  C55_unambiguous (ll1 J) (contextFree J) (wf J) (lang_iff.2 h) (lang_iff.2 h')

/-- C75: the same value with `recover=True`, and no error is reported then. -/
theorem C75_recovering (gl : Loc → List Token → Nat → Loc) (k : Int) {v : V F} (h : Denotes J s v) :
    ∃ o, Returns (env J) parser s (recovering k gl) (.ok o) ∧ o.value = v :=
  C55_recovering (ll1 J) (contextFree J) (wf J) gl k (lang_iff.2 h)

/-- C75: `dict` keeps each key once, in the order of their first occurrences, with its last value. -/
theorem C75_dict {β : Type} (kvs : List (String × β)) : IsDict kvs (pyDict kvs) := isDict_pyDict kvs

/-- **C75**, `loads`: `loads(src)` returns `v` if and only if `src` splits into tokens which are the JSON text of `v`.
For every lexer specification. -/
theorem C75_loads (src : List Char) (spec : LexSpec) (fmt : Loc → String) (v : V F) :
    (∃ toks r, LexReturns src spec toks ∧ Returns (env J) parser toks (plain lexerGetLoc) r ∧
      r.unwrap fmt false = .ok v) ↔ ∃ toks, Tiles src spec 0 toks ∧ Denotes J toks v := by
  constructor
  · rintro ⟨toks, r, h1, h2, h3⟩
    exact ⟨toks, (C37_returns_iff src spec toks).1 h1, (C75_exact _ fmt v).1 ⟨r, h2, h3⟩⟩
  · rintro ⟨toks, h1, h2⟩
    obtain ⟨r, h3, h4⟩ := (C75_exact lexerGetLoc fmt v).2 h2
    exact ⟨toks, r, (C37_returns_iff src spec toks).2 h1, h3, h4⟩

/-! ### Wrong input -/

/-- What the labels of insertions stand for: `1` and `"a"` for the tokens of these values, the others for punctuation
marks. -/
def Json.tokens (l : String) : List Token :=
  if l = "1" then [⟨"integer", "1", ⟨0, 0, 0⟩, ⟨0, 0, 0⟩⟩]
  else if l = "'\"a\"'" then [⟨"string", "a", ⟨0, 0, 0⟩, ⟨0, 0, 0⟩⟩]
  else match ["{", "}", "[", "]", ":", ","].find? fun x => l = "'" ++ x ++ "'" with
    | some x => [⟨"punct", x, ⟨0, 0, 0⟩, ⟨0, 0, 0⟩⟩]
    | none => []

theorem Json.labelled (h1 : J.int "1" = .ok 1) (h2 : J.unescape "a" = .ok "a") :
    Everywhere (env J) (P.labelled (env J) tokens) value := by
  refine ⟨trivial, ?_⟩
  have ha : Lang (env J) (string J) (tokens "'\"a\"'") "a" := lang_string.2 ⟨_, rfl, rfl, h2⟩
  have h1 : Lang (env J) (scalar J) (tokens "1") (.int 1) :=
    .altL (.altL (.altL (.altL (.fmap (lang_token.2 ⟨rfl, rfl⟩) (by rw [h1]; rfl)))))
  rintro i q ⟨⟩
  simp only [P.All, scalar, integer, number, boolean, null, string, jsonDict, jsonList, P.between, member, P.sepBy,
    P.map, P.seq, value, P.seqr, P.seql, P.token, punct, P.labelled, and_true, true_and] at ha h1 ⊢
  exact ⟨⟨h1, rfl, ⟨⟨ha, rfl⟩, rfl, ha, rfl⟩, rfl⟩, rfl, rfl, rfl⟩

/-- **C75**, wrong input: if `recover=True` and errors are reported, then the value that `unwrap(recover=True)`
returns is the value of the JSON text that results from the tokens by the reported edits, in that order. -/
theorem C75_repaired (h1 : J.int "1" = .ok 1) (h2 : J.unescape "a" = .ok "a") {k : Int} {fmt : Loc → String}
    {r : Result Token (V F)} {v : V F} {pe : ParseError}
    (h : Returns (env J) parser s (recovering k lexerGetLoc) r) (hv : r.unwrap fmt true = .ok v)
    (he : r.unwrap fmt false = .error pe) :
    ∃ es, ReportsEdits s es pe.errors ∧ InOrder 0 es s.length ∧ Denotes J (edited tokens s 0 es s.length) v := by
  obtain ⟨es, h3, h4, h5⟩ := C46_reported_tokens tokens (labelled h1 h2) (.inr (notLayout J)) fmt h hv he
  exact ⟨es, h3, h4, lang_iff.1 h5⟩

/-- C75: so the tokens with the reported edits applied are accepted, with the same value. -/
theorem C75_reparse (h1 : J.int "1" = .ok 1) (h2 : J.unescape "a" = .ok "a") {k : Int} {fmt : Loc → String}
    {r : Result Token (V F)} {v : V F} {pe : ParseError}
    (h : Returns (env J) parser s (recovering k lexerGetLoc) r) (hv : r.unwrap fmt true = .ok v)
    (he : r.unwrap fmt false = .error pe) :
    ∃ es, ReportsEdits s es pe.errors ∧ ∃ r',
      Returns (env J) parser (edited tokens s 0 es s.length) (plain lexerGetLoc) r' ∧
        r'.unwrap fmt false = .ok v := by
  obtain ⟨es, h3, -, h5⟩ := C75_repaired h1 h2 h hv he
  exact ⟨es, h3, (C75_exact _ _ _).2 h5⟩

/-! ### Exceptions -/

/-- A token of the input on which `unescape`, `int` or `float` raises `e`. -/
def Json.BadToken (J : Fns F) (s : List Token) (e : Exn) : Prop :=
  ∃ t ∈ s, (t.kind = "string" ∧ J.unescape t.value = .error e) ∨ (t.kind = "integer" ∧ J.int t.value = .error e) ∨
    (t.kind = "float" ∧ J.float t.value = .error e)

namespace Json

theorem der_token {kind : String} {col : Nat → Nat → Prop} {m i : Nat} {es : List Step} {t : Token} {j : Nat}
    (h : Der (env J) s col (.token kind : E F Token) m i es t j) : t ∈ s ∧ t.kind = kind := by
  obtain ⟨h1, h2, -⟩ := h.inv.inv
  exact ⟨h1, by simpa using h2⟩

theorem item_reads {α : Type} {p : E F α} {s : List Token} {col : Nat → Nat → Prop} {m i : Nat} {v : α}
    (hi : i ≤ s.length) : ¬ Der (env J) s col (.seqr (punct ",") p) m i [] v i := by
  intro h
  obtain ⟨es1, es2, f, b, l, he, rfl, h1, h2⟩ := h.inv
  obtain ⟨rfl, rfl⟩ := List.append_eq_nil_iff.1 he.symm
  have e : l = i + 1 := h1.inv rfl
  have l1 := (der_inOrder h1 hi).2
  have := (der_inOrder h2 l1).1.le
  omega

theorem quiet (J : Fns F) (s : List Token) : Everywhere (env J)
    (fun p => p.raisesOnly (env J) s (BadToken J s) ∧ p.defined (env J) ∧ p.properMany (env J)) parser := by
  refine ⟨?_, ?_⟩
  · simp [parser, P.seql, P.All, value, P.raisesOnly, P.defined, P.properMany, env]
  · have hm : ∀ {α : Type} (p : E F α), P.properMany (env J) (.many (.seqr (punct ",") p)) :=
      fun p s col m i v hi => item_reads hi
    have hs : (fun p => p.raisesOnly (env J) s (BadToken J s)) (string J) := by
      intro col m i es t j e hi hd he
      obtain ⟨h1, h2⟩ := der_token hd
      exact ⟨t, h1, .inl ⟨h2, he⟩⟩
    have hi : (fun p => p.raisesOnly (env J) s (BadToken J s)) (integer J) := by
      intro col m i es t j e hi hd he
      obtain ⟨h1, h2⟩ := der_token hd
      refine ⟨t, h1, .inr (.inl ⟨h2, ?_⟩)⟩
      cases hj : J.int t.value with
      | ok x => simp only [hj, Except.map] at he; cases he
      | error e' => simp only [hj, Except.map] at he; cases he; rfl
    have hf : (fun p => p.raisesOnly (env J) s (BadToken J s)) (number J) := by
      intro col m i es t j e hi hd he
      obtain ⟨h1, h2⟩ := der_token hd
      refine ⟨t, h1, .inr (.inr ⟨h2, ?_⟩)⟩
      cases hj : J.float t.value with
      | ok x => simp only [hj, Except.map] at he; cases he
      | error e' => simp only [hj, Except.map] at he; cases he; rfl
    have hmem := hm (member J)
    have hval := hm (value : E F (V F))
    rintro i q ⟨⟩
    simp only [string, integer, number, member, P.seqr, P.seql, P.seq, P.token, punct, value] at hs hi hf hmem hval
    simp only [P.All, scalar, integer, number, boolean, null, string, jsonDict, jsonList, P.between, member, P.sepBy,
      P.map, P.seq, value, P.seqr, P.seql, P.token, punct, hs, hi, hf, hmem, hval]
    simp [P.raisesOnly, P.defined, P.properMany, env]

end Json

/-- C75, exceptions: the only exceptions that leave `parse` are those of `unescape`, `int` and `float`, on tokens of
the input. In both modes, for every `max_insertions` and `get_loc`. -/
theorem C75_exceptions (o : Opts Token) {e : Exn} (h : Raises (env J) parser s o e) : BadToken J s e :=
  C69_only (quiet J s) o h

/-- C75, totality: if these functions do not raise on the tokens, `parse(..)` returns, in both modes: a value or a
`ParseError`. -/
theorem C75_total (hs : ∀ e, ¬ BadToken J s e) (o : Opts Token) (hk : 0 ≤ o.maxInsertions) :
    ∃ r, Returns (env J) parser s o r := by
  rcases C23_terminates (env J) (wf J) parser s o hk with h | ⟨e, he⟩
  · exact h
  · exact absurd (C75_exceptions o he) (hs e)

/-! ### Cases that meet the hypotheses -/

namespace Samples

/-- Escapes are kept, floats too; `int` knows two numbers. -/
def json : Fns String where
  unescape := .ok
  int s := if s = "1" then .ok 1 else if s = "2" then .ok 2 else .error (.valueError "int")
  float := .ok

def mark (x : String) : Token := ⟨"punct", x, ⟨0, 0, 0⟩, ⟨0, 0, 0⟩⟩
def word (k x : String) : Token := ⟨k, x, ⟨0, 0, 0⟩, ⟨0, 0, 0⟩⟩

/-- `{"k": [2, true], "n": null, "k": 1}`: the key `k` comes first, and has the value 1. -/
example : Denotes json [mark "{", word "string" "k", mark ":", mark "[", word "integer" "2", mark ",", word "bool" "true",
      mark "]", mark ",", word "string" "n", mark ":", word "null" "null", mark ",", word "string" "k", mark ":",
      word "integer" "1", mark "}"]
    (.dict [("k", .int 1), ("n", .null)]) :=
  (C75_exact defaultGetLoc defaultFmtLoc _).1 ⟨_, ⟨40, rfl⟩, rfl⟩

/-- `[2,]` is no JSON text. -/
example (v : V String) : ¬ Denotes json [mark "[", word "integer" "2", mark ",", mark "]"] v := fun h => by
  obtain ⟨o, ho, -⟩ := C75_recovering defaultGetLoc 5 h
  cases returns_unique ho ⟨40, rfl⟩

set_option maxRecDepth 10000 in
/-- Two errors: `{"k" [2,]}` has the value of `{"k": [2, 1]}`. -/
example : ∃ r v pe, Returns (env json) parser [mark "{", word "string" "k", mark "[", word "integer" "2", mark ",",
      mark "]", mark "}"] (recovering 5 lexerGetLoc) r ∧ r.unwrap defaultFmtLoc true = .ok v ∧
    r.unwrap defaultFmtLoc false = .error pe ∧ v = .dict [("k", .list [.int 2, .int 1])] ∧
    pe.errors.map (·.op) = [some (.insert "':'"), some (.insert "1")] ∧
    edited tokens [mark "{", word "string" "k", mark "[", word "integer" "2", mark ",", mark "]", mark "}"] 0
      [⟨2, .insert "':'"⟩, ⟨5, .insert "1"⟩] 7 = [mark "{", word "string" "k", mark ":", mark "[", word "integer" "2",
        mark ",", word "integer" "1", mark "]", mark "}"] :=
  ⟨_, _, _, ⟨40, rfl⟩, rfl, rfl, rfl, rfl, rfl⟩

/-- `int` raises on a token of the input, and so does `parse`. -/
example : Raises (env json) parser [mark "[", word "integer" "3"] (plain lexerGetLoc) (.valueError "int") :=
  ⟨40, rfl⟩

end Samples

end Reparsec
