import Verif.Lemmas.RegexTries
import Verif.Lemmas.RegexParsers
import Verif.Props.Terminals
import Verif.Props.Calculator
import Verif.Props.Yamlish
import Verif.Props.JsonLexer
import Verif.Props.Samples

/-!
# C82: `regexp` finds what the regular expression describes

For the part of `re` in `Model/Regex`: classes, sequences, alternatives, greedy repetition, groups.
-/

namespace Reparsec

variable {ρ : Type} {Γ : ρ → Type} {env : Env Char ρ Γ} {s : List Char} {pos : Nat} {ctx : Ctx Char}

/-- `regexp(pat, group)`. -/
abbrev regexpOf (re : Re) (group : Option String := none) : P Char ρ Γ String :=
  .regexp (re.matcher String.ofList group)

theorem regexp_hit {re : Re} {group : Option String} {ms : List Found} (h : re.Tries (s.drop pos) ms) :
    (Terminal.regexp (re.matcher String.ofList group)).hit s pos =
      .ok (ms.head?.bind fun m => (m.value (s.drop pos) group).map fun v => (String.ofList v, pos + m.len)) := by
  simp only [Terminal.regexp, Re.matcher, h.match]
  cases ms with
  | nil => rfl
  | cons m ms =>
    cases group with
    | none => rfl
    | some name =>
      simp only [List.head?_cons, Option.map_some, Option.bind_some, Found.group_eq m name (s.drop pos), Except.bind]
      cases m.value (s.drop pos) (some name) <;> rfl

/-- **C82**: wherever `regexp(pat, group)` is tried, it reads what the preferred match of the expression at this place
matches, and its value is the group, or the whole match. -/
theorem C82_reads {re : Re} {group : Option String} {v : String} {j : Nat} :
    (∃ ctx', Reads env (regexpOf re group) s pos ctx v j ctx') ↔
      ∃ m ms w, re.Tries (s.drop pos) (m :: ms) ∧ j = pos + m.len ∧
        m.value (s.drop pos) group = some w ∧ v = String.ofList w := by
  obtain ⟨ms, ht⟩ := re.tries (s.drop pos)
  have hh := regexp_hit (group := group) ht
  have hi : IsTerminal (regexpOf re group : P Char ρ Γ String) (.regexp _) := .regexp _
  cases hv : (ms.head?.bind fun m => (m.value (s.drop pos) group).map fun v => (String.ofList v, pos + m.len)) with
  | none =>
    rw [hv] at hh
    constructor
    · rintro ⟨ctx', ex, c, h⟩
      cases h.unique (C31_no_match (env := env) (ctx := ctx) (ins := 0) hi hh).1
    · rintro ⟨m, ms', w, h1, -, h2, -⟩
      obtain rfl := ht.unique h1
      simp [h2] at hv
  | some x =>
    obtain ⟨v', j'⟩ := x
    rw [hv] at hh
    obtain ⟨⟨ctx1, ex1, c1, h1⟩, -⟩ := C31_match (env := env) (ctx := ctx) (ins := 0) hi hh
    rw [Option.bind_eq_some_iff] at hv
    obtain ⟨m, hm, hv⟩ := hv
    obtain ⟨w, hw, hv⟩ := Option.map_eq_some_iff.1 hv
    obtain ⟨rfl, rfl⟩ := Prod.mk.inj hv
    cases ms with
    | nil => cases hm
    | cons m' ms =>
      cases hm
      constructor
      · rintro ⟨ctx', ex, c, h⟩
        have := h.unique h1
        simp only [Out.ret.injEq, Simple.ok.injEq, Ok.mk.injEq] at this
        obtain ⟨rfl, rfl, -⟩ := this
        exact ⟨m, ms, w, ht, rfl, hw, rfl⟩
      · rintro ⟨m2, ms2, w2, h2, rfl, h3, rfl⟩
        obtain ⟨rfl, rfl⟩ := List.cons.inj (ht.unique h2)
        rw [hw] at h3
        cases h3
        exact ⟨ctx1, ex1, c1, h1⟩

/-- C82: a success is a match: `regexp(pat)` reads a text that the expression describes, and returns it. -/
theorem C82_sound {re : Re} {v : String} {j : Nat} {ctx' : Ctx Char} (h : Reads env (regexpOf re) s pos ctx v j ctx') :
    ∃ w rest, s.drop pos = w ++ rest ∧ re.Lang w ∧ v = String.ofList w ∧ j = pos + w.length := by
  obtain ⟨m, ms, w, ht, rfl, hw, rfl⟩ := C82_reads.1 ⟨_, h⟩
  obtain ⟨hl, hm⟩ := ht.lang List.mem_cons_self
  cases hw
  exact ⟨_, _, (List.take_append_drop m.len _).symm, hm, rfl, by rw [List.length_take, Nat.min_eq_left hl]⟩

/-- **C82**: a failure means that there is no match: `regexp(pat)` fails if and only if the expression describes no
beginning of the rest of the text, so no match is missed. -/
theorem C82_fails {re : Re} :
    (∃ e, Fails env (regexpOf re) s pos ctx e) ↔ ¬ ∃ w rest, s.drop pos = w ++ rest ∧ re.Lang w := by
  obtain ⟨ms, ht⟩ := re.tries (s.drop pos)
  have hh := regexp_hit (group := none) ht
  have hi : IsTerminal (regexpOf re : P Char ρ Γ String) (.regexp _) := .regexp _
  rw [← Re.match_none, ht.match]
  cases ms with
  | nil =>
    refine ⟨fun _ => rfl, fun _ => ⟨_, (C31_no_match (env := env) (ctx := ctx) (ins := 0) hi hh).1⟩⟩
  | cons m ms =>
    refine ⟨fun ⟨e, h⟩ => ?_, fun h => by cases h⟩
    obtain ⟨⟨ctx1, ex1, c1, h1⟩, -⟩ := C31_match (env := env) (ctx := ctx) (ins := 0) hi hh
    cases RunPlain.unique h h1

/-- C82: `regexp(pat, group)` always succeeds or fails: it raises nothing, and it ends (also if an expression that
matches nothing is repeated). -/
theorem C82_ends (re : Re) (group : Option String) :
    (∃ v j ctx', Reads env (regexpOf re group) s pos ctx v j ctx') ∨ ∃ e, Fails env (regexpOf re group) s pos ctx e := by
  obtain ⟨ms, ht⟩ := re.tries (s.drop pos)
  have hh := regexp_hit (group := group) ht
  have hi : IsTerminal (regexpOf re group : P Char ρ Γ String) (.regexp _) := .regexp _
  cases hv : (ms.head?.bind fun m => (m.value (s.drop pos) group).map fun v => (String.ofList v, pos + m.len)) with
  | none =>
    rw [hv] at hh
    exact .inr ⟨_, (C31_no_match (env := env) (ctx := ctx) (ins := 0) hi hh).1⟩
  | some x =>
    rw [hv] at hh
    obtain ⟨⟨ctx1, h1⟩, -⟩ := C31_match (env := env) (ctx := ctx) (ins := 0) hi hh
    exact .inl ⟨_, _, _, h1⟩

/-- C82: if there is only one match, that is read. -/
theorem C82_only {re : Re} {w : List Char} (hw : w <+: s.drop pos) (h : re.Lang w)
    (ho : ∀ w', w' <+: s.drop pos → re.Lang w' → w' = w) :
    ∃ ctx', Reads env (regexpOf re) s pos ctx (String.ofList w) (pos + w.length) ctx' := by
  obtain ⟨r, hr⟩ := hw
  rcases C82_ends (env := env) (s := s) (pos := pos) (ctx := ctx) re none with ⟨v, j, ctx', h'⟩ | h'
  · obtain ⟨w', r', h1, h2, rfl, rfl⟩ := C82_sound h'
    obtain rfl := ho w' ⟨r', h1.symm⟩ h2
    exact ⟨_, h'⟩
  · exact absurd ⟨w, r, hr.symm, h⟩ (C82_fails.1 h')

/-- C82: the value of a group is a part of the rest of the text that the expression in the group describes. -/
theorem C82_group {re : Re} {name v : String} {j : Nat} {ctx' : Ctx Char}
    (h : Reads env (regexpOf re (some name)) s pos ctx v j ctx') :
    ∃ a t, (Re.group name a).Has re ∧ a.Lang t ∧ t <:+: s.drop pos ∧ v = String.ofList t := by
  obtain ⟨m, ms, w, ht, rfl, hw, rfl⟩ := C82_reads.1 ⟨_, h⟩
  simp only [Found.value, Option.map_eq_some_iff] at hw
  obtain ⟨⟨n, t⟩, hc, rfl⟩ := hw
  have := List.mem_of_getLast? hc
  simp only [List.mem_filter, decide_eq_true_eq] at this
  obtain ⟨h1, rfl⟩ := this
  obtain ⟨a, h2, h3, h4⟩ := ht.caps List.mem_cons_self h1
  exact ⟨a, t, h2, h3, h4, rfl⟩

/-- C82: in `a|b` the first alternative is preferred, whatever the lengths of the matches. -/
theorem C82_first_alternative {a b : Re} {v : String} {j : Nat}
    (h : ∃ w rest, s.drop pos = w ++ rest ∧ a.Lang w) :
    (∃ ctx', Reads env (regexpOf (.alt a b)) s pos ctx v j ctx') ↔
      ∃ ctx', Reads env (regexpOf a) s pos ctx v j ctx' := by
  rw [C82_reads, C82_reads]
  obtain ⟨ms, h1⟩ := a.tries (s.drop pos)
  obtain ⟨ms', h2⟩ := b.tries (s.drop pos)
  cases ms with
  | nil => exact absurd h (Re.match_none.1 h1.match)
  | cons m ms =>
    constructor
    · rintro ⟨m', ms2, w, h3, h4⟩
      have := h3.unique (.alt h1 h2)
      cases this
      exact ⟨m, ms, w, h1, h4⟩
    · rintro ⟨m', ms2, w, h3, h4⟩
      cases h3.unique h1
      exact ⟨m, ms ++ ms', w, .alt h1 h2, h4⟩

/-- C82: the second one is tried if the first one does not match. -/
theorem C82_second_alternative {a b : Re} {v : String} {j : Nat}
    (h : ¬ ∃ w rest, s.drop pos = w ++ rest ∧ a.Lang w) :
    (∃ ctx', Reads env (regexpOf (.alt a b)) s pos ctx v j ctx') ↔
      ∃ ctx', Reads env (regexpOf b) s pos ctx v j ctx' := by
  rw [C82_reads, C82_reads]
  obtain ⟨ms, h1⟩ := a.tries (s.drop pos)
  obtain ⟨ms', h2⟩ := b.tries (s.drop pos)
  have h0 := Re.match_none.2 h
  rw [h1.match] at h0
  obtain rfl := List.head?_eq_none_iff.1 h0
  constructor
  · rintro ⟨m', ms2, w, h3, h4⟩
    obtain rfl := h3.unique (.alt h1 h2)
    exact ⟨m', ms2, w, h2, h4⟩
  · rintro ⟨m', ms2, w, h3, h4⟩
    obtain rfl := h3.unique h2
    exact ⟨m', ms2, w, .alt h1 h2, h4⟩

/-- C82: the repetition of a class reads as many of its characters as there are: the next character, if there is one,
is not in the class. -/
theorem C82_greedy {f : Char → Bool} {v : String} {j : Nat} {ctx' : Ctx Char}
    (h : Reads env (regexpOf (.star (.cls f))) s pos ctx v j ctx') :
    ∃ w, v = String.ofList w ∧ j = pos + w.length ∧ w <+: s.drop pos ∧ (∀ x ∈ w, f x = true) ∧
      ∀ x, s[j]? = some x → f x = false := by
  obtain ⟨m, ms, w, ht, rfl, hw, rfl⟩ := C82_reads.1 ⟨_, h⟩
  cases hw
  have hm := ht.match
  rw [runs_match (runs_star f)] at hm
  cases hm
  have e : (s.drop pos).take ((s.drop pos).takeWhile f).length = (s.drop pos).takeWhile f := take_takeWhile f _
  refine ⟨_, rfl, ?_, List.take_prefix _ _, ?_, ?_⟩
  · rw [e]
  · rw [e]; exact fun x hx => List.all_eq_true.1 List.all_takeWhile x hx
  · intro x hx
    have h1 : (s.drop (pos + ((s.drop pos).takeWhile f).length))[0]? = some x := by simpa using hx
    rw [← List.drop_drop] at h1
    have h2 : (s.drop pos).drop ((s.drop pos).takeWhile f).length = (s.drop pos).dropWhile f := by
      conv => lhs; arg 2; rw [← List.takeWhile_append_dropWhile (p := f) (l := s.drop pos)]
      exact List.drop_left
    rw [h2] at h1
    cases hd : (s.drop pos).dropWhile f with
    | nil => rw [hd] at h1; cases h1
    | cons y l =>
      rw [hd] at h1
      cases h1
      have := List.head_dropWhile_not f (l := s.drop pos) (by rw [hd]; simp)
      simpa [hd] using this

/-- C82, recovery: if the expression matches nothing from `pos` on before `cur`, and something at `cur`, then what
`regexp(pat)` offers is to skip to `cur` and read a match there. -/
theorem C82_skips {re : Re} {cur : Nat} {ins k : Int} (hlt : pos < cur) (hcur : cur < s.length)
    (hn : ∀ c, pos ≤ c → c < cur → ¬ ∃ w rest, s.drop c = w ++ rest ∧ re.Lang w)
    (hm : ∃ w rest, s.drop cur = w ++ rest ∧ re.Lang w) :
    ∃ r w x, RunRec env (regexpOf re) s pos ctx ins (some k) (.ret (.recovered r)) ∧ r.repairs = [x] ∧
      x.ops.map OpItem.op = [.skip (cur - pos)] ∧ w <+: s.drop cur ∧ re.Lang w ∧ x.value = String.ofList w ∧
      x.pos = cur + w.length := by
  obtain ⟨ms, ht⟩ := re.tries (s.drop cur)
  have hi : IsTerminal (regexpOf re : P Char ρ Γ String) (.regexp _) := .regexp _
  have hh := regexp_hit (group := none) ht
  cases ms with
  | nil => exact absurd hm (Re.match_none.1 ht.match)
  | cons m ms =>
    have h0 : ∀ c, pos ≤ c → c < cur → (Terminal.regexp (re.matcher String.ofList)).hit s c = .ok none := by
      intro c h1 h2
      obtain ⟨ms, hc⟩ := re.tries (s.drop c)
      have h3 := Re.match_none.2 (hn c h1 h2)
      rw [hc.match] at h3
      rw [regexp_hit hc, h3]
      rfl
    obtain ⟨r, h1, h2, -⟩ := C31_skip (env := env) (ctx := ctx) (ins := ins) (k := k) hi h0 hlt hcur hh
    obtain ⟨hl, hlang⟩ := ht.lang List.mem_cons_self
    refine ⟨r, (s.drop cur).take m.len, _, h1, h2, rfl, List.take_prefix _ _, hlang, rfl, ?_⟩
    rw [List.length_take, Nat.min_eq_left hl]
    rfl

/-! ### `iter_tokens` and `split_tokens` with a regular expression -/

/-- **C82**: what `split_tokens(src, spec)` returns: the tokens of the preferred matches, one after the other. -/
theorem C82_splits {re : Re} {toks : List Token} : LexReturns s re.lexSpec toks ↔ re.Splits s 0 toks := by
  rw [C37_returns_iff]
  have hrun : ∀ {i m ms}, re.Tries (s.drop i) (m :: ms) →
      re.lexSpec.run s i = some ⟨i + m.len, m.caps.getLast?.map fun c => (c.1, String.ofList c.2)⟩ := by
    intro i m ms h
    simp only [Re.lexSpec, h.match, List.head?_cons, Option.map_some]
  have hinv : ∀ {i r}, re.lexSpec.run s i = some r → ∃ m ms, re.Tries (s.drop i) (m :: ms) ∧
      r = ⟨i + m.len, m.caps.getLast?.map fun c => (c.1, String.ofList c.2)⟩ := by
    intro i r h
    obtain ⟨ms, ht⟩ := re.tries (s.drop i)
    simp only [Re.lexSpec, ht.match] at h
    cases ms with
    | nil => cases h
    | cons m ms => exact ⟨m, ms, ht, by cases h; rfl⟩
  generalize 0 = i
  constructor
  · intro h
    induction h with
    | done => exact .done
    | space h1 h2 h3 _ ih =>
      obtain ⟨m, ms, ht, rfl⟩ := hinv h2
      simp only [Option.map_eq_none_iff, List.getLast?_eq_none_iff] at h3
      exact .skip h1 ht h3 ih
    | token h1 h2 h3 _ ih =>
      obtain ⟨m, ms, ht, rfl⟩ := hinv h2
      simp only [Option.map_eq_some_iff, Prod.mk.injEq] at h3
      obtain ⟨⟨n, t⟩, h4, rfl, rfl⟩ := h3
      obtain ⟨l, hl⟩ := List.getLast?_eq_some_iff.1 h4
      exact .token h1 ht hl ih
  · intro h
    induction h with
    | done => exact .done
    | skip h1 h2 h3 _ ih => exact .space h1 (hrun h2) (by rw [h3]; rfl) ih
    | token h1 h2 h3 _ ih => exact .token h1 (hrun h2) (by rw [h3, List.getLast?_concat]; rfl) ih

/-- C82: an expression that does not describe the empty text never makes the lexer loop: it splits the source or raises
`LexError`. -/
theorem C82_lex_ends {re : Re} (h : ¬ re.Lang []) :
    (∃ toks, LexReturns s re.lexSpec toks) ∨ ∃ e, LexRaises s re.lexSpec e := by
  refine C38_terminates s _ fun i m hm he => ?_
  obtain ⟨ms, ht⟩ := re.tries (s.drop i)
  simp only [Re.lexSpec, ht.match] at hm
  cases ms with
  | nil => cases hm
  | cons m' ms =>
    cases hm
    have h0 : m'.len = 0 := by simpa using he
    have := (ht.lang List.mem_cons_self).2
    rw [h0] at this
    exact h this

/-- C82: and the `LexError` is raised where the expression describes no beginning of the rest of the source. -/
theorem C82_lex_error {re : Re} {e : Exn} (h : LexRaises s re.lexSpec e) :
    ∃ q, q < s.length ∧ e = .lexError (exactLoc s q) ∧ ¬ ∃ w rest, s.drop q = w ++ rest ∧ re.Lang w := by
  obtain ⟨q, -, h1, h2, rfl⟩ := (C37_raises_iff ..).1 h
  refine ⟨q, h1, rfl, Re.match_none.1 ?_⟩
  simpa [Re.lexSpec] using h2

/-! ### The parsers of the tests, with their regular expressions as written -/

/-- **C82**: C80 with the regular expressions as written in `tests/parsers/json_scannerless.py`. -/
theorem C82_json {F : Type} {J : Json.Fns F} (fmt : Loc → String) (v : Json.V F) :
    (∃ r, Returns (JsonText.AsWritten.env J) JsonText.AsWritten.parser s (plain scannerlessGetLoc) r ∧
      r.unwrap fmt false = .ok v) ↔ JsonText.Text J s v := by
  rw [JsonText.AsWritten.env_eq, JsonText.AsWritten.parser_eq]
  exact C80_exact fmt v

/-- **C82**: C81 with the regular expression as written in `tests/parsers/json.py`. -/
theorem C82_json_lexer {F : Type} {J : Json.Fns F} (fmt : Loc → String) (v : Json.V F) :
    (∃ toks r, LexReturns s JsonText.AsWritten.jsonSpec toks ∧
      Returns (Json.env J) Json.parser toks (plain lexerGetLoc) r ∧ r.unwrap fmt false = .ok v) ↔
      JsonText.Text J s v := by
  rw [JsonText.AsWritten.jsonSpec_eq]
  exact (C75_loads s JsonText.jsonSpec fmt v).trans JsonText.tiles_iff

/-- C82: so that lexer splits every text. -/
theorem C82_lexes : ∃ toks, LexReturns s JsonText.AsWritten.jsonSpec toks := by
  rw [JsonText.AsWritten.jsonSpec_eq]
  exact C81_lexes s

/-- **C82**: C77 with the regular expressions as written in `tests/parsers/yamlish.py`. -/
theorem C82_yamlish {space : Char → Bool} (hsp : ∀ x, Yamlish.Start x → space x = false) (fmt : Loc → String)
    (v : Yamlish.V) :
    (∃ r, Returns (Yamlish.AsWritten.env space) (Yamlish.AsWritten.parser space) s (plain scannerlessGetLoc) r ∧
      r.unwrap fmt false = .ok v) ↔ Yamlish.Document space s v := by
  rw [Yamlish.AsWritten.env_eq, Yamlish.AsWritten.parser_eq]
  exact C77_exact hsp fmt v

/-- **C82**: C70 with the regular expressions as written in `README.md`. -/
theorem C82_calculator {C : Calculator.Chars} (hC : C.OK) (gl : Loc → List Char → Nat → Loc) (fmt : Loc → String)
    (b : Bool) (v : Int) :
    (∃ r, Returns (Calculator.AsWritten.env C) Calculator.parser s (plain gl) r ∧ r.unwrap fmt b = .ok v) ↔
      Calculator.Value C .expr s v := by
  rw [Calculator.AsWritten.env_eq]
  exact C70_exact hC gl fmt b v

/-! ### Samples -/

namespace Samples

/-- `a|ab` -/
def shortFirst : Re := .alt (.chr 'a') (.word ['a', 'b'])

/-- C82: the preferred match need not be the longest one, and it is not given up for what follows the expression:
`regexp(r"a|ab") << eof()` rejects `ab`, which the expression describes. -/
theorem C82_counterexample_whole :
    shortFirst.Lang "ab".toList ∧
    ∃ r pe, Returns noEnv (P.seql (regexpOf shortFirst) .eof) "ab".toList (plain scannerlessGetLoc) r ∧
      r.unwrap defaultFmtLoc false = .error pe :=
  ⟨.altR (.seq (u := ['a']) (.cls rfl) (.seq (u := ['b']) (.cls rfl) .eps)), _, _, ⟨1, rfl⟩, rfl⟩

/-- `(a*)*b` -/
def loops : Re := .seq (.star (.star (.chr 'a'))) (.chr 'b')

/-- A repetition of what may match nothing: `(a*)*b` on `aab`. -/
example : ∃ r, Returns noEnv (regexpOf loops) "aab".toList (plain scannerlessGetLoc) r ∧
    r.unwrap defaultFmtLoc false = .ok "aab" := ⟨_, ⟨1, rfl⟩, rfl⟩

/-- `(a*)*` on `b`: the group took part, with nothing; `(|a)*` on `a`: the empty repetition, which is preferred, is the
last one. (`re.match(r"(a*)*", "b").group(1) == ""`, `re.match(r"(|a)*", "a").group() == ""`.) -/
example : ∃ r, Returns noEnv (regexpOf (.star (.group "1" (.star (.chr 'a')))) (some "1")) "b".toList
    (plain scannerlessGetLoc) r ∧ r.unwrap defaultFmtLoc false = .ok "" := ⟨_, ⟨1, rfl⟩, rfl⟩
example : ∃ r, Returns noEnv (regexpOf (.star (.alt .eps (.chr 'a')))) "a".toList
    (plain scannerlessGetLoc) r ∧ r.unwrap defaultFmtLoc false = .ok "" := ⟨_, ⟨1, rfl⟩, rfl⟩

/-- and on `aac`. -/
example : ∃ r pe, Returns noEnv (regexpOf loops) "aac".toList (plain scannerlessGetLoc) r ∧
    r.unwrap defaultFmtLoc false = .error pe := ⟨_, _, ⟨1, rfl⟩, rfl⟩

/-- `a*ab`: the repetition gives up a character. -/
example : ∃ r, Returns noEnv (regexpOf (.seq (.star (.chr 'a')) (.word ['a', 'b']))) "aaab".toList
    (plain scannerlessGetLoc) r ∧ r.unwrap defaultFmtLoc false = .ok "aaab" := ⟨_, ⟨1, rfl⟩, rfl⟩

/-- `(a|(b))*`, group 2: the last text counts; and if there is none, it fails. -/
def groups : Re := .star (.group "1" (.alt (.chr 'a') (.group "2" (.chr 'b'))))

example : ∃ r, Returns noEnv (regexpOf groups (some "1")) "aba".toList (plain scannerlessGetLoc) r ∧
    r.unwrap defaultFmtLoc false = .ok "a" := ⟨_, ⟨1, rfl⟩, rfl⟩
example : ∃ r, Returns noEnv (regexpOf groups (some "2")) "aba".toList (plain scannerlessGetLoc) r ∧
    r.unwrap defaultFmtLoc false = .ok "b" := ⟨_, ⟨1, rfl⟩, rfl⟩
example : ∃ r pe, Returns noEnv (regexpOf groups (some "2")) "aa".toList (plain scannerlessGetLoc) r ∧
    r.unwrap defaultFmtLoc false = .error pe := ⟨_, _, ⟨1, rfl⟩, rfl⟩

/-- `(?P<a>a)(?P<b>b)?| ` on `a ab`: the group that was closed last names the token. -/
example : LexReturns "a ab".toList (Re.alt (.seq (.group "a" (.chr 'a')) (.opt (.group "b" (.chr 'b')))) (.chr ' ')).lexSpec
    [⟨"a", "a", ⟨0, 0, 0⟩, ⟨1, 0, 1⟩⟩, ⟨"b", "b", ⟨2, 0, 2⟩, ⟨4, 0, 4⟩⟩] := ⟨5, rfl⟩

/-- The hypotheses of `C82_skips` and `C82_only` are met. -/
example : (∀ c, 0 ≤ c → c < 2 → ¬ ∃ w rest, ("xxb".toList).drop c = w ++ rest ∧ (Re.chr 'b').Lang w) ∧
    ∃ w rest, ("xxb".toList).drop 2 = w ++ rest ∧ (Re.chr 'b').Lang w := by
  constructor
  · intro c _ hc
    rw [← Re.match_none]
    have : c = 0 ∨ c = 1 := by omega
    rcases this with rfl | rfl <;> rfl
  · exact ⟨['b'], [], rfl, .cls rfl⟩

/-- A text, with the regular expressions as written. -/
example : ∃ r, Returns (JsonText.AsWritten.env jsonText) JsonText.AsWritten.parser "[2.5e-7, true ]".toList
    (plain scannerlessGetLoc) r ∧ r.unwrap defaultFmtLoc false = .ok (.list [.float "2.5e-7", .bool true]) :=
  (C82_json defaultFmtLoc _).2 jsonText_list

set_option maxRecDepth 100000 in
example : (JsonText.specRe.match "-2.5e1,".toList).map (fun m => (m.len, m.caps)) =
    some (6, [("float", "-2.5e1".toList)]) := rfl

end Samples

end Reparsec
