import Verif.Props.Language
import Verif.Lemmas.Yields

/-!
# C33 - C36, C40: reported locations, columns
-/

namespace Reparsec

variable {τ ρ : Type} {Γ : ρ → Type} {α : Type}

/-- The reported errors are the edits, in order, and the location of each error belongs to the
position of its edit. -/
inductive Located (rel : Nat → Loc → Prop) : List Edit → List ErrorItem → Prop
  | nil : Located rel [] []
  | cons {e : Edit} {es : List Edit} {i : ErrorItem} {is : List ErrorItem} : i.op = some e.op →
      rel e.pos i.loc → Located rel es is → Located rel (e :: es) (i :: is)

theorem Located.mem {rel : Nat → Loc → Prop} {es : List Edit} {is : List ErrorItem}
    (h : Located rel es is) : ∀ i ∈ is, ∃ e ∈ es, rel e.pos i.loc := by
  induction h with
  | nil => simp
  | cons h1 h2 _ ih =>
    intro i hi
    rcases List.mem_cons.1 hi with rfl | hi
    · exact ⟨_, by simp, h2⟩
    · obtain ⟨e, h3, h4⟩ := ih i hi
      exact ⟨e, by simp [h3], h4⟩

theorem OpsMatch.located {rel : Nat → Loc → Prop} {es : List Edit} {ops : List OpItem}
    (h : OpsMatch rel es ops) (fmt : Loc → String) :
    Located rel es (ops.map fun i => ⟨i.loc, fmt i.loc, i.expected, some i.op⟩) := by
  induction h with
  | nil => exact .nil
  | cons h1 h2 _ ih => exact .cons (by simp [h1]) h2 ih

/-- Where the errors of `pe` are: either there is one error, at a position at which the grammar gets
stuck, or the errors are the edits of a derivation. `rel q loc`: `loc` is the location of position
`q`; `col`: the columns. -/
def ErrorsLocated [BEq τ] (env : Env τ ρ Γ) (p : P τ ρ Γ α) (s : List τ)
    (rel : Nat → Loc → Prop) (col : Nat → Nat → Prop) (pe : ParseError) : Prop :=
  (∃ i q, pe.errors = [i] ∧ i.op = none ∧ rel q i.loc ∧ Stuck env s col p 0 0 q) ∨
    ∃ es v j, Derives env s col p 0 0 es v j ∧ Located rel es pe.errors

theorem ErrorsLocated.mem [BEq τ] {env : Env τ ρ Γ} {p : P τ ρ Γ α} {s : List τ}
    {rel : Nat → Loc → Prop} {col : Nat → Nat → Prop} {pe : ParseError}
    (h : ErrorsLocated env p s rel col pe) : ∀ i ∈ pe.errors, ∃ q, q ≤ s.length ∧ rel q i.loc := by
  intro i hi
  rcases h with ⟨i', q, h1, h2, h3, h4⟩ | ⟨es, v, j, h1, h2⟩
  · rw [h1] at hi
    simp only [List.mem_singleton] at hi
    subst hi
    exact ⟨q, (stuck_le h4 (Nat.zero_le _)).2, h3⟩
  · obtain ⟨e, h3, h4⟩ := h2.mem i hi
    have ho := h1.inOrder (Nat.zero_le _)
    have := (C41_meaning ho.1).1 e h3
    exact ⟨e.pos, by omega, h4⟩

section
variable [BEq τ] {env : Env τ ρ Γ} {p : P τ ρ Γ α} {s : List τ}

theorem errorsLocated (D : LocDisc s) (hc : CtxOK D (initCtx D.g) 0)
    (hl : D.layout ∨ Everywhere env P.notLayout p) (fmt : Loc → String) {b b' : Bool} {k : Int}
    {r : Result τ α} {pe : ParseError} (h : Returns env p s ⟨b, k, D.g⟩ r)
    (he : r.unwrap fmt b' = .error pe) : ErrorsLocated env p s D.rel D.col pe := by
  cases b with
  | false =>
    have h : Returns env p s (plain D.g) r := by
      obtain ⟨n, h⟩ := h; exact ⟨n, h⟩
    rcases sound_plain D hc hl h with ⟨o, rfl, _⟩ | ⟨e, rfl, q, h1, h2⟩
    · simp [Result.unwrap] at he
    · simp only [Result.unwrap, Except.error.injEq] at he
      subst he
      exact .inl ⟨_, q, rfl, rfl, h2, h1⟩
  | true =>
    have hs := sound_recovering D hc hl (k := k) h
    cases r with
    | ok o => simp [Result.unwrap] at he
    | error e =>
      obtain ⟨q, h1, h2⟩ := hs
      simp only [Result.unwrap, Except.error.injEq] at he
      subst he
      exact .inl ⟨_, q, rfl, rfl, h2, h1⟩
    | recovered rr =>
      have hs : RecSound .. := hs
      simp only [Result.unwrap] at he
      cases hr : rr.repairs with
      | nil =>
        obtain ⟨q, h1, h2⟩ := hs.loc
        simp only [hr, Except.error.injEq] at he
        subst he
        exact .inl ⟨_, q, rfl, rfl, h2, h1⟩
      | cons y ys =>
        cases b' with
        | true => simp [hr] at he
        | false =>
          simp only [hr, Bool.false_eq_true, if_false, Except.error.injEq] at he
          subst he
          obtain ⟨es, hes⟩ := hs.reps (minRepair y ys) (by rw [hr]; exact minRepair_mem y ys)
          exact .inr ⟨edits es, _, _, ⟨es, rfl, hes.der⟩, hes.ops.located fmt⟩

/-! ### C33 -/

/-- C33. With the default `get_loc`, in both modes: the location of every reported error is the
index (and line and column 0) of the position where the grammar is stuck or the edit is applied. -/
theorem C33_default (fmt : Loc → String) {b b' : Bool} {k : Int} {r : Result τ α}
    {pe : ParseError} (h : Returns env p s ⟨b, k, defaultGetLoc⟩ r)
    (he : r.unwrap fmt b' = .error pe) :
    ErrorsLocated env p s (fun q loc => loc = ⟨q, 0, 0⟩) zeroCol pe :=
  errorsLocated (defaultDisc s) defaultDisc_ctx (.inl trivial) fmt h he

/-- C33: in particular the reported `pos` is an index into the input, or its length. -/
theorem C33_bounds (fmt : Loc → String) {b b' : Bool} {k : Int} {r : Result τ α}
    {pe : ParseError} (h : Returns env p s ⟨b, k, defaultGetLoc⟩ r)
    (he : r.unwrap fmt b' = .error pe) :
    ∀ i ∈ pe.errors, i.loc.pos ≤ s.length ∧ i.loc = ⟨i.loc.pos, 0, 0⟩ := by
  intro i hi
  obtain ⟨q, h1, h2⟩ := (C33_default fmt h he).mem i hi
  rw [h2]; exact ⟨h1, rfl⟩

end

/-! ### C34 -/

/-- C34. Under `scannerless.parse`, in both modes: the location of every reported error is exactly
that of the position where the grammar is stuck or the edit is applied. -/
theorem C34_exact {env : Env Char ρ Γ} {p : P Char ρ Γ α} {s : List Char} (fmt : Loc → String)
    {b b' : Bool} {k : Int} {r : Result Char α} {pe : ParseError}
    (h : Returns env p s ⟨b, k, scannerlessGetLoc⟩ r) (he : r.unwrap fmt b' = .error pe) :
    ErrorsLocated env p s (fun q loc => loc = exactLoc s q) (textCol s) pe :=
  errorsLocated (scannerlessDisc s) (scannerlessDisc_ctx s) (.inl trivial) fmt h he

/-- C34: in particular line and column are the exact ones of `pos`. -/
theorem C34_bounds {env : Env Char ρ Γ} {p : P Char ρ Γ α} {s : List Char} (fmt : Loc → String)
    {b b' : Bool} {k : Int} {r : Result Char α} {pe : ParseError}
    (h : Returns env p s ⟨b, k, scannerlessGetLoc⟩ r) (he : r.unwrap fmt b' = .error pe) :
    ∀ i ∈ pe.errors, i.loc.pos ≤ s.length ∧ i.loc = exactLoc s i.loc.pos := by
  intro i hi
  obtain ⟨q, h1, h2⟩ := (C34_exact fmt h he).mem i hi
  rw [h2]; exact ⟨h1, rfl⟩

/-- `scannerless.parse` is `parse` with `scannerlessGetLoc` and the default budget. -/
theorem C34_scannerless_parse {env : Env Char ρ Γ} {p : P Char ρ Γ α} {s : List Char}
    (fmt : Loc → String) {b b' : Bool} {fuel : Nat} {r : Result Char α} {pe : ParseError}
    (h : scannerlessParse env fuel p s b = .ret r) (he : r.unwrap fmt b' = .error pe) :
    ∀ i ∈ pe.errors, i.loc.pos ≤ s.length ∧ i.loc = exactLoc s i.loc.pos :=
  C34_bounds (k := 5) fmt ⟨fuel, h⟩ he

/-- Every error item carries the formatted text of its location. -/
theorem unwrap_locStr {fmt : Loc → String} {b : Bool} {r : Result τ α} {pe : ParseError}
    (he : r.unwrap fmt b = .error pe) : ∀ i ∈ pe.errors, i.locStr = fmt i.loc := by
  intro i hi
  cases r with
  | ok r => cases he
  | error e => cases he; simp only [List.mem_singleton] at hi; subst hi; rfl
  | recovered r =>
    simp only [Result.unwrap] at he
    split at he
    · cases he; simp only [List.mem_singleton] at hi; subst hi; rfl
    · split at he
      · cases he
      · cases he
        simp only [errorItems, List.mem_map] at hi
        obtain ⟨x, -, rfl⟩ := hi
        rfl

/-- C34, what the user sees: the location printed with an error of `scannerless.parse` is
`line:column`, counted from 1: one more than the number of newlines before the position, and one more
than the number of characters before it on its line. -/
theorem C34_display {env : Env Char ρ Γ} {p : P Char ρ Γ α} {s : List Char}
    {b b' : Bool} {k : Int} {r : Result Char α} {pe : ParseError}
    (h : Returns env p s ⟨b, k, scannerlessGetLoc⟩ r) (he : r.unwrap lineColFmtLoc b' = .error pe) :
    ∀ i ∈ pe.errors, i.locStr = toString (1 + (s.take i.loc.pos).count '\n') ++ ":" ++
      toString (1 + (lineStart s i.loc.pos).length) := by
  intro i hi
  rw [unwrap_locStr he i hi, (C34_bounds lineColFmtLoc h he i hi).2]
  simp only [lineColFmtLoc, exactLoc, Nat.add_comm 1]

/-! ### C35, C36 -/

/-- The column of the token at a position (at the end: where the last token ends). -/
def tokenCol (s : List Token) : Nat → Nat → Prop := fun q c => ∃ loc, TokenLoc s q loc ∧ c = loc.col

/-- C35. Under `lexer.parse`, for a parser that does not use layout combinators, in both modes: the
location of every reported error is the start of the token at which the grammar is stuck or the edit
is applied, or the end of the last token. -/
theorem C35_token_locations {env : Env Token ρ Γ} {p : P Token ρ Γ α} {s : List Token}
    (hp : Everywhere env P.notLayout p) (fmt : Loc → String) {b b' : Bool} {k : Int}
    {r : Result Token α} {pe : ParseError} (h : Returns env p s ⟨b, k, lexerGetLoc⟩ r)
    (he : r.unwrap fmt b' = .error pe) :
    ErrorsLocated env p s (fun q loc => TokenLoc s q loc) (tokenCol s) pe := by
  have := errorsLocated (lexerDisc s) (lexerDisc_ctx s) (.inr hp) fmt h he
  have hrel : (lexerDisc s).rel = fun q loc => TokenLoc s q loc := by
    funext q loc
    exact propext ⟨fun h => by
      have h : loc = _ := h
      rw [h]; exact tokenLoc_locFromStream s q, locFromStream_unique⟩
  have hcol : (lexerDisc s).col = tokenCol s := by
    funext q c
    refine propext ⟨fun h => ?_, fun ⟨loc, h1, h2⟩ => ?_⟩
    · have h : c = _ := h
      exact ⟨_, tokenLoc_locFromStream s q, h⟩
    · rw [locFromStream_unique h1] at h2; exact h2
  rw [hrel, hcol] at this
  exact this

/-- C36, only for token lists in which no token index is mistaken for a character offset
(`IndexSafe`): then C35 holds for parsers with layout combinators too, and they compare the columns
of tokens. Missing: the other token lists, for which it is false (`C36_false_accept`,
`C36_false_reject`). -/
theorem C36_layout_partial {env : Env Token ρ Γ} {p : P Token ρ Γ α} {s : List Token}
    (hs : IndexSafe s) (fmt : Loc → String) {b b' : Bool} {k : Int}
    {r : Result Token α} {pe : ParseError} (h : Returns env p s ⟨b, k, lexerGetLoc⟩ r)
    (he : r.unwrap fmt b' = .error pe) :
    ErrorsLocated env p s (fun q loc => TokenLoc s q loc) (tokenCol s) pe := by
  have := errorsLocated (lexerDisc s) (lexerDisc_ctx s) (.inl hs) fmt h he
  have hrel : (lexerDisc s).rel = fun q loc => TokenLoc s q loc := by
    funext q loc
    exact propext ⟨fun h => by
      have h : loc = _ := h
      rw [h]; exact tokenLoc_locFromStream s q, locFromStream_unique⟩
  have hcol : (lexerDisc s).col = tokenCol s := by
    funext q c
    refine propext ⟨fun h => ?_, fun ⟨loc, h1, h2⟩ => ?_⟩
    · have h : c = _ := h
      exact ⟨_, tokenLoc_locFromStream s q, h⟩
    · rw [locFromStream_unique h1] at h2; exact h2
  rw [hrel, hcol] at this
  exact this

/-- C36, accepted input, under `IndexSafe`: the layout combinators in the derivation compare the
columns of the tokens. -/
theorem C36_accepted_partial {env : Env Token ρ Γ} {p : P Token ρ Γ α} {s : List Token}
    (hs : IndexSafe s) (fmt : Loc → String) {b : Bool} {r : Result Token α} {v : α}
    (h : Returns env p s (plain lexerGetLoc) r) (hv : r.unwrap fmt b = .ok v) :
    ∃ j, j ≤ s.length ∧ Derives env s (tokenCol s) p 0 0 [] v j := by
  have hcol : (lexerDisc s).col = tokenCol s := by
    funext q c
    refine propext ⟨fun h => ?_, fun ⟨loc, h1, h2⟩ => ?_⟩
    · have h : c = _ := h
      exact ⟨_, tokenLoc_locFromStream s q, h⟩
    · rw [locFromStream_unique h1] at h2; exact h2
  rcases sound_plain (lexerDisc s) (lexerDisc_ctx s) (.inl hs) h with ⟨o, rfl, ho⟩ | ⟨e, rfl, _⟩
  · simp only [Result.unwrap, Except.ok.injEq] at hv
    subst hv
    have hd := ho.der
    rw [hcol] at hd
    exact ⟨o.pos, (der_inOrder hd (Nat.zero_le _)).2, [], rfl, hd⟩
  · simp [Result.unwrap] at hv

/-- What the location at token index `p` may be under `lexer.parse` when layout combinators are used:
the one of the token at `p`; or, if the character offset of the initial location or of an earlier
token happens to be the number `p`, that one. -/
inductive UsedLoc (s : List Token) (p : Nat) : Loc → Prop
  | right {loc : Loc} : TokenLoc s p loc → UsedLoc s p loc
  | initial : p = 0 → UsedLoc s p ⟨0, 0, 0⟩
  | earlier {q : Nat} {loc : Loc} : q < p → TokenLoc s q loc → loc.pos = p → UsedLoc s p loc

/-- The columns of these locations. -/
def usedCol (s : List Token) : Nat → Nat → Prop := fun q c => ∃ loc, UsedLoc s q loc ∧ c = loc.col

theorem usedLoc_iff {s : List Token} {p : Nat} {loc : Loc} :
    (loc = locFromStream s p ∨ (heldLoc s p loc ∧ loc.pos = p)) ↔ UsedLoc s p loc := by
  constructor
  · rintro (rfl | ⟨rfl | ⟨q, h1, rfl⟩, h2⟩)
    · exact .right (tokenLoc_locFromStream s p)
    · exact .initial h2.symm
    · by_cases hq : q = p
      · subst hq; exact .right (tokenLoc_locFromStream s q)
      · exact .earlier (by omega) (tokenLoc_locFromStream s q) h2
  · intro h
    cases h with
    | right h => exact .inl (locFromStream_unique h)
    | initial h => exact .inr ⟨.inl rfl, h.symm⟩
    | earlier h1 h2 h3 => exact .inr ⟨.inr ⟨_, by omega, locFromStream_unique h2⟩, h3⟩

theorem lexerStale_rel (s : List Token) : (lexerStaleDisc s).rel = UsedLoc s := by
  funext p loc
  exact propext usedLoc_iff

theorem lexerStale_col (s : List Token) : (lexerStaleDisc s).col = usedCol s := by
  funext p c
  exact propext ⟨fun ⟨loc, h1, h2⟩ => ⟨loc, usedLoc_iff.1 h1, h2⟩,
    fun ⟨loc, h1, h2⟩ => ⟨loc, usedLoc_iff.2 h1, h2⟩⟩

/-- C36, for every token list and every parser, in both modes: how wrong the locations can be. Every
reported error, and every column that the layout combinators compare, is the one of the token at
which the grammar is stuck or the edit is applied, or of an earlier location whose character offset
is the index of that token. -/
theorem C36_all_tokens_partial {env : Env Token ρ Γ} {p : P Token ρ Γ α} {s : List Token}
    (fmt : Loc → String) {b b' : Bool} {k : Int}
    {r : Result Token α} {pe : ParseError} (h : Returns env p s ⟨b, k, lexerGetLoc⟩ r)
    (he : r.unwrap fmt b' = .error pe) : ErrorsLocated env p s (UsedLoc s) (usedCol s) pe := by
  have := errorsLocated (lexerStaleDisc s) ⟨rfl, .inl rfl⟩ (.inl trivial) fmt h he
  rwa [lexerStale_rel, lexerStale_col] at this

/-- C36, accepted input, for every token list. -/
theorem C36_all_accepted_partial {env : Env Token ρ Γ} {p : P Token ρ Γ α} {s : List Token}
    (fmt : Loc → String) {b : Bool} {r : Result Token α} {v : α}
    (h : Returns env p s (plain lexerGetLoc) r) (hv : r.unwrap fmt b = .ok v) :
    ∃ j, j ≤ s.length ∧ Derives env s (usedCol s) p 0 0 [] v j := by
  rcases sound_plain (lexerStaleDisc s) ⟨rfl, .inl rfl⟩ (.inl trivial) h with
    ⟨o, rfl, ho⟩ | ⟨e, rfl, _⟩
  · simp only [Result.unwrap, Except.ok.injEq] at hv
    subst hv
    have hd := ho.der
    rw [lexerStale_col] at hd
    exact ⟨o.pos, (der_inOrder hd (Nat.zero_le _)).2, [], rfl, hd⟩
  · simp [Result.unwrap] at hv

/-- In particular: a token whose index is not the character offset of any earlier token (and is not
0, unless the first token is at the start of the text) has the right location. -/
theorem C36_right_partial {s : List Token} {p : Nat} {loc : Loc} (h : UsedLoc s p loc)
    (h0 : p = 0 → ∀ t, s[0]? = some t → t.start = ⟨0, 0, 0⟩)
    (hq : ∀ q loc, q < p → TokenLoc s q loc → loc.pos ≠ p) : TokenLoc s p loc := by
  cases h with
  | right h => exact h
  | earlier h1 h2 h3 => exact absurd h3 (hq _ _ h1 h2)
  | initial h =>
    subst h
    cases hs : s[0]? with
    | none =>
      have : s = [] := by
        cases s with
        | nil => rfl
        | cons a s => simp at hs
      exact .empty this
    | some t => rw [← h0 rfl t hs]; exact .token hs

namespace Samples

/-- A lexer for words of letters; white space (and everything else) separates them. -/
def wordSpec : LexSpec where
  run src pos :=
    let rest := src.drop pos
    let w := rest.takeWhile Char.isAlpha
    if w ≠ [] then some ⟨pos + w.length, some ("word", String.ofList w)⟩
    else if rest ≠ [] then some ⟨pos + 1, none⟩ else none
  bounds src pos m hp h := by
    have hl : (List.takeWhile Char.isAlpha (List.drop pos src)).length ≤ src.length - pos := by
      have := (List.takeWhile_sublist (p := Char.isAlpha) (l := List.drop pos src)).length_le
      simpa using this
    simp only at h
    split at h
    · simp only [Option.some.injEq] at h; subst h; simp only; omega
    · split at h
      · next hr =>
        simp only [Option.some.injEq] at h; subst h; simp only
        have : pos < src.length := by
          refine Nat.lt_of_not_le fun hle => hr ?_
          simpa using hle
        omega
      · simp at h

/-- The tokens of `"  ab\n  cd"`: two words, both in column 2. -/
def twoWords : List Token :=
  [⟨"word", "ab", ⟨2, 0, 2⟩, ⟨4, 0, 4⟩⟩, ⟨"word", "cd", ⟨7, 1, 2⟩, ⟨9, 1, 4⟩⟩]

example : splitTokens "  ab\n  cd".toList wordSpec 20 = .ret twoWords := rfl

/-- No `Delay` objects, over tokens. -/
def noTokEnv : Env Token Empty (fun _ => Unit) := fun i => i.elim

/-- `aligned(token("word"))` -/
def alignedWord : P Token Empty (fun _ => Unit) Token := .aligned (.token "word")

/-- `block(aligned(token("word")).many()) << eof()` -/
def alignedWords : P Token Empty (fun _ => Unit) (List Token) :=
  .seql (.block (.many alignedWord)) .eof

/-- The tokens of `"ab\ncd"`: two words, both in column 0. -/
def twoWords0 : List Token :=
  [⟨"word", "ab", ⟨0, 0, 0⟩, ⟨2, 0, 2⟩⟩, ⟨"word", "cd", ⟨3, 1, 0⟩, ⟨5, 1, 2⟩⟩]

end Samples

open Samples in
/-- C36 is false: `aligned` accepts a token in column 2 although the mark is 0. (`update_loc` takes
the index 0 of the token for the offset 0 of the initial location.) -/
theorem C36_false_accept :
    splitTokens "  ab\n  cd".toList wordSpec 20 = .ret twoWords ∧
    (∃ r, Returns noTokEnv alignedWord twoWords (plain lexerGetLoc) r ∧
      r.unwrap lineColFmtLoc false = .ok ⟨"word", "ab", ⟨2, 0, 2⟩, ⟨4, 0, 4⟩⟩) ∧
    ¬ ∃ v j, Derives noTokEnv twoWords (tokenCol twoWords) alignedWord 0 0 [] v j := by
  refine ⟨rfl, ⟨_, ⟨20, rfl⟩, rfl⟩, ?_⟩
  rintro ⟨v, j, _, _, h⟩
  have key : ∀ {α : Type} {p : P Token Empty (fun _ => Unit) α} {m i es v j},
      Der noTokEnv twoWords (tokenCol twoWords) (.aligned p) m i es v j →
      tokenCol twoWords i m := by
    intro α p m i es v j h
    cases h with
    | aligned h _ => exact h
  obtain ⟨loc, h1, h2⟩ := key h
  cases h1 with
  | token h3 => simp only [twoWords] at h3; cases h3; simp at h2
  | atEnd h3 _ => simp [twoWords] at h3
  | empty h3 => simp [twoWords] at h3

open Samples in
/-- C36 is false: a block of two words in the same column is rejected, with an indentation error,
although the grammar derives it. -/
theorem C36_false_reject :
    splitTokens "  ab\n  cd".toList wordSpec 20 = .ret twoWords ∧
    (∃ r, Returns noTokEnv alignedWords twoWords (plain lexerGetLoc) r ∧
      r.unwrap lineColFmtLoc false =
        .error ⟨[⟨⟨7, 1, 2⟩, "2:3", ["indentation", "end of file"], none⟩]⟩) ∧
    Derives noTokEnv twoWords (tokenCol twoWords) alignedWords 0 0 [] twoWords 2 := by
  refine ⟨rfl, ⟨_, ⟨20, rfl⟩, rfl⟩, ?_⟩
  have c0 : tokenCol twoWords 0 2 :=
    ⟨_, .token (t := ⟨"word", "ab", ⟨2, 0, 2⟩, ⟨4, 0, 4⟩⟩) rfl, rfl⟩
  have c1 : tokenCol twoWords 1 2 :=
    ⟨_, .token (t := ⟨"word", "cd", ⟨7, 1, 2⟩, ⟨9, 1, 4⟩⟩) rfl, rfl⟩
  have d0 : Der noTokEnv twoWords (tokenCol twoWords) alignedWord 2 0 []
      ⟨"word", "ab", ⟨2, 0, 2⟩, ⟨4, 0, 4⟩⟩ 1 := .aligned c0 (.label (.satisfy rfl rfl))
  have d1 : Der noTokEnv twoWords (tokenCol twoWords) alignedWord 2 1 []
      ⟨"word", "cd", ⟨7, 1, 2⟩, ⟨9, 1, 4⟩⟩ 2 := .aligned c1 (.label (.satisfy rfl rfl))
  have dm : Der noTokEnv twoWords (tokenCol twoWords) (.many alignedWord) 2 0 [] twoWords 2 :=
    .manyCons (es := []) (es' := []) d0 (.manyCons (es := []) (es' := []) d1 .manyNil)
  have he : Der noTokEnv twoWords (tokenCol twoWords)
      (.eof : P Token Empty (fun _ => Unit) Unit) 0 2 [] () 2 := .eof
  exact ⟨[], rfl, .seqWith (es := []) (es' := []) (.block c0 dm) he⟩

open Samples in
/-- `C36_layout_partial` and `C36_accepted_partial` do apply to some inputs. -/
example : IndexSafe twoWords0 ∧ splitTokens "ab\ncd".toList wordSpec 20 = .ret twoWords0 ∧
    ∃ r, Returns noTokEnv alignedWords twoWords0 (plain lexerGetLoc) r ∧
      r.unwrap lineColFmtLoc false = .ok twoWords0 := by
  refine ⟨⟨?_, ?_⟩, rfl, _, ⟨20, rfl⟩, rfl⟩
  · intro t h; simp only [twoWords0] at h; cases h; rfl
  · intro q p loc h1 h2 h3
    have h2 : p ≤ 2 := h2
    have hp : p = 1 ∨ p = 2 := by omega
    have hq : q = 0 ∨ q = 1 := by omega
    rw [locFromStream_unique h3]
    rcases hq with rfl | rfl
    · simp [locFromStream, twoWords0]; omega
    · simp [locFromStream, twoWords0]; omega

/-! ### C40 -/

/-- A context as they occur under `scannerless.parse` at position `pos` of the text `s`. -/
structure TextCtx (s : List Char) (pos : Nat) (ctx : Ctx Char) : Prop where
  getLoc : ctx.getLocFn = scannerlessGetLoc
  exact : ctx.loc = exactLoc s ctx.loc.pos
  before : ctx.loc.pos ≤ pos

/-- `scannerless.parse` starts in such a context, with the mark at column 0. -/
theorem C40_start (s : List Char) : TextCtx s 0 (initCtx scannerlessGetLoc) ∧
    (initCtx scannerlessGetLoc : Ctx Char).mark = 0 :=
  ⟨⟨rfl, (exactLoc_zero s).symm, Nat.le_refl _⟩, rfl⟩

/-- Every parser hands on such a context. -/
theorem C40_next {env : Env Char ρ Γ} {p : P Char ρ Γ α} {s : List Char} {pos pos' : Nat}
    {ctx ctx' : Ctx Char} {v : α} (hp : pos ≤ s.length) (hc : TextCtx s pos ctx)
    (h : Reads env p s pos ctx v pos' ctx') : TextCtx s pos' ctx' := by
  obtain ⟨ex, c, n, h⟩ := h
  have hs : OkSound .. := (sound_denote env (scannerlessDisc s) p (.inl trivial) n).fn pos ctx 0 none
    _ hp ⟨hc.getLoc, hc.exact, hc.before⟩ ((sim_denote env n p).ok h _ _)
  exact ⟨hs.ctx.g, hs.ctx.inv.1, hs.ctx.inv.2⟩

/-- Every candidate repair hands on such a context. -/
theorem C40_next_repair {env : Env Char ρ Γ} {p : P Char ρ Γ α} {s : List Char} {pos : Nat}
    {ctx : Ctx Char} {ins : Int} {rem : Option Int} {rr : Recovered Char α} (hp : pos ≤ s.length)
    (hc : TextCtx s pos ctx) (h : RunRec env p s pos ctx ins rem (.ret (.recovered rr))) :
    ∀ x ∈ rr.repairs, TextCtx s x.pos x.ctx := by
  obtain ⟨n, h⟩ := h
  have hs : RecSound .. := (sound_denote env (scannerlessDisc s) p (.inl trivial) n).fn pos ctx ins
    rem _ hp ⟨hc.getLoc, hc.exact, hc.before⟩ h
  intro x hx
  obtain ⟨es, h⟩ := hs.reps x hx
  exact ⟨h.ctx.g, h.ctx.inv.1, h.ctx.inv.2⟩

/-- The context at `pos` with mark `m` and the exact location. -/
def textCtx (s : List Char) (pos m : Nat) : Ctx Char := ⟨m, exactLoc s pos, scannerlessGetLoc⟩

theorem TextCtx.updateLoc {s : List Char} {pos : Nat} {ctx : Ctx Char} (h : TextCtx s pos ctx)
    (hp : pos ≤ s.length) : ctx.updateLoc s pos = textCtx s pos ctx.mark := by
  unfold Ctx.updateLoc
  split
  · next he =>
    obtain ⟨m, loc, g⟩ := ctx
    have h1 := h.getLoc
    have h2 := h.exact
    simp only at h1 h2 he
    rw [← he] at h2
    rw [textCtx, h1, h2]
  · rw [h.getLoc, scannerless_exact h.exact h.before hp]; rfl

section
variable {env : Env Char ρ Γ} {p : P Char ρ Γ α} {s : List Char} {pos : Nat} {ctx : Ctx Char}
  {ins : Int} {rem : Option Int}

/-- C40: `block(p)` runs `p` with the mark set to the current column, and afterwards the old mark
is back. -/
theorem C40_block (hp : pos ≤ s.length) (hc : TextCtx s pos ctx) {o : Out (Simple Char α)}
    (h : RunPlain env p s pos (textCtx s pos (lineStart s pos).length) o) :
    RunPlain env (.block p) s pos ctx (o.map (Simple.setCtx (textCtx s pos ctx.mark))) := by
  have : Yields (fun n => (blockFns (denote env n p)).fast s pos ctx)
      (o.map (Simple.setCtx (textCtx s pos ctx.mark))) := by
    simp only [blockFns, hc.updateLoc hp]
    exact Yields.map h _
  exact this

/-- C40: `block(p)` with recovery. -/
theorem C40_block_recovering (hp : pos ≤ s.length) (hc : TextCtx s pos ctx)
    {o : Out (Result Char α)} (h : RunRec env p s pos (textCtx s pos (lineStart s pos).length) ins rem o) :
    RunRec env (.block p) s pos ctx ins rem (o.map (Result.setCtx (textCtx s pos ctx.mark))) := by
  have : Yields (fun n => (blockFns (denote env n p)).fn s pos ctx ins rem)
      (o.map (Result.setCtx (textCtx s pos ctx.mark))) := by
    simp only [blockFns, hc.updateLoc hp]
    exact Yields.map h _
  exact this

/-- C40: `aligned(p)` runs `p` if the current column is the mark. -/
theorem C40_aligned (hp : pos ≤ s.length) (hc : TextCtx s pos ctx) (hcol : (lineStart s pos).length = ctx.mark)
    {o : Out (Simple Char α)} (h : RunPlain env p s pos (textCtx s pos ctx.mark) o) :
    RunPlain env (.aligned p) s pos ctx o := by
  have : Yields (fun n => (alignedFns (denote env n p)).fast s pos ctx) o := by
    simp only [alignedFns, hc.updateLoc hp]
    have : (textCtx s pos ctx.mark).mark = (textCtx s pos ctx.mark).loc.col := hcol.symm
    simp only [this, if_true]
    exact h
  exact this

/-- C40: `aligned(p)` with recovery. -/
theorem C40_aligned_recovering (hp : pos ≤ s.length) (hc : TextCtx s pos ctx)
    (hcol : (lineStart s pos).length = ctx.mark) {o : Out (Result Char α)}
    (h : RunRec env p s pos (textCtx s pos ctx.mark) ins rem o) :
    RunRec env (.aligned p) s pos ctx ins rem o := by
  have : Yields (fun n => (alignedFns (denote env n p)).fn s pos ctx ins rem) o := by
    simp only [alignedFns, hc.updateLoc hp]
    have : (textCtx s pos ctx.mark).mark = (textCtx s pos ctx.mark).loc.col := hcol.symm
    simp only [this, if_true]
    exact h
  exact this

/-- The failure of `aligned` and `indented`: nothing consumed, `indentation` expected, at the current
location. -/
def indentationError (s : List Char) (pos : Nat) : Err := ⟨exactLoc s pos, ["indentation"], false⟩

/-- C40: `aligned(p)` fails in both modes if the current column is not the mark. -/
theorem C40_not_aligned (hp : pos ≤ s.length) (hc : TextCtx s pos ctx) (hcol : (lineStart s pos).length ≠ ctx.mark) :
    RunPlain env (.aligned p) s pos ctx (.ret (.error (indentationError s pos))) ∧
      RunRec env (.aligned p) s pos ctx ins rem (.ret (.error (indentationError s pos))) := by
  have hne : (textCtx s pos ctx.mark).mark ≠ (textCtx s pos ctx.mark).loc.col :=
    fun h => hcol h.symm
  constructor
  · refine ⟨0, ?_⟩
    show (alignedFns (denote env 0 p)).fast s pos ctx = _
    simp only [alignedFns, hc.updateLoc hp, hne, if_false]
    rfl
  · refine ⟨0, ?_⟩
    show (alignedFns (denote env 0 p)).fn s pos ctx ins rem = _
    simp only [alignedFns, hc.updateLoc hp, hne, if_false]
    rfl

/-- C40: `indented(delta, p)` runs `p` with the mark set to the current column if this is the mark
plus `delta`; afterwards the old mark is back. -/
theorem C40_indented (hp : pos ≤ s.length) (hc : TextCtx s pos ctx) {delta : Int}
    (hcol : ((lineStart s pos).length : Int) = ctx.mark + delta) {o : Out (Simple Char α)}
    (h : RunPlain env p s pos (textCtx s pos (lineStart s pos).length) o) :
    RunPlain env (.indented delta p) s pos ctx
      (o.map (Simple.setCtx (textCtx s pos ctx.mark))) := by
  have : Yields (fun n => (indentedFns delta (denote env n p)).fast s pos ctx)
      (o.map (Simple.setCtx (textCtx s pos ctx.mark))) := by
    simp only [indentedFns, hc.updateLoc hp]
    have : ((textCtx s pos ctx.mark).mark : Int) + delta = (textCtx s pos ctx.mark).loc.col :=
      hcol.symm
    simp only [this, if_true]
    exact Yields.map h _
  exact this

/-- C40: `indented(delta, p)` with recovery. -/
theorem C40_indented_recovering (hp : pos ≤ s.length) (hc : TextCtx s pos ctx) {delta : Int}
    (hcol : ((lineStart s pos).length : Int) = ctx.mark + delta) {o : Out (Result Char α)}
    (h : RunRec env p s pos (textCtx s pos (lineStart s pos).length) ins rem o) :
    RunRec env (.indented delta p) s pos ctx ins rem
      (o.map (Result.setCtx (textCtx s pos ctx.mark))) := by
  have : Yields (fun n => (indentedFns delta (denote env n p)).fn s pos ctx ins rem)
      (o.map (Result.setCtx (textCtx s pos ctx.mark))) := by
    simp only [indentedFns, hc.updateLoc hp]
    have : ((textCtx s pos ctx.mark).mark : Int) + delta = (textCtx s pos ctx.mark).loc.col :=
      hcol.symm
    simp only [this, if_true]
    exact Yields.map h _
  exact this

/-- C40: `indented(delta, p)` fails in both modes if the current column is not the mark plus
`delta`. -/
theorem C40_not_indented (hp : pos ≤ s.length) (hc : TextCtx s pos ctx) {delta : Int}
    (hcol : ((lineStart s pos).length : Int) ≠ ctx.mark + delta) :
    RunPlain env (.indented delta p) s pos ctx (.ret (.error (indentationError s pos))) ∧
      RunRec env (.indented delta p) s pos ctx ins rem
        (.ret (.error (indentationError s pos))) := by
  have hne : ¬ ((textCtx s pos ctx.mark).mark : Int) + delta = (textCtx s pos ctx.mark).loc.col :=
    fun h => hcol h.symm
  constructor
  · refine ⟨0, ?_⟩
    show (indentedFns delta (denote env 0 p)).fast s pos ctx = _
    simp only [indentedFns, hc.updateLoc hp, hne, if_false]
    rfl
  · refine ⟨0, ?_⟩
    show (indentedFns delta (denote env 0 p)).fn s pos ctx ins rem = _
    simp only [indentedFns, hc.updateLoc hp, hne, if_false]
    rfl

end

/-! ### Concrete cases -/

/-- Two errors on different lines, under `scannerless.parse`. -/
example : ∃ r pe, Returns Samples.noEnv (.seql (.many (.sym 'a' "'a'")) .eof) "aa\nba".toList
      ⟨true, 5, scannerlessGetLoc⟩ r ∧ r.unwrap lineColFmtLoc false = .error pe ∧
    pe.errors.map (·.locStr) = ["1:3"] := ⟨_, _, ⟨20, rfl⟩, rfl, rfl⟩

/-- `literal("\n") >> indented(2, ..)`: the second line starts in column 0. -/
example : RunPlain Samples.noEnv
    (.seqr (.literal ['\n', ' ', ' '] "nl" (by simp)) (.indented 2 (.sym 'a' "'a'"))) "\n  a".toList 0
    (initCtx scannerlessGetLoc)
    (.ret (.ok ⟨'a', 4, textCtx "\n  a".toList 3 0, [], true⟩)) := ⟨3, rfl⟩

example : TextCtx "\n  a".toList 3 ⟨0, ⟨1, 1, 0⟩, scannerlessGetLoc⟩ := ⟨rfl, rfl, by simp⟩

end Reparsec
