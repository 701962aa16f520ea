import Verif.Lemmas.Eval
import Verif.Props.Locations
import Verif.Props.Modes
import Verif.Props.LL1

/-!
# C58: without recovery, parsing computes exactly the evaluation relation
-/

namespace Reparsec

variable {τ ρ : Type} {Γ : ρ → Type} {α : Type}

section
variable [BEq τ] {env : Env τ ρ Γ} {p : P τ ρ Γ α} {s : List τ}

/-- The call `p.parse(s, get_loc=..)` comes to the outcome: it returns a success with the value, the
end and the expected list; or an error with a location of the position, the expected list and
`consumed`; or it raises. `rel q loc`: `loc` is the location of position `q`. -/
def ComesTo (env : Env τ ρ Γ) (p : P τ ρ Γ α) (s : List τ) (gl : Loc → List τ → Nat → Loc)
    (rel : Nat → Loc → Prop) : Outcome α → Prop
  | .accepts v j w => ∃ r, Returns env p s (plain gl) (.ok r) ∧ r.value = v ∧ r.pos = j ∧
      r.expected = w
  | .fails (.rejects q w b) => ∃ e, Returns env p s (plain gl) (.error e) ∧ rel q e.loc ∧
      e.expected = w ∧ e.consumed = b
  | .fails (.raises e) => Raises env p s (plain gl) e

theorem parse_plain (gl : Loc → List τ → Nat → Loc) (n : Nat) (k : Int) :
    parse env n p s false k gl =
      ((denote env n p).fast s 0 (initCtx gl)).bind fun x => .ret x.toResult := by
  simp only [parse, Bool.false_eq_true, if_false, Out.bind_def, Out.pure_def]

theorem Shows.comesTo {D : LocDisc s} {o : Outcome α} {n : Nat}
    (h : Shows D o ((denote env n p).fast s 0 (initCtx D.g))) : ComesTo env p s D.g D.rel o := by
  have hp := parse_plain (env := env) (p := p) (s := s) D.g n 5
  cases o with
  | accepts v j w =>
    obtain ⟨r, h1, rfl, rfl, rfl, -⟩ := h.inv_accepts
    exact ⟨r, ⟨n, by show parse .. = _; rw [plain, hp, h1]; rfl⟩, rfl, rfl, rfl⟩
  | fails x =>
    cases x with
    | rejects q w b =>
      obtain ⟨e, h1, h2, rfl, rfl⟩ := h.inv_rejects
      exact ⟨e, ⟨n, by show parse .. = _; rw [plain, hp, h1]; rfl⟩, h2, rfl, rfl⟩
    | raises e => exact ⟨n, by show parse .. = _; rw [plain, hp, h.inv_raises]; rfl⟩

theorem eval_comesTo (D : LocDisc s) (hc : CtxOK D (initCtx D.g) 0)
    (hcol : ∀ i c c', D.col i c → D.col i c' → c = c')
    (hl : D.layout ∨ Everywhere env P.notLayout p) {o : Outcome α}
    (h : Eval env s D.col p 0 0 o) : ComesTo env p s D.g D.rel o := by
  obtain ⟨n, h⟩ := eval_complete D hcol (hl.imp_right fun h => h.2) h (Nat.zero_le _)
    (hl.imp_right fun h => h.1)
  exact (h n (Nat.le_refl _) _ hc rfl).comesTo

theorem comesTo_cases (D : LocDisc s) (hc : CtxOK D (initCtx D.g) 0)
    (hl : D.layout ∨ Everywhere env P.notLayout p) :
    Hangs env p s (plain D.g) ∨ ∃ o, Eval env s D.col p 0 0 o ∧ ComesTo env p s D.g D.rel o := by
  by_cases h : ∃ n, (denote env n p).fast s 0 (initCtx D.g) ≠ .diverge
  · obtain ⟨n, h⟩ := h
    obtain ⟨o, h1, h2⟩ := eval_denote env D p hl n 0 _ (Nat.zero_le _) hc h
    exact .inr ⟨o, h1, h2.comesTo⟩
  · refine .inl fun n => ?_
    have : (denote env n p).fast s 0 (initCtx D.g) = .diverge := Classical.not_not.1 fun h' => h ⟨n, h'⟩
    show parse .. = _
    rw [plain, parse_plain, this]; rfl

theorem ComesTo.not_hangs {gl : Loc → List τ → Nat → Loc} {rel : Nat → Loc → Prop} {o : Outcome α}
    (h : ComesTo env p s gl rel o) : ¬ Hangs env p s (plain gl) := by
  cases o with
  | accepts v j w => obtain ⟨r, h, -⟩ := h; exact returns_not_hangs h
  | fails x =>
    cases x with
    | rejects q w b => obtain ⟨r, h, -⟩ := h; exact returns_not_hangs h
    | raises e => obtain ⟨n, h⟩ := h; intro h'; rw [h' n] at h; cases h

theorem ComesTo.unique {gl : Loc → List τ → Nat → Loc} {rel : Nat → Loc → Prop} {o o' : Outcome α}
    (hrel : ∀ q q' loc, rel q loc → rel q' loc → q = q')
    (h : ComesTo env p s gl rel o) (h' : ComesTo env p s gl rel o') : o = o' := by
  cases o with
  | accepts v j w =>
    obtain ⟨r, h, rfl, rfl, rfl⟩ := h
    cases o' with
    | accepts v j w =>
      obtain ⟨r', h', rfl, rfl, rfl⟩ := h'
      cases returns_unique h h'; rfl
    | fails x =>
      cases x with
      | rejects q w b =>
        obtain ⟨r', h', -⟩ := h'
        cases returns_unique h h'
      | raises e => exact (returns_not_raises h h').elim
  | fails x =>
    cases x with
    | rejects q w b =>
      obtain ⟨r, h, h1, rfl, rfl⟩ := h
      cases o' with
      | accepts v j w =>
        obtain ⟨r', h', rfl, rfl, rfl⟩ := h'
        cases returns_unique h h'
      | fails x =>
        cases x with
        | rejects q w b =>
          obtain ⟨r', h', h2, rfl, rfl⟩ := h'
          cases returns_unique h h'
          rw [hrel _ _ _ h1 h2]
        | raises e => exact (returns_not_raises h h').elim
    | raises e =>
      cases o' with
      | accepts v j w =>
        obtain ⟨r', h', rfl, rfl, rfl⟩ := h'
        exact (returns_not_raises h' h).elim
      | fails x =>
        cases x with
        | rejects q w b =>
          obtain ⟨r', h', -⟩ := h'
          exact (returns_not_raises h' h).elim
        | raises e' => rw [raises_unique h h']

theorem eval_iff (D : LocDisc s) (hc : CtxOK D (initCtx D.g) 0)
    (hcol : ∀ i c c', D.col i c → D.col i c' → c = c')
    (hrel : ∀ q q' loc, D.rel q loc → D.rel q' loc → q = q')
    (hl : D.layout ∨ Everywhere env P.notLayout p) (o : Outcome α) :
    ComesTo env p s D.g D.rel o ↔ Eval env s D.col p 0 0 o := by
  refine ⟨fun h => ?_, eval_comesTo D hc hcol hl⟩
  rcases comesTo_cases D hc hl with h' | ⟨o', h1, h2⟩
  · exact absurd h' h.not_hangs
  · rwa [h.unique hrel h2]

theorem eval_hangs (D : LocDisc s) (hc : CtxOK D (initCtx D.g) 0)
    (hcol : ∀ i c c', D.col i c → D.col i c' → c = c')
    (hl : D.layout ∨ Everywhere env P.notLayout p) :
    Hangs env p s (plain D.g) ↔ ¬ ∃ o, Eval env s D.col p 0 0 o := by
  refine ⟨fun h ⟨o, h'⟩ => (eval_comesTo D hc hcol hl h').not_hangs h, fun h => ?_⟩
  rcases comesTo_cases D hc hl with h' | ⟨o', h1, h2⟩
  · exact h'
  · exact absurd ⟨o', h1⟩ h

/-- **C58**: with the default `get_loc` (location of position `q`: `Loc(q, 0, 0)`; all columns are 0),
`p.parse(s)` comes to an outcome if and only if `p` evaluates to it at the start of `s`. -/
theorem C58_default (o : Outcome α) :
    ComesTo env p s defaultGetLoc (fun q loc => loc = ⟨q, 0, 0⟩) o ↔
      Eval env s (fun _ c => c = 0) p 0 0 o :=
  eval_iff (defaultDisc s) defaultDisc_ctx (fun _ _ _ h h' => h.trans h'.symm)
    (fun _ _ _ h h' => (Loc.mk.inj (h.symm.trans h')).1) (.inl trivial) o

/-- C58: and it does not return if and only if there is nothing it evaluates to. -/
theorem C58_default_hangs :
    Hangs env p s (plain defaultGetLoc) ↔ ¬ ∃ o, Eval env s (fun _ c => c = 0) p 0 0 o :=
  eval_hangs (defaultDisc s) defaultDisc_ctx (fun _ _ _ h h' => h.trans h'.symm) (.inl trivial)

/-- C58 for any `get_loc`, for parsers without layout combinators: same values, ends, expected lists,
exceptions and non-termination. -/
theorem C58_any (gl : Loc → List τ → Nat → Loc) (hl : Everywhere env P.notLayout p) :
    (∀ o, Eval env s (fun _ c => c = 0) p 0 0 o → ComesTo env p s gl (fun _ _ => True) o) ∧
      (Hangs env p s (plain gl) ∨ ∃ o, Eval env s (fun _ c => c = 0) p 0 0 o ∧
        ComesTo env p s gl (fun _ _ => True) o) :=
  ⟨fun _ h => eval_comesTo (flatDisc gl s) ⟨rfl, trivial⟩ (fun _ _ _ h h' => h.trans h'.symm) (.inr hl) h,
    comesTo_cases (flatDisc gl s) ⟨rfl, trivial⟩ (.inr hl)⟩

/-- A `get_loc` for an arbitrary assignment of columns. -/
def colDisc (c : Nat → Nat) (s : List τ) : LocDisc s where
  g := fun _ _ q => ⟨q, 0, c q⟩
  I loc _ := loc.col = c loc.pos
  rel q loc := loc.pos = q
  col q k := k = c q
  layout := True
  report := by intros; rfl
  stay := by intro _ _ _ h _ _; exact h
  update := by intros; rfl
  here := by rintro h0 ⟨a, b, k⟩ q h hq rfl; exact ⟨rfl, h⟩
  there := by intros; rfl

omit [BEq τ] in
theorem Shows.unique {D : LocDisc s} (hrel : ∀ q q' loc, D.rel q loc → D.rel q' loc → q = q')
    {o o' : Outcome α} {x : Out (Simple τ α)} (h : Shows D o x) (h' : Shows D o' x) : o = o' := by
  cases h with
  | accepts h => cases h' with | accepts h' => rfl
  | rejects h => cases h' with | rejects h' => rw [hrel _ _ _ h h']
  | raises => cases h' with | raises => rfl

/-- C58: the evaluation relation is a partial function: a parser comes to at most one outcome, at every
position, for every mark and every assignment of columns to positions. -/
theorem C58_functional (c : Nat → Nat) {m i : Nat} {o o' : Outcome α} (hi : i ≤ s.length)
    (h : Eval env s (fun q k => k = c q) p m i o) (h' : Eval env s (fun q k => k = c q) p m i o') :
    o = o' := by
  have hcol : ∀ i k k', (colDisc c s).col i k → (colDisc c s).col i k' → k = k' :=
    fun _ _ _ h h' => h.trans h'.symm
  obtain ⟨n, h⟩ := eval_complete (colDisc c s) hcol (.inl trivial) h hi (.inl trivial)
  obtain ⟨n', h'⟩ := eval_complete (colDisc c s) hcol (.inl trivial) h' hi (.inl trivial)
  have hc : CtxOK (colDisc c s) { loc := ⟨i, 0, c i⟩, mark := m, getLocFn := (colDisc c s).g } i := ⟨rfl, rfl⟩
  have hrel : ∀ q q' loc, (colDisc c s).rel q loc → (colDisc c s).rel q' loc → q = q' :=
    fun _ _ _ h h' => h.symm.trans h'
  exact (h (max n n') (by omega) _ hc rfl).unique hrel
    (h' (max n n') (by omega) _ hc rfl)

end

/-- C58 for `scannerless.parse`: exact lines and columns. -/
theorem C58_text {env : Env Char ρ Γ} {p : P Char ρ Γ α} {s : List Char} (o : Outcome α) :
    ComesTo env p s scannerlessGetLoc (fun q loc => loc = exactLoc s q) o ↔
      Eval env s (textCol s) p 0 0 o :=
  eval_iff (scannerlessDisc s) (scannerlessDisc_ctx s) (fun _ _ _ h h' => h.trans h'.symm)
    (fun _ _ _ h h' => (Loc.mk.inj (h.symm.trans h')).1) (.inl trivial) o

theorem C58_text_hangs {env : Env Char ρ Γ} {p : P Char ρ Γ α} {s : List Char} :
    Hangs env p s (plain scannerlessGetLoc) ↔ ¬ ∃ o, Eval env s (textCol s) p 0 0 o :=
  eval_hangs (scannerlessDisc s) (scannerlessDisc_ctx s) (fun _ _ _ h h' => h.trans h'.symm)
    (.inl trivial)

theorem lexerDisc_rel (s : List Token) {q : Nat} {loc : Loc} (h : (lexerDisc s).rel q loc) :
    TokenLoc s q loc := by
  rw [show loc = locFromStream s q from h]; exact tokenLoc_locFromStream s q

theorem ComesTo.mono {τ : Type} [BEq τ] {env : Env τ ρ Γ} {p : P τ ρ Γ α} {s : List τ}
    {gl : Loc → List τ → Nat → Loc} {rel rel' : Nat → Loc → Prop} {o : Outcome α}
    (h : ComesTo env p s gl rel o) (hr : ∀ q loc, rel q loc → rel' q loc) :
    ComesTo env p s gl rel' o := by
  cases o with
  | accepts v j w => exact h
  | fails x =>
    cases x with
    | rejects q w b => obtain ⟨e, h1, h2, h3⟩ := h; exact ⟨e, h1, hr _ _ h2, h3⟩
    | raises e => exact h

/-- C58 for `lexer.parse`: exactly the evaluation relation, with the locations of the tokens. Parsers with
layout combinators are covered where comparing a token index with a character offset does no harm
(`IndexSafe`). -/
theorem C58_tokens {env : Env Token ρ Γ} {p : P Token ρ Γ α} {s : List Token}
    (hl : IndexSafe s ∨ Everywhere env P.notLayout p) :
    (∀ o, Eval env s (fun q c => c = (locFromStream s q).col) p 0 0 o →
      ComesTo env p s lexerGetLoc (TokenLoc s) o) ∧
    (Hangs env p s (plain lexerGetLoc) ∨
      ∃ o, Eval env s (fun q c => c = (locFromStream s q).col) p 0 0 o ∧
        ComesTo env p s lexerGetLoc (TokenLoc s) o) := by
  refine ⟨fun o h => ?_, ?_⟩
  · exact (eval_comesTo (lexerDisc s) (lexerDisc_ctx s) (fun _ _ _ h h' => h.trans h'.symm) hl h).mono
      fun _ _ => lexerDisc_rel s
  · exact (comesTo_cases (lexerDisc s) (lexerDisc_ctx s) hl).imp_right fun ⟨o, h1, h2⟩ =>
      ⟨o, h1, h2.mono fun _ _ => lexerDisc_rel s⟩

section
variable [BEq τ] {env : Env τ ρ Γ} {p : P τ ρ Γ α} {s : List τ}

/-- C58, as the user sees it: `p.parse(s).unwrap()` returns `v` iff the parser evaluates to `v`. -/
theorem C58_value (fmt : Loc → String) (v : α) :
    (∃ r, Returns env p s (plain defaultGetLoc) r ∧ r.unwrap fmt false = .ok v) ↔
      ∃ j w, Eval env s (fun _ c => c = 0) p 0 0 (.accepts v j w) := by
  constructor
  · rintro ⟨r, hr, hv⟩
    cases r with
    | ok o =>
      simp only [Result.unwrap, Except.ok.injEq] at hv
      exact ⟨o.pos, o.expected, (C58_default _).1 ⟨o, hr, hv, rfl, rfl⟩⟩
    | error e => simp [Result.unwrap] at hv
    | recovered rr =>
      obtain ⟨n, x, _, hx⟩ := returns_plain hr
      cases x <;> simp [Simple.toResult] at hx
  · rintro ⟨j, w, h⟩
    obtain ⟨r, hr, rfl, rfl, rfl⟩ := (C58_default _).2 h
    exact ⟨_, hr, rfl⟩

/-- C58: it raises a `ParseError` iff the parser gets stuck, and then there is one error, at the position
where it got stuck, with what it looked for there. -/
theorem C58_parse_error (fmt : Loc → String) (pe : ParseError) :
    (∃ r, Returns env p s (plain defaultGetLoc) r ∧ r.unwrap fmt false = .error pe) ↔
      ∃ q w b, Eval env s (fun _ c => c = 0) p 0 0 (.fails (.rejects q w b)) ∧
        pe.errors = [⟨⟨q, 0, 0⟩, fmt ⟨q, 0, 0⟩, w, none⟩] := by
  constructor
  · rintro ⟨r, hr, hv⟩
    cases r with
    | ok o => simp [Result.unwrap] at hv
    | error e =>
      simp only [Result.unwrap, Except.error.injEq] at hv
      rcases comesTo_cases (env := env) (p := p) (defaultDisc s) defaultDisc_ctx (.inl trivial) with
        h | ⟨o, h1, h2⟩
      · exact absurd h (returns_not_hangs hr)
      · cases o with
        | accepts v j w => obtain ⟨r', h', -⟩ := h2; cases returns_unique hr h'
        | fails x =>
          cases x with
          | raises e => exact (returns_not_raises hr h2).elim
          | rejects q w b =>
            obtain ⟨e', h3, h4, rfl, rfl⟩ := h2
            cases returns_unique hr h3
            refine ⟨q, _, _, h1, ?_⟩
            rw [← hv, show e.loc = _ from h4]
    | recovered rr =>
      obtain ⟨n, x, _, hx⟩ := returns_plain hr
      cases x <;> simp [Simple.toResult] at hx
  · rintro ⟨q, w, b, h, hp⟩
    obtain ⟨e, hr, h1, rfl, rfl⟩ := (C58_default _).2 h
    refine ⟨_, hr, ?_⟩
    cases pe
    simp only at hp
    subst hp
    simp only [Result.unwrap, h1]

/-- C58: with recovery, `p.parse(s, recover=True, max_insertions=k).unwrap()` returns `v`, that is, without
reporting an error, iff the parser evaluates to `v`. -/
theorem C58_recovering_value (k : Int) (fmt : Loc → String) (v : α) :
    (∃ r, Returns env p s (recovering k defaultGetLoc) r ∧ r.unwrap fmt false = .ok v) ↔
      ∃ j w, Eval env s (fun _ c => c = 0) p 0 0 (.accepts v j w) := by
  rw [← C58_value fmt v]
  constructor
  · rintro ⟨r, hr, hv⟩
    obtain ⟨r', h1, h2⟩ := C02_no_false_success env p s _ k fmt hr hv
    exact ⟨r', h1, h2 _ _⟩
  · rintro ⟨r, hr, hv⟩
    obtain ⟨r', h1, h2⟩ := C01_recovery_keeps_success env p s _ k fmt hr hv
    exact ⟨r', h1, h2 _ _⟩

end

/-! ### Cases -/

/-- On "a,b" the list of `Samples.list` reads `a`, then `,`, and gets stuck at the `b` (position 2). -/
example : Eval Samples.noEnv ['a', ',', 'b'] (fun _ c => c = 0) Samples.list 0 0
    (.fails (.rejects 2 ["'a'"] true)) :=
  (C58_default _).1 ⟨⟨⟨2, 0, 0⟩, ["'a'"], true⟩, ⟨30, rfl⟩, rfl, rfl, rfl⟩

/-- The same, by the rules. -/
example : Eval Samples.noEnv ['a', 'b'] (fun _ c => c = 0)
    (.alt (.seq (.sym 'a' "'a'") (.sym 'c' "'c'")) (.seq (.sym 'a' "'a'") (.sym 'b' "'b'"))) 0 0
    (.fails (.rejects 1 ["'c'"] true)) := by
  refine .altFails ?_ rfl
  exact .seq (merge := Prod.mk) (.sym rfl rfl) (.symNot (by simp))

/-- Left recursion evaluates to nothing. -/
example : ¬ ∃ o, Eval Samples.loopEnv ['a'] (fun _ c => c = 0) (.ref ()) 0 0 o := by
  rintro ⟨o, h⟩
  have key : ∀ {α : Type} {p : P Char Unit (fun _ => Unit) α} {m i : Nat} {o : Outcome α},
      Eval Samples.loopEnv ['a'] (fun _ c => c = 0) p m i o →
      (match p with | .ref _ => False | .label (.ref _) _ => False | _ => True) := by
    intro α p m i o h
    induction h with
    | ref he h ih => simp only [Samples.loopEnv, Option.some.injEq] at he; subst he; exact ih
    | refUndefined he => simp [Samples.loopEnv] at he
    | @label α p x m i o h ih => cases p <;> trivial
    | _ => trivial
  exact key h

end Reparsec
