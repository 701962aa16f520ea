import Verif.Lemmas.LL1
import Verif.Props.Language
import Verif.Props.Termination

/-!
# C55: for LL(1) grammars the parser is complete

C24 says that what the parser accepts is in the language of the grammar.  The converse is false in
general: choice commits to its first branch, repetition is greedy.  For grammars in which one element
of lookahead decides (`Spec/LL1.lean`) it holds.
-/

namespace Reparsec

variable {τ ρ : Type} {Γ : ρ → Type} {α β : Type} [BEq τ]

/-! ### Lemmas -/

/-- Any `get_loc`; no layout. -/
def flatDisc (g : Loc → List τ → Nat → Loc) (s : List τ) : LocDisc s where
  g := g
  I _ _ := True
  rel _ _ := True
  col _ c := c = 0
  layout := False
  report := by intros; trivial
  stay := by intros; trivial
  update := by intros; trivial
  here := by intro h; exact h.elim
  there := by intro h; exact h.elim

theorem P.goesOn.mono {T : LLTable τ ρ} {p : P τ ρ Γ α} {F F' : Option τ → Prop}
    (h : ∀ la, F la → F' la) {la : Option τ} (hp : p.goesOn T F la) : p.goesOn T F' la :=
  hp.imp_right fun h' => ⟨h'.1, h _ h'.2⟩

/-- Fewer lookaheads after it: still LL(1). -/
theorem P.LL1.mono {T : LLTable τ ρ} {p : P τ ρ Γ α} {F F' : Option τ → Prop}
    (h : ∀ la, F la → F' la) (hp : p.LL1 T F') : p.LL1 T F := by
  induction p generalizing F F' with
  | alt p q ih1 ih2 =>
    exact ⟨ih1 h hp.1, ih2 h hp.2.1, fun la h1 h2 => hp.2.2 la h1 (h2.mono h)⟩
  | bind p k ih1 ih2 =>
    exact ⟨ih1 (fun la ⟨a, ha⟩ => ⟨a, ha.mono h⟩) hp.1, fun a => ih2 a h (hp.2 a)⟩
  | seqWith p q m ih1 ih2 => exact ⟨ih1 (fun la ha => ha.mono h) hp.1, ih2 h hp.2⟩
  | maybe p ih => exact ⟨ih h hp.1, fun la h1 h2 => hp.2 la h1 (h _ h2)⟩
  | many p ih =>
    exact ⟨ih (fun la h' => h'.imp_right (h la)) hp.1, hp.2.1, fun la h1 h2 => hp.2.2 la h1 (h _ h2)⟩
  | fmap p _ ih => exact ih h hp
  | attempt p ih => exact ih h hp
  | label p _ ih => exact ih h hp
  | recover p ih => exact ih h hp
  | recoverWith p _ _ ih => exact ih h hp
  | recoverWithFn p _ _ ih => exact ih h hp
  | block p ih => exact ih h hp
  | aligned p ih => exact ih h hp
  | indented _ p ih => exact ih h hp
  | ref x => exact fun la hla => hp la (h la hla)
  | _ => trivial

/-- `p << eof()` is LL(1) if `p` is. -/
theorem IsLL1.seql_eof {env : Env τ ρ Γ} {p : P τ ρ Γ α} (h : IsLL1 env p) :
    IsLL1 env (P.seql p .eof) := by
  obtain ⟨T, h1, h2⟩ := h
  refine ⟨T, h1, ?_, trivial⟩
  exact h2.mono fun la h => h.elim (fun h => h.elim) fun h => h.2

/-- Without layout, columns do not matter. -/
theorem Der.any_col {env : Env τ ρ Γ} {s : List τ} {col col' : Nat → Nat → Prop} {p : P τ ρ Γ α}
    {m i : Nat} {es : List Step} {v : α} {j : Nat} (h : Der env s col p m i es v j)
    (henv : ∀ x q, env x = some q → q.All P.notLayout) (hp : p.All P.notLayout) :
    Der env s col' p m i es v j := by
  induction h with
  | pure => exact .pure
  | pureFn h => exact .pureFn h
  | eof => exact .eof
  | eofSkip h => exact .eofSkip h
  | satisfy h1 h2 => exact .satisfy h1 h2
  | satisfySkip h1 h2 h3 => exact .satisfySkip h1 h2 h3
  | sym h1 h2 => exact .sym h1 h2
  | symSkip h1 h2 h3 => exact .symSkip h1 h2 h3
  | symInsert => exact .symInsert
  | literal h1 => exact .literal h1
  | literalSkip h1 h2 => exact .literalSkip h1 h2
  | literalInsert => exact .literalInsert
  | regexp h => exact .regexp h
  | regexpSkip h1 h2 h3 => exact .regexpSkip h1 h2 h3
  | fmap _ h ih => exact .fmap (ih hp.2) h
  | altL _ ih => exact .altL (ih hp.2.1)
  | altR _ ih => exact .altR (ih hp.2.2)
  | bind _ _ ih1 ih2 => exact .bind (ih1 hp.2.1) (ih2 (hp.2.2 _))
  | seqWith _ _ ih1 ih2 => exact .seqWith (ih1 hp.2.1) (ih2 hp.2.2)
  | maybeNone => exact .maybeNone
  | maybeSome _ ih => exact .maybeSome (ih hp.2)
  | manyNil => exact .manyNil
  | manyCons _ _ ih1 ih2 => exact .manyCons (ih1 hp.2) (ih2 hp)
  | attempt _ ih => exact .attempt (ih hp.2)
  | label _ ih => exact .label (ih hp.2)
  | recover _ ih => exact .recover (ih hp.2)
  | recoverWith _ ih => exact .recoverWith (ih hp.2)
  | recoverWithInsert => exact .recoverWithInsert
  | recoverWithFn _ ih => exact .recoverWithFn (ih hp.2)
  | recoverWithFnInsert h => exact .recoverWithFnInsert h
  | block _ _ _ => exact hp.1.elim
  | aligned _ _ _ => exact hp.1.elim
  | indented _ _ _ _ => exact hp.1.elim
  | ref h _ ih => exact .ref h (ih (henv _ _ h))

theorem isPrefixOf_of_beq : ∀ {x w y : List τ}, (x == w) = true →
    x.isPrefixOf (w ++ y) = true ∧ x.length = w.length := by
  intro x
  induction x with
  | nil => intro w y h; cases w <;> simp_all
  | cons a x ih =>
    intro w y h
    cases w with
    | nil => simp at h
    | cons b w =>
      simp only [List.cons_beq_cons, Bool.and_eq_true] at h
      have := ih (y := y) h.2
      rw [List.cons_append, List.isPrefixOf_cons_cons, Bool.and_eq_true]
      exact ⟨⟨h.1, this.1⟩, by simp [this.2]⟩

/-- The node may occur in a grammar that can be read as a context-free grammar: no regular expression
(it looks at its context), no `eof`, no layout. -/
def P.contextFree : {α : Type} → P τ ρ Γ α → Prop := fun p => p.notRegexp ∧ p.notEof ∧ p.notLayout

/-- A word of the language is derived wherever it stands in the input. -/
theorem Lang.der {env : Env τ ρ Γ} {col : Nat → Nat → Prop} {p : P τ ρ Γ α} {w : List τ} {v : α}
    (h : Lang env p w v) (henv : ∀ x q, env x = some q → q.All P.contextFree)
    (hp : p.All P.contextFree) (m : Nat) : ∀ x y,
    Der env (x ++ w ++ y) col p m x.length [] v (x.length + w.length) := by
  induction h with
  | pure => intro x y; exact .pure
  | pureFn h => intro x y; exact .pureFn h
  | eof => exact hp.2.1.elim
  | satisfy h => intro x y; exact .satisfy (by simp) h
  | sym h => intro x y; exact .sym (by simp) h
  | literal h =>
    intro x y
    have := isPrefixOf_of_beq (y := y) h
    rw [← this.2]
    exact .literal (by simpa using this.1)
  | regexp => exact hp.1.elim
  | fmap _ h ih => intro x y; exact .fmap (ih hp.2 x y) h
  | altL _ ih => intro x y; exact .altL (ih hp.2.1 x y)
  | altR _ ih => intro x y; exact .altR (ih hp.2.2 x y)
  | @bind _ _ p k w a w' b _ _ ih1 ih2 =>
    intro x y
    have h1 := ih1 hp.2.1 x (w' ++ y)
    have h2 := ih2 (hp.2.2 _) (x ++ w) y
    simp only [List.append_assoc, List.length_append] at h1 h2 ⊢
    have := Der.bind h1 h2
    rwa [← Nat.add_assoc]
  | @seqWith _ _ _ p k mg w a w' b _ _ ih1 ih2 =>
    intro x y
    have h1 := ih1 hp.2.1 x (w' ++ y)
    have h2 := ih2 hp.2.2 (x ++ w) y
    simp only [List.append_assoc, List.length_append] at h1 h2 ⊢
    have := Der.seqWith (merge := mg) h1 h2
    rwa [← Nat.add_assoc]
  | maybeNone => intro x y; exact .maybeNone
  | maybeSome _ ih => intro x y; exact .maybeSome (ih hp.2 x y)
  | manyNil => intro x y; exact .manyNil
  | @manyCons _ p w v w' vs _ _ ih1 ih2 =>
    intro x y
    have h1 := ih1 hp.2 x (w' ++ y)
    have h2 := ih2 hp (x ++ w) y
    simp only [List.append_assoc, List.length_append] at h1 h2 ⊢
    have := Der.manyCons h1 h2
    rwa [← Nat.add_assoc]
  | attempt _ ih => intro x y; exact .attempt (ih hp.2 x y)
  | label _ ih => intro x y; exact .label (ih hp.2 x y)
  | recover _ ih => intro x y; exact .recover (ih hp.2 x y)
  | recoverWith _ ih => intro x y; exact .recoverWith (ih hp.2 x y)
  | recoverWithFn _ ih => intro x y; exact .recoverWithFn (ih hp.2 x y)
  | block => exact hp.1.2.2.elim
  | aligned => exact hp.1.2.2.elim
  | indented => exact hp.1.2.2.elim
  | ref h _ ih => intro x y; exact .ref h (ih (henv _ _ h) x y)

omit [BEq τ] in
theorem P.All.mono {C C' : {α : Type} → P τ ρ Γ α → Prop}
    (h : ∀ {α : Type} (p : P τ ρ Γ α), C p → C' p) {p : P τ ρ Γ α} (hp : p.All C) : p.All C' := by
  induction p with
  | fmap p _ ih => exact ⟨h _ hp.1, ih hp.2⟩
  | alt p q ih1 ih2 => exact ⟨h _ hp.1, ih1 hp.2.1, ih2 hp.2.2⟩
  | bind p k ih1 ih2 => exact ⟨h _ hp.1, ih1 hp.2.1, fun a => ih2 a (hp.2.2 a)⟩
  | seqWith p q _ ih1 ih2 => exact ⟨h _ hp.1, ih1 hp.2.1, ih2 hp.2.2⟩
  | maybe p ih => exact ⟨h _ hp.1, ih hp.2⟩
  | many p ih => exact ⟨h _ hp.1, ih hp.2⟩
  | attempt p ih => exact ⟨h _ hp.1, ih hp.2⟩
  | label p _ ih => exact ⟨h _ hp.1, ih hp.2⟩
  | recover p ih => exact ⟨h _ hp.1, ih hp.2⟩
  | recoverWith p _ _ ih => exact ⟨h _ hp.1, ih hp.2⟩
  | recoverWithFn p _ _ ih => exact ⟨h _ hp.1, ih hp.2⟩
  | block p ih => exact ⟨h _ hp.1, ih hp.2⟩
  | aligned p ih => exact ⟨h _ hp.1, ih hp.2⟩
  | indented _ p ih => exact ⟨h _ hp.1, ih hp.2⟩
  | _ => exact h _ hp

/-- Completeness for a location discipline. -/
theorem ll1_run {env : Env τ ρ Γ} {p : P τ ρ Γ α} {s : List τ} (D : LocDisc s)
    (hc : CtxOK D (initCtx D.g) 0) (hcol : ∀ i c c', D.col i c → D.col i c' → c = c')
    (hl : D.layout ∨ Everywhere env P.notLayout p) (h : IsLL1 env p) {v : α}
    (hd : Derives env s D.col p 0 0 [] v s.length) :
    Hangs env p s (plain D.g) ∨
      ∃ o, Returns env p s (plain D.g) (.ok o) ∧ o.value = v ∧ o.pos = s.length := by
  obtain ⟨T, hT, hp⟩ := h
  obtain ⟨st, hst, hd⟩ := hd
  obtain rfl := edits_eq_nil.1 hst
  have hg := fun n => ll1_complete hT D hcol (hl.imp_right fun h => h.2) hd rfl (Nat.zero_le _)
    (hl.imp_right fun h => h.1) _ hp (by simp) n _ hc rfl
  by_cases hdiv : ∀ n, (denote env n p).fast s 0 (initCtx D.g) = .diverge
  · left
    intro n
    simp [parse, plain, hdiv n]
  · right
    obtain ⟨n, hn⟩ := Classical.not_forall.1 hdiv
    rcases hg n with h | ⟨r, h, h1, h2⟩
    · exact absurd h hn
    · exact ⟨r, ⟨n, by simp [parse, plain, h, Simple.toResult]⟩, h1, h2⟩

/-! ### C55 -/

section
variable {env : Env τ ρ Γ} {p : P τ ρ Γ α} {s : List τ}

/-- **C55**: if the grammar is LL(1) and derives `v` from the whole input, then `parse` returns `v`, after
reading the whole input, unless it does not return at all (which C22 and C23 exclude): it does not fail, return
something else, or raise. For every `get_loc`, for parsers without layout combinators. -/
theorem C55_complete (h : IsLL1 env p) (hl : Everywhere env P.notLayout p)
    (gl : Loc → List τ → Nat → Loc) {v : α} (hd : Derives env s anyCol p 0 0 [] v s.length) :
    Hangs env p s (plain gl) ∨
      ∃ o, Returns env p s (plain gl) (.ok o) ∧ o.value = v ∧ o.pos = s.length := by
  obtain ⟨st, hst, hd⟩ := hd
  exact ll1_run (flatDisc gl s) ⟨rfl, trivial⟩ (fun _ _ _ h h' => h.trans h'.symm) (.inr hl) h
    ⟨st, hst, hd.any_col hl.2 hl.1⟩

/-- C55, with layout combinators, for `Parser.parse` without `get_loc` (all columns are 0). -/
theorem C55_complete_default (h : IsLL1 env p) {v : α}
    (hd : Derives env s zeroCol p 0 0 [] v s.length) :
    Hangs env p s (plain defaultGetLoc) ∨
      ∃ o, Returns env p s (plain defaultGetLoc) (.ok o) ∧ o.value = v ∧ o.pos = s.length :=
  ll1_run (defaultDisc s) defaultDisc_ctx (fun _ _ _ h h' => h.trans h'.symm) (.inl trivial) h hd

/-- C55, with layout combinators, for `scannerless.parse`. -/
theorem C55_complete_text {env : Env Char ρ Γ} {p : P Char ρ Γ α} {s : List Char} (h : IsLL1 env p)
    {v : α} (hd : Derives env s (textCol s) p 0 0 [] v s.length) :
    Hangs env p s (plain scannerlessGetLoc) ∨
      ∃ o, Returns env p s (plain scannerlessGetLoc) (.ok o) ∧ o.value = v ∧ o.pos = s.length :=
  ll1_run (scannerlessDisc s) (scannerlessDisc_ctx s) (fun _ _ _ h h' => h.trans h'.symm)
    (.inl trivial) h hd

/-- **C55**, exactly: for an LL(1) grammar `p` without regular expressions, `eof` and layout inside and
without left recursion, `(p << eof()).parse(s).unwrap()` returns `v` if and only if `p`, read as a
context-free grammar, assigns `v` to `s`. -/
theorem C55_exact (h : IsLL1 env p) (hcf : Everywhere env P.contextFree p)
    (hwf : WellFounded fun j i => LeftCalls env i j) (gl : Loc → List τ → Nat → Loc)
    (fmt : Loc → String) (v : α) :
    (∃ r, Returns env (P.seql p .eof) s (plain gl) r ∧ r.unwrap fmt false = .ok v) ↔
      Lang env p s v := by
  constructor
  · rintro ⟨r, hr, hv⟩
    exact C24_accepted_whole fmt hr hv
  · intro hL
    have hd : Der env s (flatDisc gl s).col p 0 0 [] v s.length := by
      have := hL.der (col := (flatDisc gl s).col) hcf.2 hcf.1 0 [] []
      simpa using this
    have hd' : Der env s (flatDisc gl s).col (P.seql p .eof) 0 0 [] v s.length :=
      Der.seqWith (merge := fun a _ => a) hd Der.eof
    have hnl : ∀ {α : Type} (q : P τ ρ Γ α), q.contextFree → q.notLayout := fun q h => h.2.2
    have hl : Everywhere env P.notLayout (P.seql p .eof) :=
      ⟨⟨trivial, hcf.1.mono hnl, trivial⟩, fun i q hq => (hcf.2 i q hq).mono hnl⟩
    have := ll1_run (flatDisc gl s) ⟨rfl, trivial⟩ (fun _ _ _ h h' => h.trans h'.symm) (.inr hl)
      h.seql_eof ⟨[], rfl, hd'⟩
    rcases this with hh | ⟨o, ho, rfl, _⟩
    · rcases C23_terminates env hwf (P.seql p .eof) s (plain gl) (by simp [plain]) with
        ⟨r, n, hr⟩ | ⟨e, n, hr⟩
      · exact absurd (hr.symm.trans (hh n)) (by simp)
      · exact absurd (hr.symm.trans (hh n)) (by simp)
    · exact ⟨_, ho, rfl⟩

/-- C55 with `recover=True`: the words of the language are parsed without any repair. -/
theorem C55_recovering (h : IsLL1 env p) (hcf : Everywhere env P.contextFree p)
    (hwf : WellFounded fun j i => LeftCalls env i j) (gl : Loc → List τ → Nat → Loc) (k : Int)
    {v : α} (hL : Lang env p s v) :
    ∃ o, Returns env (P.seql p .eof) s (recovering k gl) (.ok o) ∧ o.value = v := by
  obtain ⟨r, ⟨n, hr⟩, hv⟩ := (C55_exact h hcf hwf gl defaultFmtLoc v).2 hL
  obtain ⟨n, x, hx, rfl⟩ := returns_plain ⟨n, hr⟩
  cases x with
  | ok o =>
    simp only [Simple.toResult, Result.unwrap, Except.ok.injEq] at hv
    refine ⟨o, ⟨n, ?_⟩, hv⟩
    have := (sim_denote env n (P.seql p .eof)).ok hx k (some k)
    simpa [parse, recovering] using this
  | error e => simp [Simple.toResult, Result.unwrap] at hv

/-- C55: an LL(1) grammar is unambiguous: it assigns at most one value to a word. -/
theorem C55_unambiguous (h : IsLL1 env p) (hcf : Everywhere env P.contextFree p)
    (hwf : WellFounded fun j i => LeftCalls env i j) {v v' : α} (hL : Lang env p s v)
    (hL' : Lang env p s v') : v = v' := by
  obtain ⟨o, ho, rfl⟩ := C55_recovering h hcf hwf defaultGetLoc 5 hL
  obtain ⟨o', ho', rfl⟩ := C55_recovering h hcf hwf defaultGetLoc 5 hL'
  have := returns_unique ho ho'
  simp only [Result.ok.injEq] at this
  rw [this]

end

/-! ### Cases that meet the hypotheses -/

namespace Samples

theorem sym_starts {ρ : Type} {Γ : ρ → Type} (T : LLTable Char ρ) (c : Char) (l : String)
    (la : Option Char) : (P.sym c l : P Char ρ Γ Char).starts T la ↔ la = some c := by
  simp [P.starts]

/-- The lookaheads of the nested parentheses of `Samples.nestEnv`. -/
def nestTable : LLTable Char Unit where
  starts _ la := la = some '(' ∨ la = some 'x'
  empty _ _ := False
  follow _ la := la = some ')' ∨ la = none

/-- The nested parentheses are LL(1). -/
theorem nest_ll1 : IsLL1 nestEnv (.ref ()) := by
  refine ⟨nestTable, ⟨?_, ?_, ?_, ?_⟩, ?_⟩
  · rintro x q ⟨⟩ la h
    simpa [P.starts, P.empty, P.map, P.seqr, P.seql, nestTable] using h
  · rintro x q ⟨⟩ la h
    simp [P.empty, P.map, P.seqr, P.seql] at h
  · rintro x ⟨⟩
  · rintro x q ⟨⟩
    simp [P.LL1, P.starts, P.empty, P.goesOn, P.map, P.seqr, P.seql, nestTable]
  · rintro la rfl
    exact .inr rfl

theorem nest_contextFree : Everywhere nestEnv P.contextFree (.ref ()) := by
  refine ⟨⟨trivial, trivial, trivial⟩, ?_⟩
  rintro i q ⟨⟩
  simp [P.map, P.seqr, P.seql, P.All, P.contextFree, P.notRegexp, P.notEof, P.notLayout]

theorem nest_wf : WellFounded fun j i => LeftCalls nestEnv i j :=
  ⟨fun i => ⟨i, fun j h => absurd (.one (by cases i; cases j; exact h)) (nest_not_left_recursive ())⟩⟩

/-- So the parser of nested parentheses accepts exactly its language. -/
example (s : List Char) (v : Nat) :
    (∃ r, Returns nestEnv nest s (plain defaultGetLoc) r ∧ r.unwrap defaultFmtLoc false = .ok v) ↔
      Lang nestEnv (.ref ()) s v :=
  C55_exact nest_ll1 nest_contextFree nest_wf defaultGetLoc defaultFmtLoc v

/-- `sym("a").sep_by(sym(","))` is LL(1) too. -/
theorem sepBy_ll1 : IsLL1 noEnv (P.sepBy (.sym 'a' "'a'") (.sym ',' "','")) := by
  refine ⟨⟨fun i => i.elim, fun i => i.elim, fun i => i.elim⟩,
    ⟨fun i => i.elim, fun i => i.elim, fun i => i.elim, fun i => i.elim⟩, ?_⟩
  simp [P.sepBy, P.seqr, P.seq, P.map, P.LL1, P.starts, P.empty]

/-- `(sym("a") + sym("b")) | (sym("a") + sym("c"))` -/
def abOrAc : P Char Empty (fun _ => Unit) (Char × Char) :=
  .alt (.seq (.sym 'a' "'a'") (.sym 'b' "'b'")) (.seq (.sym 'a' "'a'") (.sym 'c' "'c'"))

end Samples

/-- C55, the condition is needed: `(sym("a") + sym("b")) | (sym("a") + sym("c"))` rejects "ac", which is in
its language. It is not LL(1). -/
theorem C55_needs_ll1 :
    Lang Samples.noEnv Samples.abOrAc ['a', 'c'] ('a', 'c') ∧
    (∃ e, Returns Samples.noEnv (P.seql Samples.abOrAc .eof) ['a', 'c'] (plain defaultGetLoc)
      (.error e)) ∧ ¬ IsLL1 Samples.noEnv Samples.abOrAc := by
  refine ⟨?_, ⟨_, 30, rfl⟩, ?_⟩
  · exact .altR (.seqWith (w := ['a']) (w' := ['c']) (merge := Prod.mk) (.sym rfl) (.sym rfl))
  · rintro ⟨T, _, _, _, h⟩
    refine h (some 'a') (.inl ?_) (.inl ?_) <;> simp [P.starts, P.seq]

end Reparsec
