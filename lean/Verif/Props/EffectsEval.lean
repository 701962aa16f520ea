import Verif.Lemmas.EffectsEval
import Verif.Props.Effects
import Verif.Props.Eval

/-!
# C63: without recovery, callbacks are called exactly as the evaluation relation says
-/

namespace Reparsec.Eff

variable {σ τ ρ : Type} {Γ : ρ → Type} {α β : Type}

section
variable [BEq τ] {env : Env σ τ ρ Γ} {p : P σ τ ρ Γ α} {s : List τ} {w w' : World σ}

theorem Shows.comesTo {D : LocDisc s} {o : Outcome α} {n : Nat}
    (h : Shows D 0 (initCtx D.g) w' o ((denote env n p).fast s 0 (initCtx D.g) w)) :
    ComesTo env p s D.g D.rel w o w' := by
  have hp := parse_plain_eq env p s n D.g w
  cases o with
  | accepts v j x =>
    obtain ⟨r, h1, rfl, rfl, rfl, -⟩ := h.inv_accepts
    exact ⟨r, ⟨n, by rw [hp, h1]; rfl⟩, rfl, rfl, rfl⟩
  | fails x =>
    cases x with
    | rejects q x b =>
      obtain ⟨e, h1, h2, rfl, rfl⟩ := h.inv_rejects
      exact ⟨e, ⟨n, by rw [hp, h1]; rfl⟩, h2, rfl, rfl⟩
    | raises e => exact ⟨n, by rw [hp, h.inv_raises]; rfl⟩

theorem eval_comesTo (D : LocDisc s) (hc : CtxOK D (initCtx D.g) 0)
    (hcol : ∀ i c c', D.col i c → D.col i c' → c = c')
    (hl : D.layout ∨ NoLayout env p) {o : Outcome α}
    (h : Eval env s D.col p 0 0 w o w') : ComesTo env p s D.g D.rel w o w' := by
  obtain ⟨n, h⟩ := eval_complete D hcol (hl.imp_right fun h => h.2) h (Nat.zero_le _)
    (hl.imp_right fun h => h.1)
  exact (h n (Nat.le_refl _) _ hc rfl).comesTo

theorem comesTo_cases (D : LocDisc s) (hc : CtxOK D (initCtx D.g) 0)
    (hl : D.layout ∨ NoLayout env p) (w : World σ) :
    Hangs env p s (plain D.g) w ∨
      ∃ o w', Eval env s D.col p 0 0 w o w' ∧ ComesTo env p s D.g D.rel w o w' := by
  by_cases h : ∃ n, (denote env n p).fast s 0 (initCtx D.g) w ≠ .diverge
  · obtain ⟨n, h⟩ := h
    obtain ⟨o, w', h1, h2⟩ := eval_denote env D p hl n 0 _ w (Nat.zero_le _) hc h
    exact .inr ⟨o, w', h1, h2.comesTo⟩
  · refine .inl fun n => ?_
    have : (denote env n p).fast s 0 (initCtx D.g) w = .diverge :=
      Classical.not_not.1 fun h' => h ⟨n, h'⟩
    rw [parse_plain_eq, this]; rfl

theorem ComesTo.not_hangs {gl : Loc → List τ → Nat → Loc} {rel : Nat → Loc → Prop} {o : Outcome α}
    (h : ComesTo env p s gl rel w o w') : ¬ Hangs env p s (plain gl) w := by
  have key : ∀ {x : Run σ (Result τ α)} {n : Nat}, x ≠ .diverge →
      parse env n p s (plain gl).recover (plain gl).maxInsertions (plain gl).getLoc w = x →
      ¬ Hangs env p s (plain gl) w := fun hx h h' => hx (h ▸ h' _)
  cases o with
  | accepts v j x => obtain ⟨r, ⟨n, h⟩, -⟩ := h; exact key (by simp) h
  | fails x =>
    cases x with
    | rejects q x b => obtain ⟨r, ⟨n, h⟩, -⟩ := h; exact key (by simp) h
    | raises e => obtain ⟨n, h⟩ := h; exact key (by simp) h

theorem ComesTo.unique {gl : Loc → List τ → Nat → Loc} {rel : Nat → Loc → Prop} {o o' : Outcome α}
    {w1 w2 : World σ} (hrel : ∀ q q' loc, rel q loc → rel q' loc → q = q')
    (h : ComesTo env p s gl rel w o w1) (h' : ComesTo env p s gl rel w o' w2) :
    o = o' ∧ w1 = w2 := by
  cases o with
  | accepts v j x =>
    obtain ⟨r, h, rfl, rfl, rfl⟩ := h
    cases o' with
    | accepts v j x =>
      obtain ⟨r', h', rfl, rfl, rfl⟩ := h'
      obtain ⟨h1, h2⟩ := ret_unique h h'
      cases h1; exact ⟨rfl, h2⟩
    | fails x =>
      cases x with
      | rejects q x b =>
        obtain ⟨r', h', -⟩ := h'
        cases (ret_unique h h').1
      | raises e => exact (ret_not_raise h h').elim
  | fails x =>
    cases x with
    | rejects q x b =>
      obtain ⟨r, h, h1, rfl, rfl⟩ := h
      cases o' with
      | accepts v j x =>
        obtain ⟨r', h', rfl, rfl, rfl⟩ := h'
        cases (ret_unique h h').1
      | fails x =>
        cases x with
        | rejects q x b =>
          obtain ⟨r', h', h2, rfl, rfl⟩ := h'
          obtain ⟨h3, h4⟩ := ret_unique h h'
          cases h3
          rw [hrel _ _ _ h1 h2]
          exact ⟨rfl, h4⟩
        | raises e => exact (ret_not_raise h h').elim
    | raises e =>
      cases o' with
      | accepts v j x =>
        obtain ⟨r', h', rfl, rfl, rfl⟩ := h'
        exact (ret_not_raise h' h).elim
      | fails x =>
        cases x with
        | rejects q x b =>
          obtain ⟨r', h', -⟩ := h'
          exact (ret_not_raise h' h).elim
        | raises e' =>
          obtain ⟨h1, h2⟩ := raise_unique h h'
          exact ⟨by rw [h1], h2⟩

theorem eval_iff (D : LocDisc s) (hc : CtxOK D (initCtx D.g) 0)
    (hcol : ∀ i c c', D.col i c → D.col i c' → c = c')
    (hrel : ∀ q q' loc, D.rel q loc → D.rel q' loc → q = q')
    (hl : D.layout ∨ NoLayout env p) (w : World σ) (o : Outcome α) (w' : World σ) :
    ComesTo env p s D.g D.rel w o w' ↔ Eval env s D.col p 0 0 w o w' := by
  refine ⟨fun h => ?_, eval_comesTo D hc hcol hl⟩
  rcases comesTo_cases D hc hl w with h' | ⟨o', w2, h1, h2⟩
  · exact absurd h' h.not_hangs
  · obtain ⟨rfl, rfl⟩ := h.unique hrel h2; exact h1

theorem eval_hangs (D : LocDisc s) (hc : CtxOK D (initCtx D.g) 0)
    (hcol : ∀ i c c', D.col i c → D.col i c' → c = c')
    (hl : D.layout ∨ NoLayout env p) (w : World σ) :
    Hangs env p s (plain D.g) w ↔ ¬ ∃ o w', Eval env s D.col p 0 0 w o w' := by
  refine ⟨fun h ⟨o, w', h'⟩ => (eval_comesTo D hc hcol hl h').not_hangs h, fun h => ?_⟩
  rcases comesTo_cases D hc hl w with h' | ⟨o', w', h1, h2⟩
  · exact h'
  · exact absurd ⟨o', w', h1⟩ h

/-- **C63**: with the default `get_loc`, `p.parse(s)`, called in the world `w` (the state of the
callbacks and the calls made so far), comes to the outcome `o` and leaves the world `w'` if and only if
`p` evaluates to `o` and `w'` at the start of `s`. So callbacks are called as the rules say: in the order
of the parse, once, on the elements and values they say, and in the state the previous call left. -/
theorem C63_default (w : World σ) (o : Outcome α) (w' : World σ) :
    ComesTo env p s defaultGetLoc (fun q loc => loc = ⟨q, 0, 0⟩) w o w' ↔
      Eval env s (fun _ c => c = 0) p 0 0 w o w' :=
  eval_iff (defaultDisc s) defaultDisc_ctx (fun _ _ _ h h' => h.trans h'.symm)
    (fun _ _ _ h h' => (Loc.mk.inj (h.symm.trans h')).1) (.inl trivial) w o w'

/-- C63: and it does not return if and only if there is nothing it evaluates to. -/
theorem C63_default_hangs (w : World σ) :
    Hangs env p s (plain defaultGetLoc) w ↔
      ¬ ∃ o w', Eval env s (fun _ c => c = 0) p 0 0 w o w' :=
  eval_hangs (defaultDisc s) defaultDisc_ctx (fun _ _ _ h h' => h.trans h'.symm) (.inl trivial) w

/-- C63 for any `get_loc`, for parsers without layout combinators: locations do not matter to the
callbacks. -/
theorem C63_any (gl : Loc → List τ → Nat → Loc) (hl : NoLayout env p) (w : World σ) :
    (∀ o w', Eval env s (fun _ c => c = 0) p 0 0 w o w' →
      ComesTo env p s gl (fun _ _ => True) w o w') ∧
    (Hangs env p s (plain gl) w ∨ ∃ o w', Eval env s (fun _ c => c = 0) p 0 0 w o w' ∧
      ComesTo env p s gl (fun _ _ => True) w o w') :=
  ⟨fun _ _ h => eval_comesTo (flatDisc gl s) ⟨rfl, trivial⟩ (fun _ _ _ h h' => h.trans h'.symm)
      (.inr hl) h,
    comesTo_cases (flatDisc gl s) ⟨rfl, trivial⟩ (.inr hl) w⟩

/-- C63: the relation is a partial function: from a world, at a position, a parser comes to at most one
outcome and leaves at most one world. -/
theorem C63_functional (c : Nat → Nat) {m i : Nat} {o o' : Outcome α} {w1 w2 : World σ}
    (hi : i ≤ s.length) (h : Eval env s (fun q k => k = c q) p m i w o w1)
    (h' : Eval env s (fun q k => k = c q) p m i w o' w2) : o = o' ∧ w1 = w2 := by
  have hcol : ∀ i k k', (colDisc c s).col i k → (colDisc c s).col i k' → k = k' :=
    fun _ _ _ h h' => h.trans h'.symm
  obtain ⟨n, h⟩ := eval_complete (colDisc c s) hcol (.inl trivial) h hi (.inl trivial)
  obtain ⟨n', h'⟩ := eval_complete (colDisc c s) hcol (.inl trivial) h' hi (.inl trivial)
  have hc : CtxOK (colDisc c s) { loc := ⟨i, 0, c i⟩, mark := m, getLocFn := (colDisc c s).g } i :=
    ⟨rfl, rfl⟩
  have hrel : ∀ q q' loc, (colDisc c s).rel q loc → (colDisc c s).rel q' loc → q = q' :=
    fun _ _ _ h h' => h.symm.trans h'
  have h1 := h (max n n') (by omega) _ hc rfl
  have h2 := h' (max n n') (by omega) _ hc rfl
  generalize (denote env (max n n') p).fast s i _ w = x at h1 h2
  cases h1 with
  | accepts h3 => cases h2 with | accepts h4 => exact ⟨rfl, rfl⟩
  | rejects h3 => cases h2 with | rejects h4 => rw [hrel _ _ _ h3 h4]; exact ⟨rfl, rfl⟩
  | raises => cases h2 with | raises => exact ⟨rfl, rfl⟩

end

/-- C63 for `scannerless.parse`: exact lines and columns. -/
theorem C63_text {env : Env σ Char ρ Γ} {p : P σ Char ρ Γ α} {s : List Char} (w : World σ)
    (o : Outcome α) (w' : World σ) :
    ComesTo env p s scannerlessGetLoc (fun q loc => loc = exactLoc s q) w o w' ↔
      Eval env s (textCol s) p 0 0 w o w' :=
  eval_iff (scannerlessDisc s) (scannerlessDisc_ctx s) (fun _ _ _ h h' => h.trans h'.symm)
    (fun _ _ _ h h' => (Loc.mk.inj (h.symm.trans h')).1) (.inl trivial) w o w'

theorem C63_text_hangs {env : Env σ Char ρ Γ} {p : P σ Char ρ Γ α} {s : List Char} (w : World σ) :
    Hangs env p s (plain scannerlessGetLoc) w ↔ ¬ ∃ o w', Eval env s (textCol s) p 0 0 w o w' :=
  eval_hangs (scannerlessDisc s) (scannerlessDisc_ctx s) (fun _ _ _ h h' => h.trans h'.symm)
    (.inl trivial) w

theorem ComesTo.mono [BEq τ] {env : Env σ τ ρ Γ} {p : P σ τ ρ Γ α} {s : List τ}
    {gl : Loc → List τ → Nat → Loc} {rel rel' : Nat → Loc → Prop} {o : Outcome α} {w w' : World σ}
    (h : ComesTo env p s gl rel w o w') (hr : ∀ q loc, rel q loc → rel' q loc) :
    ComesTo env p s gl rel' w o w' := by
  cases o with
  | accepts v j x => exact h
  | fails x =>
    cases x with
    | rejects q x b => obtain ⟨e, h1, h2, h3⟩ := h; exact ⟨e, h1, hr _ _ h2, h3⟩
    | raises e => exact h

/-- C63 for `lexer.parse`. Parsers with layout combinators are covered where comparing a token index with
a character offset does no harm (`IndexSafe`). -/
theorem C63_tokens {env : Env σ Token ρ Γ} {p : P σ Token ρ Γ α} {s : List Token}
    (hl : IndexSafe s ∨ NoLayout env p) (w : World σ) :
    (∀ o w', Eval env s (fun q c => c = (locFromStream s q).col) p 0 0 w o w' →
      ComesTo env p s lexerGetLoc (TokenLoc s) w o w') ∧
    (Hangs env p s (plain lexerGetLoc) w ∨
      ∃ o w', Eval env s (fun q c => c = (locFromStream s q).col) p 0 0 w o w' ∧
        ComesTo env p s lexerGetLoc (TokenLoc s) w o w') := by
  refine ⟨fun o w' h => ?_, ?_⟩
  · exact (eval_comesTo (lexerDisc s) (lexerDisc_ctx s) (fun _ _ _ h h' => h.trans h'.symm) hl h).mono
      fun _ _ => lexerDisc_rel s
  · exact (comesTo_cases (lexerDisc s) (lexerDisc_ctx s) hl w).imp_right fun ⟨o, w', h1, h2⟩ =>
      ⟨o, w', h1, h2.mono fun _ _ => lexerDisc_rel s⟩

/-! ### Consequences, as the user sees them -/

section
variable [BEq τ] {env : Env σ τ ρ Γ} {s : List τ} {gl : Loc → List τ → Nat → Loc}

/-- C63: `p.fmap(f)` gives a value iff `p` gives a value and then `f`, called once, on that value, in the
state the parse left, returns. -/
theorem C63_fmap (p : P σ τ ρ Γ α) (c : Callback σ α β) (fmt : Loc → String) (w w' : World σ) (b : β) :
    (∃ r, Returns env (.fmap p c) s (plain gl) w r w' ∧ r.unwrap fmt false = .ok b) ↔
      ∃ r a w1, Returns env p s (plain gl) w r w1 ∧ r.unwrap fmt false = .ok a ∧
        Calls c a w1 (.ok b) w' := by
  constructor
  · rintro ⟨r, ⟨n, h⟩, hv⟩
    rw [parse_plain_eq] at h
    change (((denote env n p).fast s 0 (initCtx gl) w).bind _).bind _ = _ at h
    cases hx : (denote env n p).fast s 0 (initCtx gl) w with
    | diverge => rw [hx] at h; cases h
    | raise e w1 => rw [hx] at h; cases h
    | ret y w1 =>
      rw [hx] at h
      cases y with
      | error e =>
        change Run.ret (Result.error e) w1 = _ at h
        cases h; simp [Result.unwrap] at hv
      | ok o =>
        refine ⟨.ok o, o.value, w1, ⟨n, by rw [parse_plain_eq, hx]; rfl⟩, rfl, ?_⟩
        change ((c.call o.value w1).bind _).bind _ = _ at h
        rcases calls_cases c o.value w1 with ⟨b', w2, hc⟩ | ⟨e, w2, hc⟩
        · rw [hc.ok] at h
          cases h
          simp only [Simple.toResult, Result.unwrap, Except.ok.injEq] at hv
          exact hv ▸ hc
        · rw [hc.error] at h; cases h
  · rintro ⟨r, a, w1, ⟨n, h⟩, hv, hc⟩
    rw [parse_plain_eq] at h
    cases hx : (denote env n p).fast s 0 (initCtx gl) w with
    | diverge => rw [hx] at h; cases h
    | raise e w1 => rw [hx] at h; cases h
    | ret y w2 =>
      rw [hx] at h
      cases y with
      | error e => cases h; simp [Simple.toResult, Result.unwrap] at hv
      | ok o =>
        cases h
        simp only [Simple.toResult, Result.unwrap, Except.ok.injEq] at hv
        subst hv
        refine ⟨.ok ⟨b, o.pos, o.ctx, o.expected, o.consumed⟩, ⟨n, ?_⟩, rfl⟩
        · rw [parse_plain_eq]
          show (((denote env n p).fast s 0 (initCtx gl) w).bind _).bind _ = _
          rw [hx]
          show ((c.call o.value _).bind _).bind _ = _
          rw [hc.ok]
          rfl

end

/-! ### Cases -/

namespace Sample

/-- `attempt` does not take effects back: `attempt(declare x, then ';') | declare x` on `x` declares `x`
twice. -/
def twice : P (List Char) Char Empty (fun _ => Unit) Unit :=
  .alt (.attempt (.seqWith (.fmap (.satisfy isLetter) declare) (.sym ';' "';'") fun a _ => a))
    (.fmap (.satisfy isLetter) declare)

example : Eval noEnv ['x'] (fun _ c => c = 0) twice 0 0 start (.accepts () 1 [])
    ⟨['x', 'x'], [⟨"letter", []⟩, ⟨"declare", []⟩, ⟨"letter", ['x']⟩, ⟨"declare", ['x']⟩]⟩ :=
  (C63_default _ _ _).1 ⟨_, ⟨10, rfl⟩, rfl, rfl, rfl⟩

/-- The same by the rules. -/
example : Eval noEnv ['x'] (fun _ c => c = 0) twice 0 0 start (.accepts () 1 [])
    ⟨['x', 'x'], [⟨"letter", []⟩, ⟨"declare", []⟩, ⟨"letter", ['x']⟩, ⟨"declare", ['x']⟩]⟩ := by
  refine .altSecond (o := .accepts () 1 []) (x := ["';'"]) (k := 1)
    (w1 := ⟨['x'], [⟨"letter", []⟩, ⟨"declare", []⟩]⟩) ?_ ?_
  · exact .attempt (.seq (merge := fun a _ => a) (o := .fails (.rejects 1 ["';'"] false))
      (.fmap (.satisfy rfl (.mk rfl)) (.mk rfl)) (.symNot (by simp)))
  · exact .fmap (w1 := ⟨['x'], [⟨"letter", []⟩, ⟨"declare", []⟩, ⟨"letter", ['x']⟩]⟩)
      (.satisfy rfl (.mk rfl)) (.mk rfl)

example : ∃ r a w1 w', Returns noEnv (.satisfy isLetter) ['x'] (plain defaultGetLoc) start r w1 ∧
    r.unwrap defaultFmtLoc false = .ok a ∧ Calls declare a w1 (.ok ()) w' ∧ w'.state = ['x'] :=
  ⟨_, _, _, _, ⟨3, rfl⟩, rfl, .mk rfl, rfl⟩

example : NoLayout noEnv twice := ⟨⟨⟨trivial, trivial⟩, trivial⟩, fun i => i.elim⟩

end Sample

end Reparsec.Eff
