import Verif.Lemmas.EffectsRecoveryAll
import Verif.Props.EffectsEval
import Verif.Props.Recovery

/-!
# C65: with recovery, callbacks are called exactly as the recovering evaluation relation says
-/

namespace Reparsec.Eff

variable {σ τ ρ : Type} {Γ : ρ → Type} {α β : Type}

section
variable [BEq τ] {env : Env σ τ ρ Γ} {p : P σ τ ρ Γ α} {s : List τ} {k : Int} {w w' : World σ}

/-- The call `p.parse(s, recover=True, max_insertions=k, get_loc=..)` in the world `w` comes to the finding
and leaves the world `w'`: it returns a success with the value, the end and the expected list; or an error
with a location of the position, the expected list and `consumed`; or the list of repairs, with the same
content in the same order; or it raises. -/
def FindsTo (env : Env σ τ ρ Γ) (p : P σ τ ρ Γ α) (s : List τ) (k : Int)
    (gl : Loc → List τ → Nat → Loc) (rel : Nat → Loc → Prop) (w : World σ) :
    Finding α → World σ → Prop
  | .accepts v j x, w' => ∃ r, Returns env p s (recovering k gl) w (.ok r) w' ∧ r.value = v ∧
      r.pos = j ∧ r.expected = x
  | .rejects q x b, w' => ∃ e, Returns env p s (recovering k gl) w (.error e) w' ∧ rel q e.loc ∧
      e.expected = x ∧ e.consumed = b
  | .repairs cs q x b, w' => ∃ r, Returns env p s (recovering k gl) w (.recovered r) w' ∧
      rel q r.loc ∧ r.expected = x ∧ r.consumed = b ∧ Each (CandIs rel) cs r.repairs
  | .raises e, w' => Raises env p s (recovering k gl) w e w'

theorem Found.findsTo {D : LocDisc s} {o : Finding α} {n : Nat}
    (h : Found D 0 (initCtx D.g) (some k) w' o
      ((denote env n p).fn s 0 (initCtx D.g) k (some k) w)) :
    FindsTo env p s k D.g D.rel w o w' := by
  have hp := parse_recovering_eq env p s n k D.g w
  cases o with
  | accepts v j x =>
    obtain ⟨r, h1, rfl, rfl, rfl, -⟩ := h.inv_accepts
    exact ⟨r, ⟨n, by rw [hp, h1]⟩, rfl, rfl, rfl⟩
  | rejects q x b =>
    obtain ⟨e, h1, h2, rfl, rfl⟩ := h.inv_rejects
    exact ⟨e, ⟨n, by rw [hp, h1]⟩, h2, rfl, rfl⟩
  | repairs cs q x b =>
    obtain ⟨r, h1, h2, rfl, rfl, h3, -⟩ := h.inv_repairs
    exact ⟨r, ⟨n, by rw [hp, h1]⟩, h2, rfl, rfl, h3.mono fun _ _ _ _ h => h.is⟩
  | raises e => exact ⟨n, by rw [hp, h.inv_raises]⟩

theorem rec_findsTo (D : LocDisc s) (hc : CtxOK D (initCtx D.g) 0)
    (hcol : ∀ i c c', D.col i c → D.col i c' → c = c')
    (hl : D.layout ∨ NoLayout env p) {o : Finding α}
    (h : Rec env s D.col k p 0 0 (some k) w o w') : FindsTo env p s k D.g D.rel w o w' := by
  obtain ⟨n, h⟩ := rec_complete D hcol (hl.imp_right fun h => h.2) h (Nat.zero_le _)
    (hl.imp_right fun h => h.1)
  exact (h n (Nat.le_refl _) _ hc rfl).findsTo

theorem findsTo_cases (D : LocDisc s) (hc : CtxOK D (initCtx D.g) 0)
    (hl : D.layout ∨ NoLayout env p) (w : World σ) :
    Hangs env p s (recovering k D.g) w ∨
      ∃ o w', Rec env s D.col k p 0 0 (some k) w o w' ∧ FindsTo env p s k D.g D.rel w o w' := by
  by_cases h : ∃ n, (denote env n p).fn s 0 (initCtx D.g) k (some k) w ≠ .diverge
  · obtain ⟨n, h⟩ := h
    obtain ⟨o, w', h1, h2⟩ := rec_denote env D k p hl n 0 _ _ w (Nat.zero_le _) hc h
    exact .inr ⟨o, w', h1, h2.findsTo⟩
  · refine .inl fun n => ?_
    have : (denote env n p).fn s 0 (initCtx D.g) k (some k) w = .diverge :=
      Classical.not_not.1 fun h' => h ⟨n, h'⟩
    rw [parse_recovering_eq, this]

theorem FindsTo.not_hangs {gl : Loc → List τ → Nat → Loc} {rel : Nat → Loc → Prop} {o : Finding α}
    (h : FindsTo env p s k gl rel w o w') : ¬ Hangs env p s (recovering k gl) w := by
  have key : ∀ {x : Run σ (Result τ α)} {n : Nat}, x ≠ .diverge →
      parse env n p s (recovering k gl).recover (recovering k gl).maxInsertions
        (recovering k gl).getLoc w = x →
      ¬ Hangs env p s (recovering k gl) w := fun hx h h' => hx (h ▸ h' _)
  cases o with
  | accepts v j x => obtain ⟨r, ⟨n, h⟩, -⟩ := h; exact key (by simp) h
  | rejects q x b => obtain ⟨r, ⟨n, h⟩, -⟩ := h; exact key (by simp) h
  | repairs cs q x b => obtain ⟨r, ⟨n, h⟩, -⟩ := h; exact key (by simp) h
  | raises e => obtain ⟨n, h⟩ := h; exact key (by simp) h

theorem FindsTo.unique {gl : Loc → List τ → Nat → Loc} {rel : Nat → Loc → Prop} {o o' : Finding α}
    {w1 w2 : World σ} (hrel : ∀ q q' loc, rel q loc → rel q' loc → q = q')
    (h : FindsTo env p s k gl rel w o w1) (h' : FindsTo env p s k gl rel w o' w2) :
    o = o' ∧ w1 = w2 := by
  cases o with
  | accepts v j x =>
    obtain ⟨r, h, rfl, rfl, rfl⟩ := h
    cases o' with
    | accepts =>
      obtain ⟨r', h', rfl, rfl, rfl⟩ := h'
      obtain ⟨h1, h2⟩ := ret_unique h h'
      cases h1; exact ⟨rfl, h2⟩
    | rejects => obtain ⟨r', h', -⟩ := h'; cases (ret_unique h h').1
    | repairs => obtain ⟨r', h', -⟩ := h'; cases (ret_unique h h').1
    | raises e => exact (ret_not_raise h h').elim
  | rejects q x b =>
    obtain ⟨r, h, h1, rfl, rfl⟩ := h
    cases o' with
    | accepts => obtain ⟨r', h', -⟩ := h'; cases (ret_unique h h').1
    | rejects q x b =>
      obtain ⟨r', h', h2, rfl, rfl⟩ := h'
      obtain ⟨h3, h4⟩ := ret_unique h h'
      cases h3
      rw [hrel _ _ _ h1 h2]
      exact ⟨rfl, h4⟩
    | repairs => obtain ⟨r', h', -⟩ := h'; cases (ret_unique h h').1
    | raises e => exact (ret_not_raise h h').elim
  | repairs cs q x b =>
    obtain ⟨r, h, h1, rfl, rfl, he⟩ := h
    cases o' with
    | accepts => obtain ⟨r', h', -⟩ := h'; cases (ret_unique h h').1
    | rejects => obtain ⟨r', h', -⟩ := h'; cases (ret_unique h h').1
    | repairs cs' q x b =>
      obtain ⟨r', h', h2, rfl, rfl, he'⟩ := h'
      obtain ⟨h3, h4⟩ := ret_unique h h'
      cases h3
      rw [hrel _ _ _ h1 h2, he.unique he' fun _ _ _ => CandIs.unique hrel]
      exact ⟨rfl, h4⟩
    | raises e => exact (ret_not_raise h h').elim
  | raises e =>
    cases o' with
    | accepts => obtain ⟨r', h', -⟩ := h'; exact (ret_not_raise h' h).elim
    | rejects => obtain ⟨r', h', -⟩ := h'; exact (ret_not_raise h' h).elim
    | repairs => obtain ⟨r', h', -⟩ := h'; exact (ret_not_raise h' h).elim
    | raises e' =>
      obtain ⟨h1, h2⟩ := raise_unique h h'
      exact ⟨by rw [h1], h2⟩

theorem rec_iff (D : LocDisc s) (hc : CtxOK D (initCtx D.g) 0)
    (hcol : ∀ i c c', D.col i c → D.col i c' → c = c')
    (hrel : ∀ q q' loc, D.rel q loc → D.rel q' loc → q = q')
    (hl : D.layout ∨ NoLayout env p) (w : World σ) (o : Finding α) (w' : World σ) :
    FindsTo env p s k D.g D.rel w o w' ↔ Rec env s D.col k p 0 0 (some k) w o w' := by
  refine ⟨fun h => ?_, rec_findsTo D hc hcol hl⟩
  rcases findsTo_cases D hc hl w with h' | ⟨o', w2, h1, h2⟩
  · exact absurd h' h.not_hangs
  · obtain ⟨rfl, rfl⟩ := h.unique hrel h2; exact h1

theorem rec_hangs (D : LocDisc s) (hc : CtxOK D (initCtx D.g) 0)
    (hcol : ∀ i c c', D.col i c → D.col i c' → c = c')
    (hl : D.layout ∨ NoLayout env p) (w : World σ) :
    Hangs env p s (recovering k D.g) w ↔ ¬ ∃ o w', Rec env s D.col k p 0 0 (some k) w o w' := by
  refine ⟨fun h ⟨o, w', h'⟩ => (rec_findsTo D hc hcol hl h').not_hangs h, fun h => ?_⟩
  rcases findsTo_cases D hc hl w with h' | ⟨o', w', h1, h2⟩
  · exact h'
  · exact absurd ⟨o', w', h1⟩ h

/-- **C65**: with the default `get_loc`, `p.parse(s, recover=True, max_insertions=k)`, called in the world
`w` (the state of the callbacks and the calls made so far), comes to the finding `o` and leaves the world
`w'` if and only if `p` evaluates to `o` and `w'` at the start of `s`, with the budget `k`. So while errors
are repaired, callbacks are called as the rules say: on these elements and on the values of these
candidates, in this order, each in the state the previous call left. -/
theorem C65_default (k : Int) (w : World σ) (o : Finding α) (w' : World σ) :
    FindsTo env p s k defaultGetLoc (fun q loc => loc = ⟨q, 0, 0⟩) w o w' ↔
      Rec env s (fun _ c => c = 0) k p 0 0 (some k) w o w' :=
  rec_iff (defaultDisc s) defaultDisc_ctx (fun _ _ _ h h' => h.trans h'.symm)
    (fun _ _ _ h h' => (Loc.mk.inj (h.symm.trans h')).1) (.inl trivial) w o w'

/-- C65: and it does not return if and only if there is nothing it evaluates to. -/
theorem C65_default_hangs (k : Int) (w : World σ) :
    Hangs env p s (recovering k defaultGetLoc) w ↔
      ¬ ∃ o w', Rec env s (fun _ c => c = 0) k p 0 0 (some k) w o w' :=
  rec_hangs (defaultDisc s) defaultDisc_ctx (fun _ _ _ h h' => h.trans h'.symm) (.inl trivial) w

/-- C65 for any `get_loc`, for parsers without layout combinators: locations do not matter to the
callbacks. -/
theorem C65_any (gl : Loc → List τ → Nat → Loc) (k : Int) (hl : NoLayout env p) (w : World σ) :
    (∀ o w', Rec env s (fun _ c => c = 0) k p 0 0 (some k) w o w' →
      FindsTo env p s k gl (fun _ _ => True) w o w') ∧
    (Hangs env p s (recovering k gl) w ∨
      ∃ o w', Rec env s (fun _ c => c = 0) k p 0 0 (some k) w o w' ∧
        FindsTo env p s k gl (fun _ _ => True) w o w') :=
  ⟨fun _ _ h => rec_findsTo (flatDisc gl s) ⟨rfl, trivial⟩ (fun _ _ _ h h' => h.trans h'.symm)
      (.inr hl) h,
    findsTo_cases (flatDisc gl s) ⟨rfl, trivial⟩ (.inr hl) w⟩

/-- C65: the relation is a partial function: from a world, at a position, for every mark, every budget and
every assignment of columns to positions, a parser comes to at most one finding and leaves at most one
world. -/
theorem C65_functional (c : Nat → Nat) {m i : Nat} {b : Option Int} {o o' : Finding α}
    {w1 w2 : World σ} (hi : i ≤ s.length)
    (h : Rec env s (fun q k => k = c q) k p m i b w o w1)
    (h' : Rec env s (fun q k => k = c q) k p m i b w o' w2) : o = o' ∧ w1 = w2 := by
  have hcol : ∀ i k k', (colDisc c s).col i k → (colDisc c s).col i k' → k = k' :=
    fun _ _ _ h h' => h.trans h'.symm
  obtain ⟨n, h⟩ := rec_complete (colDisc c s) hcol (.inl trivial) h hi (.inl trivial)
  obtain ⟨n', h'⟩ := rec_complete (colDisc c s) hcol (.inl trivial) h' hi (.inl trivial)
  have hc : CtxOK (colDisc c s) { loc := ⟨i, 0, c i⟩, mark := m, getLocFn := (colDisc c s).g } i :=
    ⟨rfl, rfl⟩
  have hrel : ∀ q q' loc, (colDisc c s).rel q loc → (colDisc c s).rel q' loc → q = q' :=
    fun _ _ _ h h' => h.symm.trans h'
  have h1 := h (max n n') (by omega) _ hc rfl
  have h2 := h' (max n n') (by omega) _ hc rfl
  generalize (denote env (max n n') p).fn s i _ _ _ w = x at h1 h2
  cases h1 with
  | ret h3 _ => cases h2 with | ret h4 _ => exact ⟨h3.unique hrel h4, rfl⟩
  | raises => cases h2 with | raises => exact ⟨rfl, rfl⟩

end

/-- C65 for `scannerless.parse`: exact lines and columns. -/
theorem C65_text {env : Env σ Char ρ Γ} {p : P σ Char ρ Γ α} {s : List Char} (k : Int) (w : World σ)
    (o : Finding α) (w' : World σ) :
    FindsTo env p s k scannerlessGetLoc (fun q loc => loc = exactLoc s q) w o w' ↔
      Rec env s (textCol s) k p 0 0 (some k) w o w' :=
  rec_iff (scannerlessDisc s) (scannerlessDisc_ctx s) (fun _ _ _ h h' => h.trans h'.symm)
    (fun _ _ _ h h' => (Loc.mk.inj (h.symm.trans h')).1) (.inl trivial) w o w'

theorem C65_text_hangs {env : Env σ Char ρ Γ} {p : P σ Char ρ Γ α} {s : List Char} (k : Int)
    (w : World σ) :
    Hangs env p s (recovering k scannerlessGetLoc) w ↔
      ¬ ∃ o w', Rec env s (textCol s) k p 0 0 (some k) w o w' :=
  rec_hangs (scannerlessDisc s) (scannerlessDisc_ctx s) (fun _ _ _ h h' => h.trans h'.symm)
    (.inl trivial) w

theorem FindsTo.mono [BEq τ] {env : Env σ τ ρ Γ} {p : P σ τ ρ Γ α} {s : List τ} {k : Int}
    {gl : Loc → List τ → Nat → Loc} {rel rel' : Nat → Loc → Prop} {o : Finding α} {w w' : World σ}
    (h : FindsTo env p s k gl rel w o w') (hr : ∀ q loc, rel q loc → rel' q loc) :
    FindsTo env p s k gl rel' w o w' := by
  cases o with
  | accepts v j x => exact h
  | rejects q x b => obtain ⟨e, h1, h2, h3⟩ := h; exact ⟨e, h1, hr _ _ h2, h3⟩
  | repairs cs q x b =>
    obtain ⟨e, h1, h2, h3, h4, h5⟩ := h
    exact ⟨e, h1, hr _ _ h2, h3, h4, h5.mono fun _ _ _ _ h => h.mono hr⟩
  | raises e => exact h

/-- C65 for `lexer.parse`. Parsers with layout combinators are covered where comparing a token index with
a character offset does no harm (`IndexSafe`). -/
theorem C65_tokens {env : Env σ Token ρ Γ} {p : P σ Token ρ Γ α} {s : List Token} (k : Int)
    (hl : IndexSafe s ∨ NoLayout env p) (w : World σ) :
    (∀ o w', Rec env s (fun q c => c = (locFromStream s q).col) k p 0 0 (some k) w o w' →
      FindsTo env p s k lexerGetLoc (TokenLoc s) w o w') ∧
    (Hangs env p s (recovering k lexerGetLoc) w ∨
      ∃ o w', Rec env s (fun q c => c = (locFromStream s q).col) k p 0 0 (some k) w o w' ∧
        FindsTo env p s k lexerGetLoc (TokenLoc s) w o w') := by
  refine ⟨fun o w' h => ?_, ?_⟩
  · exact (rec_findsTo (lexerDisc s) (lexerDisc_ctx s) (fun _ _ _ h h' => h.trans h'.symm) hl h).mono
      fun _ _ => lexerDisc_rel s
  · exact (findsTo_cases (lexerDisc s) (lexerDisc_ctx s) hl w).imp_right fun ⟨o, w', h1, h2⟩ =>
      ⟨o, w', h1, h2.mono fun _ _ => lexerDisc_rel s⟩

/-! ### What the user gets -/

section
variable [BEq τ] {env : Env σ τ ρ Γ} {p : P σ τ ρ Γ α} {s : List τ} {k : Int} {w w' : World σ}

theorem FindsTo.gives {gl : Loc → List τ → Nat → Loc} {loc : Nat → Loc} {o : Finding α}
    (fmt : Loc → String) (b : Bool)
    (h : FindsTo env p s k gl (fun q l => l = loc q) w o w') :
    (∃ e, o = .raises e) ∨
      ∃ r, Returns env p s (recovering k gl) w r w' ∧ o.Gives loc fmt b (r.unwrap fmt b) := by
  cases o with
  | raises e => exact .inl ⟨e, rfl⟩
  | accepts v j x =>
    obtain ⟨r, h, rfl, rfl, rfl⟩ := h
    exact .inr ⟨_, h, rfl⟩
  | rejects q x c =>
    obtain ⟨e, h, h1, rfl, rfl⟩ := h
    refine .inr ⟨_, h, ?_⟩
    simp only [Finding.Gives, Result.unwrap, h1]
  | repairs cs q x c =>
    obtain ⟨r, h, h1, rfl, rfl, h2⟩ := h
    refine .inr ⟨_, h, ?_⟩
    simp only [Result.unwrap]
    cases hr : r.repairs with
    | nil =>
      rw [hr] at h2
      cases h2
      simp only [Finding.Gives, h1]
    | cons y ys =>
      rw [hr] at h2
      obtain ⟨d, h3, h4⟩ := each_chosen h2 (minRepair_choice ys y)
      cases h2 with
      | cons h5 h6 =>
        refine ⟨d, h3, ?_⟩
        cases b with
        | true => simp [h4.value]
        | false => simp [h4.errors]

theorem rec_gives (D : LocDisc s) (loc : Nat → Loc) (hloc : D.rel = fun q l => l = loc q)
    (hc : CtxOK D (initCtx D.g) 0)
    (hcol : ∀ i c c', D.col i c → D.col i c' → c = c')
    (hl : D.layout ∨ NoLayout env p) (fmt : Loc → String) (b : Bool)
    (w : World σ) (x : Except ParseError α) (w' : World σ) :
    (∃ r, Returns env p s (recovering k D.g) w r w' ∧ r.unwrap fmt b = x) ↔
      ∃ o, Rec env s D.col k p 0 0 (some k) w o w' ∧ o.Gives loc fmt b x := by
  constructor
  · rintro ⟨r, hr, rfl⟩
    rcases findsTo_cases (k := k) D hc hl w with h | ⟨o, w2, h1, h2⟩
    · obtain ⟨n, hr⟩ := hr
      rw [h n] at hr; cases hr
    · rw [hloc] at h2
      rcases h2.gives fmt b with ⟨e, rfl⟩ | ⟨r', h3, h4⟩
      · exact (ret_not_raise hr h2).elim
      · obtain ⟨rfl, rfl⟩ := ret_unique hr h3
        exact ⟨o, h1, h4⟩
  · rintro ⟨o, h, hx⟩
    have h2 := rec_findsTo D hc hcol hl h
    rw [hloc] at h2
    rcases h2.gives fmt b with ⟨e, rfl⟩ | ⟨r', h3, h4⟩
    · exact hx.elim
    · exact ⟨r', h3, h4.unique hx⟩

/-- **C65**, as the user sees it: `p.parse(s, recover=True, max_insertions=k).unwrap(recover=b)` gives `x`
— a value or a `ParseError` with these error items — and leaves the world `w'`, iff the rules say so. -/
theorem C65_unwrap (k : Int) (fmt : Loc → String) (b : Bool) (w : World σ) (x : Except ParseError α)
    (w' : World σ) :
    (∃ r, Returns env p s (recovering k defaultGetLoc) w r w' ∧ r.unwrap fmt b = x) ↔
      ∃ o, Rec env s (fun _ c => c = 0) k p 0 0 (some k) w o w' ∧
        o.Gives (fun q => ⟨q, 0, 0⟩) fmt b x :=
  rec_gives (defaultDisc s) (fun q => ⟨q, 0, 0⟩) rfl defaultDisc_ctx
    (fun _ _ _ h h' => h.trans h'.symm) (.inl trivial) fmt b w x w'

end

/-- C65 for `scannerless.parse(p, s, recover=True).unwrap(..)`: with exact line and column of each
error. -/
theorem C65_unwrap_text {env : Env σ Char ρ Γ} {p : P σ Char ρ Γ α} {s : List Char} (k : Int)
    (fmt : Loc → String) (b : Bool) (w : World σ) (x : Except ParseError α) (w' : World σ) :
    (∃ r, Returns env p s (recovering k scannerlessGetLoc) w r w' ∧ r.unwrap fmt b = x) ↔
      ∃ o, Rec env s (textCol s) k p 0 0 (some k) w o w' ∧ o.Gives (exactLoc s) fmt b x :=
  rec_gives (scannerlessDisc s) (exactLoc s) rfl (scannerlessDisc_ctx s)
    (fun _ _ _ h h' => h.trans h'.symm) (.inl trivial) fmt b w x w'

/-! ### Cases -/

namespace Sample

/-- `#`, then a letter, which is declared -/
def decl : P (List Char) Char Empty (fun _ => Unit) Unit :=
  .seqWith (.sym '#' "'#'") (.fmap (.satisfy isLetter) declare) fun _ a => a

/-- On `(#x`, two candidates: inserting the `#`, after which `(` and `#` are skipped to get to `x`, and
skipping `(`. Both declare `x`: the table has it twice, whichever is chosen. -/
example : ∃ o, Rec noEnv ['(', '#', 'x'] (fun _ c => c = 0) 5 decl 0 0 (some 5) start o
    ⟨['x', 'x'], [⟨"letter", []⟩, ⟨"letter", []⟩, ⟨"letter", []⟩, ⟨"declare", []⟩, ⟨"letter", ['x']⟩,
      ⟨"declare", ['x']⟩]⟩ ∧
    o.Gives (fun q => ⟨q, 0, 0⟩) defaultFmtLoc false
      (.error ⟨[⟨⟨0, 0, 0⟩, "0", ["'#'"], some (.skip 1)⟩]⟩) :=
  (C65_unwrap 5 defaultFmtLoc false start _ _).1 ⟨_, ⟨30, rfl⟩, rfl⟩

/-- By the rules: `satisfy` of a stateful test, skipping. -/
example : Rec noEnv ['(', 'x'] (fun _ c => c = 0) 5 (.fmap (.satisfy isLetter) declare) 0 0 (some 5) start
    (.repairs [⟨1, false, 5, [⟨0, .skip 1, [], false⟩], (), 2, [], true⟩] 0 [] false)
    ⟨['x'], [⟨"letter", []⟩, ⟨"letter", []⟩, ⟨"declare", []⟩]⟩ := by
  have h1 : Rec noEnv ['(', 'x'] (fun _ c => c = 0) 5 (.satisfy isLetter) 0 0 (some 5) start
      (.repairs [Cand.skip 5 0 1 'x' 2 []] 0 [] false)
      ⟨[], [⟨"letter", []⟩, ⟨"letter", []⟩]⟩ := by
    have := Rec.satisfySkip (env := noEnv) (s := ['(', 'x']) (col := fun _ c => c = 0) (k := 5)
      (c := isLetter) (t := 'x') (m := 0) (i := 0) (j := 1) (r := 5)
      (ws := fun n => if n = 0 then start else ⟨[], [⟨"letter", []⟩]⟩)
      (w' := ⟨[], [⟨"letter", []⟩, ⟨"letter", []⟩]⟩) (by omega)
      (fun n t h1 h2 ht => by
        obtain rfl : n = 0 := by omega
        simp at ht; subst ht
        exact .mk rfl) rfl (.mk rfl)
    exact this
  exact Rec.fmapRepairs (vs := [()])
    (ws := fun n => if n = 0 then ⟨[], [⟨"letter", []⟩, ⟨"letter", []⟩]⟩ else
      ⟨['x'], [⟨"letter", []⟩, ⟨"letter", []⟩, ⟨"declare", []⟩]⟩) h1 rfl fun n d v hd hv => by
    cases n with
    | zero => simp at hd; subst hd; exact .mk rfl
    | succ n => simp at hd

end Sample

end Reparsec.Eff
