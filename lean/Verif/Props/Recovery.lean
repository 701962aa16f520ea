import Verif.Lemmas.RecoveryAll
import Verif.Props.Eval
import Verif.Props.Unwrap

/-!
# C60: with recovery, parsing computes exactly the recovering evaluation relation
-/

namespace Reparsec

variable {τ ρ : Type} {Γ : ρ → Type} {α : Type}

/-- A repair object with exactly this content; `rel q loc`: `loc` is the location of position `q`. -/
structure CandIs (rel : Nat → Loc → Prop) (c : Cand α) (r : Repair τ α) : Prop where
  cost : c.cost = r.cost
  auto : c.auto = true ↔ r.prio = none
  left : c.left = r.ins
  fixes : Each (fun (x : Fix) (i : OpItem) => rel x.pos i.loc ∧ x.op = i.op ∧ x.wants = i.expected ∧
    x.begun = i.consumed) c.fixes r.ops
  value : c.value = r.value
  stop : c.stop = r.pos
  wants : c.wants = r.expected
  begun : c.begun = r.consumed

theorem CandShows.is {s : List τ} {D : LocDisc s} {c : Cand α} {r : Repair τ α} (h : CandShows D c r) :
    CandIs D.rel c r :=
  ⟨h.cost, by rw [h.auto]; simp, h.left, h.fixes.mono fun _ _ _ _ h => ⟨h.rel, h.op, h.wants, h.begun⟩,
    h.value, h.stop, h.wants, h.begun⟩

theorem CandIs.unique {rel : Nat → Loc → Prop} (hrel : ∀ q q' loc, rel q loc → rel q' loc → q = q')
    {c d : Cand α} {r : Repair τ α} (ha : CandIs rel c r) (hb : CandIs rel d r) : c = d := by
  obtain ⟨c1, c2, c3, c4, c5, c6, c7, c8⟩ := c
  obtain ⟨d1, d2, d3, d4, d5, d6, d7, d8⟩ := d
  cases (show c1 = d1 from ha.cost.trans hb.cost.symm)
  cases (show c2 = d2 from Bool.eq_iff_iff.2 (ha.auto.trans hb.auto.symm))
  cases (show c3 = d3 from ha.left.trans hb.left.symm)
  cases (show c5 = d5 from ha.value.trans hb.value.symm)
  cases (show c6 = d6 from ha.stop.trans hb.stop.symm)
  cases (show c7 = d7 from ha.wants.trans hb.wants.symm)
  cases (show c8 = d8 from ha.begun.trans hb.begun.symm)
  have : c4 = d4 := by
    refine ha.fixes.unique hb.fixes ?_
    rintro ⟨a1, a2, a3, a4⟩ ⟨b1, b2, b3, b4⟩ i ⟨x1, x2, x3, x4⟩ ⟨y1, y2, y3, y4⟩
    cases (show a1 = b1 from hrel _ _ _ x1 y1)
    cases (show a2 = b2 from x2.trans y2.symm)
    cases (show a3 = b3 from x3.trans y3.symm)
    cases (show a4 = b4 from x4.trans y4.symm)
    rfl
  rw [this]

section
variable [BEq τ] {env : Env τ ρ Γ} {p : P τ ρ Γ α} {s : List τ} {k : Int}

/-- The call `p.parse(s, recover=True, max_insertions=k, get_loc=..)` comes to the finding: it returns a success
with the value, the end and the expected list; or an error with a location of the position, the expected list
and `consumed`; or the list of repairs, with the same content in the same order; or it raises. -/
def FindsTo (env : Env τ ρ Γ) (p : P τ ρ Γ α) (s : List τ) (k : Int) (gl : Loc → List τ → Nat → Loc)
    (rel : Nat → Loc → Prop) : Finding α → Prop
  | .accepts v j w => ∃ r, Returns env p s (recovering k gl) (.ok r) ∧ r.value = v ∧ r.pos = j ∧
      r.expected = w
  | .rejects q w b => ∃ e, Returns env p s (recovering k gl) (.error e) ∧ rel q e.loc ∧
      e.expected = w ∧ e.consumed = b
  | .repairs cs q w b => ∃ r, Returns env p s (recovering k gl) (.recovered r) ∧ rel q r.loc ∧
      r.expected = w ∧ r.consumed = b ∧ Each (CandIs rel) cs r.repairs
  | .raises e => Raises env p s (recovering k gl) e

omit [BEq τ] in
theorem parse_recovering [BEq τ] (gl : Loc → List τ → Nat → Loc) (n : Nat) :
    parse env n p s true k gl = (denote env n p).fn s 0 (initCtx gl) k (some k) := rfl

theorem Finds.findsTo {D : LocDisc s} {o : Finding α} {n : Nat}
    (h : Finds D o ((denote env n p).fn s 0 (initCtx D.g) k (some k))) :
    FindsTo env p s k D.g D.rel o := by
  cases o with
  | accepts v j w =>
    obtain ⟨r, h1, rfl, rfl, rfl, -⟩ := h.inv_accepts
    exact ⟨r, ⟨n, h1⟩, rfl, rfl, rfl⟩
  | rejects q w b =>
    obtain ⟨e, h1, h2, rfl, rfl⟩ := h.inv_rejects
    exact ⟨e, ⟨n, h1⟩, h2, rfl, rfl⟩
  | repairs cs q w b =>
    obtain ⟨r, h1, h2, rfl, rfl, h3⟩ := h.inv_repairs
    exact ⟨r, ⟨n, h1⟩, h2, rfl, rfl, h3.mono fun _ _ _ _ h => h.is⟩
  | raises e => exact ⟨n, h.inv_raises⟩

theorem rec_findsTo (D : LocDisc s) (hc : CtxOK D (initCtx D.g) 0)
    (hcol : ∀ i c c', D.col i c → D.col i c' → c = c')
    (hl : D.layout ∨ Everywhere env P.notLayout p) {o : Finding α}
    (h : Rec env s D.col k p 0 0 (some k) o) : FindsTo env p s k D.g D.rel o := by
  obtain ⟨n, h⟩ := rec_complete D hcol (hl.imp_right fun h => h.2) h (Nat.zero_le _)
    (hl.imp_right fun h => h.1)
  exact (h n (Nat.le_refl _) _ hc rfl).findsTo

theorem findsTo_cases (D : LocDisc s) (hc : CtxOK D (initCtx D.g) 0)
    (hl : D.layout ∨ Everywhere env P.notLayout p) :
    Hangs env p s (recovering k D.g) ∨
      ∃ o, Rec env s D.col k p 0 0 (some k) o ∧ FindsTo env p s k D.g D.rel o := by
  by_cases h : ∃ n, (denote env n p).fn s 0 (initCtx D.g) k (some k) ≠ .diverge
  · obtain ⟨n, h⟩ := h
    obtain ⟨o, h1, h2⟩ := rec_denote env D k p hl n 0 _ _ (Nat.zero_le _) hc h
    exact .inr ⟨o, h1, h2.findsTo⟩
  · exact .inl fun n => Classical.not_not.1 fun h' => h ⟨n, h'⟩

theorem FindsTo.not_hangs {gl : Loc → List τ → Nat → Loc} {rel : Nat → Loc → Prop} {o : Finding α}
    (h : FindsTo env p s k gl rel o) : ¬ Hangs env p s (recovering k gl) := by
  cases o with
  | accepts v j w => obtain ⟨r, h, -⟩ := h; exact returns_not_hangs h
  | rejects q w b => obtain ⟨r, h, -⟩ := h; exact returns_not_hangs h
  | repairs cs q w b => obtain ⟨r, h, -⟩ := h; exact returns_not_hangs h
  | raises e => obtain ⟨n, h⟩ := h; intro h'; rw [h' n] at h; cases h

theorem FindsTo.unique {gl : Loc → List τ → Nat → Loc} {rel : Nat → Loc → Prop} {o o' : Finding α}
    (hrel : ∀ q q' loc, rel q loc → rel q' loc → q = q')
    (h : FindsTo env p s k gl rel o) (h' : FindsTo env p s k gl rel o') : o = o' := by
  cases o with
  | accepts v j w =>
    obtain ⟨r, h, rfl, rfl, rfl⟩ := h
    cases o' with
    | accepts v j w =>
      obtain ⟨r', h', rfl, rfl, rfl⟩ := h'
      cases returns_unique h h'; rfl
    | rejects => obtain ⟨r', h', -⟩ := h'; cases returns_unique h h'
    | repairs => obtain ⟨r', h', -⟩ := h'; cases returns_unique h h'
    | raises e => exact (returns_not_raises h h').elim
  | rejects q w b =>
    obtain ⟨r, h, h1, rfl, rfl⟩ := h
    cases o' with
    | accepts => obtain ⟨r', h', -⟩ := h'; cases returns_unique h h'
    | rejects q w b =>
      obtain ⟨r', h', h2, rfl, rfl⟩ := h'
      cases returns_unique h h'
      rw [hrel _ _ _ h1 h2]
    | repairs => obtain ⟨r', h', -⟩ := h'; cases returns_unique h h'
    | raises e => exact (returns_not_raises h h').elim
  | repairs cs q w b =>
    obtain ⟨r, h, h1, rfl, rfl, he⟩ := h
    cases o' with
    | accepts => obtain ⟨r', h', -⟩ := h'; cases returns_unique h h'
    | rejects => obtain ⟨r', h', -⟩ := h'; cases returns_unique h h'
    | repairs cs' q w b =>
      obtain ⟨r', h', h2, rfl, rfl, he'⟩ := h'
      cases returns_unique h h'
      rw [hrel _ _ _ h1 h2, he.unique he' fun _ _ _ => CandIs.unique hrel]
    | raises e => exact (returns_not_raises h h').elim
  | raises e =>
    cases o' with
    | accepts => obtain ⟨r', h', -⟩ := h'; exact (returns_not_raises h' h).elim
    | rejects => obtain ⟨r', h', -⟩ := h'; exact (returns_not_raises h' h).elim
    | repairs => obtain ⟨r', h', -⟩ := h'; exact (returns_not_raises h' h).elim
    | raises e' => rw [raises_unique h h']

theorem rec_iff (D : LocDisc s) (hc : CtxOK D (initCtx D.g) 0)
    (hcol : ∀ i c c', D.col i c → D.col i c' → c = c')
    (hrel : ∀ q q' loc, D.rel q loc → D.rel q' loc → q = q')
    (hl : D.layout ∨ Everywhere env P.notLayout p) (o : Finding α) :
    FindsTo env p s k D.g D.rel o ↔ Rec env s D.col k p 0 0 (some k) o := by
  refine ⟨fun h => ?_, rec_findsTo D hc hcol hl⟩
  rcases findsTo_cases D hc hl with h' | ⟨o', h1, h2⟩
  · exact absurd h' h.not_hangs
  · rwa [h.unique hrel h2]

theorem rec_hangs (D : LocDisc s) (hc : CtxOK D (initCtx D.g) 0)
    (hcol : ∀ i c c', D.col i c → D.col i c' → c = c')
    (hl : D.layout ∨ Everywhere env P.notLayout p) :
    Hangs env p s (recovering k D.g) ↔ ¬ ∃ o, Rec env s D.col k p 0 0 (some k) o := by
  refine ⟨fun h ⟨o, h'⟩ => (rec_findsTo D hc hcol hl h').not_hangs h, fun h => ?_⟩
  rcases findsTo_cases D hc hl with h' | ⟨o', h1, h2⟩
  · exact h'
  · exact absurd ⟨o', h1⟩ h

/-- **C60**: with the default `get_loc` (location of position `q`: `Loc(q, 0, 0)`; all columns are 0),
`p.parse(s, recover=True, max_insertions=k)` comes to a finding if and only if `p` evaluates to it at the
start of `s`, with the budget `k`. -/
theorem C60_default (k : Int) (o : Finding α) :
    FindsTo env p s k defaultGetLoc (fun q loc => loc = ⟨q, 0, 0⟩) o ↔
      Rec env s (fun _ c => c = 0) k p 0 0 (some k) o :=
  rec_iff (defaultDisc s) defaultDisc_ctx (fun _ _ _ h h' => h.trans h'.symm)
    (fun _ _ _ h h' => (Loc.mk.inj (h.symm.trans h')).1) (.inl trivial) o

/-- C60: and it does not return if and only if there is nothing it evaluates to. -/
theorem C60_default_hangs (k : Int) :
    Hangs env p s (recovering k defaultGetLoc) ↔
      ¬ ∃ o, Rec env s (fun _ c => c = 0) k p 0 0 (some k) o :=
  rec_hangs (defaultDisc s) defaultDisc_ctx (fun _ _ _ h h' => h.trans h'.symm) (.inl trivial)

/-- C60 for any `get_loc`, for parsers without layout combinators: same values, ends, repairs, expected lists,
exceptions and non-termination. -/
theorem C60_any (gl : Loc → List τ → Nat → Loc) (k : Int) (hl : Everywhere env P.notLayout p) :
    (∀ o, Rec env s (fun _ c => c = 0) k p 0 0 (some k) o →
      FindsTo env p s k gl (fun _ _ => True) o) ∧
      (Hangs env p s (recovering k gl) ∨ ∃ o, Rec env s (fun _ c => c = 0) k p 0 0 (some k) o ∧
        FindsTo env p s k gl (fun _ _ => True) o) :=
  ⟨fun _ h => rec_findsTo (flatDisc gl s) ⟨rfl, trivial⟩ (fun _ _ _ h h' => h.trans h'.symm) (.inr hl) h,
    findsTo_cases (flatDisc gl s) ⟨rfl, trivial⟩ (.inr hl)⟩

/-- C60: the relation is a partial function: a parser comes to at most one finding, at every position, for
every mark, every budget and every assignment of columns to positions. -/
theorem C60_functional (c : Nat → Nat) {m i : Nat} {b : Option Int} {o o' : Finding α}
    (hi : i ≤ s.length) (h : Rec env s (fun q k => k = c q) k p m i b o)
    (h' : Rec env s (fun q k => k = c q) k p m i b o') : o = o' := by
  have hcol : ∀ i k k', (colDisc c s).col i k → (colDisc c s).col i k' → k = k' :=
    fun _ _ _ h h' => h.trans h'.symm
  obtain ⟨n, h⟩ := rec_complete (colDisc c s) hcol (.inl trivial) h hi (.inl trivial)
  obtain ⟨n', h'⟩ := rec_complete (colDisc c s) hcol (.inl trivial) h' hi (.inl trivial)
  have hc : CtxOK (colDisc c s) { loc := ⟨i, 0, c i⟩, mark := m, getLocFn := (colDisc c s).g } i :=
    ⟨rfl, rfl⟩
  have hrel : ∀ q q' loc, (colDisc c s).rel q loc → (colDisc c s).rel q' loc → q = q' :=
    fun _ _ _ h h' => h.symm.trans h'
  exact (h (max n n') (by omega) _ hc rfl).unique hrel (h' (max n n') (by omega) _ hc rfl)

end

/-- C60 for `scannerless.parse`: exact lines and columns. -/
theorem C60_text {env : Env Char ρ Γ} {p : P Char ρ Γ α} {s : List Char} (k : Int) (o : Finding α) :
    FindsTo env p s k scannerlessGetLoc (fun q loc => loc = exactLoc s q) o ↔
      Rec env s (textCol s) k p 0 0 (some k) o :=
  rec_iff (scannerlessDisc s) (scannerlessDisc_ctx s) (fun _ _ _ h h' => h.trans h'.symm)
    (fun _ _ _ h h' => (Loc.mk.inj (h.symm.trans h')).1) (.inl trivial) o

theorem C60_text_hangs {env : Env Char ρ Γ} {p : P Char ρ Γ α} {s : List Char} (k : Int) :
    Hangs env p s (recovering k scannerlessGetLoc) ↔
      ¬ ∃ o, Rec env s (textCol s) k p 0 0 (some k) o :=
  rec_hangs (scannerlessDisc s) (scannerlessDisc_ctx s) (fun _ _ _ h h' => h.trans h'.symm)
    (.inl trivial)

theorem CandIs.mono {rel rel' : Nat → Loc → Prop} {c : Cand α} {r : Repair τ α} (h : CandIs rel c r)
    (hr : ∀ q loc, rel q loc → rel' q loc) : CandIs rel' c r :=
  ⟨h.cost, h.auto, h.left, h.fixes.mono fun _ _ _ _ h => ⟨hr _ _ h.1, h.2⟩, h.value, h.stop, h.wants,
    h.begun⟩

theorem FindsTo.mono {τ : Type} [BEq τ] {env : Env τ ρ Γ} {p : P τ ρ Γ α} {s : List τ} {k : Int}
    {gl : Loc → List τ → Nat → Loc} {rel rel' : Nat → Loc → Prop} {o : Finding α}
    (h : FindsTo env p s k gl rel o) (hr : ∀ q loc, rel q loc → rel' q loc) :
    FindsTo env p s k gl rel' o := by
  cases o with
  | accepts v j w => exact h
  | rejects q w b => obtain ⟨e, h1, h2, h3⟩ := h; exact ⟨e, h1, hr _ _ h2, h3⟩
  | repairs cs q w b =>
    obtain ⟨e, h1, h2, h3, h4, h5⟩ := h
    exact ⟨e, h1, hr _ _ h2, h3, h4, h5.mono fun _ _ _ _ h => h.mono hr⟩
  | raises e => exact h

/-- C60 for `lexer.parse`: exactly the relation, with the locations of the tokens. Parsers with layout
combinators are covered where comparing a token index with a character offset does no harm (`IndexSafe`). -/
theorem C60_tokens {env : Env Token ρ Γ} {p : P Token ρ Γ α} {s : List Token} (k : Int)
    (hl : IndexSafe s ∨ Everywhere env P.notLayout p) :
    (∀ o, Rec env s (fun q c => c = (locFromStream s q).col) k p 0 0 (some k) o →
      FindsTo env p s k lexerGetLoc (TokenLoc s) o) ∧
    (Hangs env p s (recovering k lexerGetLoc) ∨
      ∃ o, Rec env s (fun q c => c = (locFromStream s q).col) k p 0 0 (some k) o ∧
        FindsTo env p s k lexerGetLoc (TokenLoc s) o) := by
  refine ⟨fun o h => ?_, ?_⟩
  · exact (rec_findsTo (lexerDisc s) (lexerDisc_ctx s) (fun _ _ _ h h' => h.trans h'.symm) hl h).mono
      fun _ _ => lexerDisc_rel s
  · exact (findsTo_cases (lexerDisc s) (lexerDisc_ctx s) hl).imp_right fun ⟨o, h1, h2⟩ =>
      ⟨o, h1, h2.mono fun _ _ => lexerDisc_rel s⟩

/-! ### What the user gets -/

theorem CandIs.better {rel : Nat → Loc → Prop} {c d : Cand α} {x y : Repair τ α} (hc : CandIs rel c x)
    (hd : CandIs rel d y) : c.Better d ↔ x.Better y := by
  unfold Cand.Better Repair.Better
  rw [hc.cost, hd.cost, hc.stop, hd.stop, hd.auto]
  have : c.auto = false ↔ x.prio ≠ none := by
    rw [← Bool.not_eq_true, hc.auto]
  rw [this]

theorem each_chosen {rel : Nat → Loc → Prop} {cs : List (Cand α)} {rs : List (Repair τ α)}
    (h : Each (CandIs rel) cs rs) {x : Repair τ α} (hx : IsChoice rs x) :
    ∃ c, Chosen cs c ∧ CandIs rel c x := by
  obtain ⟨l1, l2, rfl, h1, h2⟩ := hx
  have split : ∀ {cs : List (Cand α)} (l1 : List (Repair τ α)), Each (CandIs rel) cs (l1 ++ x :: l2) →
      ∃ c1 c c2, cs = c1 ++ c :: c2 ∧ Each (CandIs rel) c1 l1 ∧ CandIs rel c x ∧
        Each (CandIs rel) c2 l2 := by
    intro cs l1
    induction l1 generalizing cs with
    | nil =>
      intro h
      cases h with
      | cons h h' => exact ⟨[], _, _, rfl, .nil, h, h'⟩
    | cons y l1 ih =>
      intro h
      cases h with
      | cons h h' =>
        obtain ⟨c1, c, c2, rfl, h3, h4, h5⟩ := ih h'
        exact ⟨_, c, c2, rfl, .cons h h3, h4, h5⟩
  obtain ⟨c1, c, c2, rfl, h3, h4, h5⟩ := split l1 h
  have right : ∀ {cs : List (Cand α)} {l : List (Repair τ α)}, Each (CandIs rel) cs l → ∀ d ∈ cs,
      ∃ y ∈ l, CandIs rel d y := by
    intro cs l h
    induction h with
    | nil => simp
    | cons h _ ih =>
      intro d hd
      rcases List.mem_cons.1 hd with rfl | hd
      · exact ⟨_, List.mem_cons_self, h⟩
      · obtain ⟨y, hy, h⟩ := ih d hd
        exact ⟨y, List.mem_cons_of_mem _ hy, h⟩
  refine ⟨c, ⟨c1, c2, rfl, fun d hd => ?_, fun d hd => ?_⟩, h4⟩
  · obtain ⟨y, hy, h6⟩ := right h3 d hd
    exact (h4.better h6).2 (h1 y hy)
  · obtain ⟨y, hy, h6⟩ := right h5 d hd
    exact fun h => h2 y hy ((h6.better h4).1 h)

theorem Cand.Better.irrefl (a : Cand α) : ¬ a.Better a := by
  rintro (h | ⟨_, h | ⟨_, h1, h2⟩⟩)
  · omega
  · omega
  · rw [h1] at h2; cases h2

theorem Cand.Better.asymm {a b : Cand α} (h : a.Better b) : ¬ b.Better a := by
  rcases h with h | ⟨h0, h | ⟨h1, h2, h3⟩⟩ <;> rintro (h' | ⟨h0', h' | ⟨h1', h2', h3'⟩⟩)
  any_goals omega
  rw [h2] at h3'; cases h3'

theorem Chosen.unique {cs : List (Cand α)} {c d : Cand α} (hc : Chosen cs c) (hd : Chosen cs d) :
    c = d := by
  obtain ⟨a1, a2, rfl, h1, h2⟩ := hc
  obtain ⟨b1, b2, h, h3, h4⟩ := hd
  rcases List.append_eq_append_iff.1 h with ⟨l, rfl, h5⟩ | ⟨l, rfl, h5⟩
  · cases l with
    | nil => simp only [List.nil_append, List.cons.injEq] at h5; exact h5.1
    | cons e l =>
      simp only [List.cons_append, List.cons.injEq] at h5
      obtain ⟨rfl, rfl⟩ := h5
      exact absurd (h3 c (by simp)) (h2 d (by simp))
  · cases l with
    | nil => simp only [List.nil_append, List.cons.injEq] at h5; exact h5.1.symm
    | cons e l =>
      simp only [List.cons_append, List.cons.injEq] at h5
      obtain ⟨rfl, rfl⟩ := h5
      exact absurd (h1 d (by simp)) (h4 c (by simp))

theorem Finding.Gives.unique {loc : Nat → Loc} {fmt : Loc → String} {b : Bool} {o : Finding α}
    {x y : Except ParseError α} (h : o.Gives loc fmt b x) (h' : o.Gives loc fmt b y) : x = y := by
  cases o with
  | accepts => exact h.trans h'.symm
  | rejects => exact h.trans h'.symm
  | raises => exact h.elim
  | repairs cs q w c =>
    cases cs with
    | nil => exact h.trans h'.symm
    | cons d cs =>
      obtain ⟨d1, h1, rfl⟩ := h
      obtain ⟨d2, h2, rfl⟩ := h'
      rw [h1.unique h2]

theorem CandIs.errors {loc : Nat → Loc} {fmt : Loc → String} {c : Cand α} {r : Repair τ α}
    (h : CandIs (fun q l => l = loc q) c r) : errorItems fmt r = c.errors loc fmt := by
  have := h.fixes
  unfold errorItems Cand.errors
  generalize c.fixes = xs at this
  generalize r.ops = ys at this
  induction this with
  | nil => rfl
  | cons h _ ih =>
    obtain ⟨h1, h2, h3, -⟩ := h
    simp only [List.map_cons, ih, h1, h2, h3]

section
variable [BEq τ] {env : Env τ ρ Γ} {p : P τ ρ Γ α} {s : List τ} {k : Int}

theorem FindsTo.gives {gl : Loc → List τ → Nat → Loc} {loc : Nat → Loc} {o : Finding α}
    (fmt : Loc → String) (b : Bool) (h : FindsTo env p s k gl (fun q l => l = loc q) o) :
    (∃ e, o = .raises e) ∨
      ∃ r, Returns env p s (recovering k gl) r ∧ o.Gives loc fmt b (r.unwrap fmt b) := by
  cases o with
  | raises e => exact .inl ⟨e, rfl⟩
  | accepts v j w =>
    obtain ⟨r, h, rfl, rfl, rfl⟩ := h
    exact .inr ⟨_, h, rfl⟩
  | rejects q w c =>
    obtain ⟨e, h, h1, rfl, rfl⟩ := h
    refine .inr ⟨_, h, ?_⟩
    simp only [Finding.Gives, Result.unwrap, h1]
  | repairs cs q w c =>
    obtain ⟨r, h, h1, rfl, rfl, h2⟩ := h
    refine .inr ⟨_, h, ?_⟩
    simp only [Result.unwrap]
    cases hr : r.repairs with
    | nil =>
      rw [hr] at h2
      cases h2
      simp only [Finding.Gives, h1]
    | cons y ys =>
      rw [hr] at h2
      obtain ⟨d, h3, h4⟩ := each_chosen h2 (minRepair_choice ys y)
      cases h2 with
      | cons h5 h6 =>
        refine ⟨d, h3, ?_⟩
        cases b with
        | true => simp [h4.value]
        | false => simp [h4.errors]

theorem rec_gives (D : LocDisc s) (loc : Nat → Loc) (hloc : D.rel = fun q l => l = loc q)
    (hc : CtxOK D (initCtx D.g) 0)
    (hcol : ∀ i c c', D.col i c → D.col i c' → c = c')
    (hl : D.layout ∨ Everywhere env P.notLayout p) (fmt : Loc → String) (b : Bool)
    (x : Except ParseError α) :
    (∃ r, Returns env p s (recovering k D.g) r ∧ r.unwrap fmt b = x) ↔
      ∃ o, Rec env s D.col k p 0 0 (some k) o ∧ o.Gives loc fmt b x := by
  constructor
  · rintro ⟨r, hr, rfl⟩
    rcases findsTo_cases (k := k) D hc hl with h | ⟨o, h1, h2⟩
    · exact absurd h (returns_not_hangs hr)
    · rw [hloc] at h2
      rcases h2.gives fmt b with ⟨e, rfl⟩ | ⟨r', h3, h4⟩
      · exact (returns_not_raises hr h2).elim
      · cases returns_unique hr h3
        exact ⟨o, h1, h4⟩
  · rintro ⟨o, h, hx⟩
    have h2 := rec_findsTo D hc hcol hl h
    rw [hloc] at h2
    rcases h2.gives fmt b with ⟨e, rfl⟩ | ⟨r', h3, h4⟩
    · exact hx.elim
    · exact ⟨r', h3, h4.unique hx⟩

/-- **C60**, as the user sees it: `p.parse(s, recover=True, max_insertions=k).unwrap(recover=b)` gives `x` — a
value or a `ParseError` with these error items — iff the rules say so. -/
theorem C60_unwrap (k : Int) (fmt : Loc → String) (b : Bool) (x : Except ParseError α) :
    (∃ r, Returns env p s (recovering k defaultGetLoc) r ∧ r.unwrap fmt b = x) ↔
      ∃ o, Rec env s (fun _ c => c = 0) k p 0 0 (some k) o ∧
        o.Gives (fun q => ⟨q, 0, 0⟩) fmt b x :=
  rec_gives (defaultDisc s) (fun q => ⟨q, 0, 0⟩) rfl defaultDisc_ctx
    (fun _ _ _ h h' => h.trans h'.symm) (.inl trivial) fmt b x

end

/-- C60 for `scannerless.parse(p, s, recover=True).unwrap(..)`: with exact line and column of each error. -/
theorem C60_unwrap_text {env : Env Char ρ Γ} {p : P Char ρ Γ α} {s : List Char} (k : Int)
    (fmt : Loc → String) (b : Bool) (x : Except ParseError α) :
    (∃ r, Returns env p s (recovering k scannerlessGetLoc) r ∧ r.unwrap fmt b = x) ↔
      ∃ o, Rec env s (textCol s) k p 0 0 (some k) o ∧ o.Gives (exactLoc s) fmt b x :=
  rec_gives (scannerlessDisc s) (exactLoc s) rfl (scannerlessDisc_ctx s)
    (fun _ _ _ h h' => h.trans h'.symm) (.inl trivial) fmt b x

/-- C60 for `lexer.parse(p, s, recover=True).unwrap(..)`. -/
theorem C60_unwrap_tokens {env : Env Token ρ Γ} {p : P Token ρ Γ α} {s : List Token}
    (hl : IndexSafe s ∨ Everywhere env P.notLayout p) :
    ∃ loc : Nat → Loc, (∀ q, TokenLoc s q (loc q)) ∧
      ∀ (k : Int) (fmt : Loc → String) (b : Bool) (x : Except ParseError α),
      (∃ r, Returns env p s (recovering k lexerGetLoc) r ∧ r.unwrap fmt b = x) ↔
        ∃ o, Rec env s (fun q c => c = (loc q).col) k p 0 0 (some k) o ∧ o.Gives loc fmt b x :=
  ⟨locFromStream s, tokenLoc_locFromStream s, fun _ fmt b x =>
    rec_gives (lexerDisc s) (locFromStream s) rfl (lexerDisc_ctx s)
      (fun _ _ _ h h' => h.trans h'.symm) hl fmt b x⟩

/-! ### Cases -/

/-- On "a,b" the list of `Samples.list` comes to repairs: the errors of the chosen one. -/
example : ∃ o, Rec Samples.noEnv ['a', ',', 'b', 'a'] (fun _ c => c = 0) 5 Samples.list 0 0 (some 5) o ∧
    o.Gives (fun q => ⟨q, 0, 0⟩) defaultFmtLoc false
      (.error ⟨[⟨⟨2, 0, 0⟩, "2", ["'a'"], some (.skip 1)⟩]⟩) :=
  (C60_unwrap 5 defaultFmtLoc false _).1 ⟨_, ⟨30, rfl⟩, rfl⟩

/-- The same kind of thing, by the rules: `sym("a") + sym("b")` on "b" has one candidate, which inserts the
`a`. -/
example : Rec Samples.noEnv ['b'] (fun _ c => c = 0) 5 Samples.ab 0 0 (some 5)
    (.repairs [⟨1, true, 5, [⟨0, .insert "'a'", ["'a'"], false⟩], ('a', 'b'), 1, [], true⟩] 0 ["'a'"]
      false) := by
  have h1 : Rec Samples.noEnv ['b'] (fun _ c => c = 0) 5 (.sym 'a' "'a'") 0 0 (some 5)
      (.repairs [Cand.insert 5 0 'a' "'a'" ["'a'"]] 0 ["'a'"] false) := by
    refine .symNever fun n _ t ht => ?_
    cases n <;> simp at ht
    subst ht; rfl
  have h2 : Rec Samples.noEnv ['b'] (fun _ c => c = 0) 5
      (.fmap (.sym 'b' "'b'") fun b => .ok ('a', b)) 0 0 (some 4) (.accepts ('a', 'b') 1 []) :=
    .fmap (.sym rfl rfl)
  refine .seq (.bindRepairs (os := [.accepts ('a', 'b') 1 []]) h1 rfl ?_ ?_)
  · intro n d o hd ho
    cases n with
    | zero => simp at hd ho; subst hd ho; exact h2
    | succ n => simp at hd
  · simp [Finding.calm]

end Reparsec
