import Verif.Props.Locations
import Verif.Props.Samples
import Verif.Lemmas.LooksAll
import Verif.Spec.LL1

/-!
# C59: the expected list of a repair is what is looked for where it is applied
-/

namespace Reparsec

variable {τ ρ : Type} {Γ : ρ → Type} {α β : Type}

section
variable [BEq τ] {env : Env τ ρ Γ} {p : P τ ρ Γ α} {s : List τ}

/-- The candidate repair `x` is justified: its operations are the edits of a derivation of its value,
and what the `n`th operation says was expected is what the grammar, after the `n` edits before it,
looks for at the position of the operation and does not find there. -/
def Justified (env : Env τ ρ Γ) (p : P τ ρ Γ α) (s : List τ) (rel : Nat → Loc → Prop)
    (col : Nat → Nat → Prop) (x : Repair τ α) : Prop :=
  ∃ st : List Step, Der env s col p 0 0 st x.value x.pos ∧ st.length = x.ops.length ∧
    ∀ n e op, st[n]? = some e → x.ops[n]? = some op →
      op.op = e.edit.op ∧ rel e.edit.pos op.loc ∧ e.edit.pos ≤ s.length ∧
      (NoDrop s.length (edits (st.take n)) →
        ∀ l ∈ op.expected, Looks env s col p 0 0 (st.take n) (some l) e.edit.pos)

theorem OpsMatch.nth {rel : Nat → Loc → Prop} {es : List Edit} {is : List OpItem}
    (h : OpsMatch rel es is) (n : Nat) {e : Edit} {i : OpItem} (he : es[n]? = some e)
    (hi : is[n]? = some i) : i.op = e.op ∧ rel e.pos i.loc := by
  induction h generalizing n with
  | nil => simp at he
  | cons h1 h2 _ ih =>
    cases n with
    | zero => simp at he hi; subst he; subst hi; exact ⟨h1, h2⟩
    | succ n => exact ih n (by simpa using he) (by simpa using hi)

theorem InOrder.le_end {lo hi : Nat} {es : List Edit} (h : InOrder lo es hi) {n : Nat} {e : Edit}
    (he : es[n]? = some e) : e.pos ≤ hi := by
  induction es generalizing lo n with
  | nil => simp at he
  | cons e' es ih =>
    cases n with
    | zero =>
      simp at he; subst he
      have := h.2.le
      have := h.1
      omega
    | succ n => exact ih h.2 (by simpa using he)

theorem justified (D : LocDisc s) (hc : CtxOK D (initCtx D.g) 0)
    (hl : D.layout ∨ Everywhere env P.notLayout p) (ha : Everywhere env P.notAttempt p) {k : Int}
    {rr : Recovered τ α} (h : Returns env p s (recovering k D.g) (.recovered rr)) :
    ∀ x ∈ rr.repairs, Justified env p s D.rel D.col x := by
  obtain ⟨n, hr⟩ := returns_recovering h
  have := look_denote env D p hl ha n 0 _ k (some k) _ (Nat.zero_le _) hc hr
  intro x hx
  obtain ⟨st, hs⟩ := this.2 x hx
  refine ⟨st, hs.der, ?_, fun n e op h1 h2 => ?_⟩
  · have := hs.ops.length
    simpa [edits] using this
  · have h3 : (edits st)[n]? = some e.edit := by simp [edits, h1]
    have h4 := hs.ops.nth n h3 h2
    have ho := der_inOrder hs.der (Nat.zero_le _)
    exact ⟨h4.1, h4.2, Nat.le_trans (ho.1.le_end h3) ho.2, fun hn => (hs.look n e op h1 h2 hn).1⟩

/-! ### Where nothing drops the rest of the input -/

/-- A parser without `eof()` never drops all the rest of the input. -/
theorem Der.noDrop {col : Nat → Nat → Prop} (henv : ∀ x p, env x = some p → P.All P.notEof p)
    {α : Type} {p : P τ ρ Γ α} {m i es v j} (h : Der env s col p m i es v j)
    (hp : P.All P.notEof p) : NoDrop s.length (edits es) := by
  have nil : NoDrop s.length (edits []) := by simp [NoDrop, edits]
  have skip : ∀ {i k : Nat}, i < k → k < s.length → NoDrop s.length (edits [.skip i (k - i)]) := by
    intro i k h1 h2 e he n hn
    simp [edits, Step.skip] at he
    subst he; cases hn; simp only; omega
  have ins : ∀ {e : Step} {l : String}, e.edit.op = .insert l → NoDrop s.length (edits [e]) := by
    intro e l h e' he n hn
    simp [edits] at he; subst he; rw [h] at hn; cases hn
  have app : ∀ {a b : List Step}, NoDrop s.length (edits a) → NoDrop s.length (edits b) →
      NoDrop s.length (edits (a ++ b)) := by
    intro a b h1 h2 e he
    rw [edits_append] at he
    exact (List.mem_append.1 he).elim (h1 e) (h2 e)
  induction h with
  | pure | pureFn | satisfy | sym | literal | regexp | maybeNone | manyNil => exact nil
  | eof => exact nil
  | eofSkip => exact hp.elim
  | satisfySkip h1 h2 => exact skip h1 (List.getElem?_eq_some_iff.1 h2).1
  | symSkip h1 h2 => exact skip h1 (List.getElem?_eq_some_iff.1 h2).1
  | @literalSkip x ss hx m i k h1 h2 =>
    refine skip h1 ?_
    rcases Nat.lt_or_ge k s.length with h | h
    · exact h
    · rw [List.drop_eq_nil_of_le h] at h2
      cases x with
      | nil => exact (hx rfl).elim
      | cons a as => simp at h2
  | regexpSkip h1 h2 => exact skip h1 h2
  | symInsert | literalInsert | recoverWithInsert | recoverWithFnInsert => exact ins rfl
  | fmap _ _ ih => exact ih hp.2
  | altL _ ih => exact ih hp.2.1
  | altR _ ih => exact ih hp.2.2
  | bind _ _ ih1 ih2 => exact app (ih1 hp.2.1) (ih2 (hp.2.2 _))
  | seqWith _ _ ih1 ih2 => exact app (ih1 hp.2.1) (ih2 hp.2.2)
  | maybeSome _ ih | attempt _ ih | label _ ih | recoverWith _ ih | recoverWithFn _ ih =>
    exact ih hp.2
  | manyCons _ _ ih1 ih2 => exact app (ih1 hp.2) (ih2 hp)
  | recover _ ih =>
    have : ∀ es : List Step, edits (es.map Step.asked) = edits es := by
      intro es; simp [edits, Step.asked]
    rw [this]; exact ih hp.2
  | block _ _ ih | aligned _ _ ih | indented _ _ _ ih => exact ih hp.2
  | ref h _ ih => exact ih (henv _ _ h)

theorem Der.isEof_one {col : Nat → Nat → Prop} {q : P τ ρ Γ α} {m i es v j}
    (h : Der env s col q m i es v j) (he : q.isEof = true) : es.length ≤ 1 := by
  cases h <;> simp_all [P.isEof]

/-- In a parser `q << eof()`, with no `eof()` in `q`, nothing comes after the rest of the input was
dropped. -/
theorem Der.noDrop_before {col : Nat → Nat → Prop} {q : P τ ρ Γ β}
    (hq : Everywhere env P.notEof q) {m i st v j n} {e : Step}
    (h : Der env s col (P.seql q .eof) m i st v j) (he : st[n]? = some e) :
    NoDrop s.length (edits (st.take n)) := by
  unfold P.seql at h
  cases h with
  | @seqWith _ _ _ _ _ _ _ _ es a j' es' b l h1 h2 =>
    have hd := h1.noDrop hq.2 hq.1
    have hlen : es'.length ≤ 1 := by
      exact h2.isEof_one rfl
    have hn := (List.getElem?_eq_some_iff.1 he).1
    rw [List.length_append] at hn
    rw [List.take_append_of_le_length (by omega)]
    have : edits es = edits (es.take n) ++ edits (es.drop n) := by
      rw [← edits_append, List.take_append_drop]
    rw [this] at hd
    exact hd.left

/-! ### C59 -/

/-- The errors of a `ParseError` are justified: they are the edits of a derivation of the value `v`,
and what the `n`th says was expected is what the grammar, after the `n` edits before it, looks for at
its position and does not find there. If `always`, without exception; otherwise, unless one of the
edits before it dropped all the rest of the input. -/
def ErrorsJustified (env : Env τ ρ Γ) (p : P τ ρ Γ α) (s : List τ) (rel : Nat → Loc → Prop)
    (col : Nat → Nat → Prop) (always : Prop) (v : α) (pe : ParseError) : Prop :=
  ∃ (st : List Step) (stop : Nat), Der env s col p 0 0 st v stop ∧
    st.length = pe.errors.length ∧
    ∀ (n : Nat) e i, st[n]? = some e → pe.errors[n]? = some i →
      i.op = some e.edit.op ∧ rel e.edit.pos i.loc ∧ e.edit.pos ≤ s.length ∧
      (always ∨ NoDrop s.length (edits (st.take n)) →
        ∀ l ∈ i.expected, Looks env s col p 0 0 (st.take n) (some l) e.edit.pos)

omit [BEq τ] in
theorem unwrap_errors (fmt : Loc → String) {r : Result τ α} {v : α} {pe : ParseError}
    (hv : r.unwrap fmt true = .ok v) (he : r.unwrap fmt false = .error pe) :
    ∃ rr x, r = .recovered rr ∧ x ∈ rr.repairs ∧ v = x.value ∧ pe.errors = errorItems fmt x := by
  cases r with
  | ok r => simp [Result.unwrap] at he
  | error e => simp [Result.unwrap] at hv
  | recovered rr =>
    simp only [Result.unwrap] at hv he
    cases hr : rr.repairs with
    | nil => simp [hr] at hv
    | cons y ys =>
      simp only [hr, if_true, Bool.false_eq_true, if_false, Except.ok.injEq,
        Except.error.injEq] at hv he
      exact ⟨rr, minRepair y ys, rfl, by rw [hr]; exact minRepair_mem y ys, hv.symm, by rw [← he]⟩

theorem Justified.errors {rel : Nat → Loc → Prop} {col : Nat → Nat → Prop} {x : Repair τ α}
    (h : Justified env p s rel col x) (fmt : Loc → String) (always : Prop)
    (ha : always → ∀ st v stop, Der env s col p 0 0 st v stop → ∀ (n : Nat) (e : Step), st[n]? = some e →
      NoDrop s.length (edits (st.take n))) :
    ErrorsJustified env p s rel col always x.value ⟨errorItems fmt x⟩ := by
  obtain ⟨st, h1, h2, h3⟩ := h
  refine ⟨st, x.pos, h1, by simpa [errorItems] using h2, fun n e i h4 h5 => ?_⟩
  simp only [errorItems, List.getElem?_map, Option.map_eq_some_iff] at h5
  obtain ⟨op, h5, rfl⟩ := h5
  obtain ⟨h6, h7, h8, h9⟩ := h3 n e op h4 h5
  exact ⟨by simp [h6], h7, h8, fun hn => h9 (hn.elim (fun h => ha h _ _ _ h1 _ _ h4) id)⟩

/-- C59, default locations: every candidate repair is justified. -/
theorem C59_candidates (ha : Everywhere env P.notAttempt p) {k : Int} {rr : Recovered τ α}
    (h : Returns env p s (recovering k defaultGetLoc) (.recovered rr)) :
    ∀ x ∈ rr.repairs, Justified env p s (fun q loc => loc = ⟨q, 0, 0⟩) zeroCol x :=
  justified (defaultDisc s) defaultDisc_ctx (.inl trivial) ha h

/-- C59, default locations, as seen by the user: the errors of the `ParseError` are justified. -/
theorem C59_reported (ha : Everywhere env P.notAttempt p) (fmt : Loc → String) {k : Int}
    {r : Result τ α} {v : α} {pe : ParseError}
    (h : Returns env p s (recovering k defaultGetLoc) r)
    (hv : r.unwrap fmt true = .ok v) (he : r.unwrap fmt false = .error pe) :
    ErrorsJustified env p s (fun q loc => loc = ⟨q, 0, 0⟩) zeroCol False v pe := by
  obtain ⟨rr, x, rfl, hx, rfl, h2⟩ := unwrap_errors fmt hv he
  obtain ⟨es⟩ := pe
  subst h2
  exact (C59_candidates ha h x hx).errors fmt False False.elim

/-- C59 for a parser `q << eof()` with no `eof()` in `q`: no exception. -/
theorem C59_reported_whole {q : P τ ρ Γ β} (ha : Everywhere env P.notAttempt q)
    (hq : Everywhere env P.notEof q) (fmt : Loc → String) {k : Int}
    {r : Result τ β} {v : β} {pe : ParseError}
    (h : Returns env (P.seql q .eof) s (recovering k defaultGetLoc) r)
    (hv : r.unwrap fmt true = .ok v) (he : r.unwrap fmt false = .error pe) :
    ErrorsJustified env (P.seql q .eof) s (fun q loc => loc = ⟨q, 0, 0⟩) zeroCol True v pe := by
  obtain ⟨rr, x, rfl, hx, rfl, h2⟩ := unwrap_errors fmt hv he
  obtain ⟨es⟩ := pe
  subst h2
  exact (C59_candidates (p := P.seql q .eof) ⟨⟨trivial, ha.1, trivial⟩, ha.2⟩ h x hx).errors fmt True
    fun _ _ _ _ h _ _ h' => h.noDrop_before hq h'

end

/-- C59 under `scannerless.parse`. -/
theorem C59_reported_text {env : Env Char ρ Γ} {p : P Char ρ Γ α} {s : List Char}
    (ha : Everywhere env P.notAttempt p) (fmt : Loc → String) {k : Int}
    {r : Result Char α} {v : α} {pe : ParseError}
    (h : Returns env p s (recovering k scannerlessGetLoc) r)
    (hv : r.unwrap fmt true = .ok v) (he : r.unwrap fmt false = .error pe) :
    ErrorsJustified env p s (fun q loc => loc = exactLoc s q) (textCol s) False v pe := by
  obtain ⟨rr, x, rfl, hx, rfl, h2⟩ := unwrap_errors fmt hv he
  obtain ⟨es⟩ := pe
  subst h2
  exact (justified (scannerlessDisc s) (scannerlessDisc_ctx s) (.inl trivial) ha h x hx).errors fmt
    False False.elim

/-- C59 under `scannerless.parse`, for a parser `q << eof()` with no `eof()` in `q`: no exception. -/
theorem C59_reported_text_whole {env : Env Char ρ Γ} {q : P Char ρ Γ β} {s : List Char}
    (ha : Everywhere env P.notAttempt q) (hq : Everywhere env P.notEof q) (fmt : Loc → String)
    {k : Int} {r : Result Char β} {v : β} {pe : ParseError}
    (h : Returns env (P.seql q .eof) s (recovering k scannerlessGetLoc) r)
    (hv : r.unwrap fmt true = .ok v) (he : r.unwrap fmt false = .error pe) :
    ErrorsJustified env (P.seql q .eof) s (fun q loc => loc = exactLoc s q) (textCol s) True v pe := by
  obtain ⟨rr, x, rfl, hx, rfl, h2⟩ := unwrap_errors fmt hv he
  obtain ⟨es⟩ := pe
  subst h2
  exact (justified (p := P.seql q .eof) (scannerlessDisc s) (scannerlessDisc_ctx s) (.inl trivial)
    ⟨⟨trivial, ha.1, trivial⟩, ha.2⟩ h x hx).errors fmt True
    fun _ _ _ _ h _ _ h' => h.noDrop_before hq h'

/-- C59 under `lexer.parse`, without layout combinators. -/
theorem C59_reported_tokens {env : Env Token ρ Γ} {p : P Token ρ Γ α} {s : List Token}
    (hl : Everywhere env P.notLayout p) (ha : Everywhere env P.notAttempt p) (fmt : Loc → String)
    {k : Int} {r : Result Token α} {v : α} {pe : ParseError}
    (h : Returns env p s (recovering k lexerGetLoc) r)
    (hv : r.unwrap fmt true = .ok v) (he : r.unwrap fmt false = .error pe) :
    ErrorsJustified env p s (fun q loc => TokenLoc s q loc) (tokenCol s) False v pe := by
  obtain ⟨rr, x, rfl, hx, rfl, h2⟩ := unwrap_errors fmt hv he
  obtain ⟨es⟩ := pe
  subst h2
  have hcol : (lexerDisc s).col = tokenCol s := by
    funext q c
    refine propext ⟨fun h => ?_, fun ⟨loc, h1, h2⟩ => ?_⟩
    · have h : c = _ := h
      exact ⟨_, tokenLoc_locFromStream s q, h⟩
    · rw [locFromStream_unique h1] at h2; exact h2
  obtain ⟨st, stop, h1, h2, h3⟩ := (justified (lexerDisc s) (lexerDisc_ctx s) (.inr hl) ha h x
    hx).errors fmt False False.elim
  rw [hcol] at h1 h3
  refine ⟨st, stop, h1, h2, fun n e i h4 h5 => ?_⟩
  obtain ⟨h6, h7, h8, h9⟩ := h3 n e i h4 h5
  have h7 : i.loc = locFromStream s e.edit.pos := h7
  exact ⟨h6, h7 ▸ tokenLoc_locFromStream s _, h8, h9⟩

/-! ### The conditions are needed -/

section
variable [BEq τ] {env : Env τ ρ Γ} {s : List τ}

/-- How something can be looked for, for some of the parsers. -/
def LooksStep (env : Env τ ρ Γ) (s : List τ) (col : Nat → Nat → Prop) (m i : Nat) (es : List Step)
    (l : Option String) (q : Nat) : {α : Type} → P τ ρ Γ α → Prop
  | _, .alt p p' => Looks env s col p m i es l q ∨ Looks env s col p' m i es l q
  | _, .attempt p => Looks env s col p m i es l q
  | _, .seqWith p p' _ => Looks env s col p m i es l q ∨
      ∃ es1 a j es2, es = es1 ++ es2 ∧ Der env s col p m i es1 a j ∧ Looks env s col p' m j es2 l q
  | _, .sym _ l' => es = [] ∧ l = some l' ∧ q = i
  | _, .eof => es = [] ∧ l = some "end of file" ∧ q = i
  | _, .satisfy _ => es = [] ∧ q = i
  | _, .label p _ => (es = [] ∧ q = i) ∨ Looks env s col p m i es l q
  | _, _ => True

theorem Looks.step {col : Nat → Nat → Prop} {m i es l q} {p : P τ ρ Γ α}
    (h : Looks env s col p m i es l q) : LooksStep env s col m i es l q p := by
  cases h with
  | eof _ => exact ⟨rfl, rfl, rfl⟩
  | satisfy _ => exact ⟨rfl, rfl⟩
  | sym _ => exact ⟨rfl, rfl, rfl⟩
  | altL h => exact .inl h
  | altR h => exact .inr h
  | seqL h => exact .inl h
  | seqR h1 h2 => exact .inr ⟨_, _, _, _, rfl, h1, h2⟩
  | attempt h => exact h
  | labelHere _ => exact .inl ⟨rfl, rfl⟩
  | labelEmpty _ => exact .inl ⟨rfl, rfl⟩
  | labelLater h _ => exact .inr h
  | _ => trivial

/-- Where a symbol that is read as it is ends. -/
def SymEnd (i j : Nat) (es : List Step) : {α : Type} → P τ ρ Γ α → Prop
  | _, .sym _ _ => es = [] → j = i + 1
  | _, _ => True

theorem Der.sym_end {col : Nat → Nat → Prop} {m i es v j} {p : P τ ρ Γ α}
    (h : Der env s col p m i es v j) : SymEnd i j es p := by
  cases h with
  | sym => exact fun _ => rfl
  | symSkip => intro h; simp at h
  | symInsert => intro h; simp at h
  | _ => trivial

end

namespace Samples

/-- `(sym("a") << satisfy(lambda c: c == "b").label("b")).attempt() | sym("c")` -/
def tried : P Char Empty (fun _ => Unit) Char :=
  .alt (.attempt (.seql (.sym 'a' "'a'") (.label (.satisfy fun c => .ok (c == 'b')) "b")))
    (.sym 'c' "'c'")

/-- `(eof() >> sym("a")) | sym("b")` -/
def afterEnd : P Char Empty (fun _ => Unit) Char :=
  .alt (.seqr .eof (.sym 'a' "'a'")) (.sym 'b' "'b'")

end Samples

open Samples in
/-- With `attempt` C59 is false: on `ax` the repair inserts `c` at position 0, and says that `b` was
expected there; but `b` is only looked for at position 1. -/
theorem C59_attempt_false : ∃ rr x op,
    Returns noEnv tried "ax".toList (recovering 5 defaultGetLoc) (.recovered rr) ∧
      rr.repairs = [x] ∧ x.ops = [op] ∧ op.op = .insert "'c'" ∧ op.loc = ⟨0, 0, 0⟩ ∧
      op.expected = ["b", "'c'"] ∧
      ¬ Looks noEnv "ax".toList zeroCol tried 0 0 [] (some "b") 0 := by
  refine ⟨_, _, _, ⟨20, rfl⟩, rfl, rfl, rfl, rfl, rfl, fun h => ?_⟩
  rcases h.step with h | h
  · rcases Looks.step (Looks.step h) with h | ⟨es1, a, j, es2, h1, h2, h3⟩
    · have := h.step.2.1
      simp at this
    · obtain ⟨rfl, rfl⟩ := List.append_eq_nil_iff.1 h1.symm
      have h4 : j = 0 + 1 := h2.sym_end rfl
      subst h4
      rcases h3.step with ⟨_, h⟩ | h
      · cases h
      · cases h.step.2
  · have := h.step.2.1
    simp at this

open Samples in
/-- After the rest of the input was dropped C59 is false: on `x` the repair drops `x` at position 0
and then inserts `a` at position 1, and says that the end of file or `b` was expected there; but after
dropping `x`, only `a` is looked for. -/
theorem C59_drop_false : Everywhere noEnv P.notAttempt afterEnd ∧ ∃ rr x op op',
    Returns noEnv afterEnd "x".toList (recovering 5 defaultGetLoc) (.recovered rr) ∧
      rr.repairs = [x] ∧ x.ops = [op, op'] ∧ op.op = .skip 1 ∧ op'.op = .insert "'a'" ∧
      op'.loc = ⟨1, 0, 0⟩ ∧ op'.expected = ["end of file", "'b'"] ∧
      ∀ l, Looks noEnv "x".toList zeroCol afterEnd 0 0 [.skip 0 1] (some l) 1 → l = "'a'" := by
  refine ⟨⟨?_, fun i => i.elim⟩, _, _, _, _, ⟨20, rfl⟩, rfl, rfl, rfl, rfl, rfl, rfl, fun l h => ?_⟩
  · simp [afterEnd, P.seqr, P.All, P.notAttempt]
  · rcases h.step with h | h
    · rcases Looks.step h with h | ⟨es1, a, j, es2, h1, h2, h3⟩
      · have := h.step.1
        simp at this
      · have := h3.step.2.1
        simpa using this
    · have := h.step.1
      simp at this

/-! ### The conditions can be met -/

namespace Samples

/-- `C59_reported_whole` applies to `sym("a") << sym("b") << eof()`: three errors on `xac`. -/
example : ∃ r v pe, Returns noEnv (.seql (.seql (.sym 'a' "'a'") (.sym 'b' "'b'")) .eof) "xac".toList
      (recovering 5 defaultGetLoc) r ∧ r.unwrap (fun _ => "") true = .ok v ∧
    r.unwrap (fun _ => "") false = .error pe ∧
    pe.errors.map (fun i => (i.loc.pos, i.expected)) =
      [(0, ["'a'"]), (2, ["'b'"]), (2, ["end of file"])] ∧
    Everywhere noEnv P.notAttempt (.seql (.sym 'a' "'a'") (.sym 'b' "'b'")) ∧
    Everywhere noEnv P.notEof (.seql (.sym 'a' "'a'") (.sym 'b' "'b'")) := by
  refine ⟨_, _, _, ⟨20, rfl⟩, rfl, rfl, rfl, ⟨?_, fun i => i.elim⟩, ?_, fun i => i.elim⟩
  · simp [P.seql, P.All, P.notAttempt]
  · simp [P.seql, P.All, P.notEof]

end Samples

end Reparsec
