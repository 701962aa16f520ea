import Verif.Spec.Lexing
import Verif.Props.Locations

/-!
# C37, C38: `split_tokens`; and `lexer.parse` on its output
-/

namespace Reparsec

variable {src : List Char} {spec : LexSpec}

/-- `split_tokens(src, spec)` returns `toks`. -/
def LexReturns (src : List Char) (spec : LexSpec) (toks : List Token) : Prop :=
  ∃ fuel, splitTokens src spec fuel = .ret toks

/-- `split_tokens(src, spec)` raises `e`. -/
def LexRaises (src : List Char) (spec : LexSpec) (e : Exn) : Prop :=
  ∃ fuel, splitTokens src spec fuel = .raise e

/-- `split_tokens(src, spec)` does not return. -/
def LexHangs (src : List Char) (spec : LexSpec) : Prop :=
  ∀ fuel, splitTokens src spec fuel = .diverge

/-! ### The loop -/

theorem iterTokens_ret {fuel i : Nat} {toks : List Token} (hi : i ≤ src.length)
    (h : iterTokens src spec fuel i (exactLoc src i) = .ret toks) : Tiles src spec i toks := by
  induction fuel generalizing i toks with
  | zero => simp [iterTokens] at h
  | succ fuel ih =>
    unfold iterTokens at h
    by_cases hlt : i < src.length
    · simp only [hlt, if_true] at h
      cases hm : spec.run src i with
      | none => simp [hm] at h
      | some m =>
        have hb := spec.bounds _ _ _ hi hm
        simp only [hm, Out.bind_def, Out.bind_eq_ret, ← exactLoc_step hb.1 hb.2] at h
        obtain ⟨rest, h1, h2⟩ := h
        have ih := ih hb.2 h1
        cases hg : m.group with
        | none => simp [hg] at h2; subst h2; exact .space hlt hm hg ih
        | some kv => simp [hg] at h2; subst h2; exact .token hlt hm hg ih
    · simp [hlt] at h
      subst h
      have : i = src.length := by omega
      subst this; exact .done

theorem iterTokens_raise {fuel i : Nat} {e : Exn} (hi : i ≤ src.length)
    (h : iterTokens src spec fuel i (exactLoc src i) = .raise e) :
    ∃ j, Reaches src spec i j ∧ j < src.length ∧ spec.run src j = none ∧
      e = .lexError (exactLoc src j) := by
  induction fuel generalizing i with
  | zero => simp [iterTokens] at h
  | succ fuel ih =>
    unfold iterTokens at h
    by_cases hlt : i < src.length
    · simp only [hlt, if_true] at h
      cases hm : spec.run src i with
      | none => simp [hm] at h; exact ⟨i, .here, hlt, hm, h.symm⟩
      | some m =>
        have hb := spec.bounds _ _ _ hi hm
        simp only [hm, Out.bind_def, ← exactLoc_step hb.1 hb.2] at h
        cases hr : iterTokens src spec fuel m.stop (exactLoc src m.stop) with
        | diverge => simp [hr] at h
        | raise e' =>
          simp [hr] at h; subst h
          obtain ⟨j, h1, h2⟩ := ih hb.2 hr
          exact ⟨j, .step hlt hm h1, h2⟩
        | ret rest =>
          simp only [hr, Out.bind_ret] at h
          cases hg : m.group <;> simp [hg] at h
    · simp [hlt] at h

/-- If it runs out of fuel, it made as many steps as it had fuel. -/
theorem iterTokens_mono {fuel i : Nat} {loc : Loc}
    (h : iterTokens src spec fuel i loc ≠ .diverge) :
    iterTokens src spec (fuel + 1) i loc = iterTokens src spec fuel i loc := by
  induction fuel generalizing i loc with
  | zero => simp [iterTokens] at h
  | succ fuel ih =>
    rw [iterTokens, iterTokens]
    rw [iterTokens] at h
    by_cases hlt : i < src.length
    · simp only [hlt, if_true] at h ⊢
      cases hm : spec.run src i with
      | none => rfl
      | some m =>
        simp only [hm, Out.bind_def] at h ⊢
        rw [ih (Out.bind_ne_diverge.1 h).1]
    · simp [hlt]

theorem iterTokens_le {fuel fuel' i : Nat} {loc : Loc} (hle : fuel ≤ fuel')
    (h : iterTokens src spec fuel i loc ≠ .diverge) :
    iterTokens src spec fuel' i loc = iterTokens src spec fuel i loc := by
  induction hle with
  | refl => rfl
  | step _ ih => rw [iterTokens_mono (by rw [ih]; exact h), ih]

theorem iterTokens_unique {f f' i : Nat} {loc : Loc}
    (h : iterTokens src spec f i loc ≠ .diverge) (h' : iterTokens src spec f' i loc ≠ .diverge) :
    iterTokens src spec f i loc = iterTokens src spec f' i loc := by
  rw [← iterTokens_le (Nat.le_max_left f f') h, ← iterTokens_le (Nat.le_max_right f f') h']

/-- If the reachable matches are not empty, `length + 1 - i` iterations suffice. -/
theorem iterTokens_terminates {fuel i : Nat} {loc : Loc} (hi : i ≤ src.length)
    (h : ∀ j m, Reaches src spec i j → j < src.length → spec.run src j = some m → m.stop ≠ j)
    (hf : src.length < i + fuel) : iterTokens src spec fuel i loc ≠ .diverge := by
  induction fuel generalizing i loc with
  | zero => omega
  | succ fuel ih =>
    rw [iterTokens]
    by_cases hlt : i < src.length
    · simp only [hlt, if_true]
      cases hm : spec.run src i with
      | none => simp
      | some m =>
        have hb := spec.bounds _ _ _ hi hm
        have hne := h i m .here hlt hm
        simp only [Out.bind_def]
        refine Out.bind_ne_diverge.2 ⟨ih hb.2 (fun j m' hr => h j m' (.step hlt hm hr)) (by omega), ?_⟩
        intro rest _
        cases m.group <;> simp
    · simp [hlt]

/-- If an empty match is reached, it does not return. -/
theorem iterTokens_hangs {fuel i j : Nat} {loc : Loc} {m : LexMatch} (hr : Reaches src spec i j)
    (hj : j < src.length) (hm : spec.run src j = some m) (he : m.stop = j) :
    iterTokens src spec fuel i loc = .diverge := by
  induction fuel generalizing i loc with
  | zero => rfl
  | succ fuel ih =>
    rw [iterTokens]
    cases hr with
    | here =>
      simp only [hj, if_true, hm, he, Out.bind_def]
      rw [ih .here]; rfl
    | step hlt hm' hr =>
      simp only [hlt, if_true, hm', Out.bind_def]
      rw [ih hr]; rfl

/-! ### C37, C38 -/

theorem Tiles.le {i : Nat} {toks : List Token} (h : Tiles src spec i toks) : i ≤ src.length := by
  cases h with
  | done => exact Nat.le_refl _
  | space h => omega
  | token h => omega

theorem Tiles.no_empty {i : Nat} {toks : List Token} (h : Tiles src spec i toks) :
    ∀ j m, Reaches src spec i j → j < src.length → spec.run src j = some m → m.stop ≠ j := by
  have step : ∀ {i m' toks}, i < src.length → spec.run src i = some m' →
      Tiles src spec m'.stop toks →
      (∀ j m, Reaches src spec m'.stop j → j < src.length → spec.run src j = some m → m.stop ≠ j) →
      ∀ j m, Reaches src spec i j → j < src.length → spec.run src j = some m → m.stop ≠ j := by
    intro i m' toks hlt hm _ ih j m hr hj hm2
    cases hr with
    | here =>
      rw [hm] at hm2; cases hm2
      intro he
      exact ih i m' (by rw [he]; exact .here) hlt hm he
    | step _ hm3 hr => rw [hm] at hm3; cases hm3; exact ih j m hr hj hm2
  induction h with
  | done =>
    intro j m hr hj _
    cases hr with
    | here => omega
    | step h => omega
  | space hlt hm _ h ih => exact step hlt hm h ih
  | token hlt hm _ h ih => exact step hlt hm h ih

theorem Tiles.unique {i : Nat} {toks toks' : List Token} (h : Tiles src spec i toks)
    (h' : Tiles src spec i toks') : toks = toks' := by
  induction h generalizing toks' with
  | done =>
    cases h' with
    | done => rfl
    | space h => omega
    | token h => omega
  | space hlt hm hg _ ih =>
    cases h' with
    | done => omega
    | space _ hm' _ h' => rw [hm] at hm'; cases hm'; exact ih h'
    | token _ hm' hg' _ => rw [hm] at hm'; cases hm'; rw [hg] at hg'; cases hg'
  | token hlt hm hg _ ih =>
    cases h' with
    | done => omega
    | space _ hm' hg' _ => rw [hm] at hm'; cases hm'; rw [hg] at hg'; cases hg'
    | token _ hm' hg' h' =>
      rw [hm] at hm'; cases hm'; rw [hg] at hg'; cases hg'
      rw [ih h']

/-- What tiling and failing have to do with each other: nothing reached by a tiling fails to match. -/
theorem Tiles.no_fail {i : Nat} {toks : List Token} (h : Tiles src spec i toks) :
    ∀ j, Reaches src spec i j → j < src.length → spec.run src j ≠ none := by
  induction h with
  | done =>
    intro j hr hj
    cases hr with
    | here => omega
    | step h => omega
  | space hlt hm _ _ ih | token hlt hm _ _ ih =>
    intro j hr hj
    cases hr with
    | here => simp [hm]
    | step _ hm3 hr => rw [hm] at hm3; cases hm3; exact ih j hr hj

/-- C37. `split_tokens` returns exactly the tokens of the successive matches, with exact locations. -/
theorem C37_returns_iff (src : List Char) (spec : LexSpec) (toks : List Token) :
    LexReturns src spec toks ↔ Tiles src spec 0 toks := by
  constructor
  · rintro ⟨fuel, h⟩
    rw [splitTokens, ← exactLoc_zero src] at h
    exact iterTokens_ret (Nat.zero_le _) h
  · intro h
    refine ⟨src.length + 1, ?_⟩
    have hne := iterTokens_terminates (loc := exactLoc src 0) (Nat.zero_le _) h.no_empty
      (fuel := src.length + 1) (by omega)
    rw [splitTokens, ← exactLoc_zero src]
    cases hr : iterTokens src spec (src.length + 1) 0 (exactLoc src 0) with
    | diverge => exact absurd hr hne
    | raise e =>
      obtain ⟨j, h1, h2, h3, -⟩ := iterTokens_raise (Nat.zero_le _) hr
      exact absurd h3 (h.no_fail j h1 h2)
    | ret toks' =>
      rw [(iterTokens_ret (Nat.zero_le _) hr).unique h]

theorem Reaches.le {i j : Nat} (h : Reaches src spec i j) (hi : i ≤ src.length) :
    i ≤ j ∧ j ≤ src.length := by
  induction h with
  | here => exact ⟨Nat.le_refl _, hi⟩
  | step h1 h2 _ ih =>
    have := spec.bounds _ _ _ hi h2
    have := ih this.2; omega

/-- The position where no match is found is unique, and no empty match comes before it. -/
theorem Reaches.no_empty {i q : Nat} (h : Reaches src spec i q) (hq : q < src.length)
    (hn : spec.run src q = none) :
    ∀ j m, Reaches src spec i j → j < src.length → spec.run src j = some m → m.stop ≠ j := by
  induction h with
  | here =>
    intro j m hr hj hm
    cases hr with
    | here => rw [hn] at hm; cases hm
    | step _ h2 _ => rw [hn] at h2; cases h2
  | step hlt hm _ ih =>
    intro j m hr hj hm2
    have ih := ih hq hn
    cases hr with
    | here =>
      rw [hm] at hm2; cases hm2
      intro he
      exact ih _ _ (by rw [he]; exact .here) hlt hm he
    | step _ hm3 hr => rw [hm] at hm3; cases hm3; exact ih j m hr hj hm2

theorem Reaches.fail_unique {i q q' : Nat} (h : Reaches src spec i q) (hn : spec.run src q = none)
    (h' : Reaches src spec i q') (hn' : spec.run src q' = none) : q = q' := by
  induction h with
  | here =>
    cases h' with
    | here => rfl
    | step _ h2 _ => rw [hn] at h2; cases h2
  | step hlt hm _ ih =>
    cases h' with
    | here => rw [hn'] at hm; cases hm
    | step _ h2 h3 => rw [hm] at h2; cases h2; exact ih hn h3

/-- C37. `split_tokens` raises exactly if it reaches a position, before the end, at which the
specification does not match; it raises `LexError` with the exact location of this position. -/
theorem C37_raises_iff (src : List Char) (spec : LexSpec) (e : Exn) :
    LexRaises src spec e ↔ ∃ q, Reaches src spec 0 q ∧ q < src.length ∧
      spec.run src q = none ∧ e = .lexError (exactLoc src q) := by
  constructor
  · rintro ⟨fuel, h⟩
    rw [splitTokens, ← exactLoc_zero src] at h
    exact iterTokens_raise (Nat.zero_le _) h
  · rintro ⟨q, h1, h2, h3, rfl⟩
    refine ⟨src.length + 1, ?_⟩
    have hne := iterTokens_terminates (loc := exactLoc src 0) (Nat.zero_le _)
      (h1.no_empty h2 h3) (fuel := src.length + 1) (by omega)
    rw [splitTokens, ← exactLoc_zero src]
    cases hr : iterTokens src spec (src.length + 1) 0 (exactLoc src 0) with
    | diverge => exact absurd hr hne
    | ret toks =>
      exact absurd h3 ((iterTokens_ret (Nat.zero_le _) hr).no_fail q h1 h2)
    | raise e =>
      obtain ⟨j, h4, h5, h6, rfl⟩ := iterTokens_raise (Nat.zero_le _) hr
      rw [h4.fail_unique h6 h1 h3]

/-- C38. `split_tokens` does not return exactly if it reaches an empty match. -/
theorem C38_hangs_iff (src : List Char) (spec : LexSpec) :
    LexHangs src spec ↔ ∃ q m, Reaches src spec 0 q ∧ q < src.length ∧
      spec.run src q = some m ∧ m.stop = q := by
  constructor
  · intro h
    apply Classical.byContradiction
    intro hno
    refine iterTokens_terminates (loc := ⟨0, 0, 0⟩) (Nat.zero_le _) (fun j m h1 h2 h3 h4 => ?_)
      (by omega) (h (src.length + 1))
    exact hno ⟨j, m, h1, h2, h3, h4⟩
  · rintro ⟨q, m, h1, h2, h3, h4⟩ fuel
    exact iterTokens_hangs h1 h2 h3 h4

/-- C38. In particular it returns or raises if the specification never matches the empty string. -/
theorem C38_terminates (src : List Char) (spec : LexSpec)
    (h : ∀ i m, spec.run src i = some m → m.stop ≠ i) :
    (∃ toks, LexReturns src spec toks) ∨ ∃ e, LexRaises src spec e := by
  cases hr : splitTokens src spec (src.length + 1) with
  | diverge =>
    exact absurd hr (iterTokens_terminates (Nat.zero_le _) (fun j m _ _ hm => h j m hm)
      (by omega))
  | ret toks => exact .inl ⟨toks, _, hr⟩
  | raise e => exact .inr ⟨e, _, hr⟩

/-! ### Consequences -/

/-- Each token spans a part of the source, from `i` on. -/
theorem Tiles.spans {i : Nat} {toks : List Token} (h : Tiles src spec i toks) :
    (∀ t ∈ toks, i ≤ t.start.pos ∧ t.start.pos ≤ t.stop.pos ∧ t.stop.pos ≤ src.length ∧
      t.start = exactLoc src t.start.pos ∧ t.stop = exactLoc src t.stop.pos) ∧
    toks.Pairwise fun a b => a.stop.pos ≤ b.start.pos := by
  induction h with
  | done => simp
  | space hlt hm _ ht ih =>
    have hb := spec.bounds _ _ _ (Nat.le_of_lt hlt) hm
    refine ⟨fun t h => ?_, ih.2⟩
    have := ih.1 t h
    exact ⟨by omega, this.2⟩
  | @token i m kind value toks hlt hm _ ht ih =>
    have hb := spec.bounds _ _ _ (Nat.le_of_lt hlt) hm
    refine ⟨fun t h => ?_, List.pairwise_cons.2 ⟨fun b hb' => ?_, ih.2⟩⟩
    · rcases List.mem_cons.1 h with rfl | h
      · exact ⟨Nat.le_refl _, hb.1, hb.2, rfl, rfl⟩
      · have := ih.1 t h
        exact ⟨by omega, this.2⟩
    · exact (ih.1 b hb').1

/-- C37. The tokens lie within the source, in order, without overlap, and both locations of each are
exact. -/
theorem C37_spans {toks : List Token} (h : LexReturns src spec toks) :
    (∀ t ∈ toks, t.start.pos ≤ t.stop.pos ∧ t.stop.pos ≤ src.length ∧
      t.start = exactLoc src t.start.pos ∧ t.stop = exactLoc src t.stop.pos) ∧
    toks.Pairwise fun a b => a.stop.pos ≤ b.start.pos := by
  have := ((C37_returns_iff ..).1 h).spans
  exact ⟨fun t ht => (this.1 t ht).2, this.2⟩

section
variable {ρ : Type} {Γ : ρ → Type} {α : Type} {env : Env Token ρ Γ} {p : P Token ρ Γ α}
  {toks : List Token}

theorem TokenLoc.exact (h : LexReturns src spec toks) {q : Nat} {loc : Loc}
    (hl : TokenLoc toks q loc) (hne : toks ≠ []) :
    loc.pos ≤ src.length ∧ loc = exactLoc src loc.pos := by
  have hs := (C37_spans h).1
  cases hl with
  | token h1 =>
    have h2 := hs _ (List.mem_of_getElem? h1)
    exact ⟨by omega, h2.2.2.1⟩
  | atEnd _ h1 =>
    have h2 := hs _ (List.mem_of_getLast? h1)
    exact ⟨h2.2.1, h2.2.2.2⟩
  | empty h1 => exact absurd h1 hne

/-- C35 and C37 together: if the tokens come from `split_tokens`, the locations that `lexer.parse`
reports are exact locations of the source text. -/
theorem C35_source_locations (h : LexReturns src spec toks) (hne : toks ≠ [])
    (hp : Everywhere env P.notLayout p) (fmt : Loc → String) {b b' : Bool} {k : Int}
    {r : Result Token α} {pe : ParseError} (hr : Returns env p toks ⟨b, k, lexerGetLoc⟩ r)
    (he : r.unwrap fmt b' = .error pe) :
    ∀ i ∈ pe.errors, i.loc.pos ≤ src.length ∧ i.loc = exactLoc src i.loc.pos := by
  intro i hi
  obtain ⟨q, h1, h2⟩ := (C35_token_locations hp fmt hr he).mem i hi
  exact h2.exact h hne

theorem TokenLoc.mono (h : LexReturns src spec toks) {q q' : Nat} {loc loc' : Loc}
    (hq : q ≤ q') (hl : TokenLoc toks q loc) (hl' : TokenLoc toks q' loc') (hne : toks ≠ []) :
    loc.pos ≤ loc'.pos := by
  have hs := C37_spans h
  have ord : ∀ {a b : Nat} {t u : Token}, toks[a]? = some t → toks[b]? = some u → a ≤ b →
      t.start.pos ≤ u.start.pos ∧ t.start.pos ≤ u.stop.pos := by
    intro a b t u ha hb hab
    have h1 := hs.1 t (List.mem_of_getElem? ha)
    have h2 := hs.1 u (List.mem_of_getElem? hb)
    by_cases he : a = b
    · subst he; rw [ha] at hb; cases hb; omega
    · obtain ⟨ha1, ha2⟩ := List.getElem?_eq_some_iff.1 ha
      obtain ⟨hb1, hb2⟩ := List.getElem?_eq_some_iff.1 hb
      have := List.pairwise_iff_getElem.1 hs.2 a b ha1 hb1 (by omega)
      rw [ha2, hb2] at this
      omega
  have last : ∀ {u : Token}, toks.getLast? = some u → toks[toks.length - 1]? = some u := by
    intro u hu; rw [List.getLast?_eq_getElem?] at hu; exact hu
  cases hl with
  | token h1 =>
    have hlt := (List.getElem?_eq_some_iff.1 h1).1
    cases hl' with
    | token h2 => exact (ord h1 h2 hq).1
    | atEnd h2 h3 => exact (ord h1 (last h3) (by omega)).2
    | empty h2 => exact absurd h2 hne
  | atEnd h1 h2 =>
    cases hl' with
    | token h3 =>
      have hlt := (List.getElem?_eq_some_iff.1 h3).1
      omega
    | atEnd h3 h4 => rw [h2] at h4; cases h4; exact Nat.le_refl _
    | empty h2 => exact absurd h2 hne
  | empty h2 => exact absurd h2 hne

/-- C41 for `lexer.parse` on the output of `split_tokens`: errors are reported in the order of the
source text. -/
theorem C41_tokens (h : LexReturns src spec toks) (hne : toks ≠ [])
    (hp : Everywhere env P.notLayout p) (fmt : Loc → String) {b b' : Bool} {k : Int}
    {r : Result Token α} {pe : ParseError} (hr : Returns env p toks ⟨b, k, lexerGetLoc⟩ r)
    (he : r.unwrap fmt b' = .error pe) :
    pe.errors.Pairwise fun i j => i.loc.pos ≤ j.loc.pos := by
  rcases C35_token_locations hp fmt hr he with ⟨i, q, h1, -⟩ | ⟨es, v, j, h1, h2⟩
  · rw [h1]; simp
  · have ho := (C41_meaning (h1.inOrder (Nat.zero_le _)).1).2
    clear h1 he
    generalize pe.errors = is at h2
    induction h2 with
    | nil => simp
    | cons h3 h4 h5 ih =>
      have ho := List.pairwise_cons.1 ho
      refine List.pairwise_cons.2 ⟨fun i' hi' => ?_, ih ho.2⟩
      obtain ⟨e', h6, h7⟩ := h5.mem i' hi'
      have := ho.1 e' h6
      exact TokenLoc.mono h (by omega) h4 h7 hne

end

/-! ### Concrete cases -/

example : LexReturns "  ab\n  cd".toList Samples.wordSpec Samples.twoWords := ⟨20, rfl⟩

/-- A specification for letters only, which does not match a digit. -/
def Samples.letterSpec : LexSpec where
  run src pos :=
    match src[pos]? with
    | some c => if c.isAlpha then some ⟨pos + 1, some ("letter", String.singleton c)⟩ else none
    | none => none
  bounds src pos m hp h := by
    split at h
    · next c hc =>
      have := (List.getElem?_eq_some_iff.1 hc).1
      split at h
      · simp only [Option.some.injEq] at h; subst h; simp only; omega
      · simp at h
    · simp at h

example : LexRaises "ab1".toList Samples.letterSpec (.lexError ⟨2, 0, 2⟩) := ⟨20, rfl⟩

/-- A specification that matches the empty string. -/
def Samples.emptySpec : LexSpec where
  run _ pos := some ⟨pos, none⟩
  bounds src pos m hp h := by simp only [Option.some.injEq] at h; subst h; exact ⟨Nat.le_refl _, hp⟩

example : LexHangs "a".toList Samples.emptySpec :=
  (C38_hangs_iff _ _).2 ⟨0, ⟨0, none⟩, .here, by simp, rfl, rfl⟩

/-- The hypotheses of `C35_source_locations` and `C41_tokens` are met, with two errors. -/
example : ∃ r pe, Returns Samples.noTokEnv (.seq (.tokenIns "num" "0") (.seql (.tokenIns "num" "1") .eof))
      Samples.twoWords ⟨true, 5, lexerGetLoc⟩ r ∧ r.unwrap lineColFmtLoc false = .error pe ∧
    pe.errors.map (·.locStr) = ["1:3", "1:3", "1:3"] ∧
    Everywhere Samples.noTokEnv P.notLayout
      (.seq (.tokenIns "num" "0") (.seql (.tokenIns "num" "1") .eof)) :=
  ⟨_, _, ⟨20, rfl⟩, rfl, rfl,
    by simp [P.seq, P.seql, P.tokenIns, P.token, P.All, P.notLayout], fun i => i.elim⟩

end Reparsec
