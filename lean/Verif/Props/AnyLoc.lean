import Verif.Spec.AnyLoc
import Verif.Props.Recovery
import Verif.Props.Prefix
import Verif.Props.Json
import Verif.Props.Budget

/-!
# C76: `get_loc` only decides which locations are reported
-/

namespace Reparsec

variable {τ ρ : Type} {Γ : ρ → Type} {α : Type}

/-! ### Lemmas -/

/-- A discipline for parsers without layout: columns are never asked for. -/
def LocDisc.flat {s : List τ} (D : LocDisc s) : LocDisc s where
  g := D.g
  I := D.I
  rel := D.rel
  col _ c := c = 0
  layout := False
  report := D.report
  stay := D.stay
  update := D.update
  here := by intro h; exact h.elim
  there := by intro h; exact h.elim

theorem CtxOK.flat {s : List τ} {D : LocDisc s} {ctx : Ctx τ} {i : Nat} (h : CtxOK D ctx i) :
    CtxOK D.flat ctx i := ⟨h.g, h.inv⟩

theorem Each.join {A B C : Type} {R : A → B → Prop} {S : A → C → Prop} {T : B → C → Prop}
    (hT : ∀ a b c, R a b → S a c → T b c) {as : List A} {bs : List B} (h : Each R as bs) :
    ∀ {cs : List C}, Each S as cs → Each T bs cs := by
  induction h with
  | nil => intro cs h; cases h; exact .nil
  | cons h _ ih =>
    intro cs h'
    cases h' with
    | cons h1 h' => exact .cons (hT _ _ _ h h1) (ih h')

theorem CandIs.relocated {rel rel' : Nat → Loc → Prop} {R : Loc → Loc → Prop}
    (hR : ∀ q l l', rel q l → rel' q l' → R l l') (c : Cand α) (x y : Repair τ α) (hx : CandIs rel c x)
    (hy : CandIs rel' c y) : x.Relocated R y where
  cost := hx.cost.symm.trans hy.cost
  prio := by rw [← hx.auto, ← hy.auto]
  ins := hx.left.symm.trans hy.left
  ops := hx.fixes.join (fun _ _ _ h h' => ⟨hR _ _ _ h.1 h'.1, h.2.1.symm.trans h'.2.1,
    h.2.2.1.symm.trans h'.2.2.1, h.2.2.2.symm.trans h'.2.2.2⟩) hy.fixes
  value := hx.value.symm.trans hy.value
  pos := hx.stop.symm.trans hy.stop
  expected := hx.wants.symm.trans hy.wants
  consumed := hx.begun.symm.trans hy.begun

theorem Repair.Relocated.keyLt {R : Loc → Loc → Prop} {x y x' y' : Repair τ α} (hx : x.Relocated R x')
    (hy : y.Relocated R y') : keyLt x y = keyLt x' y' := by
  have h1 : x.prio.isSome = x'.prio.isSome := by
    rw [Bool.eq_iff_iff, Option.isSome_iff_ne_none, Option.isSome_iff_ne_none]; exact not_congr hx.prio
  have h2 : y.prio.isNone = y'.prio.isNone := by
    rw [Bool.eq_iff_iff, Option.isNone_iff_eq_none, Option.isNone_iff_eq_none]; exact hy.prio
  simp only [Reparsec.keyLt, hx.cost, hy.cost, hx.pos, hy.pos, h1, h2]

theorem minRepair_relocated {R : Loc → Loc → Prop} {xs ys : List (Repair τ α)}
    (h : Each (Repair.Relocated R) xs ys) : ∀ {x y : Repair τ α}, x.Relocated R y →
      (minRepair x xs).Relocated R (minRepair y ys) := by
  induction h with
  | nil => exact fun h => h
  | cons h _ ih =>
    intro x y hxy
    simp only [minRepair, h.keyLt hxy]
    split
    · exact ih h
    · exact ih hxy

theorem Each.map_map {A B C D : Type} {R : A → B → Prop} {T : C → D → Prop} {f : A → C} {g : B → D}
    (hT : ∀ a b, R a b → T (f a) (g b)) {as : List A} {bs : List B} (h : Each R as bs) :
    Each T (as.map f) (bs.map g) := by
  induction h with
  | nil => exact .nil
  | cons h _ ih => exact .cons (hT _ _ h) ih

/-- What `unwrap` makes of results that differ in their locations only. -/
theorem Result.Relocated.unwrap {R : Loc → Loc → Prop} {r r' : Result τ α} (h : r.Relocated R r')
    (fmt fmt' : Loc → String) (b : Bool) : RelocatedUnwrap R (r.unwrap fmt b) (r'.unwrap fmt' b) := by
  cases r with
  | ok x =>
    cases r' with
    | ok y => exact h.1
    | error => exact h.elim
    | recovered => exact h.elim
  | error d =>
    cases r' with
    | ok y => exact h.elim
    | error => exact .cons ⟨h.1, h.2.1, rfl⟩ .nil
    | recovered => exact h.elim
  | recovered x =>
    cases r' with
    | ok y => exact h.elim
    | error => exact h.elim
    | recovered y =>
      obtain ⟨h1, h2, h3, h4⟩ := h
      simp only [Result.unwrap]
      cases hx : x.repairs with
      | nil =>
        rw [hx] at h4
        cases hy : y.repairs with
        | nil => exact .cons ⟨h1, h2, rfl⟩ .nil
        | cons a as => rw [hy] at h4; cases h4
      | cons a as =>
        rw [hx] at h4
        cases hy : y.repairs with
        | nil => rw [hy] at h4; cases h4
        | cons c cs =>
          rw [hy] at h4
          cases h4 with
          | cons h5 h6 =>
            have h7 := minRepair_relocated h6 h5
            cases b with
            | true => exact h7.value
            | false => exact h7.ops.map_map fun i j h => ⟨h.loc, h.expected, congrArg some h.op⟩

section
variable [BEq τ] {env : Env τ ρ Γ} {p : P τ ρ Γ α} {s : List τ}

theorem comesTo_relocated {gl gl' : Loc → List τ → Nat → Loc} {rel rel' : Nat → Loc → Prop}
    {R : Loc → Loc → Prop} (hR : ∀ q l l', rel q l → rel' q l' → R l l') {o : Outcome α}
    (h : ComesTo env p s gl rel o) (h' : ComesTo env p s gl' rel' o) :
    (∀ r, Returns env p s (plain gl) r → ∃ r', Returns env p s (plain gl') r' ∧ r.Relocated R r') ∧
      ∀ e, Raises env p s (plain gl) e → Raises env p s (plain gl') e := by
  cases o with
  | accepts v j w =>
    obtain ⟨r, h1, rfl, rfl, rfl⟩ := h
    obtain ⟨r', h1', h2, h3, h4⟩ := h'
    refine ⟨fun x hx => ?_, fun e he => (returns_not_raises h1 he).elim⟩
    cases returns_unique hx h1
    exact ⟨_, h1', h2.symm, h3.symm, h4.symm⟩
  | fails x =>
    cases x with
    | rejects q w b =>
      obtain ⟨r, h1, h0, rfl, rfl⟩ := h
      obtain ⟨r', h1', h2, h3, h4⟩ := h'
      refine ⟨fun x hx => ?_, fun e he => (returns_not_raises h1 he).elim⟩
      cases returns_unique hx h1
      exact ⟨_, h1', hR _ _ _ h0 h2, h3.symm, h4.symm⟩
    | raises e =>
      refine ⟨fun x hx => (returns_not_raises hx h).elim, fun e' he => ?_⟩
      cases raises_unique he h
      exact h'

theorem findsTo_relocated {gl gl' : Loc → List τ → Nat → Loc} {rel rel' : Nat → Loc → Prop}
    {R : Loc → Loc → Prop} (hR : ∀ q l l', rel q l → rel' q l' → R l l') {k : Int} {o : Finding α}
    (h : FindsTo env p s k gl rel o) (h' : FindsTo env p s k gl' rel' o) :
    (∀ r, Returns env p s (recovering k gl) r →
        ∃ r', Returns env p s (recovering k gl') r' ∧ r.Relocated R r') ∧
      ∀ e, Raises env p s (recovering k gl) e → Raises env p s (recovering k gl') e := by
  cases o with
  | accepts v j w =>
    obtain ⟨r, h1, rfl, rfl, rfl⟩ := h
    obtain ⟨r', h1', h2, h3, h4⟩ := h'
    refine ⟨fun x hx => ?_, fun e he => (returns_not_raises h1 he).elim⟩
    cases returns_unique hx h1
    exact ⟨_, h1', h2.symm, h3.symm, h4.symm⟩
  | rejects q w b =>
    obtain ⟨r, h1, h0, rfl, rfl⟩ := h
    obtain ⟨r', h1', h2, h3, h4⟩ := h'
    refine ⟨fun x hx => ?_, fun e he => (returns_not_raises h1 he).elim⟩
    cases returns_unique hx h1
    exact ⟨_, h1', hR _ _ _ h0 h2, h3.symm, h4.symm⟩
  | repairs cs q w b =>
    obtain ⟨r, h1, h0, rfl, rfl, he⟩ := h
    obtain ⟨r', h1', h2, h3, h4, he'⟩ := h'
    refine ⟨fun x hx => ?_, fun e he => (returns_not_raises h1 he).elim⟩
    cases returns_unique hx h1
    exact ⟨_, h1', hR _ _ _ h0 h2, h3.symm, h4.symm, he.join (CandIs.relocated hR) he'⟩
  | raises e =>
    refine ⟨fun x hx => (returns_not_raises hx h).elim, fun e' he => ?_⟩
    cases raises_unique he h
    exact h'

/-- Two disciplines: what the calls with one `get_loc` do, those with the other do as well. -/
theorem relocate (D D' : LocDisc s) (hc : CtxOK D (initCtx D.g) 0) (hc' : CtxOK D' (initCtx D'.g) 0)
    {R : Loc → Loc → Prop} (hR : ∀ q l l', D.rel q l → D'.rel q l' → R l l')
    (hl : Everywhere env P.notLayout p) (b : Bool) (k : Int) :
    (∀ r, Returns env p s ⟨b, k, D.g⟩ r → ∃ r', Returns env p s ⟨b, k, D'.g⟩ r' ∧ r.Relocated R r') ∧
      (∀ e, Raises env p s ⟨b, k, D.g⟩ e → Raises env p s ⟨b, k, D'.g⟩ e) ∧
      (Hangs env p s ⟨b, k, D'.g⟩ → Hangs env p s ⟨b, k, D.g⟩) := by
  cases b with
  | false =>
    have hp : ∀ (gl : Loc → List τ → Nat → Loc) n, parse env n p s false k gl = parse env n p s false 5 gl :=
      fun gl n => by rw [parse_plain, parse_plain]
    have hret : ∀ gl r, Returns env p s ⟨false, k, gl⟩ r ↔ Returns env p s (plain gl) r :=
      fun gl r => by simp only [Returns, plain, hp]
    have hrai : ∀ gl r, Raises env p s ⟨false, k, gl⟩ r ↔ Raises env p s (plain gl) r :=
      fun gl r => by simp only [Raises, plain, hp]
    have hhan : ∀ gl, Hangs env p s ⟨false, k, gl⟩ ↔ Hangs env p s (plain gl) :=
      fun gl => by simp only [Hangs, plain, hp]
    simp only [hret, hrai, hhan]
    rcases comesTo_cases (p := p) D.flat hc.flat (.inr hl) with h | ⟨o, h1, h2⟩
    · exact ⟨fun r hr => absurd h (returns_not_hangs hr), fun e he => absurd h (raises_not_hangs he),
        fun _ => h⟩
    · have h3 := eval_comesTo D'.flat hc'.flat (fun _ _ _ h h' => h.trans h'.symm) (.inr hl) h1
      have h4 := comesTo_relocated hR h2 h3
      exact ⟨h4.1, h4.2, fun h => absurd h h3.not_hangs⟩
  | true =>
    rcases findsTo_cases (p := p) (k := k) D.flat hc.flat (.inr hl) with h | ⟨o, h1, h2⟩
    · exact ⟨fun r hr => absurd h (returns_not_hangs hr), fun e he => absurd h (raises_not_hangs he),
        fun _ => h⟩
    · have h3 := rec_findsTo D'.flat hc'.flat (fun _ _ _ h h' => h.trans h'.symm) (.inr hl) h1
      have h4 := findsTo_relocated hR h2 h3
      exact ⟨h4.1, h4.2, fun h => absurd h h3.not_hangs⟩

/-! ### Any two `get_loc` -/

/-- **C76**: for a parser without layout combinators, calls of `parse` that differ in `get_loc` only — two arbitrary
functions — return the same result up to locations: the same success, the same error, or the same repairs in the
same order, with the same costs, operations, values, ends and expected lists. -/
theorem C76_any (gl gl' : Loc → List τ → Nat → Loc) (hl : Everywhere env P.notLayout p) (b : Bool) (k : Int)
    {r : Result τ α} (hr : Returns env p s ⟨b, k, gl⟩ r) :
    ∃ r', Returns env p s ⟨b, k, gl'⟩ r' ∧ r.Relocated (fun _ _ => True) r' :=
  (relocate (flatDisc gl s) (flatDisc gl' s) ⟨rfl, trivial⟩ ⟨rfl, trivial⟩ (fun _ _ _ _ _ => trivial) hl b k).1 r hr

/-- C76: they raise the same exceptions. -/
theorem C76_raises (gl gl' : Loc → List τ → Nat → Loc) (hl : Everywhere env P.notLayout p) (b : Bool) (k : Int)
    (e : Exn) : Raises env p s ⟨b, k, gl⟩ e ↔ Raises env p s ⟨b, k, gl'⟩ e :=
  have h := fun gl gl' => relocate (env := env) (p := p) (flatDisc gl s) (flatDisc gl' s) ⟨rfl, trivial⟩
    ⟨rfl, trivial⟩ (R := fun _ _ => True) (fun _ _ _ _ _ => trivial) hl b k
  ⟨(h gl gl').2.1 e, (h gl' gl).2.1 e⟩

/-- C76: and one of them does not return iff the other does not. -/
theorem C76_hangs (gl gl' : Loc → List τ → Nat → Loc) (hl : Everywhere env P.notLayout p) (b : Bool) (k : Int) :
    Hangs env p s ⟨b, k, gl⟩ ↔ Hangs env p s ⟨b, k, gl'⟩ :=
  have h := fun gl gl' => relocate (env := env) (p := p) (flatDisc gl s) (flatDisc gl' s) ⟨rfl, trivial⟩
    ⟨rfl, trivial⟩ (R := fun _ _ => True) (fun _ _ _ _ _ => trivial) hl b k
  ⟨(h gl' gl).2.2, (h gl gl').2.2⟩

/-- C76, as the user sees it: `unwrap` gives the same value, or raises the same errors up to locations. -/
theorem C76_unwrap (gl gl' : Loc → List τ → Nat → Loc) (fmt fmt' : Loc → String)
    (hl : Everywhere env P.notLayout p) (b b' : Bool) (k : Int) {r r' : Result τ α}
    (hr : Returns env p s ⟨b, k, gl⟩ r) (hr' : Returns env p s ⟨b, k, gl'⟩ r') :
    RelocatedUnwrap (fun _ _ => True) (r.unwrap fmt b') (r'.unwrap fmt' b') := by
  obtain ⟨r0, h1, h2⟩ := C76_any gl gl' hl b k hr
  cases returns_unique hr' h1
  exact h2.unwrap fmt fmt' b'

end

/-! ### The `get_loc` functions of the library -/

/-- C76, `scannerless.parse` against `parse`: the result is the one of `parse`, with every position (the location
`Loc(pos, 0, 0)`) replaced by its exact line and column. -/
theorem C76_text {env : Env Char ρ Γ} {p : P Char ρ Γ α} {s : List Char} (hl : Everywhere env P.notLayout p)
    (b : Bool) (k : Int) {r : Result Char α} (hr : Returns env p s ⟨b, k, defaultGetLoc⟩ r) :
    ∃ r', Returns env p s ⟨b, k, scannerlessGetLoc⟩ r' ∧ r.Relocated (fun l l' => l' = exactLoc s l.pos) r' :=
  (relocate (defaultDisc s) (scannerlessDisc s) defaultDisc_ctx (scannerlessDisc_ctx s)
    (fun _ _ _ (h : _ = _) (h' : _ = _) => by rw [h, h']) hl b k).1 r hr

/-- C76, `lexer.parse` against `parse` on the list of tokens: the result is the one of `parse`, with every position
replaced by the location of the token there. -/
theorem C76_tokens {env : Env Token ρ Γ} {p : P Token ρ Γ α} {s : List Token} (hl : Everywhere env P.notLayout p)
    (b : Bool) (k : Int) {r : Result Token α} (hr : Returns env p s ⟨b, k, defaultGetLoc⟩ r) :
    ∃ r', Returns env p s ⟨b, k, lexerGetLoc⟩ r' ∧ r.Relocated (fun l l' => TokenLoc s l.pos l') r' :=
  (relocate (defaultDisc s) (lexerDisc s) defaultDisc_ctx (lexerDisc_ctx s)
    (fun _ _ _ (h : _ = _) h' => by rw [h]; exact lexerDisc_rel s h') hl b k).1 r hr

/-! ### C71 with lines and columns -/

/-- C71 under `scannerless.parse`: the error is reported at the line and column where the longest prefix ends that
begins a word of the grammar. -/
theorem C71_longest_text {env : Env Char ρ Γ} {p : P Char ρ Γ α} {s : List Char} (h : IsLL1 env p)
    (hcf : Everywhere env P.contextFree p) (hwf : WellFounded fun j i => LeftCalls env i j)
    (h1 : Everywhere env P.oneAhead p) (h2 : Everywhere env (fun p => p.totalMap env ∧ p.productive env) p) {e : Err}
    (hr : Returns env (P.seql p .eof) s (plain scannerlessGetLoc) (.error e)) :
    ∃ q, e.loc = exactLoc s q ∧
      (∀ n, n ≤ s.length → ((∃ rest v, Lang env p (s.take n ++ rest) v) ↔ n ≤ q)) ∧ ∀ v, ¬ Lang env p s v := by
  have hl : Everywhere env P.notLayout (P.seql p .eof) :=
    ⟨⟨trivial, hcf.1.mono fun _ h => h.2.2, trivial⟩, fun i q hq => (hcf.2 i q hq).mono fun _ h => h.2.2⟩
  obtain ⟨r, h3, h4⟩ := (relocate (scannerlessDisc s) (defaultDisc s) (scannerlessDisc_ctx s) defaultDisc_ctx
    (R := fun l l' => l = exactLoc s l'.pos)
    (fun _ _ _ (h : _ = _) (h' : _ = _) => by rw [h, h']) hl false 5).1 _ hr
  cases r with
  | ok => exact h4.elim
  | recovered => exact h4.elim
  | error d =>
    have h5 := C71_longest h hcf hwf h1 h2 h3
    exact ⟨d.loc.pos, h4.1, h5⟩

/-- C71 under `lexer.parse`: the error is reported at the token where the longest prefix ends that begins a word of the
grammar. -/
theorem C71_longest_tokens {env : Env Token ρ Γ} {p : P Token ρ Γ α} {s : List Token} (h : IsLL1 env p)
    (hcf : Everywhere env P.contextFree p) (hwf : WellFounded fun j i => LeftCalls env i j)
    (h1 : Everywhere env P.oneAhead p) (h2 : Everywhere env (fun p => p.totalMap env ∧ p.productive env) p) {e : Err}
    (hr : Returns env (P.seql p .eof) s (plain lexerGetLoc) (.error e)) :
    ∃ q, TokenLoc s q e.loc ∧
      (∀ n, n ≤ s.length → ((∃ rest v, Lang env p (s.take n ++ rest) v) ↔ n ≤ q)) ∧ ∀ v, ¬ Lang env p s v := by
  have hl : Everywhere env P.notLayout (P.seql p .eof) :=
    ⟨⟨trivial, hcf.1.mono fun _ h => h.2.2, trivial⟩, fun i q hq => (hcf.2 i q hq).mono fun _ h => h.2.2⟩
  obtain ⟨r, h3, h4⟩ := (relocate (lexerDisc s) (defaultDisc s) (lexerDisc_ctx s) defaultDisc_ctx
    (R := fun l l' => TokenLoc s l'.pos l)
    (fun _ _ _ h (h' : _ = _) => by rw [h']; exact lexerDisc_rel s h) hl false 5).1 _ hr
  cases r with
  | ok => exact h4.elim
  | recovered => exact h4.elim
  | error d =>
    have h5 := C71_longest h hcf hwf h1 h2 h3
    exact ⟨d.loc.pos, h4.1, h5⟩

/-! ### JSON -/

section
open Json
variable {F : Type} {J : Fns F}

theorem Json.oneAhead (J : Fns F) : Everywhere (env J) P.oneAhead value := by
  refine ⟨trivial, ?_⟩
  rintro i q ⟨⟩
  simp [P.All, scalar, integer, number, boolean, null, string, jsonDict, jsonList, P.between, member, P.sepBy, P.map,
    P.seq, value, P.seqr, P.seql, P.token, punct, P.oneAhead]

theorem Json.viable (hu : ∀ x, ∃ v, J.unescape x = .ok v) (hi : ∀ x, ∃ v, J.int x = .ok v)
    (hf : ∀ x, ∃ v, J.float x = .ok v) :
    Everywhere (env J) (fun p => p.totalMap (env J) ∧ p.productive (env J)) value := by
  have htok : ∀ k, (.token k : E F Token).All fun p => p.totalMap (env J) ∧ p.productive (env J) := fun k =>
    have h : Lang (env J) (.token k : E F Token) [⟨k, "", ⟨0, 0, 0⟩, ⟨0, 0, 0⟩⟩] _ := lang_token.2 ⟨rfl, rfl⟩
    ⟨⟨trivial, _, _, h⟩, trivial, _, _, h.inv⟩
  have hpun : ∀ x, (punct x : E F Token).All fun p => p.totalMap (env J) ∧ p.productive (env J) := fun x =>
    ⟨trivial, [⟨"punct", x, ⟨0, 0, 0⟩, ⟨0, 0, 0⟩⟩], _, lang_punct.2 ⟨rfl, rfl, rfl⟩⟩
  have hmap : ∀ {α β : Type} {p : E F α} {f : α → Except Exn β}, (∀ a, ∃ b, f a = .ok b) →
      (p.All fun p => p.totalMap (env J) ∧ p.productive (env J)) →
      (P.fmap p f).All fun p => p.totalMap (env J) ∧ p.productive (env J) := by
    intro α β p f h hp
    obtain ⟨w, a, hw⟩ := hp.here.2
    obtain ⟨b, hb⟩ := h a
    exact ⟨⟨fun _ a _ => h a, w, b, .fmap hw hb⟩, hp⟩
  have hseq : ∀ {α β γ : Type} {p : E F α} {q : E F β} {f : α → β → γ},
      (p.All fun p => p.totalMap (env J) ∧ p.productive (env J)) →
      (q.All fun p => p.totalMap (env J) ∧ p.productive (env J)) →
      (P.seqWith p q f).All fun p => p.totalMap (env J) ∧ p.productive (env J) := by
    intro α β γ p q f hp hq
    obtain ⟨w, a, hw⟩ := hp.here.2
    obtain ⟨w', b, hw'⟩ := hq.here.2
    exact ⟨⟨trivial, _, _, .seqWith hw hw'⟩, hp, hq⟩
  have halt : ∀ {α : Type} {p q : E F α},
      (p.All fun p => p.totalMap (env J) ∧ p.productive (env J)) →
      (q.All fun p => p.totalMap (env J) ∧ p.productive (env J)) →
      (P.alt p q).All fun p => p.totalMap (env J) ∧ p.productive (env J) := by
    intro α p q hp hq
    obtain ⟨w, a, hw⟩ := hp.here.2
    exact ⟨⟨trivial, _, _, .altL hw⟩, hp, hq⟩
  have hmany : ∀ {α : Type} {p : E F α}, (p.All fun p => p.totalMap (env J) ∧ p.productive (env J)) →
      (P.many p).All fun p => p.totalMap (env J) ∧ p.productive (env J) :=
    fun hp => ⟨⟨trivial, _, _, .manyNil⟩, hp⟩
  have hlab : ∀ {α : Type} {p : E F α} {l : String}, (p.All fun p => p.totalMap (env J) ∧ p.productive (env J)) →
      (P.label p l).All fun p => p.totalMap (env J) ∧ p.productive (env J) := by
    intro α p l hp
    obtain ⟨w, a, hw⟩ := hp.here.2
    exact ⟨⟨trivial, _, _, .label hw⟩, hp⟩
  have hrw : ∀ {α : Type} {p : E F α} {v : α} {l : String},
      (p.All fun p => p.totalMap (env J) ∧ p.productive (env J)) →
      (P.recoverWith p v l).All fun p => p.totalMap (env J) ∧ p.productive (env J) := by
    intro α p v l hp
    obtain ⟨w, a, hw⟩ := hp.here.2
    exact ⟨⟨trivial, _, _, .recoverWith hw⟩, hp⟩
  have hrec : ∀ {α : Type} {p : E F α}, (p.All fun p => p.totalMap (env J) ∧ p.productive (env J)) →
      (P.recover p).All fun p => p.totalMap (env J) ∧ p.productive (env J) := by
    intro α p hp
    obtain ⟨w, a, hw⟩ := hp.here.2
    exact ⟨⟨trivial, _, _, .recover hw⟩, hp⟩
  have hval : (value : E F (V F)).All fun p => p.totalMap (env J) ∧ p.productive (env J) :=
    ⟨trivial, [⟨"null", "null", ⟨0, 0, 0⟩, ⟨0, 0, 0⟩⟩], .null, lang_iff.2 (.null rfl)⟩
  have hsep : ∀ {α : Type} {p : E F α}, (p.All fun p => p.totalMap (env J) ∧ p.productive (env J)) →
      (P.sepBy p (punct ",")).All fun p => p.totalMap (env J) ∧ p.productive (env J) := by
    intro α p hp
    exact hmap (fun a => ⟨_, rfl⟩) ⟨⟨trivial, _, _, .maybeNone⟩, hseq hp (hmany (hseq (hpun _) hp))⟩
  have hbet : ∀ {α : Type} {p : E F α} {a b : String}, (p.All fun p => p.totalMap (env J) ∧ p.productive (env J)) →
      (P.between (punct a) (punct b) p).All fun p => p.totalMap (env J) ∧ p.productive (env J) :=
    fun hp => hseq (hpun _) (hseq hp (hpun _))
  have hstr := hmap (p := (.token "string" : E F Token)) (f := fun t => J.unescape t.value) (fun t => hu _)
    (htok _)
  refine ⟨hval, ?_⟩
  rintro i q ⟨⟩
  refine hlab (halt (halt (hrw (halt (halt (halt (halt ?_ ?_) ?_) ?_) ?_)) (hrec (hlab (hbet (hmap ?_ (hsep ?_))))))
    (hrec (hlab (hbet (hmap ?_ (hsep hval))))))
  · exact hmap (fun t => by obtain ⟨v, h⟩ := hi t.value; exact ⟨_, by rw [h]; rfl⟩) (htok _)
  · exact hmap (fun t => by obtain ⟨v, h⟩ := hf t.value; exact ⟨_, by rw [h]; rfl⟩) (htok _)
  · exact hmap (fun t => ⟨_, rfl⟩) (htok _)
  · exact hmap (fun t => ⟨_, rfl⟩) (htok _)
  · exact hmap (fun t => ⟨_, rfl⟩) hstr
  · exact fun a => ⟨_, rfl⟩
  · exact hseq (hseq (hrw hstr) (hpun _)) hval
  · exact fun a => ⟨_, rfl⟩

/-- **C75**, the error: if `unescape`, `int` and `float` do not raise, the error of `loads` is reported at the token
where the longest prefix of the tokens ends that begins a JSON text; and the tokens are no JSON text. -/
theorem C75_longest (hu : ∀ x, ∃ v, J.unescape x = .ok v) (hi : ∀ x, ∃ v, J.int x = .ok v)
    (hf : ∀ x, ∃ v, J.float x = .ok v) {s : List Token} {e : Err}
    (hr : Returns (env J) parser s (plain lexerGetLoc) (.error e)) :
    ∃ q, TokenLoc s q e.loc ∧
      (∀ n, n ≤ s.length → ((∃ rest v, Denotes J (s.take n ++ rest) v) ↔ n ≤ q)) ∧ ∀ v, ¬ Denotes J s v := by
  have h := C71_longest_tokens (ll1 J) (contextFree J) (wf J) (oneAhead J) (viable hu hi hf) hr
  simpa only [lang_iff] using h

end

/-! ### Cases that meet the hypotheses, and why they are there -/

namespace Samples

/-- `sym("a") >> pure(()).indented(1)`, without the line break: what follows the `a` is in column 1. -/
def inColumn1 : P Char Empty (fun _ => Unit) Unit := .seqr (.sym 'a' "'a'") (.indented 1 (.pure ()))

end Samples

/-- C76, layout must be excluded: without columns `sym("a") >> indented(1, ..)` rejects what it accepts with them. -/
theorem C76_layout_false :
    (∃ e, Returns Samples.noEnv Samples.inColumn1 ['a'] (plain defaultGetLoc) (.error e)) ∧
    ∃ r, Returns Samples.noEnv Samples.inColumn1 ['a'] (plain scannerlessGetLoc) (.ok r) :=
  ⟨⟨_, 5, rfl⟩, _, 5, rfl⟩

namespace Samples

theorem brackets_notLayout : Everywhere noEnv P.notLayout brackets := by
  refine ⟨?_, fun i => i.elim⟩
  simp only [brackets, P.seql, P.seqr, P.sepBy, P.seq, P.All, P.notLayout, and_self, P.map]

/-- The same repaired value, with and without lines and columns. -/
example : Everywhere noEnv P.notLayout brackets ∧
    (∃ r, Returns noEnv brackets "(a,".toList (recovering 5 defaultGetLoc) r ∧
      r.unwrap defaultFmtLoc true = .ok ['a', 'a']) ∧
    ∃ r, Returns noEnv brackets "(a,".toList (recovering 5 scannerlessGetLoc) r ∧
      r.unwrap lineColFmtLoc true = .ok ['a', 'a'] :=
  ⟨brackets_notLayout, ⟨_, ⟨20, rfl⟩, rfl⟩, _, ⟨20, rfl⟩, rfl⟩

/-- Functions that never raise. -/
def jsonTotal : Json.Fns String where
  unescape := .ok
  int _ := .ok 0
  float := .ok

/-- `[2,]` fails at its end. -/
theorem json_trailing : Returns (Json.env jsonTotal) Json.parser [mark "[", word "integer" "2", mark ",", mark "]"]
    (plain defaultGetLoc) (.error ⟨⟨3, 0, 0⟩, ["value"], true⟩) := ⟨40, rfl⟩

/-- JSON texts begin with `[2,`, none begins with `[2,]`. -/
example : (∃ rest v, Json.Denotes jsonTotal ([mark "[", word "integer" "2", mark ","] ++ rest) v) ∧
    ∀ rest v, ¬ Json.Denotes jsonTotal ([mark "[", word "integer" "2", mark ",", mark "]"] ++ rest) v := by
  have h := (C71_longest (Json.ll1 jsonTotal) (Json.contextFree _) (Json.wf _) (Json.oneAhead _)
    (Json.viable (fun _ => ⟨_, rfl⟩) (fun _ => ⟨_, rfl⟩) (fun _ => ⟨_, rfl⟩)) json_trailing).1
  refine ⟨?_, fun rest v hv => ?_⟩
  · obtain ⟨rest, v, h⟩ := (h 3 (Nat.le_succ 3)).2 (Nat.le_refl 3)
    exact ⟨rest, v, Json.lang_iff.1 h⟩
  · have := (h 4 (Nat.le_refl 4)).1 ⟨rest, v, Json.lang_iff.2 hv⟩
    exact absurd this (by decide)

end Samples

end Reparsec
