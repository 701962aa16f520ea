import Verif.Lemmas.Prefix
import Verif.Props.Eval
import Verif.Props.Calculator

/-!
# C71: errors are found as early as possible

The error is at the first element that cannot be right: what comes after it plays no role, no accepted input begins
with what was read and that element, and some word of the grammar begins with what was read before it.
-/

namespace Reparsec

variable {τ ρ : Type} {Γ : ρ → Type} {α : Type}

section
variable [BEq τ] {env : Env τ ρ Γ} {p : P τ ρ Γ α} {s s' : List τ}

/-! ### Lemmas -/

theorem returns_error_eval (D : LocDisc s) (hc : CtxOK D (initCtx D.g) 0)
    (hl : D.layout ∨ Everywhere env P.notLayout p) {e : Err} (h : Returns env p s (plain D.g) (.error e)) :
    ∃ q, D.rel q e.loc ∧ Eval env s D.col p 0 0 (.fails (.rejects q e.expected e.consumed)) := by
  rcases comesTo_cases (p := p) D hc hl with h' | ⟨o, h1, h2⟩
  · exact absurd h' (returns_not_hangs h)
  · cases o with
    | accepts v j w =>
      obtain ⟨r, h2, -⟩ := h2
      cases returns_unique h h2
    | fails x =>
      cases x with
      | rejects q w b =>
        obtain ⟨e', h2, h3, rfl, rfl⟩ := h2
        cases returns_unique h h2
        exact ⟨q, h3, h1⟩
      | raises e' => exact (returns_not_raises h h2).elim

theorem returns_ok_eval (D : LocDisc s) (hc : CtxOK D (initCtx D.g) 0)
    (hl : D.layout ∨ Everywhere env P.notLayout p) {r : Ok τ α} (h : Returns env p s (plain D.g) (.ok r)) :
    Eval env s D.col p 0 0 (.accepts r.value r.pos r.expected) := by
  rcases comesTo_cases (p := p) D hc hl with h' | ⟨o, h1, h2⟩
  · exact absurd h' (returns_not_hangs h)
  · cases o with
    | accepts v j w =>
      obtain ⟨r, h2, rfl, rfl, rfl⟩ := h2
      cases returns_unique h h2
      exact h1
    | fails x =>
      cases x with
      | rejects q w b =>
        obtain ⟨e', h2, h3, rfl, rfl⟩ := h2
        cases returns_unique h h2
      | raises e' => exact (returns_not_raises h h2).elim

/-! ### What comes after the error plays no role -/

/-- **C71**: if `p.parse(s)` fails at position `q`, then so does `p.parse(s')`, with the same error, for every input
`s'` with the same first `q + 1` elements. So no such input is accepted. -/
theorem C71_local (h1 : Everywhere env P.oneAhead p) {e : Err}
    (h : Returns env p s (plain defaultGetLoc) (.error e)) (hs : SameUpTo e.loc.pos s s') :
    Returns env p s' (plain defaultGetLoc) (.error e) := by
  obtain ⟨q, hq, hE⟩ := returns_error_eval (defaultDisc s) defaultDisc_ctx (.inl trivial) h
  have hq : e.loc = ⟨q, 0, 0⟩ := hq
  rw [hq] at hs
  have hE := hE.local h1.2 h1.1 (Nat.zero_le _) (Nat.le_refl q) hs (col' := fun _ c => c = 0) fun _ _ _ h => h
  obtain ⟨e', h2, h3, h4, h5⟩ := (C58_default _).2 hE
  cases e; cases e'
  simp only at hq h3 h4 h5
  subst hq h3 h4 h5
  exact h2

/-- C71, successes: the value, the end and the expected list of a success that ends at `j` depend only on the first
`j + 1` elements. -/
theorem C71_local_success (h1 : Everywhere env P.oneAhead p) {r : Ok τ α}
    (h : Returns env p s (plain defaultGetLoc) (.ok r)) (hs : SameUpTo r.pos s s') :
    ∃ r', Returns env p s' (plain defaultGetLoc) (.ok r') ∧ r'.value = r.value ∧ r'.pos = r.pos ∧
      r'.expected = r.expected := by
  have hE := returns_ok_eval (defaultDisc s) defaultDisc_ctx (.inl trivial) h
  have hE := hE.local h1.2 h1.1 (Nat.zero_le _) (Nat.le_refl r.pos) hs (col' := fun _ c => c = 0) fun _ _ _ h => h
  exact (C58_default _).2 hE

/-! ### No word begins with what was read and the element at the error -/

/-- C71, LL(1) grammars: if `p.parse(s)` fails at position `q`, the grammar derives no input with the same first
`q + 1` elements. With regular expressions, without layout. -/
theorem C71_no_word (h : IsLL1 env p) (hl : Everywhere env P.notLayout p) (h1 : Everywhere env P.oneAhead p) {e : Err}
    (hr : Returns env p s (plain defaultGetLoc) (.error e)) (hs : SameUpTo e.loc.pos s s') (v : α) :
    ¬ Derives env s' anyCol p 0 0 [] v s'.length := by
  intro hd
  have hr := C71_local h1 hr hs
  rcases C55_complete h hl defaultGetLoc hd with hh | ⟨o, ho, -⟩
  · exact returns_not_hangs hr hh
  · cases returns_unique hr ho

/-! ### Some word begins with what was read -/

/-- C71, viability: if every part of the grammar has a word, and `fmap` functions do not raise on the values of words, then
what `p.parse(s)` read before the error begins a word of the grammar. For any grammar, LL(1) or not, with `attempt`
or not. -/
theorem C71_viable (h2 : Everywhere env (fun p => p.totalMap env ∧ p.productive env) p) {e : Err}
    (hr : Returns env p s (plain defaultGetLoc) (.error e)) :
    e.loc.pos ≤ s.length ∧ ∃ rest v, Lang env p (s.take e.loc.pos ++ rest) v := by
  obtain ⟨q, hq, hE⟩ := returns_error_eval (defaultDisc s) defaultDisc_ctx (.inl trivial) hr
  have hq : e.loc = ⟨q, 0, 0⟩ := hq
  obtain ⟨-, h3, rest, v, h4⟩ := hE.viable h2.2 h2.1 (Nat.zero_le _)
  rw [hq]
  exact ⟨h3, rest, v, h4⟩

omit [BEq τ] in
theorem sameUpTo_append {q : Nat} (hq : q < s.length) (rest : List τ) : SameUpTo q s (s.take (q + 1) ++ rest) := by
  show _ = _
  rw [List.take_append_of_le_length (by rw [List.length_take]; omega), List.take_take, Nat.min_self]

omit [BEq τ] in
theorem longest {L : List τ → α → Prop} {q : Nat} (h : ∃ rest v, L (s.take q ++ rest) v)
    (h' : q < s.length → ∀ rest v, ¬ L (s.take (q + 1) ++ rest) v) (n : Nat) (hn : n ≤ s.length) :
    (∃ rest v, L (s.take n ++ rest) v) ↔ n ≤ q := by
  have split : ∀ a b, a ≤ b → s.take b = s.take a ++ (s.take b).drop a := fun a b hab => by
    conv_lhs => rw [← List.take_append_drop a (s.take b)]
    rw [List.take_take, Nat.min_eq_left hab]
  constructor
  · rintro ⟨rest, v, hL⟩
    refine Nat.le_of_not_lt fun hlt => ?_
    rw [split (q + 1) n hlt, List.append_assoc] at hL
    exact h' (by omega) _ _ hL
  · intro hle
    obtain ⟨rest, v, hL⟩ := h
    rw [split n q hle, List.append_assoc] at hL
    exact ⟨_, v, hL⟩

/-- **C71**, exactly: for an LL(1) grammar `p` without left recursion, read as a context-free grammar, if
`(p << eof()).parse(s)` fails at `q` then `q` is the length of the longest prefix of `s` that begins a word of the
grammar; and `s` is not a word. -/
theorem C71_longest (h : IsLL1 env p) (hcf : Everywhere env P.contextFree p)
    (hwf : WellFounded fun j i => LeftCalls env i j) (h1 : Everywhere env P.oneAhead p)
    (h2 : Everywhere env (fun p => p.totalMap env ∧ p.productive env) p) {e : Err}
    (hr : Returns env (P.seql p .eof) s (plain defaultGetLoc) (.error e)) :
    (∀ n, n ≤ s.length → ((∃ rest v, Lang env p (s.take n ++ rest) v) ↔ n ≤ e.loc.pos)) ∧
      ∀ v, ¬ Lang env p s v := by
  have h1' : Everywhere env P.oneAhead (P.seql p .eof) := ⟨⟨trivial, h1.1, trivial⟩, h1.2⟩
  have hno : ∀ {s' : List τ}, SameUpTo e.loc.pos s s' → ∀ v, ¬ Lang env p s' v := by
    intro s' hs v hL
    obtain ⟨r, hr', hv⟩ := (C55_exact h hcf hwf defaultGetLoc defaultFmtLoc v).2 hL
    have hr := C71_local h1' hr hs
    cases returns_unique hr hr'
    simp [Result.unwrap] at hv
  have h2' : Everywhere env (fun p => p.totalMap env ∧ p.productive env) (P.seql p .eof) := by
    obtain ⟨w, v, hL⟩ := h2.1.here.2
    exact ⟨⟨⟨trivial, _, _, .seqWith hL .eof⟩, h2.1, trivial, _, _, .eof⟩, h2.2⟩
  obtain ⟨-, rest, v, hL⟩ := C71_viable h2' hr
  obtain ⟨w, hw⟩ : ∃ rest v, Lang env p (s.take e.loc.pos ++ rest) v := by
    obtain ⟨u, u', b, hu, h3, h4⟩ := lang_seql.1 hL
    have h4 : u' = [] := h4.inv
    subst h4
    rw [List.append_nil] at hu
    exact ⟨rest, v, hu ▸ h3⟩
  refine ⟨longest ⟨w, hw⟩ fun hlt rest v hL => hno (sameUpTo_append hlt rest) v hL, hno rfl⟩

end

/-! ### `scannerless.parse` -/

section
variable {env : Env Char ρ Γ} {p : P Char ρ Γ α} {s s' : List Char}

theorem SameUpTo.exactLoc {q j : Nat} (h : SameUpTo q s s') (hj : j ≤ q) : exactLoc s' j = exactLoc s j := by
  have h : s'.take j = s.take j := by
    have := congrArg (List.take j) h
    rwa [List.take_take, List.take_take, Nat.min_eq_left (by omega)] at this
  simp only [Reparsec.exactLoc, lineStart, h]

/-- C71 under `scannerless.parse`, with layout combinators: the error of a text depends only on the text up to and
including the character at the error. -/
theorem C71_text (h1 : Everywhere env P.oneAhead p) {e : Err}
    (h : Returns env p s (plain scannerlessGetLoc) (.error e)) (hs : SameUpTo e.loc.pos s s') :
    Returns env p s' (plain scannerlessGetLoc) (.error e) := by
  obtain ⟨q, hq, hE⟩ := returns_error_eval (scannerlessDisc s) (scannerlessDisc_ctx s) (.inl trivial) h
  have hq : e.loc = exactLoc s q := hq
  have hqs : SameUpTo q s s' := by rw [hq] at hs; exact hs
  have hE := hE.local h1.2 h1.1 (Nat.zero_le _) (Nat.le_refl q) hqs (col' := textCol s')
    fun j hj c hc => (show c = (Reparsec.exactLoc s' j).col by rw [hqs.exactLoc hj]; exact hc)
  obtain ⟨e', h2, h3, h4, h5⟩ := (C58_text _).2 hE
  rw [hqs.exactLoc (Nat.le_refl q)] at h3
  cases e; cases e'
  simp only at hq h3 h4 h5
  subst hq h3 h4 h5
  exact h2

/-- C71, viability under `scannerless.parse` (of the grammar without its layout). -/
theorem C71_viable_text (h2 : Everywhere env (fun p => p.totalMap env ∧ p.productive env) p) {e : Err}
    (hr : Returns env p s (plain scannerlessGetLoc) (.error e)) :
    e.loc.pos ≤ s.length ∧ ∃ rest v, Lang env p (s.take e.loc.pos ++ rest) v := by
  obtain ⟨q, hq, hE⟩ := returns_error_eval (scannerlessDisc s) (scannerlessDisc_ctx s) (.inl trivial) hr
  have hq : e.loc = exactLoc s q := hq
  obtain ⟨-, h3, rest, v, h4⟩ := hE.viable h2.2 h2.1 (Nat.zero_le _)
  rw [hq]
  exact ⟨h3, rest, v, h4⟩

end

/-! ### The calculator of the README -/

section
open Calculator

namespace Calculator

theorem takeWhile_local {c : Char → Bool} : ∀ {l l' : List Char},
    l'.take ((l.takeWhile c).length + 1) = l.take ((l.takeWhile c).length + 1) →
    l'.takeWhile c = l.takeWhile c := by
  intro l
  induction l with
  | nil => intro l' h; cases l' <;> simp_all
  | cons a l ih =>
    intro l' h
    cases l' with
    | nil => simp at h
    | cons b l' =>
      rw [List.take_succ_cons, List.take_succ_cons] at h
      obtain ⟨rfl, h⟩ := List.cons.inj h
      cases hc : c b with
      | true =>
        simp only [List.takeWhile_cons, hc, if_true, List.length_cons] at h ⊢
        rw [ih h]
      | false => simp [hc]

theorem SameUpTo.drop {i n : Nat} {s s' : List Char} (h : SameUpTo (i + n) s s') :
    (s'.drop i).take (n + 1) = (s.drop i).take (n + 1) := by
  have := congrArg (List.drop i) h
  simpa only [List.drop_take, show i + n + 1 - i = n + 1 by omega] using this

theorem star_oneAhead (c : Char → Bool) : (star c).OneAhead where
  hit s s' i j v h hs := by
    simp only [star, Option.some.injEq, Prod.mk.injEq, Except.ok.injEq] at h ⊢
    obtain ⟨rfl, rfl⟩ := h
    rw [takeWhile_local (SameUpTo.drop hs)]
    exact ⟨rfl, rfl⟩
  miss s s' i h hs := by
    simp [star] at h

theorem plus_oneAhead (c : Char → Bool) : (plus c).OneAhead where
  hit s s' i j v h hs := by
    simp only [plus] at h ⊢
    split at h
    · cases h
    · next hn =>
      simp only [Option.some.injEq, Prod.mk.injEq, Except.ok.injEq] at h
      obtain ⟨rfl, rfl⟩ := h
      rw [takeWhile_local (SameUpTo.drop hs), if_neg hn]
  miss s s' i h hs := by
    have hn : (s.drop i).takeWhile c = [] := by
      rcases h with h | ⟨j, h⟩
      · simp only [plus] at h
        split at h
        · assumption
        · cases h
      · simp only [plus] at h
        split at h
        · cases h
        · simp at h
    refine .inl ?_
    have h2 : (s'.drop i).takeWhile c = (s.drop i).takeWhile c := by
      apply takeWhile_local
      rw [hn]
      exact SameUpTo.drop (n := 0) hs
    simp only [plus]
    rw [h2, if_pos hn]

theorem one_oneAhead (c : Char → Bool) : (one c).OneAhead where
  hit s s' i j v h hs := by
    have hj : i ≤ j := by
      simp only [one] at h
      split at h
      · cases h
      · split at h
        · simp only [Option.some.injEq, Prod.mk.injEq] at h; omega
        · cases h
    simp only [one] at h ⊢
    rw [hs.get hj]
    exact h
  miss s s' i h hs := by
    simp only [one] at h ⊢
    rw [hs.get (Nat.le_refl i)]
    exact h

theorem oneAhead (C : Chars) : Everywhere (env C) P.oneAhead parser := by
  refine ⟨⟨trivial, trivial, trivial⟩, ?_⟩
  rintro i q ⟨⟩
  simp [term, factor, number, mulOp, addOp, lParen, rParen, spaces, expr, P.chainl1, P.between, P.seql, P.seqr,
    P.seq, P.All, P.oneAhead, star_oneAhead, plus_oneAhead, one_oneAhead]

end Calculator

/-- C71 for the calculator of the README: if it fails at `q`, no expression has the same first `q + 1` characters. -/
theorem C71_calculator {C : Chars} (hC : C.OK) {s s' : List Char} {e : Err}
    (hr : Returns (env C) parser s (plain defaultGetLoc) (.error e)) (hs : SameUpTo e.loc.pos s s') (v : Int) :
    ¬ Value C .expr s' v := by
  intro hv
  obtain ⟨r, hr', hv⟩ := (C70_exact hC defaultGetLoc defaultFmtLoc false v).2 hv
  cases returns_unique (C71_local (oneAhead C) hr hs) hr'
  simp [Result.unwrap] at hv

namespace Calculator

variable {C : Chars}

theorem lang_opValue {c : Char → Bool} {w : List Char} {f : Int → Int → Except Exn Int}
    (h : Lang (env C) (.seql (.fmap (.regexp (one c)) opAction) (spaces C) : E _) w f) :
    ∀ a b, ∃ v, f a b = .ok v := by
  obtain ⟨u, u', b, -, h1, -⟩ := lang_seql.1 h
  obtain ⟨x, -, hw⟩ := h1.inv
  simp only [opAction] at hw
  intro a b
  split at hw
  · cases hw; exact ⟨_, rfl⟩
  · split at hw
    · cases hw; exact ⟨_, rfl⟩
    · split at hw
      · cases hw; exact ⟨_, rfl⟩
      · cases hw

theorem lang_items {arg : E Int} {op : E (Int → Int → Except Exn Int)}
    (hop : ∀ {w f}, Lang (env C) op w f → ∀ a b, ∃ v, f a b = .ok v)
    {items : List ((Int → Int → Except Exn Int) × Int)} :
    ∀ {w}, Lang (env C) (.many (.seq op arg)) w items → ∀ x ∈ items, ∀ a b, ∃ c, x.1 a b = .ok c := by
  induction items with
  | nil => exact fun _ x hx => absurd hx (by simp)
  | cons y ys ih =>
    intro w h x hx
    rcases h.inv with ⟨-, h⟩ | ⟨u, u', v, vs, -, hv, h1, h2⟩
    · cases h
    · cases hv
      rcases List.mem_cons.1 hx with rfl | hx
      · obtain ⟨_, _, f, b, -, rfl, hf, -⟩ := h1.inv
        exact hop hf
      · exact ih h2 x hx

theorem sp_word : Lang (env C) (spaces C) [] [] :=
  Lang.regexp (mt := star C.space) (s := []) (i := 0) (j := 0) (Nat.le_refl _) (Nat.le_refl _) rfl

theorem one_word {c : Char → Bool} {x : Char} (hx : c x = true) : Lang (env C) (.regexp (one c)) [x] [x] :=
  Lang.regexp (mt := one c) (s := [x]) (i := 0) (j := 1) (Nat.zero_le _) (Nat.le_refl _) (by simp [one, hx])

theorem viable (hint : ∀ ds, ∃ v, C.int ds = .ok v) (hdig : ∃ d, C.digit d = true) :
    Everywhere (env C) (fun p => p.totalMap (env C) ∧ p.productive (env C)) parser := by
  obtain ⟨d, hd⟩ := hdig
  obtain ⟨v0, hv0⟩ := hint [d]
  have hplus : Lang (env C) (.regexp (plus C.digit)) [d] [d] :=
    Lang.regexp (mt := plus C.digit) (s := [d]) (i := 0) (j := 1) (Nat.zero_le _) (Nat.le_refl _)
      (by simp [plus, hd])
  have hnum : Lang (env C) (number C) ([d] ++ []) v0 :=
    Lang.seqWith (merge := fun a _ => a) (.fmap hplus hv0) sp_word
  have hfac : Lang (env C) (factor C) ([d] ++ []) v0 := .altL hnum
  have hch : ∀ {arg : E Int} {op : E (Int → Int → Except Exn Int)} {w},
      Lang (env C) arg w v0 → Lang (env C) (.chainl1 arg op) (w ++ []) v0 := fun h =>
    .fmap (.seqWith (merge := Prod.mk) h .manyNil) rfl
  have hexpr : Lang (env C) expr _ v0 := .ref (x := ()) rfl (hch (op := addOp C) (hch (op := mulOp C) hfac))
  have hsp : (spaces C).All fun p => p.totalMap (env C) ∧ p.productive (env C) := ⟨trivial, _, _, sp_word⟩
  have hlit : ∀ (x : Char) (l : String) (h0 : [x] ≠ []),
      Lang (env C) (.literal [x] l h0 : E _) [x] [x] := fun x l h0 => .literal (by simp)
  have hpar : ∀ (x : Char) (l : String) (h0 : [x] ≠ []),
      Lang (env C) (.seql (.literal [x] l h0) (spaces C) : E _) ([x] ++ []) [x] := fun x l h0 =>
    Lang.seqWith (merge := fun a _ => a) (hlit x l h0) sp_word
  have hparAll : ∀ (x : Char) (l : String) (h0 : [x] ≠ []),
      (.seql (.literal [x] l h0) (spaces C) : E _).All fun p => p.totalMap (env C) ∧ p.productive (env C) :=
    fun x l h0 => ⟨⟨trivial, _, _, hpar x l h0⟩, ⟨trivial, _, _, hlit x l h0⟩, hsp⟩
  have hclose : Lang (env C) (.seql expr (rParen C)) _ v0 :=
    Lang.seqWith (merge := fun a _ => a) hexpr (hpar ')' "')'" (by simp))
  have hbetween : Lang (env C) (.between (lParen C) (rParen C) expr) _ v0 :=
    Lang.seqWith (merge := fun _ b => b) (hpar '(' "'('" (by simp)) hclose
  have hf : (factor C).All fun p => p.totalMap (env C) ∧ p.productive (env C) := by
    refine ⟨⟨trivial, _, _, hfac⟩, ⟨⟨trivial, _, _, hnum⟩, ⟨⟨fun w a _ => hint a, _, _, .fmap hplus hv0⟩,
      trivial, _, _, hplus⟩, hsp⟩, ⟨trivial, _, _, hbetween⟩, hparAll '(' _ _, ⟨trivial, _, _, hclose⟩,
      ⟨trivial, _, _, hexpr⟩, hparAll ')' _ _⟩
  have hchain : ∀ {arg : E Int} {c : Char → Bool} {w : List Char}, Lang (env C) arg w v0 →
      (∃ x f, c x = true ∧ opAction [x] = .ok f) → (∀ x, c x = true → ∃ f, opAction [x] = .ok f) →
      (arg.All fun p => p.totalMap (env C) ∧ p.productive (env C)) →
      (P.chainl1 arg (.seql (.fmap (.regexp (one c)) opAction) (spaces C))).All fun p =>
        p.totalMap (env C) ∧ p.productive (env C) := by
    rintro arg c w hL ⟨x, f, hx, hf⟩ hall h
    have hop : Lang (env C) (.seql (.fmap (.regexp (one c)) opAction) (spaces C) : E _) ([x] ++ []) f :=
      Lang.seqWith (merge := fun a _ => a) (.fmap (one_word hx) hf) sp_word
    refine ⟨⟨?_, _, _, hch hL⟩, ⟨trivial, _, _, .seqWith hL .manyNil⟩, h, ⟨trivial, _, _, .manyNil⟩,
      ⟨trivial, _, _, .seqWith hop hL⟩, ⟨⟨trivial, _, _, hop⟩, ⟨⟨?_, _, _, .fmap (one_word hx) hf⟩,
        trivial, _, _, one_word hx⟩, hsp⟩, h⟩
    · intro w a ha
      obtain ⟨u, u', x, items, rfl, rfl, h1, h2⟩ := ha.inv
      exact chainlReduce_total (lang_items lang_opValue h2) x
    · intro w a ha
      obtain ⟨x, hx, -, rfl⟩ := lang_one ha
      exact hall x hx
  have ht : (term C).All fun p => p.totalMap (env C) ∧ p.productive (env C) :=
    hchain hfac ⟨'*', _, rfl, rfl⟩ (fun x hx => by
      have hx : x = '*' := by simpa using hx
      subst hx
      exact ⟨_, rfl⟩) hf
  refine ⟨⟨⟨trivial, _, _, .seqWith hexpr .eof⟩, ⟨trivial, _, _, hexpr⟩, trivial, _, _, .eof⟩, ?_⟩
  rintro i q ⟨⟩
  exact hchain (hch hfac) ⟨'+', _, rfl, rfl⟩ (fun x hx => by
    have hx : x = '-' ∨ x = '+' := by simpa using hx
    rcases hx with rfl | rfl
    · exact ⟨_, rfl⟩
    · exact ⟨_, rfl⟩) ht

end Calculator

/-- C71 for the calculator of the README, exactly: if `int` does not raise and there is a digit, the position of the
error is the length of the longest prefix of the text that begins an expression. -/
theorem C71_calculator_longest {C : Chars} (hC : C.OK) (hint : ∀ ds, ∃ v, C.int ds = .ok v)
    (hdig : ∃ d, C.digit d = true) {s : List Char} {e : Err}
    (hr : Returns (env C) parser s (plain defaultGetLoc) (.error e)) (n : Nat) (hn : n ≤ s.length) :
    (∃ rest v, Value C .expr (s.take n ++ rest) v) ↔ n ≤ e.loc.pos := by
  refine longest (L := Value C .expr) ?_ (fun hlt rest v => C71_calculator hC hr (sameUpTo_append hlt rest) v) n hn
  obtain ⟨-, rest, v, hL⟩ := C71_viable (viable hint hdig) hr
  obtain ⟨u, u', b, hu, h3, h4⟩ := lang_seql.1 hL
  have h4 : u' = [] := h4.inv
  subst h4
  rw [List.append_nil] at hu
  exact ⟨rest, v, lang_expr (Nat.le_refl _) (hu ▸ h3)⟩

end

/-! ### Cases that meet the hypotheses, and why they are there -/

namespace Samples

/-- `1 + * 2` fails at the `*`: expressions begin with `1 + `, none begins with `1 + *`. -/
example : (∃ rest v, Calculator.Value ascii .expr ("1 + ".toList ++ rest) v) ∧
    ∀ rest v, ¬ Calculator.Value ascii .expr ("1 + *".toList ++ rest) v := by
  have h := C71_calculator_longest (s := "1 + * 2".toList) ascii_ok (fun _ => ⟨_, rfl⟩) ⟨'0', rfl⟩ ⟨20, rfl⟩
  exact ⟨(h 4 (by decide)).2 (by decide), fun rest v hv => absurd ((h 5 (by decide)).1 ⟨rest, v, hv⟩) (by decide)⟩

theorem nest_oneAhead : Everywhere nestEnv P.oneAhead (.ref ()) := by
  refine ⟨trivial, ?_⟩
  rintro i q ⟨⟩
  simp [P.map, P.seqr, P.seql, P.All, P.oneAhead]

theorem nest_productive :
    Everywhere nestEnv (fun p => p.totalMap nestEnv ∧ p.productive nestEnv) (.ref ()) := by
  have hx : Lang nestEnv (.sym 'x' "'x'") ['x'] 'x' := .sym rfl
  have h0 : Lang nestEnv (.map (.sym 'x' "'x'") fun _ => 0) ['x'] 0 := .fmap hx rfl
  have hr : Lang nestEnv (.ref ()) ['x'] 0 := .ref (x := ()) rfl (.altR h0)
  have hs : ∀ c l, Lang nestEnv (.sym c l) [c] c := fun c l => .sym (by simp)
  have hq : Lang nestEnv (.seql (.ref ()) (.sym ')' "')'")) _ 0 := .seqWith hr (hs _ _)
  have hp : Lang nestEnv (.seqr (.sym '(' "'('") (.seql (.ref ()) (.sym ')' "')'"))) _ 0 := .seqWith (hs _ _) hq
  refine ⟨⟨trivial, _, _, hr⟩, ?_⟩
  rintro i q ⟨⟩
  exact ⟨⟨trivial, _, _, .altR h0⟩, ⟨⟨fun _ _ _ => ⟨_, rfl⟩, _, _, .fmap hp rfl⟩, ⟨trivial, _, _, hp⟩,
    ⟨trivial, _, _, hs _ _⟩, ⟨trivial, _, _, hq⟩, ⟨trivial, _, _, hr⟩, trivial, _, _, hs _ _⟩,
    ⟨fun _ _ _ => ⟨_, rfl⟩, _, _, h0⟩, trivial, _, _, hx⟩

/-- Nested parentheses: the position of an error is the length of the longest prefix that can still be completed. -/
example (s : List Char) (e : Err) (h : Returns nestEnv nest s (plain defaultGetLoc) (.error e)) (n : Nat)
    (hn : n ≤ s.length) : (∃ rest v, Lang nestEnv (.ref ()) (s.take n ++ rest) v) ↔ n ≤ e.loc.pos :=
  (C71_longest nest_ll1 nest_contextFree nest_wf nest_oneAhead nest_productive h).1 n hn

example : ∃ e, Returns nestEnv nest "((x)".toList (plain defaultGetLoc) (.error e) ∧ e.loc.pos = 4 :=
  ⟨_, ⟨20, rfl⟩, rfl⟩

/-- `sym("c") | (sym("a") + sym("b")).attempt()` -/
def late : P Char Empty (fun _ => Unit) (Char × Char) :=
  .alt (.map (.sym 'c' "'c'") fun c => (c, c)) (.attempt ab)

end Samples

/-- C71, `attempt` must be excluded: `sym("c") | (sym("a") + sym("b")).attempt()` fails at 0 on "ax", but accepts "ab",
which has the same first element. -/
theorem C71_attempt_false :
    (∃ e, Returns Samples.noEnv Samples.late "ax".toList (plain defaultGetLoc) (.error e) ∧ e.loc.pos = 0) ∧
    SameUpTo 0 "ax".toList "ab".toList ∧
    ∃ r, Returns Samples.noEnv Samples.late "ab".toList (plain defaultGetLoc) (.ok r) :=
  ⟨⟨_, ⟨9, rfl⟩, rfl⟩, rfl, _, 9, rfl⟩

/-- C71, longer literals must be excluded: `prefix("ab")` fails at 0 on "ax". -/
theorem C71_literal_false :
    let p : P Char Empty (fun _ => Unit) (List Char) := .literal "ab".toList "'ab'" (by simp)
    (∃ e, Returns Samples.noEnv p "ax".toList (plain defaultGetLoc) (.error e) ∧ e.loc.pos = 0) ∧
    SameUpTo 0 "ax".toList "ab".toList ∧
    ∃ r, Returns Samples.noEnv p "ab".toList (plain defaultGetLoc) (.ok r) :=
  ⟨⟨_, ⟨9, rfl⟩, rfl⟩, rfl, _, 9, rfl⟩

end Reparsec
