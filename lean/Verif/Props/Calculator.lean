import Verif.Lemmas.Calculator
import Verif.Props.LL1
import Verif.Props.Exceptions

/-!
# C70: the calculator of the README computes the values of expressions
-/

namespace Reparsec

open Calculator

variable {C : Chars} {s : List Char}

/-! ### The grammar is LL(1) -/

namespace Calculator

section
variable {T : LLTable Char Unit} {la : Option Char}

theorem plus_starts {c : Char → Bool} (h : (.regexp (plus c) : E (List Char)).starts T la) :
    ∃ x, la = some x ∧ c x = true := by
  obtain ⟨s, i, j, v, rfl, -, -, hr, -, -⟩ := h
  simp only [plus] at hr
  split at hr
  · cases hr
  · next hn =>
    cases hd : s.drop i with
    | nil => rw [hd] at hn; exact absurd rfl hn
    | cons x r =>
      refine ⟨x, by have := congrArg List.head? hd; rwa [List.head?_drop] at this, ?_⟩
      rw [hd, List.takeWhile_cons] at hn
      cases hc : c x with
      | true => rfl
      | false => rw [hc] at hn; exact absurd rfl hn

theorem plus_empty {c : Char → Bool} : ¬ (.regexp (plus c) : E (List Char)).empty T la := by
  rintro ⟨s, i, v, -, hr⟩
  simp only [plus] at hr
  split at hr
  · cases hr
  · next hn =>
    simp only [Option.some.injEq, Prod.mk.injEq] at hr
    exact hn (List.length_eq_zero_iff.1 (by omega))

theorem one_starts {c : Char → Bool} (h : (.regexp (one c) : E (List Char)).starts T la) :
    ∃ x, la = some x ∧ c x = true := by
  obtain ⟨s, i, j, v, rfl, -, -, hr, -, -⟩ := h
  simp only [one] at hr
  split at hr
  · cases hr
  · next x hx =>
    split at hr
    · next hc => exact ⟨x, hx, hc⟩
    · cases hr

theorem one_empty {c : Char → Bool} : ¬ (.regexp (one c) : E (List Char)).empty T la := by
  rintro ⟨s, i, v, -, hr⟩
  simp only [one] at hr
  split at hr
  · cases hr
  · split at hr
    · simp only [Option.some.injEq, Prod.mk.injEq] at hr; omega
    · cases hr

theorem number_starts (h : (number C).starts T la) : ∃ x, la = some x ∧ C.digit x = true := by
  rcases h with (h | ⟨h, -⟩) | ⟨h, -⟩
  · exact plus_starts h
  · exact absurd h plus_empty
  · exact absurd h plus_empty

theorem number_empty : ¬ (number C).empty T la := fun h => plus_empty h.1

theorem op_starts {c : Char → Bool}
    (h : (.seql (.fmap (.regexp (one c)) opAction) (spaces C) : E _).starts T la) :
    ∃ x, la = some x ∧ c x = true := by
  rcases h with (h | ⟨h, -⟩) | ⟨h, -⟩
  · exact one_starts h
  · exact absurd h one_empty
  · exact absurd h one_empty

theorem op_empty {c : Char → Bool} :
    ¬ (.seql (.fmap (.regexp (one c)) opAction) (spaces C) : E _).empty T la := fun h => one_empty h.1

theorem lit_starts {x : Char} {l : String} {h0 : [x] ≠ []}
    (h : (.seql (.literal [x] l h0) (spaces C) : E _).starts T la) : la = some x := by
  rcases h with ⟨t, u, xs, rfl, h1, h2⟩ | ⟨h, -⟩
  · simp only [List.cons.injEq] at h1
    obtain ⟨rfl, -⟩ := h1
    rw [eq_of_beq h2]
  · exact h.elim

theorem lit_empty {x : Char} {l : String} {h0 : [x] ≠ []} :
    ¬ (.seql (.literal [x] l h0) (spaces C) : E _).empty T la := fun h => h.1

theorem parens_starts (h : (P.between (lParen C) (rParen C) expr).starts T la) : la = some '(' := by
  rcases h with h | ⟨h, -⟩
  · exact lit_starts h
  · exact absurd h lit_empty

theorem factor_starts (h : (factor C).starts T la) :
    ∃ x, la = some x ∧ (C.digit x = true ∨ x = '(') := by
  rcases h with h | h
  · obtain ⟨x, hx, h⟩ := number_starts h; exact ⟨x, hx, .inl h⟩
  · exact ⟨_, parens_starts h, .inr rfl⟩

theorem factor_empty : ¬ (factor C).empty T la := by
  rintro (h | h)
  · exact number_empty h
  · exact lit_empty h.1

theorem chain_empty {arg : E Int} {op : E (Int → Int → Except Exn Int)} (ha : ¬ arg.empty T la) :
    ¬ (P.chainl1 arg op).empty T la := fun h => ha h.1

theorem chain_starts {arg : E Int} {op : E (Int → Int → Except Exn Int)} (ha : ¬ arg.empty T la)
    (h : (P.chainl1 arg op).starts T la) : arg.starts T la := by
  rcases h with (h | ⟨h, -⟩) | ⟨h, -⟩
  · exact h
  · exact absurd h ha
  · exact absurd h.1 ha

/-- A chain is LL(1) if its arguments and operators are, and no operator can follow it. -/
theorem chain_ll1 {arg : E Int} {op : E (Int → Int → Except Exn Int)} {F : Option Char → Prop}
    (h1 : ∀ F, arg.LL1 T F) (h2 : ∀ F, op.LL1 T F) (h3 : ∀ la, ¬ op.empty T la)
    (h4 : ∀ la, op.starts T la → ¬ F la) : (P.chainl1 arg op).LL1 T F :=
  ⟨h1 _, ⟨h2 _, h1 _⟩, fun la h => h3 la h.1, fun la h => h.elim (h4 la) fun h => absurd h.1 (h3 la)⟩

end

/-- Lookaheads: expressions begin with a digit or a parenthesis, and end at a closing parenthesis or at the end of
the input. -/
def table (C : Chars) : LLTable Char Unit where
  starts _ la := ∃ x, la = some x ∧ (C.digit x = true ∨ x = '(')
  empty _ _ := False
  follow _ la := la = some ')' ∨ la = none

theorem factor_ll1 (hC : C.OK) (F : Option Char → Prop) : (factor C).LL1 (table C) F := by
  refine ⟨⟨trivial, trivial⟩, ⟨⟨trivial, trivial⟩, ?_, trivial, trivial⟩, ?_⟩
  · rintro la (h | ⟨h, -⟩)
    · exact .inl (lit_starts h)
    · exact absurd h lit_empty
  · rintro la (h | h) (h' | ⟨h', -⟩)
    · obtain ⟨x, rfl, hx⟩ := number_starts h
      cases parens_starts h'
      rw [hC.digit '(' (by simp)] at hx; cases hx
    · exact lit_empty h'.1
    · exact number_empty h
    · exact number_empty h

theorem ll1 (hC : C.OK) : IsLL1 (env C) expr := by
  refine ⟨table C, ⟨?_, ?_, ?_, ?_⟩, fun la h => .inr h⟩
  · rintro x q ⟨⟩ la h
    exact factor_starts (chain_starts factor_empty (chain_starts (chain_empty factor_empty) h))
  · rintro x q ⟨⟩ la h
    exact absurd h (chain_empty (chain_empty factor_empty))
  · rintro x ⟨⟩
  · rintro x q ⟨⟩
    refine ⟨?_, ⟨⟨trivial, trivial⟩, ?_⟩, ?_, ?_⟩
    · refine chain_ll1 (factor_ll1 hC) (fun _ => ⟨trivial, trivial⟩) (fun _ => op_empty) ?_
      intro la h h'
      obtain ⟨x, rfl, hx⟩ := op_starts h
      have hx : x = '*' := by simpa using hx
      subst hx
      rcases h' with (h' | h') | ⟨-, h' | h'⟩
      · rcases h' with h' | ⟨h', -⟩
        · obtain ⟨y, hy, hy'⟩ := op_starts h'
          cases hy
          simp at hy'
        · exact op_empty h'
      · exact op_empty h'.1
      · cases h'
      · cases h'
    · refine chain_ll1 (factor_ll1 hC) (fun _ => ⟨trivial, trivial⟩) (fun _ => op_empty) ?_
      intro la h h'
      obtain ⟨x, rfl, hx⟩ := op_starts h
      have hx : x = '*' := by simpa using hx
      subst hx
      rcases h' with (h' | ⟨h', -⟩) | h' | h'
      · obtain ⟨y, hy, hy'⟩ := op_starts h'
        cases hy
        simp at hy'
      · exact op_empty h'
      · cases h'
      · cases h'
    · exact fun la h => op_empty h.1
    · intro la h h'
      rcases h with h | ⟨h, -⟩
      · obtain ⟨x, rfl, hx⟩ := op_starts h
        have hx : x = '-' ∨ x = '+' := by simpa using hx
        rcases h' with h' | h'
        · cases h'; simp at hx
        · cases h'
      · exact op_empty h

/-! ### It always ends -/

theorem factor_startsWith (i : Unit) : ¬ (factor C).StartsWith (env C) i := by
  rintro ((h | ⟨-, h⟩) | (h | ⟨-, h⟩) | ⟨⟨a, ha⟩, -⟩)
  · exact h
  · exact h
  · exact h
  · exact h
  · exact P.Consumes.not_empty (p := lParen C) (.inl trivial) a ha

theorem term_startsWith (i : Unit) : ¬ (term C).StartsWith (env C) i := by
  rintro (h | ⟨-, (h | ⟨-, h⟩) | ⟨-, h⟩⟩)
  · exact factor_startsWith i h
  · exact h
  · exact h
  · exact factor_startsWith i h

theorem wf (C : Chars) : WellFounded fun j i => LeftCalls (env C) i j := by
  have h : ∀ i j, ¬ LeftCalls (env C) i j := by
    rintro i j ⟨q, ⟨⟩, hs⟩
    rcases hs with h | ⟨-, (h | ⟨-, h⟩) | ⟨-, h⟩⟩
    · exact term_startsWith j h
    · exact h
    · exact h
    · exact term_startsWith j h
  exact ⟨fun i => ⟨i, fun j h' => absurd h' (h i j)⟩⟩

theorem notLayout (C : Chars) : Everywhere (env C) P.notLayout parser := by
  refine ⟨⟨trivial, trivial, trivial⟩, ?_⟩
  rintro i q ⟨⟩
  simp [term, factor, number, mulOp, addOp, lParen, rParen, spaces, expr, P.chainl1, P.between, P.seql, P.seqr,
    P.seq, P.All, P.notLayout]

theorem value_der (hC : C.OK) {v : Int} (h : Value C .expr s v) (col : Nat → Nat → Prop) (m : Nat) :
    Der (env C) s col parser m 0 [] v s.length := by
  have hd := (h.der hC (s := s) (col := col) (m := m) (i := 0) (post := []) (by simp)
    (fun x hx => by cases hx)).der
  rw [Nat.zero_add] at hd
  exact .seqWith (es := []) (es' := []) (merge := fun a _ => a) (.ref (x := ()) rfl hd) .eof

end Calculator

/-! ### C70 -/

/-- **C70**: `parser.parse(s).unwrap()` returns `v` if and only if `s` is an expression with the value `v`. For every
`get_loc` (so for `scannerless.parse` too), and all classes of digits and spaces. -/
theorem C70_exact (hC : C.OK) (gl : Loc → List Char → Nat → Loc) (fmt : Loc → String) (b : Bool) (v : Int) :
    (∃ r, Returns (env C) parser s (plain gl) r ∧ r.unwrap fmt b = .ok v) ↔ Value C .expr s v := by
  constructor
  · rintro ⟨r, hr, hv⟩
    exact lang_expr (Nat.le_refl _) (C24_accepted_whole fmt hr hv)
  · intro h
    rcases C55_complete (ll1 hC).seql_eof (notLayout C) gl ⟨[], rfl, value_der hC h anyCol 0⟩ with
      hh | ⟨o, ho, rfl, -⟩
    · rcases C23_terminates (env C) (wf C) parser s (plain gl) (by simp [plain]) with ⟨r, n, hr⟩ | ⟨e, n, hr⟩
      · exact absurd (hr.symm.trans (hh n)) (by simp)
      · exact absurd (hr.symm.trans (hh n)) (by simp)
    · exact ⟨_, ho, rfl⟩

/-- C70: an expression has only one value: precedence and associativity leave no choice. -/
theorem C70_unambiguous (hC : C.OK) {v v' : Int} (h : Value C .expr s v) (h' : Value C .expr s v') :
    v = v' := by
  obtain ⟨r, hr, hv⟩ := (C70_exact hC defaultGetLoc defaultFmtLoc false v).2 h
  obtain ⟨r', hr', hv'⟩ := (C70_exact hC defaultGetLoc defaultFmtLoc false v').2 h'
  obtain rfl := returns_unique hr hr'
  exact Except.ok.inj (hv.symm.trans hv')

/-- C70: the same value with `recover=True`, and no error is reported then. -/
theorem C70_recovering (hC : C.OK) (gl : Loc → List Char → Nat → Loc) (fmt : Loc → String) (k : Int) {v : Int}
    (h : Value C .expr s v) : ∃ r, Returns (env C) parser s (recovering k gl) r ∧
      ∀ b, r.unwrap fmt b = .ok v := by
  obtain ⟨r, hr, hv⟩ := (C70_exact hC gl fmt false v).2 h
  obtain ⟨n, x, hx, rfl⟩ := returns_plain hr
  cases x with
  | ok o =>
    refine ⟨.ok o, ⟨n, ?_⟩, fun _ => hv⟩
    have := (sim_denote (env C) n parser).ok hx k (some k)
    simpa [parse, recovering] using this
  | error e => simp [Simple.toResult, Result.unwrap] at hv

/-- What the labels of the two literals stand for. -/
def Calculator.token (l : String) : List Char := if l = "'('" then ['('] else [')']

theorem Calculator.labelled (C : Chars) : Everywhere (env C) (P.labelled (env C) token) expr := by
  refine ⟨trivial, ?_⟩
  rintro i q ⟨⟩
  simp [term, factor, number, mulOp, addOp, lParen, rParen, spaces, expr, P.chainl1, P.between, P.seql, P.seqr,
    P.seq, P.All, P.labelled, token]

/-- **C70**, wrong input: if `recover=True` and errors are reported, then the value that `unwrap(recover=True)` returns
is the value of the text that results from `s` by the reported edits. -/
theorem C70_repaired {k : Int} {fmt : Loc → String} {r : Result Char Int} {v : Int} {pe : ParseError}
    (h : Returns (env C) parser s (recovering k defaultGetLoc) r) (hv : r.unwrap fmt true = .ok v)
    (he : r.unwrap fmt false = .error pe) :
    Value C .expr (edited token s 0 pe.edits s.length) v :=
  lang_expr (Nat.le_refl _) (C46_reported token (labelled C) fmt h hv he)

/-- C70, wrong input, under `scannerless.parse`. -/
theorem C70_repaired_text {k : Int} {fmt : Loc → String} {r : Result Char Int} {v : Int} {pe : ParseError}
    (h : Returns (env C) parser s (recovering k scannerlessGetLoc) r) (hv : r.unwrap fmt true = .ok v)
    (he : r.unwrap fmt false = .error pe) :
    Value C .expr (edited token s 0 pe.edits s.length) v :=
  lang_expr (Nat.le_refl _) (C46_reported_text token (labelled C) fmt h hv he)

/-- C70: so the text with the reported edits applied is accepted, with the same value. -/
theorem C70_reparse (hC : C.OK) {k : Int} {fmt : Loc → String} {r : Result Char Int} {v : Int} {pe : ParseError}
    (h : Returns (env C) parser s (recovering k scannerlessGetLoc) r) (hv : r.unwrap fmt true = .ok v)
    (he : r.unwrap fmt false = .error pe) (b : Bool) :
    ∃ r', Returns (env C) parser (edited token s 0 pe.edits s.length) (plain scannerlessGetLoc) r' ∧
      r'.unwrap fmt b = .ok v :=
  (C70_exact hC _ _ _ _).2 (C70_repaired_text h hv he)

/-! ### Exceptions -/

namespace Calculator

theorem chainlReduce_total {items : List ((Int → Int → Except Exn Int) × Int)}
    (h : ∀ x ∈ items, ∀ a b, ∃ c, x.1 a b = .ok c) (a : Int) : ∃ v, P.chainlReduce a items = .ok v := by
  induction items generalizing a with
  | nil => exact ⟨a, rfl⟩
  | cons x items ih =>
    obtain ⟨f, b⟩ := x
    obtain ⟨c, hc⟩ := h (f, b) List.mem_cons_self a b
    have hc : f a b = .ok c := hc
    obtain ⟨v, hv⟩ := ih (fun x hx => h x (List.mem_cons_of_mem _ hx)) c
    exact ⟨v, by simp only [P.chainlReduce, hc, hv]⟩

section
variable {col : Nat → Nat → Prop} {m i j : Nat} {es : List Step}

theorem der_one {c : Char → Bool} {v : List Char}
    (h : Der (env C) s col (.regexp (one c) : E (List Char)) m i es v j) :
    (es = [] → j = i + 1) ∧ ∃ x, c x = true ∧ v = [x] := by
  obtain ⟨k, hk, hes, hr⟩ := h.inv
  simp only [one] at hr
  split at hr
  · cases hr
  · next x _ =>
    split at hr
    · next hc =>
      simp only [Option.some.injEq, Prod.mk.injEq, Except.ok.injEq] at hr
      exact ⟨fun he => by rw [← hr.1, hes he], x, hc, hr.2.symm⟩
    · cases hr

theorem der_opValue {c : Char → Bool} {f : Int → Int → Except Exn Int}
    (h : Der (env C) s col (.seql (.fmap (.regexp (one c)) opAction) (spaces C) : E _) m i es f j) :
    ∀ a b, ∃ v, f a b = .ok v := by
  obtain ⟨es1, es2, f', b, l, rfl, rfl, h1, -⟩ := h.inv
  obtain ⟨w, -, hw⟩ := h1.inv
  simp only [opAction] at hw
  intro a b
  split at hw
  · cases hw; exact ⟨_, rfl⟩
  · split at hw
    · cases hw; exact ⟨_, rfl⟩
    · split at hw
      · cases hw; exact ⟨_, rfl⟩
      · cases hw

theorem der_items {arg : E Int} {op : E (Int → Int → Except Exn Int)}
    (hop : ∀ {m i es f j}, Der (env C) s col op m i es f j → ∀ a b, ∃ v, f a b = .ok v)
    {items : List ((Int → Int → Except Exn Int) × Int)} :
    ∀ {i es}, Der (env C) s col (.many (.seq op arg)) m i es items j →
      ∀ x ∈ items, ∀ a b, ∃ c, x.1 a b = .ok c := by
  induction items with
  | nil => exact fun _ x hx => absurd hx (by simp)
  | cons y ys ih =>
    intro i es h x hx
    rcases h.inv with ⟨-, h, -⟩ | ⟨es1, es2, v, vs, l, rfl, hv, h1, h2⟩
    · cases h
    · cases hv
      rcases List.mem_cons.1 hx with rfl | hx
      · obtain ⟨_, _, f, b, _, -, rfl, hf, -⟩ := h1.inv
        exact hop hf
      · exact ih h2 x hx

theorem der_item_reads {c : Char → Bool} {arg : E Int} {v : (Int → Int → Except Exn Int) × Int}
    (hi : i ≤ s.length) :
    ¬ Der (env C) s col (.seq (.seql (.fmap (.regexp (one c)) opAction) (spaces C)) arg : E _) m i [] v i := by
  intro h
  obtain ⟨es1, es2, f, b, l, he, rfl, h1, h2⟩ := h.inv
  obtain ⟨rfl, rfl⟩ := List.append_eq_nil_iff.1 he.symm
  obtain ⟨es1, es2, f', b, l', he, rfl, h1, h3⟩ := h1.inv
  obtain ⟨rfl, rfl⟩ := List.append_eq_nil_iff.1 he.symm
  obtain ⟨w, h1, -⟩ := h1.inv
  have e := (der_one h1).1 rfl
  have l1 := (der_inOrder h1 hi).2
  have l2 := der_inOrder h3 l1
  have l3 := der_inOrder h2 l2.2
  have := l2.1.le
  have := l3.1.le
  omega

end

/-- A number in the text `s` on which `int` raises `e`. -/
def BadNumber (C : Chars) (s : List Char) (e : Exn) : Prop :=
  ∃ ds, ds ≠ [] ∧ (∀ c ∈ ds, C.digit c = true) ∧ ds <:+: s ∧ C.int ds = .error e

theorem quiet (C : Chars) (s : List Char) : Everywhere (env C)
    (fun p => p.raisesOnly (env C) s (BadNumber C s) ∧ p.defined (env C) ∧ p.properMany (env C)) parser := by
  have hchain : ∀ {arg : E Int} {c : Char → Bool}, (∀ x, c x = true → ∀ e, opAction [x] ≠ .error e) →
      (arg.All fun p => p.raisesOnly (env C) s (BadNumber C s) ∧ p.defined (env C) ∧ p.properMany (env C)) →
      (P.chainl1 arg (.seql (.fmap (.regexp (one c)) opAction) (spaces C))).All fun p =>
        p.raisesOnly (env C) s (BadNumber C s) ∧ p.defined (env C) ∧ p.properMany (env C) := by
    intro arg c hop h
    refine ⟨⟨?_, trivial, trivial⟩, ⟨trivial, trivial, trivial⟩, h, ⟨trivial, trivial, ?_⟩,
      ⟨trivial, trivial, trivial⟩, ⟨⟨trivial, trivial, trivial⟩, ⟨⟨?_, trivial, trivial⟩, ?_⟩, ?_⟩, h⟩
    · intro col m i es a j e hi hd he
      obtain ⟨es1, es2, x, items, l, rfl, rfl, h1, h2⟩ := hd.inv
      obtain ⟨v, hv⟩ := chainlReduce_total (der_items der_opValue h2) x
      cases hv.symm.trans he
    · exact fun s col m i v hi => der_item_reads hi
    · intro col m i es a j e hi hd he
      obtain ⟨-, x, hx, rfl⟩ := der_one hd
      exact absurd he (hop x hx e)
    · exact ⟨fun j l e he => (by
        simp only [one] at he; split at he <;> [cases he; (split at he <;> cases he)]),
        trivial, trivial⟩
    · exact ⟨fun j l e he => (by simp only [star] at he; cases he), trivial, trivial⟩
  have hf : (factor C).All fun p =>
      p.raisesOnly (env C) s (BadNumber C s) ∧ p.defined (env C) ∧ p.properMany (env C) := by
    have hs : ((spaces C).All fun p =>
        p.raisesOnly (env C) s (BadNumber C s) ∧ p.defined (env C) ∧ p.properMany (env C)) :=
      ⟨fun j l e he => (by simp only [star] at he; cases he), trivial, trivial⟩
    refine ⟨⟨trivial, trivial, trivial⟩, ⟨⟨trivial, trivial, trivial⟩, ⟨⟨?_, trivial, trivial⟩, ?_⟩, hs⟩,
      ⟨trivial, trivial, trivial⟩, ⟨⟨trivial, trivial, trivial⟩, ⟨trivial, trivial, trivial⟩, hs⟩,
      ⟨trivial, trivial, trivial⟩, ⟨trivial, by simp [P.defined, expr, env], trivial⟩,
      ⟨trivial, trivial, trivial⟩, ⟨trivial, trivial, trivial⟩, hs⟩
    · intro col m i es a j e hi hd he
      obtain ⟨k, -, -, hr⟩ := hd.inv
      simp only [plus] at hr
      split at hr
      · cases hr
      · next hn =>
        simp only [Option.some.injEq, Prod.mk.injEq, Except.ok.injEq] at hr
        obtain ⟨-, rfl⟩ := hr
        exact ⟨_, hn, takeWhile_all,
          (List.takeWhile_prefix C.digit).isInfix.trans (List.drop_suffix k s).isInfix, he⟩
    · exact ⟨fun j l e he => (by simp only [plus] at he; split at he <;> cases he), trivial, trivial⟩
  refine ⟨⟨?_, ?_, ?_⟩, ?_⟩
  all_goals try exact ⟨trivial, by simp [P.defined, expr, env], trivial⟩
  · rintro i q ⟨⟩
    refine hchain ?_ (hchain ?_ hf)
    · intro x hx e he
      have hx : x = '-' ∨ x = '+' := by simpa using hx
      rcases hx with rfl | rfl <;> cases he
    · intro x hx e he
      have hx : x = '*' := by simpa using hx
      subst hx
      cases he

end Calculator

/-- C70, exceptions: the only exceptions that leave `parse` are those of `int`, on a number in the input. In both
modes, for every `max_insertions` and `get_loc`. -/
theorem C70_exceptions (o : Opts Char) {e : Exn} (h : Raises (env C) parser s o e) : BadNumber C s e :=
  C69_only (quiet C s) o h

/-- C70, totality: if `int` does not raise on the numbers of the text, `parse(..)` returns, in both modes: a value or a
`ParseError`. -/
theorem C70_total (hs : ∀ e, ¬ BadNumber C s e) (o : Opts Char) (hk : 0 ≤ o.maxInsertions) :
    ∃ r, Returns (env C) parser s o r := by
  rcases C23_terminates (env C) (wf C) parser s o hk with h | ⟨e, he⟩
  · exact h
  · exact absurd (C70_exceptions o he) (hs e)

/-! ### Cases that meet the hypotheses -/

namespace Samples

/-- `\d`, `\s` and `int` on ASCII. -/
def ascii : Chars where
  digit c := '0' ≤ c && c ≤ '9'
  space c := c == ' ' || c == '\n' || c == '\t' || c == '\r'
  int ds := .ok (ds.foldl (fun n c => n * 10 + ((c.toNat : Int) - 48)) 0)

theorem ascii_ok : ascii.OK where
  apart c h := by
    simp only [ascii, Bool.and_eq_true, decide_eq_true_eq] at h
    simp only [ascii, Bool.or_eq_false_iff]
    have hne : ∀ d : Char, d < '0' → (c == d) = false := fun d hd =>
      beq_false_of_ne fun e => absurd h.1 (by subst e; exact Char.not_le.2 hd)
    exact ⟨⟨⟨hne _ (by decide), hne _ (by decide)⟩, hne _ (by decide)⟩, hne _ (by decide)⟩
  digit := by decide
  space := by decide

/-- `1 + 2 * (3 + 4)` has the value 15. -/
example : Value ascii .expr "1 + 2 * (3 + 4)".toList 15 :=
  (C70_exact ascii_ok defaultGetLoc defaultFmtLoc false 15).1 ⟨_, ⟨20, rfl⟩, rfl⟩

/-- `1 - 2 - 3` is `(1 - 2) - 3`, and the grammar has no other value for it. -/
example : ¬ Value ascii .expr "1-2-3".toList 2 := fun h =>
  absurd (C70_unambiguous ascii_ok h
    ((C70_exact ascii_ok defaultGetLoc defaultFmtLoc false (-4)).1 ⟨_, ⟨20, rfl⟩, rfl⟩)) (by decide)

set_option maxRecDepth 10000 in
/-- The example of the README with two errors: what is evaluated is `1 + 2 * (3 + 4 )`. -/
example : ∃ r pe, Returns (env ascii) parser "1 + 2 * * (3 + 4 5)".toList (recovering 5 defaultGetLoc) r ∧
    r.unwrap defaultFmtLoc true = .ok 15 ∧ r.unwrap defaultFmtLoc false = .error pe ∧
    edited token "1 + 2 * * (3 + 4 5)".toList 0 pe.edits 19 = "1 + 2 * (3 + 4 )".toList :=
  ⟨_, _, ⟨30, rfl⟩, rfl, rfl, rfl⟩

end Samples

/-- Spaces in front of an expression are rejected: only those after a number, operator or parenthesis are skipped. -/
theorem C70_leading_space (hC : C.OK) {v : Int} (c : Char) (hc : C.space c = true) (w : List Char) :
    ¬ Value C .expr (c :: w) v := by
  intro h
  obtain ⟨x, r, hx, h⟩ := h.head
  cases hx
  rcases h with h | rfl
  · rw [hC.apart _ h] at hc; cases hc
  · rw [hC.space '(' (by simp)] at hc; cases hc

end Reparsec
