import Verif.Lemmas.Throws
import Verif.Props.Recovery
import Verif.Props.Eval
import Verif.Props.Termination
import Verif.Props.Language
import Verif.Props.LL1

/-!
# C69: every exception is accounted for
-/

namespace Reparsec

variable {τ ρ : Type} {Γ : ρ → Type} {α β : Type}

section
variable [BEq τ] {env : Env τ ρ Γ} {p : P τ ρ Γ α} {s : List τ}

theorem raises_plain_accounted (D : LocDisc s) (hc : CtxOK D (initCtx D.g) 0)
    (hl : D.layout ∨ Everywhere env P.notLayout p) {e : Exn} (h : Raises env p s (plain D.g) e) :
    ∃ src, Throws env s D.col false p 0 0 src e := by
  rcases comesTo_cases (env := env) (p := p) D hc hl with hh | ⟨o, h1, h2⟩
  · obtain ⟨n, h⟩ := h
    exact absurd (h.symm.trans (hh n)) (by simp)
  · have ha := eval_accounted h1
    rcases o with ⟨v, j, w⟩ | (⟨q, w, b⟩ | e')
    · obtain ⟨r, hr, -⟩ := h2; exact absurd h (returns_not_raises hr)
    · obtain ⟨r, hr, -⟩ := h2; exact absurd h (returns_not_raises hr)
    · obtain ⟨n, h⟩ := h
      obtain ⟨n', h2⟩ := h2
      obtain rfl : e = e' := raises_unique ⟨n, h⟩ ⟨n', h2⟩
      exact ha

theorem raises_recovering_accounted {k : Int} (D : LocDisc s) (hc : CtxOK D (initCtx D.g) 0)
    (hl : D.layout ∨ Everywhere env P.notLayout p) {e : Exn} (h : Raises env p s (recovering k D.g) e) :
    ∃ src, Throws env s D.col true p 0 0 src e := by
  rcases findsTo_cases (env := env) (p := p) (k := k) D hc hl with hh | ⟨o, h1, h2⟩
  · obtain ⟨n, h⟩ := h
    exact absurd (h.symm.trans (hh n)) (by simp)
  · have ha := rec_accounted h1 (Nat.zero_le _)
    cases o with
    | accepts v j w => obtain ⟨r, hr, -⟩ := h2; exact absurd h (returns_not_raises hr)
    | rejects q w b => obtain ⟨r, hr, -⟩ := h2; exact absurd h (returns_not_raises hr)
    | repairs cs q w b => obtain ⟨r, hr, -⟩ := h2; exact absurd h (returns_not_raises hr)
    | raises e' =>
      obtain rfl : e = e' := raises_unique h h2
      exact ha

/-- **C69**, without recovery, for any `get_loc`: an exception that leaves `parse` was raised by a user
supplied function applied to a value (or an element of the input) that really occurs there without any edit,
or by a regular expression without the given group, or it is one of the two `RuntimeError`s of the library: a
`Delay` that is not defined is used, or an item of `many` accepts the empty string. Nothing else is ever raised. -/
theorem C69_plain (gl : Loc → List τ → Nat → Loc) {e : Exn} (h : Raises env p s (plain gl) e) :
    ∃ src, Throws env s anyCol false p 0 0 src e :=
  raises_plain_accounted (anyDisc gl s) (anyDisc_ctx gl) (.inl trivial) h

/-- C69 with recovery: the same, with values that occur there after some edits. -/
theorem C69_recovering (gl : Loc → List τ → Nat → Loc) (k : Int) {e : Exn}
    (h : Raises env p s (recovering k gl) e) : ∃ src, Throws env s anyCol true p 0 0 src e :=
  raises_recovering_accounted (anyDisc gl s) (anyDisc_ctx gl) (.inl trivial) h

/-- C69 under `scannerless.parse`, with exact columns for the layout combinators. -/
theorem C69_text {env : Env Char ρ Γ} {p : P Char ρ Γ α} {s : List Char} {e : Exn} :
    (Raises env p s (plain scannerlessGetLoc) e → ∃ src, Throws env s (textCol s) false p 0 0 src e) ∧
    ∀ k, Raises env p s (recovering k scannerlessGetLoc) e →
      ∃ src, Throws env s (textCol s) true p 0 0 src e :=
  ⟨raises_plain_accounted (scannerlessDisc s) (scannerlessDisc_ctx s) (.inl trivial),
    fun _ => raises_recovering_accounted (scannerlessDisc s) (scannerlessDisc_ctx s) (.inl trivial)⟩

/-- The library's own exceptions are those of an undefined `Delay` and an empty item of `many`. -/
theorem C69_library {col : Nat → Nat → Prop} {ed : Bool} {m i : Nat} {src : Source} {e : Exn}
    (h : Throws env s col ed p m i src e) :
    (src = .undefined → e = .runtimeError "Delayed parser was not defined") ∧
      (src = .emptyItem → e = .runtimeError "parser shouldn't accept empty string") := by
  induction h <;> simp_all

/-- A parser whose functions raise only exceptions in `E`, with all `Delay` objects defined and no empty items in
`many`. -/
theorem throws_only {E : Exn → Prop} {col : Nat → Nat → Prop} {ed : Bool} {m i : Nat} {src : Source}
    {e : Exn} (h : Throws env s col ed p m i src e)
    (henv : ∀ x q, env x = some q → q.All fun p => p.raisesOnly env s E ∧ p.defined env ∧ p.properMany env)
    (hi : i ≤ s.length) (hp : p.All fun p => p.raisesOnly env s E ∧ p.defined env ∧ p.properMany env) :
    E e := by
  induction h with
  | pureFn h => exact hp.1 _ h
  | satisfy _ _ h1 h => exact hp.1 _ (List.mem_of_getElem? h1) _ h
  | regexp _ _ h => exact hp.1 _ _ _ h
  | fmap h1 _ h => exact hp.1.1 _ _ _ _ _ _ _ hi h1 h
  | fmapIn _ ih => exact ih hi hp.2
  | altL _ ih => exact ih hi hp.2.1
  | altR _ ih => exact ih hi hp.2.2
  | bindL _ ih => exact ih hi hp.2.1
  | bindR h1 _ _ ih => exact ih (der_inOrder h1 hi).2 (hp.2.2 _)
  | seqL _ ih => exact ih hi hp.2.1
  | seqR h1 _ _ ih => exact ih (der_inOrder h1 hi).2 hp.2.2
  | maybe _ ih => exact ih hi hp.2
  | manyHere _ ih => exact ih hi hp.2
  | manyLater h1 _ _ ih => exact ih (der_inOrder h1 hi).2 hp
  | manyEmpty h => exact (hp.1.2.2 _ _ _ _ _ hi h).elim
  | attempt _ ih => exact ih hi hp.2
  | label _ ih => exact ih hi hp.2
  | recover _ ih => exact ih hi hp.2
  | recoverWith _ ih => exact ih hi hp.2
  | recoverWithFn _ ih => exact ih hi hp.2
  | recoverWithFnHere _ h => exact hp.1.1 _ _ h
  | block _ _ ih => exact ih hi hp.2
  | aligned _ _ ih => exact ih hi hp.2
  | indented _ _ _ ih => exact ih hi hp.2
  | ref he _ ih => exact ih hi (henv _ _ he)
  | refUndefined he => exact (hp.2.1 he).elim

/-- C69: if the functions given to a grammar raise only exceptions in `E`, when applied to values that their
parsers can give, all its `Delay` objects are defined, and the items of `many` do not accept the empty string,
then `parse` raises only exceptions in `E`: on every input, in both modes, for every `max_insertions` and
`get_loc`. -/
theorem C69_only {E : Exn → Prop}
    (h : Everywhere env (fun p => p.raisesOnly env s E ∧ p.defined env ∧ p.properMany env) p)
    (o : Opts τ) {e : Exn} (hr : Raises env p s o e) : E e := by
  obtain ⟨rec, k, gl⟩ := o
  cases rec with
  | false =>
    obtain ⟨n, hr⟩ := hr
    obtain ⟨src, ht⟩ := C69_plain gl ⟨n, (parse_plain gl n 5).trans ((parse_plain gl n k).symm.trans hr)⟩
    exact throws_only ht h.2 (Nat.zero_le _) h.1
  | true =>
    obtain ⟨src, ht⟩ := C69_recovering gl k hr
    exact throws_only ht h.2 (Nat.zero_le _) h.1

omit [BEq τ] in
theorem P.calm.raisesOnly [BEq τ] {env : Env τ ρ Γ} {s : List τ} {p : P τ ρ Γ α} (h : p.calm) :
    p.raisesOnly env s fun _ => False := by
  cases p with
  | pureFn x => rintro e rfl; obtain ⟨v, h⟩ := h; cases h
  | satisfy test => intro t _ e he; obtain ⟨b, h⟩ := h t; cases he.symm.trans h
  | regexp mt => exact fun j l e he => h s j l e he
  | fmap p fn => intro col m i es a j e _ _ he; obtain ⟨b, h⟩ := h a; cases he.symm.trans h
  | recoverWithFn p fn lbl => intro i e he; obtain ⟨b, h⟩ := h s i; cases he.symm.trans h
  | _ => trivial

/-- C69: if the functions given to a grammar do not raise, all its `Delay` objects are defined, and the items of
`many` do not accept the empty string, then nothing is ever raised by `parse`: on no input, in no mode, for no
`max_insertions`, with no `get_loc`. -/
theorem C69_never (h : Everywhere env (fun p => p.calm ∧ p.defined env ∧ p.properMany env) p)
    (o : Opts τ) (e : Exn) : ¬ Raises env p s o e := fun hr =>
  C69_only (E := fun _ => False) ⟨h.1.mono fun _ h => ⟨h.1.raisesOnly, h.2⟩,
    fun i q hq => (h.2 i q hq).mono fun _ h => ⟨h.1.raisesOnly, h.2⟩⟩ o hr

/-- C69: without left recursion, such a parser always gives a result: `parse(..).unwrap(..)` returns a value or
raises a `ParseError`, for every input. -/
theorem C69_total (h : Everywhere env (fun p => p.calm ∧ p.defined env ∧ p.properMany env) p)
    (hwf : WellFounded fun j i => LeftCalls env i j) (o : Opts τ) (hk : 0 ≤ o.maxInsertions)
    (fmt : Loc → String) (b : Bool) :
    ∃ r, Returns env p s o r ∧
      ((∃ v, r.unwrap fmt b = .ok v) ∨ ∃ pe, r.unwrap fmt b = .error pe) := by
  rcases C23_terminates env hwf p s o hk with ⟨r, hr⟩ | ⟨e, he⟩
  · refine ⟨r, hr, ?_⟩
    cases hx : r.unwrap fmt b with
    | ok v => exact .inl ⟨v, rfl⟩
    | error pe => exact .inr ⟨pe, rfl⟩
  · exact absurd he (C69_never h o e)

/-- A sufficient condition on the syntax of an item. -/
theorem P.Consumes.der {p : P τ ρ Γ α} (h : p.Consumes) {col : Nat → Nat → Prop} {m i : Nat}
    {es : List Step} {v : α} {j : Nat} (hd : Der env s col p m i es v j) (he : es = [])
    (hi : i ≤ s.length) : i < j := by
  have hle : ∀ {β : Type} {p : P τ ρ Γ β} {m i es v j}, Der env s col p m i es v j → i ≤ s.length →
      i ≤ j ∧ j ≤ s.length := fun h h' => ⟨(der_inOrder h h').1.le, (der_inOrder h h').2⟩
  induction hd with
  | pure => exact h.elim
  | pureFn _ => exact h.elim
  | eof => exact h.elim
  | eofSkip _ => exact h.elim
  | satisfy _ _ => omega
  | satisfySkip _ _ _ => cases he
  | sym _ _ => omega
  | symSkip _ _ _ => cases he
  | symInsert => cases he
  | literal _ => rename_i x _ hx _ _ _; have := List.length_pos_iff.2 hx; omega
  | literalSkip _ _ => cases he
  | literalInsert => cases he
  | regexp _ => exact h.elim
  | regexpSkip _ _ _ => cases he
  | fmap _ _ ih => exact ih h he hi
  | altL _ ih => exact ih h.1 he hi
  | altR _ ih => exact ih h.2 he hi
  | bind h1 h2 ih1 ih2 =>
    obtain ⟨e1, e2⟩ := List.append_eq_nil_iff.1 he
    have l1 := hle h1 hi
    have l2 := hle h2 l1.2
    rcases h with h | h
    · have := ih1 h e1 hi; omega
    · have := ih2 (h _) e2 l1.2; omega
  | seqWith h1 h2 ih1 ih2 =>
    obtain ⟨e1, e2⟩ := List.append_eq_nil_iff.1 he
    have l1 := hle h1 hi
    have l2 := hle h2 l1.2
    rcases h with h | h
    · have := ih1 h e1 hi; omega
    · have := ih2 h e2 l1.2; omega
  | maybeNone => exact h.elim
  | maybeSome _ _ => exact h.elim
  | manyNil => exact h.elim
  | manyCons _ _ _ _ => exact h.elim
  | attempt _ ih => exact ih h he hi
  | label _ ih => exact ih h he hi
  | recover _ ih => exact ih h (List.map_eq_nil_iff.1 he) hi
  | recoverWith _ ih => exact ih h he hi
  | recoverWithInsert => cases he
  | recoverWithFn _ ih => exact ih h he hi
  | recoverWithFnInsert _ => cases he
  | block _ _ ih => exact ih h he hi
  | aligned _ _ ih => exact ih h he hi
  | indented _ _ _ ih => exact ih h he hi
  | ref _ _ _ => exact h.elim

end

/-! ### Cases that meet the hypotheses -/

/-- `Samples.boom` raises on "a", and this is accounted for: its function was applied to the "a" that was
read. -/
example : Raises Samples.noEnv Samples.boom ['a'] (plain defaultGetLoc) (.user "boom") ∧
    Throws Samples.noEnv ['a'] anyCol false Samples.boom 0 0 .callback (.user "boom") :=
  ⟨⟨0, rfl⟩, .fmap (.sym (t := 'a') rfl rfl) (fun _ => rfl) rfl⟩

/-- The sample list never raises. -/
example : Everywhere Samples.noEnv
    (fun p => p.calm ∧ p.defined Samples.noEnv ∧ p.properMany Samples.noEnv) Samples.list := by
  refine ⟨?_, fun i => i.elim⟩
  simp [Samples.list, P.sepBy, P.seql, P.seqr, P.seq, P.map, P.All, P.calm, P.defined, P.properMany]
  intro s col m i a hi h
  refine absurd (P.Consumes.der ?_ h rfl hi) (by omega)
  simp [P.Consumes]

end Reparsec
