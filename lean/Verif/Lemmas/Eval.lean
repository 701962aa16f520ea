import Verif.Spec.Eval
import Verif.Lemmas.SoundAll
import Verif.Lemmas.Mono

/-!
# The plain mode computes exactly the evaluation relation
-/

namespace Reparsec

variable {τ ρ : Type} {Γ : ρ → Type} {α β γ : Type} {s : List τ}

/-- A run shows the outcome: same value, end, expected list; for failures, a location of the position,
the expected list and `consumed`. -/
inductive Shows (D : LocDisc s) : Outcome α → Out (Simple τ α) → Prop
  | accepts {r : Ok τ α} : CtxOK D r.ctx r.pos →
      Shows D (.accepts r.value r.pos r.expected) (.ret (.ok r))
  | rejects {q : Nat} {e : Err} : D.rel q e.loc →
      Shows D (.fails (.rejects q e.expected e.consumed)) (.ret (.error e))
  | raises {e : Exn} : Shows D (.fails (.raises e)) (.raise e)

variable {D : LocDisc s}

theorem Shows.ne {o : Outcome α} {x : Out (Simple τ α)} (h : Shows D o x) : x ≠ .diverge := by
  cases h <;> simp

theorem Shows.inv_accepts {v : α} {j : Nat} {w : List String} {x : Out (Simple τ α)}
    (h : Shows D (.accepts v j w) x) :
    ∃ r, x = .ret (.ok r) ∧ r.value = v ∧ r.pos = j ∧ r.expected = w ∧ CtxOK D r.ctx j := by
  cases h with
  | accepts h => exact ⟨_, rfl, rfl, rfl, rfl, h⟩

theorem Shows.inv_rejects {q : Nat} {w : List String} {b : Bool} {x : Out (Simple τ α)}
    (h : Shows D (.fails (.rejects q w b)) x) :
    ∃ e, x = .ret (.error e) ∧ D.rel q e.loc ∧ e.expected = w ∧ e.consumed = b := by
  cases h with
  | rejects h => exact ⟨_, rfl, h, rfl, rfl⟩

theorem Shows.inv_raises {e : Exn} {x : Out (Simple τ α)}
    (h : Shows D (.fails (.raises e)) x) : x = .raise e := by
  cases h with
  | raises => rfl

theorem Shows.mk_accepts {v : α} {j : Nat} {w : List String} {r : Ok τ α} (h1 : r.value = v)
    (h2 : r.pos = j) (h3 : r.expected = w) (h4 : CtxOK D r.ctx r.pos) :
    Shows D (.accepts v j w) (.ret (.ok r)) := by
  subst h1 h2 h3; exact .accepts h4

theorem Shows.mk_rejects {q : Nat} {w : List String} {b : Bool} {e : Err} (h1 : D.rel q e.loc)
    (h2 : e.expected = w) (h3 : e.consumed = b) :
    Shows (α := α) D (.fails (.rejects q w b)) (.ret (.error e)) := by
  subst h2 h3; exact .rejects h1

/-! ### Combinators -/

theorem shows_fmap {f : ParseFns τ α} {i : Nat} {ctx : Ctx τ} {fn : α → Except Exn β} {r : Ok τ α}
    {b : β} (h : f.fast s i ctx = .ret (.ok r)) (hc : CtxOK D r.ctx r.pos)
    (hfn : fn r.value = .ok b) :
    Shows D (.accepts b r.pos r.expected) ((fmapFns f fn).fast s i ctx) := by
  simp only [fmapFns, fmapFast, Out.bind_def, h, Out.bind_ret, Simple.fmapM, Ok.fmapM, hfn,
    Out.ofExcept_ok, Out.pure_def]
  exact .mk_accepts rfl rfl rfl hc

theorem shows_fmap_raises {f : ParseFns τ α} {i : Nat} {ctx : Ctx τ} {fn : α → Except Exn β}
    {r : Ok τ α} {e : Exn} (h : f.fast s i ctx = .ret (.ok r)) (hfn : fn r.value = .error e) :
    Shows D (.fails (.raises e)) ((fmapFns f fn).fast s i ctx) := by
  simp only [fmapFns, fmapFast, Out.bind_def, h, Out.bind_ret, Simple.fmapM, Ok.fmapM, hfn,
    Out.ofExcept_error, Out.bind_raise]
  exact .raises

theorem shows_fmap_fails {f : ParseFns τ α} {i : Nat} {ctx : Ctx τ} {fn : α → Except Exn β}
    {x : Failure} (h : Shows D (.fails x) (f.fast s i ctx)) :
    Shows D (.fails x) ((fmapFns f fn).fast s i ctx) := by
  simp only [fmapFns, fmapFast, Out.bind_def]
  cases x with
  | rejects q w b =>
    obtain ⟨e, h1, h2, rfl, rfl⟩ := h.inv_rejects
    rw [h1]; exact .rejects h2
  | raises e => rw [h.inv_raises]; exact .raises

theorem shows_alt_first {f g : ParseFns τ α} {i : Nat} {ctx : Ctx τ} {v : α} {j : Nat}
    {w : List String} (h : Shows D (.accepts v j w) (f.fast s i ctx)) :
    Shows D (.accepts v j w) ((altFns f g).fast s i ctx) := by
  simp only [altFns, altFast, Out.bind_def]
  obtain ⟨r, h1, rfl, rfl, rfl, h2⟩ := h.inv_accepts
  rw [h1]; exact .accepts h2

theorem shows_alt_fails {f g : ParseFns τ α} {i : Nat} {ctx : Ctx τ} {x : Failure} (hx : x.final)
    (h : Shows D (.fails x) (f.fast s i ctx)) :
    Shows D (.fails x) ((altFns f g).fast s i ctx) := by
  simp only [altFns, altFast, Out.bind_def]
  cases x with
  | rejects q w b =>
    obtain ⟨e, h1, h2, rfl, rfl⟩ := h.inv_rejects
    rw [h1, Out.bind_ret]
    simp only [if_pos (show e.consumed = true from hx)]
    exact .rejects h2
  | raises e => rw [h.inv_raises]; exact .raises

theorem shows_alt_second {f g : ParseFns τ α} {i : Nat} {ctx : Ctx τ} {k : Nat} {w : List String}
    {o : Outcome α} (hs : Sim g) (hg : Framed g) (hi : i ≤ s.length)
    (h : Shows D (.fails (.rejects k w false)) (f.fast s i ctx))
    (h' : Shows D o (g.fast s i ctx)) :
    Shows D (o.otherwise i k w) ((altFns f g).fast s i ctx) := by
  simp only [altFns, altFast, Out.bind_def]
  obtain ⟨e, h1, h2, rfl, h3⟩ := h.inv_rejects
  rw [h1, Out.bind_ret]
  simp only [h3, Bool.false_eq_true, if_false]
  cases ho : g.fast s i ctx with
  | diverge => rw [ho] at h'; exact absurd rfl h'.ne
  | raise e => rw [ho] at h'; cases h'; exact .raises
  | ret y =>
    rw [ho] at h'
    cases y with
    | ok r =>
      cases h' with
      | accepts hc =>
        have hf := (framed_fast hs hg hi ho).consumed
        simp only [Out.bind_ret, Outcome.otherwise, Ok.setExpected, hf]
        by_cases hlt : i < r.pos <;> simp [hlt]
        · exact .accepts hc
        · exact .mk_accepts rfl rfl rfl hc
    | error e' =>
      cases h' with
      | rejects hr =>
        simp only [Out.bind_ret]
        obtain ⟨loc, ex, c⟩ := e'
        cases c with
        | true => exact .mk_rejects hr rfl rfl
        | false => exact .mk_rejects h2 rfl rfl

theorem shows_bind_fails {f : ParseFns τ α} {g : α → ParseFns τ β} {i : Nat} {ctx : Ctx τ}
    {x : Failure} (h : Shows D (.fails x) (f.fast s i ctx)) :
    Shows D (.fails x) ((bindFns f g).fast s i ctx) := by
  simp only [bindFns, bindFast, Out.bind_def]
  cases x with
  | rejects q w b =>
    obtain ⟨e, h1, h2, rfl, rfl⟩ := h.inv_rejects
    rw [h1]; exact .rejects h2
  | raises e => rw [h.inv_raises]; exact .raises

theorem shows_bind {f : ParseFns τ α} {g : α → ParseFns τ β} {i : Nat} {ctx : Ctx τ} {r : Ok τ α}
    {o : Outcome β} (hs : Sim f) (hf : Framed f) (hsg : Sim (g r.value)) (hfg : Framed (g r.value))
    (hi : i ≤ s.length) (h : f.fast s i ctx = .ret (.ok r))
    (h' : Shows D o ((g r.value).fast s r.pos r.ctx)) :
    Shows D (o.after i r.pos r.expected) ((bindFns f g).fast s i ctx) := by
  have hfr := framed_fast hs hf hi h
  simp only [bindFns, bindFast, Out.bind_def, h, Out.bind_ret, Out.pure_def]
  cases ho : (g r.value).fast s r.pos r.ctx with
  | diverge => rw [ho] at h'; exact absurd rfl h'.ne
  | raise e => rw [ho] at h'; cases h'; exact .raises
  | ret y =>
    rw [ho] at h'
    cases y with
    | ok r' =>
      cases h' with
      | accepts hc =>
        have hcons := (framed_fast hsg hfg hfr.hi ho).consumed
        simp only [Out.bind_ret, Outcome.after, Simple.prependExpected, Ok.prependExpected, hcons]
        by_cases hlt : r.pos < r'.pos <;> simp [hlt]
        · exact .accepts hc
        · exact .mk_accepts rfl rfl rfl hc
    | error e' =>
      cases h' with
      | rejects hr =>
        simp only [Out.bind_ret, Simple.prependExpected, Err.prependExpected]
        obtain ⟨loc, ex, c⟩ := e'
        cases c with
        | true => exact .mk_rejects hr rfl rfl
        | false => exact .mk_rejects hr rfl (by simp [hfr.consumed])

theorem shows_maybe {f : ParseFns τ α} {i : Nat} {ctx : Ctx τ} {v : α} {j : Nat}
    {w : List String} (h : Shows D (.accepts v j w) (f.fast s i ctx)) :
    Shows D (.accepts (some v) j w) ((maybeFns f).fast s i ctx) := by
  simp only [maybeFns, maybeFast, Out.bind_def]
  obtain ⟨r, h1, rfl, rfl, rfl, h2⟩ := h.inv_accepts
  rw [h1]; exact .mk_accepts rfl rfl rfl h2

theorem shows_maybe_none {f : ParseFns τ α} {i : Nat} {ctx : Ctx τ} {q : Nat} {w : List String}
    (hc : CtxOK D ctx i) (h : Shows D (.fails (.rejects q w false)) (f.fast s i ctx)) :
    Shows D (.accepts none i w) ((maybeFns f).fast s i ctx) := by
  simp only [maybeFns, maybeFast, Out.bind_def]
  obtain ⟨e, h1, h2, rfl, h3⟩ := h.inv_rejects
  rw [h1]
  simp only [Out.bind_ret, h3, Bool.false_eq_true, if_false]
  exact .mk_accepts rfl rfl rfl hc

theorem shows_maybe_fails {f : ParseFns τ α} {i : Nat} {ctx : Ctx τ} {x : Failure} (hx : x.final)
    (h : Shows D (.fails x) (f.fast s i ctx)) :
    Shows D (.fails x) ((maybeFns f).fast s i ctx) := by
  simp only [maybeFns, maybeFast, Out.bind_def]
  cases x with
  | rejects q w b =>
    obtain ⟨e, h1, h2, rfl, rfl⟩ := h.inv_rejects
    rw [h1, Out.bind_ret]
    simp only [if_pos (show e.consumed = true from hx)]
    exact .rejects h2
  | raises e => rw [h.inv_raises]; exact .raises

theorem shows_attempt {f : ParseFns τ α} {i : Nat} {ctx : Ctx τ} {o : Outcome α}
    (h : Shows D o (f.fast s i ctx)) : Shows D o.attempted ((attemptFns f).fast s i ctx) := by
  simp only [attemptFns, attemptFast, Out.bind_def]
  cases o with
  | accepts v j w =>
    obtain ⟨r, h1, rfl, rfl, rfl, h2⟩ := h.inv_accepts
    rw [h1]; exact .accepts h2
  | fails x =>
    cases x with
    | rejects q w b =>
      obtain ⟨e, h1, h2, rfl, rfl⟩ := h.inv_rejects
      rw [h1]; exact .mk_rejects h2 rfl rfl
    | raises e => rw [h.inv_raises]; exact .raises

theorem shows_label {f : ParseFns τ α} {i : Nat} {ctx : Ctx τ} {o : Outcome α} {x : String}
    (hs : Sim f) (hf : Framed f) (hi : i ≤ s.length) (h : Shows D o (f.fast s i ctx)) :
    Shows D (o.labelled i x) ((labelFns f x).fast s i ctx) := by
  simp only [labelFns, Out.bind_def, Out.pure_def]
  cases o with
  | accepts v j w =>
    obtain ⟨r, h1, rfl, rfl, rfl, h2⟩ := h.inv_accepts
    have hc := (framed_fast hs hf hi h1).consumed
    rw [h1]
    simp only [Out.bind_ret, Simple.setExpected, Ok.setExpected, hc, Outcome.labelled]
    by_cases hlt : i < r.pos <;> simp [hlt]
    · exact .accepts h2
    · exact .mk_accepts rfl rfl rfl h2
  | fails y =>
    cases y with
    | rejects q w b =>
      obtain ⟨⟨loc, ex, c⟩, h1, h2, rfl, rfl⟩ := h.inv_rejects
      rw [h1]
      cases c with
      | true => exact .mk_rejects h2 rfl rfl
      | false => exact .mk_rejects h2 rfl rfl
    | raises e => rw [h.inv_raises]; exact .raises

theorem shows_setCtx {o : Outcome α} {x : Out (Simple τ α)} {c : Ctx τ} (h : Shows D o x)
    (hc : ∀ r, x = .ret (.ok r) → CtxOK D c r.pos) :
    Shows D o (x.bind fun r => .ret (r.setCtx c)) := by
  cases h with
  | @accepts r h => exact .mk_accepts rfl rfl rfl (hc r rfl)
  | rejects h => exact .rejects h
  | raises => exact .raises

theorem shows_block {f : ParseFns τ α} {i : Nat} {ctx : Ctx τ} {o : Outcome α} (hs : Sim f)
    (hf : Framed f) (hi : i ≤ s.length) (hc : CtxOK D ctx i)
    (h : Shows D o (f.fast s i ((ctx.updateLoc s i).setMark (ctx.updateLoc s i).loc.col))) :
    Shows D o ((blockFns f).fast s i ctx) := by
  simp only [blockFns, Out.bind_def, Out.pure_def]
  refine shows_setCtx h fun r hr => ?_
  have hfr := framed_fast hs hf hi hr
  exact (hc.updateLoc (Nat.le_refl _) hi).stay hfr.lo hfr.hi

theorem shows_indented {f : ParseFns τ α} {i : Nat} {ctx : Ctx τ} {o : Outcome α} {delta : Int}
    (hs : Sim f) (hf : Framed f) (hi : i ≤ s.length) (hc : CtxOK D ctx i)
    (hd : ((ctx.updateLoc s i).mark : Int) + delta = (ctx.updateLoc s i).loc.col)
    (h : Shows D o (f.fast s i ((ctx.updateLoc s i).setMark (ctx.updateLoc s i).loc.col))) :
    Shows D o ((indentedFns delta f).fast s i ctx) := by
  simp only [indentedFns, Out.bind_def, Out.pure_def, hd, if_true]
  refine shows_setCtx h fun r hr => ?_
  have hfr := framed_fast hs hf hi hr
  exact (hc.updateLoc (Nat.le_refl _) hi).stay hfr.lo hfr.hi

/-- The value collected so far and the flag do not matter to the loop of `many`. -/
theorem shows_acc (f : FastFn τ α) (n : Nat) :
    ∀ pos ctx c c' (w : List α) o, Shows D o (manyFastLoop f s n pos ctx c w) → ∀ v,
      Shows D (o.map (v ++ ·)) (manyFastLoop f s n pos ctx c' (v ++ w)) := by
  induction n with
  | zero => intro pos ctx c c' w o h v; exact absurd rfl h.ne
  | succ n ih =>
    intro pos ctx c c' w o h v
    simp only [manyFastLoop, Out.bind_def] at h ⊢
    cases hr : f s pos ctx with
    | diverge => rw [hr] at h; exact absurd rfl h.ne
    | raise e => rw [hr] at h; cases h; exact .raises
    | ret y =>
      simp only [hr, Out.bind_ret] at h ⊢
      cases y with
      | ok r =>
        simp only at h ⊢
        split at h
        · next hc =>
          rw [if_pos hc, List.append_assoc]
          exact ih _ _ _ _ _ _ h v
        · next hc => rw [if_neg hc]; cases h; exact .raises
      | error e =>
        simp only at h ⊢
        split at h
        · next hc => rw [if_pos hc]; cases h with | rejects h => exact .rejects h
        · next hc =>
          rw [if_neg hc]
          cases h with
          | accepts h => exact .mk_accepts rfl rfl rfl h

/-- Whether the loop of `many` goes on for ever does not depend on what was collected. -/
theorem manyFastLoop_acc_ne (f : FastFn τ α) (n : Nat) :
    ∀ pos ctx c c' (w w' : List α), manyFastLoop f s n pos ctx c w = .diverge →
      manyFastLoop f s n pos ctx c' w' = .diverge := by
  induction n with
  | zero => intro pos ctx c c' w w' _; rfl
  | succ n ih =>
    intro pos ctx c c' w w' h
    simp only [manyFastLoop, Out.bind_def] at h ⊢
    cases hr : f s pos ctx with
    | diverge => rfl
    | raise e => rw [hr] at h; cases h
    | ret y =>
      simp only [hr, Out.bind_ret] at h ⊢
      cases y with
      | ok r =>
        simp only at h ⊢
        split at h
        · next hc => rw [if_pos hc]; exact ih _ _ _ _ _ _ h
        · cases h
      | error e =>
        simp only at h ⊢
        split at h <;> cases h

theorem shows_many_end {f : ParseFns τ α} {i n : Nat} {ctx : Ctx τ} {q : Nat} {w : List String}
    (hc : CtxOK D ctx i) (h : Shows D (.fails (.rejects q w false)) (f.fast s i ctx)) :
    Shows D (.accepts [] i w) (manyFastLoop f.fast s (n + 1) i ctx false []) := by
  simp only [manyFastLoop, Out.bind_def]
  obtain ⟨e, h1, h2, rfl, h3⟩ := h.inv_rejects
  rw [h1]
  simp only [Out.bind_ret, h3, Bool.false_eq_true, if_false]
  exact .mk_accepts rfl rfl rfl hc

theorem shows_many_fails {f : ParseFns τ α} {i n : Nat} {ctx : Ctx τ} {x : Failure} (hx : x.final)
    (h : Shows D (.fails x) (f.fast s i ctx)) :
    Shows D (.fails x) (manyFastLoop f.fast s (n + 1) i ctx false []) := by
  simp only [manyFastLoop, Out.bind_def]
  cases x with
  | rejects q w b =>
    obtain ⟨e, h1, h2, rfl, rfl⟩ := h.inv_rejects
    rw [h1, Out.bind_ret]
    simp only [if_pos (show e.consumed = true from hx)]
    exact .rejects h2
  | raises e => rw [h.inv_raises]; exact .raises

theorem shows_many_empty {f : ParseFns τ α} {i n : Nat} {ctx : Ctx τ} {r : Ok τ α} (hs : Sim f)
    (hf : Framed f) (hi : i ≤ s.length) (h : f.fast s i ctx = .ret (.ok r)) (hr : ¬ i < r.pos) :
    Shows D (.fails (.raises (.runtimeError "parser shouldn't accept empty string")))
      (manyFastLoop f.fast s (n + 1) i ctx false []) := by
  simp only [manyFastLoop, Out.bind_def, h, Out.bind_ret]
  rw [(framed_fast hs hf hi h).consumed]
  simp only [hr, decide_false, Bool.false_eq_true, if_false]
  exact .raises

theorem shows_many_item {f : ParseFns τ α} {i n : Nat} {ctx : Ctx τ} {r : Ok τ α}
    {o : Outcome (List α)} (hs : Sim f)
    (hf : Framed f) (hi : i ≤ s.length) (h : f.fast s i ctx = .ret (.ok r)) (hr : i < r.pos)
    (h' : Shows D o (manyFastLoop f.fast s n r.pos r.ctx false [])) :
    Shows D (o.map (r.value :: ·)) (manyFastLoop f.fast s (n + 1) i ctx false []) := by
  simp only [manyFastLoop, Out.bind_def, h, Out.bind_ret]
  rw [(framed_fast hs hf hi h).consumed]
  simp only [hr, decide_true, if_true]
  exact shows_acc f.fast n r.pos r.ctx false true [] o h' [r.value]

/-! ### Soundness: what a run that ends shows -/

section
variable [BEq τ] {env : Env τ ρ Γ}

/-- Every run that ends shows an outcome of the relation. -/
def EvalAt (env : Env τ ρ Γ) (D : LocDisc s) (p : P τ ρ Γ α) (f : ParseFns τ α) : Prop :=
  ∀ i ctx, i ≤ s.length → CtxOK D ctx i → f.fast s i ctx ≠ .diverge →
    ∃ o, Eval env s D.col p ctx.mark i o ∧ Shows D o (f.fast s i ctx)

theorem eval_testAt (test : τ → Except Exn Bool) : EvalAt env D (.satisfy test) (satisfyFns test) := by
  intro i ctx hi hc _
  simp only [satisfyFns, satisfyFast, Out.bind_def, testAt]
  cases hs : s[i]? with
  | none =>
    exact ⟨_, .satisfyNot (by simp [hs]), .mk_rejects (hc.report (Nat.le_refl _) hi) rfl rfl⟩
  | some t =>
    have hlt : i < s.length := (List.getElem?_eq_some_iff.1 hs).1
    cases ht : test t with
    | error e => exact ⟨_, .satisfyRaises hs ht, by simp only [ht]; exact .raises⟩
    | ok b =>
      cases b with
      | true =>
        exact ⟨_, .satisfy hs ht, by
          simp only [ht]; exact .mk_accepts rfl rfl rfl (hc.stay (Nat.le_succ _) hlt)⟩
      | false =>
        refine ⟨_, .satisfyNot ?_, by
          simp only [ht]; exact .mk_rejects (hc.report (Nat.le_refl _) hi) rfl rfl⟩
        rw [hs]; rintro t' h; cases h; exact ht

theorem eval_sym (x : τ) (l : String) : EvalAt env D (.sym x l) (symFns x l) := by
  intro i ctx hi hc _
  simp only [symFns, symFast, symAt]
  cases hs : s[i]? with
  | none => exact ⟨_, .symNot (by simp [hs]), .mk_rejects (hc.report (Nat.le_refl _) hi) rfl rfl⟩
  | some t =>
    have hlt : i < s.length := (List.getElem?_eq_some_iff.1 hs).1
    cases ht : t == x with
    | true =>
      exact ⟨_, .sym hs ht, by
        simp only [ht, if_true]; exact .mk_accepts rfl rfl rfl (hc.stay (Nat.le_succ _) hlt)⟩
    | false =>
      refine ⟨_, .symNot ?_, by
        simp only [ht, Bool.false_eq_true, if_false]
        exact .mk_rejects (hc.report (Nat.le_refl _) hi) rfl rfl⟩
      rw [hs]; rintro t' h; cases h; exact ht

theorem eval_literal (x : List τ) (ss : String) (h : x ≠ []) :
    EvalAt env D (.literal x ss h) (literalFns x ss) := by
  intro i ctx hi hc _
  simp only [literalFns, literalFast]
  split
  · next ht =>
    have := startsWith_le h ht
    exact ⟨_, .literal ht, .mk_accepts rfl rfl rfl (hc.updateLoc (by simp) this)⟩
  · next ht =>
    exact ⟨_, .literalNot (by simpa [startsWith] using ht),
      .mk_rejects (hc.report (Nat.le_refl _) hi) rfl rfl⟩

theorem eval_regexp (mt : Matcher τ β) : EvalAt env D (.regexp mt) (regexpFns mt) := by
  intro i ctx hi hc _
  simp only [regexpFns, regexpFast, Out.bind_def, Matcher.at]
  cases hm : mt.run s i with
  | none =>
    exact ⟨_, .regexpNot (.inl hm), .mk_rejects (hc.report (Nat.le_refl _) hi) rfl rfl⟩
  | some y =>
    obtain ⟨e, v⟩ := y
    have hb := mt.bounds _ _ _ _ hi hm
    cases v with
    | error x => exact ⟨_, .regexpRaises hm, .raises⟩
    | ok v =>
      cases v with
      | none =>
        exact ⟨_, .regexpNot (.inr ⟨e, hm⟩), .mk_rejects (hc.report (Nat.le_refl _) hi) rfl rfl⟩
      | some v => exact ⟨_, .regexp hm, .mk_accepts rfl rfl rfl (hc.updateLoc hb.1 hb.2)⟩

theorem eval_fmap {p : P τ ρ Γ α} {f : ParseFns τ α} (fn : α → Except Exn β)
    (h : EvalAt env D p f) : EvalAt env D (.fmap p fn) (fmapFns f fn) := by
  intro i ctx hi hc hne
  obtain ⟨o, h1, h2⟩ := h i ctx hi hc fun h => hne (by simp [fmapFns, fmapFast, h])
  cases o with
  | fails x => exact ⟨_, .fmapFails h1, shows_fmap_fails h2⟩
  | accepts v j w =>
    obtain ⟨r, h3, rfl, rfl, rfl, h4⟩ := h2.inv_accepts
    cases hfn : fn r.value with
    | ok b => exact ⟨_, .fmap h1 hfn, shows_fmap h3 h4 hfn⟩
    | error e => exact ⟨_, .fmapRaises h1 hfn, shows_fmap_raises h3 hfn⟩

theorem Failure.cases (x : Failure) : x.final ∨ ∃ q w, x = .rejects q w false := by
  cases x with
  | raises e => exact .inl trivial
  | rejects q w b =>
    cases b with
    | true => exact .inl rfl
    | false => exact .inr ⟨q, w, rfl⟩

theorem eval_alt {p q : P τ ρ Γ α} {f g : ParseFns τ α} (hsg : Sim g) (hfg : Framed g)
    (hp : EvalAt env D p f) (hq : EvalAt env D q g) : EvalAt env D (.alt p q) (altFns f g) := by
  intro i ctx hi hc hne
  obtain ⟨o, h1, h2⟩ := hp i ctx hi hc fun h => hne (by simp [altFns, altFast, h])
  cases o with
  | accepts v j w => exact ⟨_, .altFirst h1, shows_alt_first h2⟩
  | fails x =>
    rcases x.cases with hx | ⟨k, w, rfl⟩
    · exact ⟨_, .altFails h1 hx, shows_alt_fails hx h2⟩
    · obtain ⟨e, h3, _, _, h4⟩ := h2.inv_rejects
      obtain ⟨o, h5, h6⟩ := hq i ctx hi hc fun h => hne (by simp [altFns, altFast, h3, h4, h])
      exact ⟨_, .altSecond h1 h5, shows_alt_second hsg hfg hi h2 h6⟩

theorem eval_bind {p : P τ ρ Γ α} {k : α → P τ ρ Γ β} {f : ParseFns τ α} {g : α → ParseFns τ β}
    (hs : Sim f) (hf : Framed f) (hsg : ∀ a, Sim (g a)) (hfg : ∀ a, Framed (g a))
    (hp : EvalAt env D p f) (hq : ∀ a, EvalAt env D (k a) (g a)) :
    EvalAt env D (.bind p k) (bindFns f g) := by
  intro i ctx hi hc hne
  obtain ⟨o, h1, h2⟩ := hp i ctx hi hc fun h => hne (by simp [bindFns, bindFast, h])
  cases o with
  | fails x => exact ⟨_, .bindFails h1, shows_bind_fails h2⟩
  | accepts v j w =>
    obtain ⟨r, h3, rfl, rfl, rfl, h4⟩ := h2.inv_accepts
    have hfr := framed_fast hs hf hi h3
    obtain ⟨o, h5, h6⟩ := hq r.value r.pos r.ctx hfr.hi h4 fun h =>
      hne (by simp [bindFns, bindFast, h3, h])
    rw [hfr.ctx.mark] at h5
    exact ⟨_, .bind h1 h5, shows_bind hs hf (hsg _) (hfg _) hi h3 h6⟩

theorem shows_seq {f : ParseFns τ α} {g : ParseFns τ β} {merge : α → β → γ} {i : Nat} {ctx : Ctx τ}
    {r : Ok τ α} {o : Outcome β} (hs : Sim f) (hf : Framed f) (hsg : Sim g) (hfg : Framed g)
    (hi : i ≤ s.length) (h : f.fast s i ctx = .ret (.ok r))
    (h' : Shows D o (g.fast s r.pos r.ctx)) :
    Shows D ((o.map (merge r.value)).after i r.pos r.expected)
      ((seqFns f g merge).fast s i ctx) := by
  rw [seqFns_eq]
  have h3 : Sim (fmapFns g fun b => .ok (merge r.value b)) ∧
      Framed (fmapFns g fun b => .ok (merge r.value b)) :=
    frame_closed.fmap _ _ ⟨hsg, hfg⟩
  refine shows_bind hs hf h3.1 h3.2 hi h ?_
  cases o with
  | fails x => exact shows_fmap_fails h'
  | accepts v j w =>
    obtain ⟨r', h4, rfl, rfl, rfl, h5⟩ := h'.inv_accepts
    exact shows_fmap h4 h5 rfl

theorem eval_seq {p : P τ ρ Γ α} {q : P τ ρ Γ β} {f : ParseFns τ α} {g : ParseFns τ β}
    (merge : α → β → γ) (hs : Sim f) (hf : Framed f) (hsg : Sim g) (hfg : Framed g)
    (hp : EvalAt env D p f) (hq : EvalAt env D q g) :
    EvalAt env D (.seqWith p q merge) (seqFns f g merge) := by
  intro i ctx hi hc hne
  obtain ⟨o, h1, h2⟩ := hp i ctx hi hc fun h => hne (by simp [seqFns, seqFast, h])
  cases o with
  | fails x =>
    refine ⟨_, .seqFails h1, ?_⟩
    rw [seqFns_eq]; exact shows_bind_fails h2
  | accepts v j w =>
    obtain ⟨r, h3, rfl, rfl, rfl, h4⟩ := h2.inv_accepts
    have hfr := framed_fast hs hf hi h3
    obtain ⟨o, h5, h6⟩ := hq r.pos r.ctx hfr.hi h4 fun h =>
      hne (by simp [seqFns, seqFast, h3, h])
    rw [hfr.ctx.mark] at h5
    exact ⟨_, .seq h1 h5, shows_seq hs hf hsg hfg hi h3 h6⟩

theorem eval_maybe {p : P τ ρ Γ α} {f : ParseFns τ α} (hp : EvalAt env D p f) :
    EvalAt env D (.maybe p) (maybeFns f) := by
  intro i ctx hi hc hne
  obtain ⟨o, h1, h2⟩ := hp i ctx hi hc fun h => hne (by simp [maybeFns, maybeFast, h])
  cases o with
  | accepts v j w => exact ⟨_, .maybe h1, shows_maybe h2⟩
  | fails x =>
    rcases x.cases with hx | ⟨k, w, rfl⟩
    · exact ⟨_, .maybeFails h1 hx, shows_maybe_fails hx h2⟩
    · exact ⟨_, .maybeNone h1, shows_maybe_none hc h2⟩

theorem eval_many {p : P τ ρ Γ α} {f : ParseFns τ α} (hs : Sim f) (hf : Framed f)
    (hp : EvalAt env D p f) (n : Nat) : EvalAt env D (.many p) (manyFns n f) := by
  intro i ctx hi hc hne
  show ∃ o, _ ∧ Shows D o (manyFastLoop f.fast s n i ctx false [])
  have hne : manyFastLoop f.fast s n i ctx false [] ≠ .diverge := hne
  induction n generalizing i ctx with
  | zero => exact absurd rfl hne
  | succ n ih =>
    obtain ⟨o, h1, h2⟩ := hp i ctx hi hc fun h => hne (by simp [manyFastLoop, h])
    cases o with
    | fails x =>
      rcases x.cases with hx | ⟨k, w, rfl⟩
      · exact ⟨_, .manyFails h1 hx, shows_many_fails hx h2⟩
      · exact ⟨_, .manyEnd h1, shows_many_end hc h2⟩
    | accepts v j w =>
      obtain ⟨r, h3, rfl, rfl, rfl, h4⟩ := h2.inv_accepts
      have hfr := framed_fast hs hf hi h3
      by_cases hlt : i < r.pos
      · have hne' : manyFastLoop f.fast s n r.pos r.ctx false [] ≠ .diverge := by
          intro h
          apply hne
          simp only [manyFastLoop, Out.bind_def, h3, Out.bind_ret, hfr.consumed, hlt, decide_true,
            if_true, List.nil_append]
          exact manyFastLoop_acc_ne _ _ _ _ _ _ _ _ h
        obtain ⟨o, h5, h6⟩ := ih r.pos r.ctx hfr.hi h4 hne' hne'
        rw [hfr.ctx.mark] at h5
        exact ⟨_, .manyItem h1 hlt h5, shows_many_item hs hf hi h3 hlt h6⟩
      · have he : r.pos = i := by have := hfr.lo; omega
        rw [he] at h1
        exact ⟨_, .manyEmpty h1, shows_many_empty hs hf hi h3 hlt⟩

theorem eval_transfer {p : P τ ρ Γ α} {q : P τ ρ Γ α} {f : ParseFns τ α} (h : EvalAt env D p f)
    (hpq : ∀ m i o, Eval env s D.col p m i o → Eval env s D.col q m i o) : EvalAt env D q f := by
  intro i ctx hi hc hne
  obtain ⟨o, h1, h2⟩ := h i ctx hi hc hne
  exact ⟨o, hpq _ _ _ h1, h2⟩

theorem eval_attempt {p : P τ ρ Γ α} {f : ParseFns τ α} (h : EvalAt env D p f) :
    EvalAt env D (.attempt p) (attemptFns f) := by
  intro i ctx hi hc hne
  obtain ⟨o, h1, h2⟩ := h i ctx hi hc fun h => hne (by simp [attemptFns, attemptFast, h])
  exact ⟨_, .attempt h1, shows_attempt h2⟩

theorem eval_label {p : P τ ρ Γ α} {f : ParseFns τ α} {x : String} (hs : Sim f) (hf : Framed f)
    (h : EvalAt env D p f) : EvalAt env D (.label p x) (labelFns f x) := by
  intro i ctx hi hc hne
  obtain ⟨o, h1, h2⟩ := h i ctx hi hc fun h => hne (by simp [labelFns, h])
  exact ⟨_, .label h1, shows_label hs hf hi h2⟩

theorem eval_block {p : P τ ρ Γ α} {f : ParseFns τ α} (hs : Sim f) (hf : Framed f) (hl : D.layout)
    (h : EvalAt env D p f) : EvalAt env D (.block p) (blockFns f) := by
  intro i ctx hi hc hne
  obtain ⟨o, h1, h2⟩ := h i ((ctx.updateLoc s i).setMark (ctx.updateLoc s i).loc.col) hi
    ((hc.updateLoc (Nat.le_refl _) hi).setMark _) fun h => hne (by simp [blockFns, h])
  exact ⟨_, .block (hc.here hi hl).2 h1, shows_block hs hf hi hc h2⟩

theorem eval_aligned {p : P τ ρ Γ α} {f : ParseFns τ α} (hl : D.layout)
    (h : EvalAt env D p f) : EvalAt env D (.aligned p) (alignedFns f) := by
  intro i ctx hi hc hne
  have hh := hc.here hi hl
  simp only [alignedFns] at hne ⊢
  split
  · next heq =>
    rw [if_pos heq] at hne
    obtain ⟨o, h1, h2⟩ := h i (ctx.updateLoc s i) hi (hc.updateLoc (Nat.le_refl _) hi) hne
    rw [updateLoc_mark] at h1 heq
    exact ⟨_, .aligned (heq ▸ hh.2) h1, h2⟩
  · next hn =>
    rw [updateLoc_mark] at hn
    exact ⟨_, .alignedNot hh.2 fun h => hn h.symm, .mk_rejects hh.1 rfl rfl⟩

theorem eval_indented {p : P τ ρ Γ α} {f : ParseFns τ α} {delta : Int} (hs : Sim f) (hf : Framed f)
    (hl : D.layout) (h : EvalAt env D p f) :
    EvalAt env D (.indented delta p) (indentedFns delta f) := by
  intro i ctx hi hc hne
  have hh := hc.here hi hl
  by_cases heq : ((ctx.updateLoc s i).mark : Int) + delta = (ctx.updateLoc s i).loc.col
  · obtain ⟨o, h1, h2⟩ := h i ((ctx.updateLoc s i).setMark (ctx.updateLoc s i).loc.col) hi
      ((hc.updateLoc (Nat.le_refl _) hi).setMark _) fun h => hne (by simp [indentedFns, h, heq])
    exact ⟨_, .indented hh.2 (by rw [updateLoc_mark] at heq; exact heq) h1,
      shows_indented hs hf hi hc heq h2⟩
  · refine ⟨_, .indentedNot hh.2 (by rw [updateLoc_mark] at heq; exact heq), ?_⟩
    simp only [indentedFns, heq, if_false]
    exact .mk_rejects hh.1 rfl rfl

structure EvalQ (env : Env τ ρ Γ) (D : LocDisc s) (p : P τ ρ Γ α) (f : ParseFns τ α) : Prop where
  sim : Sim f
  frame : Framed f
  eval : (D.layout ∨ p.All P.notLayout) → EvalAt env D p f

theorem eval_closed (env : Env τ ρ Γ) (D : LocDisc s)
    (henv : D.layout ∨ ∀ i q, env i = some q → q.All P.notLayout) :
    Closed env (fun {_} p f => EvalQ env D p f) := by
  have fc := frame_closed.closed (τ := τ) env
  have fd : ∀ {α : Type} {p : P τ ρ Γ α} {f : ParseFns τ α}, (Sim f ∧ Framed f) →
      ((D.layout ∨ p.All P.notLayout) → EvalAt env D p f) → EvalQ env D p f :=
    fun h h' => ⟨h.1, h.2, h'⟩
  exact {
    pure := fun x => fd (fc.pure x) fun _ i ctx hi hc _ =>
      ⟨_, .pure, .mk_accepts rfl rfl rfl hc⟩
    pureFn := fun x => fd (fc.pureFn x) fun _ i ctx hi hc _ => by
      cases x with
      | ok v => exact ⟨_, .pureFn, .mk_accepts rfl rfl rfl hc⟩
      | error e => exact ⟨_, .pureFnRaises, .raises⟩
    unexpected := fun x => fd (fc.unexpected x) fun _ i ctx hi hc _ =>
      ⟨_, .unexpected, .mk_rejects (hc.report (Nat.le_refl _) hi) rfl rfl⟩
    eof := fd fc.eof fun _ i ctx hi hc _ => by
      simp only [eofFns, eofFast]
      split
      · next h => subst h; exact ⟨_, .eof, .mk_accepts rfl rfl rfl hc⟩
      · next h =>
        exact ⟨_, .eofNot h, .mk_rejects (hc.report (Nat.le_refl _) hi) rfl rfl⟩
    satisfy := fun t => fd (fc.satisfy t) fun _ => eval_testAt t
    sym := fun x l => fd (fc.sym x l) fun _ => eval_sym x l
    literal := fun x ss h => fd (fc.literal x ss h) fun _ => eval_literal x ss h
    regexp := fun m => fd (fc.regexp m) fun _ => eval_regexp m
    fmap := fun p f fn h => fd (fc.fmap p f fn ⟨h.sim, h.frame⟩) fun hl =>
      eval_fmap fn (h.eval (hl.imp_right fun h => h.2))
    alt := fun p q f g hf hg =>
      fd (fc.alt p q f g ⟨hf.sim, hf.frame⟩ ⟨hg.sim, hg.frame⟩) fun hl =>
        eval_alt hg.sim hg.frame (hf.eval (hl.imp_right fun h => h.2.1))
          (hg.eval (hl.imp_right fun h => h.2.2))
    bind := fun p f k g hf hg =>
      fd (fc.bind p f k g ⟨hf.sim, hf.frame⟩ fun a => ⟨(hg a).sim, (hg a).frame⟩) fun hl =>
        eval_bind hf.sim hf.frame (fun a => (hg a).sim) (fun a => (hg a).frame)
          (hf.eval (hl.imp_right fun h => h.2.1))
          fun a => (hg a).eval (hl.imp_right fun h => h.2.2 a)
    seqWith := fun p f q g merge hf hg =>
      fd (fc.seqWith p f q g merge ⟨hf.sim, hf.frame⟩ ⟨hg.sim, hg.frame⟩) fun hl =>
        eval_seq merge hf.sim hf.frame hg.sim hg.frame (hf.eval (hl.imp_right fun h => h.2.1))
          (hg.eval (hl.imp_right fun h => h.2.2))
    maybe := fun p f h => fd (fc.maybe p f ⟨h.sim, h.frame⟩) fun hl =>
      eval_maybe (h.eval (hl.imp_right fun h => h.2))
    many := fun p f fuel h => fd (fc.many p f fuel ⟨h.sim, h.frame⟩) fun hl =>
      eval_many h.sim h.frame (h.eval (hl.imp_right fun h => h.2)) fuel
    attempt := fun p f h => fd (fc.attempt p f ⟨h.sim, h.frame⟩) fun hl =>
      eval_attempt (h.eval (hl.imp_right fun h => h.2))
    label := fun p f x h => fd (fc.label p f x ⟨h.sim, h.frame⟩) fun hl =>
      eval_label h.sim h.frame (h.eval (hl.imp_right fun h => h.2))
    recover := fun p f h => fd (fc.recover p f ⟨h.sim, h.frame⟩) fun hl i ctx hi hc hne => by
      obtain ⟨o, h1, h2⟩ := h.eval (hl.imp_right fun h => h.2) i ctx hi hc hne
      exact ⟨o, .recover h1, h2⟩
    recoverWith := fun p f x vs h => fd (fc.recoverWith p f x vs ⟨h.sim, h.frame⟩)
      fun hl i ctx hi hc hne => by
      obtain ⟨o, h1, h2⟩ := h.eval (hl.imp_right fun h => h.2) i ctx hi hc hne
      exact ⟨o, .recoverWith h1, h2⟩
    recoverWithFn := fun p f fn lbl h =>
      fd (fc.recoverWithFn p f fn lbl ⟨h.sim, h.frame⟩) fun hl i ctx hi hc hne => by
      obtain ⟨o, h1, h2⟩ := h.eval (hl.imp_right fun h => h.2) i ctx hi hc hne
      exact ⟨o, .recoverWithFn h1, h2⟩
    block := fun p f h => fd (fc.block p f ⟨h.sim, h.frame⟩) fun hl => by
      rcases hl with hl | hl
      · exact eval_block h.sim h.frame hl (h.eval (.inl hl))
      · exact hl.1.elim
    aligned := fun p f h => fd (fc.aligned p f ⟨h.sim, h.frame⟩) fun hl => by
      rcases hl with hl | hl
      · exact eval_aligned hl (h.eval (.inl hl))
      · exact hl.1.elim
    indented := fun p f d h => fd (fc.indented p f d ⟨h.sim, h.frame⟩) fun hl => by
      rcases hl with hl | hl
      · exact eval_indented h.sim h.frame hl (h.eval (.inl hl))
      · exact hl.1.elim
    refDiverge := fun i => fd (fc.refDiverge i) fun _ i ctx hi hc hne => absurd rfl hne
    refUndefined := fun i h => fd (fc.refUndefined i h) fun _ _ ctx _ _ _ =>
      ⟨_, .refUndefined h, .raises⟩
    refDefined := fun i p f he h => ⟨h.sim, h.frame, fun _ i ctx hi hc hne => by
      obtain ⟨o, h1, h2⟩ := h.eval (henv.imp_right fun h => h _ p he) i ctx hi hc hne
      exact ⟨o, .ref he h1, h2⟩⟩ }

theorem eval_denote (env : Env τ ρ Γ) (D : LocDisc s) (p : P τ ρ Γ α)
    (h : D.layout ∨ Everywhere env P.notLayout p) (fuel : Nat) :
    EvalAt env D p (denote env fuel p) :=
  ((eval_closed env D (h.imp_right fun h => h.2)).denote fuel p).eval
    (h.imp_right fun h => h.1)

/-! ### Completeness: every outcome of the relation is what the run shows -/

omit [BEq τ] in
theorem Shows.le {o : Outcome α} {x y : Out (Simple τ α)} (h : Shows D o x) (hle : x.Le y) :
    Shows D o y := by
  rcases hle with hle | rfl
  · exact absurd hle h.ne
  · exact h

/-- With enough fuel the run shows this outcome. -/
def ShownAt (env : Env τ ρ Γ) (D : LocDisc s) (p : P τ ρ Γ α) (m i : Nat) (o : Outcome α) : Prop :=
  ∃ n, ∀ n', n ≤ n' → ∀ ctx, CtxOK D ctx i → ctx.mark = m →
    Shows D o ((denote env n' p).fast s i ctx)

theorem ShownAt.map {p : P τ ρ Γ α} {q : P τ ρ Γ β} {m i : Nat} {o : Outcome α} {o' : Outcome β}
    (h : ShownAt env D p m i o)
    (f : ∀ n ctx, CtxOK D ctx i → ctx.mark = m → Shows D o ((denote env n p).fast s i ctx) →
      Shows D o' ((denote env n q).fast s i ctx)) : ShownAt env D q m i o' := by
  obtain ⟨n, h⟩ := h
  exact ⟨n, fun n' hn ctx hc hm => f _ _ hc hm (h n' hn ctx hc hm)⟩

theorem ShownAt.of {p : P τ ρ Γ α} {m i : Nat} {o : Outcome α}
    (f : ∀ n ctx, CtxOK D ctx i → ctx.mark = m → Shows D o ((denote env n p).fast s i ctx)) :
    ShownAt env D p m i o := ⟨0, fun n _ => f n⟩

theorem eval_complete (D : LocDisc s) (hcol : ∀ i c c', D.col i c → D.col i c' → c = c')
    (henv : D.layout ∨ ∀ x q, env x = some q → q.All P.notLayout)
    {p : P τ ρ Γ α} {m i : Nat} {o : Outcome α} (h : Eval env s D.col p m i o) :
    i ≤ s.length → (D.layout ∨ p.All P.notLayout) → ShownAt env D p m i o := by
  have hsim : ∀ {α : Type} (p : P τ ρ Γ α) n, Sim (denote env n p) := fun p n => sim_denote env n p
  have hfr : ∀ {α : Type} (p : P τ ρ Γ α) n, Framed (denote env n p) := fun p n => frame_denote env n p
  have two : ∀ {α β γ : Type} {p : P τ ρ Γ α} {q : P τ ρ Γ β} {r : P τ ρ Γ γ} {m i v j w o o'},
      i ≤ s.length → ShownAt env D p m i (.accepts v j w) →
      (j ≤ s.length → ShownAt env D q m j o) →
      (∀ n ctx r', CtxOK D ctx i → (denote env n p).fast s i ctx = .ret (.ok r') → r'.value = v →
        r'.pos = j → r'.expected = w →
        Shows D o ((denote env n q).fast s j r'.ctx) → Shows D o' ((denote env n r).fast s i ctx)) →
      ShownAt env D r m i o' := by
    intro α β γ p q r m i v j w o o' hi h1 h2 h3
    by_cases hex : ∃ ctx, CtxOK D ctx i ∧ ctx.mark = m
    case neg => exact ⟨0, fun _ _ ctx hc hm => absurd ⟨ctx, hc, hm⟩ hex⟩
    obtain ⟨ctx0, hc0, hm0⟩ := hex
    obtain ⟨n1, h1⟩ := h1
    have hj : j ≤ s.length := by
      obtain ⟨r', hr, rfl, rfl, rfl, -⟩ := (h1 n1 (Nat.le_refl _) ctx0 hc0 hm0).inv_accepts
      exact (framed_fast (hsim p _) (hfr p _) hi hr).hi
    obtain ⟨n2, h2⟩ := h2 hj
    refine ⟨max n1 n2, fun n' hn ctx hc hm => ?_⟩
    obtain ⟨r', hr, rfl, rfl, rfl, h4⟩ := (h1 n' (by omega) ctx hc hm).inv_accepts
    have hf := framed_fast (hsim p _) (hfr p _) hi hr
    exact h3 n' ctx r' hc hr rfl rfl rfl (h2 n' (by omega) r'.ctx h4 (hf.ctx.mark.trans hm))
  intro hi hl
  induction h with
  | pure => exact .of fun n ctx hc hm => .mk_accepts rfl rfl rfl hc
  | pureFn => exact .of fun n ctx hc hm => .mk_accepts rfl rfl rfl hc
  | pureFnRaises => exact .of fun n ctx hc hm => .raises
  | unexpected => exact .of fun n ctx hc hm => .mk_rejects (hc.report (Nat.le_refl _) hi) rfl rfl
  | eof =>
    refine .of fun n ctx hc hm => ?_
    show Shows D _ (eofFast s s.length ctx)
    rw [eofFast, if_pos rfl]
    exact .mk_accepts rfl rfl rfl hc
  | eofNot h =>
    refine .of fun n ctx hc hm => ?_
    show Shows D _ (eofFast s _ ctx)
    rw [eofFast, if_neg h]
    exact .mk_rejects (hc.report (Nat.le_refl _) hi) rfl rfl
  | satisfy h1 h2 =>
    refine .of fun n ctx hc hm => ?_
    have hlt := (List.getElem?_eq_some_iff.1 h1).1
    show Shows D _ (satisfyFast _ s _ ctx)
    simp only [satisfyFast, testAt, h1, h2, Out.ofExcept_ok, Out.bind_def, Out.bind_ret]
    exact .mk_accepts rfl rfl rfl (hc.stay (Nat.le_succ _) hlt)
  | @satisfyNot test m i h1 =>
    refine .of fun n ctx hc hm => ?_
    show Shows D _ (satisfyFast _ s _ ctx)
    simp only [satisfyFast, testAt, Out.bind_def]
    cases hs : s[i]? with
    | none => exact .mk_rejects (hc.report (Nat.le_refl _) hi) rfl rfl
    | some t =>
      simp only [h1 t hs]
      exact .mk_rejects (hc.report (Nat.le_refl _) hi) rfl rfl
  | satisfyRaises h1 h2 =>
    refine .of fun n ctx hc hm => ?_
    show Shows D _ (satisfyFast _ s _ ctx)
    simp only [satisfyFast, testAt, h1, h2, Out.bind_def]
    exact .raises
  | sym h1 h2 =>
    refine .of fun n ctx hc hm => ?_
    have hlt := (List.getElem?_eq_some_iff.1 h1).1
    show Shows D _ (symFast _ _ s _ ctx)
    simp only [symFast, symAt, h1, h2, if_true]
    exact .mk_accepts rfl rfl rfl (hc.stay (Nat.le_succ _) hlt)
  | @symNot x l m i h1 =>
    refine .of fun n ctx hc hm => ?_
    show Shows D _ (symFast _ _ s _ ctx)
    simp only [symFast, symAt]
    cases hs : s[i]? with
    | none => exact .mk_rejects (hc.report (Nat.le_refl _) hi) rfl rfl
    | some t =>
      simp only [h1 t hs, Bool.false_eq_true, if_false]
      exact .mk_rejects (hc.report (Nat.le_refl _) hi) rfl rfl
  | @literal x ss hx m i h1 =>
    refine .of fun n ctx hc hm => ?_
    show Shows D _ (literalFast _ _ s _ ctx)
    have := startsWith_le hx (show startsWith _ s _ = true from h1)
    rw [literalFast, if_pos (show startsWith _ s _ = true from h1)]
    exact .mk_accepts rfl rfl rfl (hc.updateLoc (by simp) this)
  | literalNot h1 =>
    refine .of fun n ctx hc hm => ?_
    show Shows D _ (literalFast _ _ s _ ctx)
    rw [literalFast, if_neg (by simpa [startsWith] using h1)]
    exact .mk_rejects (hc.report (Nat.le_refl _) hi) rfl rfl
  | @regexp β mt v m i j h1 =>
    refine .of fun n ctx hc hm => ?_
    show Shows D _ (regexpFast _ s _ ctx)
    have hb := mt.bounds _ _ _ _ hi h1
    simp only [regexpFast, Matcher.at, h1, Out.ofExcept_ok, Out.bind_def, Out.bind_ret]
    exact .mk_accepts rfl rfl rfl (hc.updateLoc hb.1 hb.2)
  | regexpNot h1 =>
    refine .of fun n ctx hc hm => ?_
    show Shows D _ (regexpFast _ s _ ctx)
    rcases h1 with h1 | ⟨j, h1⟩ <;>
    · simp only [regexpFast, Matcher.at, h1, Out.bind_def]
      exact .mk_rejects (hc.report (Nat.le_refl _) hi) rfl rfl
  | regexpRaises h1 =>
    refine .of fun n ctx hc hm => ?_
    show Shows D _ (regexpFast _ s _ ctx)
    simp only [regexpFast, Matcher.at, h1, Out.bind_def]
    exact .raises
  | fmap h hfn ih =>
    refine (ih hi (hl.imp_right fun h => h.2)).map fun n ctx hc hm hs => ?_
    obtain ⟨r, h3, rfl, rfl, rfl, h4⟩ := hs.inv_accepts
    exact shows_fmap h3 h4 hfn
  | fmapRaises h hfn ih =>
    refine (ih hi (hl.imp_right fun h => h.2)).map fun n ctx hc hm hs => ?_
    obtain ⟨r, h3, rfl, rfl, rfl, h4⟩ := hs.inv_accepts
    exact shows_fmap_raises h3 hfn
  | fmapFails h ih =>
    exact (ih hi (hl.imp_right fun h => h.2)).map fun n ctx hc hm hs => shows_fmap_fails hs
  | altFirst h ih =>
    exact (ih hi (hl.imp_right fun h => h.2.1)).map fun n ctx hc hm hs => shows_alt_first hs
  | altFails h hx ih =>
    exact (ih hi (hl.imp_right fun h => h.2.1)).map fun n ctx hc hm hs => shows_alt_fails hx hs
  | altSecond h1 h2 ih1 ih2 =>
    obtain ⟨n1, h1⟩ := ih1 hi (hl.imp_right fun h => h.2.1)
    obtain ⟨n2, h2⟩ := ih2 hi (hl.imp_right fun h => h.2.2)
    exact ⟨max n1 n2, fun n hn ctx hc hm => shows_alt_second (hsim _ _) (hfr _ _) hi
      (h1 n (by omega) ctx hc hm) (h2 n (by omega) ctx hc hm)⟩
  | bindFails h ih =>
    exact (ih hi (hl.imp_right fun h => h.2.1)).map fun n ctx hc hm hs =>
      shows_bind_fails (g := fun a => denote env n _) hs
  | bind h1 h2 ih1 ih2 =>
    refine two hi (ih1 hi (hl.imp_right fun h => h.2.1))
      (fun hj => ih2 hj (hl.imp_right fun h => h.2.2 _)) ?_
    rintro n ctx r hc hr rfl rfl rfl hs
    exact shows_bind (g := fun a => denote env n _) (hsim _ _) (hfr _ _) (hsim _ _) (hfr _ _) hi hr hs
  | seqFails h ih =>
    refine (ih hi (hl.imp_right fun h => h.2.1)).map fun n ctx hc hm hs => ?_
    show Shows D _ ((seqFns (denote env n _) (denote env n _) _).fast s _ ctx)
    rw [seqFns_eq]; exact shows_bind_fails hs
  | seq h1 h2 ih1 ih2 =>
    refine two hi (ih1 hi (hl.imp_right fun h => h.2.1))
      (fun hj => ih2 hj (hl.imp_right fun h => h.2.2)) ?_
    rintro n ctx r hc hr rfl rfl rfl hs
    exact shows_seq (hsim _ _) (hfr _ _) (hsim _ _) (hfr _ _) hi hr hs
  | maybe h ih =>
    exact (ih hi (hl.imp_right fun h => h.2)).map fun n ctx hc hm hs => shows_maybe hs
  | maybeNone h ih =>
    exact (ih hi (hl.imp_right fun h => h.2)).map fun n ctx hc hm hs => shows_maybe_none hc hs
  | maybeFails h hx ih =>
    exact (ih hi (hl.imp_right fun h => h.2)).map fun n ctx hc hm hs => shows_maybe_fails hx hs
  | @manyItem α p m i v j w o h1 hlt h2 ih1 ih2 =>
    by_cases hex : ∃ ctx, CtxOK D ctx i ∧ ctx.mark = m
    case neg => exact ⟨0, fun _ _ ctx hc hm => absurd ⟨ctx, hc, hm⟩ hex⟩
    obtain ⟨ctx0, hc0, hm0⟩ := hex
    obtain ⟨n1, h1⟩ := ih1 hi (hl.imp_right fun h => h.2)
    have hj : j ≤ s.length := by
      obtain ⟨r', hr, rfl, rfl, rfl, -⟩ := (h1 n1 (Nat.le_refl _) ctx0 hc0 hm0).inv_accepts
      exact (framed_fast (hsim p _) (hfr p _) hi hr).hi
    obtain ⟨n2, h2⟩ := ih2 hj hl
    refine ⟨max n1 n2 + 1, fun n' hn ctx hc hm => ?_⟩
    obtain ⟨n, rfl⟩ : ∃ n, n' = n + 1 := ⟨n' - 1, by omega⟩
    obtain ⟨r, hr, rfl, rfl, rfl, h4⟩ := (h1 (n + 1) (by omega) ctx hc hm).inv_accepts
    have hf := framed_fast (hsim p _) (hfr p _) hi hr
    have h5 := h2 n (by omega) r.ctx h4 (hf.ctx.mark.trans hm)
    refine shows_many_item (hsim _ _) (hfr _ _) hi hr hlt (Shows.le h5 ?_)
    exact manyFastLoop_le (denote_le env (Nat.le_succ n) p).1 s (Nat.le_refl _) _ _ _ _
  | manyEnd h ih =>
    obtain ⟨n1, h1⟩ := ih hi (hl.imp_right fun h => h.2)
    refine ⟨n1 + 1, fun n' hn ctx hc hm => ?_⟩
    obtain ⟨n, rfl⟩ : ∃ n, n' = n + 1 := ⟨n' - 1, by omega⟩
    exact shows_many_end hc (h1 (n + 1) (by omega) ctx hc hm)
  | manyFails h hx ih =>
    obtain ⟨n1, h1⟩ := ih hi (hl.imp_right fun h => h.2)
    refine ⟨n1 + 1, fun n' hn ctx hc hm => ?_⟩
    obtain ⟨n, rfl⟩ : ∃ n, n' = n + 1 := ⟨n' - 1, by omega⟩
    exact shows_many_fails hx (h1 (n + 1) (by omega) ctx hc hm)
  | manyEmpty h ih =>
    obtain ⟨n1, h1⟩ := ih hi (hl.imp_right fun h => h.2)
    refine ⟨n1 + 1, fun n' hn ctx hc hm => ?_⟩
    obtain ⟨n, rfl⟩ : ∃ n, n' = n + 1 := ⟨n' - 1, by omega⟩
    obtain ⟨r, hr, rfl, h5, rfl, h4⟩ := (h1 (n + 1) (by omega) ctx hc hm).inv_accepts
    exact shows_many_empty (hsim _ _) (hfr _ _) hi hr (by omega)
  | attempt h ih =>
    exact (ih hi (hl.imp_right fun h => h.2)).map fun n ctx hc hm hs => shows_attempt hs
  | label h ih =>
    exact (ih hi (hl.imp_right fun h => h.2)).map fun n ctx hc hm hs =>
      shows_label (hsim _ _) (hfr _ _) hi hs
  | recover h ih => exact (ih hi (hl.imp_right fun h => h.2)).map fun n ctx hc hm hs => hs
  | recoverWith h ih => exact (ih hi (hl.imp_right fun h => h.2)).map fun n ctx hc hm hs => hs
  | recoverWithFn h ih => exact (ih hi (hl.imp_right fun h => h.2)).map fun n ctx hc hm hs => hs
  | block hcl h ih =>
    have hl' : D.layout := hl.elim id fun h => h.1.elim
    obtain ⟨n1, h1⟩ := ih hi (.inl hl')
    refine ⟨n1, fun n hn ctx hc hm => ?_⟩
    have hu := hc.updateLoc (Nat.le_refl _) hi
    exact shows_block (hsim _ _) (hfr _ _) hi hc
      (h1 n hn _ (hu.setMark _) (hcol _ _ _ (hc.here hi hl').2 hcl))
  | aligned hcl h ih =>
    have hl' : D.layout := hl.elim id fun h => h.1.elim
    obtain ⟨n1, h1⟩ := ih hi (.inl hl')
    refine ⟨n1, fun n hn ctx hc hm => ?_⟩
    have hu := hc.updateLoc (Nat.le_refl _) hi
    have hmark := hcol _ _ _ (hc.here hi hl').2 hcl
    have hm' := fun j => (updateLoc_mark (s := s) ctx j).trans hm
    show Shows D _ (if _ then _ else _)
    rw [if_pos ((hm' _).trans hmark.symm)]
    exact h1 n hn _ hu (hm' _)
  | alignedNot hcl hne =>
    have hl' : D.layout := hl.elim id fun h => h.1.elim
    refine .of fun n ctx hc hm => ?_
    have hh := hc.here hi hl'
    have hm' := fun j => (updateLoc_mark (s := s) ctx j).trans hm
    show Shows D _ (if _ then _ else _)
    rw [if_neg (by rw [hm', hcol _ _ _ hh.2 hcl]; exact fun h => hne h.symm)]
    exact .mk_rejects hh.1 rfl rfl
  | indented hcl hd h ih =>
    have hl' : D.layout := hl.elim id fun h => h.1.elim
    obtain ⟨n1, h1⟩ := ih hi (.inl hl')
    refine ⟨n1, fun n hn ctx hc hm => ?_⟩
    have hu := hc.updateLoc (Nat.le_refl _) hi
    have hmark := hcol _ _ _ (hc.here hi hl').2 hcl
    have hm' := fun j => (updateLoc_mark (s := s) ctx j).trans hm
    exact shows_indented (hsim _ _) (hfr _ _) hi hc (by rw [hm', hmark]; exact hd)
      (h1 n hn _ (hu.setMark _) hmark)
  | indentedNot hcl hne =>
    have hl' : D.layout := hl.elim id fun h => h.1.elim
    refine .of fun n ctx hc hm => ?_
    have hh := hc.here hi hl'
    have hm' := fun j => (updateLoc_mark (s := s) ctx j).trans hm
    show Shows D _ (if _ then _ else _)
    rw [if_neg (by rw [hm', hcol _ _ _ hh.2 hcl]; exact hne)]
    exact .mk_rejects hh.1 rfl rfl
  | @ref x p m i o hx h ih =>
    obtain ⟨n1, h1⟩ := ih hi (henv.imp_right fun h => h x p hx)
    refine ⟨n1 + 1, fun n' hn ctx hc hm => ?_⟩
    obtain ⟨n, rfl⟩ : ∃ n, n' = n + 1 := ⟨n' - 1, by omega⟩
    show Shows D _ ((table env (n + 1) x).fast s i ctx)
    unfold table
    rw [hx]
    exact h1 n (by omega) ctx hc hm
  | @refUndefined x m i hx =>
    refine ⟨1, fun n' hn ctx hc hm => ?_⟩
    obtain ⟨n, rfl⟩ : ∃ n, n' = n + 1 := ⟨n' - 1, by omega⟩
    show Shows D _ ((table env (n + 1) x).fast s i ctx)
    unfold table
    rw [hx]
    exact .raises

end

end Reparsec
