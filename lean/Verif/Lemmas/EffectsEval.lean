import Verif.Spec.EffectsEval
import Verif.Lemmas.EffectsMono
import Verif.Lemmas.Eval

/-!
# With side effects, the plain mode computes exactly the evaluation relation
-/

namespace Reparsec

variable {σ : Type}

section
variable {α β : Type} {c : Callback σ α β} {a : α} {w w' : World σ}

theorem Calls.ok {b : β} (h : Calls c a w (.ok b) w') : c.call a w = .ret b w' := by
  cases h with
  | mk h => simp only [Callback.call, h]

theorem Calls.error {e : Exn} (h : Calls c a w (.error e) w') : c.call a w = .raise e w' := by
  cases h with
  | mk h => simp only [Callback.call, h]

theorem calls_cases (c : Callback σ α β) (a : α) (w : World σ) :
    (∃ b w', Calls c a w (.ok b) w') ∨ ∃ e w', Calls c a w (.error e) w' := by
  cases h : c.run a w.state with
  | mk r st =>
    cases r with
    | ok b => exact .inl ⟨b, _, .mk h⟩
    | error e => exact .inr ⟨e, _, .mk h⟩

end

namespace Eff

variable {τ ρ : Type} {Γ : ρ → Type} {α β γ : Type} {s : List τ}

/-- A run from `i` with context `ctx` shows the outcome and ends in the world `w`: same value, end,
expected list; for failures, a location of the position, the expected list and `consumed`. -/
inductive Shows (D : LocDisc s) (i : Nat) (ctx : Ctx τ) (w : World σ) :
    Outcome α → Run σ (Simple τ α) → Prop
  | accepts {r : Ok τ α} : CtxOK D r.ctx r.pos → OkFrame s i ctx r →
      Shows D i ctx w (.accepts r.value r.pos r.expected) (.ret (.ok r) w)
  | rejects {q : Nat} {e : Err} : D.rel q e.loc →
      Shows D i ctx w (.fails (.rejects q e.expected e.consumed)) (.ret (.error e) w)
  | raises {e : Exn} : Shows D i ctx w (.fails (.raises e)) (.raise e w)

variable {D : LocDisc s} {i : Nat} {ctx : Ctx τ} {w w1 w2 : World σ}

theorem Shows.ne {o : Outcome α} {x : Run σ (Simple τ α)} (h : Shows D i ctx w o x) :
    x ≠ .diverge := by
  cases h <;> simp

theorem Shows.inv_accepts {v : α} {j : Nat} {wt : List String} {x : Run σ (Simple τ α)}
    (h : Shows D i ctx w (.accepts v j wt) x) :
    ∃ r, x = .ret (.ok r) w ∧ r.value = v ∧ r.pos = j ∧ r.expected = wt ∧ CtxOK D r.ctx j ∧
      OkFrame s i ctx r := by
  cases h with
  | accepts h h' => exact ⟨_, rfl, rfl, rfl, rfl, h, h'⟩

theorem Shows.inv_rejects {q : Nat} {wt : List String} {b : Bool} {x : Run σ (Simple τ α)}
    (h : Shows D i ctx w (.fails (.rejects q wt b)) x) :
    ∃ e, x = .ret (.error e) w ∧ D.rel q e.loc ∧ e.expected = wt ∧ e.consumed = b := by
  cases h with
  | rejects h => exact ⟨_, rfl, h, rfl, rfl⟩

theorem Shows.inv_raises {e : Exn} {x : Run σ (Simple τ α)}
    (h : Shows D i ctx w (.fails (.raises e)) x) : x = .raise e w := by
  cases h with
  | raises => rfl

theorem Shows.mk_accepts {v : α} {j : Nat} {wt : List String} {r : Ok τ α} (h1 : r.value = v)
    (h2 : r.pos = j) (h3 : r.expected = wt) (h4 : CtxOK D r.ctx r.pos) (h5 : OkFrame s i ctx r) :
    Shows D i ctx w (.accepts v j wt) (.ret (.ok r) w) := by
  subst h1 h2 h3; exact .accepts h4 h5

theorem Shows.mk_rejects {q : Nat} {wt : List String} {b : Bool} {e : Err} (h1 : D.rel q e.loc)
    (h2 : e.expected = wt) (h3 : e.consumed = b) :
    Shows (α := α) D i ctx w (.fails (.rejects q wt b)) (.ret (.error e) w) := by
  subst h2 h3; exact .rejects h1

/-- A failure that is passed on. -/
theorem Shows.fails_bind {x : Failure} {y : Run σ (Simple τ α)} {F : Simple τ α → Act σ (Simple τ β)}
    {i' : Nat} {ctx' : Ctx τ}
    (h : Shows D i' ctx' w (.fails x) y)
    (hF : ∀ q (e : Err), x = .rejects q e.expected e.consumed → F (.error e) w = .ret (.error e) w) :
    Shows D i ctx w (.fails x) (y.bind F) := by
  cases h with
  | rejects h => rw [Run.bind_ret, hF _ _ rfl]; exact .rejects h
  | raises => exact .raises

theorem shows_lift {g : Reparsec.ParseFns τ α} {o : Outcome α} (hg : Reparsec.Sim g ∧ Framed g)
    (hi : i ≤ s.length) (h : Reparsec.Shows D o (g.fast s i ctx)) :
    Shows D i ctx w o ((lift g : ParseFns σ τ α).fast s i ctx w) := by
  simp only [lift]
  cases hx : g.fast s i ctx with
  | diverge => rw [hx] at h; exact absurd rfl h.ne
  | raise e => rw [hx] at h; cases h; exact .raises
  | ret y =>
    rw [hx] at h
    cases h with
    | accepts h => exact .accepts h (framed_fast hg.1 hg.2 hi hx)
    | rejects h => exact .rejects h

theorem OkFrame.of_eq {r : Ok τ α} {r' : Ok τ β} (h : OkFrame s i ctx r) (h1 : r'.pos = r.pos)
    (h2 : r'.consumed = r.consumed) (h3 : r'.ctx = r.ctx) : OkFrame s i ctx r' := by
  obtain ⟨v, p, c, e, b⟩ := r'
  dsimp only at h1 h2 h3
  subst h1 h2 h3
  exact ⟨h.lo, h.hi, h.consumed, h.ctx⟩

theorem OkFrame.stay {r : Ok τ α} (hi : i ≤ s.length) (h1 : r.pos = i) (h2 : r.consumed = false)
    (h3 : r.ctx = ctx) : OkFrame s i ctx r :=
  ⟨by omega, by omega, by simp [h1, h2], by rw [h3]; exact .refl _⟩

/-- After a sequence. -/
theorem OkFrame.trans {r : Ok τ α} {r' : Ok τ β} {r'' : Ok τ γ} (h : OkFrame s i ctx r)
    (h' : OkFrame s r.pos r.ctx r') (h1 : r''.pos = r'.pos)
    (h2 : r''.consumed = (r'.consumed || r.consumed)) (h3 : r''.ctx = r'.ctx) :
    OkFrame s i ctx r'' := by
  refine ⟨?_, ?_, ?_, ?_⟩
  · have := h.lo; have := h'.lo; omega
  · have := h'.hi; omega
  · rw [h2, h1, h.consumed, h'.consumed]
    have := h.lo; have := h'.lo
    by_cases h5 : r.pos < r'.pos <;> by_cases h6 : i < r.pos <;> simp [h5, h6] <;> omega
  · rw [h3]; exact h.ctx.trans h'.ctx

/-! ### Combinators -/

theorem shows_fmap {f : ParseFns σ τ α} {c : Callback σ α β} {r : Ok τ α} {b : β}
    (h : f.fast s i ctx w = .ret (.ok r) w1) (hc : CtxOK D r.ctx r.pos) (hf : OkFrame s i ctx r)
    (hfn : Calls c r.value w1 (.ok b) w2) :
    Shows D i ctx w2 (.accepts b r.pos r.expected) ((fmapFns f c).fast s i ctx w) := by
  simp only [fmapFns, fmapFast, Act.bind_apply, h, Run.bind_ret, hfn.ok, Act.pure_apply]
  exact .mk_accepts rfl rfl rfl hc (OkFrame.of_eq hf rfl rfl rfl)

theorem shows_fmap_raises {f : ParseFns σ τ α} {c : Callback σ α β} {r : Ok τ α} {e : Exn}
    (h : f.fast s i ctx w = .ret (.ok r) w1) (hfn : Calls c r.value w1 (.error e) w2) :
    Shows D i ctx w2 (.fails (.raises e)) ((fmapFns f c).fast s i ctx w) := by
  simp only [fmapFns, fmapFast, Act.bind_apply, h, Run.bind_ret, hfn.error, Run.bind_raise]
  exact .raises

theorem shows_fmap_fails {f : ParseFns σ τ α} {c : Callback σ α β} {x : Failure}
    (h : Shows D i ctx w1 (.fails x) (f.fast s i ctx w)) :
    Shows D i ctx w1 (.fails x) ((fmapFns f c).fast s i ctx w) :=
  h.fails_bind fun _ _ _ => rfl

theorem shows_alt_first {f g : ParseFns σ τ α} {v : α} {j : Nat} {wt : List String}
    (h : Shows D i ctx w1 (.accepts v j wt) (f.fast s i ctx w)) :
    Shows D i ctx w1 (.accepts v j wt) ((altFns f g).fast s i ctx w) := by
  simp only [altFns, altFast, Act.bind_apply]
  obtain ⟨r, h1, rfl, rfl, rfl, h2, h3⟩ := h.inv_accepts
  rw [h1]; exact .accepts h2 h3

theorem shows_alt_fails {f g : ParseFns σ τ α} {x : Failure} (hx : x.final)
    (h : Shows D i ctx w1 (.fails x) (f.fast s i ctx w)) :
    Shows D i ctx w1 (.fails x) ((altFns f g).fast s i ctx w) :=
  h.fails_bind fun q e he => by
    subst he
    simp only [Act.ite_apply, if_pos (show e.consumed = true from hx), Act.pure_apply]

theorem shows_alt_second {f g : ParseFns σ τ α} {k : Nat} {wt : List String}
    {o : Outcome α} (h : Shows D i ctx w1 (.fails (.rejects k wt false)) (f.fast s i ctx w))
    (h' : Shows D i ctx w2 o (g.fast s i ctx w1)) :
    Shows D i ctx w2 (o.otherwise i k wt) ((altFns f g).fast s i ctx w) := by
  simp only [altFns, altFast, Act.bind_apply]
  obtain ⟨e, h1, h2, rfl, h3⟩ := h.inv_rejects
  rw [h1, Run.bind_ret]
  simp only [Act.ite_apply, h3, Bool.false_eq_true, if_false, Act.bind_apply]
  cases ho : g.fast s i ctx w1 with
  | diverge => rw [ho] at h'; exact absurd rfl h'.ne
  | raise e => rw [ho] at h'; cases h'; exact .raises
  | ret y =>
    rw [ho] at h'
    cases h' with
    | @accepts r hc hf =>
      simp only [Run.bind_ret, Outcome.otherwise, Ok.setExpected, hf.consumed, Act.ite_apply]
      by_cases hlt : i < r.pos <;> simp [hlt]
      · exact .accepts hc hf
      · exact .mk_accepts rfl rfl rfl hc
          (OkFrame.of_eq hf rfl (by simp [hf.consumed, hlt]) rfl)
    | @rejects _ e' hr =>
      obtain ⟨loc, ex, c⟩ := e'
      cases c with
      | true => exact .mk_rejects hr rfl rfl
      | false => exact .mk_rejects h2 rfl rfl

theorem shows_bind_fails {f : ParseFns σ τ α} {g : α → Act σ (ParseFns σ τ β)} {x : Failure}
    (h : Shows D i ctx w1 (.fails x) (f.fast s i ctx w)) :
    Shows D i ctx w1 (.fails x) ((bindFns f g).fast s i ctx w) :=
  h.fails_bind fun _ _ _ => rfl

theorem shows_bind_raises {f : ParseFns σ τ α} {g : α → Act σ (ParseFns σ τ β)} {r : Ok τ α}
    {e : Exn} (h : f.fast s i ctx w = .ret (.ok r) w1) (hfn : g r.value w1 = .raise e w2) :
    Shows D i ctx w2 (.fails (.raises e)) ((bindFns f g).fast s i ctx w) := by
  simp only [bindFns, bindFast, Act.bind_apply, h, Run.bind_ret, hfn, Run.bind_raise]
  exact .raises

/-- The second part of a sequence. -/
theorem shows_after {r : Ok τ α} {o : Outcome β} {x : Run σ (Simple τ β)} (hf : OkFrame s i ctx r)
    (h : Shows D r.pos r.ctx w2 o x) :
    Shows D i ctx w2 (o.after i r.pos r.expected)
      (x.bind fun rb w => .ret (rb.prependExpected r.expected r.consumed) w) := by
  cases h with
  | @accepts r' hc hf' =>
    have e1 : (r'.prependExpected r.expected r.consumed).pos = r'.pos := by
      unfold Ok.prependExpected; split <;> rfl
    have e2 : (r'.prependExpected r.expected r.consumed).ctx = r'.ctx := by
      unfold Ok.prependExpected; split <;> rfl
    refine .mk_accepts (r := r'.prependExpected r.expected r.consumed) ?_ e1 ?_ (by rw [e1, e2]; exact hc)
      (OkFrame.trans hf hf' e1 ?_ e2)
    · unfold Ok.prependExpected; split <;> rfl
    · simp only [Ok.prependExpected, hf'.consumed, decide_eq_true_eq]; split <;> rfl
    · unfold Ok.prependExpected; split <;> simp_all
  | @rejects _ e' hr =>
    obtain ⟨loc, ex, c⟩ := e'
    simp only [Simple.prependExpected, Err.prependExpected]
    cases c with
    | true => exact .mk_rejects hr rfl rfl
    | false => exact .mk_rejects hr rfl (by simp [hf.consumed])
  | raises => exact .raises

theorem shows_bind {f : ParseFns σ τ α} {g : α → Act σ (ParseFns σ τ β)} {f' : ParseFns σ τ β}
    {r : Ok τ α} {o : Outcome β} {w3 : World σ} (hf : OkFrame s i ctx r)
    (h : f.fast s i ctx w = .ret (.ok r) w1) (hg : g r.value w1 = .ret f' w2)
    (h' : Shows D r.pos r.ctx w3 o (f'.fast s r.pos r.ctx w2)) :
    Shows D i ctx w3 (o.after i r.pos r.expected) ((bindFns f g).fast s i ctx w) := by
  simp only [bindFns, bindFast, Act.bind_apply, h, Run.bind_ret, hg]
  exact shows_after hf h'

theorem shows_mapped {o : Outcome α} {x : Run σ (Simple τ α)} (g : α → β)
    (h : Shows D i ctx w o x) :
    Shows D i ctx w (o.map g) (x.bind fun r w => .ret (r.fmap g) w) := by
  cases h with
  | accepts h h' => exact .mk_accepts rfl rfl rfl h (OkFrame.of_eq h' rfl rfl rfl)
  | rejects h => exact .rejects h
  | raises => exact .raises

theorem shows_seq {f : ParseFns σ τ α} {g : ParseFns σ τ β} {merge : α → β → γ}
    {r : Ok τ α} {o : Outcome β} (hf : OkFrame s i ctx r) (h : f.fast s i ctx w = .ret (.ok r) w1)
    (h' : Shows D r.pos r.ctx w2 o (g.fast s r.pos r.ctx w1)) :
    Shows D i ctx w2 ((o.map (merge r.value)).after i r.pos r.expected)
      ((seqFns f g merge).fast s i ctx w) := by
  have := shows_after hf (shows_mapped (merge r.value) h')
  simp only [seqFns, seqFast, Act.bind_apply, h, Run.bind_ret]
  cases hx : g.fast s r.pos r.ctx w1 <;> (rw [hx] at this; exact this)

theorem shows_seq_fails {f : ParseFns σ τ α} {g : ParseFns σ τ β} {merge : α → β → γ} {x : Failure}
    (h : Shows D i ctx w1 (.fails x) (f.fast s i ctx w)) :
    Shows D i ctx w1 (.fails x) ((seqFns f g merge).fast s i ctx w) :=
  h.fails_bind fun _ _ _ => rfl

theorem shows_maybe {f : ParseFns σ τ α} {v : α} {j : Nat} {wt : List String}
    (h : Shows D i ctx w1 (.accepts v j wt) (f.fast s i ctx w)) :
    Shows D i ctx w1 (.accepts (some v) j wt) ((maybeFns f).fast s i ctx w) := by
  simp only [maybeFns, maybeFast, Act.bind_apply]
  obtain ⟨r, h1, rfl, rfl, rfl, h2, h3⟩ := h.inv_accepts
  rw [h1]; exact .mk_accepts rfl rfl rfl h2 (OkFrame.of_eq h3 rfl rfl rfl)

theorem shows_maybe_none {f : ParseFns σ τ α} {q : Nat} {wt : List String} (hi : i ≤ s.length)
    (hc : CtxOK D ctx i) (h : Shows D i ctx w1 (.fails (.rejects q wt false)) (f.fast s i ctx w)) :
    Shows D i ctx w1 (.accepts none i wt) ((maybeFns f).fast s i ctx w) := by
  simp only [maybeFns, maybeFast, Act.bind_apply]
  obtain ⟨e, h1, h2, rfl, h3⟩ := h.inv_rejects
  rw [h1]
  simp only [Run.bind_ret, Act.ite_apply, h3, Bool.false_eq_true, if_false]
  exact .mk_accepts rfl rfl rfl hc (OkFrame.stay hi rfl rfl rfl)

theorem shows_maybe_fails {f : ParseFns σ τ α} {x : Failure} (hx : x.final)
    (h : Shows D i ctx w1 (.fails x) (f.fast s i ctx w)) :
    Shows D i ctx w1 (.fails x) ((maybeFns f).fast s i ctx w) :=
  h.fails_bind fun q e he => by
    subst he
    simp only [Act.ite_apply, if_pos (show e.consumed = true from hx), Act.pure_apply]

theorem shows_attempt {f : ParseFns σ τ α} {o : Outcome α}
    (h : Shows D i ctx w1 o (f.fast s i ctx w)) :
    Shows D i ctx w1 o.attempted ((attemptFns f).fast s i ctx w) := by
  simp only [attemptFns, attemptFast, Act.bind_apply]
  generalize f.fast s i ctx w = y at h
  cases h with
  | accepts h h' => exact .accepts h h'
  | rejects h => exact .mk_rejects h rfl rfl
  | raises => exact .raises

theorem shows_label {f : ParseFns σ τ α} {o : Outcome α} {x : String}
    (h : Shows D i ctx w1 o (f.fast s i ctx w)) :
    Shows D i ctx w1 (o.labelled i x) ((labelFns f x).fast s i ctx w) := by
  simp only [labelFns, Act.bind_apply]
  generalize f.fast s i ctx w = y at h
  cases h with
  | @accepts r h h' =>
    simp only [Run.bind_ret, Simple.setExpected, Ok.setExpected, h'.consumed, Outcome.labelled]
    by_cases hlt : i < r.pos <;> simp [hlt]
    · exact .accepts h h'
    · exact .mk_accepts rfl rfl rfl h (OkFrame.of_eq h' rfl (by simp [h'.consumed, hlt]) rfl)
  | @rejects q e h =>
    obtain ⟨loc, ex, c⟩ := e
    cases c with
    | true => exact .mk_rejects h rfl rfl
    | false => exact .mk_rejects h rfl rfl
  | raises => exact .raises

theorem shows_setCtx {o : Outcome α} {x : Run σ (Simple τ α)} {c c' : Ctx τ}
    (h : Shows D i c' w o x) (hc : ∀ r : Ok τ α, OkFrame s i c' r → CtxOK D c r.pos)
    (hcc : CtxFrame ctx c) :
    Shows D i ctx w o (x.bind fun r w => .ret (r.setCtx c) w) := by
  cases h with
  | @accepts r h h' =>
    exact .mk_accepts rfl rfl rfl (hc r h') ⟨h'.lo, h'.hi, h'.consumed, hcc⟩
  | rejects h => exact .rejects h
  | raises => exact .raises

theorem shows_block {f : ParseFns σ τ α} {o : Outcome α} (hi : i ≤ s.length) (hc : CtxOK D ctx i)
    (h : Shows D i ((ctx.updateLoc s i).setMark (ctx.updateLoc s i).loc.col) w1 o
      (f.fast s i ((ctx.updateLoc s i).setMark (ctx.updateLoc s i).loc.col) w)) :
    Shows D i ctx w1 o ((blockFns f).fast s i ctx w) :=
  shows_setCtx h (fun _ hf => (hc.updateLoc (Nat.le_refl _) hi).stay hf.lo hf.hi)
    (.updateLoc ctx s i)

theorem shows_indented {f : ParseFns σ τ α} {o : Outcome α} {delta : Int}
    (hi : i ≤ s.length) (hc : CtxOK D ctx i)
    (hd : ((ctx.updateLoc s i).mark : Int) + delta = (ctx.updateLoc s i).loc.col)
    (h : Shows D i ((ctx.updateLoc s i).setMark (ctx.updateLoc s i).loc.col) w1 o
      (f.fast s i ((ctx.updateLoc s i).setMark (ctx.updateLoc s i).loc.col) w)) :
    Shows D i ctx w1 o ((indentedFns delta f).fast s i ctx w) := by
  simp only [indentedFns, hd, if_true]
  exact shows_setCtx h (fun _ hf => (hc.updateLoc (Nat.le_refl _) hi).stay hf.lo hf.hi)
    (.updateLoc ctx s i)

theorem shows_aligned {f : ParseFns σ τ α} {o : Outcome α}
    (hd : (ctx.updateLoc s i).mark = (ctx.updateLoc s i).loc.col)
    (h : Shows D i (ctx.updateLoc s i) w1 o (f.fast s i (ctx.updateLoc s i) w)) :
    Shows D i ctx w1 o ((alignedFns f).fast s i ctx w) := by
  simp only [alignedFns, hd, if_true]
  generalize f.fast s i (ctx.updateLoc s i) w = y at h
  cases h with
  | accepts h h' =>
    exact .accepts h ⟨h'.lo, h'.hi, h'.consumed, (CtxFrame.updateLoc ctx s i).trans h'.ctx⟩
  | rejects h => exact .rejects h
  | raises => exact .raises

/-- The value collected so far and the flag, put in front of what the loop of `many` collects. -/
def collected (c : Bool) (v : List α) : Simple τ (List α) → Simple τ (List α)
  | .ok r => .ok { r with value := v ++ r.value, consumed := c || r.consumed }
  | .error e => .error e

theorem manyFastLoop_acc (f : FastFn σ τ α) (n : Nat) :
    ∀ pos ctx c (v : List α) (w : World σ), manyFastLoop f s n pos ctx c v w =
        (manyFastLoop f s n pos ctx false [] w).bind fun r w => .ret (collected c v r) w := by
  induction n with
  | zero => intros; rfl
  | succ n ih =>
    intro pos ctx c v w
    simp only [manyFastLoop, Act.bind_apply]
    cases f s pos ctx w with
    | diverge => rfl
    | raise e w => rfl
    | ret y w =>
      cases y with
      | ok r =>
        simp only [Run.bind_ret, Act.ite_apply]
        by_cases hc : r.consumed = true
        · simp only [hc, if_true]
          rw [ih _ _ true (v ++ [r.value]), ih _ _ true ([] ++ [r.value])]
          cases manyFastLoop f s n r.pos r.ctx false [] w with
          | diverge => rfl
          | raise e w => rfl
          | ret y w =>
            show Run.ret (collected _ _ y) w = Run.ret (collected _ _ (collected _ _ y)) w
            cases y <;> simp [collected]
        · simp only [hc]; rfl
      | error e =>
        simp only [Run.bind_ret, Act.ite_apply]
        by_cases hc : e.consumed = true
        · simp only [hc, if_true]; rfl
        · simp only [hc]
          show Run.ret _ w = Run.ret (collected _ _ _) w
          simp [collected]

theorem shows_many_end {f : ParseFns σ τ α} {n q : Nat} {wt : List String} (hi : i ≤ s.length)
    (hc : CtxOK D ctx i) (h : Shows D i ctx w1 (.fails (.rejects q wt false)) (f.fast s i ctx w)) :
    Shows D i ctx w1 (.accepts [] i wt) (manyFastLoop f.fast s (n + 1) i ctx false [] w) := by
  simp only [manyFastLoop, Act.bind_apply]
  obtain ⟨e, h1, h2, rfl, h3⟩ := h.inv_rejects
  rw [h1]
  simp only [Run.bind_ret, Act.ite_apply, h3, Bool.false_eq_true, if_false]
  exact .mk_accepts rfl rfl rfl hc (OkFrame.stay hi rfl rfl rfl)

theorem shows_many_fails {f : ParseFns σ τ α} {n : Nat} {x : Failure} (hx : x.final)
    (h : Shows D i ctx w1 (.fails x) (f.fast s i ctx w)) :
    Shows D i ctx w1 (.fails x) (manyFastLoop f.fast s (n + 1) i ctx false [] w) :=
  h.fails_bind fun q e he => by
    subst he
    simp only [Act.ite_apply, if_pos (show e.consumed = true from hx), Act.pure_apply]

theorem shows_many_empty {f : ParseFns σ τ α} {n : Nat} {r : Ok τ α} (hf : OkFrame s i ctx r)
    (h : f.fast s i ctx w = .ret (.ok r) w1) (hr : ¬ i < r.pos) :
    Shows D i ctx w1 (.fails (.raises (.runtimeError "parser shouldn't accept empty string")))
      (manyFastLoop f.fast s (n + 1) i ctx false [] w) := by
  simp only [manyFastLoop, Act.bind_apply, h, Run.bind_ret, Act.ite_apply, hf.consumed, hr,
    decide_false, Bool.false_eq_true, if_false]
  exact .raises

theorem shows_many_item {f : ParseFns σ τ α} {n : Nat} {r : Ok τ α} {o : Outcome (List α)}
    (hf : OkFrame s i ctx r) (h : f.fast s i ctx w = .ret (.ok r) w1) (hr : i < r.pos)
    (h' : Shows D r.pos r.ctx w2 o (manyFastLoop f.fast s n r.pos r.ctx false [] w1)) :
    Shows D i ctx w2 (o.map (r.value :: ·)) (manyFastLoop f.fast s (n + 1) i ctx false [] w) := by
  simp only [manyFastLoop, Act.bind_apply, h, Run.bind_ret, Act.ite_apply, hf.consumed, hr,
    decide_true, if_true]
  rw [manyFastLoop_acc]
  generalize manyFastLoop f.fast s n r.pos r.ctx false [] w1 = y at h'
  cases h' with
  | @accepts r' hc hf' =>
    exact .mk_accepts rfl rfl rfl hc (OkFrame.trans hf hf' rfl (by simp [hf.consumed, hr]) rfl)
  | rejects h => exact .rejects h
  | raises => exact .raises

/-! ### Soundness: what a run that ends shows -/

section
variable [BEq τ] {env : Env σ τ ρ Γ}

/-- Every run that ends shows an outcome of the relation. -/
def EvalAt (env : Env σ τ ρ Γ) (D : LocDisc s) (p : P σ τ ρ Γ α) (f : ParseFns σ τ α) : Prop :=
  ∀ i ctx w, i ≤ s.length → CtxOK D ctx i → f.fast s i ctx w ≠ .diverge →
    ∃ o w', Eval env s D.col p ctx.mark i w o w' ∧ Shows D i ctx w' o (f.fast s i ctx w)

/-- For the primitives without callbacks. -/
abbrev env0 : Reparsec.Env τ Empty (fun _ => Unit) := fun _ => none

/-- The primitives without callbacks do the same in every world. -/
theorem eval_prim {col : Nat → Nat → Prop} {p : Reparsec.P τ Empty (fun _ => Unit) α} {m i : Nat}
    {o : Outcome α} (w : World σ) (h : Reparsec.Eval env0 s col p m i o) :
    match p with
    | .pure x => Eval env s col (.pure x) m i w o w
    | .unexpected x => Eval env s col (.unexpected x) m i w o w
    | .eof => Eval env s col .eof m i w o w
    | .sym x l => Eval env s col (.sym x l) m i w o w
    | .literal x ss h => Eval env s col (.literal x ss h) m i w o w
    | .regexp mt => Eval env s col (.regexp mt) m i w o w
    | _ => True := by
  induction h with
  | pure => exact .pure
  | unexpected => exact .unexpected
  | eof => exact .eof
  | eofNot h => exact .eofNot h
  | sym h h' => exact .sym h h'
  | symNot h => exact .symNot h
  | literal h => exact .literal h
  | literalNot h => exact .literalNot h
  | regexp h => exact .regexp h
  | regexpNot h => exact .regexpNot h
  | regexpRaises h => exact .regexpRaises h
  | _ => trivial

theorem evalAt_lift {p : P σ τ ρ Γ α} {p' : Reparsec.P τ Empty (fun _ => Unit) α}
    {g : Reparsec.ParseFns τ α} (hg : Reparsec.Sim g ∧ Framed g)
    (h : Reparsec.EvalAt env0 D p' g)
    (hp : ∀ m i o w, Reparsec.Eval env0 s D.col p' m i o → Eval env s D.col p m i w o w) :
    EvalAt env D p (lift g) := by
  intro i ctx w hi hc hne
  obtain ⟨o, h1, h2⟩ := h i ctx hi hc fun h => hne (by simp [lift, liftOut, h])
  exact ⟨o, w, hp _ _ _ _ h1, shows_lift hg hi h2⟩

theorem eval_pureFn (c : Callback σ Unit α) : EvalAt env D (.pureFn c) (pureFnFns c) := by
  intro i ctx w hi hc hne
  simp only [pureFnFns, Act.bind_apply]
  rcases calls_cases c () w with ⟨b, w', h⟩ | ⟨e, w', h⟩
  · exact ⟨_, _, .pureFn h, by
      rw [h.ok]; exact .mk_accepts rfl rfl rfl hc (OkFrame.stay hi rfl rfl rfl)⟩
  · exact ⟨_, _, .pureFnRaises h, by rw [h.error]; exact .raises⟩

omit [BEq τ] in
theorem okFrame_next {t : τ} {r : Ok τ α} (h : s[i]? = some t) (h1 : r.pos = i + 1)
    (h2 : r.consumed = true) (h3 : r.ctx = ctx) : OkFrame s i ctx r := by
  have hlt := (List.getElem?_eq_some_iff.1 h).1
  exact ⟨by omega, by omega, by simp [h1, h2], by rw [h3]; exact .refl _⟩

theorem eval_satisfy (c : Callback σ τ Bool) : EvalAt env D (.satisfy c) (satisfyFns c) := by
  intro i ctx w hi hc _
  simp only [satisfyFns, satisfyFast, Act.bind_apply, testAt]
  cases hs : s[i]? with
  | none =>
    exact ⟨_, w, .satisfyEnd hs, .mk_rejects (hc.report (Nat.le_refl _) hi) rfl rfl⟩
  | some t =>
    have hlt : i < s.length := (List.getElem?_eq_some_iff.1 hs).1
    simp only [Act.bind_apply]
    rcases calls_cases c t w with ⟨b, w', h⟩ | ⟨e, w', h⟩
    · cases b with
      | true =>
        exact ⟨_, w', .satisfy hs h, by
          rw [h.ok]
          exact .mk_accepts rfl rfl rfl (hc.stay (Nat.le_succ _) hlt) (okFrame_next hs rfl rfl rfl)⟩
      | false =>
        exact ⟨_, w', .satisfyNot hs h, by
          rw [h.ok]; exact .mk_rejects (hc.report (Nat.le_refl _) hi) rfl rfl⟩
    · exact ⟨_, w', .satisfyRaises hs h, by rw [h.error]; exact .raises⟩

theorem eval_fmap {p : P σ τ ρ Γ α} {f : ParseFns σ τ α} (c : Callback σ α β)
    (h : EvalAt env D p f) : EvalAt env D (.fmap p c) (fmapFns f c) := by
  intro i ctx w hi hc hne
  obtain ⟨o, w1, h1, h2⟩ := h i ctx w hi hc fun h => hne (by simp [fmapFns, fmapFast, h])
  cases o with
  | fails x => exact ⟨_, _, .fmapFails h1, shows_fmap_fails h2⟩
  | accepts v j wt =>
    obtain ⟨r, h3, rfl, rfl, rfl, h4, h5⟩ := h2.inv_accepts
    rcases calls_cases c r.value w1 with ⟨b, w', h⟩ | ⟨e, w', h⟩
    · exact ⟨_, _, .fmap h1 h, shows_fmap h3 h4 h5 h⟩
    · exact ⟨_, _, .fmapRaises h1 h, shows_fmap_raises h3 h⟩

theorem eval_alt {p q : P σ τ ρ Γ α} {f g : ParseFns σ τ α}
    (hp : EvalAt env D p f) (hq : EvalAt env D q g) : EvalAt env D (.alt p q) (altFns f g) := by
  intro i ctx w hi hc hne
  obtain ⟨o, w1, h1, h2⟩ := hp i ctx w hi hc fun h => hne (by simp [altFns, altFast, h])
  cases o with
  | accepts v j wt => exact ⟨_, _, .altFirst h1, shows_alt_first h2⟩
  | fails x =>
    rcases x.cases with hx | ⟨k, wt, rfl⟩
    · exact ⟨_, _, .altFails h1 hx, shows_alt_fails hx h2⟩
    · obtain ⟨e, h3, _, _, h4⟩ := h2.inv_rejects
      obtain ⟨o, w2, h5, h6⟩ := hq i ctx w1 hi hc fun h => hne (by simp [altFns, altFast, h3, h4, h])
      exact ⟨_, _, .altSecond h1 h5, shows_alt_second h2 h6⟩

theorem eval_bind {ι : Type} {p : P σ τ ρ Γ α} {c : Callback σ α ι} {k : ι → P σ τ ρ Γ β}
    {f : ParseFns σ τ α} {g : ι → ParseFns σ τ β}
    (hp : EvalAt env D p f) (hq : ∀ a, EvalAt env D (k a) (g a)) :
    EvalAt env D (.bind p c k) (bindFns f fun a => do
      let i ← c.call a
      return g i) := by
  intro i ctx w hi hc hne
  obtain ⟨o, w1, h1, h2⟩ := hp i ctx w hi hc fun h => hne (by simp [bindFns, bindFast, h])
  cases o with
  | fails x => exact ⟨_, _, .bindFails h1, shows_bind_fails h2⟩
  | accepts v j wt =>
    obtain ⟨r, h3, rfl, rfl, rfl, h4, hfr⟩ := h2.inv_accepts
    rcases calls_cases c r.value w1 with ⟨b, w2, h⟩ | ⟨e, w2, h⟩
    · obtain ⟨o, w3, h5, h6⟩ := hq b r.pos r.ctx w2 hfr.hi h4 fun h' =>
        hne (by simp [bindFns, bindFast, h3, h.ok, h'])
      rw [hfr.ctx.mark] at h5
      exact ⟨_, _, .bind h1 h h5, shows_bind hfr h3 (by simp [h.ok]) h6⟩
    · exact ⟨_, _, .bindRaises h1 h, shows_bind_raises h3 (by simp [h.error])⟩

theorem eval_seq {p : P σ τ ρ Γ α} {q : P σ τ ρ Γ β} {f : ParseFns σ τ α} {g : ParseFns σ τ β}
    (merge : α → β → γ) (hp : EvalAt env D p f) (hq : EvalAt env D q g) :
    EvalAt env D (.seqWith p q merge) (seqFns f g merge) := by
  intro i ctx w hi hc hne
  obtain ⟨o, w1, h1, h2⟩ := hp i ctx w hi hc fun h => hne (by simp [seqFns, seqFast, h])
  cases o with
  | fails x => exact ⟨_, _, .seqFails h1, shows_seq_fails h2⟩
  | accepts v j wt =>
    obtain ⟨r, h3, rfl, rfl, rfl, h4, hfr⟩ := h2.inv_accepts
    obtain ⟨o, w2, h5, h6⟩ := hq r.pos r.ctx w1 hfr.hi h4 fun h =>
      hne (by simp [seqFns, seqFast, h3, h])
    rw [hfr.ctx.mark] at h5
    exact ⟨_, _, .seq h1 h5, shows_seq hfr h3 h6⟩

theorem eval_maybe {p : P σ τ ρ Γ α} {f : ParseFns σ τ α} (hp : EvalAt env D p f) :
    EvalAt env D (.maybe p) (maybeFns f) := by
  intro i ctx w hi hc hne
  obtain ⟨o, w1, h1, h2⟩ := hp i ctx w hi hc fun h => hne (by simp [maybeFns, maybeFast, h])
  cases o with
  | accepts v j wt => exact ⟨_, _, .maybe h1, shows_maybe h2⟩
  | fails x =>
    rcases x.cases with hx | ⟨k, wt, rfl⟩
    · exact ⟨_, _, .maybeFails h1 hx, shows_maybe_fails hx h2⟩
    · exact ⟨_, _, .maybeNone h1, shows_maybe_none hi hc h2⟩

theorem eval_many {p : P σ τ ρ Γ α} {f : ParseFns σ τ α} (hp : EvalAt env D p f) (n : Nat) :
    EvalAt env D (.many p) (manyFns n f) := by
  intro i ctx w hi hc hne
  show ∃ o w', _ ∧ Shows D i ctx w' o (manyFastLoop f.fast s n i ctx false [] w)
  have hne : manyFastLoop f.fast s n i ctx false [] w ≠ .diverge := hne
  induction n generalizing i ctx w with
  | zero => exact absurd rfl hne
  | succ n ih =>
    obtain ⟨o, w1, h1, h2⟩ := hp i ctx w hi hc fun h => hne (by simp [manyFastLoop, h])
    cases o with
    | fails x =>
      rcases x.cases with hx | ⟨k, wt, rfl⟩
      · exact ⟨_, _, .manyFails h1 hx, shows_many_fails hx h2⟩
      · exact ⟨_, _, .manyEnd h1, shows_many_end hi hc h2⟩
    | accepts v j wt =>
      obtain ⟨r, h3, rfl, rfl, rfl, h4, hfr⟩ := h2.inv_accepts
      by_cases hlt : i < r.pos
      · have hne' : manyFastLoop f.fast s n r.pos r.ctx false [] w1 ≠ .diverge := by
          intro h
          apply hne
          simp only [manyFastLoop, Act.bind_apply, h3, Run.bind_ret, Act.ite_apply, hfr.consumed, hlt,
            decide_true, if_true, List.nil_append]
          rw [manyFastLoop_acc, h]; rfl
        obtain ⟨o, w2, h5, h6⟩ := ih r.pos r.ctx w1 hfr.hi h4 hne' hne'
        rw [hfr.ctx.mark] at h5
        exact ⟨_, _, .manyItem h1 hlt h5, shows_many_item hfr h3 hlt h6⟩
      · have he : r.pos = i := by have := hfr.lo; omega
        rw [he] at h1
        exact ⟨_, _, .manyEmpty h1, shows_many_empty hfr h3 hlt⟩

theorem eval_attempt {p : P σ τ ρ Γ α} {f : ParseFns σ τ α} (h : EvalAt env D p f) :
    EvalAt env D (.attempt p) (attemptFns f) := by
  intro i ctx w hi hc hne
  obtain ⟨o, w1, h1, h2⟩ := h i ctx w hi hc fun h => hne (by simp [attemptFns, attemptFast, h])
  exact ⟨_, _, .attempt h1, shows_attempt h2⟩

theorem eval_label {p : P σ τ ρ Γ α} {f : ParseFns σ τ α} {x : String}
    (h : EvalAt env D p f) : EvalAt env D (.label p x) (labelFns f x) := by
  intro i ctx w hi hc hne
  obtain ⟨o, w1, h1, h2⟩ := h i ctx w hi hc fun h => hne (by simp [labelFns, h])
  exact ⟨_, _, .label h1, shows_label h2⟩

theorem eval_block {p : P σ τ ρ Γ α} {f : ParseFns σ τ α} (hl : D.layout)
    (h : EvalAt env D p f) : EvalAt env D (.block p) (blockFns f) := by
  intro i ctx w hi hc hne
  obtain ⟨o, w1, h1, h2⟩ := h i ((ctx.updateLoc s i).setMark (ctx.updateLoc s i).loc.col) w hi
    ((hc.updateLoc (Nat.le_refl _) hi).setMark _) fun h => hne (by simp [blockFns, h])
  exact ⟨_, _, .block (hc.here hi hl).2 h1, shows_block hi hc h2⟩

theorem eval_aligned {p : P σ τ ρ Γ α} {f : ParseFns σ τ α} (hl : D.layout)
    (h : EvalAt env D p f) : EvalAt env D (.aligned p) (alignedFns f) := by
  intro i ctx w hi hc hne
  have hh := hc.here hi hl
  by_cases heq : (ctx.updateLoc s i).mark = (ctx.updateLoc s i).loc.col
  · obtain ⟨o, w1, h1, h2⟩ := h i (ctx.updateLoc s i) w hi (hc.updateLoc (Nat.le_refl _) hi)
      fun h => hne (by simp [alignedFns, heq, h])
    refine ⟨_, _, .aligned ?_ ?_, shows_aligned heq h2⟩
    · rw [updateLoc_mark] at heq; exact heq ▸ hh.2
    · rw [updateLoc_mark] at h1; exact h1
  · refine ⟨_, w, .alignedNot hh.2 fun h => heq (by rw [updateLoc_mark]; exact h.symm), ?_⟩
    simp only [alignedFns, heq, if_false]
    exact .mk_rejects hh.1 rfl rfl

theorem eval_indented {p : P σ τ ρ Γ α} {f : ParseFns σ τ α} {delta : Int}
    (hl : D.layout) (h : EvalAt env D p f) :
    EvalAt env D (.indented delta p) (indentedFns delta f) := by
  intro i ctx w hi hc hne
  have hh := hc.here hi hl
  by_cases heq : ((ctx.updateLoc s i).mark : Int) + delta = (ctx.updateLoc s i).loc.col
  · obtain ⟨o, w1, h1, h2⟩ := h i ((ctx.updateLoc s i).setMark (ctx.updateLoc s i).loc.col) w hi
      ((hc.updateLoc (Nat.le_refl _) hi).setMark _) fun h => hne (by simp [indentedFns, h, heq])
    exact ⟨_, _, .indented hh.2 (by rw [updateLoc_mark] at heq; exact heq) h1,
      shows_indented hi hc heq h2⟩
  · refine ⟨_, w, .indentedNot hh.2 (by rw [updateLoc_mark] at heq; exact heq), ?_⟩
    simp only [indentedFns, heq, if_false]
    exact .mk_rejects hh.1 rfl rfl

theorem eval_transfer {p q : P σ τ ρ Γ α} {f f' : ParseFns σ τ α} (h : EvalAt env D p f)
    (hf : f'.fast = f.fast)
    (hpq : ∀ m i w o w', Eval env s D.col p m i w o w' → Eval env s D.col q m i w o w') :
    EvalAt env D q f' := by
  intro i ctx w hi hc hne
  rw [hf] at hne ⊢
  obtain ⟨o, w', h1, h2⟩ := h i ctx w hi hc hne
  exact ⟨o, w', hpq _ _ _ _ _ h1, h2⟩

theorem eval_denoteWith (D : LocDisc s) (fuel : Nat) (tbl : (i : ρ) → ParseFns σ τ (Γ i))
    (ht : ∀ i, EvalAt env D (.ref i) (tbl i)) (p : P σ τ ρ Γ α)
    (hl : D.layout ∨ p.NoLayout) : EvalAt env D p (denoteWith fuel tbl p) := by
  have fc := frame_closed.closed (τ := τ) (env0 : Reparsec.Env τ Empty fun _ => Unit)
  have ec := eval_closed (τ := τ) (env0 : Reparsec.Env τ Empty fun _ => Unit) D (.inr fun i => i.elim)
  induction p with
  | pure x =>
    exact evalAt_lift (fc.pure x) ((ec.pure x).eval (.inr trivial)) fun _ _ _ w h => eval_prim w h
  | pureFn c => exact eval_pureFn c
  | unexpected x =>
    exact evalAt_lift (fc.unexpected x) ((ec.unexpected x).eval (.inr trivial))
      fun _ _ _ w h => eval_prim w h
  | eof => exact evalAt_lift fc.eof (ec.eof.eval (.inr trivial)) fun _ _ _ w h => eval_prim w h
  | satisfy c => exact eval_satisfy c
  | sym x l =>
    exact evalAt_lift (fc.sym x l) ((ec.sym x l).eval (.inr trivial)) fun _ _ _ w h => eval_prim w h
  | literal x ss hx =>
    exact evalAt_lift (fc.literal x ss hx) ((ec.literal x ss hx).eval (.inr trivial))
      fun _ _ _ w h => eval_prim w h
  | regexp mt =>
    exact evalAt_lift (fc.regexp mt) ((ec.regexp mt).eval (.inr trivial))
      fun _ _ _ w h => eval_prim w h
  | fmap p c ih => exact eval_fmap c (ih hl)
  | alt p q ih1 ih2 =>
    exact eval_alt (ih1 (hl.imp_right fun h => h.1)) (ih2 (hl.imp_right fun h => h.2))
  | bind p c k ih1 ih2 =>
    exact eval_bind (ih1 (hl.imp_right fun h => h.1)) fun a => ih2 a (hl.imp_right fun h => h.2 a)
  | seqWith p q merge ih1 ih2 =>
    exact eval_seq merge (ih1 (hl.imp_right fun h => h.1)) (ih2 (hl.imp_right fun h => h.2))
  | maybe p ih => exact eval_maybe (ih hl)
  | many p ih => exact eval_many (ih hl) fuel
  | attempt p ih => exact eval_attempt (ih hl)
  | label p x ih => exact eval_label (ih hl)
  | recover p ih => exact eval_transfer (ih hl) rfl fun _ _ _ _ _ h => .recover h
  | recoverWith p x vs ih => exact eval_transfer (ih hl) rfl fun _ _ _ _ _ h => .recoverWith h
  | recoverWithFn p c lbl ih =>
    exact eval_transfer (ih hl) rfl fun _ _ _ _ _ h => .recoverWithFn h
  | block p ih =>
    have hl' : D.layout := hl.elim id fun h => h.elim
    exact eval_block hl' (ih (.inl hl'))
  | aligned p ih =>
    have hl' : D.layout := hl.elim id fun h => h.elim
    exact eval_aligned hl' (ih (.inl hl'))
  | indented d p ih =>
    have hl' : D.layout := hl.elim id fun h => h.elim
    exact eval_indented hl' (ih (.inl hl'))
  | ref i => exact ht i

theorem eval_table (D : LocDisc s) (henv : D.layout ∨ ∀ i q, env i = some q → q.NoLayout)
    (fuel : Nat) : ∀ i, EvalAt env D (.ref i) (table env fuel i) := by
  induction fuel with
  | zero => intro i j ctx w _ _ hne; exact absurd rfl hne
  | succ n ih =>
    intro i
    unfold table
    cases he : env i with
    | none => exact fun j ctx w _ _ _ => ⟨_, w, .refUndefined he, .raises⟩
    | some p =>
      intro j ctx w hi hc hne
      obtain ⟨o, w', h1, h2⟩ := eval_denoteWith D n (table env n) ih p
        (henv.imp_right fun h => h i p he) j ctx w hi hc hne
      exact ⟨o, w', .ref he h1, h2⟩

theorem eval_denote (env : Env σ τ ρ Γ) (D : LocDisc s) (p : P σ τ ρ Γ α)
    (h : D.layout ∨ NoLayout env p) (fuel : Nat) : EvalAt env D p (denote env fuel p) :=
  eval_denoteWith D fuel _ (eval_table D (h.imp_right fun h => h.2) fuel) p
    (h.imp_right fun h => h.1)

/-! ### Completeness: every outcome of the relation is what the run shows -/

omit [BEq τ] in
theorem Shows.le {o : Outcome α} {x y : Run σ (Simple τ α)} (h : Shows D i ctx w o x)
    (hle : x.Le y) : Shows D i ctx w o y := by
  rcases hle with hle | rfl
  · exact absurd hle h.ne
  · exact h

/-- With enough fuel the run shows this outcome. -/
def ShownAt (env : Env σ τ ρ Γ) (D : LocDisc s) (p : P σ τ ρ Γ α) (m i : Nat) (w : World σ)
    (o : Outcome α) (w' : World σ) : Prop :=
  ∃ n, ∀ n', n ≤ n' → ∀ ctx, CtxOK D ctx i → ctx.mark = m →
    Shows D i ctx w' o ((denote env n' p).fast s i ctx w)

theorem ShownAt.map {p : P σ τ ρ Γ α} {q : P σ τ ρ Γ β} {m i : Nat} {o : Outcome α} {o' : Outcome β}
    {w w1 w2 : World σ} (h : ShownAt env D p m i w o w1)
    (f : ∀ n ctx, CtxOK D ctx i → ctx.mark = m →
      Shows D i ctx w1 o ((denote env n p).fast s i ctx w) →
      Shows D i ctx w2 o' ((denote env n q).fast s i ctx w)) : ShownAt env D q m i w o' w2 := by
  obtain ⟨n, h⟩ := h
  exact ⟨n, fun n' hn ctx hc hm => f _ _ hc hm (h n' hn ctx hc hm)⟩

theorem ShownAt.of {p : P σ τ ρ Γ α} {m i : Nat} {o : Outcome α} {w w' : World σ}
    (f : ∀ n ctx, CtxOK D ctx i → ctx.mark = m →
      Shows D i ctx w' o ((denote env n p).fast s i ctx w)) :
    ShownAt env D p m i w o w' := ⟨0, fun n _ => f n⟩

theorem shownAt_lift (hcol : ∀ i c c', D.col i c → D.col i c' → c = c')
    {p : P σ τ ρ Γ α} {p' : Reparsec.P τ Empty (fun _ => Unit) α} {g : Reparsec.ParseFns τ α}
    {m i : Nat} {o : Outcome α} {w : World σ}
    (hg : Reparsec.Sim g ∧ Framed g) (hd : ∀ n, denote env n p = lift g)
    (hd' : ∀ n, Reparsec.denote env0 n p' = g) (hi : i ≤ s.length) (hl : p'.All P.notLayout)
    (h : Reparsec.Eval env0 s D.col p' m i o) : ShownAt env D p m i w o w := by
  obtain ⟨n, h⟩ := Reparsec.eval_complete D hcol (.inr fun x => x.elim) h hi (.inr hl)
  refine ⟨n, fun n' hn ctx hc hm => ?_⟩
  rw [hd]
  have := h n' hn ctx hc hm
  rw [hd'] at this
  exact shows_lift hg hi this

theorem eval_complete (D : LocDisc s) (hcol : ∀ i c c', D.col i c → D.col i c' → c = c')
    (henv : D.layout ∨ ∀ x q, env x = some q → q.NoLayout)
    {p : P σ τ ρ Γ α} {m i : Nat} {o : Outcome α} {w w' : World σ}
    (h : Eval env s D.col p m i w o w') :
    i ≤ s.length → (D.layout ∨ p.NoLayout) → ShownAt env D p m i w o w' := by
  have fc := frame_closed.closed (τ := τ) (env0 : Reparsec.Env τ Empty fun _ => Unit)
  have two : ∀ {α β γ : Type} {p : P σ τ ρ Γ α} {q : P σ τ ρ Γ β} {r : P σ τ ρ Γ γ}
      {m i v j wt o o'} {w w1 w1' w2 : World σ},
      ShownAt env D p m i w (.accepts v j wt) w1 →
      (j ≤ s.length → ShownAt env D q m j w1' o w2) →
      (∀ n ctx r', CtxOK D ctx i → OkFrame s i ctx r' →
        (denote env n p).fast s i ctx w = .ret (.ok r') w1 → r'.value = v →
        r'.pos = j → r'.expected = wt →
        Shows D j r'.ctx w2 o ((denote env n q).fast s j r'.ctx w1') →
        Shows D i ctx w2 o' ((denote env n r).fast s i ctx w)) →
      ShownAt env D r m i w o' w2 := by
    intro α β γ p q r m i v j wt o o' w w1 w1' w2 h1 h2 h3
    by_cases hex : ∃ ctx, CtxOK D ctx i ∧ ctx.mark = m
    case neg => exact ⟨0, fun _ _ ctx hc hm => absurd ⟨ctx, hc, hm⟩ hex⟩
    obtain ⟨ctx0, hc0, hm0⟩ := hex
    obtain ⟨n1, h1⟩ := h1
    have hj : j ≤ s.length := by
      obtain ⟨r', hr, rfl, rfl, rfl, -, hf⟩ := (h1 n1 (Nat.le_refl _) ctx0 hc0 hm0).inv_accepts
      exact hf.hi
    obtain ⟨n2, h2⟩ := h2 hj
    refine ⟨max n1 n2, fun n' hn ctx hc hm => ?_⟩
    obtain ⟨r', hr, rfl, rfl, rfl, h4, hf⟩ := (h1 n' (by omega) ctx hc hm).inv_accepts
    exact h3 n' ctx r' hc hf hr rfl rfl rfl (h2 n' (by omega) r'.ctx h4 (hf.ctx.mark.trans hm))
  intro hi hl
  induction h with
  | @pure α x m i w => exact shownAt_lift (p' := .pure x) hcol (fc.pure x) (fun _ => rfl) (fun _ => rfl) hi trivial .pure
  | pureFn h =>
    refine .of fun n ctx hc hm => ?_
    show Shows D _ ctx _ _ (((_ : Callback σ Unit _).call () >>= _) _)
    rw [Act.bind_apply, h.ok]
    exact .mk_accepts rfl rfl rfl hc (OkFrame.stay hi rfl rfl rfl)
  | pureFnRaises h =>
    refine .of fun n ctx hc hm => ?_
    show Shows D _ ctx _ _ (((_ : Callback σ Unit _).call () >>= _) _)
    rw [Act.bind_apply, h.error]
    exact .raises
  | @unexpected x m i w =>
    exact shownAt_lift (p' := .unexpected x) hcol (fc.unexpected x) (fun _ => rfl) (fun _ => rfl) hi trivial
      .unexpected
  | eof => exact shownAt_lift (p' := .eof) hcol fc.eof (fun _ => rfl) (fun _ => rfl) hi trivial .eof
  | eofNot h =>
    exact shownAt_lift (p' := .eof) hcol fc.eof (fun _ => rfl) (fun _ => rfl) hi trivial (.eofNot h)
  | satisfy h1 h2 =>
    refine .of fun n ctx hc hm => ?_
    have hlt := (List.getElem?_eq_some_iff.1 h1).1
    show Shows D _ ctx _ _ (satisfyFast _ s _ ctx _)
    simp only [satisfyFast, testAt, h1, h2.ok, Act.bind_apply, Run.bind_ret, Act.pure_apply, if_true]
    exact .mk_accepts rfl rfl rfl (hc.stay (Nat.le_succ _) hlt) (okFrame_next h1 rfl rfl rfl)
  | satisfyNot h1 h2 =>
    refine .of fun n ctx hc hm => ?_
    show Shows D _ ctx _ _ (satisfyFast _ s _ ctx _)
    simp only [satisfyFast, testAt, h1, h2.ok, Act.bind_apply, Run.bind_ret, Act.pure_apply]
    exact .mk_rejects (hc.report (Nat.le_refl _) hi) rfl rfl
  | satisfyEnd h1 =>
    refine .of fun n ctx hc hm => ?_
    show Shows D _ ctx _ _ (satisfyFast _ s _ ctx _)
    simp only [satisfyFast, testAt, h1, Act.bind_apply, Run.bind_ret, Act.pure_apply]
    exact .mk_rejects (hc.report (Nat.le_refl _) hi) rfl rfl
  | satisfyRaises h1 h2 =>
    refine .of fun n ctx hc hm => ?_
    show Shows D _ ctx _ _ (satisfyFast _ s _ ctx _)
    simp only [satisfyFast, testAt, h1, h2.error, Act.bind_apply, Run.bind_raise]
    exact .raises
  | @sym x t l m i w h1 h2 =>
    exact shownAt_lift (p' := .sym x l) hcol (fc.sym x l) (fun _ => rfl) (fun _ => rfl) hi trivial
      (.sym h1 h2)
  | @symNot x l m i w h1 =>
    exact shownAt_lift (p' := .sym x l) hcol (fc.sym x l) (fun _ => rfl) (fun _ => rfl) hi trivial
      (.symNot h1)
  | @literal x ss hx m i w h1 =>
    exact shownAt_lift (p' := .literal x ss hx) hcol (fc.literal x ss hx) (fun _ => rfl) (fun _ => rfl) hi
      trivial (.literal h1)
  | @literalNot x ss hx m i w h1 =>
    exact shownAt_lift (p' := .literal x ss hx) hcol (fc.literal x ss hx) (fun _ => rfl) (fun _ => rfl) hi
      trivial (.literalNot h1)
  | @regexp β mt v m i j w h1 =>
    exact shownAt_lift (p' := .regexp mt) hcol (fc.regexp mt) (fun _ => rfl) (fun _ => rfl) hi trivial
      (.regexp h1)
  | @regexpNot β mt m i w h1 =>
    exact shownAt_lift (p' := .regexp mt) hcol (fc.regexp mt) (fun _ => rfl) (fun _ => rfl) hi trivial
      (.regexpNot h1)
  | @regexpRaises β mt e m i j w h1 =>
    exact shownAt_lift (p' := .regexp mt) hcol (fc.regexp mt) (fun _ => rfl) (fun _ => rfl) hi trivial
      (.regexpRaises h1)
  | fmap h hfn ih =>
    refine (ih hi hl).map fun n ctx hc hm hs => ?_
    obtain ⟨r, h3, rfl, rfl, rfl, h4, h5⟩ := hs.inv_accepts
    exact shows_fmap h3 h4 h5 hfn
  | fmapRaises h hfn ih =>
    refine (ih hi hl).map fun n ctx hc hm hs => ?_
    obtain ⟨r, h3, rfl, rfl, rfl, h4⟩ := hs.inv_accepts
    exact shows_fmap_raises h3 hfn
  | fmapFails h ih => exact (ih hi hl).map fun n ctx hc hm hs => shows_fmap_fails hs
  | altFirst h ih =>
    exact (ih hi (hl.imp_right fun h => h.1)).map fun n ctx hc hm hs => shows_alt_first hs
  | altFails h hx ih =>
    exact (ih hi (hl.imp_right fun h => h.1)).map fun n ctx hc hm hs => shows_alt_fails hx hs
  | altSecond h1 h2 ih1 ih2 =>
    obtain ⟨n1, h1⟩ := ih1 hi (hl.imp_right fun h => h.1)
    obtain ⟨n2, h2⟩ := ih2 hi (hl.imp_right fun h => h.2)
    exact ⟨max n1 n2, fun n hn ctx hc hm => shows_alt_second
      (h1 n (by omega) ctx hc hm) (h2 n (by omega) ctx hc hm)⟩
  | bindFails h ih =>
    exact (ih hi (hl.imp_right fun h => h.1)).map fun n ctx hc hm hs => shows_bind_fails hs
  | bindRaises h hfn ih =>
    refine (ih hi (hl.imp_right fun h => h.1)).map fun n ctx hc hm hs => ?_
    obtain ⟨r, h3, rfl, rfl, rfl, h4⟩ := hs.inv_accepts
    exact shows_bind_raises h3 (by simp [hfn.error])
  | bind h1 hfn h2 ih1 ih2 =>
    refine two (ih1 hi (hl.imp_right fun h => h.1))
      (fun hj => ih2 hj (hl.imp_right fun h => h.2 _)) ?_
    rintro n ctx r hc hf hr rfl rfl rfl hs
    exact shows_bind hf hr (by simp only [Act.bind_apply, hfn.ok, Run.bind_ret]; rfl) hs
  | seqFails h ih =>
    exact (ih hi (hl.imp_right fun h => h.1)).map fun n ctx hc hm hs => shows_seq_fails hs
  | seq h1 h2 ih1 ih2 =>
    refine two (ih1 hi (hl.imp_right fun h => h.1))
      (fun hj => ih2 hj (hl.imp_right fun h => h.2)) ?_
    rintro n ctx r hc hf hr rfl rfl rfl hs
    exact shows_seq hf hr hs
  | maybe h ih => exact (ih hi hl).map fun n ctx hc hm hs => shows_maybe hs
  | maybeNone h ih => exact (ih hi hl).map fun n ctx hc hm hs => shows_maybe_none hi hc hs
  | maybeFails h hx ih => exact (ih hi hl).map fun n ctx hc hm hs => shows_maybe_fails hx hs
  | @manyItem α p m i v j wt o w w1 w2 h1 hlt h2 ih1 ih2 =>
    by_cases hex : ∃ ctx, CtxOK D ctx i ∧ ctx.mark = m
    case neg => exact ⟨0, fun _ _ ctx hc hm => absurd ⟨ctx, hc, hm⟩ hex⟩
    obtain ⟨ctx0, hc0, hm0⟩ := hex
    obtain ⟨n1, h1⟩ := ih1 hi hl
    have hj : j ≤ s.length := by
      obtain ⟨r', hr, rfl, rfl, rfl, -, hf⟩ := (h1 n1 (Nat.le_refl _) ctx0 hc0 hm0).inv_accepts
      exact hf.hi
    obtain ⟨n2, h2⟩ := ih2 hj hl
    refine ⟨max n1 n2 + 1, fun n' hn ctx hc hm => ?_⟩
    obtain ⟨n, rfl⟩ : ∃ n, n' = n + 1 := ⟨n' - 1, by omega⟩
    obtain ⟨r, hr, rfl, rfl, rfl, h4, hf⟩ := (h1 (n + 1) (by omega) ctx hc hm).inv_accepts
    have h5 := h2 n (by omega) r.ctx h4 (hf.ctx.mark.trans hm)
    refine shows_many_item hf hr hlt (Shows.le h5 ?_)
    exact manyFastLoop_le (denote_le env (Nat.le_succ n) p).1 s (Nat.le_refl _) _ _ _ _ _
  | manyEnd h ih =>
    obtain ⟨n1, h1⟩ := ih hi hl
    refine ⟨n1 + 1, fun n' hn ctx hc hm => ?_⟩
    obtain ⟨n, rfl⟩ : ∃ n, n' = n + 1 := ⟨n' - 1, by omega⟩
    exact shows_many_end hi hc (h1 (n + 1) (by omega) ctx hc hm)
  | manyFails h hx ih =>
    obtain ⟨n1, h1⟩ := ih hi hl
    refine ⟨n1 + 1, fun n' hn ctx hc hm => ?_⟩
    obtain ⟨n, rfl⟩ : ∃ n, n' = n + 1 := ⟨n' - 1, by omega⟩
    exact shows_many_fails hx (h1 (n + 1) (by omega) ctx hc hm)
  | manyEmpty h ih =>
    obtain ⟨n1, h1⟩ := ih hi hl
    refine ⟨n1 + 1, fun n' hn ctx hc hm => ?_⟩
    obtain ⟨n, rfl⟩ : ∃ n, n' = n + 1 := ⟨n' - 1, by omega⟩
    obtain ⟨r, hr, rfl, h5, rfl, h4, hf⟩ := (h1 (n + 1) (by omega) ctx hc hm).inv_accepts
    exact shows_many_empty hf hr (by omega)
  | attempt h ih => exact (ih hi hl).map fun n ctx hc hm hs => shows_attempt hs
  | label h ih => exact (ih hi hl).map fun n ctx hc hm hs => shows_label hs
  | recover h ih => exact (ih hi hl).map fun n ctx hc hm hs => hs
  | recoverWith h ih => exact (ih hi hl).map fun n ctx hc hm hs => hs
  | recoverWithFn h ih => exact (ih hi hl).map fun n ctx hc hm hs => hs
  | block hcl h ih =>
    have hl' : D.layout := hl.elim id fun h => h.elim
    obtain ⟨n1, h1⟩ := ih hi (.inl hl')
    refine ⟨n1, fun n hn ctx hc hm => ?_⟩
    have hu := hc.updateLoc (Nat.le_refl _) hi
    exact shows_block hi hc (h1 n hn _ (hu.setMark _) (hcol _ _ _ (hc.here hi hl').2 hcl))
  | aligned hcl h ih =>
    have hl' : D.layout := hl.elim id fun h => h.elim
    obtain ⟨n1, h1⟩ := ih hi (.inl hl')
    refine ⟨n1, fun n hn ctx hc hm => ?_⟩
    have hu := hc.updateLoc (Nat.le_refl _) hi
    have hmark := hcol _ _ _ (hc.here hi hl').2 hcl
    have hm' := fun j => (updateLoc_mark (s := s) ctx j).trans hm
    exact shows_aligned ((hm' _).trans hmark.symm) (h1 n hn _ hu (hm' _))
  | alignedNot hcl hne =>
    have hl' : D.layout := hl.elim id fun h => h.elim
    refine .of fun n ctx hc hm => ?_
    have hh := hc.here hi hl'
    have hm' := fun j => (updateLoc_mark (s := s) ctx j).trans hm
    show Shows D _ ctx _ _ ((if _ then _ else _ : Act σ (Simple τ _)) _)
    rw [if_neg (by rw [hm', hcol _ _ _ hh.2 hcl]; exact fun h => hne h.symm)]
    exact .mk_rejects hh.1 rfl rfl
  | indented hcl hd h ih =>
    have hl' : D.layout := hl.elim id fun h => h.elim
    obtain ⟨n1, h1⟩ := ih hi (.inl hl')
    refine ⟨n1, fun n hn ctx hc hm => ?_⟩
    have hu := hc.updateLoc (Nat.le_refl _) hi
    have hmark := hcol _ _ _ (hc.here hi hl').2 hcl
    have hm' := fun j => (updateLoc_mark (s := s) ctx j).trans hm
    exact shows_indented hi hc (by rw [hm', hmark]; exact hd) (h1 n hn _ (hu.setMark _) hmark)
  | indentedNot hcl hne =>
    have hl' : D.layout := hl.elim id fun h => h.elim
    refine .of fun n ctx hc hm => ?_
    have hh := hc.here hi hl'
    have hm' := fun j => (updateLoc_mark (s := s) ctx j).trans hm
    show Shows D _ ctx _ _ ((if _ then _ else _ : Act σ (Simple τ _)) _)
    rw [if_neg (by rw [hm', hcol _ _ _ hh.2 hcl]; exact hne)]
    exact .mk_rejects hh.1 rfl rfl
  | @ref x p m i o w w' hx h ih =>
    obtain ⟨n1, h1⟩ := ih hi (henv.imp_right fun h => h x p hx)
    refine ⟨n1 + 1, fun n' hn ctx hc hm => ?_⟩
    obtain ⟨n, rfl⟩ : ∃ n, n' = n + 1 := ⟨n' - 1, by omega⟩
    show Shows D i ctx w' o ((table env (n + 1) x).fast s i ctx w)
    unfold table
    rw [hx]
    exact h1 n (by omega) ctx hc hm
  | @refUndefined x m i w hx =>
    refine ⟨1, fun n' hn ctx hc hm => ?_⟩
    obtain ⟨n, rfl⟩ : ∃ n, n' = n + 1 := ⟨n' - 1, by omega⟩
    show Shows D i ctx w _ ((table env (n + 1) x).fast s i ctx w)
    unfold table
    rw [hx]
    exact .raises

end

end Eff

end Reparsec
