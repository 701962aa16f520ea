import Verif.Spec.EffectsRecovery
import Verif.Lemmas.EffectsEval
import Verif.Lemmas.RecoveryAll

/-!
# With side effects, the recovering mode shows the recovering evaluation relation: combinators
-/

namespace Reparsec

namespace Eff

variable {σ τ ρ : Type} {Γ : ρ → Type} {α β γ : Type} {s : List τ}

/-- A run from `i` with context `ctx` and budget `b` shows the finding and ends in the world `w`. -/
inductive Found (D : LocDisc s) (i : Nat) (ctx : Ctx τ) (b : Option Int) (w : World σ) :
    Finding α → Run σ (Result τ α) → Prop
  | ret {o : Finding α} {r : Result τ α} : Finds D o (.ret r) → ResFrame s i ctx b r →
      Found D i ctx b w o (.ret r w)
  | raises {e : Exn} : Found D i ctx b w (.raises e) (.raise e w)

variable {D : LocDisc s} {i : Nat} {ctx : Ctx τ} {b : Option Int} {k : Int} {w w1 w2 w3 w4 : World σ}

theorem Found.ne {o : Finding α} {x : Run σ (Result τ α)} (h : Found D i ctx b w o x) :
    x ≠ .diverge := by
  cases h <;> simp

theorem Found.inv_accepts {v : α} {j : Nat} {wt : List String} {x : Run σ (Result τ α)}
    (h : Found D i ctx b w (.accepts v j wt) x) :
    ∃ r, x = .ret (.ok r) w ∧ r.value = v ∧ r.pos = j ∧ r.expected = wt ∧ CtxOK D r.ctx j ∧
      OkFrame s i ctx r := by
  cases h with
  | ret h h' =>
    obtain ⟨r, h1, h2, h3, h4, h5⟩ := h.inv_accepts
    cases h1
    exact ⟨r, rfl, h2, h3, h4, h5, h'⟩

theorem Found.inv_rejects {q : Nat} {wt : List String} {c : Bool} {x : Run σ (Result τ α)}
    (h : Found D i ctx b w (.rejects q wt c) x) :
    ∃ e, x = .ret (.error e) w ∧ D.rel q e.loc ∧ e.expected = wt ∧ e.consumed = c := by
  cases h with
  | ret h h' =>
    obtain ⟨e, h1, h2, h3, h4⟩ := h.inv_rejects
    cases h1
    exact ⟨e, rfl, h2, h3, h4⟩

theorem Found.inv_repairs {cs : List (Cand α)} {q : Nat} {wt : List String} {c : Bool}
    {x : Run σ (Result τ α)} (h : Found D i ctx b w (.repairs cs q wt c) x) :
    ∃ r, x = .ret (.recovered r) w ∧ D.rel q r.loc ∧ r.expected = wt ∧ r.consumed = c ∧
      Each (CandShows D) cs r.repairs ∧ RecFrame s i ctx b r := by
  cases h with
  | ret h h' =>
    obtain ⟨r, h1, h2, h3, h4, h5⟩ := h.inv_repairs
    cases h1
    exact ⟨r, rfl, h2, h3, h4, h5, h'⟩

theorem Found.inv_raises {e : Exn} {x : Run σ (Result τ α)}
    (h : Found D i ctx b w (.raises e) x) : x = .raise e w := by
  cases h with
  | ret h _ => cases h
  | raises => rfl

theorem Found.mk_accepts {v : α} {j : Nat} {wt : List String} {r : Ok τ α} (h1 : r.value = v)
    (h2 : r.pos = j) (h3 : r.expected = wt) (h4 : CtxOK D r.ctx r.pos) (h5 : OkFrame s i ctx r) :
    Found D i ctx b w (.accepts v j wt) (.ret (.ok r) w) := .ret (.mk_accepts h1 h2 h3 h4) h5

theorem Found.mk_rejects {q : Nat} {wt : List String} {c : Bool} {e : Err} (h1 : D.rel q e.loc)
    (h2 : e.expected = wt) (h3 : e.consumed = c) :
    Found (α := α) D i ctx b w (.rejects q wt c) (.ret (.error e) w) :=
  .ret (.mk_rejects h1 h2 h3) trivial

theorem Found.mk_repairs {cs : List (Cand α)} {q : Nat} {wt : List String} {c : Bool}
    {r : Recovered τ α} (h1 : D.rel q r.loc) (h2 : r.expected = wt) (h3 : r.consumed = c)
    (h4 : Each (CandShows D) cs r.repairs) (h5 : RecFrame s i ctx b r) :
    Found D i ctx b w (.repairs cs q wt c) (.ret (.recovered r) w) :=
  .ret (.mk_repairs h1 h2 h3 h4) h5

theorem Found.le {o : Finding α} {x y : Run σ (Result τ α)} (h : Found D i ctx b w o x)
    (hle : x.Le y) : Found D i ctx b w o y := by
  rcases hle with hle | rfl
  · exact absurd hle h.ne
  · exact h

theorem Found.weaken {o : Finding α} {x : Run σ (Result τ α)} (h : Found D i ctx none w o x) :
    Found D i ctx b w o x := by
  cases h with
  | ret h h' => exact .ret h h'.weaken
  | raises => exact .raises

/-- What can happen. -/
theorem Found.cases {o : Finding α} {x : Run σ (Result τ α)} (h : Found D i ctx b w o x) :
    (∃ e, o = .raises e) ∨ (∃ v j wt, o = .accepts v j wt) ∨ (∃ q wt c, o = .rejects q wt c) ∨
      ∃ cs q wt c, o = .repairs cs q wt c := by
  cases o with
  | raises e => exact .inl ⟨e, rfl⟩
  | accepts v j wt => exact .inr (.inl ⟨v, j, wt, rfl⟩)
  | rejects q wt c => exact .inr (.inr (.inl ⟨q, wt, c, rfl⟩))
  | repairs cs q wt c => exact .inr (.inr (.inr ⟨cs, q, wt, c, rfl⟩))

/-- Without permission to repair, there are no candidates before input is consumed. -/
theorem Found.cases_none {o : Finding α} {x : Run σ (Result τ α)} (h : Found D i ctx none w o x) :
    (∃ v j wt, o = .accepts v j wt) ∨ o.final ∨ ∃ q wt, o = .rejects q wt false := by
  cases o with
  | raises e => exact .inr (.inl trivial)
  | accepts v j wt => exact .inl ⟨v, j, wt, rfl⟩
  | rejects q wt c =>
    cases c with
    | true => exact .inr (.inl rfl)
    | false => exact .inr (.inr ⟨q, wt, rfl⟩)
  | repairs cs q wt c =>
    obtain ⟨r, -, -, -, rfl, -, h⟩ := h.inv_repairs
    exact .inr (.inl (h.consumed rfl))

theorem found_lift {g : Reparsec.ParseFns τ α} {o : Finding α} (hg : Framed g)
    (hi : i ≤ s.length) (h : Finds D o (g.fn s i ctx k b)) :
    Found D i ctx b w o ((lift g : ParseFns σ τ α).fn s i ctx k b w) := by
  simp only [lift]
  cases hx : g.fn s i ctx k b with
  | diverge => rw [hx] at h; exact absurd rfl h.ne
  | raise e => rw [hx] at h; cases h; exact .raises
  | ret y => rw [hx] at h; exact .ret h (hg s i ctx k b y hi hx)

/-! ### Bookkeeping at the level of results -/

theorem found_after {r : Ok τ α} {o : Finding β} {x : Run σ (Result τ β)} (hf : OkFrame s i ctx r)
    (h : Found D r.pos r.ctx (if i < r.pos then some k else b) w o x) :
    Found D i ctx b w (o.after i r.pos r.expected)
      (x.bind fun rb w => .ret (rb.prependExpected r.expected r.consumed) w) := by
  cases h with
  | raises => exact .raises
  | @ret o y h h' =>
    refine .ret ?_ (ResFrame.prepend (ins := k) hf ?_)
    · have := finds_after (x := .ret y) (w := r.expected) h hf.consumed fun r' hr' => by
        cases hr'
        exact OkFrame.consumed h'
      exact this
    · rw [hf.consumed]
      simpa using h'

theorem found_map {o : Finding α} {x : Run σ (Result τ α)} (g : α → β) (h : Found D i ctx b w o x) :
    Found D i ctx b w (o.map g) (x.bind fun r w => .ret (r.fmap g) w) := by
  cases h with
  | raises => exact .raises
  | @ret o y h h' =>
    refine .ret (h.fmap g) ?_
    cases y with
    | ok r => exact ⟨h'.lo, h'.hi, h'.consumed, h'.ctx⟩
    | error e => trivial
    | recovered r =>
      refine ⟨h'.consumed, h'.minPrio, ?_⟩
      intro p hp
      obtain ⟨q, hq, rfl⟩ := List.mem_map.1 hp
      have := h'.reps q hq
      exact ⟨this.lo, this.hi, this.lt, this.ctx, this.ops, this.cost, this.size, this.prio⟩

theorem found_setCtx {o : Finding α} {x : Run σ (Result τ α)} {c : Ctx τ} (hi : i ≤ s.length)
    (hc : CtxOK D ctx i) (h : Found D i c b w o x) :
    Found D i ctx b w o (x.bind fun r w => .ret (r.setCtx (ctx.updateLoc s i)) w) := by
  have hu := hc.updateLoc (Nat.le_refl _) hi
  cases h with
  | raises => exact .raises
  | @ret o y h h' =>
    refine .ret ?_ (h'.setCtx (.updateLoc ctx s i))
    refine finds_setCtx (x := .ret y) h (fun r hr => ?_) fun r hr z hz => ?_
    · cases hr; exact hu.stay (OkFrame.lo h') (OkFrame.hi h')
    · cases hr
      have := RecFrame.reps h' z hz
      exact hu.stay this.lo this.hi

theorem found_label {f : ParseFns σ τ α} {o : Finding α} {x : String}
    (h : Found D i ctx b w1 o (f.fn s i ctx k b w)) :
    Found D i ctx b w1 (o.relabel i [x]) ((labelFns f x).fn s i ctx k b w) := by
  simp only [labelFns, Act.bind_apply]
  generalize f.fn s i ctx k b w = y at h
  cases h with
  | raises => exact .raises
  | @ret o y h h' =>
    refine .ret ?_ (h'.setExpected _)
    exact finds_relabel (x := .ret y) h fun r hr => by cases hr; exact OkFrame.consumed h'

theorem found_recover {f : ParseFns σ τ α} {o : Finding α}
    (h : Found D i ctx b w1 o (f.fn s i ctx k b w)) :
    Found D i ctx b w1 o.promoted ((recoverFns f).fn s i ctx k b w) := by
  simp only [recoverFns, recoverFn, Act.bind_apply]
  generalize f.fn s i ctx k b w = y at h
  cases h with
  | raises => exact .raises
  | @ret o y h h' =>
    cases h with
    | accepts h => exact .ret (.accepts h) h'
    | rejects h => exact .ret (.rejects h) h'
    | repairs h h2 =>
      have h' : RecFrame .. := h'
      refine .mk_repairs h rfl rfl (h2.map _ _ fun c _ r _ hc => ?_) ⟨h'.consumed, h'.minPrio, ?_⟩
      · refine ⟨hc.cost, ?_, hc.left, hc.fixes, hc.value, hc.stop, hc.ctx, hc.wants, hc.begun⟩
        simp only [Repair.promote]
        cases r.prio <;> rfl
      · intro p hp
        obtain ⟨q, hq, rfl⟩ := List.mem_map.1 hp
        have := h'.reps q hq
        refine ⟨this.lo, this.hi, this.lt, this.ctx, this.ops, this.cost, this.size, ?_⟩
        rcases this.prio with h | h <;> simp [Repair.promote, h]

theorem found_block {f : ParseFns σ τ α} {o : Finding α} (hi : i ≤ s.length) (hc : CtxOK D ctx i)
    (h : Found D i ((ctx.updateLoc s i).setMark (ctx.updateLoc s i).loc.col) b w1 o
      (f.fn s i ((ctx.updateLoc s i).setMark (ctx.updateLoc s i).loc.col) k b w)) :
    Found D i ctx b w1 o ((blockFns f).fn s i ctx k b w) := found_setCtx hi hc h

theorem found_indented {f : ParseFns σ τ α} {o : Finding α} {delta : Int} (hi : i ≤ s.length)
    (hc : CtxOK D ctx i)
    (hd : ((ctx.updateLoc s i).mark : Int) + delta = (ctx.updateLoc s i).loc.col)
    (h : Found D i ((ctx.updateLoc s i).setMark (ctx.updateLoc s i).loc.col) b w1 o
      (f.fn s i ((ctx.updateLoc s i).setMark (ctx.updateLoc s i).loc.col) k b w)) :
    Found D i ctx b w1 o ((indentedFns delta f).fn s i ctx k b w) := by
  simp only [indentedFns, hd, if_true]
  exact found_setCtx hi hc h

theorem ResFrame.moved {c : Ctx τ} {r : Result τ α} (hc : CtxFrame ctx c) (h : ResFrame s i c b r) :
    ResFrame s i ctx b r := by
  cases r with
  | ok r => exact ⟨h.lo, h.hi, h.consumed, hc.trans h.ctx⟩
  | error e => trivial
  | recovered r =>
    refine ⟨h.consumed, h.minPrio, fun p hp => ?_⟩
    have := h.reps p hp
    exact ⟨this.lo, this.hi, this.lt, hc.trans this.ctx, this.ops, this.cost, this.size, this.prio⟩

theorem found_aligned {f : ParseFns σ τ α} {o : Finding α}
    (hd : (ctx.updateLoc s i).mark = (ctx.updateLoc s i).loc.col)
    (h : Found D i (ctx.updateLoc s i) b w1 o (f.fn s i (ctx.updateLoc s i) k b w)) :
    Found D i ctx b w1 o ((alignedFns f).fn s i ctx k b w) := by
  simp only [alignedFns, hd, if_true]
  generalize f.fn s i (ctx.updateLoc s i) k b w = y at h
  cases h with
  | ret h h' => exact .ret h (ResFrame.moved (.updateLoc ctx s i) h')
  | raises => exact .raises

theorem found_attempt {f : ParseFns σ τ α} {o : Outcome α}
    (h : Shows D i ctx w1 o (f.fast s i ctx w)) :
    Found D i ctx none w1 o.attempted.finding ((attemptFns f).fn s i ctx k none w) := by
  simp only [attemptFns, attemptFn, Act.bind_apply]
  generalize f.fast s i ctx w = y at h
  cases h with
  | accepts h h' => exact .ret (.accepts h) h'
  | rejects h => exact .mk_rejects h rfl rfl
  | raises => exact .raises

/-! ### `recover_with` -/

theorem RepFrame.userInsert (hi : i ≤ s.length) {r : Int} {x : α} {loc : Loc} {l : String}
    {wt : List String} {rem : Int} :
    RepFrame s i ctx (some rem) (makeUserInsert r x i ctx loc l wt) :=
  ⟨Nat.le_refl _, hi, by simp, .refl _, by simp [makeUserInsert], by simp [makeUserInsert, opsSize, RepairOp.size],
    by simp [makeUserInsert, RepairOp.size], .inr rfl⟩

theorem found_recoverWith_no {f : ParseFns σ τ α} {x : α} {l : String} {o : Finding α}
    (hb : b = none ∨ b = some 0 ∨ o.gaveUp = none) (h : Found D i ctx b w1 o (f.fn s i ctx k b w)) :
    Found D i ctx b w1 o ((recoverWithFns f x l).fn s i ctx k b w) := by
  simp only [recoverWithFns, recoverWithFn]
  cases b with
  | none => exact h
  | some r =>
    simp only [Act.bind_apply]
    generalize f.fn s i ctx k (some r) w = y at h
    have hb : r = 0 ∨ o.gaveUp = none := by simpa using hb
    cases h with
    | raises => exact .raises
    | @ret o y h h' =>
      cases h with
      | accepts h => exact .ret (.accepts h) h'
      | @rejects q e h =>
        obtain ⟨loc, ex, c⟩ := e
        cases c with
        | true => exact .mk_rejects h rfl rfl
        | false =>
          have : r = 0 := by simpa [Finding.gaveUp] using hb
          subst this
          exact .mk_rejects h rfl rfl
      | @repairs q cs e h h2 =>
        obtain ⟨rs, mp, loc, ex, c⟩ := e
        cases c with
        | true => exact .mk_repairs h rfl rfl h2 h'
        | false =>
          have : r = 0 := by simpa [Finding.gaveUp] using hb
          subst this
          exact .mk_repairs h rfl rfl h2 h'

theorem found_recoverWithFn_no {f : ParseFns σ τ α} {c : Callback σ (List τ × Nat) α}
    {lbl : α → String} {o : Finding α}
    (hb : b = none ∨ b = some 0 ∨ o.gaveUp = none) (h : Found D i ctx b w1 o (f.fn s i ctx k b w)) :
    Found D i ctx b w1 o ((recoverWithFnFns f c lbl).fn s i ctx k b w) := by
  simp only [recoverWithFnFns, recoverWithFnFn]
  cases b with
  | none => exact h
  | some r =>
    simp only [Act.bind_apply]
    generalize f.fn s i ctx k (some r) w = y at h
    have hb : r = 0 ∨ o.gaveUp = none := by simpa using hb
    cases h with
    | raises => exact .raises
    | @ret o y h h' =>
      cases h with
      | accepts h => exact .ret (.accepts h) h'
      | @rejects q e h =>
        obtain ⟨loc, ex, c⟩ := e
        cases c with
        | true => exact .mk_rejects h rfl rfl
        | false =>
          have : r = 0 := by simpa [Finding.gaveUp] using hb
          subst this
          exact .mk_rejects h rfl rfl
      | @repairs q cs e h h2 =>
        obtain ⟨rs, mp, loc, ex, c⟩ := e
        cases c with
        | true => exact .mk_repairs h rfl rfl h2 h'
        | false =>
          have : r = 0 := by simpa [Finding.gaveUp] using hb
          subst this
          exact .mk_repairs h rfl rfl h2 h'

theorem found_recoverWith {f : ParseFns σ τ α} {x : α} {l : String} {o : Finding α} {r : Int}
    (hi : i ≤ s.length) (hc : CtxOK D ctx i) (hr : r ≠ 0) (ho : o.gaveUp ≠ none)
    (h : Found D i ctx (some r) w1 o (f.fn s i ctx k (some r) w)) :
    Found D i ctx (some r) w1 (o.orInsert r i x l)
      ((recoverWithFns f x l).fn s i ctx k (some r) w) := by
  simp only [recoverWithFns, recoverWithFn, Act.bind_apply]
  generalize f.fn s i ctx k (some r) w = y at h
  have hl := hc.report (Nat.le_refl _) hi
  cases h with
  | raises => simp [Finding.gaveUp] at ho
  | @ret o y h h' =>
    cases h with
    | accepts h => simp [Finding.gaveUp] at ho
    | @rejects q e h =>
      obtain ⟨loc, ex, c⟩ := e
      cases c with
      | true => simp [Finding.gaveUp] at ho
      | false =>
        simp only [Run.bind_ret, Bool.false_eq_true, if_false, ne_eq, hr, not_false_eq_true, if_true]
        refine .mk_repairs hl rfl rfl (.cons (.userInsert hi hc) .nil) ⟨by simp, by simp, ?_⟩
        intro p hp
        cases List.mem_singleton.1 hp
        exact RepFrame.userInsert hi
    | @repairs q cs e h h2 =>
      obtain ⟨rs, mp, loc, ex, c⟩ := e
      cases c with
      | true => simp [Finding.gaveUp] at ho
      | false =>
        simp only [Run.bind_ret, Bool.false_eq_true, if_false, ne_eq, hr, not_false_eq_true, if_true]
        have h' : RecFrame .. := h'
        have hm := h'.minPrio
        refine .mk_repairs hl rfl rfl (.cons (.userInsert hi hc) h2) ⟨by simp, hm, ?_⟩
        intro p hp
        rcases List.mem_cons.1 hp with rfl | hp
        · exact RepFrame.userInsert hi
        · exact RecFrame.reps h' p hp

theorem found_recoverWithFn {f : ParseFns σ τ α} {c : Callback σ (List τ × Nat) α}
    {lbl : α → String} {x : α} {o : Finding α} {r : Int}
    (hi : i ≤ s.length) (hc : CtxOK D ctx i) (hr : r ≠ 0) (ho : o.gaveUp ≠ none)
    (hx : Calls c (s, i) w1 (.ok x) w2)
    (h : Found D i ctx (some r) w1 o (f.fn s i ctx k (some r) w)) :
    Found D i ctx (some r) w2 (o.orInsert r i x (lbl x))
      ((recoverWithFnFns f c lbl).fn s i ctx k (some r) w) := by
  simp only [recoverWithFnFns, recoverWithFnFn, Act.bind_apply]
  generalize f.fn s i ctx k (some r) w = y at h
  have hl := hc.report (Nat.le_refl _) hi
  cases h with
  | raises => simp [Finding.gaveUp] at ho
  | @ret o y h h' =>
    cases h with
    | accepts h => simp [Finding.gaveUp] at ho
    | @rejects q e h =>
      obtain ⟨loc, ex, c⟩ := e
      cases c with
      | true => simp [Finding.gaveUp] at ho
      | false =>
        simp only [Run.bind_ret, Bool.false_eq_true, if_false, ne_eq, hr, not_false_eq_true, if_true,
          Act.bind_apply, hx.ok]
        refine .mk_repairs hl rfl rfl (.cons (.userInsert hi hc) .nil) ⟨by simp, by simp, ?_⟩
        intro p hp
        cases List.mem_singleton.1 hp
        exact RepFrame.userInsert hi
    | @repairs q cs e h h2 =>
      obtain ⟨rs, mp, loc, ex, c⟩ := e
      cases c with
      | true => simp [Finding.gaveUp] at ho
      | false =>
        simp only [Run.bind_ret, Bool.false_eq_true, if_false, ne_eq, hr, not_false_eq_true, if_true,
          Act.bind_apply, hx.ok]
        have h' : RecFrame .. := h'
        have hm := h'.minPrio
        refine .mk_repairs hl rfl rfl (.cons (.userInsert hi hc) h2) ⟨by simp, hm, ?_⟩
        intro p hp
        rcases List.mem_cons.1 hp with rfl | hp
        · exact RepFrame.userInsert hi
        · exact RecFrame.reps h' p hp

theorem found_recoverWithFn_raises {f : ParseFns σ τ α} {c : Callback σ (List τ × Nat) α}
    {lbl : α → String} {x : Exn} {o : Finding α} {r : Int}
    (hr : r ≠ 0) (ho : o.gaveUp ≠ none)
    (hx : Calls c (s, i) w1 (.error x) w2)
    (h : Found D i ctx (some r) w1 o (f.fn s i ctx k (some r) w)) :
    Found D i ctx (some r) w2 (.raises x)
      ((recoverWithFnFns f c lbl).fn s i ctx k (some r) w) := by
  simp only [recoverWithFnFns, recoverWithFnFn, Act.bind_apply]
  generalize f.fn s i ctx k (some r) w = y at h
  cases h with
  | raises => simp [Finding.gaveUp] at ho
  | @ret o y h h' =>
    cases h with
    | accepts h => simp [Finding.gaveUp] at ho
    | @rejects q e h =>
      obtain ⟨loc, ex, c⟩ := e
      cases c with
      | true => simp [Finding.gaveUp] at ho
      | false =>
        simp only [Run.bind_ret, Bool.false_eq_true, if_false, ne_eq, hr, not_false_eq_true, if_true,
          Act.bind_apply, hx.error]
        exact .raises
    | @repairs q cs e h h2 =>
      obtain ⟨rs, mp, loc, ex, c⟩ := e
      cases c with
      | true => simp [Finding.gaveUp] at ho
      | false =>
        simp only [Run.bind_ret, Bool.false_eq_true, if_false, ne_eq, hr, not_false_eq_true, if_true,
          Act.bind_apply, hx.error]
        exact .raises

/-! ### Choice -/

theorem found_alt_first {f g : ParseFns σ τ α} {v : α} {j : Nat} {wt : List String}
    (h : Found D i ctx none w1 (.accepts v j wt) (f.fn s i ctx k none w)) :
    Found D i ctx b w1 (.accepts v j wt) ((altFns f g).fn s i ctx k b w) := by
  simp only [altFns, altFn, Act.bind_apply]
  obtain ⟨r, h1, rfl, rfl, rfl, h2, h3⟩ := h.inv_accepts
  rw [h1]; exact .ret (.accepts h2) h3

/-- What is passed on. -/
theorem Found.final_bind {o : Finding α} {x : Run σ (Result τ α)}
    {F : Result τ α → Act σ (Result τ α)} (ho : o.final) (h : Found D i ctx none w o x)
    (hF : ∀ r, r.consumed = true → (∀ y, r ≠ .ok y) → F r w = .ret r w) :
    Found D i ctx b w o (x.bind F) := by
  cases h with
  | raises => exact .raises
  | @ret o y h h' =>
    rw [Run.bind_ret, hF y]
    · exact .ret h h'.weaken
    · cases h with
      | accepts h => exact ho.elim
      | rejects h => exact ho
      | repairs h _ => exact ho
    · cases h with
      | accepts h => exact ho.elim
      | rejects h => simp
      | repairs h _ => simp

theorem found_alt_final {f g : ParseFns σ τ α} {o : Finding α} (ho : o.final)
    (h : Found D i ctx none w1 o (f.fn s i ctx k none w)) :
    Found D i ctx b w1 o ((altFns f g).fn s i ctx k b w) := by
  refine h.final_bind ho fun r hr hn => ?_
  cases r with
  | ok r => exact absurd rfl (hn r)
  | error e => simp only [Act.ite_apply, if_pos (show e.consumed = true from hr), Act.pure_apply]
  | recovered e => simp only [Act.ite_apply, if_pos (show e.consumed = true from hr), Act.pure_apply]

theorem alt_eq_second {f g : ParseFns σ τ α} {e : Err}
    (h : f.fn s i ctx k none w = .ret (.error e) w1) (he : e.consumed = false) :
    (altFns f g).fn s i ctx k b w = altSecond f g s i ctx k b e.loc e.expected w1 := by
  simp only [altFns, altFn, Act.bind_apply, h, Run.bind_ret, Act.ite_apply, he, Bool.false_eq_true,
    if_false]

theorem found_alt_second {f g : ParseFns σ τ α} {q1 : Nat} {x1 : List String} {v : α} {j : Nat}
    {x : List String} (h : Found D i ctx none w1 (.rejects q1 x1 false) (f.fn s i ctx k none w))
    (h' : Found D i ctx none w2 (.accepts v j x) (g.fn s i ctx k none w1)) :
    Found D i ctx b w2 (.accepts v j (if i < j then x else x1 ++ x))
      ((altFns f g).fn s i ctx k b w) := by
  obtain ⟨e, h1, h2, rfl, h3⟩ := h.inv_rejects
  rw [alt_eq_second h1 h3]
  obtain ⟨r, h4, rfl, rfl, rfl, h5, hf⟩ := h'.inv_accepts
  simp only [altSecond, Act.bind_apply, h4, Run.bind_ret, Act.ite_apply, Ok.setExpected, hf.consumed]
  by_cases hlt : i < r.pos <;> simp [hlt]
  · exact .ret (.accepts h5) hf
  · exact .mk_accepts rfl rfl rfl h5 (OkFrame.of_eq hf rfl (by simp [hf.consumed, hlt]) rfl)

theorem found_alt_second_final {f g : ParseFns σ τ α} {q1 : Nat} {x1 : List String} {o : Finding α}
    (ho : o.final) (h : Found D i ctx none w1 (.rejects q1 x1 false) (f.fn s i ctx k none w))
    (h' : Found D i ctx none w2 o (g.fn s i ctx k none w1)) :
    Found D i ctx b w2 o ((altFns f g).fn s i ctx k b w) := by
  obtain ⟨e, h1, h2, rfl, h3⟩ := h.inv_rejects
  rw [alt_eq_second h1 h3]
  refine h'.final_bind ho fun r hr hn => ?_
  cases r with
  | ok r => exact absurd rfl (hn r)
  | error e => simp only [Act.ite_apply, if_pos (show e.consumed = true from hr), Act.pure_apply]
  | recovered e => simp only [Act.ite_apply, if_pos (show e.consumed = true from hr), Act.pure_apply]

theorem alt_eq_recover {f g : ParseFns σ τ α} {e e' : Err}
    (h : f.fn s i ctx k none w = .ret (.error e) w1) (he : e.consumed = false)
    (h' : g.fn s i ctx k none w1 = .ret (.error e') w2) (he' : e'.consumed = false) :
    (altFns f g).fn s i ctx k b w =
      altRecover f g s i ctx k b e.loc (e.expected ++ e'.expected) w2 := by
  rw [alt_eq_second h he]
  simp only [altSecond, Act.bind_apply, h', Run.bind_ret, Act.ite_apply, he', Bool.false_eq_true,
    if_false]

theorem found_alt_neither {f g : ParseFns σ τ α} {q1 q2 : Nat} {x1 x2 : List String}
    (h : Found D i ctx none w1 (.rejects q1 x1 false) (f.fn s i ctx k none w))
    (h' : Found D i ctx none w2 (.rejects q2 x2 false) (g.fn s i ctx k none w1)) :
    Found D i ctx none w2 (.rejects q1 (x1 ++ x2) false) ((altFns f g).fn s i ctx k none w) := by
  obtain ⟨e, h1, h2, rfl, h3⟩ := h.inv_rejects
  obtain ⟨e', h1', h2', rfl, h3'⟩ := h'.inv_rejects
  rw [alt_eq_recover h1 h3 h1' h3']
  exact .mk_rejects h2 rfl rfl

theorem found_alt_repair_raises {f g : ParseFns σ τ α} {q1 q2 : Nat} {x1 x2 : List String} {r : Int}
    {e : Exn} (h : Found D i ctx none w1 (.rejects q1 x1 false) (f.fn s i ctx k none w))
    (h' : Found D i ctx none w2 (.rejects q2 x2 false) (g.fn s i ctx k none w1))
    (h'' : Found D i ctx (some r) w3 (.raises e) (f.fn s i ctx k (some r) w2)) :
    Found D i ctx (some r) w3 (.raises e) ((altFns f g).fn s i ctx k (some r) w) := by
  obtain ⟨e, h1, h2, rfl, h3⟩ := h.inv_rejects
  obtain ⟨e', h1', h2', rfl, h3'⟩ := h'.inv_rejects
  rw [alt_eq_recover h1 h3 h1' h3']
  simp only [altRecover, Act.bind_apply, h''.inv_raises]
  exact .raises

theorem found_setExpected_rec {cs : List (Cand α)} {q : Nat} {x1 x : List String} {c : Bool}
    {r : Recovered τ α} (h1 : D.rel q r.loc) (h2 : r.expected = x1) (h3 : r.consumed = c)
    (h4 : Each (CandShows D) cs r.repairs) (h5 : RecFrame s i ctx b r) :
    Found D i ctx b w (.repairs (cs.map (Cand.relabel x)) q (if c then x1 else x) c)
      (.ret (.recovered (r.setExpected x)) w) :=
  .ret (finds_setExpected_rec h1 h2 h3 h4) (RecFrame.setExpected h5 x)

theorem found_alt_repair {f g : ParseFns σ τ α} {q1 q2 : Nat} {x1 x2 : List String} {r : Int}
    {o1 o2 : Finding α}
    (h : Found D i ctx none w1 (.rejects q1 x1 false) (f.fn s i ctx k none w))
    (h' : Found D i ctx none w2 (.rejects q2 x2 false) (g.fn s i ctx k none w1))
    (ho1 : Found D i ctx (some r) w3 o1 (f.fn s i ctx k (some r) w2)) (hcalm : o1.calm)
    (ho2 : Found D i ctx (some r) w4 o2 (g.fn s i ctx k (some r) w3)) :
    Found D i ctx (some r) w4 (Finding.choice q1 (x1 ++ x2) o1 o2)
      ((altFns f g).fn s i ctx k (some r) w) := by
  obtain ⟨e, h1, h2, rfl, h3⟩ := h.inv_rejects
  obtain ⟨e', h1', h2', rfl, h3'⟩ := h'.inv_rejects
  rw [alt_eq_recover h1 h3 h1' h3']
  simp only [altRecover, Act.bind_apply]
  generalize f.fn s i ctx k (some r) w2 = x at ho1
  cases ho1 with
  | raises => exact hcalm.elim
  | @ret _ x ho1 hA =>
    simp only [Run.bind_ret, Act.bind_apply]
    generalize g.fn s i ctx k (some r) w3 = y at ho2
    cases ho2 with
    | raises => cases ho1 <;> exact .raises
    | @ret _ y ho2 hB =>
      simp only [Run.bind_ret]
      cases ho1 with
      | accepts _ | rejects _ =>
        cases ho2 with
        | accepts _ | rejects _ => exact .mk_rejects h2 rfl rfl
        | repairs hr2 e2 => exact found_setExpected_rec hr2 rfl rfl e2 hB
      | @repairs p1 cs ra hr1 e1 =>
        cases ho2 with
        | accepts _ | rejects _ => exact found_setExpected_rec hr1 rfl rfl e1 hA
        | @repairs p2 ds rb hr2 e2 =>
          simp only [Finding.choice]
          have hj := joinReps_filter hA hB
          have hE : Each (CandShows D) (cs ++ ds.filter fun d => !d.auto)
              (joinRepairs ra rb).repairs := by
            rw [joinRepairs_repairs, hj]
            refine e1.append (e2.filter _ _ fun c _ r _ h => ?_)
            rw [h.auto]; cases r.prio <;> rfl
          refine .mk_repairs ?_ ?_ ?_ (hE.map _ _ fun _ _ _ _ h => h.relabel _)
            ((RecFrame.join hA hB).setExpected _)
          · show D.rel _ (joinRepairs ra rb).loc
            unfold joinRepairs
            by_cases hca : ra.consumed = true <;> by_cases hcb : rb.consumed = true <;>
              simp [hca, hcb] <;> assumption
          · simp only [Recovered.setExpected, joinRepairs]
            by_cases hca : ra.consumed = true <;> by_cases hcb : rb.consumed = true <;>
              simp [hca, hcb]
          · simp [Recovered.setExpected]

theorem found_maybe {f : ParseFns σ τ α} {v : α} {j : Nat} {wt : List String}
    (h : Found D i ctx none w1 (.accepts v j wt) (f.fn s i ctx k none w)) :
    Found D i ctx b w1 (.accepts (some v) j wt) ((maybeFns f).fn s i ctx k b w) := by
  simp only [maybeFns, maybeFn, Act.bind_apply]
  obtain ⟨r, h1, rfl, rfl, rfl, h2, h3⟩ := h.inv_accepts
  rw [h1]; exact .mk_accepts rfl rfl rfl h2 (OkFrame.of_eq h3 rfl rfl rfl)

theorem found_maybe_none {f : ParseFns σ τ α} {q : Nat} {wt : List String} (hi : i ≤ s.length)
    (hc : CtxOK D ctx i)
    (h : Found D i ctx none w1 (.rejects q wt false) (f.fn s i ctx k none w)) :
    Found D i ctx b w1 (.accepts none i wt) ((maybeFns f).fn s i ctx k b w) := by
  simp only [maybeFns, maybeFn, Act.bind_apply]
  obtain ⟨e, h1, h2, rfl, h3⟩ := h.inv_rejects
  rw [h1]
  simp only [Run.bind_ret, Act.ite_apply, h3, Bool.false_eq_true, if_false]
  exact .mk_accepts rfl rfl rfl hc (OkFrame.stay hi rfl rfl rfl)

theorem found_maybe_final {f : ParseFns σ τ α} {o : Finding α} (ho : o.final)
    (h : Found D i ctx none w1 o (f.fn s i ctx k none w)) :
    Found D i ctx b w1 (o.map some) ((maybeFns f).fn s i ctx k b w) := by
  have := found_map (β := Option α) some (Found.weaken (b := b) h)
  simp only [maybeFns, maybeFn, Act.bind_apply]
  generalize f.fn s i ctx k none w = y at h this
  cases h with
  | raises => exact .raises
  | @ret o y h h' =>
    cases h with
    | accepts h => exact ho.elim
    | @rejects q e h =>
      have ho : e.consumed = true := ho
      simp only [Run.bind_ret, Act.ite_apply, if_pos ho]
      exact this
    | @repairs q cs e h _ =>
      have ho : e.consumed = true := ho
      simp only [Run.bind_ret, Act.ite_apply, if_pos ho]
      exact this

/-! ### `fmap` -/

theorem found_fmap {f : ParseFns σ τ α} {c : Callback σ α β} {v : α} {j : Nat} {wt : List String}
    {v' : β} (h : Found D i ctx b w1 (.accepts v j wt) (f.fn s i ctx k b w))
    (hfn : Calls c v w1 (.ok v') w2) :
    Found D i ctx b w2 (.accepts v' j wt) ((fmapFns f c).fn s i ctx k b w) := by
  obtain ⟨r, h1, rfl, rfl, rfl, h2, h3⟩ := h.inv_accepts
  simp only [fmapFns, fmapFn, Act.bind_apply, h1, Run.bind_ret, hfn.ok, Act.pure_apply]
  exact .mk_accepts rfl rfl rfl h2 (OkFrame.of_eq h3 rfl rfl rfl)

theorem found_fmap_raises {f : ParseFns σ τ α} {c : Callback σ α β} {v : α} {j : Nat}
    {wt : List String} {e : Exn} (h : Found D i ctx b w1 (.accepts v j wt) (f.fn s i ctx k b w))
    (hfn : Calls c v w1 (.error e) w2) :
    Found D i ctx b w2 (.raises e) ((fmapFns f c).fn s i ctx k b w) := by
  obtain ⟨r, h1, rfl, rfl, rfl, h2, h3⟩ := h.inv_accepts
  simp only [fmapFns, fmapFn, Act.bind_apply, h1, Run.bind_ret, hfn.error, Run.bind_raise]
  exact .raises

theorem found_fmap_rejects {f : ParseFns σ τ α} {c : Callback σ α β} {q : Nat} {wt : List String}
    {d : Bool} (h : Found D i ctx b w1 (.rejects q wt d) (f.fn s i ctx k b w)) :
    Found D i ctx b w1 (.rejects q wt d) ((fmapFns f c).fn s i ctx k b w) := by
  obtain ⟨e, h1, h2, rfl, rfl⟩ := h.inv_rejects
  simp only [fmapFns, fmapFn, Act.bind_apply, h1, Run.bind_ret, Act.pure_apply]
  exact .mk_rejects h2 rfl rfl

theorem found_fmap_raised {f : ParseFns σ τ α} {c : Callback σ α β} {e : Exn}
    (h : Found D i ctx b w1 (.raises e) (f.fn s i ctx k b w)) :
    Found D i ctx b w1 (.raises e) ((fmapFns f c).fn s i ctx k b w) := by
  simp only [fmapFns, fmapFn, Act.bind_apply, h.inv_raises, Run.bind_raise]
  exact .raises

/-- Something done once for every candidate, in order. -/
inductive Threads {δ : Type} (R : Cand α → World σ → δ → World σ → Prop) :
    List (Cand α) → World σ → List δ → World σ → Prop
  | nil {w : World σ} : Threads R [] w [] w
  | cons {d : Cand α} {cs : List (Cand α)} {o : δ} {os : List δ} {w w1 w2 : World σ} :
      R d w o w1 → Threads R cs w1 os w2 → Threads R (d :: cs) w (o :: os) w2

theorem Threads.toWorlds {δ : Type} {R : Cand α → World σ → δ → World σ → Prop}
    {cs : List (Cand α)} {os : List δ} (h : Threads R cs w os w1) :
    ∃ ws : Nat → World σ, ws 0 = w ∧ ws cs.length = w1 ∧ os.length = cs.length ∧
      ∀ (n : Nat) (d : Cand α) o, cs[n]? = some d → os[n]? = some o → R d (ws n) o (ws (n + 1)) := by
  induction h with
  | nil => exact ⟨fun _ => _, rfl, rfl, rfl, by simp⟩
  | @cons d cs o os w w1 w2 h _ ih =>
    obtain ⟨ws, rfl, h2, h3, h4⟩ := ih
    refine ⟨fun n => match n with | 0 => w | n + 1 => ws n, rfl, h2, by simp [h3], ?_⟩
    intro n d' o' hd ho
    cases n with
    | zero => simp at hd ho; subst hd ho; exact h
    | succ n => exact h4 n d' o' hd ho

theorem Threads.ofWorlds {δ : Type} {R : Cand α → World σ → δ → World σ → Prop}
    {cs : List (Cand α)} {os : List δ} (ws : Nat → World σ) (hl : os.length = cs.length)
    (h : ∀ (n : Nat) (d : Cand α) o, cs[n]? = some d → os[n]? = some o → R d (ws n) o (ws (n + 1))) :
    Threads R cs (ws 0) os (ws cs.length) := by
  induction cs generalizing os ws with
  | nil =>
    cases os with
    | nil => exact .nil
    | cons _ _ => simp at hl
  | cons d cs ih =>
    cases os with
    | nil => simp at hl
    | cons o os =>
      exact .cons (h 0 d o rfl rfl) (ih (fun n => ws (n + 1)) (by simpa using hl)
        fun n d o hd ho => h (n + 1) d o hd ho)

theorem Threads.mono {δ : Type} {R R' : Cand α → World σ → δ → World σ → Prop}
    {cs : List (Cand α)} {os : List δ} (h : Threads R cs w os w1)
    (hf : ∀ d ∈ cs, ∀ w o w', o ∈ os → R d w o w' → R' d w o w') : Threads R' cs w os w1 := by
  induction h with
  | nil => exact .nil
  | cons h _ ih =>
    exact .cons (hf _ List.mem_cons_self _ _ _ List.mem_cons_self h)
      (ih fun d hd w o w' ho => hf d (List.mem_cons_of_mem _ hd) w o w' (List.mem_cons_of_mem _ ho))

theorem Threads.all {δ : Type} {R : Cand α → World σ → δ → World σ → Prop} {Q : δ → Prop}
    {cs : List (Cand α)} {os : List δ} (h : Threads (fun d w o w' => R d w o w' ∧ Q o) cs w os w1) :
    ∀ o ∈ os, Q o := by
  induction h with
  | nil => simp
  | cons h _ ih =>
    intro o ho
    rcases List.mem_cons.1 ho with rfl | ho
    · exact h.2
    · exact ih o ho

/-- Calling the function for every candidate. -/
theorem threads_fmap {c : Callback σ α β} {cs : List (Cand α)} {rs : List (Repair τ α)} {vs : List β}
    (h : Each (CandShows D) cs rs)
    (hc : Threads (fun d w v w' => Calls c d.value w (.ok v) w') cs w vs w1)
    (hf : ∀ r ∈ rs, RepFrame s i ctx b r) :
    ∃ ts, repairsFmap c rs w = .ret ts w1 ∧
      Each (CandShows D) (List.zipWith (fun d v => d.withValue v) cs vs) ts ∧
      ∀ r ∈ ts, RepFrame s i ctx b r := by
  induction h generalizing vs w with
  | nil => cases hc; exact ⟨[], rfl, .nil, by simp⟩
  | @cons d r cs rs h _ ih =>
    cases hc with
    | @cons _ _ v vs _ w' _ h1 h2 =>
      obtain ⟨ts, h3, h4, h5⟩ := ih h2 fun r hr => hf r (List.mem_cons_of_mem _ hr)
      rw [h.value] at h1
      refine ⟨_, by simp only [repairsFmap, Act.bind_apply, h1.ok, Run.bind_ret, h3]; rfl,
        .cons (h.withValue v) h4, ?_⟩
      intro p hp
      rcases List.mem_cons.1 hp with rfl | hp
      · have := hf r List.mem_cons_self
        exact ⟨this.lo, this.hi, this.lt, this.ctx, this.ops, this.cost, this.size, this.prio⟩
      · exact h5 p hp

theorem threads_fmap_raises {c : Callback σ α β} {cs ds : List (Cand α)} {d : Cand α}
    {rs : List (Repair τ α)} {vs : List β} {e : Exn} (h : Each (CandShows D) (cs ++ d :: ds) rs)
    (hc : Threads (fun d w v w' => Calls c d.value w (.ok v) w') cs w vs w1)
    (he : Calls c d.value w1 (.error e) w2) : repairsFmap c rs w = .raise e w2 := by
  induction cs generalizing vs w rs with
  | nil =>
    cases hc
    cases h with
    | cons h _ =>
      rw [h.value] at he
      simp only [repairsFmap, Act.bind_apply, he.error, Run.bind_raise]
  | cons d' cs ih =>
    cases h with
    | cons h h0 =>
      cases hc with
      | cons h1 h2 =>
        rw [h.value] at h1
        simp only [repairsFmap, Act.bind_apply, h1.ok, Run.bind_ret, ih h0 h2, Run.bind_raise]

theorem threads_fmap_sound (c : Callback σ α β) (cs : List (Cand α)) (w : World σ) :
    (∃ vs w', Threads (fun d w v w' => Calls c d.value w (.ok v) w') cs w vs w') ∨
      ∃ cs' d ds vs e w1 w2, cs = cs' ++ d :: ds ∧
        Threads (fun d w v w' => Calls c d.value w (.ok v) w') cs' w vs w1 ∧
        Calls c d.value w1 (.error e) w2 := by
  induction cs generalizing w with
  | nil => exact .inl ⟨[], w, .nil⟩
  | cons d cs ih =>
    rcases calls_cases c d.value w with ⟨v, w', h⟩ | ⟨e, w', h⟩
    · rcases ih w' with ⟨vs, w'', h'⟩ | ⟨cs', d', ds, vs, e, w1, w2, rfl, h1, h2⟩
      · exact .inl ⟨v :: vs, w'', .cons h h'⟩
      · exact .inr ⟨d :: cs', d', ds, v :: vs, e, w1, w2, rfl, .cons h h1, h2⟩
    · exact .inr ⟨[], d, cs, [], e, w, w', rfl, .nil, h⟩

theorem found_fmap_repairs {f : ParseFns σ τ α} {c : Callback σ α β} {cs : List (Cand α)} {q : Nat}
    {wt : List String} {d : Bool} {vs : List β}
    (h : Found D i ctx b w1 (.repairs cs q wt d) (f.fn s i ctx k b w))
    (hc : Threads (fun d w v w' => Calls c d.value w (.ok v) w') cs w1 vs w2) :
    Found D i ctx b w2 (.repairs (List.zipWith (fun d v => d.withValue v) cs vs) q wt d)
      ((fmapFns f c).fn s i ctx k b w) := by
  obtain ⟨r, h1, h2, rfl, rfl, h3, h4⟩ := h.inv_repairs
  obtain ⟨ts, h5, h6, h7⟩ := threads_fmap h3 hc h4.reps
  simp only [fmapFns, fmapFn, Act.bind_apply, h1, Run.bind_ret, h5, Act.pure_apply]
  exact .mk_repairs h2 rfl rfl h6 ⟨h4.consumed, h4.minPrio, h7⟩

theorem found_fmap_repairs_raises {f : ParseFns σ τ α} {c : Callback σ α β} {cs ds : List (Cand α)}
    {d : Cand α} {q : Nat} {wt : List String} {d' : Bool} {vs : List β} {e : Exn}
    (h : Found D i ctx b w1 (.repairs (cs ++ d :: ds) q wt d') (f.fn s i ctx k b w))
    (hc : Threads (fun d w v w' => Calls c d.value w (.ok v) w') cs w1 vs w2)
    (he : Calls c d.value w2 (.error e) w3) :
    Found D i ctx b w3 (.raises e) ((fmapFns f c).fn s i ctx k b w) := by
  obtain ⟨r, h1, h2, rfl, rfl, h3, h4⟩ := h.inv_repairs
  simp only [fmapFns, fmapFn, Act.bind_apply, h1, Run.bind_ret, threads_fmap_raises h3 hc he,
    Run.bind_raise]
  exact .raises

/-! ### Sequences -/

theorem Finding.after_self (o : Finding α) : o.after i i [] = o := by
  have hfix : ∀ x : Fix, x.after false [] = x := by
    rintro ⟨p, op, wt, bg⟩
    cases bg <;> simp [Fix.after]
  have hcand : ∀ c : Cand α, c.after false [] = c := by
    rintro ⟨a1, a2, a3, a4, a5, a6, a7, a8⟩
    simp only [Cand.after, Cand.mk.injEq, true_and]
    refine ⟨?_, by simp, by simp⟩
    rw [List.map_congr_left (fun x _ => hfix x), List.map_id']
  cases o with
  | accepts v j wt => simp [Finding.after]
  | rejects q wt b => simp [Finding.after]
  | repairs cs q wt b =>
    simp only [Finding.after, Nat.lt_irrefl, decide_false, List.nil_append, ite_self, Bool.or_false]
    rw [List.map_congr_left (fun x _ => hcand x), List.map_id']
  | raises e => rfl

theorem Result.prepend_nil (r : Result τ α) : r.prependExpected [] false = r := by
  have hop : ∀ x : OpItem, x.prependExpected [] false = x := by
    rintro ⟨op, loc, ex, c⟩
    cases c <;> simp [OpItem.prependExpected]
  have hrep : ∀ x : Repair τ α, x.prependExpected [] false = x := by
    rintro ⟨a1, a2, a3, a4, a5, a6, a7, a8, a9⟩
    simp only [Repair.prependExpected, opsPrependExpected, Repair.mk.injEq, true_and]
    refine ⟨?_, by simp, by simp⟩
    rw [List.map_congr_left (fun x _ => hop x), List.map_id']
  cases r with
  | ok r =>
    obtain ⟨a1, a2, a3, a4, a5⟩ := r
    cases a5 <;> simp [Result.prependExpected, Ok.prependExpected]
  | error e =>
    obtain ⟨a1, a2, a3⟩ := e
    cases a3 <;> simp [Result.prependExpected, Err.prependExpected]
  | recovered r =>
    obtain ⟨a1, a2, a3, a4, a5⟩ := r
    simp only [Result.prependExpected, Recovered.prependExpected, Result.recovered.injEq,
      Recovered.mk.injEq, true_and]
    refine ⟨?_, by simp, by simp⟩
    rw [List.map_congr_left (fun x _ => hrep x), List.map_id']

/-- Carrying on from a candidate is what `Pure(value).bind(fn)` does. -/
theorem carry_on_eq {g : α → Act σ (ParseFns σ τ β)} {v : α} {j : Nat} {c : Ctx τ} {x : Int} :
    (bindFns (lift (Reparsec.pureFns v)) g).fn s j c k (some x) w =
      ((do let p ← g v; p.fn s j c k (some x) : Act σ (Result τ β)) w) := by
  simp only [bindFns, bindFn, lift, Reparsec.pureFns, Act.bind_apply]
  show (Run.bind (.ret _ w) _) = _
  simp only [Run.bind_ret, Act.bind_apply]
  cases g v w with
  | diverge => rfl
  | raise e w => rfl
  | ret p w1 =>
    simp only [Run.bind_ret, Bool.false_eq_true, if_false, Act.bind_apply]
    cases p.fn s j c k (some x) w1 with
    | diverge => rfl
    | raise e w => rfl
    | ret r w2 =>
      show Run.ret _ _ = _
      rw [Result.prepend_nil]

theorem found_bind_rejects {f : ParseFns σ τ α} {g : α → Act σ (ParseFns σ τ β)} {q : Nat}
    {wt : List String} {c : Bool} (h : Found D i ctx b w1 (.rejects q wt c) (f.fn s i ctx k b w)) :
    Found D i ctx b w1 (.rejects q wt c) ((bindFns f g).fn s i ctx k b w) := by
  obtain ⟨e, h1, h2, rfl, rfl⟩ := h.inv_rejects
  simp only [bindFns, bindFn, Act.bind_apply, h1, Run.bind_ret, Act.pure_apply]
  exact .mk_rejects h2 rfl rfl

theorem found_bind_raised {f : ParseFns σ τ α} {g : α → Act σ (ParseFns σ τ β)} {e : Exn}
    (h : Found D i ctx b w1 (.raises e) (f.fn s i ctx k b w)) :
    Found D i ctx b w1 (.raises e) ((bindFns f g).fn s i ctx k b w) := by
  simp only [bindFns, bindFn, Act.bind_apply, h.inv_raises, Run.bind_raise]
  exact .raises

theorem found_bind_raises {f : ParseFns σ τ α} {g : α → Act σ (ParseFns σ τ β)} {r : Ok τ α}
    {e : Exn} (h : f.fn s i ctx k b w = .ret (.ok r) w1) (hfn : g r.value w1 = .raise e w2) :
    Found D i ctx b w2 (.raises e) ((bindFns f g).fn s i ctx k b w) := by
  simp only [bindFns, bindFn, Act.bind_apply, h, Run.bind_ret, hfn, Run.bind_raise]
  exact .raises

theorem budget_eq {r : Ok τ α} (hf : OkFrame s i ctx r) :
    (if r.consumed = true then some k else b) = if i < r.pos then some k else b := by
  rw [hf.consumed]; simp

theorem found_bind {f : ParseFns σ τ α} {g : α → Act σ (ParseFns σ τ β)} {f' : ParseFns σ τ β}
    {r : Ok τ α} {o : Finding β} (hf : OkFrame s i ctx r)
    (h : f.fn s i ctx k b w = .ret (.ok r) w1) (hg : g r.value w1 = .ret f' w2)
    (h' : Found D r.pos r.ctx (if i < r.pos then some k else b) w3 o
      (f'.fn s r.pos r.ctx k (if i < r.pos then some k else b) w2)) :
    Found D i ctx b w3 (o.after i r.pos r.expected) ((bindFns f g).fn s i ctx k b w) := by
  simp only [bindFns, bindFn, Act.bind_apply, h, Run.bind_ret, hg, budget_eq hf]
  exact found_after hf h'

theorem found_seq_rejects {f : ParseFns σ τ α} {g : ParseFns σ τ β} {merge : α → β → γ} {q : Nat}
    {wt : List String} {c : Bool} (h : Found D i ctx b w1 (.rejects q wt c) (f.fn s i ctx k b w)) :
    Found D i ctx b w1 (.rejects q wt c) ((seqFns f g merge).fn s i ctx k b w) := by
  obtain ⟨e, h1, h2, rfl, rfl⟩ := h.inv_rejects
  simp only [seqFns, seqFn, Act.bind_apply, h1, Run.bind_ret, Act.pure_apply]
  exact .mk_rejects h2 rfl rfl

theorem found_seq_raised {f : ParseFns σ τ α} {g : ParseFns σ τ β} {merge : α → β → γ} {e : Exn}
    (h : Found D i ctx b w1 (.raises e) (f.fn s i ctx k b w)) :
    Found D i ctx b w1 (.raises e) ((seqFns f g merge).fn s i ctx k b w) := by
  simp only [seqFns, seqFn, Act.bind_apply, h.inv_raises, Run.bind_raise]
  exact .raises

theorem found_seq {f : ParseFns σ τ α} {g : ParseFns σ τ β} {merge : α → β → γ}
    {r : Ok τ α} {o : Finding β} (hf : OkFrame s i ctx r)
    (h : f.fn s i ctx k b w = .ret (.ok r) w1)
    (h' : Found D r.pos r.ctx (if i < r.pos then some k else b) w2 o
      (g.fn s r.pos r.ctx k (if i < r.pos then some k else b) w1)) :
    Found D i ctx b w2 ((o.map (merge r.value)).after i r.pos r.expected)
      ((seqFns f g merge).fn s i ctx k b w) := by
  have := found_after hf (found_map (merge r.value) h')
  simp only [seqFns, seqFn, Act.bind_apply, h, Run.bind_ret, budget_eq hf]
  cases hx : g.fn s r.pos r.ctx k (if i < r.pos then some k else b) w1 <;>
    (rw [hx] at this; exact this)

/-! ### Carrying on from candidates -/

/-- Carrying on from every candidate. -/
theorem threads_contReps {merge : α → β → γ} {K : α → Nat → Ctx τ → Int → Act σ (Result τ β)}
    {cs : List (Cand α)} {rs : List (Repair τ α)} {os : List (Finding β)} {b' : Int → Option Int}
    (h : Each (CandShows D) cs rs) (hf : ∀ r ∈ rs, RepFrame s i ctx b r)
    (ho : Threads (fun d w o w' => o.calm ∧ ∀ r ∈ rs, CandShows D d r →
      Found D r.pos r.ctx (b' r.ins) w' o (K r.value r.pos r.ctx r.ins w)) cs w os w1) :
    ∃ ts, contReps k K merge rs w = .ret ts w1 ∧ Each (CandShows D) (andThenAll k merge cs os) ts ∧
      ∀ r ∈ ts, RepFrame s i ctx b r := by
  induction h generalizing os w with
  | nil => cases ho; exact ⟨[], rfl, .nil, by simp⟩
  | @cons d r cs rs h hrest ih =>
    cases ho with
    | @cons _ _ o os _ w' _ h1 h2 =>
      obtain ⟨ts, h3, h4, h5⟩ := ih (fun r hr => hf r (List.mem_cons_of_mem _ hr))
        (h2.mono fun d _ w o w' _ ⟨ha, hb⟩ => ⟨ha, fun r hr => hb r (List.mem_cons_of_mem _ hr)⟩)
      have h6 := h1.2 r List.mem_cons_self h
      have hfr := hf r List.mem_cons_self
      cases hx : K r.value r.pos r.ctx r.ins w with
      | diverge => rw [hx] at h6; exact absurd rfl h6.ne
      | raise e _ => rw [hx] at h6; cases h6; exact h1.1.elim
      | ret x w'' =>
        rw [hx] at h6
        cases h6 with
        | ret h6 h7 =>
          refine ⟨contOne k merge r x ++ ts, ?_, ?_, ?_⟩
          · simp only [contReps, Act.bind_apply, hx, Run.bind_ret, h3, Act.pure_apply]
          · refine (each_andThen h h6 fun y hy => ?_).append h4
            subst hy
            exact ⟨OkFrame.lo h7, OkFrame.consumed h7⟩
          · intro p hp
            rcases List.mem_append.1 hp with hp | hp
            · exact hfr.contOne h7 p hp
            · exact h5 p hp

/-- The first exception. -/
theorem threads_contReps_raises {merge : α → β → γ}
    {K : α → Nat → Ctx τ → Int → Act σ (Result τ β)} {cs ds : List (Cand α)} {d : Cand α}
    {rs : List (Repair τ α)} {os : List (Finding β)} {e : Exn} {b' : Int → Option Int}
    (h : Each (CandShows D) (cs ++ d :: ds) rs)
    (ho : Threads (fun d w o w' => o.calm ∧ ∀ r ∈ rs, CandShows D d r →
      Found D r.pos r.ctx (b' r.ins) w' o (K r.value r.pos r.ctx r.ins w)) cs w os w1)
    (he : ∀ r ∈ rs, CandShows D d r → K r.value r.pos r.ctx r.ins w1 = .raise e w2) :
    contReps k K merge rs w = .raise e w2 := by
  induction cs generalizing rs os w with
  | nil =>
    cases ho
    cases h with
    | @cons _ r _ rs h _ =>
      simp only [contReps, Act.bind_apply, he r List.mem_cons_self h, Run.bind_raise]
  | cons d' cs ih =>
    cases h with
    | @cons _ r _ rs h hrest =>
      cases ho with
      | @cons _ _ o os _ w' _ h1 h2 =>
        have ih := ih hrest (h2.mono fun d _ w o w' _ ⟨ha, hb⟩ =>
          ⟨ha, fun r hr => hb r (List.mem_cons_of_mem _ hr)⟩)
          fun r hr => he r (List.mem_cons_of_mem _ hr)
        have h5 := h1.2 r List.mem_cons_self h
        simp only [contReps, Act.bind_apply]
        cases hx : K r.value r.pos r.ctx r.ins w with
        | diverge => rw [hx] at h5; exact absurd rfl h5.ne
        | raise e _ => rw [hx] at h5; cases h5; exact h1.1.elim
        | ret x w'' =>
          rw [hx] at h5
          cases h5 with
          | ret _ _ => simp only [Run.bind_ret, Act.bind_apply, ih, Run.bind_raise]

/-- What carrying on from every candidate comes to. -/
theorem threads_contReps_sound {merge : α → β → γ}
    {K : α → Nat → Ctx τ → Int → Act σ (Result τ β)}
    {R : Cand α → World σ → Finding β → World σ → Prop} {b' : Int → Option Int}
    {cs : List (Cand α)} {rs : List (Repair τ α)} (h : Each (CandShows D) cs rs)
    (hR : ∀ d r w, r ∈ rs → CandShows D d r → K r.value r.pos r.ctx r.ins w ≠ .diverge →
      ∃ o w', R d w o w' ∧ Found D r.pos r.ctx (b' r.ins) w' o (K r.value r.pos r.ctx r.ins w))
    (hne : contReps k K merge rs w ≠ .diverge) :
    (∃ os w1, Threads (fun d w o w' => R d w o w' ∧ o.calm) cs w os w1 ∧
        Threads (fun d w o w' => o.calm ∧ ∃ r ∈ rs, CandShows D d r ∧
          Found D r.pos r.ctx (b' r.ins) w' o (K r.value r.pos r.ctx r.ins w)) cs w os w1 ∧
        ∃ ts, contReps k K merge rs w = .ret ts w1 ∧
          Each (CandShows D) (andThenAll k merge cs os) ts ∧
          (∀ i ctx b, (∀ r ∈ rs, RepFrame s i ctx b r) → ∀ r ∈ ts, RepFrame s i ctx b r)) ∨
      ∃ cs' d ds os e w1 w2, cs = cs' ++ d :: ds ∧
        Threads (fun d w o w' => R d w o w' ∧ o.calm) cs' w os w1 ∧
        R d w1 (.raises e) w2 ∧ contReps k K merge rs w = .raise e w2 := by
  induction h generalizing w with
  | nil => exact .inl ⟨[], w, .nil, .nil, [], rfl, .nil, by simp⟩
  | @cons d r cs rs h hrest ih =>
    have h0 : K r.value r.pos r.ctx r.ins w ≠ .diverge := fun h => hne (by
      simp [contReps, Act.bind_apply, h])
    obtain ⟨o, w', h1, h2⟩ := hR d r w List.mem_cons_self h h0
    simp only [contReps, Act.bind_apply] at hne ⊢
    cases hx : K r.value r.pos r.ctx r.ins w with
    | diverge => exact absurd hx h0
    | raise e w'' =>
      rw [hx] at h2
      cases h2
      exact .inr ⟨[], d, cs, [], e, w, w', rfl, .nil, h1, rfl⟩
    | ret x w'' =>
      rw [hx] at hne
      have h2' := h2
      rw [hx] at h2
      cases h2 with
      | ret h2 h7 =>
        simp only [Run.bind_ret] at hne ⊢
        have hcalm : o.calm := by cases h2 <;> trivial
        rcases ih (w := w') (fun d r w hr => hR d r w (List.mem_cons_of_mem _ hr))
          (fun h => hne (by simp [Act.bind_apply, h])) with
          ⟨os, w1, h3, h3', ts, h4, h5, h6⟩ | ⟨cs', d', ds, os, e, w1, w2, rfl, h3, h4, h5⟩
        · refine .inl ⟨o :: os, w1, .cons ⟨h1, hcalm⟩ h3,
            .cons ⟨hcalm, r, List.mem_cons_self, h, h2'⟩ (h3'.mono
              fun d _ w o w' _ ⟨ha, r, hr, hb⟩ => ⟨ha, r, List.mem_cons_of_mem _ hr, hb⟩),
            contOne k merge r x ++ ts, by simp [Act.bind_apply, h4], ?_, ?_⟩
          · refine (each_andThen h h2 fun y hy => ?_).append h5
            subst hy
            exact ⟨OkFrame.lo h7, OkFrame.consumed h7⟩
          · intro i ctx b hf p hp
            rcases List.mem_append.1 hp with hp | hp
            · exact (hf r List.mem_cons_self).contOne h7 p hp
            · exact h6 i ctx b (fun r hr => hf r (List.mem_cons_of_mem _ hr)) p hp
        · exact .inr ⟨d :: cs', d', ds, o :: os, e, w1, w2, rfl, .cons ⟨h1, hcalm⟩ h3, h4,
            by simp [Act.bind_apply, h5]⟩

theorem found_continue {merge : α → β → γ} {K : α → Nat → Ctx τ → Int → Act σ (Result τ β)}
    {r : Recovered τ α} {ts : List (Repair τ γ)} {cs : List (Cand γ)} {q : Nat} {wt : List String}
    {c : Bool} (h : contReps k K merge r.repairs w = .ret ts w1) (he : Each (CandShows D) cs ts)
    (hq : D.rel q r.loc) (hw : r.expected = wt) (hc : r.consumed = c)
    (hf : RecFrame s i ctx b r) (ht : ∀ r ∈ ts, RepFrame s i ctx b r) :
    Found D i ctx b w1 (.repairs cs q wt c) (continueParse r k K merge w) := by
  simp only [continueParse, Act.bind_apply, h]
  exact .mk_repairs hq hw hc he ⟨hf.consumed, hf.minPrio, ht⟩

theorem found_continue_raises {merge : α → β → γ}
    {K : α → Nat → Ctx τ → Int → Act σ (Result τ β)} {r : Recovered τ α} {e : Exn}
    (h : contReps k K merge r.repairs w = .raise e w1) :
    Found D i ctx b w1 (.raises e) (continueParse r k K merge w) := by
  simp only [continueParse, Act.bind_apply, h]
  exact .raises

theorem bind_eq_repairs {f : ParseFns σ τ α} {g : α → Act σ (ParseFns σ τ β)}
    {r : Recovered τ α} (h : f.fn s i ctx k b w = .ret (.recovered r) w1) :
    (bindFns f g).fn s i ctx k b w =
      continueParse r k (fun v p' c x => (bindFns (lift (Reparsec.pureFns v)) g).fn s p' c k (some x))
        (fun _ v => v) w1 := by
  have : (fun (v : α) p' (c : Ctx τ) x => (bindFns (lift (Reparsec.pureFns v)) g).fn s p' c k (some x)) =
      (fun v p c r => (do
        let g ← g v
        g.fn s p c k (some r) : Act σ (Result τ β))) := by
    funext v p' c x w
    exact carry_on_eq
  rw [this]
  simp only [bindFns, bindFn, Act.bind_apply, h, Run.bind_ret]

theorem seq_eq_repairs {f : ParseFns σ τ α} {g : ParseFns σ τ β} {merge : α → β → γ}
    {r : Recovered τ α} (h : f.fn s i ctx k b w = .ret (.recovered r) w1) :
    (seqFns f g merge).fn s i ctx k b w =
      continueParse r k (fun _ p' c x => g.fn s p' c k (some x)) merge w1 := by
  simp only [seqFns, seqFn, Act.bind_apply, h, Run.bind_ret]

/-! ### `many` -/

theorem contReps_mapMerge {δ : Type} (k : Int) (K : α → Nat → Ctx τ → Int → Act σ (Result τ β))
    (merge : α → β → γ) (g : γ → δ) (rs : List (Repair τ α)) (w : World σ) :
    contReps k K (fun a b => g (merge a b)) rs w =
      (contReps k K merge rs w).bind fun ts w => .ret (ts.map (Repair.fmap g)) w := by
  induction rs generalizing w with
  | nil => rfl
  | cons r rs ih =>
    simp only [contReps, Act.bind_apply]
    cases K r.value r.pos r.ctx r.ins w with
    | diverge => rfl
    | raise e w => rfl
    | ret x w1 =>
      simp only [Run.bind_ret, Act.bind_apply, ih]
      cases contReps k K merge rs w1 with
      | diverge => rfl
      | raise e w => rfl
      | ret ts w2 =>
        show Run.ret _ _ = Run.ret _ _
        simp only [contOne_mapMerge, List.map_append]

theorem continueParse_mapMerge {δ : Type} (r : Recovered τ α) (k : Int)
    (K : α → Nat → Ctx τ → Int → Act σ (Result τ β)) (merge : α → β → γ) (g : γ → δ) (w : World σ) :
    continueParse r k K (fun a b => g (merge a b)) w =
      (continueParse r k K merge w).bind fun x w => .ret (x.fmap g) w := by
  simp only [continueParse, Act.bind_apply, contReps_mapMerge]
  cases contReps k K merge r.repairs w <;> rfl

/-- The value collected so far and the flag, put in front of what the loop of `many` comes to. -/
def collectedR (c : Bool) (v : List α) : Result τ (List α) → Result τ (List α)
  | .ok r => .ok { r with value := v ++ r.value, consumed := c || r.consumed }
  | .error e => .error e
  | .recovered r => (Result.recovered r).fmap (v ++ ·)

theorem manyLoop_acc (f : Fn σ τ α) (k : Int) (n : Nat) :
    ∀ pos ctx c (v : List α) (w : World σ), manyLoop f s k n pos ctx c v w =
        (manyLoop f s k n pos ctx false [] w).bind fun r w => .ret (collectedR c v r) w := by
  induction n with
  | zero => intros; rfl
  | succ n ih =>
    intro pos ctx c v w
    simp only [manyLoop, Act.bind_apply]
    cases f s pos ctx k none w with
    | diverge => rfl
    | raise e w => rfl
    | ret y w =>
      cases y with
      | ok r =>
        simp only [Run.bind_ret, Act.ite_apply]
        by_cases hc : r.consumed = true
        · simp only [hc, if_true]
          rw [ih _ _ true (v ++ [r.value]), ih _ _ true ([] ++ [r.value])]
          cases manyLoop f s k n r.pos r.ctx false [] w with
          | diverge => rfl
          | raise e w => rfl
          | ret y w =>
            show Run.ret (collectedR _ _ y) w = Run.ret (collectedR _ _ (collectedR _ _ y)) w
            cases y with
            | ok r => simp [collectedR]
            | error e => rfl
            | recovered r => simp [collectedR, Result.fmap, Function.comp_def, Repair.fmap]
        · simp only [hc]; rfl
      | error e =>
        simp only [Run.bind_ret, Act.ite_apply]
        by_cases hc : e.consumed = true
        · simp only [hc, if_true]; rfl
        · simp only [hc]
          show Run.ret _ w = Run.ret (collectedR _ _ _) w
          simp [collectedR]
      | recovered r =>
        simp only [Run.bind_ret]
        have h1 := continueParse_mapMerge r k (fun _ p' c _ => manyLoop f s k n p' c false [])
          (fun a b => (a :: b : List α)) (v ++ ·) w
        rw [h1]
        have h2 := continueParse_mapMerge r k (fun _ p' c _ => manyLoop f s k n p' c false [])
          (fun a b => (a :: b : List α)) ([] ++ ·) w
        rw [h2]
        simp only [continueParse, Act.bind_apply]
        cases contReps k (fun _ p' c _ => manyLoop f s k n p' c false [])
          (fun a b => (a :: b : List α)) r.repairs w with
        | diverge => rfl
        | raise e w => rfl
        | ret ts w =>
          show Run.ret _ w = Run.ret _ w
          simp [collectedR, Result.fmap, Function.comp_def, Repair.fmap]

theorem found_many_end {f : Fn σ τ α} {n q : Nat} {wt : List String} (hi : i ≤ s.length)
    (hc : CtxOK D ctx i) (h : Found D i ctx none w1 (.rejects q wt false) (f s i ctx k none w)) :
    Found D i ctx b w1 (.accepts [] i wt) (manyLoop f s k (n + 1) i ctx false [] w) := by
  simp only [manyLoop, Act.bind_apply]
  obtain ⟨e, h1, h2, rfl, h3⟩ := h.inv_rejects
  rw [h1]
  simp only [Run.bind_ret, Act.ite_apply, h3, Bool.false_eq_true, if_false]
  exact .mk_accepts rfl rfl rfl hc (OkFrame.stay hi rfl rfl rfl)

theorem found_many_rejects {f : Fn σ τ α} {n q : Nat} {wt : List String}
    (h : Found D i ctx none w1 (.rejects q wt true) (f s i ctx k none w)) :
    Found D i ctx b w1 (.rejects q wt true) (manyLoop f s k (n + 1) i ctx false [] w) := by
  simp only [manyLoop, Act.bind_apply]
  obtain ⟨e, h1, h2, rfl, h3⟩ := h.inv_rejects
  rw [h1]
  simp only [Run.bind_ret, Act.ite_apply, h3, if_true]
  exact .mk_rejects h2 rfl h3

theorem found_many_raised {f : Fn σ τ α} {n : Nat} {e : Exn}
    (h : Found D i ctx none w1 (.raises e) (f s i ctx k none w)) :
    Found D i ctx b w1 (.raises e) (manyLoop f s k (n + 1) i ctx false [] w) := by
  simp only [manyLoop, Act.bind_apply, h.inv_raises]
  exact .raises

theorem found_many_empty {f : Fn σ τ α} {n : Nat} {r : Ok τ α} (hf : OkFrame s i ctx r)
    (h : f s i ctx k none w = .ret (.ok r) w1) (hr : ¬ i < r.pos) :
    Found D i ctx b w1 (.raises (.runtimeError "parser shouldn't accept empty string"))
      (manyLoop f s k (n + 1) i ctx false [] w) := by
  simp only [manyLoop, Act.bind_apply, h, Run.bind_ret, Act.ite_apply, hf.consumed, hr,
    decide_false, Bool.false_eq_true, if_false]
  exact .raises

theorem many_eq_item {f : Fn σ τ α} {n : Nat} {r : Ok τ α} (hf : OkFrame s i ctx r)
    (h : f s i ctx k none w = .ret (.ok r) w1) (hr : i < r.pos) :
    manyLoop f s k (n + 1) i ctx false [] w =
      (manyLoop f s k n r.pos r.ctx false [] w1).bind fun x w =>
        .ret (collectedR true [r.value] x) w := by
  simp only [manyLoop, Act.bind_apply, h, Run.bind_ret, Act.ite_apply, hf.consumed, hr,
    decide_true, if_true, List.nil_append]
  rw [manyLoop_acc]

theorem found_many_item {f : Fn σ τ α} {n : Nat} {r : Ok τ α} {o : Finding (List α)}
    (hf : OkFrame s i ctx r) (h : f s i ctx k none w = .ret (.ok r) w1) (hr : i < r.pos)
    (h' : Found D r.pos r.ctx none w2 o (manyLoop f s k n r.pos r.ctx false [] w1)) :
    Found D i ctx b w2 (o.map (r.value :: ·)) (manyLoop f s k (n + 1) i ctx false [] w) := by
  rw [many_eq_item hf h hr]
  generalize manyLoop f s k n r.pos r.ctx false [] w1 = y at h'
  cases h' with
  | raises => exact .raises
  | @ret o y h1 h2 =>
    cases h1 with
    | accepts hc =>
      exact .mk_accepts rfl rfl rfl hc (OkFrame.trans hf h2 rfl (by simp [hf.consumed, hr]) rfl)
    | rejects h => exact .mk_rejects h rfl rfl
    | @repairs q cs x hq he =>
      have h2 : RecFrame .. := h2
      refine .mk_repairs hq rfl rfl (he.map _ _ fun _ _ _ _ h => h.fmap _)
        ⟨fun _ => h2.consumed rfl, h2.minPrio, ?_⟩
      intro p hp
      obtain ⟨z, hz, rfl⟩ := List.mem_map.1 hp
      have := h2.reps z hz
      have h3 := this.lo
      exact ⟨by simp only [Repair.fmap]; omega, this.hi, fun _ => by simp only [Repair.fmap]; omega,
        hf.ctx.trans this.ctx, this.ops, this.cost, this.size, this.prio⟩

theorem many_eq_repairs {f : Fn σ τ α} {n : Nat} {r : Recovered τ α}
    (h : f s i ctx k none w = .ret (.recovered r) w1) :
    manyLoop f s k (n + 1) i ctx false [] w =
      continueParse r k (fun _ p' c _ => manyLoop f s k n p' c false []) List.cons w1 := by
  simp only [manyLoop, Act.bind_apply, h, Run.bind_ret]
  rfl

/-! ### `satisfy` -/

/-- The test fails on one element after the other. -/
inductive Fails (c : Callback σ τ Bool) (s : List τ) : Nat → Nat → World σ → World σ → Prop
  | nil {i : Nat} {w : World σ} : Fails c s i i w w
  | cons {i j : Nat} {t : τ} {w w1 w2 : World σ} : s[i]? = some t → Calls c t w (.ok false) w1 →
      Fails c s (i + 1) j w1 w2 → Fails c s i j w w2

theorem Fails.le {c : Callback σ τ Bool} {j : Nat} (h : Fails c s i j w w1) : i ≤ j := by
  induction h with
  | nil => exact Nat.le_refl _
  | cons _ _ _ ih => omega

theorem Fails.toWorlds {c : Callback σ τ Bool} {j : Nat} (h : Fails c s i j w w1) :
    ∃ ws : Nat → World σ, ws i = w ∧ ws j = w1 ∧
      ∀ n t, i ≤ n → n < j → s[n]? = some t → Calls c t (ws n) (.ok false) (ws (n + 1)) := by
  induction h with
  | @nil i w => exact ⟨fun _ => w, rfl, rfl, fun n t h1 h2 => by omega⟩
  | @cons i j t w w1 w2 h1 h2 h3 ih =>
    obtain ⟨ws, rfl, rfl, h4⟩ := ih
    have := h3.le
    refine ⟨fun n => if n = i then w else ws n, by simp, by simp; omega, ?_⟩
    intro n t' h5 h6 h7
    by_cases hn : n = i
    · subst hn
      rw [h1] at h7
      cases h7
      simpa using h2
    · simp only [hn, if_false, show n + 1 ≠ i by omega]
      exact h4 n t' (by omega) h6 h7

theorem Fails.ofWorlds {c : Callback σ τ Bool} {j : Nat} (ws : Nat → World σ) (hij : i ≤ j)
    (hj : j ≤ s.length)
    (h : ∀ n t, i ≤ n → n < j → s[n]? = some t → Calls c t (ws n) (.ok false) (ws (n + 1))) :
    Fails c s i j (ws i) (ws j) := by
  obtain ⟨d, rfl⟩ : ∃ d, j = i + d := ⟨j - i, by omega⟩
  induction d generalizing i with
  | zero => exact .nil
  | succ d ih =>
    have hlt : i < s.length := by omega
    refine .cons (List.getElem?_eq_getElem hlt)
      (h i _ (Nat.le_refl _) (by omega) (List.getElem?_eq_getElem hlt)) ?_
    have := ih (i := i + 1) (by omega) (by omega) fun n t h1 h2 => h n t (by omega) (by omega)
    rwa [show i + 1 + d = i + (d + 1) by omega] at this

theorem testAt_true {c : Callback σ τ Bool} {t : τ} (h : s[i]? = some t)
    (hc : Calls c t w (.ok true) w1) : testAt c s i w = .ret (some t) w1 := by
  simp only [testAt, h, Act.bind_apply, hc.ok, Run.bind_ret]; rfl

theorem testAt_false {c : Callback σ τ Bool} {t : τ} (h : s[i]? = some t)
    (hc : Calls c t w (.ok false) w1) : testAt c s i w = .ret none w1 := by
  simp only [testAt, h, Act.bind_apply, hc.ok, Run.bind_ret]; rfl

theorem testAt_error {c : Callback σ τ Bool} {t : τ} {e : Exn} (h : s[i]? = some t)
    (hc : Calls c t w (.error e) w1) : testAt c s i w = .raise e w1 := by
  simp only [testAt, h, Act.bind_apply, hc.error, Run.bind_raise]

theorem testAt_end {c : Callback σ τ Bool} (h : s[i]? = none) : testAt c s i w = .ret none w := by
  simp only [testAt, h]; rfl

theorem Fails.scan {c : Callback σ τ Bool} {j : Nat} (h : Fails c s i j w w1) {n : Nat}
    (hn : j ≤ i + n) : scanTest c s n i w = scanTest c s (i + n - j) j w1 := by
  induction h generalizing n with
  | @nil i w => rw [Nat.add_sub_cancel_left]
  | @cons i j t w w1 w2 h1 h2 h3 ih =>
    have := h3.le
    obtain ⟨n, rfl⟩ : ∃ m, n = m + 1 := ⟨n - 1, by omega⟩
    simp only [scanTest, Act.bind_apply, testAt_false h1 h2, Run.bind_ret]
    rw [ih (by omega)]
    congr 1
    omega

theorem scan_sound (c : Callback σ τ Bool) (n i : Nat) (hn : i + n = s.length) (w : World σ) :
    (∃ j t w1 w2, j < s.length ∧ Fails c s i j w w1 ∧ s[j]? = some t ∧ Calls c t w1 (.ok true) w2) ∨
      (∃ w1, Fails c s i s.length w w1) ∨
      ∃ j t e w1 w2, j < s.length ∧ Fails c s i j w w1 ∧ s[j]? = some t ∧
        Calls c t w1 (.error e) w2 := by
  induction n generalizing i w with
  | zero => exact .inr (.inl ⟨w, by rw [← hn]; exact .nil⟩)
  | succ n ih =>
    have hlt : i < s.length := by omega
    have hs := List.getElem?_eq_getElem hlt
    rcases calls_cases c s[i] w with ⟨b, w', h⟩ | ⟨e, w', h⟩
    · cases b with
      | true => exact .inl ⟨i, _, w, w', hlt, .nil, hs, h⟩
      | false =>
        rcases ih (i + 1) (by omega) w' with ⟨j, t, w1, w2, h0, h1, h2, h3⟩ | ⟨w1, h1⟩ |
          ⟨j, t, e, w1, w2, h0, h1, h2, h3⟩
        · exact .inl ⟨j, t, w1, w2, h0, .cons hs h h1, h2, h3⟩
        · exact .inr (.inl ⟨w1, .cons hs h h1⟩)
        · exact .inr (.inr ⟨j, t, e, w1, w2, h0, .cons hs h h1, h2, h3⟩)
    · exact .inr (.inr ⟨i, _, e, w, w', hlt, .nil, hs, h⟩)

theorem found_satisfy {c : Callback σ τ Bool} {t : τ} (hc : CtxOK D ctx i) (h1 : s[i]? = some t)
    (h2 : Calls c t w (.ok true) w1) :
    Found D i ctx b w1 (.accepts t (i + 1) []) ((satisfyFns c).fn s i ctx k b w) := by
  have hlt := (List.getElem?_eq_some_iff.1 h1).1
  simp only [satisfyFns, satisfyFn, Act.bind_apply, testAt_true h1 h2, Run.bind_ret]
  exact .mk_accepts rfl rfl rfl (hc.stay (Nat.le_succ _) hlt) (okFrame_next h1 rfl rfl rfl)

theorem found_satisfy_raises {c : Callback σ τ Bool} {t : τ} {e : Exn} (h1 : s[i]? = some t)
    (h2 : Calls c t w (.error e) w1) :
    Found D i ctx b w1 (.raises e) ((satisfyFns c).fn s i ctx k b w) := by
  simp only [satisfyFns, satisfyFn, Act.bind_apply, testAt_error h1 h2, Run.bind_raise]
  exact .raises

theorem found_satisfy_not {c : Callback σ τ Bool} {t : τ} (hi : i ≤ s.length) (hc : CtxOK D ctx i)
    (h1 : s[i]? = some t) (h2 : Calls c t w (.ok false) w1) :
    Found D i ctx none w1 (.rejects i [] false) ((satisfyFns c).fn s i ctx k none w) := by
  simp only [satisfyFns, satisfyFn, Act.bind_apply, testAt_false h1 h2, Run.bind_ret]
  exact .mk_rejects (hc.report (Nat.le_refl _) hi) rfl rfl

theorem found_satisfy_end {c : Callback σ τ Bool} (hi : i ≤ s.length) (hc : CtxOK D ctx i)
    (h1 : s[i]? = none) :
    Found D i ctx none w (.rejects i [] false) ((satisfyFns c).fn s i ctx k none w) := by
  simp only [satisfyFns, satisfyFn, Act.bind_apply, testAt_end h1, Run.bind_ret]
  exact .mk_rejects (hc.report (Nat.le_refl _) hi) rfl rfl

theorem found_satisfy_skip {c : Callback σ τ Bool} {t : τ} {j : Nat} {r : Int} (hi : i ≤ s.length)
    (hc : CtxOK D ctx i) (hij : i < j) (h1 : Fails c s i j w w1) (h2 : s[j]? = some t)
    (h3 : Calls c t w1 (.ok true) w2) :
    Found D i ctx (some r) w2 (.repairs [Cand.skip k i j t (j + 1) []] i [] false)
      ((satisfyFns c).fn s i ctx k (some r) w) := by
  have hlt := (List.getElem?_eq_some_iff.1 h2).1
  cases h1 with
  | nil => omega
  | @cons _ _ t' _ w' _ h4 h5 h6 =>
    simp only [satisfyFns, satisfyFn, Act.bind_apply, testAt_false h4 h5, Run.bind_ret]
    rw [h6.scan (by omega)]
    obtain ⟨m, hm⟩ : ∃ m, i + 1 + (s.length - (i + 1)) - j = m + 1 := ⟨s.length - j - 1, by omega⟩
    rw [hm]
    simp only [scanTest, Act.bind_apply, testAt_true h2 h3, Run.bind_ret]
    have hu := hc.updateLoc (q := j + 1) (by omega) hlt
    refine .mk_repairs (hc.report (Nat.le_refl _) hi) rfl rfl
      (.cons (.skip hi hc hu) .nil) ⟨by simp, ?_, ?_⟩
    · intro m hm; cases hm; omega
    · intro p hp
      cases List.mem_singleton.1 hp
      exact RepFrame.skip hij (by omega) hlt _ _ _ _ _ _

theorem found_satisfy_never {c : Callback σ τ Bool} {r : Int} (hi : i ≤ s.length)
    (hc : CtxOK D ctx i) (h1 : Fails c s i s.length w w1) :
    Found D i ctx (some r) w1 (.rejects i [] false) ((satisfyFns c).fn s i ctx k (some r) w) := by
  have hl := hc.report (Nat.le_refl _) hi
  generalize hj : s.length = j at h1
  cases h1 with
  | nil =>
    simp only [satisfyFns, satisfyFn, Act.bind_apply]
    rw [testAt_end (by simp [← hj])]
    simp only [Run.bind_ret, Act.bind_apply]
    rw [show s.length - (i + 1) = 0 by omega]
    simp only [scanTest]
    exact .mk_rejects hl rfl rfl
  | @cons _ _ t' _ w' _ h4 h5 h6 =>
    have := h6.le
    have hsc : scanTest c s (s.length - (i + 1)) (i + 1) w' = .ret none w1 := by
      rw [h6.scan (by omega), show i + 1 + (s.length - (i + 1)) - j = 0 by omega]
      rfl
    simp only [satisfyFns, satisfyFn, Act.bind_apply, testAt_false h4 h5, Run.bind_ret, hsc]
    exact .mk_rejects hl rfl rfl

theorem found_satisfy_skip_raises {c : Callback σ τ Bool} {t : τ} {e : Exn} {j : Nat} {r : Int}
    (hij : i < j) (h1 : Fails c s i j w w1) (h2 : s[j]? = some t)
    (h3 : Calls c t w1 (.error e) w2) :
    Found D i ctx (some r) w2 (.raises e) ((satisfyFns c).fn s i ctx k (some r) w) := by
  have hlt := (List.getElem?_eq_some_iff.1 h2).1
  cases h1 with
  | nil => omega
  | @cons _ _ t' _ w' _ h4 h5 h6 =>
    simp only [satisfyFns, satisfyFn, Act.bind_apply, testAt_false h4 h5, Run.bind_ret]
    rw [h6.scan (by omega)]
    obtain ⟨m, hm⟩ : ∃ m, i + 1 + (s.length - (i + 1)) - j = m + 1 := ⟨s.length - j - 1, by omega⟩
    rw [hm]
    simp only [scanTest, Act.bind_apply, testAt_error h2 h3, Run.bind_raise]
    exact .raises

end Eff

end Reparsec
