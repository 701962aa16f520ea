import Verif.Props.Laws

/-!
# C15, C48: sequencing
-/

namespace Reparsec

variable {τ ρ : Type} {Γ : ρ → Type} {α β γ δ : Type} [BEq τ]
  {env : Env τ ρ Γ} {p : P τ ρ Γ α} {q : P τ ρ Γ β} {s : List τ} {pos : Nat} {ctx : Ctx τ}
  {ins : Int} {rem : Option Int}

/-- What a sequence gives when the first parser succeeded with `ra` and the second one, run from
where that ended, gave `o`. The expected list is that of the second parser if that consumed input;
otherwise that of the first followed by that of the second (C48). -/
def afterSuccess (ra : Ok τ α) (merge : α → β → γ) : Simple τ β → Simple τ γ
  | .ok rb => .ok
      { value := merge ra.value rb.value, pos := rb.pos, ctx := rb.ctx,
        expected := if ra.pos < rb.pos then rb.expected else ra.expected ++ rb.expected,
        consumed := ra.consumed || rb.consumed }
  | .error e => .error
      { loc := e.loc,
        expected := if e.consumed then e.expected else ra.expected ++ e.expected,
        consumed := ra.consumed || e.consumed }

/-- C15. If the first parser fails, so does the sequence, with the same error. -/
theorem C15_first_fails {merge : α → β → γ} {e : Err} (h : Fails env p s pos ctx e) :
    Fails env (.seqWith p q merge) s pos ctx e := by
  obtain ⟨n, h⟩ := h
  exact ⟨n, by simp [denote, denoteWith, seqFns, seqFast] at h ⊢; simp [h]⟩

/-- C15. If the first parser raises, so does the sequence. -/
theorem C15_first_raises {merge : α → β → γ} {e : Exn} (h : RunPlain env p s pos ctx (.raise e)) :
    RunPlain env (.seqWith p q merge) s pos ctx (.raise e) := by
  obtain ⟨n, h⟩ := h
  exact ⟨n, by simp [denote, denoteWith, seqFns, seqFast] at h ⊢; simp [h]⟩

/-- C15. If the first parser does not return, neither does the sequence. -/
theorem C15_first_hangs {merge : α → β → γ} (h : RunPlain env p s pos ctx .diverge) :
    RunPlain env (.seqWith p q merge) s pos ctx .diverge := by
  intro n
  have := h n
  simp [denote, denoteWith, seqFns, seqFast] at this ⊢
  simp [this]

/-- C15, C48. If the first parser succeeds, the second one is run from where it ended, and the
outcome is that of the second one, up to the value, the expected list and consumption. -/
theorem C15_second {merge : α → β → γ} {ra : Ok τ α} {o : Out (Simple τ β)} (hp : pos ≤ s.length)
    (h : RunPlain env p s pos ctx (.ret (.ok ra))) (hq : RunPlain env q s ra.pos ra.ctx o) :
    RunPlain env (.seqWith p q merge) s pos ctx (o.map (afterSuccess ra merge)) := by
  have hpa : ra.pos ≤ s.length := by
    obtain ⟨n, h⟩ := h
    exact (frame_fast env n p hp h).hi
  have key : RunPlain env (.seqWith p q merge) s pos ctx (o.map fun rb =>
      (rb.fmap fun vb => merge ra.value vb).prependExpected ra.expected ra.consumed) := by
    show Yields (fun n => seqFast (denote env n p) (denote env n q) merge s pos ctx) _
    simp only [seqFast, Out.bind_def]
    refine Yields.bind (mono_fast env p s pos ctx) h ?_ ?_
    · exact (mono_fast env q s ra.pos ra.ctx).bind fun _ => .const _
    · exact Yields.map hq _
  have : o.map (afterSuccess ra merge) = o.map fun rb =>
      (rb.fmap fun vb => merge ra.value vb).prependExpected ra.expected ra.consumed := by
    cases o with
    | diverge => rfl
    | raise e => rfl
    | ret y =>
      cases y with
      | error e =>
        by_cases hc : e.consumed <;>
          simp [Out.map, afterSuccess, Simple.fmap, Simple.prependExpected,
            Err.prependExpected, hc]
        cases e; simp_all
      | ok rb =>
        obtain ⟨n, hq⟩ := hq
        have hc := (frame_fast env n q hpa hq).consumed
        by_cases hl : ra.pos < rb.pos <;>
          simp [Out.map, afterSuccess, Simple.fmap, Simple.prependExpected, Ok.fmap,
            Ok.prependExpected, hc, hl]
  rw [this]; exact key

/-- C15. A sequence succeeds iff both parsers do, the second one from where the first one ended. -/
theorem C15_success_iff {merge : α → β → γ} {v : γ} {pos' : Nat} {ctx' : Ctx τ}
    (hp : pos ≤ s.length) :
    Reads env (.seqWith p q merge) s pos ctx v pos' ctx' ↔
      ∃ a b pos₁ ctx₁, Reads env p s pos ctx a pos₁ ctx₁ ∧
        Reads env q s pos₁ ctx₁ b pos' ctx' ∧ v = merge a b := by
  constructor
  · rintro ⟨ex, c, h⟩
    obtain ⟨o, ho⟩ := RunPlain.total env p s pos ctx
    cases o with
    | diverge => exact absurd (h.unique (C15_first_hangs ho)) (by simp)
    | raise e => exact absurd (h.unique (C15_first_raises ho)) (by simp)
    | ret x =>
      cases x with
      | error e => exact absurd (h.unique (C15_first_fails ho)) (by simp)
      | ok ra =>
        obtain ⟨o', ho'⟩ := RunPlain.total env q s ra.pos ra.ctx
        have := h.unique (C15_second hp ho ho')
        cases o' with
        | diverge => simp [Out.map] at this
        | raise e => simp [Out.map] at this
        | ret y =>
          cases y with
          | error e => simp [Out.map, afterSuccess] at this
          | ok rb =>
            simp only [Out.map, afterSuccess, Out.ret.injEq, Simple.ok.injEq, Ok.mk.injEq] at this
            obtain ⟨rfl, rfl, rfl, -⟩ := this
            exact ⟨_, _, _, _, ⟨_, _, ho⟩, ⟨_, _, ho'⟩, rfl⟩
  · rintro ⟨a, b, pos₁, ctx₁, ⟨ex, c, h⟩, ⟨ex', c', h'⟩, rfl⟩
    exact ⟨_, _, C15_second hp h h'⟩

/-- C15. A sequence fails iff one of the parsers does (the second one is run only if the first one
succeeds). -/
theorem C15_failure_iff {merge : α → β → γ} {e : Err} (hp : pos ≤ s.length) :
    Fails env (.seqWith p q merge) s pos ctx e ↔
      Fails env p s pos ctx e ∨
      ∃ ra e', RunPlain env p s pos ctx (.ret (.ok ra)) ∧ Fails env q s ra.pos ra.ctx e' ∧
        e.loc = e'.loc ∧
        e.expected = (if e'.consumed then e'.expected else ra.expected ++ e'.expected) ∧
        e.consumed = (ra.consumed || e'.consumed) := by
  constructor
  · intro h
    obtain ⟨o, ho⟩ := RunPlain.total env p s pos ctx
    cases o with
    | diverge => exact absurd (RunPlain.unique h (C15_first_hangs ho)) (by simp)
    | raise e => exact absurd (RunPlain.unique h (C15_first_raises ho)) (by simp)
    | ret x =>
      cases x with
      | error e' =>
        have := RunPlain.unique h (C15_first_fails ho)
        simp at this; subst this
        exact .inl ho
      | ok ra =>
        obtain ⟨o', ho'⟩ := RunPlain.total env q s ra.pos ra.ctx
        have := RunPlain.unique h (C15_second hp ho ho')
        cases o' with
        | diverge => simp [Out.map] at this
        | raise e => simp [Out.map] at this
        | ret y =>
          cases y with
          | ok rb => simp [Out.map, afterSuccess] at this
          | error e' =>
            simp only [Out.map, afterSuccess, Out.ret.injEq, Simple.error.injEq] at this
            subst this
            exact .inr ⟨ra, e', ho, ho', rfl, rfl, rfl⟩
  · rintro (h | ⟨ra, e', h, h', h1, h2, h3⟩)
    · exact C15_first_fails h
    · have := C15_second (merge := merge) hp h h'
      simp only [Out.map, afterSuccess] at this
      obtain ⟨l, ex, c⟩ := e
      simp only at h1 h2 h3
      subst h1 h2 h3
      exact this

/-- C15. `p + q` returns the pair. -/
theorem C15_seq {v : α × β} {pos' : Nat} {ctx' : Ctx τ} (hp : pos ≤ s.length) :
    Reads env (p.seq q) s pos ctx v pos' ctx' ↔
      ∃ pos₁ ctx₁, Reads env p s pos ctx v.1 pos₁ ctx₁ ∧ Reads env q s pos₁ ctx₁ v.2 pos' ctx' := by
  rw [P.seq, C15_success_iff hp]
  constructor
  · rintro ⟨a, b, pos₁, ctx₁, h1, h2, rfl⟩; exact ⟨_, _, h1, h2⟩
  · rintro ⟨pos₁, ctx₁, h1, h2⟩; exact ⟨_, _, _, _, h1, h2, rfl⟩

/-- C15. `p << q` returns the value of `p`. -/
theorem C15_seql {v : α} {pos' : Nat} {ctx' : Ctx τ} (hp : pos ≤ s.length) :
    Reads env (p.seql q) s pos ctx v pos' ctx' ↔
      ∃ b pos₁ ctx₁, Reads env p s pos ctx v pos₁ ctx₁ ∧ Reads env q s pos₁ ctx₁ b pos' ctx' := by
  rw [P.seql, C15_success_iff hp]
  constructor
  · rintro ⟨a, b, pos₁, ctx₁, h1, h2, rfl⟩; exact ⟨_, _, _, h1, h2⟩
  · rintro ⟨b, pos₁, ctx₁, h1, h2⟩; exact ⟨_, _, _, _, h1, h2, rfl⟩

/-- C15. `p >> q` returns the value of `q`. -/
theorem C15_seqr {v : β} {pos' : Nat} {ctx' : Ctx τ} (hp : pos ≤ s.length) :
    Reads env (p.seqr q) s pos ctx v pos' ctx' ↔
      ∃ a pos₁ ctx₁, Reads env p s pos ctx a pos₁ ctx₁ ∧ Reads env q s pos₁ ctx₁ v pos' ctx' := by
  rw [P.seqr, C15_success_iff hp]
  constructor
  · rintro ⟨a, b, pos₁, ctx₁, h1, h2, rfl⟩; exact ⟨_, _, _, h1, h2⟩
  · rintro ⟨a, pos₁, ctx₁, h1, h2⟩; exact ⟨_, _, _, _, h1, h2, rfl⟩

theorem Reads.le {v : α} {pos' : Nat} {ctx' : Ctx τ} (hp : pos ≤ s.length)
    (h : Reads env p s pos ctx v pos' ctx') : pos' ≤ s.length := by
  obtain ⟨ex, c, n, h⟩ := h
  exact (frame_fast env n p hp h).hi

/-- C15. `p.between(op, close)` runs `op`, `p`, `close` and returns the value of `p`. -/
theorem C15_between {op : P τ ρ Γ β} {close : P τ ρ Γ γ} {v : α} {pos' : Nat} {ctx' : Ctx τ}
    (hp : pos ≤ s.length) :
    Reads env (P.between op close p) s pos ctx v pos' ctx' ↔
      ∃ a c pos₁ ctx₁ pos₂ ctx₂, Reads env op s pos ctx a pos₁ ctx₁ ∧
        Reads env p s pos₁ ctx₁ v pos₂ ctx₂ ∧ Reads env close s pos₂ ctx₂ c pos' ctx' := by
  rw [P.between, C15_seqr hp]
  constructor
  · rintro ⟨a, pos₁, ctx₁, h1, h2⟩
    obtain ⟨c, pos₂, ctx₂, h3, h4⟩ := (C15_seql (h1.le hp)).1 h2
    exact ⟨a, c, pos₁, ctx₁, pos₂, ctx₂, h1, h3, h4⟩
  · rintro ⟨a, c, pos₁, ctx₁, pos₂, ctx₂, h1, h3, h4⟩
    exact ⟨a, pos₁, ctx₁, h1, (C15_seql (h1.le hp)).2 ⟨c, pos₂, ctx₂, h3, h4⟩⟩

/-- C15. `p.then(q)` appends one component, so `(p + q).then(r)` runs the three in order and returns
the triple. -/
theorem C15_then {r : P τ ρ Γ γ} {v : (α × β) × γ} {pos' : Nat} {ctx' : Ctx τ}
    (hp : pos ≤ s.length) :
    Reads env ((p.seq q).thenNext r) s pos ctx v pos' ctx' ↔
      ∃ pos₁ ctx₁ pos₂ ctx₂, Reads env p s pos ctx v.1.1 pos₁ ctx₁ ∧
        Reads env q s pos₁ ctx₁ v.1.2 pos₂ ctx₂ ∧ Reads env r s pos₂ ctx₂ v.2 pos' ctx' := by
  rw [P.thenNext, C15_success_iff hp]
  constructor
  · rintro ⟨a, b, pos₁, ctx₁, h1, h2, rfl⟩
    obtain ⟨pos₂, ctx₂, h3, h4⟩ := (C15_seq hp).1 h1
    exact ⟨_, _, _, _, h3, h4, h2⟩
  · rintro ⟨pos₁, ctx₁, pos₂, ctx₂, h1, h2, h3⟩
    exact ⟨v.1, _, _, _, (C15_seq hp).2 ⟨_, _, h1, h2⟩, h3, rfl⟩

/-! ### C48 -/

/-- C48. When `p` succeeds and `q` then fails without consuming, `p + q` expects `p`'s list followed
by `q`'s, at the location of `q`'s error. -/
theorem C48_accumulate {ra : Ok τ α} {e : Err} (hp : pos ≤ s.length)
    (h : RunPlain env p s pos ctx (.ret (.ok ra))) (hq : Fails env q s ra.pos ra.ctx e)
    (hc : e.consumed = false) :
    Fails env (p.seq q) s pos ctx ⟨e.loc, ra.expected ++ e.expected, ra.consumed⟩ := by
  have := C15_second (merge := fun a b => (a, b)) hp h hq
  simpa [Out.map, afterSuccess, hc, Fails, P.seq] using this

/-- C48. When `q` consumed input, only its own list is reported. -/
theorem C48_replaced {ra : Ok τ α} {e : Err} (hp : pos ≤ s.length)
    (h : RunPlain env p s pos ctx (.ret (.ok ra))) (hq : Fails env q s ra.pos ra.ctx e)
    (hc : e.consumed = true) : Fails env (p.seq q) s pos ctx e := by
  have := C15_second (merge := fun a b => (a, b)) hp h hq
  obtain ⟨l, ex, c⟩ := e
  simp only at hc
  subst hc
  simpa [Out.map, afterSuccess, Fails, P.seq] using this

/-- `maybe(a) + b` on `"c"`: both are expected; `(a + b) + a` on `"ab"`: only the last. -/
example : Fails Samples.noEnv (.seq (.maybe (.sym 'a' "'a'")) (.sym 'b' "'b'")) "c".toList 0
      (initCtx defaultGetLoc) ⟨⟨0, 0, 0⟩, ["'a'", "'b'"], false⟩ ∧
    Fails Samples.noEnv (.seq Samples.ab (.sym 'a' "'a'")) "ab".toList 0
      (initCtx defaultGetLoc) ⟨⟨2, 0, 0⟩, ["'a'"], true⟩ := ⟨⟨0, rfl⟩, ⟨0, rfl⟩⟩

/-- A sequence that succeeds. -/
example : Reads Samples.noEnv (.between (.sym '(' "'('") (.sym ')' "')'") (.sym 'x' "'x'"))
    "(x)".toList 0 (initCtx defaultGetLoc) 'x' 3 (initCtx defaultGetLoc) := ⟨_, _, ⟨0, rfl⟩⟩

end Reparsec
