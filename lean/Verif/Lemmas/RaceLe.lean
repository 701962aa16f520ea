import Verif.Lemmas.Race

/-!
# Running a parser while `Delay` objects change: the other direction
-/

namespace Reparsec.Eff

variable {σ τ α β γ : Type}

/-- In every world the code raises "was not defined", or does `o`, unless `o` is running out of
fuel. -/
def Lo (x : Act σ α) (o : Out α) : Prop :=
  ∀ w, (x w).out = .raise undefinedExn ∨ o.Le (x w).out

theorem Lo.of_does {x : Act σ α} {o : Out α} (h : Does x o) : Lo x o :=
  fun w => .inr (by rw [h w]; exact .refl o)

theorem Lo.bind {x : Act σ α} {o : Out α} {f : α → Act σ β} {g : α → Out β} (h : Lo x o)
    (hf : ∀ a, Lo (f a) (g a)) : Lo (x >>= f) (o.bind g) := by
  intro w
  have h := h w
  simp only [Act.bind_apply]
  rcases h with h | h | h
  · refine .inl ?_
    cases hx : x w with
    | diverge => rw [hx] at h; simp [Run.out] at h
    | raise e w' => rw [hx] at h; simpa [Run.out, Run.bind] using h
    | ret a w' => rw [hx] at h; simp [Run.out] at h
  · subst h; exact .inr (.inl rfl)
  · subst h
    cases hx : x w with
    | diverge => exact .inr (.inl rfl)
    | raise e w' => exact .inr (.inr rfl)
    | ret a w' => exact hf a w'

theorem Lo.pure (a : α) : Lo (Pure.pure a : Act σ α) (.ret a) := .of_does (.pure a)
theorem Lo.raise (e : Exn) : Lo (Act.raise e : Act σ α) (.raise e) := .of_does (.raise e)
theorem Lo.diverge {x : Act σ α} : Lo x .diverge := fun _ => .inr (.inl rfl)

theorem Lo.call {c : Callback σ α β} (h : Steady c) (st : σ) (a : α) :
    Lo (c.call a) (Out.ofExcept (plainFn st c a)) := .of_does (.call h st a)

theorem Lo.ite {c : Prop} [Decidable c] {x y : Act σ α} {o o' : Out α} (hx : Lo x o)
    (hy : Lo y o') : Lo (if c then x else y) (if c then o else o') := by
  split <;> assumption

theorem Lo.congr {x y : Act σ α} {o o' : Out α} (h : Lo x o) (hx : ∀ w, y w = x w)
    (ho : o = o') : Lo y o' := by
  subst ho
  intro w
  rw [hx]
  exact h w

theorem Lo.weaken {x : Act σ α} {o o' : Out α} (h : Lo x o) (ho : o'.Le o) : Lo x o' :=
  fun w => (h w).imp id ho.trans

/-- The same for parse functions. -/
structure LoFns (f : ParseFns σ τ α) (g : Reparsec.ParseFns τ α) : Prop where
  fast : ∀ s pos ctx, Lo (f.fast s pos ctx) (g.fast s pos ctx)
  fn : ∀ s pos ctx ins rem, Lo (f.fn s pos ctx ins rem) (g.fn s pos ctx ins rem)

theorem LoFns.of_does {f : ParseFns σ τ α} {g : Reparsec.ParseFns τ α} (h : DoesFns f g) :
    LoFns f g :=
  ⟨fun _ _ _ => .of_does (h.fast _ _ _), fun _ _ _ _ _ => .of_does (h.fn _ _ _ _ _)⟩

theorem lo_repairsFmap {c : Callback σ α β} (h : Steady c) (st : σ) (l : List (Repair τ α)) :
    Lo (repairsFmap c l) (repairsFmapM (plainFn st c) l) := .of_does (does_repairsFmap h st l)

theorem lo_fmap {f : ParseFns σ τ α} {g : Reparsec.ParseFns τ α} (hf : LoFns f g)
    {c : Callback σ α β} (h : Steady c) (st : σ) :
    LoFns (fmapFns f c) (Reparsec.fmapFns g (plainFn st c)) := by
  constructor
  · intro s pos ctx
    refine (hf.fast s pos ctx).bind fun r => ?_
    cases r with
    | ok r =>
      simp only [Simple.fmapM, Ok.fmapM, Out.bind_def, Out.bind_assoc, Out.pure_def,
        Out.bind_ret]
      exact (Lo.call h st _).bind fun _ => .pure _
    | error e => exact .pure _
  · intro s pos ctx ins rem
    refine (hf.fn s pos ctx ins rem).bind fun r => ?_
    cases r with
    | ok r =>
      simp only [Result.fmapM, Ok.fmapM, Out.bind_def, Out.bind_assoc, Out.pure_def,
        Out.bind_ret]
      exact (Lo.call h st _).bind fun _ => .pure _
    | error e => exact .pure _
    | recovered r => exact (lo_repairsFmap h st _).bind fun _ => .pure _

theorem lo_altRecover {f f' : ParseFns σ τ α} {g g' : Reparsec.ParseFns τ α} (hf : LoFns f g)
    (hf' : LoFns f' g') (s pos ctx ins rem loc ex) :
    Lo (altRecover f f' s pos ctx ins rem loc ex)
      (Reparsec.altRecover g g' s pos ctx ins rem loc ex) := by
  cases rem with
  | none => exact .pure _
  | some rem =>
    refine (hf.fn _ _ _ _ _).bind fun a => (hf'.fn _ _ _ _ _).bind fun b => ?_
    cases a <;> cases b <;> exact .pure _

theorem lo_altSecond {f f' : ParseFns σ τ α} {g g' : Reparsec.ParseFns τ α} (hf : LoFns f g)
    (hf' : LoFns f' g') (s pos ctx ins rem loc ex) :
    Lo (altSecond f f' s pos ctx ins rem loc ex)
      (Reparsec.altSecond g g' s pos ctx ins rem loc ex) := by
  refine (hf'.fn _ _ _ _ _).bind fun b => ?_
  cases b with
  | ok r => exact .ite (.pure _) (.pure _)
  | error e => exact .ite (.pure _) (lo_altRecover hf hf' _ _ _ _ _ _ _)
  | recovered e => exact .ite (.pure _) (lo_altRecover hf hf' _ _ _ _ _ _ _)

theorem lo_alt {f f' : ParseFns σ τ α} {g g' : Reparsec.ParseFns τ α} (hf : LoFns f g)
    (hf' : LoFns f' g') : LoFns (altFns f f') (Reparsec.altFns g g') := by
  constructor
  · intro s pos ctx
    refine (hf.fast _ _ _).bind fun r => ?_
    cases r with
    | ok r => exact .pure _
    | error e =>
      refine .ite (.pure _) ((hf'.fast _ _ _).bind fun r => ?_)
      cases r with
      | ok r => exact .ite (.pure _) (.pure _)
      | error e => exact .ite (.pure _) (.pure _)
  · intro s pos ctx ins rem
    refine (hf.fn _ _ _ _ _).bind fun r => ?_
    cases r with
    | ok r => exact .pure _
    | error e => exact .ite (.pure _) (lo_altSecond hf hf' _ _ _ _ _ _ _)
    | recovered e => exact .ite (.pure _) (lo_altSecond hf hf' _ _ _ _ _ _ _)

theorem lo_contReps {ins : Int} {k : α → Nat → Ctx τ → Int → Act σ (Result τ β)}
    {k' : α → Nat → Ctx τ → Int → Out (Result τ β)} {merge : α → β → γ}
    (hk : ∀ v p c r, Lo (k v p c r) (k' v p c r)) (l : List (Repair τ α)) :
    Lo (contReps ins k merge l) (Reparsec.contReps ins k' merge l) := by
  induction l with
  | nil => exact .pure _
  | cons r rs ih => exact (hk _ _ _ _).bind fun _ => ih.bind fun _ => .pure _

theorem lo_continueParse {ra : Recovered τ α} {ins : Int}
    {k : α → Nat → Ctx τ → Int → Act σ (Result τ β)}
    {k' : α → Nat → Ctx τ → Int → Out (Result τ β)} {merge : α → β → γ}
    (hk : ∀ v p c r, Lo (k v p c r) (k' v p c r)) :
    Lo (continueParse ra ins k merge) (Reparsec.continueParse ra ins k' merge) :=
  (lo_contReps hk _).bind fun _ => .pure _

/-- The same for code that gives a parser. -/
def LoParser (x : Act σ (ParseFns σ τ β)) (g : Reparsec.ParseFns τ β) : Prop :=
  (∀ s pos ctx, Lo (do let h ← x; h.fast s pos ctx) (g.fast s pos ctx)) ∧
  (∀ s pos ctx ins rem, Lo (do let h ← x; h.fn s pos ctx ins rem) (g.fn s pos ctx ins rem))

theorem lo_bind {f : ParseFns σ τ α} {g : Reparsec.ParseFns τ α} (hf : LoFns f g)
    {k : α → Act σ (ParseFns σ τ β)} {k' : α → Reparsec.ParseFns τ β}
    (hk : ∀ a, LoParser (k a) (k' a)) : LoFns (bindFns f k) (Reparsec.bindFns g k') := by
  constructor
  · intro s pos ctx
    refine (hf.fast _ _ _).bind fun r => ?_
    cases r with
    | error e => exact .pure _
    | ok r =>
      have := ((hk r.value).1 s r.pos r.ctx).bind
        (f := fun rb => Pure.pure (rb.prependExpected r.expected r.consumed))
        (g := fun rb => .ret (rb.prependExpected r.expected r.consumed)) fun _ => .pure _
      refine this.congr (fun w => ?_) rfl
      simp [Run.bind_assoc] <;> rfl
  · intro s pos ctx ins rem
    refine (hf.fn _ _ _ _ _).bind fun r => ?_
    cases r with
    | error e => exact .pure _
    | recovered r =>
      exact lo_continueParse fun v p c r => (hk v).2 s p c ins (some r)
    | ok r =>
      have := ((hk r.value).2 s r.pos r.ctx ins (if r.consumed then some ins else rem)).bind
        (f := fun rb => Pure.pure (rb.prependExpected r.expected r.consumed))
        (g := fun rb => .ret (rb.prependExpected r.expected r.consumed)) fun _ => .pure _
      refine this.congr (fun w => ?_) ?_
      · simp [Run.bind_assoc] <;> rfl
      · dsimp only; split <;> rfl

theorem lo_seq {f : ParseFns σ τ α} {g : Reparsec.ParseFns τ α} (hf : LoFns f g)
    {f' : ParseFns σ τ β} {g' : Reparsec.ParseFns τ β} (hf' : LoFns f' g') (merge : α → β → γ) :
    LoFns (seqFns f f' merge) (Reparsec.seqFns g g' merge) := by
  constructor
  · intro s pos ctx
    refine (hf.fast _ _ _).bind fun r => ?_
    cases r with
    | error e => exact .pure _
    | ok r => exact (hf'.fast _ _ _).bind fun _ => .pure _
  · intro s pos ctx ins rem
    refine (hf.fn _ _ _ _ _).bind fun r => ?_
    cases r with
    | error e => exact .pure _
    | ok r => exact (hf'.fn _ _ _ _ _).bind fun _ => .pure _
    | recovered r => exact lo_continueParse fun v p c r => hf'.fn _ _ _ _ _

theorem lo_maybe {f : ParseFns σ τ α} {g : Reparsec.ParseFns τ α} (hf : LoFns f g) :
    LoFns (maybeFns f) (Reparsec.maybeFns g) := by
  constructor
  · intro s pos ctx
    refine (hf.fast _ _ _).bind fun r => ?_
    cases r with
    | ok r => exact .pure _
    | error e => exact .ite (.pure _) (.pure _)
  · intro s pos ctx ins rem
    refine (hf.fn _ _ _ _ _).bind fun r => ?_
    cases r with
    | ok r => exact .pure _
    | error e => exact .ite (.pure _) (.pure _)
    | recovered e => exact .ite (.pure _) (.pure _)

theorem lo_manyFastLoop {f : FastFn σ τ α} {g : Reparsec.FastFn τ α}
    (hf : ∀ s pos ctx, Lo (f s pos ctx) (g s pos ctx)) (s : List τ) (n pos ctx c v) :
    Lo (manyFastLoop f s n pos ctx c v) (Reparsec.manyFastLoop g s n pos ctx c v) := by
  induction n generalizing pos ctx c v with
  | zero => exact .diverge
  | succ n ih =>
    refine (hf _ _ _).bind fun r => ?_
    cases r with
    | ok r => exact .ite (ih _ _ _ _) (.raise _)
    | error e => exact .ite (.pure _) (.pure _)

theorem lo_manyLoop {f : Fn σ τ α} {g : Reparsec.Fn τ α}
    (hf : ∀ s pos ctx ins rem, Lo (f s pos ctx ins rem) (g s pos ctx ins rem)) (s : List τ)
    (ins : Int) (n pos ctx c v) :
    Lo (manyLoop f s ins n pos ctx c v) (Reparsec.manyLoop g s ins n pos ctx c v) := by
  induction n generalizing pos ctx c v with
  | zero => exact .diverge
  | succ n ih =>
    refine (hf _ _ _ _ _).bind fun r => ?_
    cases r with
    | ok r => exact .ite (ih _ _ _ _) (.raise _)
    | error e => exact .ite (.pure _) (.pure _)
    | recovered r => exact lo_continueParse fun _ _ _ _ => ih _ _ _ _

theorem lo_many {f : ParseFns σ τ α} {g : Reparsec.ParseFns τ α} (hf : LoFns f g) (n : Nat) :
    LoFns (manyFns n f) (Reparsec.manyFns n g) :=
  ⟨fun _ _ _ => lo_manyFastLoop hf.fast _ _ _ _ _ _,
   fun _ _ _ _ _ => lo_manyLoop hf.fn _ _ _ _ _ _ _⟩

theorem lo_attempt {f : ParseFns σ τ α} {g : Reparsec.ParseFns τ α} (hf : LoFns f g) :
    LoFns (attemptFns f) (Reparsec.attemptFns g) := by
  constructor
  · intro s pos ctx
    refine (hf.fast _ _ _).bind fun r => ?_
    cases r <;> exact .pure _
  · intro s pos ctx ins rem
    cases rem with
    | some rem => exact hf.fn _ _ _ _ _
    | none =>
      refine (hf.fast _ _ _).bind fun r => ?_
      cases r <;> exact .pure _

theorem lo_label {f : ParseFns σ τ α} {g : Reparsec.ParseFns τ α} (hf : LoFns f g)
    (x : String) : LoFns (labelFns f x) (Reparsec.labelFns g x) :=
  ⟨fun _ _ _ => (hf.fast _ _ _).bind fun _ => .pure _,
   fun _ _ _ _ _ => (hf.fn _ _ _ _ _).bind fun _ => .pure _⟩

theorem lo_recover {f : ParseFns σ τ α} {g : Reparsec.ParseFns τ α} (hf : LoFns f g) :
    LoFns (recoverFns f) (Reparsec.recoverFns g) := by
  refine ⟨hf.fast, fun s pos ctx ins rem => ?_⟩
  refine (hf.fn _ _ _ _ _).bind fun r => ?_
  cases r <;> exact .pure _

theorem lo_recoverWith {f : ParseFns σ τ α} {g : Reparsec.ParseFns τ α} (hf : LoFns f g)
    (x : α) (vs : String) : LoFns (recoverWithFns f x vs) (Reparsec.recoverWithFns g x vs) := by
  refine ⟨hf.fast, fun s pos ctx ins rem => ?_⟩
  cases rem with
  | none => exact hf.fn _ _ _ _ _
  | some rem =>
    refine (hf.fn _ _ _ _ _).bind fun r => ?_
    cases r with
    | ok r => exact .pure _
    | error e => exact .ite (.pure _) (.ite (.pure _) (.pure _))
    | recovered e => exact .ite (.pure _) (.ite (.pure _) (.pure _))

theorem lo_recoverWithFn {f : ParseFns σ τ α} {g : Reparsec.ParseFns τ α} (hf : LoFns f g)
    {c : Callback σ (List τ × Nat) α} (h : Steady c) (st : σ) (lbl : α → String) :
    LoFns (recoverWithFnFns f c lbl)
      (Reparsec.recoverWithFnFns g (fun s i => plainFn st c (s, i)) lbl) := by
  refine ⟨hf.fast, fun s pos ctx ins rem => ?_⟩
  cases rem with
  | none => exact hf.fn _ _ _ _ _
  | some rem =>
    refine (hf.fn _ _ _ _ _).bind fun r => ?_
    cases r with
    | ok r => exact .pure _
    | error e =>
      exact .ite (.pure _) (.ite ((Lo.call h st _).bind fun _ => .pure _) (.pure _))
    | recovered e =>
      exact .ite (.pure _) (.ite ((Lo.call h st _).bind fun _ => .pure _) (.pure _))

theorem lo_block {f : ParseFns σ τ α} {g : Reparsec.ParseFns τ α} (hf : LoFns f g) :
    LoFns (blockFns f) (Reparsec.blockFns g) :=
  ⟨fun _ _ _ => (hf.fast _ _ _).bind fun _ => .pure _,
   fun _ _ _ _ _ => (hf.fn _ _ _ _ _).bind fun _ => .pure _⟩

theorem lo_aligned {f : ParseFns σ τ α} {g : Reparsec.ParseFns τ α} (hf : LoFns f g) :
    LoFns (alignedFns f) (Reparsec.alignedFns g) :=
  ⟨fun _ _ _ => .ite (hf.fast _ _ _) (.pure _),
   fun _ _ _ _ _ => .ite (hf.fn _ _ _ _ _) (.pure _)⟩

theorem lo_indented {f : ParseFns σ τ α} {g : Reparsec.ParseFns τ α} (hf : LoFns f g)
    (d : Int) : LoFns (indentedFns d f) (Reparsec.indentedFns d g) :=
  ⟨fun _ _ _ => .ite ((hf.fast _ _ _).bind fun _ => .pure _) (.pure _),
   fun _ _ _ _ _ => .ite ((hf.fn _ _ _ _ _).bind fun _ => .pure _) (.pure _)⟩

end Reparsec.Eff
