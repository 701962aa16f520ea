import Verif.Model.Race
import Verif.Lemmas.EffectsErase
import Verif.Lemmas.Conv

/-!
# Running a parser while `Delay` objects change

It does what it should do, or raises "was not defined".
-/

namespace Reparsec.Eff

variable {σ τ α β γ : Type}

/-- In every world the code raises "was not defined", or does what `f` does with enough fuel, or
runs out of fuel. -/
def Ev (x : Act σ α) (f : Nat → Out α) : Prop :=
  ∀ w, (x w).out = .raise undefinedExn ∨ Conv f (x w).out

theorem Ev.bind {x : Act σ α} {f : Nat → Out α} {k : α → Act σ β}
    {g : Nat → α → Out β} (h : Ev x f) (hk : ∀ a, Ev (k a) fun m => g m a) :
    Ev (x >>= k) fun m => (f m).bind (g m) := by
  intro w
  have h := h w
  simp only [Act.bind_apply]
  cases hx : x w with
  | diverge => exact .inr .diverge
  | raise e w' =>
    rw [hx] at h
    rcases h with h | h
    · exact .inl (by simpa [Run.out, Run.bind] using h)
    · refine .inr fun _ => ?_
      obtain ⟨N, hN⟩ := h (by simp [Run.out])
      exact ⟨N, fun n hn => by simp [hN n hn, Run.out, Run.bind]⟩
  | ret a w' =>
    rw [hx] at h
    rcases h with h | h
    · simp [Run.out] at h
    · obtain ⟨N, hN⟩ := h (by simp [Run.out])
      simp only [Run.bind]
      rcases hk a w' with h' | h'
      · exact .inl h'
      · refine .inr fun ho => ?_
        obtain ⟨M, hM⟩ := h' ho
        exact ⟨max N M, fun n hn => by
          simp [hN n (by omega), hM n (by omega), Run.out]⟩

theorem Ev.of_does {x : Act σ α} {o : Out α} (h : Does x o) : Ev x fun _ => o :=
  fun w => .inr (by rw [h w]; exact .refl o)

theorem Ev.pure (a : α) : Ev (Pure.pure a : Act σ α) fun _ => .ret a := .of_does (.pure a)
theorem Ev.raise (e : Exn) : Ev (Act.raise e : Act σ α) fun _ => .raise e := .of_does (.raise e)
theorem Ev.diverge {f : Nat → Out α} : Ev (Act.diverge : Act σ α) f := fun _ => .inr .diverge
theorem Ev.undefined {f : Nat → Out α} : Ev (Act.raise undefinedExn : Act σ α) f := fun _ => .inl rfl

theorem Ev.call {c : Callback σ α β} (h : Steady c) (st : σ) (a : α) :
    Ev (c.call a) fun _ => Out.ofExcept (plainFn st c a) := .of_does (.call h st a)

theorem Ev.ite {c : Prop} [Decidable c] {x y : Act σ α} {f g : Nat → Out α} (hx : Ev x f)
    (hy : Ev y g) : Ev (if c then x else y) fun m => if c then f m else g m := by
  split <;> assumption

theorem Ev.succ {x : Act σ α} {f : Nat → Out α} (h : Ev x fun m => f (m + 1)) : Ev x f :=
  fun w => (h w).imp id .succ

theorem Ev.of_ev {x : Act σ α} {f g : Nat → Out α} (h : Ev x g)
    (he : ∃ N, ∀ n, N ≤ n → f n = g n) : Ev x f :=
  fun w => (h w).imp id fun h => .of_ev h he

/-- The same for parse functions. -/
structure EvFns (f : ParseFns σ τ α) (g : Nat → Reparsec.ParseFns τ α) : Prop where
  fast : ∀ s pos ctx, Ev (f.fast s pos ctx) fun m => (g m).fast s pos ctx
  fn : ∀ s pos ctx ins rem, Ev (f.fn s pos ctx ins rem) fun m => (g m).fn s pos ctx ins rem

theorem EvFns.of_does {f : ParseFns σ τ α} {g : Reparsec.ParseFns τ α} (h : DoesFns f g) :
    EvFns f fun _ => g :=
  ⟨fun _ _ _ => .of_does (h.fast _ _ _), fun _ _ _ _ _ => .of_does (h.fn _ _ _ _ _)⟩

theorem EvFns.succ {f : ParseFns σ τ α} {g : Nat → Reparsec.ParseFns τ α}
    (h : EvFns f fun m => g (m + 1)) : EvFns f g :=
  ⟨fun _ _ _ => .succ (h.fast _ _ _), fun _ _ _ _ _ => .succ (h.fn _ _ _ _ _)⟩

theorem EvFns.diverge {g : Nat → Reparsec.ParseFns τ α} : EvFns (divergeFns : ParseFns σ τ α) g :=
  ⟨fun _ _ _ => .diverge, fun _ _ _ _ _ => .diverge⟩

theorem ev_repairsFmap {c : Callback σ α β} (h : Steady c) (st : σ) (l : List (Repair τ α)) :
    Ev (repairsFmap c l) fun _ => repairsFmapM (plainFn st c) l := .of_does (does_repairsFmap h st l)

theorem ev_fmap {f : ParseFns σ τ α} {g : Nat → Reparsec.ParseFns τ α} (hf : EvFns f g)
    {c : Callback σ α β} (h : Steady c) (st : σ) :
    EvFns (fmapFns f c) fun m => Reparsec.fmapFns (g m) (plainFn st c) := by
  constructor
  · intro s pos ctx
    refine (hf.fast s pos ctx).bind fun r => ?_
    cases r with
    | ok r =>
      simp only [Simple.fmapM, Ok.fmapM, Out.bind_def, Out.bind_assoc, Out.pure_def,
        Out.bind_ret]
      exact (Ev.call h st _).bind fun _ => .pure _
    | error e => exact .pure _
  · intro s pos ctx ins rem
    refine (hf.fn s pos ctx ins rem).bind fun r => ?_
    cases r with
    | ok r =>
      simp only [Result.fmapM, Ok.fmapM, Out.bind_def, Out.bind_assoc, Out.pure_def,
        Out.bind_ret]
      exact (Ev.call h st _).bind fun _ => .pure _
    | error e => exact .pure _
    | recovered r => exact (ev_repairsFmap h st _).bind fun _ => .pure _

theorem ev_altRecover {f f' : ParseFns σ τ α} {g g' : Nat → Reparsec.ParseFns τ α} (hf : EvFns f g)
    (hf' : EvFns f' g') (s pos ctx ins rem loc ex) :
    Ev (altRecover f f' s pos ctx ins rem loc ex)
      fun m => Reparsec.altRecover (g m) (g' m) s pos ctx ins rem loc ex := by
  cases rem with
  | none => exact .pure _
  | some rem =>
    refine (hf.fn _ _ _ _ _).bind fun a => (hf'.fn _ _ _ _ _).bind fun b => ?_
    cases a <;> cases b <;> exact .pure _

theorem ev_altSecond {f f' : ParseFns σ τ α} {g g' : Nat → Reparsec.ParseFns τ α} (hf : EvFns f g)
    (hf' : EvFns f' g') (s pos ctx ins rem loc ex) :
    Ev (altSecond f f' s pos ctx ins rem loc ex)
      fun m => Reparsec.altSecond (g m) (g' m) s pos ctx ins rem loc ex := by
  refine (hf'.fn _ _ _ _ _).bind fun b => ?_
  cases b with
  | ok r => exact .ite (.pure _) (.pure _)
  | error e => exact .ite (.pure _) (ev_altRecover hf hf' _ _ _ _ _ _ _)
  | recovered e => exact .ite (.pure _) (ev_altRecover hf hf' _ _ _ _ _ _ _)

theorem ev_alt {f f' : ParseFns σ τ α} {g g' : Nat → Reparsec.ParseFns τ α} (hf : EvFns f g)
    (hf' : EvFns f' g') : EvFns (altFns f f') fun m => Reparsec.altFns (g m) (g' m) := by
  constructor
  · intro s pos ctx
    refine (hf.fast _ _ _).bind fun r => ?_
    cases r with
    | ok r => exact .pure _
    | error e =>
      refine .ite (.pure _) ((hf'.fast _ _ _).bind fun r => ?_)
      cases r with
      | ok r => exact .ite (.pure _) (.pure _)
      | error e => exact .ite (.pure _) (.pure _)
  · intro s pos ctx ins rem
    refine (hf.fn _ _ _ _ _).bind fun r => ?_
    cases r with
    | ok r => exact .pure _
    | error e => exact .ite (.pure _) (ev_altSecond hf hf' _ _ _ _ _ _ _)
    | recovered e => exact .ite (.pure _) (ev_altSecond hf hf' _ _ _ _ _ _ _)

theorem ev_contReps {ins : Int} {k : α → Nat → Ctx τ → Int → Act σ (Result τ β)}
    {k' : Nat → α → Nat → Ctx τ → Int → Out (Result τ β)} {merge : α → β → γ}
    (hk : ∀ v p c r, Ev (k v p c r) fun m => k' m v p c r) (l : List (Repair τ α)) :
    Ev (contReps ins k merge l) fun m => Reparsec.contReps ins (k' m) merge l := by
  induction l with
  | nil => exact .pure _
  | cons r rs ih => exact (hk _ _ _ _).bind fun _ => ih.bind fun _ => .pure _

theorem ev_continueParse {ra : Recovered τ α} {ins : Int}
    {k : α → Nat → Ctx τ → Int → Act σ (Result τ β)}
    {k' : Nat → α → Nat → Ctx τ → Int → Out (Result τ β)} {merge : α → β → γ}
    (hk : ∀ v p c r, Ev (k v p c r) fun m => k' m v p c r) :
    Ev (continueParse ra ins k merge) fun m => Reparsec.continueParse ra ins (k' m) merge :=
  (ev_contReps hk _).bind fun _ => .pure _

/-- The same for code that gives a parser. -/
def EvParser (x : Act σ (ParseFns σ τ β)) (g : Nat → Reparsec.ParseFns τ β) : Prop :=
  (∀ s pos ctx, Ev (do let h ← x; h.fast s pos ctx) fun m => (g m).fast s pos ctx) ∧
  (∀ s pos ctx ins rem,
    Ev (do let h ← x; h.fn s pos ctx ins rem) fun m => (g m).fn s pos ctx ins rem)

theorem Ev.congr {x y : Act σ α} {f g : Nat → Out α} (h : Ev x f) (hx : ∀ w, y w = x w)
    (hf : ∀ m, g m = f m) : Ev y g := by
  have : g = f := funext hf
  subst this
  intro w
  rw [hx]
  exact h w

theorem ev_bind {f : ParseFns σ τ α} {g : Nat → Reparsec.ParseFns τ α} (hf : EvFns f g)
    {k : α → Act σ (ParseFns σ τ β)} {k' : Nat → α → Reparsec.ParseFns τ β}
    (hk : ∀ a, EvParser (k a) fun m => k' m a) :
    EvFns (bindFns f k) fun m => Reparsec.bindFns (g m) (k' m) := by
  constructor
  · intro s pos ctx
    refine (hf.fast _ _ _).bind fun r => ?_
    cases r with
    | error e => exact .pure _
    | ok r =>
      have := ((hk r.value).1 s r.pos r.ctx).bind
        (k := fun rb => Pure.pure (rb.prependExpected r.expected r.consumed))
        (g := fun _ rb => .ret (rb.prependExpected r.expected r.consumed)) fun _ => .pure _
      refine this.congr (fun w => ?_) fun m => rfl
      simp [Run.bind_assoc] <;> rfl
  · intro s pos ctx ins rem
    refine (hf.fn _ _ _ _ _).bind fun r => ?_
    cases r with
    | error e => exact .pure _
    | recovered r =>
      exact ev_continueParse fun v p c r => (hk v).2 s p c ins (some r)
    | ok r =>
      have := ((hk r.value).2 s r.pos r.ctx ins (if r.consumed then some ins else rem)).bind
        (k := fun rb => Pure.pure (rb.prependExpected r.expected r.consumed))
        (g := fun _ rb => .ret (rb.prependExpected r.expected r.consumed)) fun _ => .pure _
      refine this.congr (fun w => ?_) fun m => ?_
      · simp [Run.bind_assoc] <;> rfl
      · dsimp only; split <;> rfl

theorem ev_seq {f : ParseFns σ τ α} {g : Nat → Reparsec.ParseFns τ α} (hf : EvFns f g)
    {f' : ParseFns σ τ β} {g' : Nat → Reparsec.ParseFns τ β} (hf' : EvFns f' g')
    (merge : α → β → γ) :
    EvFns (seqFns f f' merge) fun m => Reparsec.seqFns (g m) (g' m) merge := by
  constructor
  · intro s pos ctx
    refine (hf.fast _ _ _).bind fun r => ?_
    cases r with
    | error e => exact .pure _
    | ok r => exact (hf'.fast _ _ _).bind fun _ => .pure _
  · intro s pos ctx ins rem
    refine (hf.fn _ _ _ _ _).bind fun r => ?_
    cases r with
    | error e => exact .pure _
    | ok r => exact (hf'.fn _ _ _ _ _).bind fun _ => .pure _
    | recovered r => exact ev_continueParse fun v p c r => hf'.fn _ _ _ _ _

theorem ev_maybe {f : ParseFns σ τ α} {g : Nat → Reparsec.ParseFns τ α} (hf : EvFns f g) :
    EvFns (maybeFns f) fun m => Reparsec.maybeFns (g m) := by
  constructor
  · intro s pos ctx
    refine (hf.fast _ _ _).bind fun r => ?_
    cases r with
    | ok r => exact .pure _
    | error e => exact .ite (.pure _) (.pure _)
  · intro s pos ctx ins rem
    refine (hf.fn _ _ _ _ _).bind fun r => ?_
    cases r with
    | ok r => exact .pure _
    | error e => exact .ite (.pure _) (.pure _)
    | recovered e => exact .ite (.pure _) (.pure _)

theorem ev_manyFastLoop {f : FastFn σ τ α} {g : Nat → Reparsec.FastFn τ α}
    (hf : ∀ s pos ctx, Ev (f s pos ctx) fun m => g m s pos ctx) (s : List τ) (n : Nat)
    (h : Nat → Nat) (hh : ∃ N, ∀ m, N ≤ m → n ≤ h m) (pos ctx c v) :
    Ev (manyFastLoop f s n pos ctx c v)
      fun m => Reparsec.manyFastLoop (g m) s (h m) pos ctx c v := by
  induction n generalizing h pos ctx c v with
  | zero => exact .diverge
  | succ n ih =>
    obtain ⟨N, hN⟩ := hh
    refine Ev.of_ev (g := fun m => Reparsec.manyFastLoop (g m) s ((h m - 1) + 1) pos ctx c v) ?_
      ⟨N, fun m hm => by have := hN m hm; rw [show h m - 1 + 1 = h m by omega]⟩
    refine (hf _ _ _).bind fun r => ?_
    cases r with
    | ok r =>
      exact .ite (ih (fun m => h m - 1) ⟨N, fun m hm => by have := hN m hm; omega⟩ _ _ _ _)
        (.raise _)
    | error e => exact .ite (.pure _) (.pure _)

theorem ev_manyLoop {f : Fn σ τ α} {g : Nat → Reparsec.Fn τ α}
    (hf : ∀ s pos ctx ins rem, Ev (f s pos ctx ins rem) fun m => g m s pos ctx ins rem)
    (s : List τ) (ins : Int) (n : Nat)
    (h : Nat → Nat) (hh : ∃ N, ∀ m, N ≤ m → n ≤ h m) (pos ctx c v) :
    Ev (manyLoop f s ins n pos ctx c v)
      fun m => Reparsec.manyLoop (g m) s ins (h m) pos ctx c v := by
  induction n generalizing h pos ctx c v with
  | zero => exact .diverge
  | succ n ih =>
    obtain ⟨N, hN⟩ := hh
    have hh' : ∃ N, ∀ m, N ≤ m → n ≤ h m - 1 := ⟨N, fun m hm => by have := hN m hm; omega⟩
    refine Ev.of_ev (g := fun m => Reparsec.manyLoop (g m) s ins ((h m - 1) + 1) pos ctx c v) ?_
      ⟨N, fun m hm => by have := hN m hm; rw [show h m - 1 + 1 = h m by omega]⟩
    refine (hf _ _ _ _ _).bind fun r => ?_
    cases r with
    | ok r => exact .ite (ih (fun m => h m - 1) hh' _ _ _ _) (.raise _)
    | error e => exact .ite (.pure _) (.pure _)
    | recovered r => exact ev_continueParse fun _ _ _ _ => ih (fun m => h m - 1) hh' _ _ _ _

theorem ev_many {f : ParseFns σ τ α} {g : Nat → Reparsec.ParseFns τ α} (hf : EvFns f g) (n : Nat) :
    EvFns (manyFns n f) fun m => Reparsec.manyFns m (g m) :=
  ⟨fun s _ _ => ev_manyFastLoop hf.fast s n (fun m => m) ⟨n, fun _ h => h⟩ _ _ _ _,
   fun s _ _ ins _ => ev_manyLoop hf.fn s ins n (fun m => m) ⟨n, fun _ h => h⟩ _ _ _ _⟩

theorem ev_attempt {f : ParseFns σ τ α} {g : Nat → Reparsec.ParseFns τ α} (hf : EvFns f g) :
    EvFns (attemptFns f) fun m => Reparsec.attemptFns (g m) := by
  constructor
  · intro s pos ctx
    refine (hf.fast _ _ _).bind fun r => ?_
    cases r <;> exact .pure _
  · intro s pos ctx ins rem
    cases rem with
    | some rem => exact hf.fn _ _ _ _ _
    | none =>
      refine (hf.fast _ _ _).bind fun r => ?_
      cases r <;> exact .pure _

theorem ev_label {f : ParseFns σ τ α} {g : Nat → Reparsec.ParseFns τ α} (hf : EvFns f g)
    (x : String) : EvFns (labelFns f x) fun m => Reparsec.labelFns (g m) x :=
  ⟨fun _ _ _ => (hf.fast _ _ _).bind fun _ => .pure _,
   fun _ _ _ _ _ => (hf.fn _ _ _ _ _).bind fun _ => .pure _⟩

theorem ev_recover {f : ParseFns σ τ α} {g : Nat → Reparsec.ParseFns τ α} (hf : EvFns f g) :
    EvFns (recoverFns f) fun m => Reparsec.recoverFns (g m) := by
  refine ⟨hf.fast, fun s pos ctx ins rem => ?_⟩
  refine (hf.fn _ _ _ _ _).bind fun r => ?_
  cases r <;> exact .pure _

theorem ev_recoverWith {f : ParseFns σ τ α} {g : Nat → Reparsec.ParseFns τ α} (hf : EvFns f g)
    (x : α) (vs : String) :
    EvFns (recoverWithFns f x vs) fun m => Reparsec.recoverWithFns (g m) x vs := by
  refine ⟨hf.fast, fun s pos ctx ins rem => ?_⟩
  cases rem with
  | none => exact hf.fn _ _ _ _ _
  | some rem =>
    refine (hf.fn _ _ _ _ _).bind fun r => ?_
    cases r with
    | ok r => exact .pure _
    | error e => exact .ite (.pure _) (.ite (.pure _) (.pure _))
    | recovered e => exact .ite (.pure _) (.ite (.pure _) (.pure _))

theorem ev_recoverWithFn {f : ParseFns σ τ α} {g : Nat → Reparsec.ParseFns τ α} (hf : EvFns f g)
    {c : Callback σ (List τ × Nat) α} (h : Steady c) (st : σ) (lbl : α → String) :
    EvFns (recoverWithFnFns f c lbl)
      fun m => Reparsec.recoverWithFnFns (g m) (fun s i => plainFn st c (s, i)) lbl := by
  refine ⟨hf.fast, fun s pos ctx ins rem => ?_⟩
  cases rem with
  | none => exact hf.fn _ _ _ _ _
  | some rem =>
    refine (hf.fn _ _ _ _ _).bind fun r => ?_
    cases r with
    | ok r => exact .pure _
    | error e =>
      exact .ite (.pure _) (.ite ((Ev.call h st _).bind fun _ => .pure _) (.pure _))
    | recovered e =>
      exact .ite (.pure _) (.ite ((Ev.call h st _).bind fun _ => .pure _) (.pure _))

theorem ev_block {f : ParseFns σ τ α} {g : Nat → Reparsec.ParseFns τ α} (hf : EvFns f g) :
    EvFns (blockFns f) fun m => Reparsec.blockFns (g m) :=
  ⟨fun _ _ _ => (hf.fast _ _ _).bind fun _ => .pure _,
   fun _ _ _ _ _ => (hf.fn _ _ _ _ _).bind fun _ => .pure _⟩

theorem ev_aligned {f : ParseFns σ τ α} {g : Nat → Reparsec.ParseFns τ α} (hf : EvFns f g) :
    EvFns (alignedFns f) fun m => Reparsec.alignedFns (g m) :=
  ⟨fun _ _ _ => .ite (hf.fast _ _ _) (.pure _),
   fun _ _ _ _ _ => .ite (hf.fn _ _ _ _ _) (.pure _)⟩

theorem ev_indented {f : ParseFns σ τ α} {g : Nat → Reparsec.ParseFns τ α} (hf : EvFns f g)
    (d : Int) : EvFns (indentedFns d f) fun m => Reparsec.indentedFns d (g m) :=
  ⟨fun _ _ _ => .ite ((hf.fast _ _ _).bind fun _ => .pure _) (.pure _),
   fun _ _ _ _ _ => .ite ((hf.fn _ _ _ _ _).bind fun _ => .pure _) (.pure _)⟩

end Reparsec.Eff
