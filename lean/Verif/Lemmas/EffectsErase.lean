import Verif.Lemmas.EffectsMono
import Verif.Spec.Effects

/-!
# Callbacks whose results do not depend on the state
-/

namespace Reparsec

variable {σ : Type}

/-- Forget the world. -/
def Run.out {α : Type} : Run σ α → Out α
  | .diverge => .diverge
  | .raise e _ => .raise e
  | .ret a _ => .ret a

namespace Eff

variable {τ α β γ : Type}

/-- In every world the code does `o`. -/
def Does (x : Act σ α) (o : Out α) : Prop := ∀ w, (x w).out = o

theorem Does.bind {x : Act σ α} {o : Out α} {f : α → Act σ β} {g : α → Out β} (h : Does x o)
    (hf : ∀ a, Does (f a) (g a)) : Does (x >>= f) (o.bind g) := by
  intro w
  have := h w
  simp only [Act.bind_apply]
  cases hx : x w with
  | diverge => rw [hx] at this; subst this; rfl
  | raise e w' => rw [hx] at this; subst this; rfl
  | ret a w' => rw [hx] at this; subst this; exact hf a w'

theorem Does.pure (a : α) : Does (Pure.pure a : Act σ α) (.ret a) := fun _ => rfl
theorem Does.raise (e : Exn) : Does (Act.raise e : Act σ α) (.raise e) := fun _ => rfl
theorem Does.diverge : Does (Act.diverge : Act σ α) .diverge := fun _ => rfl
theorem Does.lift (x : Out α) : Does (liftOut x : Act σ α) x := fun _ => by cases x <;> rfl

theorem Does.call {c : Callback σ α β} (h : Steady c) (st : σ) (a : α) :
    Does (c.call a) (Out.ofExcept (plainFn st c a)) := by
  intro w
  have := h a w.state st
  simp only [Callback.call, plainFn]
  rw [← this]
  cases (c.run a w.state).1 <;> rfl

theorem Does.ite {c : Prop} [Decidable c] {x y : Act σ α} {o o' : Out α} (hx : Does x o)
    (hy : Does y o') : Does (if c then x else y) (if c then o else o') := by
  split <;> assumption

/-- The functions do what the pure ones do. -/
structure DoesFns (f : ParseFns σ τ α) (g : Reparsec.ParseFns τ α) : Prop where
  fast : ∀ s pos ctx, Does (f.fast s pos ctx) (g.fast s pos ctx)
  fn : ∀ s pos ctx ins rem, Does (f.fn s pos ctx ins rem) (g.fn s pos ctx ins rem)

theorem does_lift (f : Reparsec.ParseFns τ α) : DoesFns (lift f : ParseFns σ τ α) f :=
  ⟨fun _ _ _ => .lift _, fun _ _ _ _ _ => .lift _⟩

theorem does_pureFn {c : Callback σ Unit α} (h : Steady c) (st : σ) :
    DoesFns (pureFnFns c : ParseFns σ τ α) (Reparsec.pureFnFns (plainFn st c ())) :=
  ⟨fun _ _ _ => (Does.call h st ()).bind fun _ => .pure _,
   fun _ _ _ _ _ => (Does.call h st ()).bind fun _ => .pure _⟩

theorem does_testAt {c : Callback σ τ Bool} (h : Steady c) (st : σ) (s : List τ) (pos : Nat) :
    Does (testAt c s pos) (Out.ofExcept (Reparsec.testAt (plainFn st c) s pos)) := by
  unfold testAt Reparsec.testAt
  cases s[pos]? with
  | none => exact .pure _
  | some t =>
    have := (Does.call h st t).bind (f := fun b => Pure.pure (if b then some t else none))
      (g := fun b => .ret (if b then some t else none)) fun b => .pure _
    refine fun w => (this w).trans ?_
    dsimp only
    cases plainFn st c t with
    | error e => rfl
    | ok b => cases b <;> rfl

theorem does_scan {c : Callback σ τ Bool} (h : Steady c) (st : σ) (s : List τ) (k cur : Nat) :
    Does (scanTest c s k cur) (Out.ofExcept (scan (Reparsec.testAt (plainFn st c) s) k cur)) := by
  induction k generalizing cur with
  | zero => exact .pure _
  | succ k ih =>
    have := (does_testAt h st s cur).bind
      (f := fun r => match r with
        | some t => Pure.pure (some (cur, t))
        | none => scanTest c s k (cur + 1))
      (g := fun r => match r with
        | some t => .ret (some (cur, t))
        | none => Out.ofExcept (scan (Reparsec.testAt (plainFn st c) s) k (cur + 1)))
      (by rintro (_ | t)
          · exact ih _
          · exact .pure _)
    refine fun w => (this w).trans ?_
    simp only [scan]
    cases Reparsec.testAt (plainFn st c) s cur with
    | error e => rfl
    | ok b => cases b <;> rfl

theorem does_satisfy {c : Callback σ τ Bool} (h : Steady c) (st : σ) :
    DoesFns (satisfyFns c) (Reparsec.satisfyFns (plainFn st c)) := by
  constructor
  · intro s pos ctx
    refine (does_testAt h st s pos).bind fun r => ?_
    cases r <;> exact .pure _
  · intro s pos ctx ins rem
    refine (does_testAt h st s pos).bind fun r => ?_
    cases r with
    | some t => exact .pure _
    | none =>
      cases rem with
      | none => exact .pure _
      | some rem =>
        refine (does_scan h st s _ _).bind fun r => ?_
        cases r <;> exact .pure _

theorem does_repairsFmap {c : Callback σ α β} (h : Steady c) (st : σ) (l : List (Repair τ α)) :
    Does (repairsFmap c l) (repairsFmapM (plainFn st c) l) := by
  induction l with
  | nil => exact .pure _
  | cons r rs ih =>
    simp only [repairsFmapM, Repair.fmapM, Out.bind_def, Out.bind_assoc, Out.pure_def, Out.bind_ret]
    exact (Does.call h st _).bind fun _ => ih.bind fun _ => .pure _

theorem does_fmap {f : ParseFns σ τ α} {g : Reparsec.ParseFns τ α} (hf : DoesFns f g)
    {c : Callback σ α β} (h : Steady c) (st : σ) :
    DoesFns (fmapFns f c) (Reparsec.fmapFns g (plainFn st c)) := by
  constructor
  · intro s pos ctx
    refine (hf.fast s pos ctx).bind fun r => ?_
    cases r with
    | ok r =>
      simp only [Simple.fmapM, Ok.fmapM, Out.bind_def, Out.bind_assoc, Out.pure_def,
        Out.bind_ret]
      exact (Does.call h st _).bind fun _ => .pure _
    | error e => exact .pure _
  · intro s pos ctx ins rem
    refine (hf.fn s pos ctx ins rem).bind fun r => ?_
    cases r with
    | ok r =>
      simp only [Result.fmapM, Ok.fmapM, Out.bind_def, Out.bind_assoc, Out.pure_def,
        Out.bind_ret]
      exact (Does.call h st _).bind fun _ => .pure _
    | error e => exact .pure _
    | recovered r => exact (does_repairsFmap h st _).bind fun _ => .pure _

theorem does_altRecover {f f' : ParseFns σ τ α} {g g' : Reparsec.ParseFns τ α} (hf : DoesFns f g)
    (hf' : DoesFns f' g') (s pos ctx ins rem loc ex) :
    Does (altRecover f f' s pos ctx ins rem loc ex)
      (Reparsec.altRecover g g' s pos ctx ins rem loc ex) := by
  cases rem with
  | none => exact .pure _
  | some rem =>
    refine (hf.fn _ _ _ _ _).bind fun a => (hf'.fn _ _ _ _ _).bind fun b => ?_
    cases a <;> cases b <;> exact .pure _

theorem does_altSecond {f f' : ParseFns σ τ α} {g g' : Reparsec.ParseFns τ α} (hf : DoesFns f g)
    (hf' : DoesFns f' g') (s pos ctx ins rem loc ex) :
    Does (altSecond f f' s pos ctx ins rem loc ex)
      (Reparsec.altSecond g g' s pos ctx ins rem loc ex) := by
  refine (hf'.fn _ _ _ _ _).bind fun b => ?_
  cases b with
  | ok r => exact .ite (.pure _) (.pure _)
  | error e => exact .ite (.pure _) (does_altRecover hf hf' _ _ _ _ _ _ _)
  | recovered e => exact .ite (.pure _) (does_altRecover hf hf' _ _ _ _ _ _ _)

theorem does_alt {f f' : ParseFns σ τ α} {g g' : Reparsec.ParseFns τ α} (hf : DoesFns f g)
    (hf' : DoesFns f' g') : DoesFns (altFns f f') (Reparsec.altFns g g') := by
  constructor
  · intro s pos ctx
    refine (hf.fast _ _ _).bind fun r => ?_
    cases r with
    | ok r => exact .pure _
    | error e =>
      refine .ite (.pure _) ((hf'.fast _ _ _).bind fun r => ?_)
      cases r with
      | ok r => exact .ite (.pure _) (.pure _)
      | error e => exact .ite (.pure _) (.pure _)
  · intro s pos ctx ins rem
    refine (hf.fn _ _ _ _ _).bind fun r => ?_
    cases r with
    | ok r => exact .pure _
    | error e => exact .ite (.pure _) (does_altSecond hf hf' _ _ _ _ _ _ _)
    | recovered e => exact .ite (.pure _) (does_altSecond hf hf' _ _ _ _ _ _ _)

theorem does_contReps {ins : Int} {k : α → Nat → Ctx τ → Int → Act σ (Result τ β)}
    {k' : α → Nat → Ctx τ → Int → Out (Result τ β)} {merge : α → β → γ}
    (hk : ∀ v p c r, Does (k v p c r) (k' v p c r)) (l : List (Repair τ α)) :
    Does (contReps ins k merge l) (Reparsec.contReps ins k' merge l) := by
  induction l with
  | nil => exact .pure _
  | cons r rs ih => exact (hk _ _ _ _).bind fun _ => ih.bind fun _ => .pure _

theorem does_continueParse {ra : Recovered τ α} {ins : Int}
    {k : α → Nat → Ctx τ → Int → Act σ (Result τ β)}
    {k' : α → Nat → Ctx τ → Int → Out (Result τ β)} {merge : α → β → γ}
    (hk : ∀ v p c r, Does (k v p c r) (k' v p c r)) :
    Does (continueParse ra ins k merge) (Reparsec.continueParse ra ins k' merge) :=
  (does_contReps hk _).bind fun _ => .pure _

/-- The code gives a parser that does what `g` does, or it raises and so does `g`. -/
def DoesParser (x : Act σ (ParseFns σ τ β)) (g : Reparsec.ParseFns τ β) : Prop :=
  (∀ s pos ctx, Does (do let h ← x; h.fast s pos ctx) (g.fast s pos ctx)) ∧
  (∀ s pos ctx ins rem, Does (do let h ← x; h.fn s pos ctx ins rem) (g.fn s pos ctx ins rem))

theorem does_bind {f : ParseFns σ τ α} {g : Reparsec.ParseFns τ α} (hf : DoesFns f g)
    {k : α → Act σ (ParseFns σ τ β)} {k' : α → Reparsec.ParseFns τ β}
    (hk : ∀ a, DoesParser (k a) (k' a)) : DoesFns (bindFns f k) (Reparsec.bindFns g k') := by
  constructor
  · intro s pos ctx
    refine (hf.fast _ _ _).bind fun r => ?_
    cases r with
    | error e => exact .pure _
    | ok r =>
      have := ((hk r.value).1 s r.pos r.ctx).bind
        (f := fun rb => Pure.pure (rb.prependExpected r.expected r.consumed))
        (g := fun rb => .ret (rb.prependExpected r.expected r.consumed)) fun _ => .pure _
      refine fun w => Eq.trans ?_ (this w)
      simp [Run.bind_assoc] <;> rfl
  · intro s pos ctx ins rem
    refine (hf.fn _ _ _ _ _).bind fun r => ?_
    cases r with
    | error e => exact .pure _
    | recovered r =>
      exact does_continueParse fun v p c r => (hk v).2 s p c ins (some r)
    | ok r =>
      have := ((hk r.value).2 s r.pos r.ctx ins (if r.consumed then some ins else rem)).bind
        (f := fun rb => Pure.pure (rb.prependExpected r.expected r.consumed))
        (g := fun rb => .ret (rb.prependExpected r.expected r.consumed)) fun _ => .pure _
      refine fun w => Eq.trans ?_ ((this w).trans ?_)
      · simp [Run.bind_assoc] <;> rfl
      · dsimp only; split <;> rfl

theorem does_call {ι : Type} {c : Callback σ α ι} (h : Steady c) (st : σ) (a : α)
    {k : ι → ParseFns σ τ β} {k' : ι → Reparsec.ParseFns τ β} (hk : ∀ i, DoesFns (k i) (k' i)) :
    DoesParser (do let i ← c.call a; return k i)
      (match plainFn st c a with
        | .ok i => k' i
        | .error e => Reparsec.pureFnFns (.error e)) := by
  constructor
  · intro s pos ctx
    have := (Does.call h st a).bind (fun i => (hk i).fast s pos ctx)
    refine fun w => Eq.trans ?_ ((this w).trans ?_)
    · simp [Run.bind_assoc] <;> rfl
    · cases plainFn st c a <;> rfl
  · intro s pos ctx ins rem
    have := (Does.call h st a).bind (fun i => (hk i).fn s pos ctx ins rem)
    refine fun w => Eq.trans ?_ ((this w).trans ?_)
    · simp [Run.bind_assoc] <;> rfl
    · cases plainFn st c a <;> rfl

theorem does_seq {f : ParseFns σ τ α} {g : Reparsec.ParseFns τ α} (hf : DoesFns f g)
    {f' : ParseFns σ τ β} {g' : Reparsec.ParseFns τ β} (hf' : DoesFns f' g') (merge : α → β → γ) :
    DoesFns (seqFns f f' merge) (Reparsec.seqFns g g' merge) := by
  constructor
  · intro s pos ctx
    refine (hf.fast _ _ _).bind fun r => ?_
    cases r with
    | error e => exact .pure _
    | ok r => exact (hf'.fast _ _ _).bind fun _ => .pure _
  · intro s pos ctx ins rem
    refine (hf.fn _ _ _ _ _).bind fun r => ?_
    cases r with
    | error e => exact .pure _
    | ok r => exact (hf'.fn _ _ _ _ _).bind fun _ => .pure _
    | recovered r => exact does_continueParse fun v p c r => hf'.fn _ _ _ _ _

theorem does_maybe {f : ParseFns σ τ α} {g : Reparsec.ParseFns τ α} (hf : DoesFns f g) :
    DoesFns (maybeFns f) (Reparsec.maybeFns g) := by
  constructor
  · intro s pos ctx
    refine (hf.fast _ _ _).bind fun r => ?_
    cases r with
    | ok r => exact .pure _
    | error e => exact .ite (.pure _) (.pure _)
  · intro s pos ctx ins rem
    refine (hf.fn _ _ _ _ _).bind fun r => ?_
    cases r with
    | ok r => exact .pure _
    | error e => exact .ite (.pure _) (.pure _)
    | recovered e => exact .ite (.pure _) (.pure _)

theorem does_manyFastLoop {f : FastFn σ τ α} {g : Reparsec.FastFn τ α}
    (hf : ∀ s pos ctx, Does (f s pos ctx) (g s pos ctx)) (s : List τ) (n pos ctx c v) :
    Does (manyFastLoop f s n pos ctx c v) (Reparsec.manyFastLoop g s n pos ctx c v) := by
  induction n generalizing pos ctx c v with
  | zero => exact .diverge
  | succ n ih =>
    refine (hf _ _ _).bind fun r => ?_
    cases r with
    | ok r => exact .ite (ih _ _ _ _) (.raise _)
    | error e => exact .ite (.pure _) (.pure _)

theorem does_manyLoop {f : Fn σ τ α} {g : Reparsec.Fn τ α}
    (hf : ∀ s pos ctx ins rem, Does (f s pos ctx ins rem) (g s pos ctx ins rem)) (s : List τ)
    (ins : Int) (n pos ctx c v) :
    Does (manyLoop f s ins n pos ctx c v) (Reparsec.manyLoop g s ins n pos ctx c v) := by
  induction n generalizing pos ctx c v with
  | zero => exact .diverge
  | succ n ih =>
    refine (hf _ _ _ _ _).bind fun r => ?_
    cases r with
    | ok r => exact .ite (ih _ _ _ _) (.raise _)
    | error e => exact .ite (.pure _) (.pure _)
    | recovered r => exact does_continueParse fun _ _ _ _ => ih _ _ _ _

theorem does_many {f : ParseFns σ τ α} {g : Reparsec.ParseFns τ α} (hf : DoesFns f g) (n : Nat) :
    DoesFns (manyFns n f) (Reparsec.manyFns n g) :=
  ⟨fun _ _ _ => does_manyFastLoop hf.fast _ _ _ _ _ _,
   fun _ _ _ _ _ => does_manyLoop hf.fn _ _ _ _ _ _ _⟩

theorem does_attempt {f : ParseFns σ τ α} {g : Reparsec.ParseFns τ α} (hf : DoesFns f g) :
    DoesFns (attemptFns f) (Reparsec.attemptFns g) := by
  constructor
  · intro s pos ctx
    refine (hf.fast _ _ _).bind fun r => ?_
    cases r <;> exact .pure _
  · intro s pos ctx ins rem
    cases rem with
    | some rem => exact hf.fn _ _ _ _ _
    | none =>
      refine (hf.fast _ _ _).bind fun r => ?_
      cases r <;> exact .pure _

theorem does_label {f : ParseFns σ τ α} {g : Reparsec.ParseFns τ α} (hf : DoesFns f g)
    (x : String) : DoesFns (labelFns f x) (Reparsec.labelFns g x) :=
  ⟨fun _ _ _ => (hf.fast _ _ _).bind fun _ => .pure _,
   fun _ _ _ _ _ => (hf.fn _ _ _ _ _).bind fun _ => .pure _⟩

theorem does_recover {f : ParseFns σ τ α} {g : Reparsec.ParseFns τ α} (hf : DoesFns f g) :
    DoesFns (recoverFns f) (Reparsec.recoverFns g) := by
  refine ⟨hf.fast, fun s pos ctx ins rem => ?_⟩
  refine (hf.fn _ _ _ _ _).bind fun r => ?_
  cases r <;> exact .pure _

theorem does_recoverWith {f : ParseFns σ τ α} {g : Reparsec.ParseFns τ α} (hf : DoesFns f g)
    (x : α) (vs : String) : DoesFns (recoverWithFns f x vs) (Reparsec.recoverWithFns g x vs) := by
  refine ⟨hf.fast, fun s pos ctx ins rem => ?_⟩
  cases rem with
  | none => exact hf.fn _ _ _ _ _
  | some rem =>
    refine (hf.fn _ _ _ _ _).bind fun r => ?_
    cases r with
    | ok r => exact .pure _
    | error e => exact .ite (.pure _) (.ite (.pure _) (.pure _))
    | recovered e => exact .ite (.pure _) (.ite (.pure _) (.pure _))

theorem does_recoverWithFn {f : ParseFns σ τ α} {g : Reparsec.ParseFns τ α} (hf : DoesFns f g)
    {c : Callback σ (List τ × Nat) α} (h : Steady c) (st : σ) (lbl : α → String) :
    DoesFns (recoverWithFnFns f c lbl)
      (Reparsec.recoverWithFnFns g (fun s i => plainFn st c (s, i)) lbl) := by
  refine ⟨hf.fast, fun s pos ctx ins rem => ?_⟩
  cases rem with
  | none => exact hf.fn _ _ _ _ _
  | some rem =>
    refine (hf.fn _ _ _ _ _).bind fun r => ?_
    cases r with
    | ok r => exact .pure _
    | error e =>
      exact .ite (.pure _) (.ite ((Does.call h st _).bind fun _ => .pure _) (.pure _))
    | recovered e =>
      exact .ite (.pure _) (.ite ((Does.call h st _).bind fun _ => .pure _) (.pure _))

theorem does_block {f : ParseFns σ τ α} {g : Reparsec.ParseFns τ α} (hf : DoesFns f g) :
    DoesFns (blockFns f) (Reparsec.blockFns g) :=
  ⟨fun _ _ _ => (hf.fast _ _ _).bind fun _ => .pure _,
   fun _ _ _ _ _ => (hf.fn _ _ _ _ _).bind fun _ => .pure _⟩

theorem does_aligned {f : ParseFns σ τ α} {g : Reparsec.ParseFns τ α} (hf : DoesFns f g) :
    DoesFns (alignedFns f) (Reparsec.alignedFns g) :=
  ⟨fun _ _ _ => .ite (hf.fast _ _ _) (.pure _),
   fun _ _ _ _ _ => .ite (hf.fn _ _ _ _ _) (.pure _)⟩

theorem does_indented {f : ParseFns σ τ α} {g : Reparsec.ParseFns τ α} (hf : DoesFns f g)
    (d : Int) : DoesFns (indentedFns d f) (Reparsec.indentedFns d g) :=
  ⟨fun _ _ _ => .ite ((hf.fast _ _ _).bind fun _ => .pure _) (.pure _),
   fun _ _ _ _ _ => .ite ((hf.fn _ _ _ _ _).bind fun _ => .pure _) (.pure _)⟩

variable {ρ : Type} {Γ : ρ → Type} [BEq τ]

theorem does_denoteWith (st : σ) (n : Nat) {t : (i : ρ) → ParseFns σ τ (Γ i)}
    {t' : (i : ρ) → Reparsec.ParseFns τ (Γ i)} (ht : ∀ i, DoesFns (t i) (t' i))
    {p : P σ τ ρ Γ α} (h : AllSteady p) :
    DoesFns (denoteWith n t p) (Reparsec.denoteWith n t' (erase st p)) := by
  induction h with
  | pure | unexpected | eof | sym | literal | regexp => exact does_lift _
  | pureFn h => exact does_pureFn h st
  | satisfy h => exact does_satisfy h st
  | fmap _ h ih => exact does_fmap ih h st
  | alt _ _ ih ih' => exact does_alt ih ih'
  | @bind _ _ _ p c k _ h _ ih ihk =>
    simp only [denoteWith, erase, Reparsec.denoteWith]
    refine does_bind ih fun a => ?_
    have := does_call h st a ihk
    cases hc : plainFn st c a with
    | ok i => rw [hc] at this; exact this
    | error e => rw [hc] at this; exact this
  | seqWith _ _ ih ih' => exact does_seq ih ih' _
  | maybe _ ih => exact does_maybe ih
  | many _ ih => exact does_many ih n
  | attempt _ ih => exact does_attempt ih
  | label _ ih => exact does_label ih _
  | recover _ ih => exact does_recover ih
  | recoverWith _ ih => exact does_recoverWith ih _ _
  | recoverWithFn _ h ih => exact does_recoverWithFn ih h st _
  | block _ ih => exact does_block ih
  | aligned _ ih => exact does_aligned ih
  | indented _ ih => exact does_indented ih _
  | ref => exact ht _

theorem does_table (st : σ) {env : Env σ τ ρ Γ} (he : EnvSteady env) (n : Nat) (i : ρ) :
    DoesFns (table env n i) (Reparsec.table (eraseEnv st env) n i) := by
  induction n generalizing i with
  | zero => exact ⟨fun _ _ _ => .diverge, fun _ _ _ _ _ => .diverge⟩
  | succ n ih =>
    simp only [table, Reparsec.table, eraseEnv]
    cases hi : env i with
    | none => exact ⟨fun _ _ _ => .raise _, fun _ _ _ _ _ => .raise _⟩
    | some p => exact does_denoteWith st n ih (he i p hi)

theorem does_denote (st : σ) {env : Env σ τ ρ Γ} (he : EnvSteady env) (n : Nat)
    {p : P σ τ ρ Γ α} (h : AllSteady p) :
    DoesFns (denote env n p) (Reparsec.denote (eraseEnv st env) n (erase st p)) :=
  does_denoteWith st n (does_table st he n) h

theorem does_parse (st : σ) {env : Env σ τ ρ Γ} (he : EnvSteady env) (n : Nat)
    {p : P σ τ ρ Γ α} (h : AllSteady p) (s : List τ) (b : Bool) (k : Int)
    (gl : Loc → List τ → Nat → Loc) :
    Does (parse env n p s b k gl)
      (Reparsec.parse (eraseEnv st env) n (erase st p) s b k gl) := by
  unfold parse Reparsec.parse
  exact .ite ((does_denote st he n h).fn _ _ _ _ _)
    (((does_denote st he n h).fast _ _ _).bind fun _ => .pure _)

end Eff

end Reparsec
