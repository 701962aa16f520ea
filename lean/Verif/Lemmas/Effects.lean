import Verif.Model.Effects
import Verif.Lemmas.Sim

/-!
# Callbacks with side effects: the plain and the recovering function of every parser

The simulation of `Lemmas/Sim` for callbacks with side effects: as long as no error has been found
both functions call the same callbacks in the same order; after the first error the recovering
function only adds calls.
-/

namespace Reparsec

variable {σ : Type}

namespace Act

variable {α β : Type}

@[simp] theorem bind_apply (x : Act σ α) (f : α → Act σ β) (w : World σ) :
    (x >>= f) w = (x w).bind f := rfl
@[simp] theorem pure_apply (a : α) (w : World σ) : (pure a : Act σ α) w = .ret a w := rfl
@[simp] theorem raise_apply (e : Exn) (w : World σ) : (Act.raise e : Act σ α) w = .raise e w := rfl
@[simp] theorem diverge_apply (w : World σ) : (Act.diverge : Act σ α) w = .diverge := rfl
@[simp] theorem ite_apply (c : Prop) [Decidable c] (x y : Act σ α) (w : World σ) :
    (if c then x else y) w = if c then x w else y w := by split <;> rfl

end Act

namespace Run

variable {α β γ : Type}

@[simp] theorem bind_diverge (f : α → Act σ β) : (diverge : Run σ α).bind f = .diverge := rfl
@[simp] theorem bind_raise (e : Exn) (w : World σ) (f : α → Act σ β) :
    (raise e w : Run σ α).bind f = .raise e w := rfl
@[simp] theorem bind_ret (a : α) (w : World σ) (f : α → Act σ β) :
    (ret a w).bind f = f a w := rfl

theorem bind_assoc (x : Run σ α) (f : α → Act σ β) (g : β → Act σ γ) :
    (x.bind f).bind g = x.bind fun a w => (f a w).bind g := by
  cases x <;> rfl

theorem bind_congr {x : Run σ α} {f g : α → Act σ β} (h : ∀ a w, f a w = g a w) :
    x.bind f = x.bind g := by
  cases x <;> simp [h]

theorem bind_eq_ret {x : Run σ α} {f : α → Act σ β} {b : β} {w : World σ} :
    x.bind f = .ret b w ↔ ∃ a w', x = .ret a w' ∧ f a w' = .ret b w := by
  cases x with
  | diverge => simp
  | raise => simp
  | ret a w' =>
    constructor
    · intro h; exact ⟨a, w', rfl, h⟩
    · rintro ⟨_, _, h, h'⟩; cases h; exact h'

/-- Unless it runs out of fuel, it ends in a world in which at least the calls recorded in `w` have
been made. -/
def After (w : World σ) : Run σ α → Prop
  | .diverge => True
  | .raise _ w' => w.calls <+: w'.calls
  | .ret _ w' => w.calls <+: w'.calls

theorem After.bind {w : World σ} {x : Run σ α} {f : α → Act σ β} (hx : x.After w)
    (hf : ∀ a w', w.calls <+: w'.calls → (f a w').After w) : (x.bind f).After w := by
  cases x with
  | diverge => trivial
  | raise e w' => exact hx
  | ret a w' => exact hf a w' hx

theorem After.trans {w w' : World σ} {x : Run σ α} (h : w.calls <+: w'.calls) (hx : x.After w') :
    x.After w := by
  cases x with
  | diverge => trivial
  | raise e w'' => exact h.trans hx
  | ret a w'' => exact h.trans hx

end Run

theorem Callback.call_after {α β : Type} (c : Callback σ α β) (a : α) (w : World σ) :
    (c.call a w).After w := by
  simp only [Callback.call]
  split <;> exact List.prefix_append _ _

namespace Eff

variable {τ α β γ : Type}

/-- Every run only adds to the record of calls. -/
def Grows (x : Act σ α) : Prop := ∀ w, (x w).After w

theorem Grows.bind {x : Act σ α} {f : α → Act σ β} (hx : Grows x) (hf : ∀ a, Grows (f a)) :
    Grows (x >>= f) := fun w => (hx w).bind fun a w' h => (hf a w').trans h

theorem Grows.pure (a : α) : Grows (pure a : Act σ α) := fun _ => List.prefix_rfl

theorem Grows.raise (e : Exn) : Grows (Act.raise e : Act σ α) := fun _ => List.prefix_rfl

theorem Grows.diverge : Grows (Act.diverge : Act σ α) := fun _ => trivial

theorem Grows.call {α β : Type} (c : Callback σ α β) (a : α) : Grows (c.call a) := c.call_after a

theorem Grows.liftOut (x : Out α) : Grows (liftOut x : Act σ α) := by
  intro w; cases x
  · trivial
  · exact List.prefix_rfl
  · exact List.prefix_rfl

theorem Grows.ite {c : Prop} [Decidable c] {x y : Act σ α} (hx : Grows x) (hy : Grows y) :
    Grows (if c then x else y) := by split <;> assumption

theorem contReps_grows {ins : Int} {k : α → Nat → Ctx τ → Int → Act σ (Result τ β)}
    {merge : α → β → γ} (hk : ∀ v p c r, Grows (k v p c r)) (l : List (Repair τ α)) :
    Grows (contReps ins k merge l) := by
  induction l with
  | nil => exact .pure _
  | cons r rs ih => exact (hk _ _ _ _).bind fun _ => ih.bind fun _ => .pure _

theorem continueParse_grows {ra : Recovered τ α} {ins : Int}
    {k : α → Nat → Ctx τ → Int → Act σ (Result τ β)} {merge : α → β → γ}
    (hk : ∀ v p c r, Grows (k v p c r)) : Grows (continueParse ra ins k merge) :=
  (contReps_grows hk _).bind fun _ => .pure _

theorem repairsFmap_grows (c : Callback σ α β) (l : List (Repair τ α)) :
    Grows (repairsFmap c l) := by
  induction l with
  | nil => exact .pure _
  | cons r rs ih => exact (Grows.call c _).bind fun _ => ih.bind fun _ => .pure _

theorem testAt_grows (test : Callback σ τ Bool) (s : List τ) (pos : Nat) :
    Grows (testAt test s pos) := by
  unfold testAt
  split
  · exact .pure _
  · exact (Grows.call test _).bind fun _ => .pure _

theorem scanTest_grows (test : Callback σ τ Bool) (s : List τ) (k cur : Nat) :
    Grows (scanTest test s k cur) := by
  induction k generalizing cur with
  | zero => exact .pure _
  | succ k ih =>
    refine (testAt_grows test s cur).bind fun r => ?_
    cases r with
    | some t => exact .pure _
    | none => exact ih _

/-- What the outcome of the plain function, run from some world, says about the recovering function
`F ins rem` run from the same world. -/
def SimOut : Run σ (Simple τ α) → (Int → Option Int → Run σ (Result τ α)) → Prop
  | .diverge, F => ∀ ins rem, F ins rem = .diverge
  | .raise e w, F => ∀ ins rem, F ins rem = .raise e w
  | .ret (.ok r) w, F => ∀ ins rem, F ins rem = .ret (.ok r) w
  | .ret (.error e) w, F =>
    (∀ ins rem r w', F ins rem ≠ .ret (.ok r) w') ∧
    (e.consumed = false → ∀ ins, F ins none = .ret (.error e) w) ∧
    (e.consumed = true → ∀ ins r w', F ins none = .ret r w' → r.consumed = true) ∧
    (∀ ins rem, (F ins rem).After w)

/-- The simulation, and that calls are only added. -/
structure Sim (f : ParseFns σ τ α) : Prop where
  sim : ∀ s pos ctx w, SimOut (f.fast s pos ctx w) (fun ins rem => f.fn s pos ctx ins rem w)
  fast : ∀ s pos ctx, Grows (f.fast s pos ctx)
  fn : ∀ s pos ctx ins rem, Grows (f.fn s pos ctx ins rem)

section
variable {f : ParseFns σ τ α} {s : List τ} {pos : Nat} {ctx : Ctx τ} {w w' : World σ}

theorem Sim.diverge (h : Sim f) (hf : f.fast s pos ctx w = .diverge) (ins rem) :
    f.fn s pos ctx ins rem w = .diverge := by
  have := h.sim s pos ctx w; rw [hf] at this; exact this ins rem

theorem Sim.raise (h : Sim f) {e} (hf : f.fast s pos ctx w = .raise e w') (ins rem) :
    f.fn s pos ctx ins rem w = .raise e w' := by
  have := h.sim s pos ctx w; rw [hf] at this; exact this ins rem

theorem Sim.ok (h : Sim f) {r} (hf : f.fast s pos ctx w = .ret (.ok r) w') (ins rem) :
    f.fn s pos ctx ins rem w = .ret (.ok r) w' := by
  have := h.sim s pos ctx w; rw [hf] at this; exact this ins rem

theorem Sim.not_ok (h : Sim f) {e} (hf : f.fast s pos ctx w = .ret (.error e) w') {ins rem r w''} :
    f.fn s pos ctx ins rem w ≠ .ret (.ok r) w'' := by
  have := h.sim s pos ctx w; rw [hf] at this; exact this.1 ins rem r w''

theorem Sim.error (h : Sim f) {e} (hf : f.fast s pos ctx w = .ret (.error e) w')
    (hc : e.consumed = false) (ins) : f.fn s pos ctx ins none w = .ret (.error e) w' := by
  have := h.sim s pos ctx w; rw [hf] at this; exact this.2.1 hc ins

theorem Sim.error_consumed (h : Sim f) {e} (hf : f.fast s pos ctx w = .ret (.error e) w')
    (hc : e.consumed = true) {ins r w''} (hr : f.fn s pos ctx ins none w = .ret r w'') :
    r.consumed = true := by
  have := h.sim s pos ctx w; rw [hf] at this; exact this.2.2.1 hc ins r w'' hr

theorem Sim.after (h : Sim f) {e} (hf : f.fast s pos ctx w = .ret (.error e) w') (ins rem) :
    (f.fn s pos ctx ins rem w).After w' := by
  have := h.sim s pos ctx w; rw [hf] at this; exact this.2.2.2 ins rem

end

theorem continueParse_ret {ra : Recovered τ α} {ins : Int}
    {k : α → Nat → Ctx τ → Int → Act σ (Result τ β)} {merge : α → β → γ} {res : Result τ γ}
    {w w' : World σ} (h : continueParse ra ins k merge w = .ret res w') :
    ∃ reps, contReps ins k merge ra.repairs w = .ret reps w' ∧
      res = .recovered { repairs := reps, minPrio := ra.minPrio, loc := ra.loc,
                         expected := ra.expected, consumed := ra.consumed } := by
  obtain ⟨reps, _, h1, h2⟩ := Run.bind_eq_ret.1 (show (_ : Run σ _).bind _ = _ from h)
  cases h2
  exact ⟨reps, h1, rfl⟩

/-- Post-processing the results with functions that agree on `Ok` and `Error` and keep the kind of
a result and its `consumed` flag, maybe after changing the context. -/
theorem simOut_post {x : Run σ (Simple τ α)} {F : Int → Option Int → Run σ (Result τ α)}
    (h : SimOut x F) (a : Simple τ α → Simple τ β) (b : Result τ α → Result τ β)
    (ha : ∀ r, (a r).toResult = b r.toResult)
    (hb : ∀ r o, (∀ x, r ≠ .ok x) → b r ≠ .ok o)
    (hok : ∀ r, ∃ r', b (.ok r) = .ok r')
    (hc : ∀ r, (b r).consumed = r.consumed) :
    SimOut (x.bind fun r => pure (a r)) (fun ins rem => (F ins rem).bind fun r => pure (b r))
    := by
  cases x with
  | diverge => intro ins rem; simp [h ins rem]
  | raise e w => intro ins rem; simp [h ins rem]
  | ret y w =>
    have hy := ha y
    cases y with
    | ok r =>
      obtain ⟨r', hr'⟩ := hok r
      simp only [Simple.toResult, hr'] at hy
      cases hz : a (.ok r) with
      | error e => rw [hz] at hy; cases hy
      | ok r2 =>
        rw [hz] at hy; cases hy
        simp only [Run.bind_ret, hz]
        intro ins rem
        have := h ins rem
        simp [this, hr']
    | error e =>
      obtain ⟨h1, h2, h3, h4⟩ := h
      cases hz : a (.error e) with
      | ok r' =>
        rw [hz] at hy
        exact absurd hy.symm (hb _ r' (by simp [Simple.toResult]))
      | error e' =>
        rw [hz] at hy
        simp only [Simple.toResult] at hy
        have hce : e'.consumed = e.consumed := by
          have := hc (.error e); rw [← hy] at this; exact this
        simp only [Run.bind_ret, hz]
        refine ⟨?_, ?_, ?_, ?_⟩ <;> try dsimp only
        · intro ins rem r w' hr
          obtain ⟨z, w'', h5, h6⟩ := Run.bind_eq_ret.1 hr
          simp only [Act.pure_apply, Run.ret.injEq] at h6
          refine hb z r ?_ h6.1
          rintro x rfl; exact h1 _ _ _ _ h5
        · intro hcf ins
          rw [h2 (by rw [← hce]; exact hcf) ins]
          simp [hy]
        · intro hct ins r w' hr
          obtain ⟨z, w'', h5, h6⟩ := Run.bind_eq_ret.1 hr
          simp only [Act.pure_apply, Run.ret.injEq] at h6
          rw [← h6.1, hc]
          exact h3 (by rw [← hce]; exact hct) _ _ _ h5
        · intro ins rem
          exact (h4 ins rem).bind fun a w' h => h

/-- Mapping a total function of the library's own over the value. -/
def mapFns (p : ParseFns σ τ α) (f : α → β) : ParseFns σ τ β where
  fast s pos ctx := do
    let r ← p.fast s pos ctx
    return r.fmap f
  fn s pos ctx ins rem := do
    let r ← p.fn s pos ctx ins rem
    return r.fmap f

theorem Result.fmap_consumed (f : α → β) (r : Result τ α) : (r.fmap f).consumed = r.consumed := by
  cases r <;> rfl

theorem sim_map (p : ParseFns σ τ α) (f : α → β) (h : Sim p) : Sim (mapFns p f) where
  sim s pos ctx w := by
    refine simOut_post (h.sim s pos ctx w) (Simple.fmap f) (Result.fmap f) ?_ ?_ ?_ ?_
    · rintro (r | e) <;> rfl
    · intro r o hr
      cases r with
      | ok r => exact absurd rfl (hr r)
      | _ => simp [Result.fmap]
    · intro r; exact ⟨_, rfl⟩
    · exact Result.fmap_consumed f
  fast s pos ctx := (h.fast s pos ctx).bind fun _ => .pure _
  fn s pos ctx ins rem := (h.fn s pos ctx ins rem).bind fun _ => .pure _

theorem sim_lift {f : Reparsec.ParseFns τ α} (h : Reparsec.Sim f) :
    Sim (lift f : ParseFns σ τ α) where
  sim s pos ctx w := by
    have hs := h s pos ctx
    simp only [lift]
    cases hx : f.fast s pos ctx with
    | diverge => rw [hx] at hs; intro ins rem; simp [liftOut, hs ins rem]
    | raise e => rw [hx] at hs; intro ins rem; simp [liftOut, hs ins rem]
    | ret x =>
      rw [hx] at hs
      cases x with
      | ok r => intro ins rem; simp [liftOut, hs ins rem]
      | error e =>
        obtain ⟨h1, h2, h3⟩ := hs
        refine ⟨?_, ?_, ?_, ?_⟩ <;> try dsimp only
        · intro ins rem r w' hr
          cases hy : f.fn s pos ctx ins rem with
          | diverge => rw [hy] at hr; simp [liftOut] at hr
          | raise e => rw [hy] at hr; simp [liftOut] at hr
          | ret y =>
            rw [hy] at hr; simp only [liftOut, Run.ret.injEq] at hr
            exact h1 ins rem r (hr.1 ▸ hy)
        · intro hc ins; simp [h2 hc ins, liftOut]
        · intro hc ins r w' hr
          cases hy : f.fn s pos ctx ins none with
          | diverge => rw [hy] at hr; simp [liftOut] at hr
          | raise e => rw [hy] at hr; simp [liftOut] at hr
          | ret y =>
            rw [hy] at hr; simp only [liftOut, Run.ret.injEq] at hr
            exact h3 hc ins r (hr.1 ▸ hy)
        · intro ins rem; exact Grows.liftOut _ w
  fast s pos ctx := Grows.liftOut _
  fn s pos ctx ins rem := Grows.liftOut _

theorem sim_pureFn (c : Callback σ Unit α) : Sim (pureFnFns c : ParseFns σ τ α) where
  sim s pos ctx w := by
    simp only [pureFnFns, Act.bind_apply]
    cases c.call () w with
    | diverge => simp [SimOut]
    | raise e w' => simp [SimOut]
    | ret a w' => simp [SimOut]
  fast s pos ctx := (Grows.call c _).bind fun _ => .pure _
  fn s pos ctx ins rem := (Grows.call c _).bind fun _ => .pure _

theorem satisfyFn_grows (test : Callback σ τ Bool) (s pos ctx ins rem) :
    Grows (satisfyFn test s pos ctx ins rem) := by
  refine (testAt_grows test s pos).bind fun r => ?_
  cases r with
  | some t => exact .pure _
  | none =>
    cases rem with
    | none => exact .pure _
    | some rem =>
      refine (scanTest_grows test s _ _).bind fun r => ?_
      cases r <;> exact .pure _

theorem sim_satisfy (test : Callback σ τ Bool) : Sim (satisfyFns test) where
  sim s pos ctx w := by
    simp only [satisfyFns, satisfyFast, Act.bind_apply]
    cases h : testAt test s pos w with
    | diverge => intro ins rem; simp [satisfyFn, h]
    | raise e w' => intro ins rem; simp [satisfyFn, h]
    | ret o w' =>
      cases o with
      | some t => intro ins rem; simp [satisfyFn, h]
      | none =>
        refine ⟨?_, ?_, by simp, ?_⟩ <;> try dsimp only
        · intro ins rem r w''
          cases rem with
          | none => simp [satisfyFn, h]
          | some rem =>
            simp only [satisfyFn, h, Act.bind_apply, Run.bind_ret]
            intro hr
            obtain ⟨z, _, _, h2⟩ := Run.bind_eq_ret.1 hr
            cases z <;> simp at h2
        · intro _ ins; simp [satisfyFn, h]
        · intro ins rem
          simp only [satisfyFn, h, Act.bind_apply, Run.bind_ret]
          cases rem with
          | none => exact List.prefix_rfl
          | some rem =>
            refine (scanTest_grows test s _ _).bind (fun r => ?_) w'
            cases r <;> exact .pure _
  fast s pos ctx := by
    refine (testAt_grows test s pos).bind fun r => ?_
    cases r <;> exact .pure _
  fn := satisfyFn_grows test

theorem sim_fmap (f : ParseFns σ τ α) (c : Callback σ α β) (h : Sim f) : Sim (fmapFns f c) where
  sim s pos ctx w := by
    simp only [fmapFns]
    cases hx : f.fast s pos ctx w with
    | diverge => simp [SimOut, fmapFast, hx, fmapFn, h.diverge hx]
    | raise e w' => simp [SimOut, fmapFast, hx, fmapFn, h.raise hx]
    | ret x w' =>
      cases x with
      | ok r =>
        simp only [fmapFast, hx, Act.bind_apply, Run.bind_ret]
        cases hv : c.call r.value w' <;> intro ins rem <;> simp [fmapFn, h.ok hx, hv]
      | error e =>
        simp only [fmapFast, hx, Act.bind_apply, Run.bind_ret, Act.pure_apply]
        refine ⟨?_, ?_, ?_, ?_⟩ <;> try dsimp only
        · intro ins rem r w'' hr
          simp only [fmapFn, Act.bind_apply] at hr
          obtain ⟨x, w1, h1, h2⟩ := Run.bind_eq_ret.1 hr
          cases x with
          | ok r => exact h.not_ok hx h1
          | error e => simp at h2
          | recovered r =>
            simp only [Act.bind_apply] at h2
            obtain ⟨_, _, _, h3⟩ := Run.bind_eq_ret.1 h2
            simp at h3
        · intro hc ins
          simp [fmapFn, h.error hx hc]
        · intro hc ins r w'' hr
          simp only [fmapFn, Act.bind_apply] at hr
          obtain ⟨x, w1, h1, h2⟩ := Run.bind_eq_ret.1 hr
          have h0 := h.error_consumed hx hc h1
          cases x with
          | ok r => exact absurd h1 (h.not_ok hx)
          | error e => simp at h2; rw [← h2.1]; exact h0
          | recovered r =>
            simp only [Act.bind_apply] at h2
            obtain ⟨_, _, _, h3⟩ := Run.bind_eq_ret.1 h2
            simp at h3; rw [← h3.1]; exact h0
        · intro ins rem
          simp only [fmapFn, Act.bind_apply]
          cases hy : f.fn s pos ctx ins rem w with
          | diverge => trivial
          | raise e w1 => have := h.after hx ins rem; rw [hy] at this; exact this
          | ret y w1 =>
            have h0 := h.after hx ins rem
            rw [hy] at h0
            simp only [Run.bind_ret]
            cases y with
            | ok r => exact absurd hy (h.not_ok hx)
            | error e => exact h0
            | recovered r =>
              exact ((repairsFmap_grows c r.repairs).bind (fun _ => .pure _) w1).trans h0
  fast s pos ctx := by
    refine (h.fast s pos ctx).bind fun r => ?_
    cases r with
    | ok r => exact (Grows.call c _).bind fun _ => .pure _
    | error e => exact .pure _
  fn s pos ctx ins rem := by
    refine (h.fn s pos ctx ins rem).bind fun r => ?_
    cases r with
    | ok r => exact (Grows.call c _).bind fun _ => .pure _
    | error e => exact .pure _
    | recovered r => exact (repairsFmap_grows c r.repairs).bind fun _ => .pure _

theorem altRecover_ne_ok {f g : ParseFns σ τ α} {s pos ctx ins rem loc ex w w'} {r : Ok τ α} :
    altRecover f g s pos ctx ins rem loc ex w ≠ .ret (.ok r) w' := by
  cases rem with
  | none => simp [altRecover]
  | some rem =>
    simp only [altRecover, Act.bind_apply]
    intro hr
    obtain ⟨x, _, _, h2⟩ := Run.bind_eq_ret.1 hr
    obtain ⟨y, _, _, h4⟩ := Run.bind_eq_ret.1 h2
    cases x <;> cases y <;> simp at h4

theorem altRecover_grows {f g : ParseFns σ τ α} (hf : ∀ s pos ctx ins rem, Grows (f.fn s pos ctx ins rem))
    (hg : ∀ s pos ctx ins rem, Grows (g.fn s pos ctx ins rem)) (s pos ctx ins rem loc ex) :
    Grows (altRecover f g s pos ctx ins rem loc ex) := by
  cases rem with
  | none => exact .pure _
  | some rem =>
    refine (hf _ _ _ _ _).bind fun x => (hg _ _ _ _ _).bind fun y => ?_
    cases x <;> cases y <;> exact .pure _

theorem altSecond_grows {f g : ParseFns σ τ α} (hf : ∀ s pos ctx ins rem, Grows (f.fn s pos ctx ins rem))
    (hg : ∀ s pos ctx ins rem, Grows (g.fn s pos ctx ins rem)) (s pos ctx ins rem loc ex) :
    Grows (altSecond f g s pos ctx ins rem loc ex) := by
  refine (hg _ _ _ _ _).bind fun x => ?_
  cases x with
  | ok r => exact .ite (.pure _) (.pure _)
  | error e => exact .ite (.pure _) (altRecover_grows hf hg _ _ _ _ _ _ _)
  | recovered e => exact .ite (.pure _) (altRecover_grows hf hg _ _ _ _ _ _ _)

theorem sim_alt (f g : ParseFns σ τ α) (hf : Sim f) (hg : Sim g) : Sim (altFns f g) where
  sim s pos ctx w := by
    simp only [altFns]
    cases hx : f.fast s pos ctx w with
    | diverge => simp [altFast, altFn, hx, SimOut, hf.diverge hx]
    | raise e => simp [altFast, altFn, hx, SimOut, hf.raise hx]
    | ret x w1 =>
      cases x with
      | ok r => simp [altFast, altFn, hx, SimOut, hf.ok hx]
      | error e =>
        cases hc : e.consumed with
        | true =>
          simp only [altFast, hx, Act.bind_apply, Run.bind_ret, hc, if_true, Act.pure_apply]
          have key : ∀ ins rem, altFn f g s pos ctx ins rem w = f.fn s pos ctx ins none w := by
            intro ins rem
            simp only [altFn, Act.bind_apply]
            cases hy : f.fn s pos ctx ins none w with
            | diverge => rfl
            | raise => rfl
            | ret y w2 =>
              have hcy := hf.error_consumed hx hc hy
              cases y with
              | ok r => exact absurd hy (hf.not_ok hx)
              | error e' => simp only [Result.consumed] at hcy; simp [hcy]
              | recovered e' => simp only [Result.consumed] at hcy; simp [hcy]
          refine ⟨?_, by simp [hc], ?_, ?_⟩ <;> try dsimp only
          · intro ins rem r w' hr
            rw [key] at hr; exact hf.not_ok hx hr
          · intro _ ins r w' hr
            rw [key] at hr; exact hf.error_consumed hx hc hr
          · intro ins rem
            rw [key]; exact hf.after hx ins none
        | false =>
          have hfn : ∀ ins rem, altFn f g s pos ctx ins rem w =
              altSecond f g s pos ctx ins rem e.loc e.expected w1 := by
            intro ins rem; simp [altFn, hf.error hx hc, hc]
          simp only [altFast, hx, Act.bind_apply, Run.bind_ret, hc, Bool.false_eq_true, if_false]
          cases hy : g.fast s pos ctx w1 with
          | diverge => simp [hfn, altSecond, SimOut, hg.diverge hy]
          | raise e => simp [hfn, altSecond, SimOut, hg.raise hy]
          | ret y w2 =>
            cases y with
            | ok r =>
              cases hcr : r.consumed <;> simp [hfn, altSecond, SimOut, hg.ok hy, hcr]
            | error e' =>
              cases hce : e'.consumed with
              | true =>
                simp only [Run.bind_ret, hce, if_true, Act.pure_apply]
                have key : ∀ ins rem, altFn f g s pos ctx ins rem w = g.fn s pos ctx ins none w1 := by
                  intro ins rem
                  simp only [hfn, altSecond, Act.bind_apply]
                  cases hz : g.fn s pos ctx ins none w1 with
                  | diverge => rfl
                  | raise => rfl
                  | ret z w3 =>
                    have hcy := hg.error_consumed hy hce hz
                    cases z with
                    | ok r => exact absurd hz (hg.not_ok hy)
                    | error e'' => simp only [Result.consumed] at hcy; simp [hcy]
                    | recovered e'' => simp only [Result.consumed] at hcy; simp [hcy]
                refine ⟨?_, by simp [hce], ?_, ?_⟩ <;> try dsimp only
                · intro ins rem r w' hr
                  rw [key] at hr; exact hg.not_ok hy hr
                · intro _ ins r w' hr
                  rw [key] at hr; exact hg.error_consumed hy hce hr
                · intro ins rem
                  rw [key]; exact hg.after hy ins none
              | false =>
                simp only [Run.bind_ret, hce, Bool.false_eq_true, if_false, Act.pure_apply]
                have hsec : ∀ ins rem, altFn f g s pos ctx ins rem w =
                    altRecover f g s pos ctx ins rem e.loc (e.expected ++ e'.expected) w2 := by
                  intro ins rem; simp [hfn, altSecond, hg.error hy hce, hce]
                refine ⟨?_, ?_, by simp, ?_⟩ <;> try dsimp only
                · intro ins rem r w'; rw [hsec]; exact altRecover_ne_ok
                · intro _ ins; rw [hsec]; rfl
                · intro ins rem; rw [hsec]; exact altRecover_grows hf.fn hg.fn _ _ _ _ _ _ _ w2
  fast s pos ctx := by
    refine (hf.fast s pos ctx).bind fun r => ?_
    cases r with
    | ok r => exact .pure _
    | error e =>
      refine .ite (.pure _) ((hg.fast s pos ctx).bind fun r => ?_)
      cases r with
      | ok r => exact .ite (.pure _) (.pure _)
      | error e => exact .ite (.pure _) (.pure _)
  fn s pos ctx ins rem := by
    refine (hf.fn s pos ctx ins none).bind fun r => ?_
    cases r with
    | ok r => exact .pure _
    | error e => exact .ite (.pure _) (altSecond_grows hf.fn hg.fn _ _ _ _ _ _ _)
    | recovered e => exact .ite (.pure _) (altSecond_grows hf.fn hg.fn _ _ _ _ _ _ _)

/-- Whatever parser the callback returns has property `Q`; it only adds calls. -/
def Gives (Q : ParseFns σ τ β → Prop) (x : Act σ (ParseFns σ τ β)) : Prop :=
  ∀ w, match x w with
    | .diverge => True
    | .raise _ w' => w.calls <+: w'.calls
    | .ret g w' => w.calls <+: w'.calls ∧ Q g

theorem Gives.bind {Q : ParseFns σ τ β → Prop} {x : Act σ (ParseFns σ τ β)} (h : Gives Q x)
    {k : ParseFns σ τ β → Act σ γ} (hk : ∀ g, Q g → Grows (k g)) : Grows (x >>= k) := by
  intro w
  have hw := h w
  simp only [Act.bind_apply]
  cases hx : x w with
  | diverge => trivial
  | raise e w' => rw [hx] at hw; exact hw
  | ret g w' => rw [hx] at hw; exact (hk g hw.2 w').trans hw.1

theorem Gives.pure {Q : ParseFns σ τ β → Prop} {g : ParseFns σ τ β} (h : Q g) :
    Gives Q (pure g) := fun _ => ⟨List.prefix_rfl, h⟩

theorem Gives.call {ι : Type} {Q : ParseFns σ τ β → Prop} (c : Callback σ α ι) (a : α)
    {g : ι → ParseFns σ τ β} (h : ∀ i, Q (g i)) : Gives Q (do
      let i ← c.call a
      return g i) := by
  intro w
  have hw := c.call_after a w
  simp only [Act.bind_apply]
  cases hx : c.call a w with
  | diverge => trivial
  | raise e w' => rw [hx] at hw; exact hw
  | ret i w' => rw [hx] at hw; exact ⟨hw, h i⟩

theorem sim_bind (f : ParseFns σ τ α) (k : α → Act σ (ParseFns σ τ β)) (hf : Sim f)
    (hk : ∀ a, Gives Sim (k a)) : Sim (bindFns f k) := by
  have hcont : ∀ s ins (v : α) p c r, Grows ((do
      let g ← k v
      g.fn s p c ins (some r)) : Act σ (Result τ β)) :=
    fun s ins v p c r => (hk v).bind fun g hg => hg.fn _ _ _ _ _
  refine ⟨?_, ?_, ?_⟩
  · intro s pos ctx w
    simp only [bindFns]
    cases hx : f.fast s pos ctx w with
    | diverge => simp [bindFast, bindFn, hx, SimOut, hf.diverge hx]
    | raise e => simp [bindFast, bindFn, hx, SimOut, hf.raise hx]
    | ret x w1 =>
      cases x with
      | error e =>
        simp only [bindFast, hx, Act.bind_apply, Run.bind_ret, Act.pure_apply]
        refine ⟨?_, ?_, ?_, ?_⟩ <;> try dsimp only
        · intro ins rem r w' hr
          simp only [bindFn, Act.bind_apply] at hr
          obtain ⟨y, w2, h1, h2⟩ := Run.bind_eq_ret.1 hr
          cases y with
          | ok r => exact hf.not_ok hx h1
          | error e' => simp at h2
          | recovered r' =>
            obtain ⟨_, _, h3⟩ := continueParse_ret h2
            cases h3
        · intro hc ins
          simp [bindFn, hf.error hx hc]
        · intro hc ins r w' hr
          simp only [bindFn, Act.bind_apply] at hr
          obtain ⟨y, w2, h1, h2⟩ := Run.bind_eq_ret.1 hr
          have := hf.error_consumed hx hc h1
          cases y with
          | ok r => exact absurd h1 (hf.not_ok hx)
          | error e' => simp at h2; rw [← h2.1]; exact this
          | recovered r' =>
            obtain ⟨_, _, rfl⟩ := continueParse_ret h2
            exact this
        · intro ins rem
          have h0 := hf.after hx ins rem
          simp only [bindFn, Act.bind_apply]
          cases hy : f.fn s pos ctx ins rem w with
          | diverge => trivial
          | raise e w2 => rw [hy] at h0; exact h0
          | ret y w2 =>
            rw [hy] at h0
            simp only [Run.bind_ret]
            cases y with
            | ok r => exact absurd hy (hf.not_ok hx)
            | error e => exact h0
            | recovered r => exact (continueParse_grows (hcont s ins) w2).trans h0
      | ok r =>
        have hfn : ∀ ins rem, bindFn f k s pos ctx ins rem w =
            (k r.value w1).bind fun g =>
              (g.fn s r.pos r.ctx ins (if r.consumed then some ins else rem)) >>=
                fun rb => pure (rb.prependExpected r.expected r.consumed) := by
          intro ins rem
          simp only [bindFn, hf.ok hx, Act.bind_apply, Run.bind_ret]
        have hfast : bindFast f k s pos ctx w =
            (k r.value w1).bind fun g => (g.fast s r.pos r.ctx) >>=
                fun rb => pure (rb.prependExpected r.expected r.consumed) := by
          simp only [bindFast, hx, Act.bind_apply, Run.bind_ret]
        rw [hfast]
        have hkr := hk r.value w1
        cases hk1 : k r.value w1 with
        | diverge => intro ins rem; simp [hfn, hk1]
        | raise e w2 => intro ins rem; simp [hfn, hk1]
        | ret g w2 =>
        rw [hk1] at hkr
        simp only [hk1, Run.bind_ret, Act.bind_apply] at hfn ⊢
        have hgr := hkr.2
        cases hy : g.fast s r.pos r.ctx w2 with
        | diverge => simp [SimOut, hfn, hgr.diverge hy]
        | raise e => simp [SimOut, hfn, hgr.raise hy]
        | ret y w3 =>
          cases y with
          | ok r' =>
            simp [SimOut, hfn, hgr.ok hy, Simple.prependExpected, Result.prependExpected]
          | error e' =>
            refine ⟨?_, ?_, ?_, ?_⟩ <;> try dsimp only
            · intro ins rem o w' ho
              rw [hfn] at ho
              obtain ⟨z, w4, h1, h2⟩ := Run.bind_eq_ret.1 ho
              simp only [Act.pure_apply, Run.ret.injEq] at h2
              refine Result.prependExpected_ne_ok ?_ h2.1
              rintro w rfl; exact hgr.not_ok hy h1
            · intro hc ins
              simp only [Err.prependExpected_consumed, Bool.or_eq_false_iff] at hc
              rw [hfn, hc.2]
              simp [hgr.error hy hc.1, Result.prependExpected]
            · intro hc ins o w' ho
              rw [hfn] at ho
              obtain ⟨z, w4, h1, h2⟩ := Run.bind_eq_ret.1 ho
              simp only [Act.pure_apply, Run.ret.injEq] at h2
              rw [← h2.1]
              simp only [Err.prependExpected_consumed, Bool.or_eq_true,
                Result.prependExpected_consumed] at hc ⊢
              cases hcr : r.consumed with
              | true => simp
              | false =>
                rw [hcr] at h1 hc
                simp only [Bool.false_eq_true, if_false, or_false] at h1 hc ⊢
                exact hgr.error_consumed hy hc h1
            · intro ins rem
              rw [hfn]
              exact (hgr.after hy ins _).bind fun _ _ h => h
  · intro s pos ctx
    refine (hf.fast s pos ctx).bind fun r => ?_
    cases r with
    | error e => exact .pure _
    | ok r => exact (hk _).bind fun g hg => (hg.fast _ _ _).bind fun _ => .pure _
  · intro s pos ctx ins rem
    refine (hf.fn s pos ctx ins rem).bind fun r => ?_
    cases r with
    | error e => exact .pure _
    | ok r => exact (hk _).bind fun g hg => (hg.fn _ _ _ _ _).bind fun _ => .pure _
    | recovered r => exact continueParse_grows (hcont s ins)

theorem manyFastLoop_grows {p : FastFn σ τ α} (h : ∀ s pos ctx, Grows (p s pos ctx)) (s n pos ctx c v) :
    Grows (manyFastLoop p s n pos ctx c v) := by
  induction n generalizing pos ctx c v with
  | zero => exact .diverge
  | succ n ih =>
    refine (h s pos ctx).bind fun r => ?_
    cases r with
    | ok r => exact .ite (ih _ _ _ _) (.raise _)
    | error e => exact .ite (.pure _) (.pure _)

theorem manyLoop_grows {p : Fn σ τ α} (h : ∀ s pos ctx ins rem, Grows (p s pos ctx ins rem))
    (s ins n pos ctx c v) : Grows (manyLoop p s ins n pos ctx c v) := by
  induction n generalizing pos ctx c v with
  | zero => exact .diverge
  | succ n ih =>
    refine (h s pos ctx ins none).bind fun r => ?_
    cases r with
    | ok r => exact .ite (ih _ _ _ _) (.raise _)
    | error e => exact .ite (.pure _) (.pure _)
    | recovered r => exact continueParse_grows fun _ _ _ _ => ih _ _ _ _

theorem sim_manyLoop (f : ParseFns σ τ α) (hf : Sim f) (s : List τ) (fuel : Nat) :
    ∀ pos ctx c v w, SimOut (manyFastLoop f.fast s fuel pos ctx c v w)
      (fun ins _ => manyLoop f.fn s ins fuel pos ctx c v w) := by
  induction fuel with
  | zero => intro pos ctx c v w; simp [manyFastLoop, manyLoop, SimOut]
  | succ n ih =>
    intro pos ctx c v w
    cases hx : f.fast s pos ctx w with
    | diverge => simp [manyFastLoop, manyLoop, hx, SimOut, hf.diverge hx]
    | raise e => simp [manyFastLoop, manyLoop, hx, SimOut, hf.raise hx]
    | ret x w1 =>
      cases x with
      | ok r =>
        have hfn : ∀ ins, manyLoop f.fn s ins (n + 1) pos ctx c v w =
            if r.consumed then manyLoop f.fn s ins n r.pos r.ctx true (v ++ [r.value]) w1
            else .raise manyExn w1 := by
          intro ins; simp [manyLoop, hf.ok hx]
        simp only [hfn, manyFastLoop, hx, Act.bind_apply, Run.bind_ret, Act.ite_apply,
          Act.raise_apply]
        cases r.consumed
        · simp [SimOut]
        · exact ih r.pos r.ctx true (v ++ [r.value]) w1
      | error e =>
        cases hc : e.consumed with
        | false => simp [manyFastLoop, manyLoop, hx, SimOut, hf.error hx hc, hc]
        | true =>
          simp only [manyFastLoop, hx, Act.bind_apply, Run.bind_ret, hc, if_true, Act.pure_apply]
          have key : ∀ ins, (∃ r w', manyLoop f.fn s ins (n + 1) pos ctx c v w = .ret r w' ∧
              r.consumed = true ∧ ∀ o, r ≠ .ok o) ∨
              ∀ r w', manyLoop f.fn s ins (n + 1) pos ctx c v w ≠ .ret r w' := by
            intro ins
            simp only [manyLoop, Act.bind_apply]
            cases hz : f.fn s pos ctx ins none w with
            | diverge => simp
            | raise => simp
            | ret z w2 =>
              have hcy := hf.error_consumed hx hc hz
              cases z with
              | ok r => exact absurd hz (hf.not_ok hx)
              | error e'' =>
                simp only [Result.consumed] at hcy
                simp [hcy, Result.consumed]
              | recovered e'' =>
                simp only [Run.bind_ret]
                cases hk : continueParse e'' ins (fun _ p' c _ => manyLoop f.fn s ins n p' c false [])
                  (fun a b => v ++ a :: b) w2 with
                | diverge => simp
                | raise => simp
                | ret y w3 =>
                  left
                  obtain ⟨_, _, rfl⟩ := continueParse_ret hk
                  exact ⟨_, _, rfl, hcy, by simp⟩
          refine ⟨?_, by simp [hc], ?_, ?_⟩ <;> try dsimp only
          · intro ins rem r w' (hr : manyLoop f.fn s ins (n + 1) pos ctx c v w = _)
            rcases key ins with ⟨r', _, h1, _, h3⟩ | h1
            · rw [hr] at h1; cases h1; exact h3 r rfl
            · exact h1 _ _ hr
          · intro _ ins r w' (hr : manyLoop f.fn s ins (n + 1) pos ctx c v w = _)
            rcases key ins with ⟨r', _, h1, h2, _⟩ | h1
            · rw [hr] at h1; cases h1; exact h2
            · exact absurd hr (h1 r w')
          · intro ins rem
            have h0 := hf.after hx ins none
            simp only [manyLoop, Act.bind_apply]
            cases hz : f.fn s pos ctx ins none w with
            | diverge => trivial
            | raise => rw [hz] at h0; exact h0
            | ret z w2 =>
              rw [hz] at h0
              have hcy := hf.error_consumed hx hc hz
              cases z with
              | ok r => exact absurd hz (hf.not_ok hx)
              | error e'' =>
                simp only [Result.consumed] at hcy
                simp only [Run.bind_ret, hcy, if_true]
                exact h0
              | recovered e'' =>
                exact (continueParse_grows (fun _ p' c _ => manyLoop_grows hf.fn s ins n p' c false []) w2).trans
                  h0

theorem sim_many (f : ParseFns σ τ α) (fuel : Nat) (hf : Sim f) : Sim (manyFns fuel f) where
  sim s pos ctx w := sim_manyLoop f hf s fuel pos ctx false [] w
  fast s _ _ := manyFastLoop_grows hf.fast s _ _ _ _ _
  fn s _ _ ins _ := manyLoop_grows hf.fn s ins _ _ _ _ _

theorem sim_attempt (f : ParseFns σ τ α) (hf : Sim f) : Sim (attemptFns f) where
  sim s pos ctx w := by
    simp only [attemptFns]
    cases hx : f.fast s pos ctx w with
    | diverge =>
      simp only [attemptFast, hx, Act.bind_apply, Run.bind_diverge]
      intro ins rem
      cases rem <;> simp [attemptFn, hx, hf.diverge hx]
    | raise e =>
      simp only [attemptFast, hx, Act.bind_apply, Run.bind_raise]
      intro ins rem
      cases rem <;> simp [attemptFn, hx, hf.raise hx]
    | ret x w1 =>
      cases x with
      | ok r =>
        simp only [attemptFast, hx, Act.bind_apply, Run.bind_ret]
        intro ins rem
        cases rem <;> simp [attemptFn, hx, hf.ok hx]
      | error e =>
        simp only [attemptFast, hx, Act.bind_apply, Run.bind_ret]
        refine ⟨?_, ?_, by simp, ?_⟩ <;> try dsimp only
        · intro ins rem r
          cases rem with
          | none => simp [attemptFn, hx]
          | some rem => intro w'; exact hf.not_ok hx
        · intro _ ins; simp [attemptFn, hx]
        · intro ins rem
          cases rem with
          | none => simp [attemptFn, hx, Run.After]
          | some rem => exact hf.after hx ins _
  fast s pos ctx := by
    refine (hf.fast s pos ctx).bind fun r => ?_
    cases r <;> exact .pure _
  fn s pos ctx ins rem := by
    cases rem with
    | some rem => exact hf.fn _ _ _ _ _
    | none =>
      refine (hf.fast s pos ctx).bind fun r => ?_
      cases r <;> exact .pure _

theorem sim_label (f : ParseFns σ τ α) (x : String) (hf : Sim f) : Sim (labelFns f x) where
  sim s pos ctx w := by
    refine simOut_post (hf.sim s pos ctx w) (Simple.setExpected [x]) (Result.setExpected [x])
      ?_ ?_ ?_ ?_
    · rintro (r | e) <;> rfl
    · intro r o h; exact Result.setExpected_ne_ok h
    · intro r; exact ⟨_, rfl⟩
    · intro r; simp
  fast s pos ctx := (hf.fast s pos ctx).bind fun _ => .pure _
  fn s pos ctx ins rem := (hf.fn s pos ctx ins rem).bind fun _ => .pure _

/-- `recover` on a result. -/
def promoteAll : Result τ α → Result τ α
  | .recovered r => .recovered { r with repairs := r.repairs.map Repair.promote }
  | r => r

theorem recoverFn_eq (f : ParseFns σ τ α) (s pos ctx ins rem) (w : World σ) :
    recoverFn f s pos ctx ins rem w =
      (f.fn s pos ctx ins rem w).bind fun r => pure (promoteAll r) := by
  simp only [recoverFn, Act.bind_apply]
  apply Run.bind_congr
  intro r w'; cases r <;> rfl

theorem sim_recover (f : ParseFns σ τ α) (hf : Sim f) : Sim (recoverFns f) where
  sim s pos ctx w := by
    have := simOut_post (hf.sim s pos ctx w) id promoteAll (by rintro (r | e) <;> rfl)
      (by
        intro r o h
        cases r with
        | ok r => exact absurd rfl (h r)
        | _ => simp [promoteAll])
      (fun r => ⟨_, rfl⟩) (by intro r; cases r <;> rfl)
    simp only [recoverFns, recoverFn_eq]
    have e : ((f.fast s pos ctx w).bind fun r => pure (id r)) = f.fast s pos ctx w := by
      cases f.fast s pos ctx w <;> rfl
    rw [e] at this
    exact this
  fast := hf.fast
  fn s pos ctx ins rem := by
    refine (hf.fn s pos ctx ins rem).bind fun r => ?_
    cases r <;> exact .pure _

/-- `recover_with` and `recover_with_fn`: `x` computes the value. -/
def rwFn (p : ParseFns σ τ α) (x : List τ → Nat → Act σ α) (lbl : α → String) : Fn σ τ α :=
  fun stream pos ctx ins rem =>
  match rem with
  | none => p.fn stream pos ctx ins none
  | some rem => do
    match ← p.fn stream pos ctx ins (some rem) with
    | .ok r => return .ok r
    | .error e =>
      if e.consumed then return .error e
      else if rem ≠ 0 then
        let x ← x stream pos
        let loc := ctx.getLoc stream pos
        let rep := makeUserInsert rem x pos ctx loc (lbl x) e.expected
        return .recovered { repairs := [rep], minPrio := none, loc := loc }
      else return .error e
    | .recovered r =>
      if r.consumed then return .recovered r
      else if rem ≠ 0 then
        let x ← x stream pos
        let loc := ctx.getLoc stream pos
        let rep := makeUserInsert rem x pos ctx loc (lbl x) r.expected
        return .recovered { repairs := rep :: r.repairs, minPrio := r.minPrio, loc := loc,
                            expected := r.expected }
      else return .recovered r

theorem rwFn_fn (p : ParseFns σ τ α) (fn : Callback σ (List τ × Nat) α) (lbl : α → String) :
    recoverWithFnFn p fn lbl = rwFn p (fun s pos => fn.call (s, pos)) lbl := rfl

theorem rwFn_with (p : ParseFns σ τ α) (x : α) (vs : String) :
    recoverWithFn p x vs = rwFn p (fun _ _ => pure x) (fun _ => vs) := rfl

theorem sim_rw (f : ParseFns σ τ α) (x : List τ → Nat → Act σ α) (lbl : α → String) (hf : Sim f)
    (hx : ∀ s pos, Grows (x s pos)) : Sim ⟨f.fast, rwFn f x lbl⟩ where
  sim s pos ctx w := by
    simp only
    cases hx' : f.fast s pos ctx w with
    | diverge => intro ins rem; cases rem <;> simp [rwFn, hf.diverge hx']
    | raise e => intro ins rem; cases rem <;> simp [rwFn, hf.raise hx']
    | ret y w1 =>
      cases y with
      | ok r => intro ins rem; cases rem <;> simp [rwFn, hf.ok hx']
      | error e =>
        refine ⟨?_, ?_, ?_, ?_⟩ <;> try dsimp only
        · intro ins rem o w' ho
          cases rem with
          | none => exact hf.not_ok hx' ho
          | some rem =>
            simp only [rwFn, Act.bind_apply] at ho
            obtain ⟨z, w2, h1, h2⟩ := Run.bind_eq_ret.1 ho
            cases z with
            | ok r => exact hf.not_ok hx' h1
            | error e' =>
              simp only [Act.ite_apply, Act.bind_apply] at h2
              split at h2
              · simp at h2
              · split at h2
                · obtain ⟨_, _, _, h3⟩ := Run.bind_eq_ret.1 h2
                  simp at h3
                · simp at h2
            | recovered r' =>
              simp only [Act.ite_apply, Act.bind_apply] at h2
              split at h2
              · simp at h2
              · split at h2
                · obtain ⟨_, _, _, h3⟩ := Run.bind_eq_ret.1 h2
                  simp at h3
                · simp at h2
        · intro hc ins; exact hf.error hx' hc ins
        · intro hc ins r w' hr; exact hf.error_consumed hx' hc hr
        · intro ins rem
          cases rem with
          | none => exact hf.after hx' ins none
          | some rem =>
            have h0 := hf.after hx' ins (some rem)
            simp only [rwFn, Act.bind_apply]
            cases hz : f.fn s pos ctx ins (some rem) w with
            | diverge => trivial
            | raise => rw [hz] at h0; exact h0
            | ret z w2 =>
              rw [hz] at h0
              simp only [Run.bind_ret]
              cases z with
              | ok r => exact h0
              | error e =>
                exact (Grows.ite (.pure _) (.ite ((hx s pos).bind fun _ => .pure _) (.pure _)) w2).trans h0
              | recovered r =>
                exact (Grows.ite (.pure _) (.ite ((hx s pos).bind fun _ => .pure _) (.pure _)) w2).trans h0
  fast := hf.fast
  fn s pos ctx ins rem := by
    cases rem with
    | none => exact hf.fn _ _ _ _ _
    | some rem =>
      refine (hf.fn s pos ctx ins _).bind fun r => ?_
      cases r with
      | ok r => exact .pure _
      | error e => exact .ite (.pure _) (.ite ((hx s pos).bind fun _ => .pure _) (.pure _))
      | recovered r => exact .ite (.pure _) (.ite ((hx s pos).bind fun _ => .pure _) (.pure _))

/-- The simulation is unaffected by running from another context and then setting a context. -/
theorem sim_setCtx {f : ParseFns σ τ α} (hf : Sim f) (s : List τ) (pos : Nat) (c1 c2 : Ctx τ)
    (w : World σ) : SimOut ((f.fast s pos c1 w).bind fun r => pure (r.setCtx c2))
      (fun ins rem => (f.fn s pos c1 ins rem w).bind fun r => pure (r.setCtx c2)) := by
  refine simOut_post (hf.sim s pos c1 w) (Simple.setCtx c2) (Result.setCtx c2) ?_ ?_ ?_ ?_
  · rintro (r | e) <;> rfl
  · intro r o h
    cases r with
    | ok r => exact absurd rfl (h r)
    | _ => simp [Result.setCtx]
  · intro r; exact ⟨_, rfl⟩
  · intro r; simp

theorem sim_const_error (e : Err) (hc : e.consumed = false) (w : World σ) :
    SimOut (.ret (.error e) w : Run σ (Simple τ α)) (fun _ _ => .ret (.error e) w) := by
  refine ⟨by simp, by simp, ?_, fun _ _ => List.prefix_rfl⟩
  intro h; rw [hc] at h; cases h

theorem sim_block (f : ParseFns σ τ α) (h : Sim f) : Sim (blockFns f) where
  sim s pos _ w := sim_setCtx h s pos _ _ w
  fast s pos _ := (h.fast s pos _).bind fun _ => .pure _
  fn s pos _ ins rem := (h.fn s pos _ ins rem).bind fun _ => .pure _

theorem sim_aligned (f : ParseFns σ τ α) (h : Sim f) : Sim (alignedFns f) where
  sim s pos ctx w := by
    simp only [alignedFns]
    split
    · exact h.sim s pos _ w
    · exact sim_const_error _ rfl w
  fast s pos ctx := .ite (h.fast _ _ _) (.pure _)
  fn s pos ctx ins rem := .ite (h.fn _ _ _ _ _) (.pure _)

theorem sim_indented (f : ParseFns σ τ α) (d : Int) (h : Sim f) : Sim (indentedFns d f) where
  sim s pos ctx w := by
    simp only [indentedFns]
    split
    · exact sim_setCtx h s pos _ _ w
    · exact sim_const_error _ rfl w
  fast s pos ctx := .ite ((h.fast _ _ _).bind fun _ => .pure _) (.pure _)
  fn s pos ctx ins rem := .ite ((h.fn _ _ _ _ _).bind fun _ => .pure _) (.pure _)

/-! ### Equations -/

/-- `maybe` is choice with `Pure(None)`. -/
theorem maybeFns_eq (p : ParseFns σ τ α) :
    maybeFns p = altFns (mapFns p some) (lift (Reparsec.pureFns none)) := by
  simp only [maybeFns, altFns]
  congr 1
  · funext s pos ctx w
    simp only [maybeFast, altFast, mapFns, Act.bind_apply, Run.bind_assoc]
    apply Run.bind_congr
    intro ra w'
    cases ra with
    | ok r => rfl
    | error e =>
      simp [Simple.fmap, lift, liftOut, Reparsec.pureFns, Ok.setExpected]
  · funext s pos ctx ins rem w
    simp only [maybeFn, altFn, mapFns, Act.bind_apply, Run.bind_assoc]
    apply Run.bind_congr
    intro ra w'
    cases ra with
    | ok r => rfl
    | error e =>
      simp [Result.fmap, lift, liftOut, Reparsec.pureFns, Ok.setExpected, altSecond]
    | recovered r =>
      simp [Result.fmap, lift, liftOut, Reparsec.pureFns, Ok.setExpected, altSecond]

theorem contReps_map (ins : Int) (k : α → Nat → Ctx τ → Int → Act σ (Result τ β))
    (merge : α → β → γ) (l : List (Repair τ α)) :
    contReps ins (fun v p c r => do
      let rb ← k v p c r
      return rb.fmap (merge v))
      (fun _ v => v) l = contReps ins k merge l := by
  induction l with
  | nil => rfl
  | cons r rs ih =>
    funext w
    simp only [contReps, Act.bind_apply, ih, Run.bind_assoc]
    apply Run.bind_congr
    intro rb w'
    simp [contOne_fmap]

/-- Sequencing is `bind` with a callback that does nothing, followed by a map. -/
theorem seqFns_eq (p : ParseFns σ τ α) (q : ParseFns σ τ β) (merge : α → β → γ) :
    seqFns p q merge = bindFns p (fun a => pure (mapFns q (merge a))) := by
  simp only [seqFns, bindFns]
  congr 1
  · funext s pos ctx w
    simp only [seqFast, bindFast, Act.bind_apply]
    apply Run.bind_congr
    intro ra w'
    cases ra with
    | error e => rfl
    | ok ra => simp [mapFns, Run.bind_assoc]; rfl
  · funext s pos ctx ins rem w
    simp only [seqFn, bindFn, Act.bind_apply]
    apply Run.bind_congr
    intro ra w'
    cases ra with
    | error e => rfl
    | ok ra => simp [mapFns, Run.bind_assoc]; rfl
    | recovered ra =>
      simp only [continueParse, Act.bind_apply]
      have := contReps_map ins (fun _ p c r => q.fn s p c ins (some r)) merge ra.repairs
      rw [← this]
      rfl

theorem sim_seq (p : ParseFns σ τ α) (q : ParseFns σ τ β) (merge : α → β → γ) (hp : Sim p)
    (hq : Sim q) : Sim (seqFns p q merge) := by
  rw [seqFns_eq]; exact sim_bind _ _ hp fun a => .pure (sim_map _ _ hq)

theorem sim_maybe (p : ParseFns σ τ α) (hp : Sim p) : Sim (maybeFns p) := by
  rw [maybeFns_eq]; exact sim_alt _ _ (sim_map _ _ hp) (sim_lift (by
    intro s pos ctx; simp [Reparsec.pureFns, Reparsec.SimOut]))

variable {ρ : Type} {Γ : ρ → Type} [BEq τ]

theorem sim_denoteWith (n : Nat) (tbl : (i : ρ) → ParseFns σ τ (Γ i)) (ht : ∀ i, Sim (tbl i))
    (p : P σ τ ρ Γ α) : Sim (denoteWith n tbl p) := by
  have cl := (sim_closed (τ := τ)).closed (ρ := ρ) (Γ := Γ) (fun _ => none)
  induction p with
  | pure x => exact sim_lift (cl.pure x)
  | pureFn c => exact sim_pureFn c
  | unexpected x => exact sim_lift (cl.unexpected x)
  | eof => exact sim_lift cl.eof
  | satisfy test => exact sim_satisfy test
  | sym s l => exact sim_lift (cl.sym s l)
  | literal s ss h => exact sim_lift (cl.literal s ss h)
  | regexp m => exact sim_lift (cl.regexp m)
  | fmap p c ih => exact sim_fmap _ c ih
  | alt p q ihp ihq => exact sim_alt _ _ ihp ihq
  | bind p c k ihp ihk => exact sim_bind _ _ ihp fun a => .call c a ihk
  | seqWith p q merge ihp ihq => exact sim_seq _ _ merge ihp ihq
  | maybe p ih => exact sim_maybe _ ih
  | many p ih => exact sim_many _ _ ih
  | attempt p ih => exact sim_attempt _ ih
  | label p x ih => exact sim_label _ x ih
  | recover p ih => exact sim_recover _ ih
  | recoverWith p x vs ih => exact sim_rw _ (fun _ _ => pure x) (fun _ => vs) ih fun _ _ => .pure _
  | recoverWithFn p fn lbl ih =>
    exact sim_rw _ (fun s pos => fn.call (s, pos)) lbl ih fun _ _ => .call _ _
  | block p ih => exact sim_block _ ih
  | aligned p ih => exact sim_aligned _ ih
  | indented delta p ih => exact sim_indented _ delta ih
  | ref i => exact ht i

theorem sim_table (env : Env σ τ ρ Γ) (n : Nat) (i : ρ) : Sim (table env n i) := by
  induction n generalizing i with
  | zero => exact ⟨fun _ _ _ _ => by simp [table, divergeFns, SimOut], fun _ _ _ => .diverge,
      fun _ _ _ _ _ => .diverge⟩
  | succ n ih =>
    unfold table
    split
    · exact ⟨fun _ _ _ _ => by simp [undefinedFns, SimOut], fun _ _ _ => .raise _,
        fun _ _ _ _ _ => .raise _⟩
    · exact sim_denoteWith n _ ih _

/-- Every parser with callbacks that have side effects. -/
theorem sim_denote (env : Env σ τ ρ Γ) (n : Nat) (p : P σ τ ρ Γ α) : Sim (denote env n p) :=
  sim_denoteWith n _ (sim_table env n) p

end Eff

end Reparsec
