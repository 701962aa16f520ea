import Verif.Lemmas.EffectsExchange
import Verif.Props.Monad
import Verif.Props.Label

/-!
# Laws, with callbacks that have side effects: equations between parse functions
-/

namespace Reparsec

namespace Eff

variable {σ τ α β γ ι : Type}

/-! ### Callbacks that do not touch the state -/

theorem conv_quiet {c : Callback σ α β} {f : α → β} (h : ∀ a st, c.run a st = (.ok (f a), st)) (a : α) :
    Conv (· = ·) (fun _ => (pure (f a) : Act σ β)) (c.call a) := by
  refine fun w _ => ⟨0, fun _ _ w' hw => ?_⟩
  simp only [Callback.call, h]
  exact ⟨rfl, hw⟩

theorem conv_quiet' {c : Callback σ α β} {f : α → β} (h : ∀ a st, c.run a st = (.ok (f a), st)) (a : α) :
    Conv (· = ·) (fun _ => c.call a) (pure (f a) : Act σ β) := by
  refine fun w _ => ⟨0, fun _ _ w' hw => ?_⟩
  simp only [Callback.call, h]
  exact ⟨rfl, hw⟩

theorem act_bind_pure (x : Act σ α) : (x >>= fun a => pure a) = x := by
  funext w
  simp only [Act.bind_apply]
  cases x w <;> rfl

theorem ConvFns.mapOfFmap {F : Nat → ParseFns σ τ α} {f : ParseFns σ τ α} {c : Callback σ α β} {m : α → β}
    (hc : ∀ a st, c.run a st = (.ok (m a), st)) (h : ConvFns (· = ·) F f) :
    ConvFns (· = ·) (fun n => mapFns (F n) m) (fmapFns f c) := by
  constructor
  · intro s pos ctx
    refine (h.fast _ _ _).bind fun r => ?_
    cases r with
    | ok r =>
      exact Conv.bind (x := fun _ => pure (m r.value)) (conv_quiet hc _)
        fun v => .pure (Simple.ok ⟨v, r.pos, r.ctx, r.expected, r.consumed⟩)
    | error e => exact .pure _
  · intro s pos ctx ins rem
    refine (h.fn _ _ _ _ _).bind fun r => ?_
    cases r with
    | ok r =>
      exact Conv.bind (x := fun _ => pure (m r.value)) (conv_quiet hc _)
        fun v => .pure (Result.ok ⟨v, r.pos, r.ctx, r.expected, r.consumed⟩)
    | error e => exact .pure _
    | recovered r =>
      have key : ∀ l : List (Repair τ α),
          Conv (· = ·) (fun _ => (pure (l.map fun x => { x with value := m x.value }) : Act σ _))
            (Eff.repairsFmap c l) := by
        intro l
        induction l with
        | nil => exact .pure _
        | cons x xs ih =>
          exact Conv.bind (x := fun _ => pure (m x.value)) (conv_quiet hc _) fun v =>
            Conv.bind (f := fun _ l' => pure (({ x with value := v } : Repair τ β) :: l')) ih fun l' => .pure _
      exact Conv.bind (f := fun _ l' => pure (Result.recovered ⟨l', r.minPrio, r.loc, r.expected, r.consumed⟩))
        (key r.repairs) fun _ => .pure _

theorem ConvFns.fmapOfMap {F : Nat → ParseFns σ τ α} {f : ParseFns σ τ α} {c : Callback σ α β} {m : α → β}
    (hc : ∀ a st, c.run a st = (.ok (m a), st)) (h : ConvFns (· = ·) F f) :
    ConvFns (· = ·) (fun n => fmapFns (F n) c) (mapFns f m) := by
  constructor
  · intro s pos ctx
    refine (h.fast _ _ _).bind fun r => ?_
    cases r with
    | ok r =>
      exact Conv.bind (y := pure (m r.value)) (conv_quiet' hc _)
        (g := fun v => pure (Simple.ok ⟨v, r.pos, r.ctx, r.expected, r.consumed⟩)) fun v => .pure _
    | error e => exact .pure _
  · intro s pos ctx ins rem
    refine (h.fn _ _ _ _ _).bind fun r => ?_
    cases r with
    | ok r =>
      exact Conv.bind (y := pure (m r.value)) (conv_quiet' hc _)
        (g := fun v => pure (Result.ok ⟨v, r.pos, r.ctx, r.expected, r.consumed⟩)) fun v => .pure _
    | error e => exact .pure _
    | recovered r =>
      have key : ∀ l : List (Repair τ α),
          Conv (· = ·) (fun _ => Eff.repairsFmap c l)
            (pure (l.map fun x => { x with value := m x.value }) : Act σ _) := by
        intro l
        induction l with
        | nil => exact .pure _
        | cons x xs ih =>
          exact Conv.bind (y := pure (m x.value)) (conv_quiet' hc _)
            (g := fun v => pure (xs.map fun x => { x with value := m x.value }) >>= fun l' =>
              pure (({ x with value := v } : Repair τ β) :: l')) fun v =>
              Conv.bind (f := fun _ l' => pure (({ x with value := v } : Repair τ β) :: l')) ih fun l' => .pure _
      exact Conv.bind (g := fun l' => pure (Result.recovered ⟨l', r.minPrio, r.loc, r.expected, r.consumed⟩))
        (key r.repairs) fun _ => .pure _

theorem mapFns_id (f : ParseFns σ τ α) : mapFns f (fun a => a) = f := by
  cases f with
  | mk fa fn =>
    simp only [mapFns]
    congr 1
    · funext s pos ctx
      refine Eq.trans ?_ (act_bind_pure (fa s pos ctx))
      funext w
      exact Run.bind_congr fun r w' => by cases r <;> rfl
    · funext s pos ctx ins rem
      refine Eq.trans ?_ (act_bind_pure (fn s pos ctx ins rem))
      funext w
      refine Run.bind_congr fun r w' => ?_
      cases r with
      | recovered r =>
        have : r.repairs.map (Repair.fmap fun a => a) = r.repairs := by
          exact (List.map_congr_left (g := id) fun x _ => rfl).trans (List.map_id _)
        simp only [Result.fmap, this]
      | _ => rfl

theorem bindFns_pure_left (x : α) (g : α → ParseFns σ τ β) :
    bindFns (lift (Reparsec.pureFns x)) (fun a => pure (g a)) = g x := by
  cases hg : g x with
  | mk fa fn =>
    simp only [bindFns]
    congr 1
    · funext s pos ctx
      refine Eq.trans ?_ (act_bind_pure (fa s pos ctx))
      funext w
      simp [bindFast, lift, liftOut, Reparsec.pureFns, hg, Simple.prepend_nil]
    · funext s pos ctx ins rem
      refine Eq.trans ?_ (act_bind_pure (fn s pos ctx ins rem))
      funext w
      simp [bindFn, lift, liftOut, Reparsec.pureFns, hg, Result.prepend_nil]

theorem contReps_pure (ins : Int) (s : List τ) (l : List (Repair τ α)) :
    contReps ins (fun v p c r => (lift (Reparsec.pureFns v) : ParseFns σ τ α).fn s p c ins (some r))
      (fun _ v => v) l = pure l := by
  induction l with
  | nil => rfl
  | cons r rs ih =>
    funext w
    simp only [contReps, Act.bind_apply, ih]
    simp [lift, liftOut, Reparsec.pureFns, contOne, appendExpected]

theorem bindFns_pure_right (f : ParseFns σ τ α) :
    bindFns f (fun a => pure (lift (Reparsec.pureFns a))) = f := by
  cases f with
  | mk fa fn =>
    simp only [bindFns]
    congr 1
    · funext s pos ctx
      refine Eq.trans ?_ (act_bind_pure (fa s pos ctx))
      funext w
      refine Run.bind_congr fun r w' => ?_
      cases r <;> simp [lift, liftOut, Reparsec.pureFns, Simple.prependExpected, Ok.prependExpected]
    · funext s pos ctx ins rem
      refine Eq.trans ?_ (act_bind_pure (fn s pos ctx ins rem))
      funext w
      refine Run.bind_congr fun r w' => ?_
      cases r with
      | error e => rfl
      | ok r =>
        obtain ⟨_, _, _, ex, c⟩ := r
        cases c <;> simp [lift, liftOut, Reparsec.pureFns, Result.prependExpected, Ok.prependExpected]
      | recovered r =>
        have := congrFun (contReps_pure (σ := σ) ins s r.repairs) w'
        simp only [continueParse, Act.bind_apply]
        rw [show contReps ins (fun v p c r => do
            let g ← (pure (lift (Reparsec.pureFns v)) : Act σ (ParseFns σ τ α))
            g.fn s p c ins (some r)) (fun _ v => v) r.repairs w' = _ from this]
        rfl

theorem bindFast_assoc (f : ParseFns σ τ α) (x : α → Act σ (ParseFns σ τ β)) (y : β → Act σ (ParseFns σ τ γ)) :
    (bindFns (bindFns f x) y).fast = (bindFns f fun a => do return bindFns (← x a) y).fast := by
  funext s pos ctx w
  simp only [bindFns, bindFast, Act.bind_apply, Run.bind_assoc]
  apply Run.bind_congr
  intro ra w1
  cases ra with
  | error e => rfl
  | ok ra =>
    simp only [Act.bind_apply, Run.bind_assoc, Act.pure_apply, Run.bind_ret]
    apply Run.bind_congr
    intro g w2
    simp only [bindFast, Act.bind_apply, Run.bind_assoc]
    apply Run.bind_congr
    intro rb w3
    cases rb with
    | error e => simp [Simple.prependExpected]
    | ok rb =>
      simp only [Simple.prependExpected, Ok.prependExpected_value, Ok.prependExpected_pos,
        Ok.prependExpected_ctx, Act.bind_apply, Run.bind_assoc]
      apply Run.bind_congr
      intro h w4
      apply Run.bind_congr
      intro rc w5
      have := Simple.prepend_prepend rc rb.expected ra.expected rb.consumed ra.consumed
      simp only [Simple.prependExpected] at this
      simp only [Act.pure_apply, Run.bind_ret]
      rw [this]
      obtain ⟨_, _, _, ex, c⟩ := rb
      cases c <;> rfl

theorem altFast_assoc (p q r : ParseFns σ τ α) :
    (altFns (altFns p q) r).fast = (altFns p (altFns q r)).fast := by
  funext s pos ctx w
  simp only [altFns, altFast, Act.bind_apply, Run.bind_assoc]
  apply Run.bind_congr
  intro a w1
  cases a with
  | ok ra => rfl
  | error ea =>
    by_cases hc : ea.consumed
    · simp [hc]
    · simp only [hc, Bool.false_eq_true, if_false, Act.bind_apply, Run.bind_assoc]
      apply Run.bind_congr
      intro b w2
      cases b with
      | ok rb => by_cases hb : rb.consumed <;> simp [hb]
      | error eb =>
        by_cases hb : eb.consumed
        · simp [hb]
        · simp only [hb, Bool.false_eq_true, if_false, Act.pure_apply, Act.bind_apply, Run.bind_assoc, Run.bind_ret]
          apply Run.bind_congr
          intro c w3
          cases c with
          | ok rc => by_cases h : rc.consumed <;> simp [h, Ok.setExpected]
          | error ec => by_cases h : ec.consumed <;> simp [h]

theorem labelFns_label (f : ParseFns σ τ α) (x y : String) : labelFns (labelFns f x) y = labelFns f y := by
  simp only [labelFns]
  congr 1
  · funext s pos ctx w
    simp only [Act.bind_apply, Run.bind_assoc]
    apply Run.bind_congr
    intro r w1
    cases r with
    | ok r => by_cases h : r.consumed <;> simp [Simple.setExpected, Ok.setExpected, h]
    | error r => by_cases h : r.consumed <;> simp [Simple.setExpected, Err.setExpected, h]
  · funext s pos ctx ins rem w
    simp only [Act.bind_apply, Run.bind_assoc]
    apply Run.bind_congr
    intro r w1
    cases r with
    | ok r => by_cases h : r.consumed <;> simp [Result.setExpected, Ok.setExpected, h]
    | error r => by_cases h : r.consumed <;> simp [Result.setExpected, Err.setExpected, h]
    | recovered r => simp [Result.setExpected, Recovered.setExpected_twice]

theorem bindAct_eq (f : ParseFns σ τ α) (m : α → ι) (g : ι → ParseFns σ τ β) :
    (bindFns f fun a => do return g (← (pure (m a) : Act σ ι))) = bindFns f fun a => pure (g (m a)) := rfl

end Eff

end Reparsec
