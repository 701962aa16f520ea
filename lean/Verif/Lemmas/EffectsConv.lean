import Verif.Lemmas.Effects
import Verif.Lemmas.EffectsMono

/-!
# The combinators are continuous, with callbacks that have side effects

As `Lemmas/Conv`; the states of the two sides are related by `R`, the records of calls are not compared.
-/

namespace Reparsec

namespace Eff

variable {σ σ' τ α β γ : Type} {R : σ → σ' → Prop}

/-- Both end in the same way, and the states correspond. -/
def Agree (R : σ → σ' → Prop) : Run σ α → Run σ' α → Prop
  | .raise e w, .raise e' w' => e = e' ∧ R w.state w'.state
  | .ret a w, .ret a' w' => a = a' ∧ R w.state w'.state
  | _, _ => False

/-- With enough fuel `x` does what `y` does (if `y` ends). -/
def Conv (R : σ → σ' → Prop) (x : Nat → Act σ' α) (y : Act σ α) : Prop :=
  ∀ w, y w ≠ .diverge → ∃ N, ∀ n, N ≤ n → ∀ w', R w.state w'.state → Agree R (y w) (x n w')

theorem Conv.diverge {x : Nat → Act σ' α} : Conv R x (.diverge : Act σ α) := fun _ h => absurd rfl h

theorem Conv.pure (a : α) : Conv R (fun _ => (pure a : Act σ' α)) (pure a) :=
  fun _ _ => ⟨0, fun _ _ _ h => ⟨rfl, h⟩⟩

theorem Conv.raise (e : Exn) : Conv R (fun _ => (Act.raise e : Act σ' α)) (Act.raise e) :=
  fun _ _ => ⟨0, fun _ _ _ h => ⟨rfl, h⟩⟩

theorem Conv.liftOut (o : Out α) : Conv R (fun _ => (Eff.liftOut o : Act σ' α)) (Eff.liftOut o) := by
  cases o with
  | diverge => exact Conv.diverge
  | raise e => exact Conv.raise e
  | ret a => exact Conv.pure a

theorem Conv.call {c : Callback σ α β} {c' : Callback σ' α β}
    (h : ∀ a st st', R st st' → (c.run a st).1 = (c'.run a st').1 ∧ R (c.run a st).2 (c'.run a st').2) (a : α) :
    Conv R (fun _ => c'.call a) (c.call a) := by
  refine fun w _ => ⟨0, fun _ _ w' hw => ?_⟩
  obtain ⟨h1, h2⟩ := h a _ _ hw
  simp only [Callback.call, ← h1]
  cases hx : (c.run a w.state).1 with
  | ok b => exact ⟨rfl, h2⟩
  | error e => exact ⟨rfl, h2⟩

theorem Conv.bind {x : Nat → Act σ' α} {y : Act σ α} {f : Nat → α → Act σ' β} {g : α → Act σ β}
    (h : Conv R x y) (hf : ∀ a, Conv R (fun n => f n a) (g a)) :
    Conv R (fun n => x n >>= f n) (y >>= g) := by
  intro w hd
  simp only [Act.bind_apply] at hd ⊢
  cases hy : y w with
  | diverge => rw [hy] at hd; exact absurd rfl hd
  | raise e w1 =>
    obtain ⟨N, hN⟩ := h w (by rw [hy]; simp)
    refine ⟨N, fun n hn w' hw => ?_⟩
    have := hN n hn w' hw
    rw [hy] at this
    cases hx : x n w' with
    | diverge => rw [hx] at this; exact this.elim
    | ret a w2 => rw [hx] at this; exact this.elim
    | raise e' w2 => rw [hx] at this; exact this
  | ret a w1 =>
    rw [hy] at hd
    obtain ⟨N, hN⟩ := h w (by rw [hy]; simp)
    obtain ⟨M, hM⟩ := hf a w1 hd
    refine ⟨max N M, fun n hn w' hw => ?_⟩
    have := hN n (by omega) w' hw
    rw [hy] at this
    cases hx : x n w' with
    | diverge => rw [hx] at this; exact this.elim
    | raise e w2 => rw [hx] at this; exact this.elim
    | ret a' w2 =>
      rw [hx] at this
      obtain ⟨rfl, h2⟩ := this
      exact hM n (by omega) w2 h2

theorem Conv.ite {c : Prop} [Decidable c] {x x' : Nat → Act σ' α} {y y' : Act σ α} (h : Conv R x y)
    (h' : Conv R x' y') : Conv R (fun n => if c then x n else x' n) (if c then y else y') := by
  split
  · exact h
  · exact h'

theorem Conv.succ {x : Nat → Act σ' α} {y : Act σ α} (h : Conv R (fun n => x (n + 1)) y) : Conv R x y := by
  intro w ho
  obtain ⟨N, hN⟩ := h w ho
  refine ⟨N + 1, fun n hn => ?_⟩
  obtain ⟨n, rfl⟩ : ∃ k, n = k + 1 := ⟨n - 1, by omega⟩
  exact hN n (by omega)

theorem Conv.of_ev {x z : Nat → Act σ' α} {y : Act σ α} (h : Conv R z y) (he : ∃ N, ∀ n, N ≤ n → x n = z n) :
    Conv R x y := by
  intro w ho
  obtain ⟨N, hN⟩ := h w ho
  obtain ⟨M, hM⟩ := he
  exact ⟨max N M, fun n hn w' hw => by rw [hM n (by omega)]; exact hN n (by omega) w' hw⟩

/-- The same for parse functions. -/
structure ConvFns (R : σ → σ' → Prop) (F : Nat → ParseFns σ' τ α) (f : ParseFns σ τ α) : Prop where
  fast : ∀ s pos ctx, Conv R (fun n => (F n).fast s pos ctx) (f.fast s pos ctx)
  fn : ∀ s pos ctx ins rem, Conv R (fun n => (F n).fn s pos ctx ins rem) (f.fn s pos ctx ins rem)

theorem ConvFns.succ {F : Nat → ParseFns σ' τ α} {f : ParseFns σ τ α}
    (h : ConvFns R (fun n => F (n + 1)) f) : ConvFns R F f :=
  ⟨fun _ _ _ => .succ (h.fast _ _ _), fun _ _ _ _ _ => .succ (h.fn _ _ _ _ _)⟩

theorem ConvFns.lift (f : Reparsec.ParseFns τ α) : ConvFns R (fun _ => Eff.lift f) (Eff.lift f) :=
  ⟨fun _ _ _ => .liftOut _, fun _ _ _ _ _ => .liftOut _⟩

theorem ConvFns.undefined : ConvFns R (fun _ => (undefinedFns : ParseFns σ' τ α)) undefinedFns :=
  ⟨fun _ _ _ => .raise _, fun _ _ _ _ _ => .raise _⟩

theorem Conv.contReps {ins : Int} {k : Nat → α → Nat → Ctx τ → Int → Act σ' (Result τ β)}
    {k' : α → Nat → Ctx τ → Int → Act σ (Result τ β)} {merge : α → β → γ}
    (hk : ∀ v p c r, Conv R (fun n => k n v p c r) (k' v p c r)) (l : List (Repair τ α)) :
    Conv R (fun n => Eff.contReps ins (k n) merge l) (Eff.contReps ins k' merge l) := by
  induction l with
  | nil => exact .pure _
  | cons r rs ih => exact (hk _ _ _ _).bind fun _ => ih.bind fun _ => .pure _

theorem Conv.continueParse {ra : Recovered τ α} {ins : Int}
    {k : Nat → α → Nat → Ctx τ → Int → Act σ' (Result τ β)}
    {k' : α → Nat → Ctx τ → Int → Act σ (Result τ β)} {merge : α → β → γ}
    (hk : ∀ v p c r, Conv R (fun n => k n v p c r) (k' v p c r)) :
    Conv R (fun n => Eff.continueParse ra ins (k n) merge) (Eff.continueParse ra ins k' merge) :=
  (Conv.contReps hk _).bind fun _ => .pure _

/-- Callbacks on the two sides that do the same. -/
abbrev Match (R : σ → σ' → Prop) (c : Callback σ α β) (c' : Callback σ' α β) : Prop :=
  ∀ a st st', R st st' → (c.run a st).1 = (c'.run a st').1 ∧ R (c.run a st).2 (c'.run a st').2

theorem ConvFns.pureFn {c : Callback σ Unit α} {c' : Callback σ' Unit α} (hc : Match R c c') :
    ConvFns R (fun _ => pureFnFns c') (pureFnFns (τ := τ) c) :=
  ⟨fun _ _ _ => (Conv.call hc _).bind fun _ => .pure _, fun _ _ _ _ _ => (Conv.call hc _).bind fun _ => .pure _⟩

theorem Conv.testAt {c : Callback σ τ Bool} {c' : Callback σ' τ Bool} (hc : Match R c c') (s : List τ) (pos : Nat) :
    Conv R (fun _ => Eff.testAt c' s pos) (Eff.testAt c s pos) := by
  unfold Eff.testAt
  split
  · exact .pure _
  · exact (Conv.call hc _).bind fun _ => .pure _

theorem Conv.scanTest {c : Callback σ τ Bool} {c' : Callback σ' τ Bool} (hc : Match R c c') (s : List τ)
    (k cur : Nat) : Conv R (fun _ => Eff.scanTest c' s k cur) (Eff.scanTest c s k cur) := by
  induction k generalizing cur with
  | zero => exact .pure _
  | succ k ih =>
    refine (Conv.testAt hc s cur).bind fun r => ?_
    cases r with
    | some t => exact .pure _
    | none => exact ih _

theorem ConvFns.satisfy {c : Callback σ τ Bool} {c' : Callback σ' τ Bool} (hc : Match R c c') :
    ConvFns R (fun _ => satisfyFns c') (satisfyFns c) := by
  constructor
  · intro s pos ctx
    refine (Conv.testAt hc s pos).bind fun r => ?_
    cases r <;> exact .pure _
  · intro s pos ctx ins rem
    refine (Conv.testAt hc s pos).bind fun r => ?_
    cases r with
    | some t => exact .pure _
    | none =>
      cases rem with
      | none => exact .pure _
      | some rem =>
        refine (Conv.scanTest hc s _ _).bind fun r => ?_
        cases r <;> exact .pure _

theorem Conv.repairsFmap {c : Callback σ α β} {c' : Callback σ' α β} (hc : Match R c c') (l : List (Repair τ α)) :
    Conv R (fun _ => Eff.repairsFmap c' l) (Eff.repairsFmap c l) := by
  induction l with
  | nil => exact .pure _
  | cons r rs ih => exact (Conv.call hc _).bind fun _ => ih.bind fun _ => .pure _

theorem ConvFns.fmap {F : Nat → ParseFns σ' τ α} {f : ParseFns σ τ α} {c : Callback σ α β} {c' : Callback σ' α β}
    (hc : Match R c c') (h : ConvFns R F f) : ConvFns R (fun n => fmapFns (F n) c') (fmapFns f c) := by
  constructor
  · intro s pos ctx
    refine (h.fast _ _ _).bind fun r => ?_
    cases r with
    | ok r => exact (Conv.call hc _).bind fun _ => .pure _
    | error e => exact .pure _
  · intro s pos ctx ins rem
    refine (h.fn _ _ _ _ _).bind fun r => ?_
    cases r with
    | ok r => exact (Conv.call hc _).bind fun _ => .pure _
    | error e => exact .pure _
    | recovered r => exact (Conv.repairsFmap hc _).bind fun _ => .pure _

theorem ConvFns.map {F : Nat → ParseFns σ' τ α} {f : ParseFns σ τ α} (m : α → β)
    (h : ConvFns R F f) : ConvFns R (fun n => mapFns (F n) m) (mapFns f m) :=
  ⟨fun _ _ _ => (h.fast _ _ _).bind fun _ => .pure _, fun _ _ _ _ _ => (h.fn _ _ _ _ _).bind fun _ => .pure _⟩

theorem Conv.altRecover {F G : Nat → ParseFns σ' τ α} {f g : ParseFns σ τ α} (hf : ConvFns R F f)
    (hg : ConvFns R G g) (s pos ctx ins rem loc ex) :
    Conv R (fun n => Eff.altRecover (F n) (G n) s pos ctx ins rem loc ex)
      (Eff.altRecover f g s pos ctx ins rem loc ex) := by
  cases rem with
  | none => exact .pure _
  | some rem =>
    refine (hf.fn _ _ _ _ _).bind fun r => (hg.fn _ _ _ _ _).bind fun r' => ?_
    cases r <;> cases r' <;> exact .pure _

theorem Conv.altSecond {F G : Nat → ParseFns σ' τ α} {f g : ParseFns σ τ α} (hf : ConvFns R F f)
    (hg : ConvFns R G g) (s pos ctx ins rem loc ex) :
    Conv R (fun n => Eff.altSecond (F n) (G n) s pos ctx ins rem loc ex)
      (Eff.altSecond f g s pos ctx ins rem loc ex) := by
  refine (hg.fn _ _ _ _ _).bind fun r => ?_
  cases r with
  | ok r => exact .ite (.pure _) (.pure _)
  | error e => exact .ite (.pure _) (Conv.altRecover hf hg _ _ _ _ _ _ _)
  | recovered e => exact .ite (.pure _) (Conv.altRecover hf hg _ _ _ _ _ _ _)

theorem ConvFns.alt {F G : Nat → ParseFns σ' τ α} {f g : ParseFns σ τ α} (hf : ConvFns R F f)
    (hg : ConvFns R G g) : ConvFns R (fun n => altFns (F n) (G n)) (altFns f g) := by
  constructor
  · intro s pos ctx
    refine (hf.fast _ _ _).bind fun r => ?_
    cases r with
    | ok r => exact .pure _
    | error e =>
      refine .ite (.pure _) ((hg.fast _ _ _).bind fun r => ?_)
      cases r <;> exact .ite (.pure _) (.pure _)
  · intro s pos ctx ins rem
    refine (hf.fn _ _ _ _ _).bind fun r => ?_
    cases r with
    | ok r => exact .pure _
    | error e => exact .ite (.pure _) (Conv.altSecond hf hg _ _ _ _ _ _ _)
    | recovered e => exact .ite (.pure _) (Conv.altSecond hf hg _ _ _ _ _ _ _)

theorem Conv.then {ι δ : Type} {x : Act σ' ι} {y : Act σ ι} {G : Nat → ι → ParseFns σ' τ β}
    {g : ι → ParseFns σ τ β} (hc : Conv R (fun _ => x) y) (h : ParseFns σ τ β → Act σ δ)
    (h' : Nat → ParseFns σ' τ β → Act σ' δ) (hh : ∀ i, Conv R (fun n => h' n (G n i)) (h (g i))) :
    Conv R (fun n => (do return G n (← x)) >>= h' n) ((do return g (← y)) >>= h) := by
  have e1 : ((do return g (← y)) >>= h) = y >>= fun i => h (g i) := by
    funext w; simp [Run.bind_assoc]
  have e2 : ∀ n, ((do return G n (← x)) >>= h' n) = x >>= fun i => h' n (G n i) := by
    intro n; funext w; simp [Run.bind_assoc]
  rw [e1]; simp only [e2]
  exact Conv.bind (x := fun _ => x) hc hh

theorem Conv.bindFast {ι : Type} {F : Nat → ParseFns σ' τ α} {f : ParseFns σ τ α} {x : α → Act σ' ι}
    {y : α → Act σ ι} {G : Nat → ι → ParseFns σ' τ β} {g : ι → ParseFns σ τ β}
    (hc : ∀ a, Conv R (fun _ => x a) (y a))
    (hf : ∀ s pos ctx, Conv R (fun n => (F n).fast s pos ctx) (f.fast s pos ctx))
    (hg : ∀ i s pos ctx, Conv R (fun n => (G n i).fast s pos ctx) ((g i).fast s pos ctx)) (s pos ctx) :
    Conv R (fun n => Eff.bindFast (F n) (fun a => do return G n (← x a)) s pos ctx)
      (Eff.bindFast f (fun a => do return g (← y a)) s pos ctx) := by
  refine (hf _ _ _).bind fun r => ?_
  cases r with
  | error e => exact .pure _
  | ok r => exact Conv.then (hc _) _ _ fun i => (hg i _ _ _).bind fun _ => .pure _

theorem ConvFns.bindAct {ι : Type} {F : Nat → ParseFns σ' τ α} {f : ParseFns σ τ α} {x : α → Act σ' ι}
    {y : α → Act σ ι} {G : Nat → ι → ParseFns σ' τ β} {g : ι → ParseFns σ τ β}
    (hc : ∀ a, Conv R (fun _ => x a) (y a)) (hf : ConvFns R F f) (hg : ∀ i, ConvFns R (fun n => G n i) (g i)) :
    ConvFns R (fun n => bindFns (F n) fun a => do return G n (← x a))
      (bindFns f fun a => do return g (← y a)) := by
  refine ⟨fun s pos ctx => Conv.bindFast hc hf.fast (fun i => (hg i).fast) s pos ctx, ?_⟩
  intro s pos ctx ins rem
  refine (hf.fn _ _ _ _ _).bind fun r => ?_
  cases r with
  | error e => exact .pure _
  | ok r => exact Conv.then (hc _) _ _ fun i => ((hg i).fn _ _ _ _ _).bind fun _ => .pure _
  | recovered r => exact Conv.continueParse fun _ _ _ _ => Conv.then (hc _) _ _ fun i => (hg i).fn _ _ _ _ _

theorem ConvFns.bind {ι : Type} {F : Nat → ParseFns σ' τ α} {f : ParseFns σ τ α} {c : Callback σ α ι}
    {c' : Callback σ' α ι} {G : Nat → ι → ParseFns σ' τ β} {g : ι → ParseFns σ τ β} (hc : Match R c c')
    (hf : ConvFns R F f) (hg : ∀ i, ConvFns R (fun n => G n i) (g i)) :
    ConvFns R (fun n => bindFns (F n) fun a => do return G n (← c'.call a))
      (bindFns f fun a => do return g (← c.call a)) :=
  .bindAct (Conv.call hc) hf hg

theorem ConvFns.seqWith {F : Nat → ParseFns σ' τ α} {f : ParseFns σ τ α} {G : Nat → ParseFns σ' τ β}
    {g : ParseFns σ τ β} (m : α → β → γ) (hf : ConvFns R F f) (hg : ConvFns R G g) :
    ConvFns R (fun n => seqFns (F n) (G n) m) (seqFns f g m) := by
  constructor
  · intro s pos ctx
    refine (hf.fast _ _ _).bind fun r => ?_
    cases r with
    | error e => exact .pure _
    | ok r => exact (hg.fast _ _ _).bind fun _ => .pure _
  · intro s pos ctx ins rem
    refine (hf.fn _ _ _ _ _).bind fun r => ?_
    cases r with
    | error e => exact .pure _
    | ok r => exact (hg.fn _ _ _ _ _).bind fun _ => .pure _
    | recovered r => exact Conv.continueParse fun _ _ _ _ => hg.fn _ _ _ _ _

theorem ConvFns.maybe {F : Nat → ParseFns σ' τ α} {f : ParseFns σ τ α} (h : ConvFns R F f) :
    ConvFns R (fun n => maybeFns (F n)) (maybeFns f) := by
  simp only [maybeFns_eq]
  exact (h.map _).alt (.lift _)

theorem Conv.manyFastLoop {F : Nat → FastFn σ' τ α} {f : FastFn σ τ α}
    (h : ∀ s pos ctx, Conv R (fun n => F n s pos ctx) (f s pos ctx)) (s : List τ) (n : Nat)
    (g : Nat → Nat) (hg : ∃ N, ∀ m, N ≤ m → n ≤ g m) (pos ctx c v) :
    Conv R (fun m => Eff.manyFastLoop (F m) s (g m) pos ctx c v)
      (Eff.manyFastLoop f s n pos ctx c v) := by
  induction n generalizing g pos ctx c v with
  | zero => exact .diverge
  | succ n ih =>
    obtain ⟨N, hN⟩ := hg
    refine Conv.of_ev (z := fun m => Eff.manyFastLoop (F m) s ((g m - 1) + 1) pos ctx c v) ?_
      ⟨N, fun m hm => by have := hN m hm; rw [show g m - 1 + 1 = g m by omega]⟩
    refine (h _ _ _).bind fun r => ?_
    cases r with
    | ok r => exact .ite (ih (fun m => g m - 1) ⟨N, fun m hm => by have := hN m hm; omega⟩ _ _ _ _) (.raise _)
    | error e => exact .ite (.pure _) (.pure _)

theorem Conv.manyLoop {F : Nat → Fn σ' τ α} {f : Fn σ τ α}
    (h : ∀ s pos ctx ins rem, Conv R (fun n => F n s pos ctx ins rem) (f s pos ctx ins rem))
    (s : List τ) (ins : Int) (n : Nat)
    (g : Nat → Nat) (hg : ∃ N, ∀ m, N ≤ m → n ≤ g m) (pos ctx c v) :
    Conv R (fun m => Eff.manyLoop (F m) s ins (g m) pos ctx c v)
      (Eff.manyLoop f s ins n pos ctx c v) := by
  induction n generalizing g pos ctx c v with
  | zero => exact .diverge
  | succ n ih =>
    obtain ⟨N, hN⟩ := hg
    have hg' : ∃ N, ∀ m, N ≤ m → n ≤ g m - 1 := ⟨N, fun m hm => by have := hN m hm; omega⟩
    refine Conv.of_ev (z := fun m => Eff.manyLoop (F m) s ins ((g m - 1) + 1) pos ctx c v) ?_
      ⟨N, fun m hm => by have := hN m hm; rw [show g m - 1 + 1 = g m by omega]⟩
    refine (h _ _ _ _ _).bind fun r => ?_
    cases r with
    | ok r => exact .ite (ih (fun m => g m - 1) hg' _ _ _ _) (.raise _)
    | error e => exact .ite (.pure _) (.pure _)
    | recovered r => exact Conv.continueParse fun _ _ _ _ => ih (fun m => g m - 1) hg' _ _ _ _

theorem ConvFns.many {F : Nat → ParseFns σ' τ α} {f : ParseFns σ τ α} (h : ConvFns R F f) (n : Nat) :
    ConvFns R (fun m => manyFns m (F m)) (manyFns n f) :=
  ⟨fun s _ _ => Conv.manyFastLoop h.fast s n (fun m => m) ⟨n, fun _ h => h⟩ _ _ _ _,
   fun s _ _ ins _ => Conv.manyLoop h.fn s ins n (fun m => m) ⟨n, fun _ h => h⟩ _ _ _ _⟩

theorem ConvFns.attempt {F : Nat → ParseFns σ' τ α} {f : ParseFns σ τ α} (h : ConvFns R F f) :
    ConvFns R (fun n => attemptFns (F n)) (attemptFns f) := by
  constructor
  · intro s pos ctx
    refine (h.fast _ _ _).bind fun r => ?_
    cases r <;> exact .pure _
  · intro s pos ctx ins rem
    cases rem with
    | none =>
      refine (h.fast _ _ _).bind fun r => ?_
      cases r <;> exact .pure _
    | some rem => exact h.fn _ _ _ _ _

theorem ConvFns.label {F : Nat → ParseFns σ' τ α} {f : ParseFns σ τ α} (x : String) (h : ConvFns R F f) :
    ConvFns R (fun n => labelFns (F n) x) (labelFns f x) :=
  ⟨fun _ _ _ => (h.fast _ _ _).bind fun _ => .pure _,
   fun _ _ _ _ _ => (h.fn _ _ _ _ _).bind fun _ => .pure _⟩

theorem ConvFns.recover {F : Nat → ParseFns σ' τ α} {f : ParseFns σ τ α} (h : ConvFns R F f) :
    ConvFns R (fun n => recoverFns (F n)) (recoverFns f) := by
  refine ⟨h.fast, fun _ _ _ _ _ => (h.fn _ _ _ _ _).bind fun r => ?_⟩
  cases r <;> exact .pure _

theorem ConvFns.recoverWithFn {F : Nat → ParseFns σ' τ α} {f : ParseFns σ τ α}
    {c : Callback σ (List τ × Nat) α} {c' : Callback σ' (List τ × Nat) α} (hc : Match R c c') (lbl : α → String)
    (h : ConvFns R F f) : ConvFns R (fun n => recoverWithFnFns (F n) c' lbl) (recoverWithFnFns f c lbl) := by
  refine ⟨h.fast, fun s pos ctx ins rem => ?_⟩
  cases rem with
  | none => exact h.fn _ _ _ _ _
  | some rem =>
    refine (h.fn _ _ _ _ _).bind fun r => ?_
    cases r with
    | ok r => exact .pure _
    | error e => exact .ite (.pure _) (.ite ((Conv.call hc _).bind fun _ => .pure _) (.pure _))
    | recovered e => exact .ite (.pure _) (.ite ((Conv.call hc _).bind fun _ => .pure _) (.pure _))

theorem ConvFns.recoverWith {F : Nat → ParseFns σ' τ α} {f : ParseFns σ τ α} (x : α) (vs : String)
    (h : ConvFns R F f) : ConvFns R (fun n => recoverWithFns (F n) x vs) (recoverWithFns f x vs) := by
  refine ⟨h.fast, fun s pos ctx ins rem => ?_⟩
  cases rem with
  | none => exact h.fn _ _ _ _ _
  | some rem =>
    refine (h.fn _ _ _ _ _).bind fun r => ?_
    cases r with
    | ok r => exact .pure _
    | error e => exact .ite (.pure _) (.ite (.pure _) (.pure _))
    | recovered e => exact .ite (.pure _) (.ite (.pure _) (.pure _))

theorem ConvFns.block {F : Nat → ParseFns σ' τ α} {f : ParseFns σ τ α} (h : ConvFns R F f) :
    ConvFns R (fun n => blockFns (F n)) (blockFns f) :=
  ⟨fun _ _ _ => (h.fast _ _ _).bind fun _ => .pure _,
   fun _ _ _ _ _ => (h.fn _ _ _ _ _).bind fun _ => .pure _⟩

theorem ConvFns.aligned {F : Nat → ParseFns σ' τ α} {f : ParseFns σ τ α} (h : ConvFns R F f) :
    ConvFns R (fun n => alignedFns (F n)) (alignedFns f) :=
  ⟨fun _ _ _ => .ite (h.fast _ _ _) (.pure _), fun _ _ _ _ _ => .ite (h.fn _ _ _ _ _) (.pure _)⟩

theorem ConvFns.indented {F : Nat → ParseFns σ' τ α} {f : ParseFns σ τ α} (d : Int) (h : ConvFns R F f) :
    ConvFns R (fun n => indentedFns d (F n)) (indentedFns d f) :=
  ⟨fun _ _ _ => .ite ((h.fast _ _ _).bind fun _ => .pure _) (.pure _),
   fun _ _ _ _ _ => .ite ((h.fn _ _ _ _ _).bind fun _ => .pure _) (.pure _)⟩

end Eff

end Reparsec
