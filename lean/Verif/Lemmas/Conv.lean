import Verif.Lemmas.Mono

/-!
# The combinators are continuous

If the functions of the parts, with growing fuel, reach what `f` gives, then so do those of the
whole.
-/

namespace Reparsec

variable {τ α β γ : Type}

/-- With enough fuel `x` gives `o` (unless `o` is "does not return"). -/
def Conv (x : Nat → Out α) (o : Out α) : Prop :=
  o ≠ .diverge → ∃ N, ∀ n, N ≤ n → x n = o

theorem Conv.refl (o : Out α) : Conv (fun _ => o) o := fun _ => ⟨0, fun _ _ => rfl⟩

theorem Conv.diverge {x : Nat → Out α} : Conv x .diverge := fun h => absurd rfl h

theorem Conv.bind {x : Nat → Out α} {o : Out α} {f : Nat → α → Out β} {g : α → Out β}
    (h : Conv x o) (hf : ∀ a, Conv (fun n => f n a) (g a)) :
    Conv (fun n => (x n).bind (f n)) (o.bind g) := by
  intro ho
  cases o with
  | diverge => exact absurd rfl ho
  | raise e =>
    obtain ⟨N, hN⟩ := h (by simp)
    exact ⟨N, fun n hn => by simp [hN n hn]⟩
  | ret a =>
    obtain ⟨N, hN⟩ := h (by simp)
    obtain ⟨M, hM⟩ := hf a ho
    exact ⟨max N M, fun n hn => by simp [hN n (by omega), hM n (by omega)]⟩

theorem Conv.succ {x : Nat → Out α} {o : Out α} (h : Conv (fun n => x (n + 1)) o) : Conv x o := by
  intro ho
  obtain ⟨N, hN⟩ := h ho
  refine ⟨N + 1, fun n hn => ?_⟩
  obtain ⟨n, rfl⟩ : ∃ k, n = k + 1 := ⟨n - 1, by omega⟩
  exact hN n (by omega)

/-- The same for parse functions. -/
structure ConvFns (F : Nat → ParseFns τ α) (f : ParseFns τ α) : Prop where
  fast : ∀ s pos ctx, Conv (fun n => (F n).fast s pos ctx) (f.fast s pos ctx)
  fn : ∀ s pos ctx ins rem, Conv (fun n => (F n).fn s pos ctx ins rem) (f.fn s pos ctx ins rem)

theorem ConvFns.refl (f : ParseFns τ α) : ConvFns (fun _ => f) f :=
  ⟨fun _ _ _ => .refl _, fun _ _ _ _ _ => .refl _⟩

theorem ConvFns.succ {F : Nat → ParseFns τ α} {f : ParseFns τ α}
    (h : ConvFns (fun n => F (n + 1)) f) : ConvFns F f :=
  ⟨fun _ _ _ => .succ (h.fast _ _ _), fun _ _ _ _ _ => .succ (h.fn _ _ _ _ _)⟩

theorem Conv.contReps {ins : Int} {k : Nat → α → Nat → Ctx τ → Int → Out (Result τ β)}
    {k' : α → Nat → Ctx τ → Int → Out (Result τ β)} {merge : α → β → γ}
    (hk : ∀ v p c r, Conv (fun n => k n v p c r) (k' v p c r)) (l : List (Repair τ α)) :
    Conv (fun n => Reparsec.contReps ins (k n) merge l) (Reparsec.contReps ins k' merge l) := by
  induction l with
  | nil => exact .refl _
  | cons r rs ih =>
    simp only [Reparsec.contReps, Out.bind_def]
    exact (hk _ _ _ _).bind fun _ => ih.bind fun _ => .refl _

theorem Conv.continueParse {ra : Recovered τ α} {ins : Int}
    {k : Nat → α → Nat → Ctx τ → Int → Out (Result τ β)}
    {k' : α → Nat → Ctx τ → Int → Out (Result τ β)} {merge : α → β → γ}
    (hk : ∀ v p c r, Conv (fun n => k n v p c r) (k' v p c r)) :
    Conv (fun n => Reparsec.continueParse ra ins (k n) merge)
      (Reparsec.continueParse ra ins k' merge) :=
  (Conv.contReps hk _).bind fun _ => .refl _

theorem ConvFns.fmap {F : Nat → ParseFns τ α} {f : ParseFns τ α} (fn : α → Except Exn β)
    (h : ConvFns F f) : ConvFns (fun n => fmapFns (F n) fn) (fmapFns f fn) :=
  ⟨fun _ _ _ => (h.fast _ _ _).bind fun _ => .refl _,
   fun _ _ _ _ _ => (h.fn _ _ _ _ _).bind fun _ => .refl _⟩

theorem Conv.altRecover {F G : Nat → ParseFns τ α} {f g : ParseFns τ α} (hf : ConvFns F f)
    (hg : ConvFns G g) (s pos ctx ins rem loc ex) :
    Conv (fun n => Reparsec.altRecover (F n) (G n) s pos ctx ins rem loc ex)
      (Reparsec.altRecover f g s pos ctx ins rem loc ex) := by
  cases rem with
  | none => exact .refl _
  | some rem =>
    exact (hf.fn _ _ _ _ _).bind fun _ => (hg.fn _ _ _ _ _).bind fun _ => .refl _

theorem Conv.altSecond {F G : Nat → ParseFns τ α} {f g : ParseFns τ α} (hf : ConvFns F f)
    (hg : ConvFns G g) (s pos ctx ins rem loc ex) :
    Conv (fun n => Reparsec.altSecond (F n) (G n) s pos ctx ins rem loc ex)
      (Reparsec.altSecond f g s pos ctx ins rem loc ex) := by
  refine (hg.fn _ _ _ _ _).bind fun r => ?_
  cases r with
  | ok r => exact .refl _
  | error e => simp only; split; exact .refl _; exact Conv.altRecover hf hg _ _ _ _ _ _ _
  | recovered e => simp only; split; exact .refl _; exact Conv.altRecover hf hg _ _ _ _ _ _ _

theorem ConvFns.alt {F G : Nat → ParseFns τ α} {f g : ParseFns τ α} (hf : ConvFns F f)
    (hg : ConvFns G g) : ConvFns (fun n => altFns (F n) (G n)) (altFns f g) := by
  constructor
  · intro s pos ctx
    refine (hf.fast _ _ _).bind fun r => ?_
    cases r with
    | ok r => exact .refl _
    | error e =>
      simp only; split
      · exact .refl _
      · exact (hg.fast _ _ _).bind fun _ => .refl _
  · intro s pos ctx ins rem
    refine (hf.fn _ _ _ _ _).bind fun r => ?_
    cases r with
    | ok r => exact .refl _
    | error e => simp only; split; exact .refl _; exact Conv.altSecond hf hg _ _ _ _ _ _ _
    | recovered e => simp only; split; exact .refl _; exact Conv.altSecond hf hg _ _ _ _ _ _ _

theorem ConvFns.bind {F : Nat → ParseFns τ α} {f : ParseFns τ α} {G : Nat → α → ParseFns τ β}
    {g : α → ParseFns τ β} (hf : ConvFns F f) (hg : ∀ a, ConvFns (fun n => G n a) (g a)) :
    ConvFns (fun n => bindFns (F n) (G n)) (bindFns f g) := by
  constructor
  · intro s pos ctx
    refine (hf.fast _ _ _).bind fun r => ?_
    cases r with
    | error e => exact .refl _
    | ok r => exact ((hg _).fast _ _ _).bind fun _ => .refl _
  · intro s pos ctx ins rem
    refine (hf.fn _ _ _ _ _).bind fun r => ?_
    cases r with
    | error e => exact .refl _
    | ok r =>
      simp only; split
      · exact ((hg _).fn _ _ _ _ _).bind fun _ => .refl _
      · exact ((hg _).fn _ _ _ _ _).bind fun _ => .refl _
    | recovered r => exact Conv.continueParse fun _ _ _ _ => (hg _).fn _ _ _ _ _

theorem Conv.of_ev {x y : Nat → Out α} {o : Out α} (h : Conv y o)
    (he : ∃ N, ∀ n, N ≤ n → x n = y n) : Conv x o := by
  intro ho
  obtain ⟨N, hN⟩ := h ho
  obtain ⟨M, hM⟩ := he
  exact ⟨max N M, fun n hn => by rw [hM n (by omega), hN n (by omega)]⟩

theorem Conv.manyFastLoop {F : Nat → FastFn τ α} {f : FastFn τ α}
    (h : ∀ s pos ctx, Conv (fun n => F n s pos ctx) (f s pos ctx)) (s : List τ) (n : Nat)
    (g : Nat → Nat) (hg : ∃ N, ∀ m, N ≤ m → n ≤ g m) (pos ctx c v) :
    Conv (fun m => Reparsec.manyFastLoop (F m) s (g m) pos ctx c v)
      (Reparsec.manyFastLoop f s n pos ctx c v) := by
  induction n generalizing g pos ctx c v with
  | zero => exact .diverge
  | succ n ih =>
    obtain ⟨N, hN⟩ := hg
    refine Conv.of_ev (y := fun m => Reparsec.manyFastLoop (F m) s ((g m - 1) + 1) pos ctx c v) ?_
      ⟨N, fun m hm => by have := hN m hm; rw [show g m - 1 + 1 = g m by omega]⟩
    refine (h _ _ _).bind fun r => ?_
    cases r with
    | ok r =>
      simp only; split
      · exact ih (fun m => g m - 1) ⟨N, fun m hm => by have := hN m hm; omega⟩ _ _ _ _
      · exact .refl _
    | error e => exact .refl _

theorem Conv.manyLoop {F : Nat → Fn τ α} {f : Fn τ α}
    (h : ∀ s pos ctx ins rem, Conv (fun n => F n s pos ctx ins rem) (f s pos ctx ins rem))
    (s : List τ) (ins : Int) (n : Nat)
    (g : Nat → Nat) (hg : ∃ N, ∀ m, N ≤ m → n ≤ g m) (pos ctx c v) :
    Conv (fun m => Reparsec.manyLoop (F m) s ins (g m) pos ctx c v)
      (Reparsec.manyLoop f s ins n pos ctx c v) := by
  induction n generalizing g pos ctx c v with
  | zero => exact .diverge
  | succ n ih =>
    obtain ⟨N, hN⟩ := hg
    have hg' : ∃ N, ∀ m, N ≤ m → n ≤ g m - 1 := ⟨N, fun m hm => by have := hN m hm; omega⟩
    refine Conv.of_ev (y := fun m => Reparsec.manyLoop (F m) s ins ((g m - 1) + 1) pos ctx c v) ?_
      ⟨N, fun m hm => by have := hN m hm; rw [show g m - 1 + 1 = g m by omega]⟩
    refine (h _ _ _ _ _).bind fun r => ?_
    cases r with
    | ok r =>
      simp only; split
      · exact ih (fun m => g m - 1) hg' _ _ _ _
      · exact .refl _
    | error e => exact .refl _
    | recovered r => exact Conv.continueParse fun _ _ _ _ => ih (fun m => g m - 1) hg' _ _ _ _

theorem ConvFns.many {F : Nat → ParseFns τ α} {f : ParseFns τ α} (h : ConvFns F f) (n : Nat) :
    ConvFns (fun m => manyFns m (F m)) (manyFns n f) :=
  ⟨fun s _ _ => Conv.manyFastLoop h.fast s n (fun m => m) ⟨n, fun _ h => h⟩ _ _ _ _,
   fun s _ _ ins _ => Conv.manyLoop h.fn s ins n (fun m => m) ⟨n, fun _ h => h⟩ _ _ _ _⟩

theorem ConvFns.attempt {F : Nat → ParseFns τ α} {f : ParseFns τ α} (h : ConvFns F f) :
    ConvFns (fun n => attemptFns (F n)) (attemptFns f) := by
  constructor
  · intro s pos ctx
    exact (h.fast _ _ _).bind fun _ => .refl _
  · intro s pos ctx ins rem
    cases rem with
    | none => exact (h.fast _ _ _).bind fun _ => .refl _
    | some rem => exact h.fn _ _ _ _ _

theorem ConvFns.label {F : Nat → ParseFns τ α} {f : ParseFns τ α} (x : String) (h : ConvFns F f) :
    ConvFns (fun n => labelFns (F n) x) (labelFns f x) :=
  ⟨fun _ _ _ => (h.fast _ _ _).bind fun _ => .refl _,
   fun _ _ _ _ _ => (h.fn _ _ _ _ _).bind fun _ => .refl _⟩

theorem ConvFns.recover {F : Nat → ParseFns τ α} {f : ParseFns τ α} (h : ConvFns F f) :
    ConvFns (fun n => recoverFns (F n)) (recoverFns f) :=
  ⟨h.fast, fun _ _ _ _ _ => (h.fn _ _ _ _ _).bind fun _ => .refl _⟩

theorem ConvFns.recoverWithFn {F : Nat → ParseFns τ α} {f : ParseFns τ α}
    (fn : List τ → Nat → Except Exn α) (lbl : α → String) (h : ConvFns F f) :
    ConvFns (fun n => recoverWithFnFns (F n) fn lbl) (recoverWithFnFns f fn lbl) := by
  refine ⟨h.fast, fun s pos ctx ins rem => ?_⟩
  cases rem with
  | none => exact h.fn _ _ _ _ _
  | some rem => exact (h.fn _ _ _ _ _).bind fun _ => .refl _

theorem ConvFns.block {F : Nat → ParseFns τ α} {f : ParseFns τ α} (h : ConvFns F f) :
    ConvFns (fun n => blockFns (F n)) (blockFns f) :=
  ⟨fun _ _ _ => (h.fast _ _ _).bind fun _ => .refl _,
   fun _ _ _ _ _ => (h.fn _ _ _ _ _).bind fun _ => .refl _⟩

theorem ConvFns.aligned {F : Nat → ParseFns τ α} {f : ParseFns τ α} (h : ConvFns F f) :
    ConvFns (fun n => alignedFns (F n)) (alignedFns f) := by
  constructor
  · intro s pos ctx; simp only [alignedFns]; split; exact h.fast _ _ _; exact .refl _
  · intro s pos ctx ins rem; simp only [alignedFns]; split; exact h.fn _ _ _ _ _; exact .refl _

theorem ConvFns.indented {F : Nat → ParseFns τ α} {f : ParseFns τ α} (d : Int) (h : ConvFns F f) :
    ConvFns (fun n => indentedFns d (F n)) (indentedFns d f) := by
  constructor
  · intro s pos ctx; simp only [indentedFns]; split
    · exact (h.fast _ _ _).bind fun _ => .refl _
    · exact .refl _
  · intro s pos ctx ins rem; simp only [indentedFns]; split
    · exact (h.fn _ _ _ _ _).bind fun _ => .refl _
    · exact .refl _

theorem ConvFns.seqWith {F : Nat → ParseFns τ α} {f : ParseFns τ α} {G : Nat → ParseFns τ β}
    {g : ParseFns τ β} (m : α → β → γ) (hf : ConvFns F f) (hg : ConvFns G g) :
    ConvFns (fun n => seqFns (F n) (G n) m) (seqFns f g m) := by
  simp only [seqFns_eq]
  exact hf.bind fun a => hg.fmap _

theorem ConvFns.maybe {F : Nat → ParseFns τ α} {f : ParseFns τ α} (h : ConvFns F f) :
    ConvFns (fun n => maybeFns (F n)) (maybeFns f) := by
  simp only [maybeFns_eq]
  exact (h.fmap _).alt (.refl _)

theorem ConvFns.recoverWith {F : Nat → ParseFns τ α} {f : ParseFns τ α} (x : α) (vs : String)
    (h : ConvFns F f) : ConvFns (fun n => recoverWithFns (F n) x vs) (recoverWithFns f x vs) := by
  simp only [recoverWithFns_eq]
  exact h.recoverWithFn _ _

end Reparsec
