import Verif.Props.Run

/-!
# Reasoning about `Yields`: big-step rules
-/

namespace Reparsec

variable {τ ρ : Type} {Γ : ρ → Type} {α β γ : Type}

/-- More fuel does not change a result. -/
def Mono (f : Nat → Out α) : Prop := ∀ n n', n ≤ n' → (f n).Le (f n')

theorem Mono.ret {f : Nat → Out α} (h : Mono f) {n n' : Nat} (hn : n ≤ n') {a : α}
    (hf : f n = .ret a) : f n' = .ret a := (h n n' hn).ret hf

theorem Mono.eq {f : Nat → Out α} (h : Mono f) {n n' : Nat} (hn : n ≤ n') {o : Out α}
    (ho : o ≠ .diverge) (hf : f n = o) : f n' = o := by
  rw [(h n n' hn).eq (by rw [hf]; exact ho), hf]

theorem Yields.const (o : Out α) : Yields (fun _ => o) o := by
  cases o with
  | diverge => exact fun _ => rfl
  | raise e => exact ⟨0, rfl⟩
  | ret a => exact ⟨0, rfl⟩

theorem Mono.const (o : Out α) : Mono (fun _ => o) := fun _ _ _ => .refl _

/-- A terminating outcome: from some point on. -/
theorem Yields.eventually {f : Nat → Out α} (hf : Mono f) {o : Out α} (ho : o ≠ .diverge)
    (h : Yields f o) : ∃ n, ∀ n', n ≤ n' → f n' = o := by
  cases o with
  | diverge => exact absurd rfl ho
  | raise e => obtain ⟨n, h⟩ := h; exact ⟨n, fun n' hn => hf.eq hn (by simp) h⟩
  | ret a => obtain ⟨n, h⟩ := h; exact ⟨n, fun n' hn => hf.eq hn (by simp) h⟩

theorem Yields.of_eq {f : Nat → Out α} {o : Out α} {n : Nat} (ho : o ≠ .diverge) (h : f n = o) :
    Yields f o := by
  cases o with
  | diverge => exact absurd rfl ho
  | raise e => exact ⟨n, h⟩
  | ret a => exact ⟨n, h⟩

theorem Yields.total (f : Nat → Out α) : ∃ o, Yields f o := by
  by_cases h : ∃ n, f n ≠ .diverge
  · obtain ⟨n, h⟩ := h
    exact ⟨f n, .of_eq h rfl⟩
  · refine ⟨.diverge, fun n => ?_⟩
    by_cases h' : f n = .diverge
    · exact h'
    · exact absurd ⟨n, h'⟩ h

theorem Yields.unique {f : Nat → Out α} (hf : Mono f) {o o' : Out α} (h : Yields f o)
    (h' : Yields f o') : o = o' := by
  by_cases ho : o = .diverge
  · subst ho
    by_cases ho' : o' = .diverge
    · exact ho'.symm
    · obtain ⟨n, hn⟩ := h'.eventually hf ho'
      rw [← hn n (Nat.le_refl _)]; exact (h n).symm
  · obtain ⟨n, hn⟩ := h.eventually hf ho
    by_cases ho' : o' = .diverge
    · subst ho'
      rw [← hn n (Nat.le_refl _)]; exact h' n
    · obtain ⟨n', hn'⟩ := h'.eventually hf ho'
      rw [← hn (max n n') (by omega), ← hn' (max n n') (by omega)]

/-- Two computations that agree once there is enough fuel. -/
theorem Yields.congr {f g : Nat → Out α} (h : ∀ n, f n = g n) {o : Out α} :
    Yields f o ↔ Yields g o := by
  have : f = g := funext h
  rw [this]

theorem Mono.bind {f : Nat → Out α} {g : α → Nat → Out β} (hf : Mono f) (hg : ∀ a, Mono (g a)) :
    Mono (fun n => (f n).bind fun a => g a n) :=
  fun n n' hn => Out.Le.bind (hf n n' hn) fun a => hg a n n' hn

theorem Yields.bind {f : Nat → Out α} {g : α → Nat → Out β} (hf : Mono f)
    {a : α} {o : Out β} (h : Yields f (.ret a)) (hg : Mono (g a)) (h' : Yields (g a) o) :
    Yields (fun n => (f n).bind fun a => g a n) o := by
  obtain ⟨n, hn⟩ := h.eventually hf (by simp)
  by_cases ho : o = .diverge
  · subst ho
    intro k
    rcases hf k (max n k) (by omega) with h1 | h1
    · simp [h1]
    · simp only [h1, hn _ (Nat.le_max_left n k)]; exact h' k
  · obtain ⟨n', hn'⟩ := h'.eventually hg ho
    refine .of_eq (n := max n n') ho ?_
    rw [hn _ (by omega)]; exact hn' _ (by omega)

theorem Yields.bind_raise {f : Nat → Out α} {g : α → Nat → Out β}
    {e : Exn} (h : Yields f (.raise e)) : Yields (fun n => (f n).bind fun a => g a n) (.raise e) := by
  obtain ⟨n, hn⟩ := h
  exact ⟨n, by simp [hn]⟩

theorem Yields.bind_diverge {f : Nat → Out α} {g : α → Nat → Out β}
    (h : Yields f .diverge) : Yields (fun n => (f n).bind fun a => g a n) .diverge := by
  intro n
  simp only
  rw [h n]; rfl

theorem Yields.map {f : Nat → Out α} {o : Out α} (h : Yields f o) (g : α → β) :
    Yields (fun n => (f n).bind fun a => .ret (g a)) (o.map g) := by
  cases o with
  | diverge => exact h.bind_diverge
  | raise e => exact h.bind_raise
  | ret a =>
    obtain ⟨n, hn⟩ := h
    exact ⟨n, by simp [hn]⟩

/-- Inversion of sequencing. -/
theorem Yields.bind_inv {f : Nat → Out α} {g : α → Nat → Out β} (hf : Mono f)
    (hg : ∀ a, Mono (g a)) {o : Out β} (h : Yields (fun n => (f n).bind fun a => g a n) o) :
    (∃ a, Yields f (.ret a) ∧ Yields (g a) o) ∨ (∃ e, Yields f (.raise e) ∧ o = .raise e) ∨
      (Yields f .diverge ∧ o = .diverge) := by
  obtain ⟨x, hx⟩ := Yields.total f
  cases x with
  | diverge => exact .inr (.inr ⟨hx, Yields.unique (hf.bind hg) h hx.bind_diverge⟩)
  | raise e => exact .inr (.inl ⟨e, hx, Yields.unique (hf.bind hg) h hx.bind_raise⟩)
  | ret a =>
    obtain ⟨y, hy⟩ := Yields.total (g a)
    have := Yields.unique (hf.bind hg) h (Yields.bind hf hx (hg a) hy)
    subst this
    exact .inl ⟨a, hx, hy⟩

/-- The fuel of the loop and of the body need not be the same. -/
theorem Yields.shift {F : Nat → Nat → Out α}
    (hm : ∀ n n' m m', n ≤ n' → m ≤ m' → (F n m).Le (F n' m')) {o : Out α} :
    Yields (fun n => F n n) o ↔ Yields (fun n => F (n + 1) n) o := by
  have m1 : Mono (fun n => F n n) := fun n n' h => hm _ _ _ _ h h
  have m2 : Mono (fun n => F (n + 1) n) := fun n n' h => hm _ _ _ _ (by omega) h
  have key : ∀ {o}, Yields (fun n => F n n) o → Yields (fun n => F (n + 1) n) o := by
    intro o h
    by_cases ho : o = .diverge
    · subst ho
      intro n
      rcases hm (n + 1) (n + 1) n (n + 1) (Nat.le_refl _) (by omega) with h1 | h1
      · exact h1
      · simp only; rw [h1]; exact h (n + 1)
    · obtain ⟨n, hn⟩ := h.eventually m1 ho
      refine .of_eq (n := n) ho ?_
      have h1 := hn n (Nat.le_refl _)
      rw [(hm n (n + 1) n n (by omega) (Nat.le_refl _)).eq (by rw [h1]; exact ho), h1]
  refine ⟨key, fun h => ?_⟩
  obtain ⟨x, hx⟩ := Yields.total (fun n => F n n)
  rw [Yields.unique m2 h (key hx)]; exact hx

section
variable [BEq τ] {env : Env τ ρ Γ} {p : P τ ρ Γ α} {s : List τ} {pos : Nat} {ctx : Ctx τ}
  {ins : Int} {rem : Option Int}

theorem mono_fast (env : Env τ ρ Γ) (p : P τ ρ Γ α) (s : List τ) (pos : Nat) (ctx : Ctx τ) :
    Mono (fun n => (denote env n p).fast s pos ctx) :=
  fun _ _ h => (denote_le env h p).1 _ _ _

theorem mono_fn (env : Env τ ρ Γ) (p : P τ ρ Γ α) (s : List τ) (pos : Nat) (ctx : Ctx τ)
    (ins : Int) (rem : Option Int) :
    Mono (fun n => (denote env n p).fn s pos ctx ins rem) :=
  fun _ _ h => (denote_le env h p).2 _ _ _ _ _

/-- Running a parser ends in exactly one way. -/
theorem RunPlain.total (env : Env τ ρ Γ) (p : P τ ρ Γ α) (s : List τ) (pos : Nat) (ctx : Ctx τ) :
    ∃ o, RunPlain env p s pos ctx o := Yields.total _

theorem RunPlain.unique {o o' : Out (Simple τ α)} (h : RunPlain env p s pos ctx o)
    (h' : RunPlain env p s pos ctx o') : o = o' := Yields.unique (mono_fast env p s pos ctx) h h'

theorem RunRec.total (env : Env τ ρ Γ) (p : P τ ρ Γ α) (s : List τ) (pos : Nat) (ctx : Ctx τ)
    (ins : Int) (rem : Option Int) : ∃ o, RunRec env p s pos ctx ins rem o := Yields.total _

theorem RunRec.unique {o o' : Out (Result τ α)} (h : RunRec env p s pos ctx ins rem o)
    (h' : RunRec env p s pos ctx ins rem o') : o = o' :=
  Yields.unique (mono_fn env p s pos ctx ins rem) h h'

/-- Equal functions at every fuel: the same behaviour. -/
theorem Same.of_denote {p q : P τ ρ Γ α} (h : ∀ n, denote env n p = denote env n q) :
    Same env p q where
  plain s pos ctx o := Yields.congr fun n => by rw [h]
  recovering s pos ctx ins rem o := Yields.congr fun n => by rw [h]

theorem Same.refl (p : P τ ρ Γ α) : Same env p p := .of_denote fun _ => rfl

theorem Same.symm {p q : P τ ρ Γ α} (h : Same env p q) : Same env q p :=
  ⟨fun _ _ _ _ => (h.plain _ _ _ _).symm, fun _ _ _ _ _ _ => (h.recovering _ _ _ _ _ _).symm⟩

theorem Same.trans {p q r : P τ ρ Γ α} (h : Same env p q) (h' : Same env q r) : Same env p r :=
  ⟨fun _ _ _ _ => (h.plain _ _ _ _).trans (h'.plain _ _ _ _),
   fun _ _ _ _ _ _ => (h.recovering _ _ _ _ _ _).trans (h'.recovering _ _ _ _ _ _)⟩

/-- Parsers that behave in the same way give the same results to a user. -/
theorem Same.returns {p q : P τ ρ Γ α} (h : Same env p q) (o : Opts τ) (r : Result τ α) :
    Returns env p s o r ↔ Returns env q s o r := by
  unfold Returns parse
  cases hb : o.recover with
  | true => exact h.recovering s 0 (initCtx o.getLoc) o.maxInsertions (some o.maxInsertions) (.ret r)
  | false =>
    simp only [Bool.false_eq_true, if_false, Out.bind_def, Out.bind_eq_ret, Out.pure_def,
      Out.ret.injEq]
    constructor
    · rintro ⟨n, x, h1, h2⟩
      obtain ⟨n', h3⟩ := (h.plain s 0 (initCtx o.getLoc) (.ret x)).1 ⟨n, h1⟩
      exact ⟨n', x, h3, h2⟩
    · rintro ⟨n, x, h1, h2⟩
      obtain ⟨n', h3⟩ := (h.plain s 0 (initCtx o.getLoc) (.ret x)).2 ⟨n, h1⟩
      exact ⟨n', x, h3, h2⟩

end

end Reparsec
