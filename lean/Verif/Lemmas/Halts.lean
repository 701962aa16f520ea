import Verif.Lemmas.Yields
import Verif.Lemmas.SoundAll
import Verif.Lemmas.Locs

/-!
# When does running a parser end?

Rules for each combinator: running it ends if running its parts, from wherever they are started,
ends.
-/

namespace Reparsec

variable {τ ρ : Type} {Γ : ρ → Type} {α β γ : Type}

/-- With enough fuel the computation ends. -/
def Ev (f : Nat → Out α) : Prop := ∃ n, ∀ m, n ≤ m → f m ≠ .diverge

theorem Ev.of_mono {f : Nat → Out α} (hf : Mono f) {n : Nat} (h : f n ≠ .diverge) : Ev f :=
  ⟨n, fun _ hm => by rw [hf.eq hm h rfl]; exact h⟩

theorem Ev.const {o : Out α} (h : o ≠ .diverge) : Ev (fun _ => o) := ⟨0, fun _ _ => h⟩

theorem Ev.congr {f g : Nat → Out α} (h : ∀ n, f n = g n) (hf : Ev f) : Ev g := by
  have : f = g := funext h
  rwa [← this]

theorem Ev.mono {f g : Nat → Out α} (h : ∀ n, (f n).Le (g n)) (hf : Ev f) : Ev g := by
  obtain ⟨n, hn⟩ := hf
  exact ⟨n, fun m hm => by rw [(h m).eq (hn m hm)]; exact hn m hm⟩

theorem Ev.succ {f : Nat → Out α} (hf : Ev fun n => f (n + 1)) : Ev f := by
  obtain ⟨n, hn⟩ := hf
  refine ⟨n + 1, fun m hm => ?_⟩
  obtain ⟨m, rfl⟩ : ∃ k, m = k + 1 := ⟨m - 1, by omega⟩
  exact hn m (by omega)

theorem Ev.bind {f : Nat → Out α} {g : Nat → α → Out β} (hm : Mono f) (hf : Ev f)
    (hg : ∀ a n, f n = .ret a → Ev (fun n => g n a)) : Ev (fun n => (f n).bind (g n)) := by
  obtain ⟨n, hn⟩ := hf
  have h0 := hn n (Nat.le_refl _)
  cases h1 : f n with
  | diverge => exact absurd h1 h0
  | raise e =>
    refine ⟨n, fun m h => ?_⟩
    simp only [hm.eq h (by simp) h1]; simp
  | ret a =>
    obtain ⟨k, hk⟩ := hg a n h1
    refine ⟨max n k, fun m h => ?_⟩
    simp only [hm.eq (show n ≤ m by omega) (by simp) h1]
    exact hk m (by omega)

theorem Ev.contReps {ins : Int} {k : Nat → α → Nat → Ctx τ → Int → Out (Result τ β)}
    {merge : α → β → γ} (l : List (Repair τ α))
    (hm : ∀ v p c r, Mono fun n => k n v p c r)
    (h : ∀ r ∈ l, Ev fun n => k n r.value r.pos r.ctx r.ins) :
    Ev fun n => Reparsec.contReps ins (k n) merge l := by
  induction l with
  | nil => exact .const (by simp)
  | cons r rs ih =>
    simp only [Reparsec.contReps, Out.bind_def]
    refine Ev.bind (hm _ _ _ _) (h r List.mem_cons_self) fun rb _ _ => ?_
    refine Ev.bind (f := fun n => Reparsec.contReps ins (k n) merge rs) ?_
      (ih fun r hr => h r (List.mem_cons_of_mem _ hr)) fun _ _ _ => .const (by simp)
    exact fun n n' hn => contReps_le (fun v p c r => hm v p c r n n' hn) rs

theorem Ev.continueParse {ra : Recovered τ α} {ins : Int}
    {k : Nat → α → Nat → Ctx τ → Int → Out (Result τ β)}
    {merge : α → β → γ} (hm : ∀ v p c r, Mono fun n => k n v p c r)
    (h : ∀ r ∈ ra.repairs, Ev fun n => k n r.value r.pos r.ctx r.ins) :
    Ev fun n => Reparsec.continueParse ra ins (k n) merge := by
  simp only [Reparsec.continueParse, Out.bind_def]
  refine Ev.bind (f := fun n => Reparsec.contReps ins (k n) merge ra.repairs) ?_
    (Ev.contReps _ hm h) fun _ _ _ => .const (by simp)
  exact fun n n' hn => contReps_le (fun v p c r => hm v p c r n n' hn) _

section
variable [BEq τ] {env : Env τ ρ Γ} {s : List τ} {pos : Nat} {ctx : Ctx τ} {ins : Int}
  {rem : Option Int}

/-- Running `p` here, with recovery, ends. -/
def Ends (env : Env τ ρ Γ) (p : P τ ρ Γ α) (s : List τ) (pos : Nat) (ctx : Ctx τ) (ins : Int)
    (rem : Option Int) : Prop :=
  Ev fun n => (denote env n p).fn s pos ctx ins rem

theorem Ends.fast {p : P τ ρ Γ α} (h : Ends env p s pos ctx ins rem) :
    Ev fun n => (denote env n p).fast s pos ctx := by
  obtain ⟨n, hn⟩ := h
  exact ⟨n, fun m hm hf => hn m hm ((sim_denote env m p).diverge hf _ _)⟩

theorem Ends.congr {p q : P τ ρ Γ α} (h : ∀ n, denote env n p = denote env n q)
    (hp : Ends env p s pos ctx ins rem) : Ends env q s pos ctx ins rem :=
  Ev.congr (fun n => by rw [h]) hp

omit [BEq τ] in
theorem Result.fmapM_ne {fn : α → Except Exn β} (r : Result τ α) : r.fmapM fn ≠ .diverge := by
  have aux : ∀ l : List (Repair τ α), repairsFmapM fn l ≠ .diverge := by
    intro l
    induction l with
    | nil => simp [repairsFmapM]
    | cons r rs ih =>
      simp only [repairsFmapM, Repair.fmapM, Out.bind_def, Out.pure_def, ne_eq]
      cases fn r.value with
      | error e => simp
      | ok v =>
        cases h : repairsFmapM fn rs with
        | diverge => exact absurd h ih
        | raise e => simp
        | ret x => simp
  cases r with
  | ok r =>
    simp only [Result.fmapM, Ok.fmapM, Out.bind_def, Out.pure_def]
    cases fn r.value <;> simp
  | error e => simp [Result.fmapM]
  | recovered r =>
    simp only [Result.fmapM, Out.bind_def, Out.pure_def]
    cases h : repairsFmapM fn r.repairs with
    | diverge => exact absurd h (aux _)
    | raise e => simp
    | ret x => simp

theorem Ends.fmap {p : P τ ρ Γ α} {fn : α → Except Exn β} (h : Ends env p s pos ctx ins rem) :
    Ends env (.fmap p fn) s pos ctx ins rem := by
  show Ev fun n => ((denote env n p).fn s pos ctx ins rem).bind fun r => r.fmapM fn
  exact Ev.bind (mono_fn _ _ _ _ _ _ _) h fun a _ _ => .const (Result.fmapM_ne a)

theorem Ends.bind {p : P τ ρ Γ α} {k : α → P τ ρ Γ β} (h : Ends env p s pos ctx ins rem)
    (hok : ∀ n ra, (denote env n p).fn s pos ctx ins rem = .ret (.ok ra) →
      Ends env (k ra.value) s ra.pos ra.ctx ins (if ra.consumed then some ins else rem))
    (hrec : ∀ n ra, (denote env n p).fn s pos ctx ins rem = .ret (.recovered ra) →
      ∀ r ∈ ra.repairs, Ends env (k r.value) s r.pos r.ctx ins (some r.ins)) :
    Ends env (.bind p k) s pos ctx ins rem := by
  show Ev fun n => bindFn (denote env n p) (fun a => denote env n (k a)) s pos ctx ins rem
  simp only [bindFn, Out.bind_def]
  refine Ev.bind (mono_fn _ _ _ _ _ _ _) h fun a n hn => ?_
  cases a with
  | error e => exact .const (by simp)
  | recovered ra =>
    exact Ev.continueParse (fun v p c r => mono_fn _ _ _ _ _ _ _) (hrec n ra hn)
  | ok ra =>
    have := hok n ra hn
    cases hc : ra.consumed with
    | true =>
      simp only [hc, if_true] at this ⊢
      exact Ev.bind (mono_fn _ _ _ _ _ _ _) this fun _ _ _ => .const (by simp)
    | false =>
      simp only [hc, Bool.false_eq_true, if_false] at this ⊢
      exact Ev.bind (mono_fn _ _ _ _ _ _ _) this fun _ _ _ => .const (by simp)

theorem Ends.alt {p q : P τ ρ Γ α} (hp0 : Ends env p s pos ctx ins none)
    (hq0 : Ends env q s pos ctx ins none) (hp : Ends env p s pos ctx ins rem)
    (hq : Ends env q s pos ctx ins rem) : Ends env (.alt p q) s pos ctx ins rem := by
  have hrec : ∀ loc ex, Ev fun n =>
      altRecover (denote env n p) (denote env n q) s pos ctx ins rem loc ex := by
    intro loc ex
    unfold altRecover
    cases rem with
    | none => exact .const (by simp)
    | some k =>
      simp only [Out.bind_def]
      refine Ev.bind (mono_fn _ _ _ _ _ _ _) hp fun a _ _ => ?_
      refine Ev.bind (mono_fn _ _ _ _ _ _ _) hq fun b _ _ => ?_
      cases a <;> cases b <;> exact .const (by simp)
  have hsec : ∀ loc ex, Ev fun n =>
      altSecond (denote env n p) (denote env n q) s pos ctx ins rem loc ex := by
    intro loc ex
    simp only [altSecond, Out.bind_def]
    refine Ev.bind (mono_fn _ _ _ _ _ _ _) hq0 fun b _ _ => ?_
    cases b with
    | ok r => simp only; split <;> exact .const (by simp)
    | error e => simp only; split; exact .const (by simp); exact hrec _ _
    | recovered r => simp only; split; exact .const (by simp); exact hrec _ _
  show Ev fun n => altFn (denote env n p) (denote env n q) s pos ctx ins rem
  simp only [altFn, Out.bind_def]
  refine Ev.bind (mono_fn _ _ _ _ _ _ _) hp0 fun a _ _ => ?_
  cases a with
  | ok r => exact .const (by simp)
  | error e => simp only; split; exact .const (by simp); exact hsec _ _
  | recovered r => simp only; split; exact .const (by simp); exact hsec _ _

theorem Ends.seqWith {p : P τ ρ Γ α} {q : P τ ρ Γ β} {m : α → β → γ}
    (h : Ends env p s pos ctx ins rem)
    (hok : ∀ n ra, (denote env n p).fn s pos ctx ins rem = .ret (.ok ra) →
      Ends env q s ra.pos ra.ctx ins (if ra.consumed then some ins else rem))
    (hrec : ∀ n ra, (denote env n p).fn s pos ctx ins rem = .ret (.recovered ra) →
      ∀ r ∈ ra.repairs, Ends env q s r.pos r.ctx ins (some r.ins)) :
    Ends env (.seqWith p q m) s pos ctx ins rem := by
  refine Ends.congr (p := .bind p fun a => .fmap q fun b => .ok (m a b)) (fun n => ?_)
    (Ends.bind h (fun n ra hn => (hok n ra hn).fmap) fun n ra hn r hr => (hrec n ra hn r hr).fmap)
  exact (seqFns_eq _ _ _).symm

theorem Ends.maybe {p : P τ ρ Γ α} (h : Ends env p s pos ctx ins none) :
    Ends env (.maybe p) s pos ctx ins rem := by
  show Ev fun n => maybeFn (denote env n p) s pos ctx ins rem
  simp only [maybeFn, Out.bind_def]
  refine Ev.bind (mono_fn _ _ _ _ _ _ _) h fun a _ _ => ?_
  cases a with
  | ok r => exact .const (by simp)
  | error e => simp only; split <;> exact .const (by simp)
  | recovered r => simp only; split <;> exact .const (by simp)

/-- A `many` loop ends if its body does, from here on: each iteration, and each repair, moves on. -/
theorem Ends.many {p : P τ ρ Γ α}
    (h : ∀ pos' ctx', pos ≤ pos' → pos' ≤ s.length → Ends env p s pos' ctx' ins none)
    (hp : pos ≤ s.length) : Ends env (.many p) s pos ctx ins rem := by
  show Ev fun n => manyLoop (denote env n p).fn s ins n pos ctx false []
  have key : ∀ d pos ctx c v, (∀ pos' ctx', pos ≤ pos' → pos' ≤ s.length →
      Ends env p s pos' ctx' ins none) → pos ≤ s.length → s.length - pos < d →
      Ev fun n => manyLoop (denote env n p).fn s ins n pos ctx c v := by
    intro d
    induction d with
    | zero => intro _ _ _ _ _ _ hd; omega
    | succ d ih =>
      intro pos ctx c v h hp hd
      -- one step of the loop has its own fuel
      have step : ∀ pos' ctx' c v, pos < pos' → pos' ≤ s.length →
          Ev fun n => manyLoop (denote env (n + 1) p).fn s ins n pos' ctx' c v := by
        intro pos' ctx' c v h1 h2
        refine Ev.mono (fun n => ?_) (ih pos' ctx' c v (fun _ _ h3 => h _ _ (by omega)) h2
          (by omega))
        exact manyLoop_le (denote_le env (Nat.le_succ n) p).2 s ins (Nat.le_refl _) _ _ _ _
      refine Ev.succ ?_
      simp only [manyLoop, Out.bind_def]
      refine Ev.bind (f := fun n => (denote env (n + 1) p).fn s pos ctx ins none) ?_ ?_ ?_
      · exact fun n n' hn => (denote_le env (by omega : n + 1 ≤ n' + 1) p).2 _ _ _ _ _
      · obtain ⟨n, hn⟩ := h pos ctx (Nat.le_refl _) hp
        exact ⟨n, fun m hm => hn _ (by omega)⟩
      · intro a n hn
        have hfr := frame_denote env (n + 1) p s pos ctx ins none _ hp hn
        cases a with
        | ok r =>
          have hfr : OkFrame .. := hfr
          cases hc : r.consumed with
          | true =>
            simp only [if_true, hc]
            have hlt : pos < r.pos := by simpa [hc] using hfr.consumed.symm
            exact step _ _ _ _ hlt hfr.hi
          | false => simp only [hc, Bool.false_eq_true, if_false]; exact .const (by simp)
        | error e => simp only; split <;> exact .const (by simp)
        | recovered r =>
          have hfr : RecFrame .. := hfr
          refine Ev.continueParse
            (k := fun n _ p' c _ => manyLoop (denote env (n + 1) p).fn s ins n p' c false []) ?_ ?_
          · intro v p' c r n n' hn
            exact manyLoop_le (denote_le env (by omega : n + 1 ≤ n' + 1) p).2 s ins hn _ _ _ _
          · intro x hx
            have := hfr.reps x hx
            exact step _ _ _ _ (this.lt rfl) this.hi
  exact key _ pos ctx false [] h hp (Nat.lt_succ_self _)

theorem Ends.attempt {p : P τ ρ Γ α} (h : Ends env p s pos ctx ins rem) :
    Ends env (.attempt p) s pos ctx ins rem := by
  show Ev fun n => attemptFn (denote env n p) s pos ctx ins rem
  unfold attemptFn
  cases rem with
  | some k => exact h
  | none =>
    simp only [Out.bind_def]
    refine Ev.bind (mono_fast _ _ _ _ _) h.fast fun a _ _ => ?_
    cases a <;> exact .const (by simp)

theorem Ends.label {p : P τ ρ Γ α} {x : String} (h : Ends env p s pos ctx ins rem) :
    Ends env (.label p x) s pos ctx ins rem := by
  show Ev fun n => ((denote env n p).fn s pos ctx ins rem).bind fun r => .ret (r.setExpected [x])
  exact Ev.bind (mono_fn _ _ _ _ _ _ _) h fun _ _ _ => .const (by simp)

theorem Ends.recover {p : P τ ρ Γ α} (h : Ends env p s pos ctx ins rem) :
    Ends env (.recover p) s pos ctx ins rem := by
  show Ev fun n => recoverFn (denote env n p) s pos ctx ins rem
  simp only [recoverFn, Out.bind_def]
  refine Ev.bind (mono_fn _ _ _ _ _ _ _) h fun a _ _ => ?_
  cases a <;> exact .const (by simp)

theorem Ends.recoverWithFn {p : P τ ρ Γ α} {fn lbl} (h : Ends env p s pos ctx ins rem) :
    Ends env (.recoverWithFn p fn lbl) s pos ctx ins rem := by
  show Ev fun n => recoverWithFnFn (denote env n p) fn lbl s pos ctx ins rem
  unfold recoverWithFnFn
  cases rem with
  | none => exact h
  | some k =>
    simp only [Out.bind_def]
    refine Ev.bind (mono_fn _ _ _ _ _ _ _) h fun a _ _ => ?_
    cases a with
    | ok r => exact .const (by simp)
    | error e =>
      simp only
      split
      · exact .const (by simp)
      · split
        · cases fn s pos <;> exact .const (by simp)
        · exact .const (by simp)
    | recovered r =>
      simp only
      split
      · exact .const (by simp)
      · split
        · cases fn s pos <;> exact .const (by simp)
        · exact .const (by simp)

theorem Ends.recoverWith {p : P τ ρ Γ α} {x : α} {vs : String} (h : Ends env p s pos ctx ins rem) :
    Ends env (.recoverWith p x vs) s pos ctx ins rem := by
  refine Ends.congr (p := .recoverWithFn p (fun _ _ => .ok x) (fun _ => vs)) (fun n => ?_)
    h.recoverWithFn
  exact (recoverWithFns_eq _ _ _).symm

theorem Ends.block {p : P τ ρ Γ α} (h : ∀ ctx, Ends env p s pos ctx ins rem) :
    Ends env (.block p) s pos ctx ins rem := by
  show Ev fun n => (blockFns (denote env n p)).fn s pos ctx ins rem
  simp only [blockFns, Out.bind_def]
  exact Ev.bind (mono_fn _ _ _ _ _ _ _) (h _) fun _ _ _ => .const (by simp)

theorem Ends.aligned {p : P τ ρ Γ α} (h : ∀ ctx, Ends env p s pos ctx ins rem) :
    Ends env (.aligned p) s pos ctx ins rem := by
  show Ev fun n => (alignedFns (denote env n p)).fn s pos ctx ins rem
  simp only [alignedFns]
  split
  · exact h _
  · exact .const (by simp)

theorem Ends.indented {p : P τ ρ Γ α} {d : Int} (h : ∀ ctx, Ends env p s pos ctx ins rem) :
    Ends env (.indented d p) s pos ctx ins rem := by
  show Ev fun n => (indentedFns d (denote env n p)).fn s pos ctx ins rem
  simp only [indentedFns, Out.bind_def]
  split
  · exact Ev.bind (mono_fn _ _ _ _ _ _ _) (h _) fun _ _ _ => .const (by simp)
  · exact .const (by simp)

theorem Ends.ref_undefined {i : ρ} (h : env i = none) : Ends env (.ref i) s pos ctx ins rem := by
  refine Ev.succ ?_
  show Ev fun n => (table env (n + 1) i).fn s pos ctx ins rem
  simp only [table, h, undefinedFns]
  exact .const (by simp)

theorem Ends.ref_defined {i : ρ} {p : P τ ρ Γ (Γ i)} (h : env i = some p)
    (hp : Ends env p s pos ctx ins rem) : Ends env (.ref i) s pos ctx ins rem := by
  refine Ev.succ ?_
  show Ev fun n => (table env (n + 1) i).fn s pos ctx ins rem
  simp only [table, h]
  exact hp

theorem Ends.const {p : P τ ρ Γ α}
    (h : ∀ n m, denote env n p = denote env m p)
    (h' : (denote env 0 p).fn s pos ctx ins rem ≠ .diverge) : Ends env p s pos ctx ins rem :=
  ⟨0, fun m _ => by have := h m 0; simp only [this]; exact h'⟩

theorem ofExcept_bind_ne {x : Except Exn α} {f : α → Out β} (h : ∀ a, x = .ok a → f a ≠ .diverge) :
    (Out.ofExcept x).bind f ≠ .diverge := by
  cases x with
  | error e => simp
  | ok a => exact h a rfl

theorem Ends.pureFn {x : Except Exn α} : Ends env (.pureFn x) s pos ctx ins rem :=
  .const (fun _ _ => rfl) (ofExcept_bind_ne fun _ _ => by simp)

theorem Ends.pure {x : α} : Ends env (.pure x) s pos ctx ins rem :=
  .const (fun _ _ => rfl) (by simp [denote, denoteWith, pureFns])

theorem Ends.unexpected {x : String} : Ends env (.unexpected x) s pos ctx ins rem :=
  .const (fun _ _ => rfl) (by simp [denote, denoteWith, unexpectedFns])

theorem Ends.eof : Ends env .eof s pos ctx ins rem :=
  .const (fun _ _ => rfl) (by
    simp only [denote, denoteWith, eofFns, eofFn]
    split
    · simp
    · cases rem <;> simp)

theorem Ends.satisfy {test : τ → Except Exn Bool} :
    Ends env (.satisfy test) s pos ctx ins rem :=
  .const (fun _ _ => rfl) (by
    simp only [denote, denoteWith, satisfyFns, satisfyFn, Out.bind_def]
    refine ofExcept_bind_ne fun a _ => ?_
    cases a with
    | some t => simp
    | none =>
      cases rem with
      | none => simp
      | some k =>
        refine ofExcept_bind_ne fun a _ => ?_
        rcases a with _ | ⟨_, _⟩ <;> simp)

theorem Ends.sym {x : τ} {l : String} : Ends env (.sym x l) s pos ctx ins rem :=
  .const (fun _ _ => rfl) (by
    simp only [denote, denoteWith, symFns, symFn, Out.bind_def]
    cases symAt x s pos with
    | some t => simp
    | none =>
      cases rem with
      | none => simp
      | some k =>
        refine ofExcept_bind_ne fun a _ => ?_
        rcases a with _ | ⟨_, _⟩ <;> simp)

theorem Ends.literal {x : List τ} {l : String} {h : x ≠ []} :
    Ends env (.literal x l h) s pos ctx ins rem :=
  .const (fun _ _ => rfl) (by
    simp only [denote, denoteWith, literalFns, literalFn, Out.bind_def]
    split
    · simp
    · cases rem with
      | none => simp
      | some k =>
        refine ofExcept_bind_ne fun a _ => ?_
        rcases a with _ | ⟨_, _⟩ <;> simp)

theorem Ends.regexp {m : Matcher τ β} : Ends env (.regexp m) s pos ctx ins rem :=
  .const (fun _ _ => rfl) (by
    simp only [denote, denoteWith, regexpFns, regexpFn, Out.bind_def]
    refine ofExcept_bind_ne fun a _ => ?_
    rcases a with _ | ⟨_, _⟩
    · cases rem with
      | none => simp
      | some k =>
        refine ofExcept_bind_ne fun a _ => ?_
        rcases a with _ | ⟨_, ⟨_, _⟩⟩ <;> simp
    · simp)

end

end Reparsec
