import Verif.Lemmas.Exchange
import Verif.Lemmas.Frame

/-!
# Exchanging parts that return the same

As `Lemmas/Conv.lean` and `Lemmas/Exchange.lean`, with recovery only for runs that return and for positions within the
input.
-/

namespace Reparsec

variable {τ α β γ : Type}

/-- If `o` is a value then `x`, with enough fuel, gives it. -/
def ConvR (x : Nat → Out α) (o : Out α) : Prop := ∀ r, o = .ret r → ∃ N, ∀ n, N ≤ n → x n = .ret r

theorem ConvR.refl (o : Out α) : ConvR (fun _ => o) o := fun _ h => ⟨0, fun _ _ => h⟩

theorem Conv.ret {x : Nat → Out α} {o : Out α} (h : Conv x o) : ConvR x o := by
  rintro r rfl
  exact h (by simp)

theorem ConvR.bind {x : Nat → Out α} {o : Out α} {f : Nat → α → Out β} {g : α → Out β}
    (h : ConvR x o) (hf : ∀ a, o = .ret a → ConvR (fun n => f n a) (g a)) :
    ConvR (fun n => (x n).bind (f n)) (o.bind g) := by
  intro r hr
  cases o with
  | diverge => cases hr
  | raise e => cases hr
  | ret a =>
    obtain ⟨N, hN⟩ := h a rfl
    obtain ⟨M, hM⟩ := hf a rfl r hr
    exact ⟨max N M, fun n hn => by simp [hN n (by omega), hM n (by omega)]⟩

/-- The same for parse functions: exactly without recovery, for runs that return with recovery. -/
structure ConvFnsR (F : Nat → ParseFns τ α) (f : ParseFns τ α) : Prop where
  fast : ∀ s pos ctx, Conv (fun n => (F n).fast s pos ctx) (f.fast s pos ctx)
  fn : ∀ s pos ctx ins rem, pos ≤ s.length →
    ConvR (fun n => (F n).fn s pos ctx ins rem) (f.fn s pos ctx ins rem)

/-- Results end within the input. -/
def Inside (f : ParseFns τ α) : Prop := ∀ s pos ctx ins rem r, pos ≤ s.length → f.fn s pos ctx ins rem = .ret r →
  match r with
  | .ok r => r.pos ≤ s.length
  | .error _ => True
  | .recovered r => ∀ x ∈ r.repairs, x.pos ≤ s.length

theorem ConvFnsR.refl (f : ParseFns τ α) : ConvFnsR (fun _ => f) f :=
  ⟨fun _ _ _ => .refl _, fun _ _ _ _ _ _ => .refl _⟩

theorem ConvFns.toR {F : Nat → ParseFns τ α} {f : ParseFns τ α} (h : ConvFns F f) : ConvFnsR F f :=
  ⟨h.fast, fun _ _ _ _ _ _ => (h.fn _ _ _ _ _).ret⟩

theorem ConvFnsR.succ {F : Nat → ParseFns τ α} {f : ParseFns τ α}
    (h : ConvFnsR (fun n => F (n + 1)) f) : ConvFnsR F f := by
  refine ⟨fun _ _ _ => .succ (h.fast _ _ _), fun s pos ctx ins rem hp r hr => ?_⟩
  obtain ⟨N, hN⟩ := h.fn s pos ctx ins rem hp r hr
  refine ⟨N + 1, fun n hn => ?_⟩
  obtain ⟨n, rfl⟩ : ∃ k, n = k + 1 := ⟨n - 1, by omega⟩
  exact hN n (by omega)

theorem ConvR.contReps {ins : Int} {k : Nat → α → Nat → Ctx τ → Int → Out (Result τ β)}
    {k' : α → Nat → Ctx τ → Int → Out (Result τ β)} {merge : α → β → γ} (l : List (Repair τ α))
    (hk : ∀ x ∈ l, ∀ v c r, ConvR (fun n => k n v x.pos c r) (k' v x.pos c r)) :
    ConvR (fun n => Reparsec.contReps ins (k n) merge l) (Reparsec.contReps ins k' merge l) := by
  induction l with
  | nil => exact .refl _
  | cons r rs ih =>
    simp only [Reparsec.contReps, Out.bind_def]
    exact (hk _ List.mem_cons_self _ _ _).bind fun _ _ =>
      (ih fun x hx => hk x (List.mem_cons_of_mem _ hx)).bind fun _ _ => .refl _

theorem ConvR.continueParse {ra : Recovered τ α} {ins : Int}
    {k : Nat → α → Nat → Ctx τ → Int → Out (Result τ β)}
    {k' : α → Nat → Ctx τ → Int → Out (Result τ β)} {merge : α → β → γ}
    (hk : ∀ x ∈ ra.repairs, ∀ v c r, ConvR (fun n => k n v x.pos c r) (k' v x.pos c r)) :
    ConvR (fun n => Reparsec.continueParse ra ins (k n) merge)
      (Reparsec.continueParse ra ins k' merge) :=
  (ConvR.contReps _ hk).bind fun _ _ => .refl _

/-- What goes on without recovery needs no change. -/
theorem ConvFns.ofFast {F : Nat → ParseFns τ α} {f : ParseFns τ α} (h : ConvFnsR F f) :
    ConvFns (fun n => ⟨(F n).fast, f.fn⟩) ⟨f.fast, f.fn⟩ := ⟨h.fast, fun _ _ _ _ _ => .refl _⟩

theorem ConvFnsR.fmap {F : Nat → ParseFns τ α} {f : ParseFns τ α} (fn : α → Except Exn β)
    (h : ConvFnsR F f) : ConvFnsR (fun n => fmapFns (F n) fn) (fmapFns f fn) :=
  ⟨fun _ _ _ => (h.fast _ _ _).bind fun _ => .refl _,
   fun _ _ _ _ _ hp => (h.fn _ _ _ _ _ hp).bind fun _ _ => .refl _⟩

theorem ConvR.altRecover {F G : Nat → ParseFns τ α} {f g : ParseFns τ α} (hf : ConvFnsR F f)
    (hg : ConvFnsR G g) (s pos ctx ins rem loc ex) (hp : pos ≤ s.length) :
    ConvR (fun n => Reparsec.altRecover (F n) (G n) s pos ctx ins rem loc ex)
      (Reparsec.altRecover f g s pos ctx ins rem loc ex) := by
  cases rem with
  | none => exact .refl _
  | some rem =>
    exact (hf.fn _ _ _ _ _ hp).bind fun _ _ => (hg.fn _ _ _ _ _ hp).bind fun _ _ => .refl _

theorem ConvR.altSecond {F G : Nat → ParseFns τ α} {f g : ParseFns τ α} (hf : ConvFnsR F f)
    (hg : ConvFnsR G g) (s pos ctx ins rem loc ex) (hp : pos ≤ s.length) :
    ConvR (fun n => Reparsec.altSecond (F n) (G n) s pos ctx ins rem loc ex)
      (Reparsec.altSecond f g s pos ctx ins rem loc ex) := by
  refine (hg.fn _ _ _ _ _ hp).bind fun r _ => ?_
  cases r with
  | ok r => exact .refl _
  | error e => simp only; split; exact .refl _; exact ConvR.altRecover hf hg _ _ _ _ _ _ _ hp
  | recovered e => simp only; split; exact .refl _; exact ConvR.altRecover hf hg _ _ _ _ _ _ _ hp

theorem ConvFnsR.alt {F G : Nat → ParseFns τ α} {f g : ParseFns τ α} (hf : ConvFnsR F f)
    (hg : ConvFnsR G g) : ConvFnsR (fun n => altFns (F n) (G n)) (altFns f g) := by
  constructor
  · exact ((ConvFns.ofFast hf).alt (ConvFns.ofFast hg)).fast
  · intro s pos ctx ins rem hp
    refine (hf.fn _ _ _ _ _ hp).bind fun r _ => ?_
    cases r with
    | ok r => exact .refl _
    | error e => simp only; split; exact .refl _; exact ConvR.altSecond hf hg _ _ _ _ _ _ _ hp
    | recovered e => simp only; split; exact .refl _; exact ConvR.altSecond hf hg _ _ _ _ _ _ _ hp

theorem ConvFnsR.bind {F : Nat → ParseFns τ α} {f : ParseFns τ α} {G : Nat → α → ParseFns τ β}
    {g : α → ParseFns τ β} (hf : ConvFnsR F f) (hi : Inside f) (hg : ∀ a, ConvFnsR (fun n => G n a) (g a)) :
    ConvFnsR (fun n => bindFns (F n) (G n)) (bindFns f g) := by
  constructor
  · exact ((ConvFns.ofFast hf).bind fun a => ConvFns.ofFast (hg a)).fast
  · intro s pos ctx ins rem hp
    refine (hf.fn _ _ _ _ _ hp).bind fun r hr => ?_
    have hr := hi _ _ _ _ _ _ hp hr
    cases r with
    | error e => exact .refl _
    | ok r =>
      simp only; split
      · exact ((hg _).fn _ _ _ _ _ hr).bind fun _ _ => .refl _
      · exact ((hg _).fn _ _ _ _ _ hr).bind fun _ _ => .refl _
    | recovered r => exact ConvR.continueParse fun x hx _ _ _ => (hg _).fn _ _ _ _ _ (hr x hx)

theorem ConvR.of_ev {x y : Nat → Out α} {o : Out α} (h : ConvR y o)
    (he : ∃ N, ∀ n, N ≤ n → x n = y n) : ConvR x o := by
  intro r hr
  obtain ⟨N, hN⟩ := h r hr
  obtain ⟨M, hM⟩ := he
  exact ⟨max N M, fun n hn => by rw [hM n (by omega), hN n (by omega)]⟩

theorem ConvR.manyLoop {F : Nat → ParseFns τ α} {f : ParseFns τ α} (h : ConvFnsR F f) (hi : Inside f)
    (s : List τ) (ins : Int) (n : Nat)
    (g : Nat → Nat) (hg : ∃ N, ∀ m, N ≤ m → n ≤ g m) (pos ctx c v) (hp : pos ≤ s.length) :
    ConvR (fun m => Reparsec.manyLoop (F m).fn s ins (g m) pos ctx c v)
      (Reparsec.manyLoop f.fn s ins n pos ctx c v) := by
  induction n generalizing g pos ctx c v with
  | zero => intro r hr; cases hr
  | succ n ih =>
    obtain ⟨N, hN⟩ := hg
    have hg' : ∃ N, ∀ m, N ≤ m → n ≤ g m - 1 := ⟨N, fun m hm => by have := hN m hm; omega⟩
    refine ConvR.of_ev (y := fun m => Reparsec.manyLoop (F m).fn s ins ((g m - 1) + 1) pos ctx c v) ?_
      ⟨N, fun m hm => by have := hN m hm; rw [show g m - 1 + 1 = g m by omega]⟩
    refine (h.fn _ _ _ _ _ hp).bind fun r hr => ?_
    have hr := hi _ _ _ _ _ _ hp hr
    cases r with
    | ok r =>
      simp only; split
      · exact ih (fun m => g m - 1) hg' _ _ _ _ hr
      · exact .refl _
    | error e => exact .refl _
    | recovered r => exact ConvR.continueParse fun x hx _ _ _ => ih (fun m => g m - 1) hg' _ _ _ _ (hr x hx)

theorem ConvFnsR.many {F : Nat → ParseFns τ α} {f : ParseFns τ α} (h : ConvFnsR F f) (hi : Inside f) (n : Nat) :
    ConvFnsR (fun m => manyFns m (F m)) (manyFns n f) :=
  ⟨fun s _ _ => Conv.manyFastLoop h.fast s n (fun m => m) ⟨n, fun _ h => h⟩ _ _ _ _,
   fun s _ _ ins _ hp => ConvR.manyLoop h hi s ins n (fun m => m) ⟨n, fun _ h => h⟩ _ _ _ _ hp⟩

theorem ConvFnsR.attempt {F : Nat → ParseFns τ α} {f : ParseFns τ α} (h : ConvFnsR F f) :
    ConvFnsR (fun n => attemptFns (F n)) (attemptFns f) := by
  constructor
  · intro s pos ctx
    exact (h.fast _ _ _).bind fun _ => .refl _
  · intro s pos ctx ins rem hp
    cases rem with
    | none =>
      have : Conv (fun n => (attemptFns (F n)).fn s pos ctx ins none) ((attemptFns f).fn s pos ctx ins none) :=
        (h.fast _ _ _).bind fun _ => .refl _
      exact this.ret
    | some rem => exact h.fn _ _ _ _ _ hp

theorem ConvFnsR.label {F : Nat → ParseFns τ α} {f : ParseFns τ α} (x : String) (h : ConvFnsR F f) :
    ConvFnsR (fun n => labelFns (F n) x) (labelFns f x) :=
  ⟨fun _ _ _ => (h.fast _ _ _).bind fun _ => .refl _,
   fun _ _ _ _ _ hp => (h.fn _ _ _ _ _ hp).bind fun _ _ => .refl _⟩

theorem ConvFnsR.recover {F : Nat → ParseFns τ α} {f : ParseFns τ α} (h : ConvFnsR F f) :
    ConvFnsR (fun n => recoverFns (F n)) (recoverFns f) :=
  ⟨h.fast, fun _ _ _ _ _ hp => (h.fn _ _ _ _ _ hp).bind fun _ _ => .refl _⟩

theorem ConvFnsR.recoverWithFn {F : Nat → ParseFns τ α} {f : ParseFns τ α}
    (fn : List τ → Nat → Except Exn α) (lbl : α → String) (h : ConvFnsR F f) :
    ConvFnsR (fun n => recoverWithFnFns (F n) fn lbl) (recoverWithFnFns f fn lbl) := by
  refine ⟨h.fast, fun s pos ctx ins rem hp => ?_⟩
  cases rem with
  | none => exact h.fn _ _ _ _ _ hp
  | some rem => exact (h.fn _ _ _ _ _ hp).bind fun _ _ => .refl _

theorem ConvFnsR.block {F : Nat → ParseFns τ α} {f : ParseFns τ α} (h : ConvFnsR F f) :
    ConvFnsR (fun n => blockFns (F n)) (blockFns f) :=
  ⟨fun _ _ _ => (h.fast _ _ _).bind fun _ => .refl _,
   fun _ _ _ _ _ hp => (h.fn _ _ _ _ _ hp).bind fun _ _ => .refl _⟩

theorem ConvFnsR.aligned {F : Nat → ParseFns τ α} {f : ParseFns τ α} (h : ConvFnsR F f) :
    ConvFnsR (fun n => alignedFns (F n)) (alignedFns f) := by
  constructor
  · intro s pos ctx; simp only [alignedFns]; split; exact h.fast _ _ _; exact .refl _
  · intro s pos ctx ins rem hp; simp only [alignedFns]; split; exact h.fn _ _ _ _ _ hp; exact .refl _

theorem ConvFnsR.indented {F : Nat → ParseFns τ α} {f : ParseFns τ α} (d : Int) (h : ConvFnsR F f) :
    ConvFnsR (fun n => indentedFns d (F n)) (indentedFns d f) := by
  constructor
  · intro s pos ctx; simp only [indentedFns]; split
    · exact (h.fast _ _ _).bind fun _ => .refl _
    · exact .refl _
  · intro s pos ctx ins rem hp; simp only [indentedFns]; split
    · exact (h.fn _ _ _ _ _ hp).bind fun _ _ => .refl _
    · exact .refl _

theorem ConvFnsR.seqWith {F : Nat → ParseFns τ α} {f : ParseFns τ α} {G : Nat → ParseFns τ β}
    {g : ParseFns τ β} (m : α → β → γ) (hf : ConvFnsR F f) (hi : Inside f) (hg : ConvFnsR G g) :
    ConvFnsR (fun n => seqFns (F n) (G n) m) (seqFns f g m) := by
  simp only [seqFns_eq]
  exact hf.bind hi fun a => hg.fmap _

theorem ConvFnsR.maybe {F : Nat → ParseFns τ α} {f : ParseFns τ α} (h : ConvFnsR F f) :
    ConvFnsR (fun n => maybeFns (F n)) (maybeFns f) := by
  simp only [maybeFns_eq]
  exact (h.fmap _).alt (.refl _)

theorem ConvFnsR.recoverWith {F : Nat → ParseFns τ α} {f : ParseFns τ α} (x : α) (vs : String)
    (h : ConvFnsR F f) : ConvFnsR (fun n => recoverWithFns (F n) x vs) (recoverWithFns f x vs) := by
  simp only [recoverWithFns_eq]
  exact h.recoverWithFn _ _

section

variable {ρ : Type} {Γ : ρ → Type} [BEq τ]

/-- As `Follows`, with recovery only for runs that return. -/
structure FollowsR (env env' : Env τ ρ Γ) (p q : P τ ρ Γ α) : Prop where
  plain : ∀ s pos ctx o, RunPlain env p s pos ctx o → o ≠ .diverge → RunPlain env' q s pos ctx o
  recovering : ∀ s pos ctx ins rem r, pos ≤ s.length → RunRec env p s pos ctx ins rem (.ret r) →
    RunRec env' q s pos ctx ins rem (.ret r)

theorem inside_denote (env : Env τ ρ Γ) (n : Nat) (p : P τ ρ Γ α) : Inside (denote env n p) := by
  intro s pos ctx ins rem r hp h
  cases r with
  | ok r =>
    have hf : OkFrame .. := frame_denote env n p s pos ctx ins rem _ hp h
    exact hf.hi
  | error e => trivial
  | recovered r =>
    have hf : RecFrame .. := frame_denote env n p s pos ctx ins rem _ hp h
    exact fun x hx => (hf.reps x hx).hi

theorem followsR_iff {env env' : Env τ ρ Γ} {p q : P τ ρ Γ α} :
    FollowsR env env' p q ↔ ∀ n, ConvFnsR (fun m => denote env' m q) (denote env n p) := by
  constructor
  · refine fun h n => ⟨fun s pos ctx => ?_, fun s pos ctx ins rem hp r hr => ?_⟩
    · exact .of_yields (mono_fast env' q s pos ctx) fun ho => h.plain _ _ _ _ (.of_eq (n := n) ho rfl) ho
    · exact Yields.eventually (mono_fn env' q s pos ctx ins rem) (by simp) (h.recovering _ _ _ _ _ _ hp ⟨n, hr⟩)
  · refine fun h => ⟨fun s pos ctx o ho hd => ?_, fun s pos ctx ins rem r hp hr => ?_⟩
    · obtain ⟨n, hn⟩ := Yields.eventually (mono_fast env p s pos ctx) hd ho
      have := (h n).fast s pos ctx
      rw [hn n (Nat.le_refl _)] at this
      exact this.yields hd
    · obtain ⟨n, hn⟩ := hr
      obtain ⟨N, hN⟩ := (h n).fn s pos ctx ins rem hp r hn
      exact ⟨N, hN N (Nat.le_refl _)⟩

theorem exchanged_convR {env env' : Env τ ρ Γ} {n : Nat}
    (hk : ∀ (α : Type) (p : P τ ρ Γ α), ConvFnsR (fun m => denote env' m p) (denote env n p))
    {p q : P τ ρ Γ α}
    (h : Exchanged (fun _ p q => ConvFnsR (fun m => denote env' m q) (denote env n p)) p q) :
    ConvFnsR (fun m => denote env' m q) (denote env n p) := by
  induction h with
  | keep p => exact hk _ p
  | part h => exact h
  | fmap fn _ ih => exact ih.fmap fn
  | alt _ _ ih ih' => exact ih.alt ih'
  | bind _ _ ih ih' => exact ih.bind (inside_denote env n _) ih'
  | seqWith m _ _ ih ih' => exact ih.seqWith m (inside_denote env n _) ih'
  | maybe _ ih => exact ih.maybe
  | many _ ih => exact ih.many (inside_denote env n _) n
  | attempt _ ih => exact ih.attempt
  | label x _ ih => exact ih.label x
  | recover _ ih => exact ih.recover
  | recoverWith x v _ ih => exact ih.recoverWith x v
  | recoverWithFn f l _ ih => exact ih.recoverWithFn f l
  | block _ ih => exact ih.block
  | aligned _ ih => exact ih.aligned
  | indented d _ ih => exact ih.indented d

theorem followsR_exchanged {env : Env τ ρ Γ} {p q : P τ ρ Γ α}
    (h : Exchanged (fun _ p q => FollowsR env env p q) p q) : FollowsR env env p q := by
  rw [followsR_iff]
  intro n
  exact exchanged_convR (fun _ p => (follows_iff.1 (follows_refl env p) n).toR)
    (exchanged_mono (fun _ _ _ h => followsR_iff.1 h n) h)

theorem convWithR {env env' : Env τ ρ Γ} (n : Nat)
    (ht : ∀ i, ConvFnsR (fun m => denote env' m (.ref i)) (table env n i)) (p : P τ ρ Γ α) :
    ConvFnsR (fun m => denote env' m p) (denote env n p) := by
  induction p with
  | ref i => exact ht i
  | fmap p fn ih => exact ih.fmap fn
  | alt p q ih ih' => exact ih.alt ih'
  | bind p f ih ih' => exact ih.bind (inside_denote env n _) ih'
  | seqWith p q m ih ih' => exact ih.seqWith m (inside_denote env n _) ih'
  | maybe p ih => exact ih.maybe
  | many p ih => exact ih.many (inside_denote env n _) n
  | attempt p ih => exact ih.attempt
  | label p x ih => exact ih.label x
  | recover p ih => exact ih.recover
  | recoverWith p x v ih => exact ih.recoverWith x v
  | recoverWithFn p f l ih => exact ih.recoverWithFn f l
  | block p ih => exact ih.block
  | aligned p ih => exact ih.aligned
  | indented d p ih => exact ih.indented d
  | _ => exact ConvFnsR.refl _

theorem followsR_defs {env env' : Env τ ρ Γ}
    (h : ExchangedDefs (fun _ p q => FollowsR env' env' p q) env env') (p : P τ ρ Γ α) : FollowsR env env' p p := by
  rw [followsR_iff]
  have key : ∀ n i, ConvFnsR (fun m => denote env' m (.ref i)) (table env n i) := by
    intro n
    induction n with
    | zero => exact fun i => ⟨fun _ _ _ => .diverge, fun _ _ _ _ _ _ r hr => by cases hr⟩
    | succ n ih =>
      intro i
      refine ConvFnsR.succ ?_
      rcases h i with ⟨h1, h2⟩ | ⟨q, q', h1, h2, hq⟩
      · simp only [denote, denoteWith, table, h1, h2]
        exact .refl _
      · have e1 : table env (n + 1) i = denote env n q := by simp only [denote, table, h1]
        have e2 : ∀ m, denote env' (m + 1) (.ref i) = denote env' m q' := by
          intro m; simp only [denote, denoteWith, table, h2]
        simp only [e1, e2]
        have hf : FollowsR env' env' q q' := followsR_exchanged hq
        have hc : ConvFnsR (fun m => denote env' m q) (denote env n q) := convWithR n ih q
        refine ⟨fun s pos ctx ho => ?_, fun s pos ctx ins rem hp r hr => ?_⟩
        · obtain ⟨N, hN⟩ := hc.fast s pos ctx ho
          have hN : (denote env' N q).fast s pos ctx = _ := hN N (Nat.le_refl _)
          have := (followsR_iff.1 hf N).fast s pos ctx
          rw [hN] at this
          exact this ho
        · obtain ⟨N, hN⟩ := hc.fn s pos ctx ins rem hp r hr
          exact (followsR_iff.1 hf N).fn s pos ctx ins rem hp r (hN N (Nat.le_refl _))
  exact fun n => convWithR n (key n) p

theorem FollowsR.trans {e1 e2 e3 : Env τ ρ Γ} {p q r : P τ ρ Γ α} (h : FollowsR e1 e2 p q) (h' : FollowsR e2 e3 q r) :
    FollowsR e1 e3 p r :=
  ⟨fun _ _ _ _ ho hd => h'.plain _ _ _ _ (h.plain _ _ _ _ ho hd) hd,
   fun _ _ _ _ _ _ hp hr => h'.recovering _ _ _ _ _ _ hp (h.recovering _ _ _ _ _ _ hp hr)⟩

theorem FollowsR.parse {env env' : Env τ ρ Γ} {p q : P τ ρ Γ α} (h : FollowsR env env' p q) (s : List τ) (o : Opts τ)
    (r : Result τ α) (hr : Returns env p s o r) : Returns env' q s o r := by
  revert hr
  unfold Returns Reparsec.parse
  cases hb : o.recover with
  | true =>
    simp only [if_true]
    exact h.recovering s 0 (initCtx o.getLoc) o.maxInsertions (some o.maxInsertions) r (Nat.zero_le _)
  | false =>
    simp only [Bool.false_eq_true, if_false, Out.bind_def, Out.bind_eq_ret, Out.pure_def, Out.ret.injEq]
    rintro ⟨n, x, h1, h2⟩
    obtain ⟨n', h3⟩ := h.plain s 0 (initCtx o.getLoc) (.ret x) ⟨n, h1⟩ (by simp)
    exact ⟨n', x, h3, h2⟩

theorem SameReturns.follows {env : Env τ ρ Γ} {p q : P τ ρ Γ α} (h : SameReturns env p q) : FollowsR env env p q :=
  ⟨fun _ _ _ _ h' _ => (h.plain _ _ _ _).1 h', fun _ _ _ _ _ _ hp h' => (h.recovering _ _ _ _ _ _ hp).1 h'⟩

theorem SameReturns.symm {env : Env τ ρ Γ} {p q : P τ ρ Γ α} (h : SameReturns env p q) : SameReturns env q p :=
  ⟨fun _ _ _ _ => (h.plain _ _ _ _).symm, fun _ _ _ _ _ _ hp => (h.recovering _ _ _ _ _ _ hp).symm⟩

theorem Same.sameReturns {env : Env τ ρ Γ} {p q : P τ ρ Γ α} (h : Same env p q) : SameReturns env p q :=
  ⟨h.plain, fun _ _ _ _ _ _ _ => h.recovering _ _ _ _ _ _⟩

end

end Reparsec
