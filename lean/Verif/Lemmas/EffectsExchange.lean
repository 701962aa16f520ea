import Verif.Spec.EffectsExchange
import Verif.Lemmas.EffectsConv

/-!
# Exchanging parts, with callbacks that have side effects: refinement is a congruence
-/

namespace Reparsec

namespace Eff

variable {σ σ' τ ρ : Type} {Γ : ρ → Type} {α β : Type}

/-! ### Runs -/

theorem seen_ret {x : Run σ α} {a : α} {st : σ} (h : seen x = some (.ok a, st)) :
    ∃ w, x = .ret a w ∧ w.state = st := by
  cases x with
  | diverge => cases h
  | raise e w => cases h
  | ret a w => cases h; exact ⟨w, rfl, rfl⟩

theorem seen_raise {x : Run σ α} {e : Exn} {st : σ} (h : seen x = some (.error e, st)) :
    ∃ w, x = .raise e w ∧ w.state = st := by
  cases x with
  | diverge => cases h
  | ret a w => cases h
  | raise e w => cases h; exact ⟨w, rfl, rfl⟩

theorem seen_ne {x : Run σ α} {y : Except Exn α × σ} (h : seen x = some y) : x ≠ .diverge := by
  rintro rfl; cases h

theorem seen_of_ne {x : Run σ α} (h : x ≠ .diverge) : ∃ y st, seen x = some (y, st) := by
  cases x with
  | diverge => exact absurd rfl h
  | raise e w => exact ⟨_, _, rfl⟩
  | ret a w => exact ⟨_, _, rfl⟩

theorem Agree.seen {R : σ → σ' → Prop} {x : Run σ α} {y : Run σ' α} (h : Agree R x y) {o : Except Exn α} {st : σ}
    (hx : seen x = some (o, st)) : ∃ st', Eff.seen y = some (o, st') ∧ R st st' := by
  cases x with
  | diverge => cases hx
  | raise e w =>
    cases y with
    | raise e' w' => cases hx; obtain ⟨rfl, h⟩ := h; exact ⟨_, rfl, h⟩
    | _ => exact h.elim
  | ret a w =>
    cases y with
    | ret e' w' => cases hx; obtain ⟨rfl, h⟩ := h; exact ⟨_, rfl, h⟩
    | _ => exact h.elim

theorem agree_of_seen {x : Run σ α} {y : Run σ α} {o : Except Exn α × σ} (hx : seen x = some o)
    (hy : seen y = some o) : Agree (· = ·) x y := by
  obtain ⟨o, st⟩ := o
  cases o with
  | ok a =>
    obtain ⟨w, rfl, h⟩ := seen_ret hx
    obtain ⟨w', rfl, h'⟩ := seen_ret hy
    exact ⟨rfl, h.trans h'.symm⟩
  | error a =>
    obtain ⟨w, rfl, h⟩ := seen_raise hx
    obtain ⟨w', rfl, h'⟩ := seen_raise hy
    exact ⟨rfl, h.trans h'.symm⟩

/-! ### Without recovery -/

/-- `ConvFns` for the functions without recovery only. -/
def ConvFast (R : σ → σ' → Prop) (F : Nat → ParseFns σ' τ α) (f : ParseFns σ τ α) : Prop :=
  ∀ s pos ctx, Conv R (fun n => (F n).fast s pos ctx) (f.fast s pos ctx)

/-- Without the function with recovery. -/
def fastOnly (f : ParseFns σ τ α) : ParseFns σ τ α := ⟨f.fast, fun _ _ _ _ _ => .diverge⟩

theorem ConvFast.only {R : σ → σ' → Prop} {F : Nat → ParseFns σ' τ α} {f : ParseFns σ τ α} (h : ConvFast R F f) :
    ConvFns R (fun n => fastOnly (F n)) (fastOnly f) :=
  ⟨h, fun _ _ _ _ _ => .diverge⟩

section
variable [BEq τ]

/-! ### Representations -/

theorem represents_conv {R : σ → σ' → Prop} (n : Nat) {tbl : (i : ρ) → ParseFns σ τ (Γ i)} {env' : Env σ' τ ρ Γ}
    (ht : ∀ i, ConvFns R (fun m => denote env' m (.ref i)) (tbl i)) {p : P σ τ ρ Γ α} {p' : P σ' τ ρ Γ α}
    (h : Represents R p p') : ConvFns R (fun m => denote env' m p') (denoteWith n tbl p) := by
  induction h with
  | pure x => exact .lift _
  | pureFn hc => exact .pureFn hc
  | unexpected x => exact .lift _
  | eof => exact .lift _
  | satisfy hc => exact .satisfy hc
  | sym x l => exact .lift _
  | literal x ss h => exact .lift _
  | regexp m => exact .lift _
  | fmap _ hc ih => exact ih.fmap hc
  | alt _ _ ih ih' => exact ih.alt ih'
  | bind _ hc _ ih ih' => exact .bind hc ih ih'
  | seqWith m _ _ ih ih' => exact ih.seqWith m ih'
  | maybe _ ih => exact ih.maybe
  | many _ ih => exact ih.many n
  | attempt _ ih => exact ih.attempt
  | label x _ ih => exact ih.label x
  | recover _ ih => exact ih.recover
  | recoverWith x v _ ih => exact ih.recoverWith x v
  | recoverWithFn l _ hc ih => exact ih.recoverWithFn hc l
  | block _ ih => exact ih.block
  | aligned _ ih => exact ih.aligned
  | indented d _ ih => exact ih.indented d
  | ref i => exact ht i

theorem representsDefs_conv {R : σ → σ' → Prop} {env : Env σ τ ρ Γ} {env' : Env σ' τ ρ Γ}
    (h : RepresentsDefs R env env') (n : Nat) (i : ρ) :
    ConvFns R (fun m => denote env' m (.ref i)) (table env n i) := by
  induction n generalizing i with
  | zero => exact ⟨fun _ _ _ => .diverge, fun _ _ _ _ _ => .diverge⟩
  | succ n ih =>
    refine ConvFns.succ ?_
    rcases h i with ⟨h1, h2⟩ | ⟨q, q', h1, h2, hq⟩
    · simp only [denote, denoteWith, table, h1, h2]
      exact .undefined
    · have e1 : table env (n + 1) i = denoteWith n (table env n) q := by simp only [table, h1]
      have e2 : ∀ m, denote env' (m + 1) (.ref i) = denote env' m q' := by
        intro m; simp only [denote, denoteWith, table, h2]
      simp only [e1, e2]
      exact represents_conv n ih hq

theorem rep_conv {R : σ → σ' → Prop} {env : Env σ τ ρ Γ} {env' : Env σ' τ ρ Γ}
    (h : RepresentsDefs R env env') {p : P σ τ ρ Γ α} {p' : P σ' τ ρ Γ α} (hp : Represents R p p') (n : Nat) :
    ConvFns R (fun m => denote env' m p') (denote env n p) :=
  represents_conv n (representsDefs_conv h n) hp

omit [BEq τ] in
theorem corresponds_self (c : Callback σ α β) : Corresponds (· = ·) c c := by
  rintro a st _ rfl; exact ⟨rfl, rfl⟩

omit [BEq τ] in
theorem represents_self (p : P σ τ ρ Γ α) : Represents (· = ·) p p := by
  induction p with
  | pure x => exact .pure x
  | pureFn c => exact .pureFn (corresponds_self c)
  | unexpected x => exact .unexpected x
  | eof => exact .eof
  | satisfy c => exact .satisfy (corresponds_self c)
  | sym x l => exact .sym x l
  | literal x ss h => exact .literal x ss h
  | regexp m => exact .regexp m
  | fmap p c ih => exact .fmap ih (corresponds_self c)
  | alt p q ih ih' => exact .alt ih ih'
  | bind p c k ih ih' => exact .bind ih (corresponds_self c) ih'
  | seqWith p q m ih ih' => exact .seqWith m ih ih'
  | maybe p ih => exact .maybe ih
  | many p ih => exact .many ih
  | attempt p ih => exact .attempt ih
  | label p x ih => exact .label x ih
  | recover p ih => exact .recover ih
  | recoverWith p x v ih => exact .recoverWith x v ih
  | recoverWithFn p c l ih => exact .recoverWithFn l ih (corresponds_self c)
  | block p ih => exact .block ih
  | aligned p ih => exact .aligned ih
  | indented d p ih => exact .indented d ih
  | ref i => exact .ref i

omit [BEq τ] in
theorem representsDefs_self (env : Env σ τ ρ Γ) : RepresentsDefs (· = ·) env env := by
  intro i
  cases h : env i with
  | none => exact .inl ⟨rfl, rfl⟩
  | some p => exact .inr ⟨p, p, rfl, rfl, represents_self p⟩

/-- What a parser does depends on the user's state, not on the record of calls. -/
theorem self_conv (env : Env σ τ ρ Γ) (p : P σ τ ρ Γ α) (n : Nat) :
    ConvFns (· = ·) (fun m => denote env m p) (denote env n p) :=
  rep_conv (representsDefs_self env) (represents_self p) n

/-! ### Refinement -/

/-- Whatever `p` does without recovery, with the definitions `env`, `q` does with the definitions `env'`. -/
def FollowsPlain (env env' : Env σ τ ρ Γ) (p q : P σ τ ρ Γ α) : Prop :=
  ∀ s pos ctx st x st', EndsPlain env p s pos ctx st x st' → EndsPlain env' q s pos ctx st x st'

/-- The same in both modes. -/
structure Follows (env env' : Env σ τ ρ Γ) (p q : P σ τ ρ Γ α) : Prop where
  plain : FollowsPlain env env' p q
  recovering : ∀ s pos ctx ins rem st x st',
    EndsRec env p s pos ctx ins rem st x st' → EndsRec env' q s pos ctx ins rem st x st'

theorem conv_of_follows {x y : Nat → Act σ α} (hx : ∀ n, Conv (· = ·) x (x n)) (hy : ∀ n, Conv (· = ·) y (y n))
    (h : ∀ st o st', (∃ n, seen (x n ⟨st, []⟩) = some (o, st')) → ∃ n, seen (y n ⟨st, []⟩) = some (o, st')) (n : Nat) :
    Conv (· = ·) y (x n) := by
  intro w hw
  obtain ⟨N, hN⟩ := hx n w hw
  obtain ⟨o, st', ho⟩ := seen_of_ne hw
  obtain ⟨_, h1, rfl⟩ := (hN N (Nat.le_refl _) ⟨w.state, []⟩ rfl).seen ho
  obtain ⟨k, hk⟩ := h _ _ _ ⟨N, h1⟩
  obtain ⟨M, hM⟩ := hy k _ (seen_ne hk)
  refine ⟨M, fun m hm w' hw' => ?_⟩
  obtain ⟨_, h2, rfl⟩ := (hM m hm w' hw').seen hk
  exact agree_of_seen ho h2

theorem follows_of_conv {x y : Nat → Act σ α} (h : ∀ n, Conv (· = ·) y (x n)) {st : σ} {o : Except Exn α} {st' : σ}
    (hx : ∃ n, seen (x n ⟨st, []⟩) = some (o, st')) : ∃ n, seen (y n ⟨st, []⟩) = some (o, st') := by
  obtain ⟨n, hn⟩ := hx
  obtain ⟨N, hN⟩ := h n _ (seen_ne hn)
  obtain ⟨_, h1, rfl⟩ := (hN N (Nat.le_refl _) _ rfl).seen hn
  exact ⟨N, h1⟩

theorem followsPlain_iff {env env' : Env σ τ ρ Γ} {p q : P σ τ ρ Γ α} :
    FollowsPlain env env' p q ↔ ∀ n, ConvFast (· = ·) (fun m => denote env' m q) (denote env n p) := by
  constructor
  · intro h n s pos ctx
    exact conv_of_follows (x := fun n => (denote env n p).fast s pos ctx)
      (fun n => (self_conv env p n).fast s pos ctx) (fun n => (self_conv env' q n).fast s pos ctx)
      (fun st o st' => h s pos ctx st o st') n
  · intro h s pos ctx st x st' hx
    exact follows_of_conv (x := fun n => (denote env n p).fast s pos ctx) (fun n => h n s pos ctx) hx

theorem follows_iff {env env' : Env σ τ ρ Γ} {p q : P σ τ ρ Γ α} :
    Follows env env' p q ↔ ∀ n, ConvFns (· = ·) (fun m => denote env' m q) (denote env n p) := by
  constructor
  · intro h n
    refine ⟨followsPlain_iff.1 h.plain n, fun s pos ctx ins rem => ?_⟩
    exact conv_of_follows (x := fun n => (denote env n p).fn s pos ctx ins rem)
      (fun n => (self_conv env p n).fn s pos ctx ins rem) (fun n => (self_conv env' q n).fn s pos ctx ins rem)
      (fun st o st' => h.recovering s pos ctx ins rem st o st') n
  · intro h
    refine ⟨followsPlain_iff.2 fun n => (h n).fast, fun s pos ctx ins rem st x st' hx => ?_⟩
    exact follows_of_conv (x := fun n => (denote env n p).fn s pos ctx ins rem) (fun n => (h n).fn s pos ctx ins rem) hx

theorem Follows.trans {e1 e2 e3 : Env σ τ ρ Γ} {p q r : P σ τ ρ Γ α} (h : Follows e1 e2 p q) (h' : Follows e2 e3 q r) :
    Follows e1 e3 p r :=
  ⟨fun _ _ _ _ _ _ ho => h'.plain _ _ _ _ _ _ (h.plain _ _ _ _ _ _ ho),
   fun _ _ _ _ _ _ _ _ ho => h'.recovering _ _ _ _ _ _ _ _ (h.recovering _ _ _ _ _ _ _ _ ho)⟩

omit [BEq τ] in
theorem exchanged_mono {R S : (α : Type) → P σ τ ρ Γ α → P σ τ ρ Γ α → Prop}
    (h : ∀ α p q, R α p q → S α p q) {p q : P σ τ ρ Γ α} (hp : Exchanged R p q) : Exchanged S p q := by
  induction hp with
  | keep p => exact .keep p
  | part hr => exact .part (h _ _ _ hr)
  | fmap fn _ ih => exact .fmap fn ih
  | alt _ _ ih ih' => exact .alt ih ih'
  | bind c _ _ ih ih' => exact .bind c ih ih'
  | seqWith m _ _ ih ih' => exact .seqWith m ih ih'
  | maybe _ ih => exact .maybe ih
  | many _ ih => exact .many ih
  | attempt _ ih => exact .attempt ih
  | label x _ ih => exact .label x ih
  | recover _ ih => exact .recover ih
  | recoverWith x v _ ih => exact .recoverWith x v ih
  | recoverWithFn f l _ ih => exact .recoverWithFn f l ih
  | block _ ih => exact .block ih
  | aligned _ ih => exact .aligned ih
  | indented d _ ih => exact .indented d ih

omit [BEq τ] in
theorem exchanged_symm {R : (α : Type) → P σ τ ρ Γ α → P σ τ ρ Γ α → Prop} {p q : P σ τ ρ Γ α}
    (hp : Exchanged R p q) : Exchanged (fun α p q => R α q p) q p := by
  induction hp with
  | keep p => exact .keep p
  | part hr => exact .part hr
  | fmap fn _ ih => exact .fmap fn ih
  | alt _ _ ih ih' => exact .alt ih ih'
  | bind c _ _ ih ih' => exact .bind c ih ih'
  | seqWith m _ _ ih ih' => exact .seqWith m ih ih'
  | maybe _ ih => exact .maybe ih
  | many _ ih => exact .many ih
  | attempt _ ih => exact .attempt ih
  | label x _ ih => exact .label x ih
  | recover _ ih => exact .recover ih
  | recoverWith x v _ ih => exact .recoverWith x v ih
  | recoverWithFn f l _ ih => exact .recoverWithFn f l ih
  | block _ ih => exact .block ih
  | aligned _ ih => exact .aligned ih
  | indented d _ ih => exact .indented d ih

omit [BEq τ] in
theorem exchangedDefs_symm {R : (α : Type) → P σ τ ρ Γ α → P σ τ ρ Γ α → Prop} {env env' : Env σ τ ρ Γ}
    (h : ExchangedDefs R env env') : ExchangedDefs (fun α p q => R α q p) env' env := by
  intro i
  rcases h i with ⟨h1, h2⟩ | ⟨p, p', h1, h2, h3⟩
  · exact .inl ⟨h2, h1⟩
  · exact .inr ⟨p', p, h2, h1, exchanged_symm h3⟩

omit [BEq τ] in
theorem exchangedDefs_mono {R S : (α : Type) → P σ τ ρ Γ α → P σ τ ρ Γ α → Prop} {env env' : Env σ τ ρ Γ}
    (hs : ∀ α p q, R α p q → S α p q) (h : ExchangedDefs R env env') : ExchangedDefs S env env' := by
  intro i
  rcases h i with h | ⟨p, p', h1, h2, h3⟩
  · exact .inl h
  · exact .inr ⟨p, p', h1, h2, exchanged_mono hs h3⟩

/-- If a run with `n` units of fuel is followed for every part, then for the whole. -/
theorem exchanged_conv {env env' : Env σ τ ρ Γ} {n : Nat}
    (hk : ∀ (α : Type) (p : P σ τ ρ Γ α), ConvFns (· = ·) (fun m => denote env' m p) (denote env n p))
    {p q : P σ τ ρ Γ α}
    (h : Exchanged (fun _ p q => ConvFns (· = ·) (fun m => denote env' m q) (denote env n p)) p q) :
    ConvFns (· = ·) (fun m => denote env' m q) (denote env n p) := by
  induction h with
  | keep p => exact hk _ p
  | part h => exact h
  | fmap c _ ih => exact ih.fmap (corresponds_self c)
  | alt _ _ ih ih' => exact ih.alt ih'
  | bind c _ _ ih ih' => exact .bind (corresponds_self c) ih ih'
  | seqWith m _ _ ih ih' => exact ih.seqWith m ih'
  | maybe _ ih => exact ih.maybe
  | many _ ih => exact ih.many n
  | attempt _ ih => exact ih.attempt
  | label x _ ih => exact ih.label x
  | recover _ ih => exact ih.recover
  | recoverWith x v _ ih => exact ih.recoverWith x v
  | recoverWithFn c l _ ih => exact ih.recoverWithFn (corresponds_self c) l
  | block _ ih => exact ih.block
  | aligned _ ih => exact ih.aligned
  | indented d _ ih => exact ih.indented d

/-- The same without recovery. -/
theorem exchanged_convFast {env env' : Env σ τ ρ Γ} {n : Nat}
    (hk : ∀ (α : Type) (p : P σ τ ρ Γ α), ConvFast (· = ·) (fun m => denote env' m p) (denote env n p))
    {p q : P σ τ ρ Γ α}
    (h : Exchanged (fun _ p q => ConvFast (· = ·) (fun m => denote env' m q) (denote env n p)) p q) :
    ConvFast (· = ·) (fun m => denote env' m q) (denote env n p) := by
  induction h with
  | keep p => exact hk _ p
  | part h => exact h
  | fmap c _ ih => exact (ih.only.fmap (corresponds_self c)).fast
  | alt _ _ ih ih' => exact (ih.only.alt ih'.only).fast
  | bind c _ _ ih ih' => exact Conv.bindFast (Conv.call (corresponds_self c)) ih ih'
  | seqWith m _ _ ih ih' => exact (ih.only.seqWith m ih'.only).fast
  | maybe _ ih => exact ih.only.maybe.fast
  | many _ ih => exact (ih.only.many n).fast
  | attempt _ ih => exact ih.only.attempt.fast
  | label x _ ih => exact (ih.only.label x).fast
  | recover _ ih => exact ih.only.recover.fast
  | recoverWith x v _ ih => exact (ih.only.recoverWith x v).fast
  | recoverWithFn c l _ ih => exact (ih.only.recoverWithFn (corresponds_self c) l).fast
  | block _ ih => exact ih.only.block.fast
  | aligned _ ih => exact ih.only.aligned.fast
  | indented d _ ih => exact (ih.only.indented d).fast

theorem follows_refl (env : Env σ τ ρ Γ) (p : P σ τ ρ Γ α) : Follows env env p p :=
  ⟨fun _ _ _ _ _ _ h => h, fun _ _ _ _ _ _ _ _ h => h⟩

theorem follows_exchanged {env : Env σ τ ρ Γ} {p q : P σ τ ρ Γ α}
    (h : Exchanged (fun _ p q => Follows env env p q) p q) : Follows env env p q := by
  rw [follows_iff]
  intro n
  exact exchanged_conv (fun _ p => self_conv env p n) (exchanged_mono (fun _ _ _ h => follows_iff.1 h n) h)

theorem followsPlain_exchanged {env : Env σ τ ρ Γ} {p q : P σ τ ρ Γ α}
    (h : Exchanged (fun _ p q => FollowsPlain env env p q) p q) : FollowsPlain env env p q := by
  rw [followsPlain_iff]
  intro n
  exact exchanged_convFast (fun _ p => (self_conv env p n).fast)
    (exchanged_mono (fun _ _ _ h => followsPlain_iff.1 h n) h)

/-- A parser is built from `Delay` objects. -/
theorem convWith {env' : Env σ τ ρ Γ} (n : Nat) (tbl : (i : ρ) → ParseFns σ τ (Γ i))
    (ht : ∀ i, ConvFns (· = ·) (fun m => denote env' m (.ref i)) (tbl i)) (p : P σ τ ρ Γ α) :
    ConvFns (· = ·) (fun m => denote env' m p) (denoteWith n tbl p) :=
  represents_conv n ht (represents_self p)

/-- What follows what follows. -/
theorem Conv.trans {x y : Nat → Act σ α} {z : Act σ α} (h : Conv (· = ·) x z) (h' : ∀ n, Conv (· = ·) y (x n)) :
    Conv (· = ·) y z := by
  intro w hw
  obtain ⟨N, hN⟩ := h w hw
  have ha : Agree (· = ·) (z w) (x N w) := hN N (Nat.le_refl _) w rfl
  obtain ⟨o, st', ho⟩ := seen_of_ne hw
  obtain ⟨_, h1, rfl⟩ := ha.seen ho
  obtain ⟨M, hM⟩ := h' N w (seen_ne h1)
  refine ⟨M, fun m hm w' hw' => ?_⟩
  obtain ⟨_, h2, rfl⟩ := (hM m hm w' hw').seen h1
  exact agree_of_seen ho h2

omit [BEq τ] in
theorem ConvFns.trans {F G : Nat → ParseFns σ τ α} {f : ParseFns σ τ α} (h : ConvFns (· = ·) F f)
    (h' : ∀ n, ConvFns (· = ·) G (F n)) : ConvFns (· = ·) G f :=
  ⟨fun s pos ctx => (h.fast s pos ctx).trans fun n => (h' n).fast s pos ctx,
   fun s pos ctx ins rem => (h.fn s pos ctx ins rem).trans fun n => (h' n).fn s pos ctx ins rem⟩

/-- New definitions follow the old ones, if the old ones are followed by the new ones, run with the new definitions. -/
theorem follows_defs {env env' : Env σ τ ρ Γ}
    (h : ExchangedDefs (fun _ p q => Follows env' env' p q) env env') (p : P σ τ ρ Γ α) : Follows env env' p p := by
  rw [follows_iff]
  have key : ∀ n i, ConvFns (· = ·) (fun m => denote env' m (.ref i)) (table env n i) := by
    intro n
    induction n with
    | zero => exact fun i => ⟨fun _ _ _ => .diverge, fun _ _ _ _ _ => .diverge⟩
    | succ n ih =>
      intro i
      refine ConvFns.succ ?_
      rcases h i with ⟨h1, h2⟩ | ⟨q, q', h1, h2, hq⟩
      · simp only [denote, denoteWith, table, h1, h2]
        exact .undefined
      · have e1 : table env (n + 1) i = denoteWith n (table env n) q := by simp only [table, h1]
        have e2 : ∀ m, denote env' (m + 1) (.ref i) = denote env' m q' := by
          intro m; simp only [denote, denoteWith, table, h2]
        simp only [e1, e2]
        exact (convWith n _ ih q).trans fun m => follows_iff.1 (follows_exchanged hq) m
  exact fun n => convWith n _ (key n) p

/-- Unfolded definitions follow the definitions. -/
theorem follows_unfold {env env' : Env σ τ ρ Γ} (h : ExchangedDefs (Unfolds env) env env') {p q : P σ τ ρ Γ α}
    (hp : Exchanged (Unfolds env) p q) : Follows env env' p q := by
  rw [follows_iff]
  have key : ∀ n i, ConvFns (· = ·) (fun m => denote env' m (.ref i)) (table env n i) ∧
      ∀ p, env i = some p → ConvFns (· = ·) (fun m => denote env' m p) (table env n i) := by
    intro n
    induction n with
    | zero =>
      exact fun i => ⟨⟨fun _ _ _ => .diverge, fun _ _ _ _ _ => .diverge⟩,
        fun p _ => ⟨fun _ _ _ => .diverge, fun _ _ _ _ _ => .diverge⟩⟩
    | succ n ih =>
      intro i
      rcases h i with ⟨h1, h2⟩ | ⟨q, q', h1, h2, hq⟩
      · refine ⟨ConvFns.succ ?_, fun p hp => by rw [h1] at hp; cases hp⟩
        simp only [denote, denoteWith, table, h1, h2]
        exact .undefined
      · have e1 : table env (n + 1) i = denote env n q := by simp only [denote, table, h1]
        have e2 : ∀ m, denote env' (m + 1) (.ref i) = denote env' m q' := by
          intro m; simp only [denote, denoteWith, table, h2]
        have hk : ∀ (β : Type) (p : P σ τ ρ Γ β), ConvFns (· = ·) (fun m => denote env' m p) (denote env n p) :=
          fun β p => convWith n _ (fun i => (ih i).1) p
        rw [e1]
        constructor
        · refine ConvFns.succ ?_
          simp only [e2]
          refine exchanged_conv hk (exchanged_mono ?_ hq)
          rintro _ _ _ ⟨hj⟩
          exact (ih _).2 _ hj
        · intro p hp
          rw [h1] at hp; cases hp
          exact hk _ _
  intro n
  refine exchanged_conv (fun β p => convWith n _ (fun i => (key n i).1) p) (exchanged_mono ?_ hp)
  rintro _ _ _ ⟨hj⟩
  exact (key n _).2 _ hj

theorem Same.follows {env : Env σ τ ρ Γ} {p q : P σ τ ρ Γ α} (h : Same env p q) : Follows env env p q :=
  ⟨fun _ _ _ _ _ _ h' => (h.plain _ _ _ _ _ _).1 h', fun _ _ _ _ _ _ _ _ h' => (h.recovering _ _ _ _ _ _ _ _).1 h'⟩

theorem Same.symm {env : Env σ τ ρ Γ} {p q : P σ τ ρ Γ α} (h : Same env p q) : Same env q p :=
  ⟨fun _ _ _ _ _ _ => (h.plain _ _ _ _ _ _).symm, fun _ _ _ _ _ _ _ _ => (h.recovering _ _ _ _ _ _ _ _).symm⟩

theorem Same.trans {env : Env σ τ ρ Γ} {p q r : P σ τ ρ Γ α} (h : Same env p q) (h' : Same env q r) : Same env p r :=
  ⟨fun _ _ _ _ _ _ => (h.plain _ _ _ _ _ _).trans (h'.plain _ _ _ _ _ _),
   fun _ _ _ _ _ _ _ _ => (h.recovering _ _ _ _ _ _ _ _).trans (h'.recovering _ _ _ _ _ _ _ _)⟩

theorem Follows.same {env : Env σ τ ρ Γ} {p q : P σ τ ρ Γ α} (h : Follows env env p q) (h' : Follows env env q p) :
    Same env p q :=
  ⟨fun _ _ _ _ _ _ => ⟨h.plain _ _ _ _ _ _, h'.plain _ _ _ _ _ _⟩,
   fun _ _ _ _ _ _ _ _ => ⟨h.recovering _ _ _ _ _ _ _ _, h'.recovering _ _ _ _ _ _ _ _⟩⟩

/-- `parse` without recovery. -/
theorem ends_plain {env : Env σ τ ρ Γ} {p : P σ τ ρ Γ α} {s : List τ} {gl : Loc → List τ → Nat → Loc} {k : Int}
    {st : σ} {x : Except Exn (Result τ α)} {st' : σ} :
    EndsIn env p s ⟨false, k, gl⟩ st x st' ↔
      ∃ y, EndsPlain env p s 0 (initCtx gl) st y st' ∧ x = y.map Simple.toResult := by
  unfold EndsIn EndsPlain parse
  simp only [Bool.false_eq_true, if_false, Act.bind_apply]
  constructor
  · rintro ⟨n, hn⟩
    cases hx : (denote env n p).fast s 0 (initCtx gl) ⟨st, []⟩ with
    | diverge => rw [hx] at hn; cases hn
    | raise e w => rw [hx] at hn; cases hn; exact ⟨.error e, ⟨n, by rw [hx]; rfl⟩, rfl⟩
    | ret a w => rw [hx] at hn; cases hn; exact ⟨.ok a, ⟨n, by rw [hx]; rfl⟩, rfl⟩
  · rintro ⟨y, ⟨n, hn⟩, rfl⟩
    refine ⟨n, ?_⟩
    cases y with
    | ok a => obtain ⟨w, hx, rfl⟩ := seen_ret hn; rw [hx]; rfl
    | error a => obtain ⟨w, hx, rfl⟩ := seen_raise hn; rw [hx]; rfl

/-- `parse` with recovery. -/
theorem ends_rec {env : Env σ τ ρ Γ} {p : P σ τ ρ Γ α} {s : List τ} {gl : Loc → List τ → Nat → Loc} {k : Int}
    {st : σ} {x : Except Exn (Result τ α)} {st' : σ} :
    EndsIn env p s ⟨true, k, gl⟩ st x st' ↔ EndsRec env p s 0 (initCtx gl) k (some k) st x st' := by
  unfold EndsIn EndsRec parse
  simp

theorem Follows.parse {env env' : Env σ τ ρ Γ} {p q : P σ τ ρ Γ α} (h : Follows env env' p q) {s : List τ}
    {o : Opts τ} {st : σ} {x : Except Exn (Result τ α)} {st' : σ} (hx : EndsIn env p s o st x st') :
    EndsIn env' q s o st x st' := by
  obtain ⟨b, k, gl⟩ := o
  cases b with
  | false =>
    obtain ⟨y, h1, h2⟩ := ends_plain.1 hx
    exact ends_plain.2 ⟨y, h.plain _ _ _ _ _ _ h1, h2⟩
  | true => exact ends_rec.2 (h.recovering _ _ _ _ _ _ _ _ (ends_rec.1 hx))

/-- Conv of the same functions at every fuel. -/
theorem same_of_denote {env : Env σ τ ρ Γ} {p q : P σ τ ρ Γ α} (h : ∀ n, denote env n p = denote env n q) :
    Same env p q :=
  ⟨fun s pos ctx st x st' => by unfold EndsPlain; simp only [h],
   fun s pos ctx ins rem st x st' => by unfold EndsRec; simp only [h]⟩

end

end Eff

end Reparsec
