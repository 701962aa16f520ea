import Verif.Lemmas.EffectsLaws
import Verif.Props.Effects
import Verif.Props.EffectsHalts

/-!
# C85, C86, C87: exchanging parts, laws and other representations of the state, with callbacks that have side effects
-/

namespace Reparsec

namespace Eff

variable {σ σ' τ ρ : Type} {Γ : ρ → Type} {α β γ ι : Type} [BEq τ]
  {env env' : Env σ τ ρ Γ} {p q : P σ τ ρ Γ α} {s : List τ} {o : Opts τ}

/-! ### C85 -/

/-- **C85**: if parts of a parser, anywhere in it, are exchanged for parsers that do the same (results and user's state),
then it does the same as before, in both modes. -/
theorem C85_anywhere (h : Exchanged (fun _ => Same env) p q) : Same env p q :=
  (follows_exchanged (exchanged_mono (fun _ _ _ h => h.follows) h)).same
    (follows_exchanged (exchanged_mono (fun _ _ _ h => h.symm.follows) (exchanged_symm h)))

/-- **C85**: without recovery it is enough that the parts do the same without recovery. -/
theorem C85_anywhere_plain (h : Exchanged (fun _ => SamePlain env) p q) : SamePlain env p q := by
  have h1 := followsPlain_exchanged (exchanged_mono
    (S := fun _ p q => FollowsPlain env env p q) (fun _ _ _ h _ _ _ _ _ _ => (h _ _ _ _ _ _).1) h)
  have h2 := followsPlain_exchanged (exchanged_mono
    (S := fun _ p q => FollowsPlain env env p q) (fun _ _ _ h _ _ _ _ _ _ => (h _ _ _ _ _ _).2) (exchanged_symm h))
  exact fun s pos ctx st x st' => ⟨h1 s pos ctx st x st', h2 s pos ctx st x st'⟩

theorem Same.parse (h : Same env p q) (s : List τ) (o : Opts τ) : SameParse env env p q s o :=
  fun _ _ _ => ⟨h.follows.parse, h.symm.follows.parse⟩

theorem SamePlain.parse (h : SamePlain env p q) (s : List τ) (gl : Loc → List τ → Nat → Loc) :
    SameParse env env p q s (plain gl) := by
  intro st x st'
  rw [plain, ends_plain, ends_plain]
  exact exists_congr fun y => and_congr_left' (h _ _ _ _ _ _)

/-- **C85**: the same in the definitions of `Delay` objects, up to hanging: what the new program does, the old one
did. -/
theorem C85_definitions (hd : ExchangedDefs (fun _ => Same env) env env') (h : Exchanged (fun _ => Same env) p q)
    (s : List τ) (o : Opts τ) (st : σ) (x : Except Exn (Result τ α)) (st' : σ) (hx : EndsIn env' q s o st x st') :
    EndsIn env p s o st x st' := by
  have h1 : Follows env' env q q :=
    follows_defs (exchangedDefs_mono (fun _ _ _ h => h.symm.follows) (exchangedDefs_symm hd)) q
  exact (h1.trans (C85_anywhere h).symm.follows).parse hx

theorem endsIn_unique {st : σ} {x y : Except Exn (Result τ α)} {st1 st2 : σ} (h1 : EndsIn env p s o st x st1)
    (h2 : EndsIn env p s o st y st2) : x = y ∧ st1 = st2 := by
  obtain ⟨n, hn⟩ := h1
  obtain ⟨m, hm⟩ := h2
  have e1 := (parse_le env p s o.recover o.maxInsertions o.getLoc (Nat.le_max_left n m) ⟨st, []⟩).eq (seen_ne hn)
  have e2 := (parse_le env p s o.recover o.maxInsertions o.getLoc (Nat.le_max_right n m) ⟨st, []⟩).eq (seen_ne hm)
  rw [← e1] at hn
  rw [← e2, hn] at hm
  cases hm
  exact ⟨rfl, rfl⟩

/-- **C85**: and where the new program ends, it does the same as the old one. -/
theorem C85_ends (hd : ExchangedDefs (fun _ => Same env) env env') (h : Exchanged (fun _ => Same env) p q)
    (hh : ∀ st, ∃ x st', EndsIn env' q s o st x st') : SameParse env env' p q s o := by
  intro st x st'
  refine ⟨fun hx => ?_, C85_definitions hd h s o st x st'⟩
  obtain ⟨y, st1, hy⟩ := hh st
  obtain ⟨rfl, rfl⟩ := endsIn_unique hx (C85_definitions hd h s o st y st1 hy)
  exact hy

theorem ends_of_finishes (h : ∀ w, Finishes env p s o w) (st : σ) : ∃ x st', EndsIn env p s o st x st' := by
  rcases h ⟨st, []⟩ with ⟨w, ⟨r, n, hn⟩ | ⟨e, n, hn⟩⟩
  · exact ⟨.ok r, w.state, n, by rw [hn]; rfl⟩
  · exact ⟨.error e, w.state, n, by rw [hn]; rfl⟩

/-- C85: in particular if the new grammar has no left recursion (C79). -/
theorem C85_no_left_recursion (hd : ExchangedDefs (fun _ => Same env) env env')
    (h : Exchanged (fun _ => Same env) p q) (hwf : WellFounded fun j i => LeftCalls env' i j)
    (s : List τ) (o : Opts τ) (hk : 0 ≤ o.maxInsertions) : SameParse env env' p q s o :=
  C85_ends hd h (ends_of_finishes fun w => C79_terminates env' hwf q s o hk w)

/-- **C85**: a `Delay` object does what it is defined as. -/
theorem C85_delay (i : ρ) (q : P σ τ ρ Γ (Γ i)) (h : env i = some q) : Same env (.ref i) q := by
  have key : ∀ n, denote env (n + 1) (.ref i) = denote env n q := by
    intro n
    simp only [denote, denoteWith, table, h]
  refine Follows.same (follows_iff.2 fun n => ?_) (follows_iff.2 fun n => ?_)
  · cases n with
    | zero => exact ⟨fun _ _ _ => .diverge, fun _ _ _ _ _ => .diverge⟩
    | succ n => rw [key]; exact self_conv env q n
  · exact ConvFns.succ (by simp only [key]; exact self_conv env q n)

/-- **C85**: `Delay` objects may always be exchanged for what they are defined as, any number of them, anywhere, also in
the definitions. -/
theorem C85_unfold (hd : ExchangedDefs (Unfolds env) env env') (h : Exchanged (Unfolds env) p q) (s : List τ)
    (o : Opts τ) : SameParse env env' p q s o := by
  have hs : ∀ (α : Type) (p q : P σ τ ρ Γ α), Unfolds env α p q → Same env p q := by
    rintro _ _ _ ⟨h⟩
    exact C85_delay _ _ h
  intro st x st'
  exact ⟨(follows_unfold hd h).parse, C85_definitions (exchangedDefs_mono hs hd) (exchanged_mono hs h) s o st x st'⟩

/-! ### C86 -/

/-- The callback computes `f` and does not touch the state. -/
def Computes (c : Callback σ α β) (f : α → β) : Prop := ∀ a st, c.run a st = (.ok (f a), st)

/-- The callback `e` calls `c` and then `d` on what `c` returned. -/
def InTurn (c : Callback σ α β) (d : Callback σ β γ) (e : Callback σ α γ) : Prop :=
  ∀ a st, e.run a st =
    match c.run a st with
    | (.ok b, st1) => d.run b st1
    | (.error x, st1) => (.error x, st1)

/-- **C86**: `p.fmap(lambda x: x)` is `p`. -/
theorem C86_fmap_id (p : P σ τ ρ Γ α) {c : Callback σ α α} (hc : Computes c fun a => a) : Same env (.fmap p c) p := by
  refine Follows.same (follows_iff.2 fun n => ?_) (follows_iff.2 fun n => ?_)
  · have := ConvFns.mapOfFmap hc (self_conv env p n)
    simp only [mapFns_id] at this
    exact this
  · have := ConvFns.fmapOfMap hc (self_conv env p n)
    rw [mapFns_id] at this
    exact this

/-- **C86**: without recovery `p.fmap(c).fmap(d)` is `p.fmap(lambda x: d(c(x)))`. (With recovery `c` would be called for
all repairs, then `d`: `C86_fmap_fmap_order`.) -/
theorem C86_fmap_fmap (p : P σ τ ρ Γ α) {c : Callback σ α β} {d : Callback σ β γ} {e : Callback σ α γ}
    (h : InTurn c d e) : SamePlain env (.fmap (.fmap p c) d) (.fmap p e) := by
  have hr : ∀ (a : α) (w w' : World σ), w.state = w'.state →
      ((c.call a w).bind d.call = .diverge ∨ Agree (· = ·) ((c.call a w).bind d.call) (e.call a w')) ∧
      Agree (· = ·) (e.call a w) ((c.call a w').bind d.call) := by
    intro a w w' hw
    have he := h a w.state
    simp only [Callback.call, ← hw]
    generalize c.run a w.state = y at he ⊢
    obtain ⟨⟨x⟩ | ⟨b⟩, st1⟩ := y
    · simp only [he]
      exact ⟨.inr ⟨rfl, rfl⟩, rfl, rfl⟩
    · simp only [he, Run.bind_ret, Callback.call]
      generalize d.run b st1 = z
      obtain ⟨⟨x⟩ | ⟨b⟩, st2⟩ := z <;> exact ⟨.inr ⟨rfl, rfl⟩, rfl, rfl⟩
  have hx : ∀ a, Conv (· = ·) (fun _ => e.call a) (c.call a >>= d.call) := by
    intro a w hw
    refine ⟨0, fun _ _ w' hw' => ?_⟩
    rcases (hr a w w' hw').1 with h | h
    · exact absurd h hw
    · exact h
  have hy : ∀ a, Conv (· = ·) (fun _ => c.call a >>= d.call) (e.call a) := by
    intro a w hw
    exact ⟨0, fun _ _ w' hw' => (hr a w w' hw').2⟩
  have e1 : ∀ n s pos ctx, (denote env n (.fmap (.fmap p c) d)).fast s pos ctx =
      (denote env n p).fast s pos ctx >>= fun r =>
        match r with
        | .ok r => (c.call r.value >>= d.call) >>= fun v => pure (.ok ⟨v, r.pos, r.ctx, r.expected, r.consumed⟩)
        | .error e => pure (.error e) := by
    intro n s pos ctx
    funext w
    show fmapFast (fmapFns (denote env n p) c) d s pos ctx w = _
    simp only [fmapFast, fmapFns, Act.bind_apply, Run.bind_assoc]
    refine Run.bind_congr fun r w' => ?_
    cases r with
    | error e => rfl
    | ok r => simp [Run.bind_assoc]
  have h1 : FollowsPlain env env (.fmap (.fmap p c) d) (.fmap p e) := by
    refine followsPlain_iff.2 fun n s pos ctx => ?_
    rw [e1]
    refine ((self_conv env p n).fast s pos ctx).bind fun r => ?_
    cases r with
    | error e => exact .pure _
    | ok r => exact (hx _).bind fun _ => .pure _
  have h2 : FollowsPlain env env (.fmap p e) (.fmap (.fmap p c) d) := by
    refine followsPlain_iff.2 fun n s pos ctx => ?_
    simp only [e1]
    refine ((self_conv env p n).fast s pos ctx).bind fun r => ?_
    cases r with
    | error e => exact .pure _
    | ok r =>
      exact Conv.bind (x := fun _ => c.call r.value >>= d.call) (hy _)
        (f := fun _ v => pure (Simple.ok ⟨v, r.pos, r.ctx, r.expected, r.consumed⟩)) fun _ => .pure _
  exact fun s pos ctx st x st' => ⟨h1 s pos ctx st x st', h2 s pos ctx st x st'⟩

/-- **C86**: `Pure(x).bind(f)` is `f(x)`, if calling `f` has no effect. -/
theorem C86_left_identity (x : α) {c : Callback σ α ι} {f : α → ι} (hc : Computes c f) (k : ι → P σ τ ρ Γ β) :
    Same env (.bind (.pure x) c k) (k (f x)) := by
  have e : ∀ n, bindFns (lift (Reparsec.pureFns x)) (fun a => pure (denote env n (k (f a)))) = denote env n (k (f x)) :=
    fun n => bindFns_pure_left x fun a => denote env n (k (f a))
  refine Follows.same (follows_iff.2 fun n => ?_) (follows_iff.2 fun n => ?_)
  · have := ConvFns.bindAct (F := fun _ => lift (Reparsec.pureFns x)) (conv_quiet hc) (.lift _)
      (fun i => self_conv env (k i) n)
    simp only [bindAct_eq] at this
    simp only [← e]
    exact this
  · have := ConvFns.bindAct (F := fun _ => lift (Reparsec.pureFns x)) (conv_quiet' hc) (.lift _)
      (fun i => self_conv env (k i) n)
    simp only [bindAct_eq] at this
    rw [← e]
    exact this

/-- **C86**: `p.bind(lambda x: Pure(x))` is `p`. -/
theorem C86_right_identity (p : P σ τ ρ Γ α) {c : Callback σ α α} (hc : Computes c fun a => a) :
    Same env (.bind p c .pure) p := by
  refine Follows.same (follows_iff.2 fun n => ?_) (follows_iff.2 fun n => ?_)
  · have := ConvFns.bindAct (G := fun _ a => lift (Reparsec.pureFns a)) (conv_quiet hc) (self_conv env p n)
      (fun i => .lift _)
    simp only [bindAct_eq, bindFns_pure_right] at this
    exact this
  · have := ConvFns.bindAct (G := fun _ a => lift (Reparsec.pureFns a)) (conv_quiet' hc) (self_conv env p n)
      (fun i => .lift _)
    rw [bindAct_eq, bindFns_pure_right] at this
    exact this

theorem samePlain_of_fast (h : ∀ n, (denote env n p).fast = (denote env n q).fast) : SamePlain env p q := by
  intro s pos ctx st x st'
  unfold EndsPlain
  simp only [h]

/-- **C86**: without recovery `p.bind(f).bind(g)` is `p.bind(lambda x: f(x).bind(g))`. (With recovery `f` would be called
for all repairs, then `g`: `C86_bind_order`.) -/
theorem C86_bind_assoc {ι' : Type} (p : P σ τ ρ Γ α) (c : Callback σ α ι) (k : ι → P σ τ ρ Γ β) (d : Callback σ β ι')
    (m : ι' → P σ τ ρ Γ γ) :
    SamePlain env (.bind (.bind p c k) d m) (.bind p c fun i => .bind (k i) d m) := by
  refine samePlain_of_fast fun n => ?_
  show (bindFns (bindFns _ _) _).fast = _
  rw [bindFast_assoc]
  have e : (fun a => do
      let g ← (do let i ← c.call a; return denoteWith n (table env n) (k i) : Act σ (ParseFns σ τ β))
      return bindFns g fun b => do let i ← d.call b; return denoteWith n (table env n) (m i)) =
      fun a => do
        let i ← c.call a
        return bindFns (denoteWith n (table env n) (k i)) fun b => do
          let i ← d.call b; return denoteWith n (table env n) (m i) := by
    funext a w
    simp only [Act.bind_apply, Run.bind_assoc]
    rfl
  rw [e]
  rfl

/-- **C86**: without recovery `(p | q) | r` is `p | (q | r)`. (With recovery `p` is run three times on the left and twice
on the right: `C86_alt_runs`.) -/
theorem C86_alt_assoc (p q r : P σ τ ρ Γ α) : SamePlain env (.alt (.alt p q) r) (.alt p (.alt q r)) :=
  samePlain_of_fast fun _ => altFast_assoc _ _ _

/-- **C86**: `p.maybe()` is `p.fmap(Some) | Pure(None)`. -/
theorem C86_maybe (p : P σ τ ρ Γ α) {c : Callback σ α (Option α)} (hc : Computes c some) :
    Same env (.maybe p) (.alt (.fmap p c) (.pure none)) := by
  refine Follows.same (follows_iff.2 fun n => ?_) (follows_iff.2 fun n => ?_)
  · show ConvFns _ _ (maybeFns (denote env n p))
    rw [maybeFns_eq]
    exact (ConvFns.fmapOfMap hc (self_conv env p n)).alt (.lift _)
  · show ConvFns _ (fun m => maybeFns (denote env m p)) _
    simp only [maybeFns_eq]
    exact (ConvFns.mapOfFmap hc (self_conv env p n)).alt (.lift _)

/-- **C86**: `p + q`, `p << q`, `p >> q` are `p.bind(lambda a: q.fmap(lambda b: merge(a, b)))`. -/
theorem C86_seq (p : P σ τ ρ Γ α) (q : P σ τ ρ Γ β) (merge : α → β → γ) {c : Callback σ α α} {d : α → Callback σ β γ}
    (hc : Computes c fun a => a) (hd : ∀ a, Computes (d a) (merge a)) :
    Same env (.seqWith p q merge) (.bind p c fun a => .fmap q (d a)) := by
  have e : ∀ f : ParseFns σ τ α, ∀ g : ParseFns σ τ β, seqFns f g merge =
      bindFns f fun a => do return mapFns g (merge (← (pure a : Act σ α))) := fun f g => seqFns_eq f g merge
  refine Follows.same (follows_iff.2 fun n => ?_) (follows_iff.2 fun n => ?_)
  · show ConvFns _ _ (seqFns (denote env n p) (denote env n q) merge)
    rw [e]
    exact ConvFns.bindAct (g := fun a => mapFns (denote env n q) (merge a)) (conv_quiet' hc) (self_conv env p n)
      fun a => ConvFns.fmapOfMap (hd a) (self_conv env q n)
  · show ConvFns _ (fun m => seqFns (denote env m p) (denote env m q) merge) _
    simp only [e]
    exact ConvFns.bindAct (G := fun m a => mapFns (denote env m q) (merge a)) (conv_quiet hc) (self_conv env p n)
      fun a => ConvFns.mapOfFmap (hd a) (self_conv env q n)

/-- **C86**: `p.label(x).label(y)` is `p.label(y)`. -/
theorem C86_label_label (p : P σ τ ρ Γ α) (x y : String) : Same env (.label (.label p x) y) (.label p y) :=
  same_of_denote fun _ => labelFns_label _ _ _

/-- **C86**: with recovery the laws hold for accepted inputs also where they have been proved without recovery only. -/
theorem C86_accepted (h : SamePlain env p q) (gl : Loc → List τ → Nat → Loc) (k : Int) (fmt : Loc → String) {st st' : σ}
    {r : Result τ α} {b : Bool} {v : α} (hr : EndsIn env p s (plain gl) st (.ok r) st') (hv : r.unwrap fmt b = .ok v) :
    EndsIn env p s (recovering k gl) st (.ok r) st' ∧ EndsIn env q s (recovering k gl) st (.ok r) st' := by
  have key : ∀ p : P σ τ ρ Γ α, EndsIn env p s (plain gl) st (.ok r) st' → EndsIn env p s (recovering k gl) st (.ok r) st' := by
    rintro p ⟨n, hn⟩
    obtain ⟨w, hw, rfl⟩ := seen_ret hn
    obtain ⟨m, hm⟩ := C61_accepted_same_effects env p s gl k fmt ⟨n, hw⟩ hv
    exact ⟨m, by rw [hm]; rfl⟩
  exact ⟨key p hr, key q ((h.parse s gl _ _ _).1 hr)⟩

/-! ### C87 -/

omit [BEq τ] in
theorem corresponds_flip {R : σ → σ' → Prop} {c : Callback σ α β} {c' : Callback σ' α β} (h : Corresponds R c c') :
    Corresponds (fun st' st => R st st') c' c :=
  fun a st' st hs => ⟨(h a st st' hs).1.symm, (h a st st' hs).2⟩

omit [BEq τ] in
theorem represents_flip {R : σ → σ' → Prop} {p : P σ τ ρ Γ α} {p' : P σ' τ ρ Γ α} (h : Represents R p p') :
    Represents (fun st' st => R st st') p' p := by
  induction h with
  | pure x => exact .pure x
  | pureFn hc => exact .pureFn (corresponds_flip hc)
  | unexpected x => exact .unexpected x
  | eof => exact .eof
  | satisfy hc => exact .satisfy (corresponds_flip hc)
  | sym x l => exact .sym x l
  | literal x ss h => exact .literal x ss h
  | regexp m => exact .regexp m
  | fmap _ hc ih => exact .fmap ih (corresponds_flip hc)
  | alt _ _ ih ih' => exact .alt ih ih'
  | bind _ hc _ ih ih' => exact .bind ih (corresponds_flip hc) ih'
  | seqWith m _ _ ih ih' => exact .seqWith m ih ih'
  | maybe _ ih => exact .maybe ih
  | many _ ih => exact .many ih
  | attempt _ ih => exact .attempt ih
  | label x _ ih => exact .label x ih
  | recover _ ih => exact .recover ih
  | recoverWith x v _ ih => exact .recoverWith x v ih
  | recoverWithFn l _ hc ih => exact .recoverWithFn l ih (corresponds_flip hc)
  | block _ ih => exact .block ih
  | aligned _ ih => exact .aligned ih
  | indented d _ ih => exact .indented d ih
  | ref i => exact .ref i

omit [BEq τ] in
theorem representsDefs_flip {R : σ → σ' → Prop} {env : Env σ τ ρ Γ} {env' : Env σ' τ ρ Γ}
    (h : RepresentsDefs R env env') : RepresentsDefs (fun st' st => R st st') env' env := by
  intro i
  rcases h i with ⟨h1, h2⟩ | ⟨p, p', h1, h2, h3⟩
  · exact .inl ⟨h2, h1⟩
  · exact .inr ⟨p', p, h2, h1, represents_flip h3⟩

theorem rep_ends {R : σ → σ' → Prop} {env : Env σ τ ρ Γ} {env' : Env σ' τ ρ Γ} {p : P σ τ ρ Γ α}
    {p' : P σ' τ ρ Γ α} (he : RepresentsDefs R env env') (hp : Represents R p p') {s : List τ} {o : Opts τ} {st : σ}
    {st' : σ'} (hs : R st st') {x : Except Exn (Result τ α)} {st1 : σ} (h : EndsIn env p s o st x st1) :
    ∃ st1', EndsIn env' p' s o st' x st1' ∧ R st1 st1' := by
  obtain ⟨n, hn⟩ := h
  have hc : Conv R (fun m => parse env' m p' s o.recover o.maxInsertions o.getLoc)
      (parse env n p s o.recover o.maxInsertions o.getLoc) := by
    unfold parse
    cases o.recover with
    | true => exact (rep_conv he hp n).fn _ _ _ _ _
    | false => exact ((rep_conv he hp n).fast _ _ _).bind fun _ => .pure _
  obtain ⟨N, hN⟩ := hc _ (seen_ne hn)
  obtain ⟨st1', h1, h2⟩ := (hN N (Nat.le_refl _) ⟨st', []⟩ hs).seen hn
  exact ⟨st1', ⟨N, h1⟩, h2⟩

/-- **C87**: if the user keeps their state in another representation, with callbacks that correspond to the old ones, then
parsing, from states that correspond, returns or raises the same and leaves states that correspond; and it hangs if it
hung before. -/
theorem C87_representation {R : σ → σ' → Prop} {env : Env σ τ ρ Γ} {env' : Env σ' τ ρ Γ} {p : P σ τ ρ Γ α}
    {p' : P σ' τ ρ Γ α} (he : RepresentsDefs R env env') (hp : Represents R p p') (s : List τ) (o : Opts τ) {st : σ}
    {st' : σ'} (hs : R st st') :
    (∀ x st1, EndsIn env p s o st x st1 → ∃ st1', EndsIn env' p' s o st' x st1' ∧ R st1 st1') ∧
      ∀ x st1', EndsIn env' p' s o st' x st1' → ∃ st1, EndsIn env p s o st x st1 ∧ R st1 st1' := by
  constructor
  · exact fun x st1 h => rep_ends he hp hs h
  · intro x st1' h
    obtain ⟨st1, h1, h2⟩ := rep_ends (R := fun st' st => R st st') (representsDefs_flip he) (represents_flip hp) hs h
    exact ⟨st1, h1, h2⟩

/-! ### Samples -/

namespace Sample

/-- No `Delay` objects. -/
def silent {σ : Type} : Env σ Char Empty (fun _ => Unit) := fun i => i.elim

/-- A callback that appends `n` to a list and returns its argument. -/
def log (n : Nat) : Callback (List Nat) Char Char := ⟨"log", fun a st => (.ok a, st ++ [n])⟩

/-- `lambda x: log2(log1(x))` -/
def logBoth : Callback (List Nat) Char Char := ⟨"both", fun a st => (.ok a, st ++ [1] ++ [2])⟩

theorem logBoth_inTurn : InTurn (log 1) (log 2) logBoth := fun _ _ => rfl

/-- A predicate that appends `n` to a list. -/
def logTest (x : Char) (n : Nat) : Callback (List Nat) Char Bool := ⟨"test", fun a st => (.ok (a == x), st ++ [n])⟩

/-- **C86**: with recovery, `sym("a").fmap(f).fmap(g)` calls `f` for both repairs of `"ba"` and then `g`; with one
`fmap` they are called alternately. -/
theorem C86_fmap_fmap_order : ∃ r,
    EndsIn silent (.fmap (.fmap (.sym 'a' "a") (log 1)) (log 2)) "ba".toList (recovering 5 defaultGetLoc) []
      (.ok (.recovered r)) [1, 1, 2, 2] ∧
    EndsIn silent (.fmap (.sym 'a' "a") logBoth) "ba".toList (recovering 5 defaultGetLoc) []
      (.ok (.recovered r)) [1, 2, 1, 2] := ⟨_, ⟨5, rfl⟩, ⟨5, rfl⟩⟩

/-- **C86**: the same for `bind`. -/
theorem C86_bind_order : ∃ r,
    EndsIn silent (.bind (.bind (.sym 'a' "a") (log 1) .pure) (log 2) .pure) "ba".toList (recovering 5 defaultGetLoc) []
      (.ok (.recovered r)) [1, 1, 2, 2] ∧
    EndsIn silent (.bind (.sym 'a' "a") (log 1) fun c => .bind (.pure c) (log 2) .pure) "ba".toList
      (recovering 5 defaultGetLoc) [] (.ok (.recovered r)) [1, 2, 1, 2] := ⟨_, ⟨5, rfl⟩, ⟨5, rfl⟩⟩

/-- **C86**: with recovery, on the left `p` is run three times and `r` twice, on the right `p` twice and `r` three
times. -/
theorem C86_alt_runs : ∃ r,
    EndsIn silent (.alt (.alt (.satisfy (logTest 'a' 1)) (.satisfy (logTest 'b' 2))) (.satisfy (logTest 'c' 3)))
      "d".toList (recovering 5 defaultGetLoc) [] (.ok r) [1, 2, 3, 1, 2, 1, 2, 3] ∧
    EndsIn silent (.alt (.satisfy (logTest 'a' 1)) (.alt (.satisfy (logTest 'b' 2)) (.satisfy (logTest 'c' 3))))
      "d".toList (recovering 5 defaultGetLoc) [] (.ok r) [1, 2, 3, 1, 2, 3, 2, 3] := ⟨_, ⟨5, rfl⟩, ⟨5, rfl⟩⟩

/-- A callback without effects. -/
def only {α β : Type} {σ : Type} (f : α → β) : Callback σ α β := ⟨"", fun a st => (.ok (f a), st)⟩

theorem only_computes {α β : Type} {σ : Type} (f : α → β) : Computes (only f : Callback σ α β) f := fun _ _ => rfl

/-- A callback that counts how often it is called. -/
def tick : Callback Nat Char Char := ⟨"tick", fun a n => (.ok a, n + 1)⟩

/-- `parens.define((sym("(").fmap(tick) >> parens << sym(")")).many().fmap(len))` -/
def nestEnv : Env Nat Char Unit (fun _ => Nat) := fun _ =>
  some (.fmap (.many (.seqWith (.seqWith (.fmap (.sym '(' "'('") tick) (.ref ()) fun _ n => n) (.sym ')' "')'")
    fun n _ => n)) (only fun l => l.length))

/-- The same with `bind` for `<<`, and with a map with the identity on the inner `parens`. -/
def nestEnv' : Env Nat Char Unit (fun _ => Nat) := fun _ =>
  some (.fmap (.many (.bind (.seqWith (.fmap (.sym '(' "'('") tick) (.fmap (.ref ()) (only fun n => n)) fun _ n => n)
    (only fun n => n) fun n => .fmap (.sym ')' "')'") (only fun _ => n))) (only fun l => l.length))

/-- The hypotheses of `C85_definitions` are met, with two laws of C86 at once. -/
theorem nest_exchanged : ExchangedDefs (fun _ => Same nestEnv) nestEnv nestEnv' := fun _ =>
  .inr ⟨_, _, rfl, rfl, .fmap _ (.many (.part ((C85_anywhere (.seqWith _ (.seqWith _ (.keep _)
    (.part (C86_fmap_id _ (only_computes _)).symm)) (.keep _))).trans
      (C86_seq _ _ _ (only_computes _) fun _ => only_computes _))))⟩

example (s : List Char) (o : Opts Char) (st : Nat) (x st') (h : EndsIn nestEnv' (.ref ()) s o st x st') :
    EndsIn nestEnv (.ref ()) s o st x st' := C85_definitions nest_exchanged (.keep _) s o st x st' h

/-- `()()`: two brackets are counted. -/
example : ∃ r, EndsIn nestEnv (.ref ()) "()()".toList (plain defaultGetLoc) 0 (.ok (.ok r)) 2 := ⟨_, ⟨9, rfl⟩⟩

/-- The definition with the inner `parens` unfolded once. -/
def nestUnfolded : Env Nat Char Unit (fun _ => Nat) := fun _ =>
  some (.fmap (.many (.seqWith (.seqWith (.fmap (.sym '(' "'('") tick)
    (.fmap (.many (.seqWith (.seqWith (.fmap (.sym '(' "'('") tick) (.ref ()) fun _ n => n) (.sym ')' "')'")
      fun n _ => n)) (only fun l => l.length)) fun _ n => n) (.sym ')' "')'") fun n _ => n)) (only fun l => l.length))

/-- The hypotheses of `C85_unfold` are met. -/
example (s : List Char) (o : Opts Char) : SameParse nestEnv nestUnfolded (.ref ()) (.ref ()) s o :=
  C85_unfold (fun _ => .inr ⟨_, _, rfl, rfl, .fmap _ (.many (.seqWith _ (.seqWith _ (.keep _) (.part (.mk rfl)))
    (.keep _)))⟩) (.keep _) s o

/-- The hypotheses of `C86_accepted` are met. -/
example : ∃ r, EndsIn silent (.fmap (.fmap (.sym 'a' "a") (log 1)) (log 2)) "a".toList (plain defaultGetLoc) [] (.ok r)
    [1, 2] ∧ r.unwrap defaultFmtLoc true = .ok 'a' := ⟨_, ⟨5, rfl⟩, rfl⟩

/-! The parser with a symbol table (`Props/Effects`), with the table kept as a function. -/

def declareF : Callback (Char → Bool) Char Unit := ⟨"declare", fun c t => (.ok (), fun x => x == c || t x)⟩
def declaredF : Callback (Char → Bool) Char Bool := ⟨"declared", fun c t => (.ok (t c), t)⟩
def isLetterF : Callback (Char → Bool) Char Bool := ⟨"letter", fun c t =>
  (if c.isDigit then .error (.user "digit") else .ok (c.isAlpha), t)⟩
def skipF : Callback (Char → Bool) Char Unit := ⟨"skip", fun _ t => (.ok (), t)⟩

def progF : P (Char → Bool) Char Empty (fun _ => Unit) (List Unit) :=
  .seqWith (.many (.alt (.seqWith (.sym 'd' "'d'") (.fmap (.satisfy isLetterF) declareF) fun _ b => b)
    (.fmap (.satisfy declaredF) skipF))) .eof fun a _ => a

/-- The function says which letters are in the list. -/
def Table (l : List Char) (f : Char → Bool) : Prop := ∀ c, l.contains c = f c

theorem prog_represents : Represents Table prog progF := by
  refine .seqWith _ (.many (.alt (.seqWith _ (.sym _ _) (.fmap (.satisfy ?_) ?_)) (.fmap (.satisfy ?_) ?_))) .eof
  · exact fun c l f h => ⟨rfl, h⟩
  · refine fun c l f h => ⟨rfl, fun x => ?_⟩
    have hx := h x
    show (l ++ [c]).contains x = (x == c || f x)
    rw [← hx]
    simp only [List.contains_eq_mem, List.mem_append, List.mem_singleton]
    by_cases h1 : x ∈ l <;> by_cases h2 : x = c <;> simp [h1, h2]
  · exact fun c l f h => ⟨congrArg Except.ok (h c), h⟩
  · exact fun c l f h => ⟨rfl, h⟩

/-- The hypotheses of `C87_representation` are met: parsing with the table kept as a function returns what it returns
with the list, with and without recovery, and the same letters are declared afterwards. -/
example (s : List Char) (o : Opts Char) (x st1) (h : EndsIn noEnv prog s o [] x st1) :
    ∃ f, EndsIn silent progF s o (fun _ => false) x f ∧ Table st1 f :=
  (C87_representation (fun i => i.elim) prog_represents s o (fun _ => rfl)).1 x st1 h

end Sample

end Eff

end Reparsec
