import Verif.Model.Stack
import Verif.Lemmas.Conv
import Verif.Lemmas.Yields

/-!
# Comparing runs with different amounts of stack and fuel
-/

namespace Reparsec.Stk

variable {τ α β γ : Type}

/-! ### Without a limit -/

theorem framed_none (f : LFns τ α) : framed f none = f none := rfl

theorem framedFn_none {p f : LFns τ α} (h : (p none).fast = (f none).fast) :
    framedFn p f none = f none := by
  unfold framedFn
  rw [h]
  rfl

theorem manyLoop_none (p : LFns τ α) (s : List τ) (ins : Int) (fuel : Nat) :
    manyLoop p s ins fuel none = Reparsec.manyLoop (p none).fn s ins fuel := by
  induction fuel with
  | zero => rfl
  | succ n ih =>
    funext pos ctx c v
    simp only [manyLoop, Reparsec.manyLoop, continueParse, call, ih]
    rfl

variable {ρ : Type} {Γ : ρ → Type} [BEq τ]

theorem denoteWith_none (n : Nat) (t : (i : ρ) → LFns τ (Γ i)) (p : P τ ρ Γ α) :
    denoteWith n t p none = Reparsec.denoteWith n (fun i => t i none) p := by
  induction p with
  | pure | pureFn | unexpected | eof | satisfy | sym | literal | regexp => rfl
  | fmap p fn ih => simp only [denoteWith, Reparsec.denoteWith, framed_none, ih]
  | alt p q ihp ihq => simp only [denoteWith, Reparsec.denoteWith, framed_none, ihp, ihq]
  | bind p k ihp ihk =>
    simp only [denoteWith, Reparsec.denoteWith, bindFns, framed_none, Reparsec.bindFns]
    rw [← ihp, ← funext fun a => ihk a]
    rfl
  | seqWith p q merge ihp ihq =>
    simp only [denoteWith, Reparsec.denoteWith, seqFns, framed_none, Reparsec.seqFns]
    rw [← ihp, ← ihq]
    rfl
  | maybe p ih => simp only [denoteWith, Reparsec.denoteWith, framed_none, ih]
  | many p ih =>
    simp only [denoteWith, Reparsec.denoteWith, manyFns, framed_none, Reparsec.manyFns,
      manyLoop_none, ih]
  | attempt p ih => simp only [denoteWith, Reparsec.denoteWith, framed_none, ih]
  | label p x ih => simp only [denoteWith, Reparsec.denoteWith, framed_none, ih]
  | recover p ih =>
    simp only [denoteWith, Reparsec.denoteWith]
    rw [framedFn_none (by rfl), ih]
  | recoverWith p x vs ih =>
    simp only [denoteWith, Reparsec.denoteWith]
    rw [framedFn_none (by rfl), ih]
  | recoverWithFn p fn lbl ih =>
    simp only [denoteWith, Reparsec.denoteWith]
    rw [framedFn_none (by rfl), ih]
  | block p ih => simp only [denoteWith, Reparsec.denoteWith, framed_none, ih]
  | aligned p ih => simp only [denoteWith, Reparsec.denoteWith, framed_none, ih]
  | indented delta p ih => simp only [denoteWith, Reparsec.denoteWith, framed_none, ih]
  | ref i => rfl

theorem table_none (env : Env τ ρ Γ) (n : Nat) (i : ρ) :
    table env n i none = Reparsec.table env n i := by
  induction n generalizing i with
  | zero => rfl
  | succ n ih =>
    simp only [table, Reparsec.table]
    cases env i with
    | none => rfl
    | some p => simp only [framed_none, denoteWith_none, ih]

/-- Without a limit this is the model of `Model/Parser.lean`. -/
theorem denote_none (env : Env τ ρ Γ) (n : Nat) (p : P τ ρ Γ α) :
    denote env n p none = Reparsec.denote env n p := by
  simp only [denote, Reparsec.denote, denoteWith_none, table_none]

theorem parse_none (env : Env τ ρ Γ) (n : Nat) (p : P τ ρ Γ α) (s : List τ) (rec : Bool)
    (k : Int) (gl : Loc → List τ → Nat → Loc) :
    parse env n none p s rec k gl = Reparsec.parse env n p s rec k gl := by
  simp only [parse, call, framed_none, denote_none, Reparsec.parse]

/-! ### Comparing -/

omit [BEq τ]

/-- In what way a run may differ from another one: the first one may be out of fuel, it may be out of
stack, the second one may be out of fuel. -/
structure Slack where
  fuel : Bool
  stack : Bool
  fuel' : Bool
  /-- the comparison is only for first runs with at most so many frames -/
  bound : Frames := none

/-- The first run differs from the second at most as `k` allows. -/
def Rel (k : Slack) (x y : Out α) : Prop :=
  (k.fuel = true ∧ x = .diverge) ∨ (k.stack = true ∧ x = .raise recursionError) ∨
    (k.fuel' = true ∧ y = .diverge) ∨ x = y

variable {k : Slack}

theorem Rel.refl (x : Out α) : Rel k x x := .inr (.inr (.inr rfl))

theorem Rel.bind {x y : Out α} {f g : α → Out β} (h : Rel k x y) (hf : ∀ a, Rel k (f a) (g a)) :
    Rel k (x.bind f) (y.bind g) := by
  rcases h with ⟨h, rfl⟩ | ⟨h, rfl⟩ | ⟨h, rfl⟩ | rfl
  · exact .inl ⟨h, rfl⟩
  · exact .inr (.inl ⟨h, rfl⟩)
  · exact .inr (.inr (.inl ⟨h, rfl⟩))
  · cases x with
    | diverge => exact .refl _
    | raise e => exact .refl _
    | ret a => exact hf a

/-- The same for parse functions. -/
def RelFns (k : Slack) (f g : ParseFns τ α) : Prop :=
  (∀ s pos ctx, Rel k (f.fast s pos ctx) (g.fast s pos ctx)) ∧
  (∀ s pos ctx ins rem, Rel k (f.fn s pos ctx ins rem) (g.fn s pos ctx ins rem))

theorem RelFns.refl (f : ParseFns τ α) : RelFns k f f :=
  ⟨fun _ _ _ => .refl _, fun _ _ _ _ _ => .refl _⟩

/-- No more frames than the bound. -/
def Within (b d : Frames) : Prop := ∀ m, b = some m → ∃ e, d = some e ∧ e ≤ m

theorem Within.pred {b : Frames} {d : Nat} (h : Within b (some (d + 1))) : Within b (some d) := by
  intro m hm
  obtain ⟨e, h1, h2⟩ := h m hm
  cases h1
  exact ⟨d, rfl, by omega⟩

/-- The first run has at most as many frames as the second; just as many if it must not run out of
stack. -/
def Fits (k : Slack) (d d' : Frames) : Prop :=
  (d = d' ∨ (k.stack = true ∧ (d' = none ∨ ∃ e e', d = some e ∧ d' = some e' ∧ e ≤ e'))) ∧
    Within k.bound d

theorem Rel.call {b b' : Frames → Out α} (h : ∀ d d', Fits k d d' → Rel k (b d) (b' d'))
    {d d' : Frames} (hd : Fits k d d') : Rel k (Stk.call b d) (Stk.call b' d') := by
  obtain ⟨rfl | ⟨hk, rfl | ⟨e, e', rfl, rfl, hle⟩⟩, hb⟩ := hd
  · rcases d with _ | _ | d
    · exact h _ _ ⟨.inl rfl, hb⟩
    · exact .refl _
    · exact h _ _ ⟨.inl rfl, hb.pred⟩
  · rcases d with _ | _ | d
    · exact h _ _ ⟨.inl rfl, hb⟩
    · exact .inr (.inl ⟨hk, rfl⟩)
    · exact h _ _ ⟨.inr ⟨hk, .inl rfl⟩, hb.pred⟩
  · rcases e with _ | e
    · exact .inr (.inl ⟨hk, rfl⟩)
    · obtain ⟨e', rfl⟩ : ∃ m, e' = m + 1 := ⟨e' - 1, by omega⟩
      exact h _ _ ⟨.inr ⟨hk, .inr ⟨_, _, rfl, rfl, by omega⟩⟩, hb.pred⟩

/-- Functions that depend on the stack. -/
def RelL (k : Slack) (f g : LFns τ α) : Prop := ∀ d d', Fits k d d' → RelFns k (f d) (g d')

theorem RelL.framed {f g : LFns τ α} (h : RelL k f g) : RelL k (framed f) (framed g) :=
  fun _ _ hd => ⟨fun _ _ _ => Rel.call (fun d d' hd => (h d d' hd).1 _ _ _) hd,
    fun _ _ _ _ _ => Rel.call (fun d d' hd => (h d d' hd).2 _ _ _ _ _) hd⟩

theorem RelL.framedFn {p q f g : LFns τ α} (hp : RelL k p q) (h : RelL k f g) :
    RelL k (framedFn p f) (framedFn q g) :=
  fun _ _ hd => ⟨fun _ _ _ => (hp _ _ hd).1 _ _ _,
    fun _ _ _ _ _ => Rel.call (fun d d' hd => (h d d' hd).2 _ _ _ _ _) hd⟩

theorem contReps_rel {ins : Int} {c c' : α → Nat → Ctx τ → Int → Out (Result τ β)}
    {merge : α → β → γ} (hk : ∀ v p x r, Rel k (c v p x r) (c' v p x r)) (l : List (Repair τ α)) :
    Rel k (contReps ins c merge l) (contReps ins c' merge l) := by
  induction l with
  | nil => exact .refl _
  | cons r rs ih =>
    simp only [contReps, Out.bind_def]
    exact (hk _ _ _ _).bind fun _ => ih.bind fun _ => .refl _

theorem continueParse_rel {d d' : Frames} (hd : Fits k d d') {ra : Recovered τ α} {ins : Int}
    {c c' : Frames → α → Nat → Ctx τ → Int → Out (Result τ β)} {merge : α → β → γ}
    (hk : ∀ d d', Fits k d d' → ∀ v p x r, Rel k (c d v p x r) (c' d' v p x r)) :
    Rel k (continueParse d ra ins c merge) (continueParse d' ra ins c' merge) :=
  Rel.call (fun _ _ hd => (contReps_rel (fun _ _ _ _ =>
    Rel.call (fun _ _ hd => hk _ _ hd _ _ _ _) hd) _).bind fun _ => .refl _) hd

theorem relFns_fmap {f f' : ParseFns τ α} (fn : α → Except Exn β) (h : RelFns k f f') :
    RelFns k (fmapFns f fn) (fmapFns f' fn) :=
  ⟨fun _ _ _ => (h.1 _ _ _).bind fun _ => .refl _,
   fun _ _ _ _ _ => (h.2 _ _ _ _ _).bind fun _ => .refl _⟩

theorem altRecover_rel {f f' g g' : ParseFns τ α} (hf : RelFns k f f') (hg : RelFns k g g')
    (s pos ctx ins rem loc ex) : Rel k (altRecover f g s pos ctx ins rem loc ex)
      (altRecover f' g' s pos ctx ins rem loc ex) := by
  cases rem with
  | none => exact .refl _
  | some rem =>
    exact (hf.2 _ _ _ _ _).bind fun _ => (hg.2 _ _ _ _ _).bind fun _ => .refl _

theorem altSecond_rel {f f' g g' : ParseFns τ α} (hf : RelFns k f f') (hg : RelFns k g g')
    (s pos ctx ins rem loc ex) : Rel k (altSecond f g s pos ctx ins rem loc ex)
      (altSecond f' g' s pos ctx ins rem loc ex) := by
  refine (hg.2 _ _ _ _ _).bind fun r => ?_
  cases r with
  | ok r => exact .refl _
  | error e => simp only; split; exact .refl _; exact altRecover_rel hf hg ..
  | recovered e => simp only; split; exact .refl _; exact altRecover_rel hf hg ..

theorem relFns_alt {f f' g g' : ParseFns τ α} (hf : RelFns k f f') (hg : RelFns k g g') :
    RelFns k (altFns f g) (altFns f' g') := by
  constructor
  · intro s pos ctx
    refine (hf.1 _ _ _).bind fun r => ?_
    cases r with
    | ok r => exact .refl _
    | error e =>
      simp only; split
      · exact .refl _
      · exact (hg.1 _ _ _).bind fun _ => .refl _
  · intro s pos ctx ins rem
    refine (hf.2 _ _ _ _ _).bind fun r => ?_
    cases r with
    | ok r => exact .refl _
    | error e => simp only; split; exact .refl _; exact altSecond_rel hf hg ..
    | recovered e => simp only; split; exact .refl _; exact altSecond_rel hf hg ..

theorem relL_bind {f f' : LFns τ α} {g g' : α → LFns τ β} (hf : RelL k f f')
    (hg : ∀ a, RelL k (g a) (g' a)) : RelL k (bindFns f g) (bindFns f' g') := by
  refine RelL.framed fun d d' hd => ⟨?_, ?_⟩
  · intro s pos ctx
    refine ((hf _ _ hd).1 _ _ _).bind fun r => ?_
    cases r with
    | error e => exact .refl _
    | ok r => exact (((hg _).framed _ _ hd).1 _ _ _).bind fun _ => .refl _
  · intro s pos ctx ins rem
    refine ((hf _ _ hd).2 _ _ _ _ _).bind fun r => ?_
    cases r with
    | error e => exact .refl _
    | ok r =>
      simp only; split
      · exact (((hg _).framed _ _ hd).2 _ _ _ _ _).bind fun _ => .refl _
      · exact (((hg _).framed _ _ hd).2 _ _ _ _ _).bind fun _ => .refl _
    | recovered r =>
      exact continueParse_rel hd fun _ _ hd _ _ _ _ => ((hg _).framed _ _ hd).2 _ _ _ _ _

theorem relL_seq {f f' : LFns τ α} {g g' : LFns τ β} (merge : α → β → γ) (hf : RelL k f f')
    (hg : RelL k g g') : RelL k (seqFns f g merge) (seqFns f' g' merge) := by
  refine RelL.framed fun d d' hd => ⟨?_, ?_⟩
  · intro s pos ctx
    refine ((hf _ _ hd).1 _ _ _).bind fun r => ?_
    cases r with
    | error e => exact .refl _
    | ok r => exact ((hg _ _ hd).1 _ _ _).bind fun _ => .refl _
  · intro s pos ctx ins rem
    refine ((hf _ _ hd).2 _ _ _ _ _).bind fun r => ?_
    cases r with
    | error e => exact .refl _
    | ok r => exact ((hg _ _ hd).2 _ _ _ _ _).bind fun _ => .refl _
    | recovered r =>
      exact continueParse_rel hd fun _ _ hd _ _ _ _ => (hg _ _ hd).2 _ _ _ _ _

/-- How the amounts of fuel may differ. -/
def Fuels (k : Slack) (n n' : Nat) : Prop :=
  n = n' ∨ (k.fuel = true ∧ n ≤ n') ∨ (k.fuel' = true ∧ n' ≤ n)

theorem Fuels.cases {n n' : Nat} (h : Fuels k n n') {C : Prop}
    (h1 : k.fuel = true → n = 0 → C) (h2 : k.fuel' = true → n' = 0 → C)
    (h3 : n = 0 → n' = 0 → C) (h4 : ∀ m m', n = m + 1 → n' = m' + 1 → Fuels k m m' → C) : C := by
  cases n with
  | zero =>
    cases n' with
    | zero => exact h3 rfl rfl
    | succ n' =>
      rcases h with h | ⟨h, _⟩ | ⟨_, h⟩
      · cases h
      · exact h1 h rfl
      · omega
  | succ n =>
    cases n' with
    | zero =>
      rcases h with h | ⟨_, h⟩ | ⟨h, _⟩
      · cases h
      · omega
      · exact h2 h rfl
    | succ n' =>
      refine h4 n n' rfl rfl ?_
      rcases h with h | ⟨h, h'⟩ | ⟨h, h'⟩
      · exact .inl (by omega)
      · exact .inr (.inl ⟨h, by omega⟩)
      · exact .inr (.inr ⟨h, by omega⟩)

theorem manyFastLoop_rel {p p' : FastFn τ α}
    (h : ∀ s pos ctx, Rel k (p s pos ctx) (p' s pos ctx))
    (s : List τ) {n n' : Nat} (hn : Fuels k n n') (pos ctx c v) :
    Rel k (manyFastLoop p s n pos ctx c v) (manyFastLoop p' s n' pos ctx c v) := by
  induction n generalizing n' pos ctx c v with
  | zero =>
    refine hn.cases (fun hk _ => .inl ⟨hk, rfl⟩) (fun hk e => .inr (.inr (.inl ⟨hk, ?_⟩)))
      (fun _ e => ?_) (fun m m' e => absurd e (by omega))
    · subst e; rfl
    · subst e; exact .refl _
  | succ n ih =>
    refine hn.cases (fun _ e => absurd e (by omega)) (fun hk e => .inr (.inr (.inl ⟨hk, ?_⟩)))
      (fun e => absurd e (by omega)) (fun m m' e e' hm => ?_)
    · subst e; rfl
    · obtain rfl : n = m := by omega
      subst e'
      refine (h _ _ _).bind fun r => ?_
      cases r with
      | ok r =>
        simp only; split
        · exact ih hm ..
        · exact .refl _
      | error e => exact .refl _

theorem manyLoop_rel {p p' : LFns τ α} (h : RelL k p p') (s : List τ) (ins : Int) {n n' : Nat}
    (hn : Fuels k n n') {d d' : Frames} (hd : Fits k d d') (pos ctx c v) :
    Rel k (manyLoop p s ins n d pos ctx c v) (manyLoop p' s ins n' d' pos ctx c v) := by
  induction n generalizing n' d d' pos ctx c v with
  | zero =>
    refine hn.cases (fun hk _ => .inl ⟨hk, rfl⟩) (fun hk e => .inr (.inr (.inl ⟨hk, ?_⟩)))
      (fun _ e => ?_) (fun m m' e => absurd e (by omega))
    · subst e; rfl
    · subst e; exact .refl _
  | succ n ih =>
    refine hn.cases (fun _ e => absurd e (by omega)) (fun hk e => .inr (.inr (.inl ⟨hk, ?_⟩)))
      (fun e => absurd e (by omega)) (fun m m' e e' hm => ?_)
    · subst e; rfl
    · obtain rfl : n = m := by omega
      subst e'
      refine ((h _ _ hd).2 _ _ _ _ _).bind fun r => ?_
      cases r with
      | ok r =>
        simp only; split
        · exact ih hm hd ..
        · exact .refl _
      | error e => exact .refl _
      | recovered r =>
        exact continueParse_rel hd fun _ _ hd _ _ _ _ => Rel.call (fun _ _ hd => ih hm hd ..) hd

theorem relL_many {f f' : LFns τ α} (h : RelL k f f') {n n' : Nat} (hn : Fuels k n n') :
    RelL k (manyFns n f) (manyFns n' f') :=
  RelL.framed fun _ _ hd => ⟨fun s _ _ => manyFastLoop_rel (h _ _ hd).1 s hn ..,
    fun s _ _ ins _ => manyLoop_rel h s ins hn hd ..⟩

theorem relFns_maybe {f f' : ParseFns τ α} (h : RelFns k f f') :
    RelFns k (maybeFns f) (maybeFns f') :=
  ⟨fun _ _ _ => (h.1 _ _ _).bind fun _ => .refl _,
   fun _ _ _ _ _ => (h.2 _ _ _ _ _).bind fun _ => .refl _⟩

theorem relFns_attempt {f f' : ParseFns τ α} (h : RelFns k f f') :
    RelFns k (attemptFns f) (attemptFns f') := by
  constructor
  · intro s pos ctx
    exact (h.1 _ _ _).bind fun _ => .refl _
  · intro s pos ctx ins rem
    cases rem with
    | none => exact (h.1 _ _ _).bind fun _ => .refl _
    | some rem => exact h.2 ..

theorem relFns_label {f f' : ParseFns τ α} (x : String) (h : RelFns k f f') :
    RelFns k (labelFns f x) (labelFns f' x) :=
  ⟨fun _ _ _ => (h.1 _ _ _).bind fun _ => .refl _,
   fun _ _ _ _ _ => (h.2 _ _ _ _ _).bind fun _ => .refl _⟩

theorem relFns_recover {f f' : ParseFns τ α} (h : RelFns k f f') :
    RelFns k (recoverFns f) (recoverFns f') :=
  ⟨h.1, fun _ _ _ _ _ => (h.2 _ _ _ _ _).bind fun _ => .refl _⟩

theorem relFns_recoverWith {f f' : ParseFns τ α} (x : α) (vs : String) (h : RelFns k f f') :
    RelFns k (recoverWithFns f x vs) (recoverWithFns f' x vs) := by
  refine ⟨h.1, fun s pos ctx ins rem => ?_⟩
  cases rem with
  | none => exact h.2 ..
  | some rem => exact (h.2 _ _ _ _ _).bind fun _ => .refl _

theorem relFns_recoverWithFn {f f' : ParseFns τ α} (fn : List τ → Nat → Except Exn α)
    (lbl : α → String) (h : RelFns k f f') :
    RelFns k (recoverWithFnFns f fn lbl) (recoverWithFnFns f' fn lbl) := by
  refine ⟨h.1, fun s pos ctx ins rem => ?_⟩
  cases rem with
  | none => exact h.2 ..
  | some rem => exact (h.2 _ _ _ _ _).bind fun _ => .refl _

theorem relFns_block {f f' : ParseFns τ α} (h : RelFns k f f') :
    RelFns k (blockFns f) (blockFns f') :=
  ⟨fun _ _ _ => (h.1 _ _ _).bind fun _ => .refl _,
   fun _ _ _ _ _ => (h.2 _ _ _ _ _).bind fun _ => .refl _⟩

theorem relFns_aligned {f f' : ParseFns τ α} (h : RelFns k f f') :
    RelFns k (alignedFns f) (alignedFns f') := by
  constructor
  · intro s pos ctx; simp only [alignedFns]; split; exact h.1 ..; exact .refl _
  · intro s pos ctx ins rem; simp only [alignedFns]; split; exact h.2 ..; exact .refl _

theorem relFns_indented {f f' : ParseFns τ α} (d : Int) (h : RelFns k f f') :
    RelFns k (indentedFns d f) (indentedFns d f') := by
  constructor
  · intro s pos ctx; simp only [indentedFns]; split
    · exact (h.1 _ _ _).bind fun _ => .refl _
    · exact .refl _
  · intro s pos ctx ins rem; simp only [indentedFns]; split
    · exact (h.2 _ _ _ _ _).bind fun _ => .refl _
    · exact .refl _

variable [BEq τ]

theorem denoteWith_rel {n n' : Nat} (hn : Fuels k n n') {t t' : (i : ρ) → LFns τ (Γ i)}
    (ht : ∀ i, RelL k (t i) (t' i)) (p : P τ ρ Γ α) :
    RelL k (denoteWith n t p) (denoteWith n' t' p) := by
  induction p with
  | pure | pureFn | unexpected | eof | satisfy | sym | literal | regexp =>
    exact RelL.framed fun _ _ _ => .refl _
  | fmap p fn ih => exact RelL.framed fun _ _ hd => relFns_fmap fn (ih _ _ hd)
  | alt p q ihp ihq => exact RelL.framed fun _ _ hd => relFns_alt (ihp _ _ hd) (ihq _ _ hd)
  | bind p k ihp ihk => exact relL_bind ihp ihk
  | seqWith p q merge ihp ihq => exact relL_seq merge ihp ihq
  | maybe p ih => exact RelL.framed fun _ _ hd => relFns_maybe (ih _ _ hd)
  | many p ih => exact relL_many ih hn
  | attempt p ih => exact RelL.framed fun _ _ hd => relFns_attempt (ih _ _ hd)
  | label p x ih => exact RelL.framed fun _ _ hd => relFns_label x (ih _ _ hd)
  | recover p ih => exact RelL.framedFn ih fun _ _ hd => relFns_recover (ih _ _ hd)
  | recoverWith p x vs ih => exact RelL.framedFn ih fun _ _ hd => relFns_recoverWith x vs (ih _ _ hd)
  | recoverWithFn p fn lbl ih =>
    exact RelL.framedFn ih fun _ _ hd => relFns_recoverWithFn fn lbl (ih _ _ hd)
  | block p ih => exact RelL.framed fun _ _ hd => relFns_block (ih _ _ hd)
  | aligned p ih => exact RelL.framed fun _ _ hd => relFns_aligned (ih _ _ hd)
  | indented delta p ih => exact RelL.framed fun _ _ hd => relFns_indented delta (ih _ _ hd)
  | ref i => exact ht i

theorem table_rel (env : Env τ ρ Γ) {n n' : Nat} (hn : Fuels k n n') (i : ρ) :
    RelL k (table env n i) (table env n' i) := by
  induction n generalizing n' i with
  | zero =>
    refine hn.cases (fun hk _ => ?_) (fun hk e => ?_) (fun _ e => ?_)
      (fun m m' e => absurd e (by omega))
    · cases n' with
      | zero => exact RelL.framed fun _ _ _ => .refl _
      | succ n' =>
        simp only [table]
        have : ∀ {g : LFns τ (Γ i)}, RelL k (framed fun _ => divergeFns) (framed g) :=
          fun {g} => RelL.framed fun _ _ _ => ⟨fun _ _ _ => .inl ⟨hk, rfl⟩,
            fun _ _ _ _ _ => .inl ⟨hk, rfl⟩⟩
        cases env i <;> exact this
    · subst e; exact RelL.framed fun _ _ _ => .refl _
    · subst e; exact RelL.framed fun _ _ _ => .refl _
  | succ n ih =>
    refine hn.cases (fun _ e => absurd e (by omega)) (fun hk e => ?_)
      (fun e => absurd e (by omega)) (fun m m' e e' hm => ?_)
    · subst e
      simp only [table]
      have : ∀ {g : LFns τ (Γ i)}, RelL k (framed g) (framed fun _ => divergeFns) :=
        fun {g} => RelL.framed fun _ _ _ => ⟨fun _ _ _ => .inr (.inr (.inl ⟨hk, rfl⟩)),
          fun _ _ _ _ _ => .inr (.inr (.inl ⟨hk, rfl⟩))⟩
      cases env i <;> exact this
    · obtain rfl : n = m := by omega
      subst e'
      simp only [table]
      cases env i with
      | none => exact RelL.framed (RelL.framed fun _ _ _ => .refl _)
      | some p => exact RelL.framed (denoteWith_rel hm (fun i => ih hm i) p)

theorem denote_rel (env : Env τ ρ Γ) {n n' : Nat} (hn : Fuels k n n') (p : P τ ρ Γ α) :
    RelL k (denote env n p) (denote env n' p) :=
  denoteWith_rel hn (table_rel env hn) p

theorem parse_rel (env : Env τ ρ Γ) {n n' : Nat} (hn : Fuels k n n') {d d' : Frames}
    (hd : Fits k d d') (p : P τ ρ Γ α) (s : List τ) (r : Bool) (m : Int)
    (gl : Loc → List τ → Nat → Loc) :
    Rel k (parse env n d p s r m gl) (parse env n' d' p s r m gl) := by
  refine Rel.call (fun d d' hd => ?_) hd
  have h := (denote_rel (k := k) env hn p).framed d d' hd
  cases r with
  | true => exact h.2 _ _ _ _ _
  | false => exact (h.1 _ _ _).bind fun _ => .refl _

end Reparsec.Stk
