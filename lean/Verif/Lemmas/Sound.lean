import Verif.Lemmas.GrammarLemmas

/-!
# Soundness: values and repairs are derivable, with the reported operations

One induction gives: derivations (`Der`) for values and repairs, the locations of errors and
operations, and the insertion budget.
-/

namespace Reparsec

variable {τ ρ : Type} {Γ : ρ → Type} {α β γ : Type}

/-- What is needed of `get_loc` to say which locations are reported on the input `s`. -/
structure LocDisc (s : List τ) where
  /-- the `get_loc` function -/
  g : Loc → List τ → Nat → Loc
  /-- the location kept in the context is usable from this position on -/
  I : Loc → Nat → Prop
  /-- the locations that may be reported for a position -/
  rel : Nat → Loc → Prop
  /-- the columns that may be used for a position -/
  col : Nat → Nat → Prop
  /-- layout combinators are covered -/
  layout : Prop
  report : ∀ loc p q, I loc p → p ≤ q → q ≤ s.length → rel q (g loc s q)
  stay : ∀ loc p q, I loc p → p ≤ q → q ≤ s.length → I loc q
  update : ∀ loc p q, I loc p → p ≤ q → q ≤ s.length → I (g loc s q) q
  here : layout → ∀ loc p, I loc p → p ≤ s.length → loc.pos = p → rel p loc ∧ col p loc.col
  there : layout → ∀ loc p, I loc p → p ≤ s.length → loc.pos ≠ p → col p (g loc s p).col

variable {s : List τ}

/-- The context is usable at a position. -/
structure CtxOK (D : LocDisc s) (ctx : Ctx τ) (pos : Nat) : Prop where
  g : ctx.getLocFn = D.g
  inv : D.I ctx.loc pos

theorem CtxOK.report {D : LocDisc s} {ctx : Ctx τ} {pos : Nat} (h : CtxOK D ctx pos) {q : Nat}
    (h1 : pos ≤ q) (h2 : q ≤ s.length) : D.rel q (ctx.getLoc s q) := by
  unfold Ctx.getLoc; rw [h.g]; exact D.report _ _ _ h.inv h1 h2

theorem CtxOK.stay {D : LocDisc s} {ctx : Ctx τ} {pos : Nat} (h : CtxOK D ctx pos) {q : Nat}
    (h1 : pos ≤ q) (h2 : q ≤ s.length) : CtxOK D ctx q := ⟨h.g, D.stay _ _ _ h.inv h1 h2⟩

theorem CtxOK.updateLoc {D : LocDisc s} {ctx : Ctx τ} {pos : Nat} (h : CtxOK D ctx pos) {q : Nat}
    (h1 : pos ≤ q) (h2 : q ≤ s.length) : CtxOK D (ctx.updateLoc s q) q := by
  unfold Ctx.updateLoc
  split
  · exact h.stay h1 h2
  · refine ⟨h.g, ?_⟩
    simp only [h.g]
    exact D.update _ _ _ h.inv h1 h2

theorem CtxOK.here {D : LocDisc s} {ctx : Ctx τ} {pos : Nat} (h : CtxOK D ctx pos)
    (h2 : pos ≤ s.length) (hl : D.layout) :
    D.rel pos (ctx.updateLoc s pos).loc ∧ D.col pos (ctx.updateLoc s pos).loc.col := by
  unfold Ctx.updateLoc
  split
  · next he => exact D.here hl _ _ h.inv h2 he.symm
  · next he =>
    simp only [h.g]
    exact ⟨D.report _ _ _ h.inv (Nat.le_refl _) h2,
      D.there hl _ _ h.inv h2 (fun h => he h.symm)⟩

theorem CtxOK.setMark {D : LocDisc s} {ctx : Ctx τ} {pos : Nat} (h : CtxOK D ctx pos) (m : Nat) :
    CtxOK D (ctx.setMark m) pos := ⟨h.g, h.inv⟩

/-- The location belongs to a position at which `p`, started at `pos`, gets stuck. -/
def ErrLoc [BEq τ] (env : Env τ ρ Γ) (D : LocDisc s) (p : P τ ρ Γ α) (m pos : Nat) (loc : Loc) :
    Prop :=
  ∃ q, Stuck env s D.col p m pos q ∧ D.rel q loc

theorem ErrLoc.mono [BEq τ] {env : Env τ ρ Γ} {D : LocDisc s} {p : P τ ρ Γ α} {p' : P τ ρ Γ β}
    {m m' i i' : Nat} {loc : Loc} (h : ErrLoc env D p m i loc)
    (hs : ∀ q, Stuck env s D.col p m i q → Stuck env s D.col p' m' i' q) :
    ErrLoc env D p' m' i' loc := by
  obtain ⟨r, h1, h2⟩ := h
  exact ⟨r, hs r h1, h2⟩

theorem CtxOK.errLoc [BEq τ] {env : Env τ ρ Γ} {D : LocDisc s} {p : P τ ρ Γ α} {ctx : Ctx τ}
    {m pos : Nat} (h : CtxOK D ctx pos) (h2 : pos ≤ s.length)
    (hs : Stuck env s D.col p m pos pos) : ErrLoc env D p m pos (ctx.getLoc s pos) :=
  ⟨pos, hs, h.report (Nat.le_refl _) h2⟩

/-- The operations of a repair are the edits, in the same order, and their locations are those
of the edits. -/
inductive OpsMatch (rel : Nat → Loc → Prop) : List Edit → List OpItem → Prop
  | nil : OpsMatch rel [] []
  | cons {e : Edit} {es : List Edit} {i : OpItem} {is : List OpItem} : i.op = e.op →
      rel e.pos i.loc → OpsMatch rel es is → OpsMatch rel (e :: es) (i :: is)

theorem OpsMatch.append {rel : Nat → Loc → Prop} {a b : List Edit} {c d : List OpItem}
    (h : OpsMatch rel a c) (h' : OpsMatch rel b d) : OpsMatch rel (a ++ b) (c ++ d) := by
  induction h with
  | nil => exact h'
  | cons h1 h2 _ ih => exact .cons h1 h2 ih

theorem OpsMatch.map {rel : Nat → Loc → Prop} {es : List Edit} {is : List OpItem}
    (h : OpsMatch rel es is) (f : OpItem → OpItem) (h1 : ∀ i, (f i).op = i.op)
    (h2 : ∀ i, (f i).loc = i.loc) : OpsMatch rel es (is.map f) := by
  induction h with
  | nil => exact .nil
  | cons a b _ ih => exact .cons ((h1 _).trans a) (by rw [h2]; exact b) ih

theorem OpsMatch.prepend {rel : Nat → Loc → Prop} {es : List Edit} {is : List OpItem}
    (h : OpsMatch rel es is) (e : List String) (c : Bool) :
    OpsMatch rel es (opsPrependExpected is e c) := h.map _ (by simp) (by simp)

theorem OpsMatch.set {rel : Nat → Loc → Prop} {es : List Edit} {is : List OpItem}
    (h : OpsMatch rel es is) (e : List String) :
    OpsMatch rel es (opsSetExpected is e) := h.map _ (by simp) (by simp)

/-- The budgets a parse function may be given. -/
def RemOK (ins : Int) (rem : Option Int) : Prop :=
  0 ≤ ins ∧ ∀ k, rem = some k → 0 ≤ k ∧ k ≤ ins

/-- The insertion budget invariant. -/
structure Budget (ins : Int) (rem : Option Int) (pos : Nat) (es : List Edit) (rpos : Nat)
    (rins : Int) : Prop where
  nonneg : 0 ≤ rins
  start : (insertsAt pos es : Int) ≤ rem.getD 0
  all : ∀ q, (insertsAt q es : Int) ≤ ins
  stop : (insertsAt rpos es : Int) + rins ≤ ins
  same : rpos = pos → (insertsAt pos es : Int) + rins ≤ rem.getD 0
  exact : rins = (if rpos = pos then rem.getD 0 else ins) - (insertsAt rpos es : Int)
  adv : rem = none → pos < rpos

structure RepSound [BEq τ] (env : Env τ ρ Γ) (D : LocDisc s) (p : P τ ρ Γ α) (pos : Nat)
    (ctx : Ctx τ) (ins : Int) (rem : Option Int) (r : Repair τ α) (es : List Step) : Prop where
  der : Der env s D.col p ctx.mark pos es r.value r.pos
  ops : OpsMatch D.rel (edits es) r.ops
  ctx : CtxOK D r.ctx r.pos
  budget : RemOK ins rem → Budget ins rem pos (edits es) r.pos r.ins
  ne : es ≠ []
  prio : r.prio = none ↔ startsAuto es = true

structure RecSound [BEq τ] (env : Env τ ρ Γ) (D : LocDisc s) (p : P τ ρ Γ α) (pos : Nat)
    (ctx : Ctx τ) (ins : Int) (rem : Option Int) (r : Recovered τ α) : Prop where
  loc : ErrLoc env D p ctx.mark pos r.loc
  reps : ∀ x ∈ r.repairs, ∃ es, RepSound env D p pos ctx ins rem x es

structure OkSound [BEq τ] (env : Env τ ρ Γ) (D : LocDisc s) (p : P τ ρ Γ α) (pos : Nat)
    (ctx : Ctx τ) (r : Ok τ α) : Prop where
  der : Der env s D.col p ctx.mark pos [] r.value r.pos
  ctx : CtxOK D r.ctx r.pos

def ResSound [BEq τ] (env : Env τ ρ Γ) (D : LocDisc s) (p : P τ ρ Γ α) (pos : Nat)
    (ctx : Ctx τ) (ins : Int) (rem : Option Int) : Result τ α → Prop
  | .ok r => OkSound env D p pos ctx r
  | .error e => ErrLoc env D p ctx.mark pos e.loc
  | .recovered r => RecSound env D p pos ctx ins rem r

structure SoundAt [BEq τ] (env : Env τ ρ Γ) (D : LocDisc s) (p : P τ ρ Γ α) (f : ParseFns τ α) :
    Prop where
  fn : ∀ pos ctx ins rem r, pos ≤ s.length → CtxOK D ctx pos → f.fn s pos ctx ins rem = .ret r →
    ResSound env D p pos ctx ins rem r
  fast : ∀ pos ctx e, pos ≤ s.length → CtxOK D ctx pos → f.fast s pos ctx = .ret (.error e) →
    ErrLoc env D p ctx.mark pos e.loc

/-! ### Transfer and bookkeeping -/

section
variable [BEq τ] {env : Env τ ρ Γ} {D : LocDisc s}

theorem SoundAt.transfer {p p' : P τ ρ Γ α} {f : ParseFns τ α} (h : SoundAt env D p f)
    (hd : ∀ m i es v j, Der env s D.col p m i es v j → Der env s D.col p' m i es v j)
    (hs : ∀ m i q, Stuck env s D.col p m i q → Stuck env s D.col p' m i q) :
    SoundAt env D p' f := by
  refine ⟨?_, fun pos ctx e hp hc he => (h.fast pos ctx e hp hc he).mono (hs _ _)⟩
  intro pos ctx ins rem r hp hc hr
  have := h.fn pos ctx ins rem r hp hc hr
  cases r with
  | ok r => exact ⟨hd _ _ _ _ _ this.der, this.ctx⟩
  | error e => exact ErrLoc.mono this (hs _ _)
  | recovered r =>
    refine ⟨this.loc.mono (hs _ _), fun x hx => ?_⟩
    obtain ⟨es, h⟩ := this.reps x hx
    exact ⟨es, hd _ _ _ _ _ h.der, h.ops, h.ctx, h.budget, h.ne, h.prio⟩

theorem RepSound.setExpected {p : P τ ρ Γ α} {pos ctx ins rem} {r : Repair τ α} {es}
    (h : RepSound env D p pos ctx ins rem r es) (e : List String) :
    RepSound env D p pos ctx ins rem (r.setExpected e) es :=
  ⟨h.der, h.ops.set e, h.ctx, h.budget, h.ne, h.prio⟩

theorem RecSound.setExpected {p : P τ ρ Γ α} {pos ctx ins rem} {r : Recovered τ α}
    (h : RecSound env D p pos ctx ins rem r) (e : List String) :
    RecSound env D p pos ctx ins rem (r.setExpected e) := by
  refine ⟨h.loc, ?_⟩
  simp only [Recovered.setExpected, List.mem_map]
  rintro _ ⟨x, hx, rfl⟩
  obtain ⟨es, h⟩ := h.reps x hx
  exact ⟨es, h.setExpected e⟩

@[simp] theorem Err.setExpected_loc (e : List String) (r : Err) :
    (r.setExpected e).loc = r.loc := by unfold Err.setExpected; split <;> rfl

@[simp] theorem Err.prependExpected_loc (e : List String) (c : Bool) (r : Err) :
    (r.prependExpected e c).loc = r.loc := by unfold Err.prependExpected; split <;> rfl

theorem ResSound.setExpected {p : P τ ρ Γ α} {pos ctx ins rem} {r : Result τ α}
    (h : ResSound env D p pos ctx ins rem r) (e : List String) :
    ResSound env D p pos ctx ins rem (r.setExpected e) := by
  cases r with
  | ok r => exact ⟨by simpa using h.der, by simpa using h.ctx⟩
  | error x => simpa [ResSound, Result.setExpected] using h
  | recovered r => exact RecSound.setExpected h e

theorem RepSound.weaken {p : P τ ρ Γ α} {pos ctx ins rem} {r : Repair τ α} {es}
    (h : RepSound env D p pos ctx ins none r es) (hlt : pos < r.pos) :
    RepSound env D p pos ctx ins rem r es := by
  refine ⟨h.der, h.ops, h.ctx, fun hr => ?_, h.ne, h.prio⟩
  have b := h.budget ⟨hr.1, by simp⟩
  refine ⟨b.nonneg, ?_, b.all, b.stop, fun he => by omega, ?_, fun _ => hlt⟩
  rotate_left
  · have := b.exact
    rw [if_neg (by omega)] at this ⊢; exact this
  have := b.start
  simp only [Option.getD_none] at this
  cases rem with
  | none => exact this
  | some k => have := (hr.2 k rfl).1; simp only [Option.getD_some]; omega

theorem ResSound.weaken {p : P τ ρ Γ α} {pos ctx ins rem} {r : Result τ α}
    (hf : ResFrame s pos ctx none r)
    (h : ResSound env D p pos ctx ins none r) : ResSound env D p pos ctx ins rem r := by
  cases r with
  | ok r => exact h
  | error e => exact h
  | recovered r =>
    refine ⟨h.loc, fun x hx => ?_⟩
    obtain ⟨es, h'⟩ := h.reps x hx
    exact ⟨es, h'.weaken ((hf.reps x hx).lt rfl)⟩

/-- Budgets compose: nothing inserted so far, then a repair. -/
theorem Budget.afterOk {ins : Int} {rem : Option Int} {pos pos1 rpos : Nat} {rins : Int}
    {es : List Edit} (h1 : pos ≤ pos1) (ho : InOrder pos1 es rpos) (hr : RemOK ins rem)
    (b : Budget ins (if pos < pos1 then some ins else rem) pos1 es rpos rins) :
    Budget ins rem pos es rpos rins := by
  have hle := ho.le
  by_cases hlt : pos < pos1
  · simp only [hlt, if_true] at b
    refine ⟨b.nonneg, ?_, b.all, b.stop, fun he => by omega, ?_, fun _ => by omega⟩
    rotate_left
    · have := b.exact
      rw [if_neg (by omega)]
      simpa using this
    rw [ho.insertsAt_lt hlt]
    cases rem with
    | none => simp
    | some k => have := (hr.2 k rfl).1; simp only [Option.getD_some]; omega
  · simp only [hlt, if_false] at b
    obtain rfl : pos = pos1 := by omega
    exact b

/-- Budgets compose: a repair, then a success. -/
theorem Budget.thenOk {ins : Int} {rem : Option Int} {pos rpos rpos' : Nat} {rins : Int}
    {es : List Edit} (h0 : pos ≤ rpos) (h1 : rpos ≤ rpos') (ho : InOrder pos es rpos)
    (hr : RemOK ins rem) (b : Budget ins rem pos es rpos rins) :
    Budget ins rem pos es rpos' (if rpos = rpos' then rins else ins) := by
  by_cases he : rpos = rpos'
  · subst he; simpa using b
  · simp only [he, if_false]
    have hz := ho.insertsAt_gt (q := rpos') (by omega)
    refine ⟨hr.1, b.start, b.all, ?_, fun h => by omega, ?_, fun _ => by omega⟩
    · rw [hz]; simp
    · rw [hz, if_neg (by omega)]; simp

/-- Budgets compose: a repair, then another one. `rem'` is what the second one was given: the
rest of the budget, or nothing. -/
theorem Budget.thenRep {ins : Int} {rem rem' : Option Int} {pos rpos rpos' : Nat}
    {rins rins' : Int} {es es' : List Edit} (h0 : pos ≤ rpos) (h1 : rpos ≤ rpos')
    (ho : InOrder pos es rpos) (ho' : InOrder rpos es' rpos') (hrem : rem' = some rins ∨ rem' = none)
    (hr : RemOK ins rem) (b : Budget ins rem pos es rpos rins)
    (b' : Budget ins rem' rpos es' rpos' rins') :
    Budget ins rem pos (es ++ es') rpos' rins' := by
  have bs := b.start
  have bt := b.stop
  have bs' := b'.start
  have bt' := b'.stop
  have rem0 : 0 ≤ rem.getD 0 := by
    cases rem with
    | none => simp
    | some k => exact (hr.2 k rfl).1
  have hrem : rem'.getD 0 ≤ rins ∧ (rpos' = rpos → rem'.getD 0 = rins) := by
    rcases hrem with rfl | rfl
    · simp
    · refine ⟨b.nonneg, fun h => ?_⟩
      have := b'.adv rfl
      omega
  have be := b.exact
  have be' := b'.exact
  refine ⟨b'.nonneg, ?_, ?_, ?_, ?_, ?_, fun h => Nat.lt_of_lt_of_le (b.adv h) h1⟩
  · rw [insertsAt_append]
    by_cases h : rpos = pos
    · have := b.same h
      subst h; omega
    · rw [ho'.insertsAt_lt (q := pos) (by omega)]; omega
  · intro q
    rw [insertsAt_append]
    have h1 := b.all q
    have h2 := b'.all q
    by_cases hq : q < rpos
    · rw [ho'.insertsAt_lt hq]; omega
    · by_cases hq' : rpos < q
      · rw [ho.insertsAt_gt hq']; omega
      · obtain rfl : q = rpos := by omega
        omega
  · rw [insertsAt_append]
    by_cases h : rpos' = rpos
    · have := b'.same h
      subst h; omega
    · rw [ho.insertsAt_gt (by omega)]; omega
  · intro h
    have e1 : rpos = pos := by omega
    have e2 : rpos' = rpos := by omega
    have x := b.same e1
    have y := b'.same e2
    rw [insertsAt_append]
    subst e1
    omega
  · rw [insertsAt_append, Int.natCast_add]
    by_cases e2 : rpos' = rpos
    · have := hrem.2 e2
      subst e2
      rw [if_pos rfl] at be'
      omega
    · rw [ho.insertsAt_gt (by omega), if_neg (by omega)]
      rw [if_neg e2] at be'
      simpa using be'

theorem Budget.insert {ins : Int} {k : Int} (pos : Nat) (l : String) (hk : k ≠ 0)
    (hr : RemOK ins (some k)) : Budget ins (some k) pos [⟨pos, .insert l⟩] pos (k - 1) := by
  have h := hr.2 k rfl
  refine ⟨by omega, ?_, ?_, ?_, ?_, by simp [insertsAt_insert], by simp⟩
  · simp [insertsAt_insert]; omega
  · intro q; rw [insertsAt_insert]; split <;> simp <;> omega
  · simp [insertsAt_insert]; omega
  · intro _; simp [insertsAt_insert]; omega

theorem Budget.skip {ins : Int} {k : Int} (pos rpos n : Nat) (hlt : pos < rpos)
    (hr : RemOK ins (some k)) : Budget ins (some k) pos [⟨pos, .skip n⟩] rpos ins := by
  have h := hr.2 k rfl
  refine ⟨hr.1, ?_, ?_, ?_, fun h => by omega, ?_, by simp⟩
  · simpa using h.1
  · intro q; simpa using hr.1
  · simp
  · rw [if_neg (by omega)]; simp

/-! ### Closure -/

theorem sound_fmap {p : P τ ρ Γ α} {f : ParseFns τ α} (fn : α → Except Exn β)
    (h : SoundAt env D p f) : SoundAt env D (.fmap p fn) (fmapFns f fn) := by
  constructor
  · intro pos ctx ins rem r hp hc hr
    simp only [fmapFns, fmapFn, Out.bind_def, Out.bind_eq_ret] at hr
    obtain ⟨x, h1, h2⟩ := hr
    have hx := h.fn pos ctx ins rem x hp hc h1
    rcases Result.fmapM_ret h2 with ⟨o, v, rfl, hv, rfl⟩ | ⟨e, rfl, rfl⟩ |
      ⟨rr, reps, rfl, h3, rfl⟩
    · exact ⟨.fmap hx.der hv, hx.ctx⟩
    · exact ErrLoc.mono hx fun _ => .fmap
    · refine ⟨hx.loc.mono fun _ => .fmap, fun y hy => ?_⟩
      obtain ⟨z, hz, v, hv, rfl⟩ := repairsFmapM_mem h3 hy
      obtain ⟨es, hs⟩ := hx.reps z hz
      exact ⟨es, .fmap hs.der hv, hs.ops, hs.ctx, hs.budget, hs.ne, hs.prio⟩
  · intro pos ctx e hp hc he
    simp only [fmapFns, fmapFast, Out.bind_def, Out.bind_eq_ret] at he
    obtain ⟨x, h1, h2⟩ := he
    cases x with
    | ok o =>
      simp only [Simple.fmapM, Out.bind_def, Out.bind_eq_ret, Out.pure_def, Out.ret.injEq] at h2
      obtain ⟨_, _, h3⟩ := h2
      cases h3
    | error e' =>
      simp [Simple.fmapM] at h2; subst h2
      exact (h.fast pos ctx _ hp hc h1).mono fun _ => .fmap

theorem sound_alt {p q : P τ ρ Γ α} {f g : ParseFns τ α} (hf' : Framed f) (hg' : Framed g)
    (hf : SoundAt env D p f) (hg : SoundAt env D q g) : SoundAt env D (.alt p q) (altFns f g) := by
  have hl : SoundAt env D (.alt p q) f := hf.transfer (fun _ _ _ _ _ h => .altL h) fun _ _ _ h => .altL h
  have hr : SoundAt env D (.alt p q) g := hg.transfer (fun _ _ _ _ _ h => .altR h) fun _ _ _ h => .altR h
  have hrec : ∀ pos ctx ins rem loc ex r, pos ≤ s.length → CtxOK D ctx pos → ErrLoc env D (.alt p q) ctx.mark pos loc →
      altRecover f g s pos ctx ins rem loc ex = .ret r →
      ResSound env D (.alt p q) pos ctx ins rem r := by
    intro pos ctx ins rem loc ex r hp hc hloc h
    cases rem with
    | none => simp [altRecover] at h; subst h; exact hloc
    | some rem =>
      rcases altRecover_ret h with ⟨ra, rb, h3, h4, rfl⟩ | ⟨ra, _, h3, _, _, rfl⟩ |
        ⟨_, rb, _, _, h4, rfl⟩ | ⟨_, _, _, _, _, _, rfl⟩
      · have ha : RecSound .. := hl.fn pos ctx ins _ _ hp hc h3
        have hb : RecSound .. := hr.fn pos ctx ins _ _ hp hc h4
        refine RecSound.setExpected ⟨?_, ?_⟩ _
        · unfold joinRepairs; split
          · exact ha.loc
          · split
            · exact hb.loc
            · exact ha.loc
        · intro x hx
          simp only [joinRepairs_repairs] at hx
          rcases mem_joinReps hx with hx | hx
          · exact ha.reps x hx
          · exact hb.reps x hx
      · exact RecSound.setExpected (hl.fn pos ctx ins _ _ hp hc h3) _
      · exact RecSound.setExpected (hr.fn pos ctx ins _ _ hp hc h4) _
      · exact hloc
  have sec : ∀ pos ctx ins rem loc ex r, pos ≤ s.length → CtxOK D ctx pos → ErrLoc env D (.alt p q) ctx.mark pos loc →
      altSecond f g s pos ctx ins rem loc ex = .ret r →
      ResSound env D (.alt p q) pos ctx ins rem r := by
    intro pos ctx ins rem loc ex r hp hc hloc h
    simp only [altSecond, Out.bind_def, Out.bind_eq_ret] at h
    obtain ⟨y, h1, h2⟩ := h
    have hy := (hr.fn pos ctx ins _ _ hp hc h1).weaken (rem := rem) (hg' s pos ctx ins none _ hp h1)
    cases y with
    | ok o =>
      simp only at h2
      split at h2
      · simp at h2; subst h2; exact hy
      · simp at h2; subst h2; exact ResSound.setExpected (r := .ok o) hy _
    | error e =>
      simp only at h2
      split at h2
      · simp at h2; subst h2; exact hy
      · exact hrec _ _ _ _ _ _ _ hp hc hloc h2
    | recovered e =>
      simp only at h2
      split at h2
      · simp at h2; subst h2; exact hy
      · exact hrec _ _ _ _ _ _ _ hp hc hloc h2
  constructor
  · intro pos ctx ins rem r hp hc h
    simp only [altFns, altFn, Out.bind_def, Out.bind_eq_ret] at h
    obtain ⟨x, h1, h2⟩ := h
    have hx0 := hl.fn pos ctx ins _ _ hp hc h1
    have hx := hx0.weaken (rem := rem) (hf' s pos ctx ins none _ hp h1)
    cases x with
    | ok o => simp at h2; subst h2; exact hx
    | error e =>
      simp only at h2
      split at h2
      · simp at h2; subst h2; exact hx
      · exact sec _ _ _ _ _ _ _ hp hc hx0 h2
    | recovered e =>
      simp only at h2
      split at h2
      · simp at h2; subst h2; exact hx
      · exact sec _ _ _ _ _ _ _ hp hc hx0.loc h2
  · intro pos ctx e hp hc h
    simp only [altFns, altFast, Out.bind_def, Out.bind_eq_ret] at h
    obtain ⟨x, h1, h2⟩ := h
    cases x with
    | ok o => simp at h2
    | error e =>
      have h3 := hl.fast pos ctx e hp hc h1
      simp only at h2
      split at h2
      · simp at h2; subst h2; exact h3
      · obtain ⟨y, h4, h5⟩ := Out.bind_eq_ret.1 h2
        cases y with
        | ok o => simp only at h5; split at h5 <;> simp at h5
        | error e' =>
          simp only at h5
          split at h5
          · simp at h5; subst h5; exact hr.fast pos ctx _ hp hc h4
          · simp at h5; subst h5; exact h3

theorem sound_contOne {q : P τ ρ Γ β} {p' : P τ ρ Γ γ} {pos : Nat} {ctx : Ctx τ}
    {ins : Int} {rem rem' : Option Int} {r : Repair τ α} {es : List Step} {rb : Result τ β}
    {merge : α → β → γ}
    (hd : ∀ es' v j, Der env s D.col q ctx.mark r.pos es' v j →
      Der env s D.col p' ctx.mark pos (es ++ es') (merge r.value v) j)
    (ho : InOrder pos (edits es) r.pos) (hhi : r.pos ≤ s.length) (hmark : r.ctx.mark = ctx.mark)
    (hrem : RemOK ins rem → RemOK ins (some r.ins) → RemOK ins rem' ∧ (rem' = some r.ins ∨ rem' = none))
    (hops : OpsMatch D.rel (edits es) r.ops)
    (hbud : RemOK ins rem → Budget ins rem pos (edits es) r.pos r.ins)
    (hne : es ≠ []) (hprio : r.prio = none ↔ startsAuto es = true)
    (hb : ResSound env D q r.pos r.ctx ins rem' rb) :
    ∀ x ∈ contOne ins merge r rb, ∃ es', RepSound env D p' pos ctx ins rem x es' := by
  cases rb with
  | error e => simp [contOne]
  | ok rb =>
    have hb : OkSound .. := hb
    simp only [contOne, List.mem_singleton]
    rintro _ rfl
    have hbd := hb.der
    rw [hmark] at hbd
    have ho' := der_inOrder hb.der hhi
    refine ⟨es, by simpa using hd _ _ _ hbd, hops, hb.ctx, fun hr => ?_, hne, hprio⟩
    exact (hbud hr).thenOk ho.le ho'.1.le ho hr
  | recovered rb =>
    have hb : RecSound .. := hb
    simp only [contOne, List.mem_map]
    rintro _ ⟨rr, hr, rfl⟩
    obtain ⟨es', h⟩ := hb.reps rr hr
    have hbd := h.der
    rw [hmark] at hbd
    have ho' := der_inOrder h.der hhi
    refine ⟨es ++ es', hd _ _ _ hbd, by
      rw [edits_append]; exact hops.append (h.ops.prepend _ _), h.ctx,
      fun hr => ?_, by simp [hne], by rw [startsAuto_append hne]; exact hprio⟩
    have b := hbud hr
    have bt := b.stop
    have h1 : RemOK ins (some r.ins) := ⟨hr.1, by
      rintro k ⟨⟩
      exact ⟨b.nonneg, by omega⟩⟩
    obtain ⟨h2, h3⟩ := hrem hr h1
    rw [edits_append]
    exact b.thenRep ho.le ho'.1.le ho ho'.1 h3 hr (h.budget h2)

theorem sound_bind {p : P τ ρ Γ α} {k : α → P τ ρ Γ β} {f : ParseFns τ α} {g : α → ParseFns τ β}
    (hfs : Sim f) (hf' : Framed f) (hf : SoundAt env D p f)
    (hg : ∀ a, SoundAt env D (k a) (g a)) :
    SoundAt env D (.bind p k) (bindFns f g) := by
  constructor
  · intro pos ctx ins rem r hp hc hr
    rcases bindFn_ret hr with ⟨e, h1, rfl⟩ | ⟨ra, h1, h2⟩ | ⟨ra, rb, h1, h2, rfl⟩
    · exact ErrLoc.mono (hf.fn pos ctx ins rem _ hp hc h1) fun _ => .bindL
    · have ha : RecSound .. := hf.fn pos ctx ins rem _ hp hc h1
      have hfr : RecFrame .. := hf' s pos ctx ins rem _ hp h1
      obtain ⟨reps, h3, rfl⟩ := continueParse_ret h2
      refine ⟨ha.loc.mono fun _ => .bindL, fun x hx => ?_⟩
      obtain ⟨r', hr', rb, h4, h5⟩ := mem_contReps h3 hx
      obtain ⟨es, hes⟩ := ha.reps r' hr'
      have hfr' := hfr.reps r' hr'
      have ho := der_inOrder hes.der hp
      refine sound_contOne (q := k r'.value) (rem' := some r'.ins)
        (fun es' v j d2 => .bind hes.der d2) ho.1 ho.2 hfr'.ctx.mark
        (fun _ h => ⟨h, .inl rfl⟩) hes.ops hes.budget hes.ne hes.prio ?_ x h5
      exact (hg r'.value).fn _ _ _ _ _ hfr'.hi hes.ctx h4
    · have ha : OkSound .. := hf.fn pos ctx ins rem _ hp hc h1
      have hfr : OkFrame .. := hf' s pos ctx ins rem _ hp h1
      have hb := (hg ra.value).fn _ _ _ _ _ hfr.hi ha.ctx h2
      cases rb with
      | error e =>
        have hb : ErrLoc env D (k ra.value) ra.ctx.mark ra.pos e.loc := hb
        rw [hfr.ctx.mark] at hb
        simpa [ResSound, Result.prependExpected] using
          ErrLoc.mono hb fun q hq => Stuck.bindR ha.der hq
      | ok rb =>
        have hb : OkSound .. := hb
        have hd := hb.der
        rw [hfr.ctx.mark] at hd
        refine ⟨?_, by simpa using hb.ctx⟩
        simpa using Der.bind ha.der hd
      | recovered rb =>
        have hb : RecSound .. := hb
        have hloc := hb.loc
        rw [hfr.ctx.mark] at hloc
        refine ⟨hloc.mono fun q hq => Stuck.bindR ha.der hq, ?_⟩
        simp only [Recovered.prependExpected, List.mem_map]
        rintro _ ⟨x, hx, rfl⟩
        obtain ⟨es, hes⟩ := hb.reps x hx
        have hd := hes.der
        rw [hfr.ctx.mark] at hd
        have ho := der_inOrder hd hfr.hi
        refine ⟨es, Der.bind ha.der hd, hes.ops.prepend _ _, hes.ctx,
          fun hr => ?_, hes.ne, hes.prio⟩
        have hcons := hfr.consumed
        have b := hes.budget (by
          rw [hcons]
          by_cases hlt : pos < ra.pos
          · simp only [hlt, decide_true, if_true]
            exact ⟨hr.1, by rintro _ ⟨⟩; exact ⟨hr.1, Int.le_refl _⟩⟩
          · simpa [hlt] using hr)
        rw [hcons] at b
        simp only [decide_eq_true_eq] at b
        exact b.afterOk hfr.lo ho.1 hr
  · intro pos ctx e hp hc h
    simp only [bindFns, bindFast, Out.bind_def, Out.bind_eq_ret] at h
    obtain ⟨x, h1, h2⟩ := h
    cases x with
    | error e' =>
      simp at h2; subst h2
      exact (hf.fast pos ctx _ hp hc h1).mono fun _ => .bindL
    | ok ra =>
      have hok := hfs.ok h1 0 none
      have ha : OkSound .. := hf.fn pos ctx 0 none _ hp hc hok
      have hfr : OkFrame .. := hf' s pos ctx 0 none _ hp hok
      simp only [Out.bind_eq_ret, Out.pure_def, Out.ret.injEq] at h2
      obtain ⟨rb, h3, h4⟩ := h2
      cases rb with
      | ok o => simp [Simple.prependExpected] at h4
      | error e' =>
        simp [Simple.prependExpected] at h4
        subst h4
        have hb := (hg ra.value).fast _ _ _ hfr.hi ha.ctx h3
        rw [hfr.ctx.mark] at hb
        simpa using hb.mono fun q hq => Stuck.bindR ha.der hq

/-- Unrolled derivations of `many`, from the front. -/
inductive DerRep [BEq τ] (env : Env τ ρ Γ) (s : List τ) (col : Nat → Nat → Prop)
    (p : P τ ρ Γ α) (m : Nat) : Nat → List α → Nat → Prop
  | nil {i} : DerRep env s col p m i [] i
  | snoc {i vs j v k} : DerRep env s col p m i vs j → Der env s col p m j [] v k →
      DerRep env s col p m i (vs ++ [v]) k

theorem DerRep.prepend {col} {p : P τ ρ Γ α} {m i vs j} (h : DerRep env s col p m i vs j) :
    ∀ {es ws k}, Der env s col (.many p) m j es ws k →
      Der env s col (.many p) m i es (vs ++ ws) k := by
  induction h with
  | nil => intro es ws k h; exact h
  | snoc _ h2 ih =>
    intro es ws k h
    have := ih (Der.manyCons h2 h)
    simpa using this

theorem DerRep.stuck {col} {p : P τ ρ Γ α} {m i vs j} (h : DerRep env s col p m i vs j) :
    ∀ {q}, Stuck env s col (.many p) m j q → Stuck env s col (.many p) m i q := by
  induction h with
  | nil => intro q h; exact h
  | snoc _ h2 ih => intro q h; exact ih (.manyLater h2 h)

theorem sound_manyLoop {p : P τ ρ Γ α} {f : ParseFns τ α} (hf' : Framed f)
    (hf : SoundAt env D p f) (ins : Int) (fuel : Nat) :
    ∀ pos0 mark pos ctx c v r rem, pos0 ≤ pos → pos ≤ s.length → CtxOK D ctx pos →
      ctx.mark = mark → DerRep env s D.col p mark pos0 v pos →
      manyLoop f.fn s ins fuel pos ctx c v = .ret r →
      ∀ ctx0 : Ctx τ, ctx0.mark = mark → ResSound env D (.many p) pos0 ctx0 ins rem r := by
  induction fuel with
  | zero => intro _ _ _ _ _ _ _ _ _ _ _ _ _ h; simp [manyLoop] at h
  | succ n ih =>
    intro pos0 mark pos ctx c v r rem h0 h1 hc hm hrep h ctx0 hm0
    simp only [manyLoop, Out.bind_def, Out.bind_eq_ret] at h
    obtain ⟨x, h2, h3⟩ := h
    have hx := hf.fn pos ctx ins none x h1 hc h2
    have hfx := hf' s pos ctx ins none x h1 h2
    cases x with
    | ok o =>
      have hx : OkSound .. := hx
      have hfx : OkFrame .. := hfx
      have := hfx.lo
      simp only at h3
      split at h3
      · have hd := hx.der
        rw [hm] at hd
        exact ih pos0 mark o.pos o.ctx true _ r rem (by omega) hfx.hi hx.ctx
          (hfx.ctx.mark.trans hm) (hrep.snoc hd) h3 ctx0 hm0
      · simp at h3
    | error e =>
      have hx : ErrLoc env D p ctx.mark pos e.loc := hx
      rw [hm] at hx
      simp only at h3
      split at h3
      · simp at h3; subst h3
        show ErrLoc ..
        rw [hm0]
        exact hx.mono fun q hq => hrep.stuck (.manyHere hq)
      · simp at h3; subst h3
        refine ⟨?_, hc⟩
        rw [hm0]
        simpa using hrep.prepend .manyNil
    | recovered rr =>
      have hx : RecSound .. := hx
      have hfx : RecFrame .. := hfx
      obtain ⟨reps, h4, rfl⟩ := continueParse_ret h3
      have hloc := hx.loc
      rw [hm, ← hm0] at hloc
      refine ⟨hloc.mono fun q hq => ?_, fun y hy => ?_⟩
      · rw [hm0] at hq ⊢; exact hrep.stuck (.manyHere hq)
      obtain ⟨r', hr', rb, h5, h6⟩ := mem_contReps h4 hy
      obtain ⟨es, hes⟩ := hx.reps r' hr'
      have hfr' := hfx.reps r' hr'
      have hlt := hfr'.lt rfl
      have hb := ih r'.pos mark r'.pos r'.ctx false [] rb none (Nat.le_refl _) hfr'.hi hes.ctx
        (hfr'.ctx.mark.trans hm) .nil h5 r'.ctx (hfr'.ctx.mark.trans hm)
      have ho := der_inOrder hes.der h1
      refine sound_contOne (q := .many p) (rem' := none)
        (merge := fun a b => v ++ a :: b) (es := es)
        (fun es' w j d2 => ?_) (InOrder.mono h0 ho.1) ho.2
        ((hfr'.ctx.mark.trans hm).trans hm0.symm)
        (fun h h' => ⟨⟨h.1, by simp⟩, .inr rfl⟩) hes.ops ?_ hes.ne hes.prio hb y h6
      · rw [hm0] at d2 ⊢
        have hd := hes.der
        rw [hm] at hd
        exact hrep.prepend (.manyCons hd d2)
      · intro hr
        have b := hes.budget ⟨hr.1, by simp⟩
        have hz : (insertsAt pos0 (edits es) : Int) ≤ 0 := by
          by_cases hlt : pos0 < pos
          · rw [ho.1.insertsAt_lt hlt]; simp
          · obtain rfl : pos0 = pos := by omega
            simpa using b.start
        have hadv := b.adv rfl
        refine ⟨b.nonneg, ?_, b.all, b.stop, fun he => by omega, ?_, fun _ => by omega⟩
        rotate_left
        · have := b.exact
          rw [if_neg (by omega)] at this ⊢; exact this
        cases rem with
        | none => simpa using hz
        | some k => have := (hr.2 k rfl).1; simp only [Option.getD_some]; omega
end

end Reparsec
