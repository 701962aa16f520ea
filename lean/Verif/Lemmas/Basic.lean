import Verif.Lemmas.Induct

/-!
# Equations between combinators, and inversion of `continue_parse`
-/

namespace Reparsec

variable {τ α β γ : Type}

theorem pureFns_eq (x : α) : (pureFns x : ParseFns τ α) = pureFnFns (.ok x) := rfl

theorem recoverWithFns_eq (p : ParseFns τ α) (x : α) (vs : String) :
    recoverWithFns p x vs = recoverWithFnFns p (fun _ _ => .ok x) (fun _ => vs) := by
  simp only [recoverWithFns, recoverWithFnFns]
  congr 1

theorem repairsFmapM_ok (fn : α → β) (l : List (Repair τ α)) :
    repairsFmapM (fun a => .ok (fn a)) l = .ret (l.map (Repair.fmap fn)) := by
  induction l with
  | nil => rfl
  | cons r rs ih => simp [repairsFmapM, Repair.fmapM, ih, Repair.fmap]

@[simp] theorem Result.fmapM_ok (fn : α → β) (r : Result τ α) :
    r.fmapM (fun a => .ok (fn a)) = .ret (r.fmap fn) := by
  cases r <;> simp [Result.fmapM, Ok.fmapM, Ok.fmap, Result.fmap, repairsFmapM_ok]

@[simp] theorem Simple.fmapM_ok (fn : α → β) (r : Simple τ α) :
    r.fmapM (fun a => .ok (fn a)) = .ret (r.fmap fn) := by
  cases r <;> simp [Simple.fmapM, Ok.fmapM, Ok.fmap, Simple.fmap]

theorem contOne_fmap (ins : Int) (merge : α → β → γ) (r : Repair τ α) (rb : Result τ β) :
    contOne ins (fun _ v => v) r (rb.fmap (merge r.value)) = contOne ins merge r rb := by
  cases rb with
  | ok rb => simp [contOne, Result.fmap, Ok.fmap]
  | error e => simp [contOne, Result.fmap]
  | recovered rb =>
    simp only [contOne, Result.fmap, List.map_map]
    apply List.map_congr_left
    intro rr _
    rfl

theorem contReps_fmap (ins : Int) (k : α → Nat → Ctx τ → Int → Out (Result τ β))
    (merge : α → β → γ) (l : List (Repair τ α)) :
    contReps ins (fun v p c r => (k v p c r).bind fun rb => .ret (rb.fmap (merge v)))
      (fun _ v => v) l = contReps ins k merge l := by
  induction l with
  | nil => rfl
  | cons r rs ih =>
    simp only [contReps, Out.bind_def, ih, Out.bind_assoc, Out.bind_ret, Out.pure_def,
      contOne_fmap]

/-- Sequencing is `bind` followed by `fmap`. -/
theorem seqFns_eq (p : ParseFns τ α) (q : ParseFns τ β) (merge : α → β → γ) :
    seqFns p q merge = bindFns p (fun a => fmapFns q fun b => .ok (merge a b)) := by
  simp only [seqFns, bindFns]
  congr 1
  · funext s pos ctx
    simp only [seqFast, bindFast, fmapFns, Out.bind_def]
    apply Out.bind_congr
    intro ra
    cases ra with
    | error e => rfl
    | ok ra => simp [fmapFast, Out.bind_assoc]
  · funext s pos ctx ins rem
    simp only [seqFn, bindFn, fmapFns, Out.bind_def]
    apply Out.bind_congr
    intro ra
    cases ra with
    | error e => rfl
    | ok ra =>
      simp only [fmapFn, Out.bind_def, Out.bind_assoc, Out.pure_def, Result.fmapM_ok, Out.bind_ret]
      cases ra.consumed <;> rfl
    | recovered ra =>
      simp only [continueParse, fmapFn, Result.fmapM_ok]
      have := contReps_fmap ins (fun _ p c r => q.fn s p c ins (some r)) merge ra.repairs
      simp only [Out.bind_def] at this ⊢
      rw [this]

/-- `maybe` is choice with `Pure(None)`. -/
theorem maybeFns_eq (p : ParseFns τ α) :
    maybeFns p = altFns (fmapFns p fun a => .ok (some a)) (pureFns none) := by
  simp only [maybeFns, altFns]
  congr 1
  · funext s pos ctx
    simp only [maybeFast, altFast, fmapFns, fmapFast, pureFns, Out.bind_def, Out.bind_assoc]
    apply Out.bind_congr
    intro ra
    cases ra <;> simp [Simple.fmap, Ok.setExpected]
  · funext s pos ctx ins rem
    simp only [maybeFn, altFn, fmapFns, fmapFn, pureFns, Out.bind_def, Out.bind_assoc]
    apply Out.bind_congr
    intro ra
    cases ra <;> simp [Result.fmap, Ok.setExpected, altSecond]

theorem mem_contReps {ins : Int} {k : α → Nat → Ctx τ → Int → Out (Result τ β)}
    {merge : α → β → γ} {l : List (Repair τ α)} {reps : List (Repair τ γ)}
    (h : contReps ins k merge l = .ret reps) {rep : Repair τ γ} (hr : rep ∈ reps) :
    ∃ r ∈ l, ∃ rb, k r.value r.pos r.ctx r.ins = .ret rb ∧ rep ∈ contOne ins merge r rb := by
  induction l generalizing reps with
  | nil => simp [contReps] at h; subst h; simp at hr
  | cons r rs ih =>
    simp only [contReps, Out.bind_def, Out.bind_eq_ret, Out.pure_def, Out.ret.injEq] at h
    obtain ⟨rb, h1, rest, h2, rfl⟩ := h
    rcases List.mem_append.1 hr with hr | hr
    · exact ⟨r, List.mem_cons_self, rb, h1, hr⟩
    · obtain ⟨r', hm, x⟩ := ih h2 hr
      exact ⟨r', List.mem_cons_of_mem _ hm, x⟩

theorem continueParse_ret {ra : Recovered τ α} {ins : Int}
    {k : α → Nat → Ctx τ → Int → Out (Result τ β)} {merge : α → β → γ} {res : Result τ γ}
    (h : continueParse ra ins k merge = .ret res) :
    ∃ reps, contReps ins k merge ra.repairs = .ret reps ∧
      res = .recovered { repairs := reps, minPrio := ra.minPrio, loc := ra.loc,
                         expected := ra.expected, consumed := ra.consumed } := by
  simp only [continueParse, Out.bind_def, Out.bind_eq_ret, Out.pure_def, Out.ret.injEq] at h
  obtain ⟨reps, h1, rfl⟩ := h
  exact ⟨reps, h1, rfl⟩

/-- Closure under the combinators that the others reduce to, for predicates that do not look at
the syntax. -/
structure ClosedF (τ : Type) [BEq τ] (Q : {α : Type} → ParseFns τ α → Prop) : Prop where
  pureFn : ∀ {α : Type} (x : Except Exn α), Q (pureFnFns x)
  unexpected : ∀ x, Q (unexpectedFns x)
  eof : Q eofFns
  satisfy : ∀ test, Q (satisfyFns test)
  sym : ∀ s l, Q (symFns s l)
  literal : ∀ s ss, s ≠ [] → Q (literalFns s ss)
  regexp : ∀ {β : Type} (m : Matcher τ β), Q (regexpFns m)
  fmap : ∀ {α β : Type} (f : ParseFns τ α) (fn : α → Except Exn β), Q f → Q (fmapFns f fn)
  alt : ∀ {α : Type} (f g : ParseFns τ α), Q f → Q g → Q (altFns f g)
  bind : ∀ {α β : Type} (f : ParseFns τ α) (g : α → ParseFns τ β),
    Q f → (∀ a, Q (g a)) → Q (bindFns f g)
  many : ∀ {α : Type} (f : ParseFns τ α) fuel, Q f → Q (manyFns fuel f)
  attempt : ∀ {α : Type} (f : ParseFns τ α), Q f → Q (attemptFns f)
  label : ∀ {α : Type} (f : ParseFns τ α) x, Q f → Q (labelFns f x)
  recover : ∀ {α : Type} (f : ParseFns τ α), Q f → Q (recoverFns f)
  recoverWithFn : ∀ {α : Type} (f : ParseFns τ α) fn lbl, Q f → Q (recoverWithFnFns f fn lbl)
  block : ∀ {α : Type} (f : ParseFns τ α), Q f → Q (blockFns f)
  aligned : ∀ {α : Type} (f : ParseFns τ α), Q f → Q (alignedFns f)
  indented : ∀ {α : Type} (f : ParseFns τ α) delta, Q f → Q (indentedFns delta f)
  diverge : ∀ {α : Type}, Q (divergeFns : ParseFns τ α)
  undefined : ∀ {α : Type}, Q (undefinedFns : ParseFns τ α)

theorem ClosedF.closed {ρ : Type} {Γ : ρ → Type} [BEq τ]
    {Q : {α : Type} → ParseFns τ α → Prop} (c : ClosedF τ Q) (env : Env τ ρ Γ) :
    Closed env (fun {_} _ f => Q f) where
  pure x := c.pureFn (.ok x)
  pureFn x := c.pureFn x
  unexpected := c.unexpected
  eof := c.eof
  satisfy := c.satisfy
  sym := c.sym
  literal s ss h := c.literal s ss h
  regexp m := c.regexp m
  fmap _ f fn h := c.fmap f fn h
  alt _ _ f g hf hg := c.alt f g hf hg
  bind _ f _ g hf hg := c.bind f g hf hg
  seqWith _ f _ g merge hf hg := by
    rw [seqFns_eq]; exact c.bind _ _ hf fun a => c.fmap _ _ hg
  maybe _ f h := by
    rw [maybeFns_eq]; exact c.alt _ _ (c.fmap _ _ h) (c.pureFn (.ok none))
  many _ f fuel h := c.many f fuel h
  attempt _ f h := c.attempt f h
  label _ f x h := c.label f x h
  recover _ f h := c.recover f h
  recoverWith _ f x vs h := by rw [recoverWithFns_eq]; exact c.recoverWithFn _ _ _ h
  recoverWithFn _ f fn lbl h := c.recoverWithFn f fn lbl h
  block _ f h := c.block f h
  aligned _ f h := c.aligned f h
  indented _ f d h := c.indented f d h
  refDiverge _ := c.diverge
  refUndefined _ _ := c.undefined
  refDefined _ _ _ _ h := h

theorem ClosedF.denote {ρ : Type} {Γ : ρ → Type} [BEq τ]
    {Q : {α : Type} → ParseFns τ α → Prop} (c : ClosedF τ Q) (env : Env τ ρ Γ) (fuel : Nat)
    (p : P τ ρ Γ α) : Q (denote env fuel p) :=
  (c.closed env).denote fuel p

end Reparsec
