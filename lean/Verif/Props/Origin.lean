import Verif.Props.Language
import Verif.Props.Choice
import Verif.Props.Unwrap
import Verif.Props.Samples
import Verif.Spec.Insertions

/-!
# C28, C29: which repairs count as automatic insertions

`Props/Unwrap.lean` and `Props/Choice.lean` state C28 and C29 in terms of the field `prio` of a
repair.  Here that field is tied to the derivation of the repair (`Spec/Grammar.lean`): it is `None`
exactly if the first edit is an insertion that a `sym` or a `literal` offered by itself, not under
`recover()`.
-/

namespace Reparsec

variable {τ ρ : Type} {Γ : ρ → Type} {α β : Type}

section
variable [BEq τ] {env : Env τ ρ Γ} {p q : P τ ρ Γ α} {s : List τ} {pos : Nat} {ctx : Ctx τ}
  {ins : Int} {rem : Option Int}

/-- `st` explains the repair `x` of `p`, run at `pos` with layout mark `m`: `st` are the steps of a
derivation of the repair's value, and the operations of the repair are those of `st`. -/
def Explains (env : Env τ ρ Γ) (p : P τ ρ Γ α) (s : List τ) (m pos : Nat) (x : Repair τ α)
    (st : List Step) : Prop :=
  Der env s anyCol p m pos st x.value x.pos ∧ st ≠ [] ∧
    (edits st).map (·.op) = x.ops.map (·.op)

/-- The first operation of the repair. -/
def Repair.firstOp (x : Repair τ α) : Option RepairOp := (x.ops.map (·.op)).head?

/-- The first operation is an insertion. -/
def Repair.startsWithInsert (x : Repair τ α) : Bool :=
  match x.firstOp with
  | some (.insert _) => true
  | _ => false

/-- C28, C29. What `prio = None` means, at any point of any run: the repair has a derivation whose
first step is an automatic insertion, and otherwise it has one whose first step is not. -/
theorem C29_prio_is_automatic (hp : pos ≤ s.length) {rr : Recovered τ α}
    (h : RunRec env p s pos ctx ins rem (.ret (.recovered rr))) :
    ∀ x ∈ rr.repairs, ∃ st, Explains env p s ctx.mark pos x st ∧
      (x.prio = none ↔ startsAuto st = true) := by
  intro x hx
  obtain ⟨n, h⟩ := h
  have hs : RecSound .. := (sound_denote env (anyDisc ctx.getLocFn s) p (.inl trivial) n).fn pos ctx
    ins rem _ hp ⟨rfl, trivial⟩ h
  obtain ⟨st, hst⟩ := hs.reps x hx
  exact ⟨st, ⟨hst.der, hst.ne, hst.ops.opsEq⟩, hst.prio⟩

/-- The node is not `recover`, `recover_with` or `recover_with_fn`. -/
def P.notAsked : {α : Type} → P τ ρ Γ α → Prop
  | _, .recover _ => False
  | _, .recoverWith _ _ _ => False
  | _, .recoverWithFn _ _ _ => False
  | _, _ => True

/-- The node does not offer insertions by itself. -/
def P.notAuto : {α : Type} → P τ ρ Γ α → Prop
  | _, .sym _ _ => False
  | _, .literal _ _ _ => False
  | _, _ => True

/-- An automatic insertion is an insertion. -/
theorem Der.auto_insert {col : Nat → Nat → Prop} {m i : Nat} {es : List Step} {v : α} {j : Nat}
    (h : Der env s col p m i es v j) : ∀ e ∈ es, e.auto = true → ∃ l, e.edit.op = .insert l := by
  induction h with
  | pure | pureFn | eof | satisfy | sym | literal | regexp | maybeNone | manyNil => simp
  | eofSkip | satisfySkip | symSkip | literalSkip | regexpSkip => simp [Step.skip]
  | symInsert | literalInsert => simp [Step.autoInsert]
  | recoverWithInsert | recoverWithFnInsert => simp [Step.userInsert]
  | bind _ _ ih1 ih2 | seqWith _ _ ih1 ih2 | manyCons _ _ ih1 ih2 =>
    intro e he
    rcases List.mem_append.1 he with he | he
    · exact ih1 e he
    · exact ih2 e he
  | recover _ ih =>
    intro e he
    obtain ⟨e', -, rfl⟩ := List.mem_map.1 he
    simp [Step.asked]
  | fmap _ _ ih | altL _ ih | altR _ ih | maybeSome _ ih | attempt _ ih | label _ ih
  | recoverWith _ ih | recoverWithFn _ ih | block _ _ ih | aligned _ _ ih | indented _ _ _ ih
  | ref _ _ ih => exact ih

/-- Without `recover()` and its relatives every insertion is automatic. -/
theorem Der.insert_auto {col : Nat → Nat → Prop} {m i : Nat} {es : List Step} {v : α} {j : Nat}
    (henv : ∀ i q, env i = some q → q.All P.notAsked)
    (h : Der env s col p m i es v j) (hp : p.All P.notAsked) :
    ∀ e ∈ es, ∀ l, e.edit.op = .insert l → e.auto = true := by
  induction h with
  | pure | pureFn | eof | satisfy | sym | literal | regexp | maybeNone | manyNil => simp
  | eofSkip | satisfySkip | symSkip | literalSkip | regexpSkip => simp [Step.skip]
  | symInsert | literalInsert => simp [Step.autoInsert]
  | bind _ _ ih1 ih2 =>
    intro e he
    rcases List.mem_append.1 he with he | he
    · exact ih1 hp.2.1 e he
    · exact ih2 (hp.2.2 _) e he
  | seqWith _ _ ih1 ih2 =>
    intro e he
    rcases List.mem_append.1 he with he | he
    · exact ih1 hp.2.1 e he
    · exact ih2 hp.2.2 e he
  | manyCons _ _ ih1 ih2 =>
    intro e he
    rcases List.mem_append.1 he with he | he
    · exact ih1 hp.2 e he
    · exact ih2 hp e he
  | altL _ ih => exact ih hp.2.1
  | altR _ ih => exact ih hp.2.2
  | recoverWithInsert | recoverWithFnInsert => exact hp.1.elim
  | recover _ _ | recoverWith _ _ | recoverWithFn _ _ => exact hp.1.elim
  | fmap _ _ ih | maybeSome _ ih | attempt _ ih | label _ ih
  | block _ _ ih | aligned _ _ ih | indented _ _ _ ih => exact ih hp.2
  | ref h1 _ ih => exact ih (henv _ _ h1)

/-- Without `sym` and `literal` nothing is automatic. -/
theorem Der.no_auto {col : Nat → Nat → Prop} {m i : Nat} {es : List Step} {v : α} {j : Nat}
    (henv : ∀ i q, env i = some q → q.All P.notAuto)
    (h : Der env s col p m i es v j) (hp : p.All P.notAuto) : ∀ e ∈ es, e.auto = false := by
  induction h with
  | pure | pureFn | eof | satisfy | sym | literal | regexp | maybeNone | manyNil => simp
  | eofSkip | satisfySkip | symSkip | literalSkip | regexpSkip => simp [Step.skip]
  | symInsert | literalInsert => exact hp.elim
  | recoverWithInsert | recoverWithFnInsert => simp [Step.userInsert]
  | bind _ _ ih1 ih2 =>
    intro e he
    rcases List.mem_append.1 he with he | he
    · exact ih1 hp.2.1 e he
    · exact ih2 (hp.2.2 _) e he
  | seqWith _ _ ih1 ih2 =>
    intro e he
    rcases List.mem_append.1 he with he | he
    · exact ih1 hp.2.1 e he
    · exact ih2 hp.2.2 e he
  | manyCons _ _ ih1 ih2 =>
    intro e he
    rcases List.mem_append.1 he with he | he
    · exact ih1 hp.2 e he
    · exact ih2 hp e he
  | altL _ ih => exact ih hp.2.1
  | altR _ ih => exact ih hp.2.2
  | recover _ ih =>
    intro e he
    obtain ⟨e', -, rfl⟩ := List.mem_map.1 he
    rfl
  | fmap _ _ ih | maybeSome _ ih | attempt _ ih | label _ ih | recoverWith _ ih
  | recoverWithFn _ ih | block _ _ ih | aligned _ _ ih | indented _ _ _ ih => exact ih hp.2
  | ref h1 _ ih => exact ih (henv _ _ h1)

omit [BEq τ] in
theorem Repair.firstOp_of {x : Repair τ α} {e : Step} {st : List Step}
    (h : (Reparsec.edits (e :: st)).map (·.op) = x.ops.map (·.op)) : x.firstOp = some e.edit.op := by
  unfold Repair.firstOp
  rw [← h]
  rfl

omit [BEq τ] in
theorem Repair.startsWithInsert_iff {x : Repair τ α} :
    x.startsWithInsert = true ↔ ∃ l, x.firstOp = some (.insert l) := by
  unfold Repair.startsWithInsert
  split
  · next l h => simp [h]
  · next h =>
    simp only [Bool.false_eq_true, false_iff, not_exists]
    exact fun l hl => h l hl

/-- C29, in terms of the operations: a repair with `prio = None` starts with an insertion. -/
theorem C29_automatic_inserts (hp : pos ≤ s.length) {rr : Recovered τ α}
    (h : RunRec env p s pos ctx ins rem (.ret (.recovered rr))) :
    ∀ x ∈ rr.repairs, x.prio = none → x.startsWithInsert = true := by
  intro x hx hn
  obtain ⟨st, ⟨hd, hne, ho⟩, hst⟩ := C29_prio_is_automatic hp h x hx
  cases st with
  | nil => exact absurd rfl hne
  | cons e st =>
    obtain ⟨l, hl⟩ := hd.auto_insert e (by simp) (hst.1 hn)
    exact Repair.startsWithInsert_iff.2 ⟨l, by rw [Repair.firstOp_of ho, hl]⟩

/-- C29, in terms of the operations: in a grammar without `recover()`, `recover_with` and
`recover_with_fn`, the repairs with `prio = None` are those that start with an insertion. -/
theorem C29_automatic_iff_inserts (hp : pos ≤ s.length) (hg : Everywhere env P.notAsked p)
    {rr : Recovered τ α} (h : RunRec env p s pos ctx ins rem (.ret (.recovered rr))) :
    ∀ x ∈ rr.repairs, x.prio.isSome = !x.startsWithInsert := by
  intro x hx
  obtain ⟨st, ⟨hd, hne, ho⟩, hst⟩ := C29_prio_is_automatic hp h x hx
  have h1 : x.prio = none ↔ x.startsWithInsert = true := by
    refine ⟨C29_automatic_inserts hp h x hx, fun hi => hst.2 ?_⟩
    obtain ⟨l, hl⟩ := Repair.startsWithInsert_iff.1 hi
    cases st with
    | nil => exact absurd rfl hne
    | cons e st =>
      rw [Repair.firstOp_of ho] at hl
      exact hd.insert_auto hg.2 hg.1 e (by simp) l (Option.some.inj hl)
  cases hpr : x.prio <;> cases hi : x.startsWithInsert <;> simp_all

/-- C29. Under `recover()` no repair counts as an automatic insertion. -/
theorem C29_recover_asks (hp : pos ≤ s.length) {rr : Recovered τ α}
    (h : RunRec env (.recover p) s pos ctx ins rem (.ret (.recovered rr))) :
    ∀ x ∈ rr.repairs, x.prio ≠ none := by
  intro x hx hn
  obtain ⟨st, ⟨hd, -, -⟩, hst⟩ := C29_prio_is_automatic hp h x hx
  have := hst.1 hn
  cases hd with
  | recover hd => simp at this

/-- C29. The insertions of `recover_with` and `recover_with_fn` never count as automatic, even
without a `recover()` around them. -/
theorem C29_user_insertions (hp : pos ≤ s.length) (hg : Everywhere env P.notAuto p)
    {rr : Recovered τ α} (h : RunRec env p s pos ctx ins rem (.ret (.recovered rr))) :
    ∀ x ∈ rr.repairs, x.prio ≠ none := by
  intro x hx hn
  obtain ⟨st, ⟨hd, hne, -⟩, hst⟩ := C29_prio_is_automatic hp h x hx
  have h1 := hst.1 hn
  cases st with
  | nil => exact absurd rfl hne
  | cons e st =>
    have := hd.no_auto hg.2 hg.1 e (by simp)
    simp [startsAuto, this] at h1

/-- What `p | q` offers if neither uses `recover()`, `recover_with` or `recover_with_fn`, in terms of
the operations. -/
def choiceOffersByOps (a b : Option (List (Repair τ α))) : Option (List (Repair τ α)) :=
  match a, b with
  | some a, some b => some (a ++ b.filter fun r => !r.startsWithInsert)
  | some a, none => some a
  | none, b => b

/-- C29, in terms of the operations only: without `recover()` and its relatives `p | q` offers what
`p` offers, then of `q`'s repairs those that do not start with an insertion. -/
theorem C29_choice_by_operations (hp : pos ≤ s.length) (hg : Everywhere env P.notAsked q) {k : Int}
    {x y x' y' : Result τ α}
    (hx : RunRec env p s pos ctx ins none (.ret x)) (hxo : ∀ r, x ≠ .ok r)
    (hxc : x.consumed = false)
    (hy : RunRec env q s pos ctx ins none (.ret y)) (hyo : ∀ r, y ≠ .ok r)
    (hyc : y.consumed = false)
    (hx' : RunRec env p s pos ctx ins (some k) (.ret x'))
    (hy' : RunRec env q s pos ctx ins (some k) (.ret y')) :
    ∃ r, RunRec env (.alt p q) s pos ctx ins (some k) (.ret r) ∧ (∀ o, r ≠ .ok o) ∧
      r.offers.map (List.map Repair.core) =
        (choiceOffersByOps x'.offers y'.offers).map (List.map Repair.core) := by
  obtain ⟨r, h1, h2, h3⟩ := C29_choice_repairs hp hx hxo hxc hy hyo hyc hx' hy'
  refine ⟨r, h1, h2, h3.trans ?_⟩
  suffices h : choiceOffers x'.offers y'.offers = choiceOffersByOps x'.offers y'.offers by rw [h]
  cases y' with
  | recovered r' =>
    have h := C29_automatic_iff_inserts hp hg hy'
    have : (r'.repairs.filter fun r => r.prio.isSome) =
        r'.repairs.filter fun r => !r.startsWithInsert := List.filter_congr h
    cases x'.offers <;> simp [Result.offers, choiceOffers, choiceOffersByOps, this]
  | ok _ => cases x'.offers <;> rfl
  | error _ => cases x'.offers <;> rfl

/-- C29. If every alternative of `q` is under `recover()`, all of `q`'s repairs are offered. -/
theorem C29_choice_recover (hp : pos ≤ s.length) {k : Int} {x y x' y' : Result τ α}
    (hx : RunRec env p s pos ctx ins none (.ret x)) (hxo : ∀ r, x ≠ .ok r)
    (hxc : x.consumed = false)
    (hy : RunRec env (.recover q) s pos ctx ins none (.ret y)) (hyo : ∀ r, y ≠ .ok r)
    (hyc : y.consumed = false)
    (hx' : RunRec env p s pos ctx ins (some k) (.ret x'))
    (hy' : RunRec env (.recover q) s pos ctx ins (some k) (.ret y')) :
    ∃ r, RunRec env (.alt p (.recover q)) s pos ctx ins (some k) (.ret r) ∧ (∀ o, r ≠ .ok o) ∧
      r.offers.map (List.map Repair.core) =
        (match x'.offers, y'.offers with
          | some a, some b => some (a ++ b)
          | some a, none => some a
          | none, b => b).map (List.map Repair.core) := by
  obtain ⟨r, h1, h2, h3⟩ := C29_choice_repairs hp hx hxo hxc hy hyo hyc hx' hy'
  refine ⟨r, h1, h2, h3.trans ?_⟩
  cases y' with
  | recovered r' =>
    have h := C29_recover_asks hp hy'
    have : (r'.repairs.filter fun r => r.prio.isSome) = r'.repairs :=
      List.filter_eq_self.2 fun x hx => by
        have := h x hx
        cases hpr : x.prio <;> simp_all
    cases x'.offers <;> simp [Result.offers, choiceOffers, this]
  | ok _ => cases x'.offers <;> rfl
  | error _ => cases x'.offers <;> rfl

/-! ### C28 for `parse(..).unwrap(..)` -/

/-- How many elements the operations of a repair skip and insert. -/
def Repair.opTotal (x : Repair τ α) : Nat := (x.ops.map fun i => opCount i.op).sum

/-- C28, for whole parses and in terms of what a user sees: if parsing with `recover=True` offers
repairs, `unwrap(recover=True)` gives the value, and `unwrap()` raises the operations, of the same
repair `x`. No repair skips and inserts less than `x`; of those that skip and insert as much, none
ends further; of those that also end there, if `x` is derived with an automatic insertion first, so
are all the others. -/
theorem C28_reported {k : Int} {gl : Loc → List τ → Nat → Loc} (fmt : Loc → String)
    {rr : Recovered τ α} (h : Returns env p s (recovering k gl) (.recovered rr))
    (hne : rr.repairs ≠ []) :
    ∃ x ∈ rr.repairs,
      (Result.recovered rr).unwrap fmt true = .ok x.value ∧
      (Result.recovered rr).unwrap fmt false = .error ⟨x.ops.map fun i =>
        { loc := i.loc, locStr := fmt i.loc, expected := i.expected, op := some i.op }⟩ ∧
      (∀ y ∈ rr.repairs, x.opTotal ≤ y.opTotal) ∧
      (∀ y ∈ rr.repairs, y.opTotal = x.opTotal → y.pos ≤ x.pos) ∧
      ∃ how : Repair τ α → List Step, (∀ y ∈ rr.repairs, Explains env p s 0 0 y (how y)) ∧
        ∀ y ∈ rr.repairs, y.opTotal = x.opTotal → y.pos = x.pos →
          startsAuto (how x) = true → startsAuto (how y) = true := by
  obtain ⟨x, hx, h1, h2⟩ := C28_unwrap_uses_best fmt rr hne
  obtain ⟨hm, hc, hpos, hprio⟩ := C28_minimal hx
  have hcost : ∀ y ∈ rr.repairs, y.cost = y.opTotal := fun y hy => (C26_cost h y hy).1
  obtain ⟨n, hn⟩ := returns_recovering h
  have hex := C29_prio_is_automatic (Nat.zero_le _) ⟨n, hn⟩
  have hex : ∀ y, ∃ st, y ∈ rr.repairs → Explains env p s 0 0 y st ∧
      (y.prio = none ↔ startsAuto st = true) := by
    intro y
    by_cases hy : y ∈ rr.repairs
    · obtain ⟨st, h⟩ := hex y hy
      exact ⟨st, fun _ => h⟩
    · exact ⟨[], fun h => absurd h hy⟩
  obtain ⟨how, hhow⟩ := Classical.axiomOfChoice hex
  refine ⟨x, hm, h1, h2, ?_, ?_, how, fun y hy => (hhow y hy).1, ?_⟩
  · intro y hy
    rw [← hcost x hm, ← hcost y hy]
    exact hc y hy
  · intro y hy he
    exact hpos y hy (by rw [hcost x hm, hcost y hy, he])
  · intro y hy he hpy hxa
    exact (hhow y hy).2.1
      (hprio y hy (by rw [hcost x hm, hcost y hy, he]) hpy ((hhow x hm).2.2 hxa))

/-- C28 for grammars without `recover()` and its relatives, in terms of the operations only: the last
tie-break prefers repairs that start by skipping. -/
theorem C28_reported_by_operations {k : Int} {gl : Loc → List τ → Nat → Loc} (fmt : Loc → String)
    (hg : Everywhere env P.notAsked p)
    {rr : Recovered τ α} (h : Returns env p s (recovering k gl) (.recovered rr))
    (hne : rr.repairs ≠ []) :
    ∃ x ∈ rr.repairs,
      (Result.recovered rr).unwrap fmt true = .ok x.value ∧
      (Result.recovered rr).unwrap fmt false = .error ⟨x.ops.map fun i =>
        { loc := i.loc, locStr := fmt i.loc, expected := i.expected, op := some i.op }⟩ ∧
      (∀ y ∈ rr.repairs, x.opTotal ≤ y.opTotal) ∧
      (∀ y ∈ rr.repairs, y.opTotal = x.opTotal → y.pos ≤ x.pos) ∧
      (∀ y ∈ rr.repairs, y.opTotal = x.opTotal → y.pos = x.pos →
        x.startsWithInsert = true → y.startsWithInsert = true) := by
  obtain ⟨x, hx, h1, h2⟩ := C28_unwrap_uses_best fmt rr hne
  obtain ⟨hm, hc, hpos, hprio⟩ := C28_minimal hx
  have hcost : ∀ y ∈ rr.repairs, y.cost = y.opTotal := fun y hy => (C26_cost h y hy).1
  obtain ⟨n, hn⟩ := returns_recovering h
  have hiff := C29_automatic_iff_inserts (Nat.zero_le _) hg ⟨n, hn⟩
  have hnone : ∀ y ∈ rr.repairs, y.prio = none ↔ y.startsWithInsert = true := by
    intro y hy
    have := hiff y hy
    cases hpr : y.prio <;> cases hi : y.startsWithInsert <;> simp_all
  refine ⟨x, hm, h1, h2, ?_, ?_, ?_⟩
  · intro y hy
    rw [← hcost x hm, ← hcost y hy]
    exact hc y hy
  · intro y hy he
    exact hpos y hy (by rw [hcost x hm, hcost y hy, he])
  · intro y hy he hpy hxa
    exact (hnone y hy).1
      (hprio y hy (by rw [hcost x hm, hcost y hy, he]) hpy ((hnone x hm).2 hxa))

end

/-! ### Concrete cases -/

namespace Samples

/-- `(sym("a") | sym("b")) << eof()` -/
def aOrB : P Char Empty (fun _ => Unit) Char :=
  .seql (.alt (.sym 'a' "'a'") (.sym 'b' "'b'")) .eof

/-- `(sym("a") | sym("b").recover()) << eof()` -/
def aOrAskedB : P Char Empty (fun _ => Unit) Char :=
  .seql (.alt (.sym 'a' "'a'") (.recover (.sym 'b' "'b'"))) .eof

/-- The values and first operations of the offered repairs. -/
def offered {α : Type} (p : P Char Empty (fun _ => Unit) α) (s : String) :
    Out (List (α × List RepairOp)) := do
  match ← parse noEnv 10 p s.toList true 5 defaultGetLoc with
  | .recovered r => return r.repairs.map fun x => (x.value, x.ops.map (·.op))
  | _ => return []

/-- On the empty input only the first alternative's insertion is offered … -/
example : offered aOrB "" = .ret [('a', [.insert "'a'"])] := rfl

/-- … unless the second one asks for recovery. -/
example : offered aOrAskedB "" = .ret [('a', [.insert "'a'"]), ('b', [.insert "'b'"])] := rfl

/-- The hypothesis of the `_by_operations` theorems is met. -/
example : Everywhere noEnv P.notAsked aOrB :=
  ⟨⟨trivial, ⟨trivial, trivial, trivial⟩, trivial⟩, fun i => i.elim⟩

/-- `recover_with` without `sym`: its insertions are not automatic. -/
example : Everywhere noEnv P.notAuto (.recoverWith (.satisfy fun c : Char => .ok (c == 'a')) 'z' "z") :=
  ⟨⟨trivial, trivial⟩, fun i => i.elim⟩

end Samples

end Reparsec
