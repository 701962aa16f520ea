import Verif.Spec.Repairs
import Verif.Props.Iteration
import Verif.Props.Monad
import Verif.Props.Origin
import Verif.Props.Terminals

/-!
# C52 - C54: the insertion budget, the candidates of a sequence and of `many`
-/

namespace Reparsec

variable {τ ρ : Type} {Γ : ρ → Type} {α β γ δ : Type}

/-! ### Carrying on -/

theorem followedBy_eq (k : Int) (merge : α → β → γ) (x : Repair τ α) (y : Result τ β)
    (h : ∀ r, y = .ok r → x.pos ≤ r.pos ∧ r.consumed = decide (x.pos < r.pos)) :
    contOne k merge x y = x.followedBy k merge y := by
  cases y with
  | error e => rfl
  | ok r =>
    obtain ⟨h1, h2⟩ := h r rfl
    by_cases hlt : x.pos < r.pos
    · have : x.pos ≠ r.pos := by omega
      simp [contOne, Repair.followedBy, appendExpected, h2, hlt, this]
    · have : x.pos = r.pos := by omega
      simp [contOne, Repair.followedBy, appendExpected, h2, this]
  | recovered r =>
    simp only [contOne, Repair.followedBy]
    apply List.map_congr_left
    intro y _
    have : joinOps x y = x.ops ++ x.opsAfter y := by
      simp only [joinOps, Repair.opsAfter, opsPrependExpected]
      congr 1
      apply List.map_congr_left
      intro i _
      by_cases hi : i.consumed = true <;> simp [OpItem.prependExpected, hi]
    simp [appendExpected, this]

theorem continues_total (run : Repair τ α → Out (Result τ β) → Prop) (hr : ∀ x, ∃ o, run x o)
    (k : Int) (merge : α → β → γ) (xs : List (Repair τ α)) : ∃ o, Continues run k merge xs o := by
  induction xs with
  | nil => exact ⟨_, .nil⟩
  | cons x xs ih =>
    obtain ⟨o, ho⟩ := hr x
    obtain ⟨o', ho'⟩ := ih
    cases o with
    | diverge => exact ⟨_, .hangHere ho⟩
    | raise e => exact ⟨_, .raiseHere ho⟩
    | ret y =>
      cases o' with
      | diverge => exact ⟨_, .hangLater ho ho'⟩
      | raise e => exact ⟨_, .raiseLater ho ho'⟩
      | ret zs => exact ⟨_, .cons ho ho'⟩

theorem mono_contReps {k : Int} {f : Nat → α → Nat → Ctx τ → Int → Out (Result τ β)}
    (hf : ∀ v p c r, Mono (fun n => f n v p c r)) (merge : α → β → γ) (xs : List (Repair τ α)) :
    Mono (fun n => contReps k (f n) merge xs) :=
  fun _ _ hn => contReps_le (fun _ _ _ _ => hf _ _ _ _ _ _ hn) xs

theorem Continues.yields {k : Int} {f : Nat → α → Nat → Ctx τ → Int → Out (Result τ β)}
    {run : Repair τ α → Out (Result τ β) → Prop} {merge : α → β → γ} {xs : List (Repair τ α)}
    {o : Out (List (Repair τ γ))} (h : Continues run k merge xs o)
    (hf : ∀ v p c r, Mono (fun n => f n v p c r))
    (hrun : ∀ x ∈ xs, ∀ o, run x o → Yields (fun n => f n x.value x.pos x.ctx x.ins) o)
    (hok : ∀ x ∈ xs, ∀ r, run x (.ret (.ok r)) → x.pos ≤ r.pos ∧ r.consumed = decide (x.pos < r.pos)) :
    Yields (fun n => contReps k (f n) merge xs) o := by
  have hm : ∀ x : Repair τ α, Mono (fun n => f n x.value x.pos x.ctx x.ins) := fun x => hf _ _ _ _
  induction h with
  | nil => exact ⟨0, rfl⟩
  | @cons x xs y zs hx _ ih =>
    have ih := ih (fun x hx => hrun x (List.mem_cons_of_mem _ hx))
      (fun x hx => hok x (List.mem_cons_of_mem _ hx))
    simp only [contReps, Out.bind_def, Out.pure_def]
    refine Yields.bind (hm x) (hrun x List.mem_cons_self _ hx) ?_ ?_
    · exact (mono_contReps hf merge xs).bind fun _ => .const _
    · rw [← followedBy_eq k merge x y fun r hr => hok x List.mem_cons_self r (hr ▸ hx)]
      exact Yields.map ih fun rest => contOne k merge x y ++ rest
  | raiseHere hx =>
    simp only [contReps, Out.bind_def]
    exact Yields.bind_raise (hrun _ List.mem_cons_self _ hx)
  | @raiseLater x xs y e hx _ ih =>
    have ih := ih (fun x hx => hrun x (List.mem_cons_of_mem _ hx))
      (fun x hx => hok x (List.mem_cons_of_mem _ hx))
    simp only [contReps, Out.bind_def]
    refine Yields.bind (hm x) (hrun x List.mem_cons_self _ hx) ?_ ?_
    · exact (mono_contReps hf merge xs).bind fun _ => .const _
    · exact Yields.bind_raise ih
  | hangHere hx =>
    simp only [contReps, Out.bind_def]
    exact Yields.bind_diverge (hrun _ List.mem_cons_self _ hx)
  | @hangLater x xs y hx _ ih =>
    have ih := ih (fun x hx => hrun x (List.mem_cons_of_mem _ hx))
      (fun x hx => hok x (List.mem_cons_of_mem _ hx))
    simp only [contReps, Out.bind_def]
    refine Yields.bind (hm x) (hrun x List.mem_cons_self _ hx) ?_ ?_
    · exact (mono_contReps hf merge xs).bind fun _ => .const _
    · exact Yields.bind_diverge ih

theorem Continues.continueParse {k : Int} {f : Nat → α → Nat → Ctx τ → Int → Out (Result τ β)}
    {run : Repair τ α → Out (Result τ β) → Prop} {merge : α → β → γ} {r : Recovered τ α}
    {o : Out (List (Repair τ γ))} (h : Continues run k merge r.repairs o)
    (hf : ∀ v p c r, Mono (fun n => f n v p c r))
    (hrun : ∀ x ∈ r.repairs, ∀ o, run x o → Yields (fun n => f n x.value x.pos x.ctx x.ins) o)
    (hok : ∀ x ∈ r.repairs, ∀ y, run x (.ret (.ok y)) →
      x.pos ≤ y.pos ∧ y.consumed = decide (x.pos < y.pos)) :
    Yields (fun n => Reparsec.continueParse r k (f n) merge)
      (o.map fun reps => .recovered (r.withRepairs reps)) := by
  simp only [Reparsec.continueParse, Out.bind_def, Out.pure_def]
  exact Yields.map (h.yields hf hrun hok) fun reps => Result.recovered (r.withRepairs reps)

/-- Which candidates there are, disregarding the order. -/
theorem Continues.mem_iff {run : Repair τ α → Out (Result τ β) → Prop} {k : Int}
    {merge : α → β → γ} {xs : List (Repair τ α)} {zs : List (Repair τ γ)}
    (hu : ∀ x o o', run x o → run x o' → o = o')
    (h : Continues run k merge xs (.ret zs)) (z : Repair τ γ) :
    z ∈ zs ↔ ∃ x ∈ xs, ∃ y, run x (.ret y) ∧ z ∈ x.followedBy k merge y := by
  generalize ho : Out.ret zs = o at h
  induction h generalizing zs with
  | nil => cases ho; simp
  | @cons x xs y zs' hx _ ih =>
    cases ho
    rw [List.mem_append, ih rfl]
    constructor
    · rintro (h | ⟨x', hx', h⟩)
      · exact ⟨x, List.mem_cons_self, y, hx, h⟩
      · exact ⟨x', List.mem_cons_of_mem _ hx', h⟩
    · rintro ⟨x', hx', y', hy', h⟩
      rcases List.mem_cons.1 hx' with rfl | hx'
      · have := hu _ _ _ hx hy'
        cases this
        exact .inl h
      · exact .inr ⟨x', hx', y', hy', h⟩
  | raiseHere _ => cases ho
  | raiseLater _ _ => cases ho
  | hangHere _ => cases ho
  | hangLater _ _ => cases ho

section
variable [BEq τ] {env : Env τ ρ Γ} {p : P τ ρ Γ α} {q : P τ ρ Γ β} {s : List τ} {pos : Nat}
  {ctx : Ctx τ} {ins : Int} {rem : Option Int}

/-! ### C53 -/

theorem rec_ok_frame {r : Ok τ α} (hp : pos ≤ s.length)
    (h : RunRec env p s pos ctx ins rem (.ret (.ok r))) :
    pos ≤ r.pos ∧ r.consumed = decide (pos < r.pos) ∧ r.pos ≤ s.length := by
  obtain ⟨n, h⟩ := h
  have hf : OkFrame .. := frame_denote env n p s pos ctx ins rem _ hp h
  exact ⟨hf.lo, hf.consumed, hf.hi⟩

theorem rec_rep_frame {r : Recovered τ α} (hp : pos ≤ s.length)
    (h : RunRec env p s pos ctx ins rem (.ret (.recovered r))) :
    ∀ x ∈ r.repairs, pos ≤ x.pos ∧ x.pos ≤ s.length ∧ (rem = none → pos < x.pos) := by
  obtain ⟨n, h⟩ := h
  have hf : RecFrame .. := frame_denote env n p s pos ctx ins rem _ hp h
  exact fun x hx => ⟨(hf.reps x hx).lo, (hf.reps x hx).hi, (hf.reps x hx).lt⟩

/-- What a sequence gives when its first part succeeded with `ra` and the second part gave `y`. -/
def afterSuccessRec (ra : Ok τ α) (merge : α → β → γ) : Result τ β → Result τ γ
  | .ok rb => .ok
      { value := merge ra.value rb.value, pos := rb.pos, ctx := rb.ctx,
        expected := if ra.pos < rb.pos then rb.expected else ra.expected ++ rb.expected,
        consumed := ra.consumed || rb.consumed }
  | .error e => .error
      { loc := e.loc,
        expected := if e.consumed then e.expected else ra.expected ++ e.expected,
        consumed := ra.consumed || e.consumed }
  | .recovered r => .recovered
      { repairs := r.repairs.map fun y =>
          { cost := y.cost, prio := y.prio, ins := y.ins,
            ops := y.ops.map fun i =>
              if i.consumed then i
              else { i with expected := ra.expected ++ i.expected, consumed := ra.consumed },
            value := merge ra.value y.value, pos := y.pos, ctx := y.ctx,
            expected := if y.consumed then y.expected else ra.expected ++ y.expected,
            consumed := y.consumed || ra.consumed },
        minPrio := r.minPrio, loc := r.loc,
        expected := if r.consumed then r.expected else ra.expected ++ r.expected,
        consumed := ra.consumed || r.consumed }

omit [BEq τ] in
theorem prependExpected_afterSuccess (ra : Ok τ α) (merge : α → β → γ) (y : Result τ β)
    (h : ∀ r, y = .ok r → r.consumed = decide (ra.pos < r.pos)) :
    (y.fmap fun b => merge ra.value b).prependExpected ra.expected ra.consumed =
      afterSuccessRec ra merge y := by
  cases y with
  | ok r =>
    have := h r rfl
    by_cases hl : ra.pos < r.pos <;>
      simp [afterSuccessRec, Result.fmap, Result.prependExpected, Ok.fmap, Ok.prependExpected,
        this, hl]
  | error e =>
    by_cases hc : e.consumed <;>
      simp [afterSuccessRec, Result.fmap, Result.prependExpected, Err.prependExpected, hc]
    cases e; simp_all
  | recovered r =>
    simp only [afterSuccessRec, Result.fmap, Result.prependExpected, Recovered.prependExpected,
      List.map_map, Result.recovered.injEq, Recovered.mk.injEq, Bool.or_comm, and_true]
    apply List.map_congr_left
    intro y _
    simp only [Function.comp, Repair.fmap, Repair.prependExpected, opsPrependExpected,
      Repair.mk.injEq, true_and, and_true, Bool.or_comm]
    refine ⟨?_, rfl⟩
    apply List.map_congr_left
    intro i _
    by_cases hi : i.consumed = true <;> simp [OpItem.prependExpected, hi]

/-- C53. With recovery, if the first part of a sequence fails for good, raises, or does not return,
so does the sequence. -/
theorem C53_first_fails (merge : α → β → γ) {e : Err}
    (h : RunRec env p s pos ctx ins rem (.ret (.error e))) :
    RunRec env (.seqWith p q merge) s pos ctx ins rem (.ret (.error e)) := by
  show Yields (fun n => seqFn (denote env n p) (denote env n q) merge s pos ctx ins rem) _
  simp only [seqFn, Out.bind_def]
  exact Yields.bind (mono_fn env p s pos ctx ins rem) h (.const _) ⟨0, rfl⟩

theorem C53_first_raises (merge : α → β → γ) {e : Exn}
    (h : RunRec env p s pos ctx ins rem (.raise e)) :
    RunRec env (.seqWith p q merge) s pos ctx ins rem (.raise e) := by
  show Yields (fun n => seqFn (denote env n p) (denote env n q) merge s pos ctx ins rem) _
  simp only [seqFn, Out.bind_def]
  exact Yields.bind_raise h

theorem C53_first_hangs (merge : α → β → γ) (h : RunRec env p s pos ctx ins rem .diverge) :
    RunRec env (.seqWith p q merge) s pos ctx ins rem .diverge := by
  show Yields (fun n => seqFn (denote env n p) (denote env n q) merge s pos ctx ins rem) _
  simp only [seqFn, Out.bind_def]
  exact Yields.bind_diverge h

/-- C53. If the first part succeeds, the second one is run where it ended; with the full budget of
insertions if the first part read something, otherwise with what was left. -/
theorem C53_first_succeeds (merge : α → β → γ) {ra : Ok τ α} {o : Out (Result τ β)}
    (hp : pos ≤ s.length) (h : RunRec env p s pos ctx ins rem (.ret (.ok ra)))
    (hq : RunRec env q s ra.pos ra.ctx ins (if pos < ra.pos then some ins else rem) o) :
    RunRec env (.seqWith p q merge) s pos ctx ins rem (o.map (afterSuccessRec ra merge)) := by
  obtain ⟨-, hc, hl⟩ := rec_ok_frame hp h
  have hc' : (if ra.consumed then some ins else rem) = if pos < ra.pos then some ins else rem := by
    by_cases hlt : pos < ra.pos <;> simp [hc, hlt]
  have : o.map (afterSuccessRec ra merge) = o.map fun y =>
      (y.fmap fun b => merge ra.value b).prependExpected ra.expected ra.consumed := by
    cases o with
    | diverge => rfl
    | raise e => rfl
    | ret y =>
      simp only [Out.map, Out.ret.injEq]
      refine (prependExpected_afterSuccess ra merge y ?_).symm
      rintro r rfl
      exact (rec_ok_frame hl hq).2.1
  rw [this]
  show Yields (fun n => seqFn (denote env n p) (denote env n q) merge s pos ctx ins rem) _
  simp only [seqFn, Out.bind_def]
  refine Yields.bind (mono_fn env p s pos ctx ins rem) h ?_ ?_
  · exact (mono_fn env q s ra.pos ra.ctx ins _).bind fun _ => .const _
  · simp only [hc', Out.pure_def]
    exact Yields.map hq _

/-- C53. If the first part is repaired, the candidates of the sequence are what carrying on with the
second part from each candidate of the first part gives, in order: nothing is left out, nothing is
added. The failure itself (location, expected list) is that of the first part. -/
theorem C53_first_repaired (merge : α → β → γ) {ra : Recovered τ α} {o : Out (List (Repair τ γ))}
    (hp : pos ≤ s.length) (h : RunRec env p s pos ctx ins rem (.ret (.recovered ra)))
    (hq : Continues (fun x => RunRec env q s x.pos x.ctx ins (some x.ins)) ins merge ra.repairs o) :
    RunRec env (.seqWith p q merge) s pos ctx ins rem
      (o.map fun reps => .recovered (ra.withRepairs reps)) := by
  have hfr := rec_rep_frame hp h
  show Yields (fun n => seqFn (denote env n p) (denote env n q) merge s pos ctx ins rem) _
  simp only [seqFn, Out.bind_def]
  have hm : ∀ (_ : α) (p : Nat) (c : Ctx τ) (r : Int),
      Mono (fun n => (denote env n q).fn s p c ins (some r)) := fun _ p c r => mono_fn env q s p c _ _
  refine Yields.bind (mono_fn env p s pos ctx ins rem) h ?_ ?_
  · exact (mono_contReps hm merge _).bind fun _ => .const _
  · refine hq.continueParse hm (fun _ _ _ h => h) ?_
    intro x hx y hy
    exact ⟨(rec_ok_frame (hfr x hx).2.1 hy).1, (rec_ok_frame (hfr x hx).2.1 hy).2.1⟩

/-- C53, for `bind`. -/
theorem C53_bind_repaired {f : α → P τ ρ Γ β} {ra : Recovered τ α} {o : Out (List (Repair τ β))}
    (hp : pos ≤ s.length) (h : RunRec env p s pos ctx ins rem (.ret (.recovered ra)))
    (hq : Continues (fun x => RunRec env (f x.value) s x.pos x.ctx ins (some x.ins)) ins
      (fun _ b => b) ra.repairs o) :
    RunRec env (.bind p f) s pos ctx ins rem
      (o.map fun reps => .recovered (ra.withRepairs reps)) := by
  have hfr := rec_rep_frame hp h
  show Yields (fun n => bindFn (denote env n p) (fun a => denote env n (f a)) s pos ctx ins rem) _
  simp only [bindFn, Out.bind_def]
  have hm : ∀ (v : α) (p : Nat) (c : Ctx τ) (r : Int),
      Mono (fun n => (denote env n (f v)).fn s p c ins (some r)) :=
    fun v p c r => mono_fn env (f v) s p c _ _
  refine Yields.bind (mono_fn env p s pos ctx ins rem) h ?_ ?_
  · exact (mono_contReps hm _ _).bind fun _ => .const _
  · refine hq.continueParse hm (fun _ _ _ h => h) ?_
    intro x hx y hy
    exact ⟨(rec_ok_frame (hfr x hx).2.1 hy).1, (rec_ok_frame (hfr x hx).2.1 hy).2.1⟩

/-- C53. Conversely: whatever a sequence whose first part is repaired returns, its candidates are
exactly those. -/
theorem C53_candidates (merge : α → β → γ) {ra : Recovered τ α} {y : Result τ γ}
    (hp : pos ≤ s.length) (h : RunRec env p s pos ctx ins rem (.ret (.recovered ra)))
    (hy : RunRec env (.seqWith p q merge) s pos ctx ins rem (.ret y)) :
    ∃ rr, y = .recovered rr ∧ rr.loc = ra.loc ∧ rr.expected = ra.expected ∧
      rr.consumed = ra.consumed ∧
      Continues (fun x => RunRec env q s x.pos x.ctx ins (some x.ins)) ins merge ra.repairs
        (.ret rr.repairs) ∧
      ∀ z, z ∈ rr.repairs ↔ ∃ x ∈ ra.repairs, ∃ y,
        RunRec env q s x.pos x.ctx ins (some x.ins) (.ret y) ∧ z ∈ x.followedBy ins merge y := by
  obtain ⟨o, ho⟩ := continues_total (fun x => RunRec env q s x.pos x.ctx ins (some x.ins))
    (fun x => RunRec.total env q s x.pos x.ctx ins (some x.ins)) ins merge ra.repairs
  have := hy.unique (C53_first_repaired merge hp h ho)
  cases o with
  | diverge => simp [Out.map] at this
  | raise e => simp [Out.map] at this
  | ret zs =>
    simp only [Out.map, Out.ret.injEq] at this
    subst this
    exact ⟨_, rfl, rfl, rfl, rfl, ho, ho.mem_iff fun _ _ _ h h' => h.unique h'⟩

omit [BEq τ] in
/-- C53. Cost, edits and value of a candidate of a sequence. -/
theorem C53_totals {merge : α → β → γ} {x : Repair τ α} {y : Result τ β} {k : Int} {z : Repair τ γ}
    (h : z ∈ x.followedBy k merge y) :
    (∃ r, y = .ok r ∧ z.cost = x.cost ∧ z.edits = x.edits ∧ z.value = merge x.value r.value ∧
        z.pos = r.pos) ∨
      (∃ r, ∃ w ∈ r.repairs, y = .recovered r ∧ z.cost = x.cost + w.cost ∧
        z.edits = x.edits ++ w.edits ∧ z.value = merge x.value w.value ∧ z.pos = w.pos) := by
  cases y with
  | error e => simp [Repair.followedBy] at h
  | ok r =>
    simp only [Repair.followedBy, List.mem_singleton] at h
    subst h
    exact .inl ⟨r, rfl, rfl, rfl, rfl, rfl⟩
  | recovered r =>
    simp only [Repair.followedBy, List.mem_map] at h
    obtain ⟨w, hw, rfl⟩ := h
    refine .inr ⟨r, w, hw, rfl, rfl, ?_, rfl, rfl⟩
    simp only [Repair.edits, Repair.opsAfter, List.map_append, List.map_map]
    congr 1
    apply List.map_congr_left
    intro i _
    simp only [Function.comp]
    split <;> rfl

/-- C53, for `bind`: if the first part succeeds. -/
theorem C53_bind_succeeds {f : α → P τ ρ Γ β} {ra : Ok τ α} {o : Out (Result τ β)}
    (hp : pos ≤ s.length) (h : RunRec env p s pos ctx ins rem (.ret (.ok ra)))
    (hq : RunRec env (f ra.value) s ra.pos ra.ctx ins (if pos < ra.pos then some ins else rem) o) :
    RunRec env (.bind p f) s pos ctx ins rem (o.map (afterSuccessRec ra fun _ b => b)) := by
  obtain ⟨-, hc, hl⟩ := rec_ok_frame hp h
  have : o.map (afterSuccessRec ra fun _ b => b) = o.map fun y =>
      y.prependExpected ra.expected ra.consumed := by
    cases o with
    | diverge => rfl
    | raise e => rfl
    | ret y =>
      simp only [Out.map, Out.ret.injEq]
      rw [← prependExpected_afterSuccess ra (fun _ b => b) y]
      · congr 1
        cases y with
        | ok r => rfl
        | error e => rfl
        | recovered r =>
          have : (Repair.fmap fun b : β => b) = (id : Repair τ β → Repair τ β) := rfl
          simp only [Result.fmap, this, List.map_id]
      · rintro r rfl
        exact (rec_ok_frame hl hq).2.1
  rw [this]
  show Yields (fun n => bindFn (denote env n p) (fun a => denote env n (f a)) s pos ctx ins rem) _
  simp only [bindFn, Out.bind_def, Out.pure_def]
  refine Yields.bind (mono_fn env p s pos ctx ins rem) h ?_ ?_
  · simp only
    split <;> exact (mono_fn env (f ra.value) s ra.pos ra.ctx ins _).bind fun _ => .const _
  · simp only
    by_cases hlt : pos < ra.pos
    · simp only [hlt, if_true] at hq
      simp only [hc, hlt, decide_true, if_true]
      exact Yields.map hq _
    · simp only [hlt, if_false] at hq
      simp only [hc, hlt, decide_false, Bool.false_eq_true, if_false]
      exact Yields.map hq _

/-- C53, for `bind`: if the first part does not return a value or a repair. -/
theorem C53_bind_fails {f : α → P τ ρ Γ β} {e : Err}
    (h : RunRec env p s pos ctx ins rem (.ret (.error e))) :
    RunRec env (.bind p f) s pos ctx ins rem (.ret (.error e)) := by
  show Yields (fun n => bindFn (denote env n p) (fun a => denote env n (f a)) s pos ctx ins rem) _
  simp only [bindFn, Out.bind_def]
  exact Yields.bind (mono_fn env p s pos ctx ins rem) h (.const _) ⟨0, rfl⟩

theorem C53_bind_raises {f : α → P τ ρ Γ β} {e : Exn}
    (h : RunRec env p s pos ctx ins rem (.raise e)) :
    RunRec env (.bind p f) s pos ctx ins rem (.raise e) := by
  show Yields (fun n => bindFn (denote env n p) (fun a => denote env n (f a)) s pos ctx ins rem) _
  simp only [bindFn, Out.bind_def]
  exact Yields.bind_raise h

theorem C53_bind_hangs {f : α → P τ ρ Γ β} (h : RunRec env p s pos ctx ins rem .diverge) :
    RunRec env (.bind p f) s pos ctx ins rem .diverge := by
  show Yields (fun n => bindFn (denote env n p) (fun a => denote env n (f a)) s pos ctx ins rem) _
  simp only [bindFn, Out.bind_def]
  exact Yields.bind_diverge h

/-! ### C54 -/

/-- What the loop of `many` does from some point on, with recovery. -/
def LoopRec (env : Env τ ρ Γ) (p : P τ ρ Γ α) (s : List τ) (ins : Int) (i : Nat) (c : Ctx τ)
    (b : Bool) (vs : List α) (o : Out (Result τ (List α))) : Prop :=
  Yields (fun n => manyLoop (denote env n p).fn s ins n i c b vs) o

theorem mono_loopRec (env : Env τ ρ Γ) (p : P τ ρ Γ α) (s : List τ) (ins : Int) (i : Nat)
    (c : Ctx τ) (b : Bool) (vs : List α) :
    Mono (fun n => manyLoop (denote env n p).fn s ins n i c b vs) :=
  fun _ _ h => manyLoop_le (denote_le env h p).2 s ins h i c b vs

theorem loopRec_step {i : Nat} {c : Ctx τ} {b : Bool} {vs : List α} {o} :
    LoopRec env p s ins i c b vs o ↔
      Yields (fun n => ((denote env n p).fn s i c ins none).bind fun
        | .ok r =>
          if r.consumed then manyLoop (denote env n p).fn s ins n r.pos r.ctx true (vs ++ [r.value])
          else .raise manyExn
        | .recovered r =>
          continueParse r ins (fun _ p' c _ => manyLoop (denote env n p).fn s ins n p' c false [])
            (fun a b => vs ++ a :: b)
        | .error e =>
          if e.consumed then .ret (.error e)
          else .ret (.ok { value := vs, pos := i, ctx := c, expected := e.expected,
                           consumed := b })) o := by
  unfold LoopRec
  rw [Yields.shift (F := fun n m => manyLoop (denote env m p).fn s ins n i c b vs)]
  · exact Iff.rfl
  · intro n n' m m' hn hm
    exact manyLoop_le (denote_le env hm p).2 s ins hn i c b vs

theorem loopRec_items {i j : Nat} {c d : Ctx τ} {vs : List α} (hi : i ≤ s.length)
    (h : Items env p s i c vs j d) {b : Bool} {us : List α} {o}
    (hl : LoopRec env p s ins j d (b || decide (i < j)) (us ++ vs) o) :
    LoopRec env p s ins i c b us o := by
  induction h generalizing b us with
  | nil => simpa using hl
  | @cons i c v k e vs j d h1 h2 h3 ih =>
    obtain ⟨ex, h4, h5, h6⟩ := h1.run hi
    have hkj := (h3.le h6).1
    have h4' : RunRec env p s i c ins none (.ret (.ok ⟨v, k, e, ex, decide (i < k)⟩)) := by
      obtain ⟨n, h4⟩ := h4
      exact ⟨n, (sim_denote env n p).ok h4 ins none⟩
    rw [loopRec_step]
    refine Yields.bind (mono_fn env p s i c ins none) h4' ?_ ?_
    · simp only [h2, decide_true, if_true]; exact mono_loopRec env p s ins _ _ _ _
    · simp only [h2, decide_true, if_true]
      refine ih h6 ?_
      have : decide (i < j) = true := by simp; omega
      rw [this] at hl
      simpa using hl

/-- What `many` gives with recovery, when it has read the items `vs` from `i` to `j` and then
running `p` at `j`, without permission to repair at `j` itself, ended in `o`. -/
inductive ManyEnd (env : Env τ ρ Γ) (p : P τ ρ Γ α) (s : List τ) (ins : Int) (i : Nat)
    (vs : List α) (j : Nat) (d : Ctx τ) : Out (Result τ α) → Out (Result τ (List α)) → Prop
  /-- no further item: the items are returned -/
  | done {e : Err} (hc : e.consumed = false) : ManyEnd env p s ins i vs j d (.ret (.error e))
      (.ret (.ok { value := vs, pos := j, ctx := d, expected := e.expected,
                   consumed := decide (i < j) }))
  /-- an item that cannot be repaired -/
  | fail {e : Err} (hc : e.consumed = true) :
      ManyEnd env p s ins i vs j d (.ret (.error e)) (.ret (.error e))
  /-- a repaired item: `many` goes on from each candidate -/
  | repair {r : Recovered τ α} {o : Out (List (Repair τ (List α)))} :
      Continues (fun x => RunRec env (.many p) s x.pos x.ctx ins none) ins
        (fun v us => vs ++ v :: us) r.repairs o →
      ManyEnd env p s ins i vs j d (.ret (.recovered r))
        (o.map fun reps => .recovered (r.withRepairs reps))
  | empty {r : Ok τ α} (h : r.pos = j) : ManyEnd env p s ins i vs j d (.ret (.ok r))
      (.raise (.runtimeError "parser shouldn't accept empty string"))
  | raise {e : Exn} : ManyEnd env p s ins i vs j d (.raise e) (.raise e)
  | hang : ManyEnd env p s ins i vs j d .diverge .diverge

/-- C54. `p.many()` with recovery. -/
theorem C54_many {i j : Nat} {c d : Ctx τ} {vs : List α} (hi : i ≤ s.length)
    (h : Items env p s i c vs j d) {o : Out (Result τ α)} {o' : Out (Result τ (List α))}
    (ho : RunRec env p s j d ins none o) (hend : ManyEnd env p s ins i vs j d o o') :
    RunRec env (.many p) s i c ins rem o' := by
  have hj := (h.le hi).2
  show LoopRec env p s ins i c false [] _
  refine loopRec_items hi h ?_
  rw [loopRec_step]
  have hm := mono_fn env p s j d ins none
  cases hend with
  | done hc =>
    refine Yields.bind hm ho (.const _) ⟨0, ?_⟩
    simp [hc]
  | fail hc =>
    refine Yields.bind hm ho (.const _) ⟨0, ?_⟩
    simp [hc]
  | @repair r o hr =>
    have hfr := rec_rep_frame hj ho
    have hml : ∀ (_ : α) (p' : Nat) (c : Ctx τ) (_ : Int),
        Mono (fun n => manyLoop (denote env n p).fn s ins n p' c false []) :=
      fun _ _ _ _ => mono_loopRec env p s ins _ _ _ _
    refine Yields.bind hm ho ?_ ?_
    · exact (mono_contReps hml _ _).bind fun _ => .const _
    · refine hr.continueParse hml (fun _ _ _ h => h) ?_
      intro x hx y hy
      exact ⟨(rec_ok_frame (hfr x hx).2.1 hy).1, (rec_ok_frame (hfr x hx).2.1 hy).2.1⟩
  | @empty r hr =>
    have hc : r.consumed = false := by
      rw [(rec_ok_frame hj ho).2.1, hr]; simp
    refine Yields.bind hm ho ?_ ⟨0, ?_⟩
    · simp only [hc, Bool.false_eq_true, if_false]; exact .const _
    · simp [hc, manyExn]
  | raise => exact Yields.bind_raise ho
  | hang => exact Yields.bind_diverge ho

/-- C54. These are all the cases: `p.many()` reads some items, and then one of the cases of
`ManyEnd` applies. -/
theorem C54_exhaustive {i : Nat} {c : Ctx τ} (hi : i ≤ s.length) {o' : Out (Result τ (List α))}
    (h : RunRec env (.many p) s i c ins rem o') :
    ∃ vs j d o, Items env p s i c vs j d ∧ RunRec env p s j d ins none o ∧
      ManyEnd env p s ins i vs j d o o' := by
  obtain ⟨vs, j, d, o, h1, h2, h3⟩ := items_total env p (c := c) hi
  obtain ⟨o, ho⟩ := RunRec.total env p s j d ins none
  have key : ∃ o', ManyEnd env p s ins i vs j d o o' := by
    cases o with
    | diverge => exact ⟨_, .hang⟩
    | raise e => exact ⟨_, .raise⟩
    | ret y =>
      cases y with
      | error e =>
        cases hc : e.consumed with
        | false => exact ⟨_, .done hc⟩
        | true => exact ⟨_, .fail hc⟩
      | recovered r =>
        obtain ⟨o, ho⟩ := continues_total
          (fun x => RunRec env (.many p) s x.pos x.ctx ins none)
          (fun x => RunRec.total env (.many p) s x.pos x.ctx ins none) ins
          (fun v us => vs ++ v :: us) r.repairs
        exact ⟨_, .repair ho⟩
      | ok r =>
        refine ⟨_, .empty ?_⟩
        rename_i o₀
        have : RunPlain env p s j d (.ret (.ok r)) := by
          obtain ⟨n, ho⟩ := ho
          exact ⟨n, (sim_denote env n p).fast_ok ho⟩
        exact h3 r (h2.unique this)
  obtain ⟨o'', hk⟩ := key
  have := h.unique (C54_many (rem := rem) hi h1 ho hk)
  subst this
  exact ⟨vs, j, d, o, h1, ho, hk⟩

/-- C54. `many` starts no repair at the start of an item: it repairs only items that had begun, and
every repair ends beyond the start of the item. -/
theorem C54_only_begun {i j : Nat} {c d : Ctx τ} {vs : List α} (hi : i ≤ s.length)
    (h : Items env p s i c vs j d) {r : Recovered τ α}
    (ho : RunRec env p s j d ins none (.ret (.recovered r))) :
    r.consumed = true ∧ ∀ x ∈ r.repairs, j < x.pos := by
  refine ⟨?_, fun x hx => (rec_rep_frame (h.le hi).2 ho x hx).2.2 rfl⟩
  obtain ⟨n, ho⟩ := ho
  have hf : RecFrame .. := frame_denote env n p s j d ins none _ (h.le hi).2 ho
  exact hf.consumed rfl

/-! ### C52 -/

/-- C52, default locations. What a candidate may still insert where it ends is `max_insertions`
minus what it has inserted there. -/
theorem C52_left {k : Int} (hk : 0 ≤ k) {rr : Recovered τ α}
    (h : Returns env p s (recovering k defaultGetLoc) (.recovered rr)) :
    ∀ x ∈ rr.repairs, x.ins = k - insertsAt x.pos x.edits := by
  intro x hx
  have hs : RecSound .. := sound_recovering (defaultDisc s) defaultDisc_ctx (.inl trivial) h
  obtain ⟨es, hes⟩ := hs.reps x hx
  have := (hes.budget ⟨hk, fun k' h => by cases h; exact ⟨hk, Int.le_refl _⟩⟩).exact
  rw [hes.ops.editsEq defaultRel] at this
  rw [this]
  split <;> rfl

/-- C52, under `scannerless.parse`. -/
theorem C52_left_text {env : Env Char ρ Γ} {p : P Char ρ Γ α} {s : List Char} {k : Int} (hk : 0 ≤ k)
    {rr : Recovered Char α}
    (h : Returns env p s (recovering k scannerlessGetLoc) (.recovered rr)) :
    ∀ x ∈ rr.repairs, x.ins = k - insertsAt x.pos x.edits := by
  intro x hx
  have hs : RecSound .. :=
    sound_recovering (scannerlessDisc s) (scannerlessDisc_ctx s) (.inl trivial) h
  obtain ⟨es, hes⟩ := hs.reps x hx
  have := (hes.budget ⟨hk, fun k' h => by cases h; exact ⟨hk, Int.le_refl _⟩⟩).exact
  rw [hes.ops.editsEq scannerlessRel] at this
  rw [this]
  split <;> rfl

theorem returns_recRun {k : Int} {gl : Loc → List τ → Nat → Loc} {r : Result τ α} :
    Returns env p s (recovering k gl) r ↔ RunRec env p s 0 (initCtx gl) k (some k) (.ret r) :=
  Iff.rfl

theorem scan_sym_ok (c : τ) (s : List τ) (m i : Nat) :
    ∃ o, scan (fun j => .ok (symAt c s j)) m i = .ok o := by
  induction m generalizing i with
  | zero => exact ⟨_, rfl⟩
  | succ m ih =>
    cases h : symAt c s i with
    | some t => exact ⟨some (i, t), by simp [scan, h]⟩
    | none =>
      obtain ⟨o, ho⟩ := ih (i + 1)
      exact ⟨o, by simpa [scan, h] using ho⟩

/-- The candidates of a `sym` that does not match: the insertion comes first, if there is one. -/
theorem sym_insert {c : τ} (l : String) (h : ∀ t, s[pos]? = some t → (t == c) = false) {k : Int}
    (hk : k ≠ 0) :
    ∃ r, RunRec env (.sym c l) s pos ctx ins (some k) (.ret (.recovered r)) ∧
      makeInsert k c pos ctx (ctx.getLoc s pos) l [l] ∈ r.repairs := by
  have h0 : symAt c s pos = none := by
    unfold symAt
    cases hs : s[pos]? with
    | none => rfl
    | some t => simp [h t hs]
  obtain ⟨o, ho⟩ := scan_sym_ok c s (s.length - (pos + 1)) (pos + 1)
  have key : ∃ r, symFn c l [l] s pos ctx ins (some k) = .ret (.recovered r) ∧
      makeInsert k c pos ctx (ctx.getLoc s pos) l [l] ∈ r.repairs := by
    simp only [symFn, h0, ho, Out.bind_def, Out.ofExcept_ok, Out.bind_ret]
    cases o with
    | none => exact ⟨_, rfl, by simp [hk]⟩
    | some x => exact ⟨_, rfl, by simp [hk]⟩
  obtain ⟨r, h1, h2⟩ := key
  exact ⟨r, ⟨0, h1⟩, h2⟩

/-- C52. The budget is for one place: after any candidate `x` of `p`, if `c` is missing where `x`
ends, `p + sym(c)` offers to insert it there iff `x` itself inserts fewer than `max_insertions`
tokens at that position; insertions elsewhere do not matter. -/
theorem C52_insertion_offered {k : Int} (hk : 0 ≤ k) {c : τ} {l : String} {merge : α → τ → γ}
    {rr : Recovered τ α} {y : Result τ γ}
    (h : Returns env p s (recovering k defaultGetLoc) (.recovered rr)) {x : Repair τ α}
    (hx : x ∈ rr.repairs) (hs : ∀ t, s[x.pos]? = some t → (t == c) = false)
    (hy : Returns env (.seqWith p (.sym c l) merge) s (recovering k defaultGetLoc) y) :
    ∃ r, y = .recovered r ∧
      ((∃ z ∈ r.repairs, z.edits = x.edits ++ [⟨x.pos, .insert l⟩] ∧ z.pos = x.pos ∧
          z.value = merge x.value c) ↔ (insertsAt x.pos x.edits : Int) < k) := by
  obtain ⟨r, rfl, -, -, -, -, hmem⟩ :=
    C53_candidates merge (Nat.zero_le _) (returns_recRun.1 h) (returns_recRun.1 hy)
  refine ⟨r, rfl, ?_, fun hlt => ?_⟩
  · rintro ⟨z, hz, he, -, -⟩
    have := C27_default hk hy z hz x.pos
    rw [he, insertsAt_append] at this
    have h1 : insertsAt x.pos [(⟨x.pos, .insert l⟩ : Edit)] = 1 := by simp [insertsAt]
    rw [h1] at this
    omega
  · have hl := C52_left hk h x hx
    obtain ⟨r', h1, h2⟩ := sym_insert (env := env) (pos := x.pos) (ctx := x.ctx) (ins := k) l hs
      (k := x.ins) (by omega)
    have hloc : (x.ctx.getLoc s x.pos).pos = x.pos := by
      obtain ⟨n, h⟩ := returns_recovering h
      have hf : RecFrame .. := frame_denote env n p s 0 _ _ _ _ (Nat.zero_le _) h
      have := (hf.reps x hx).ctx.2
      simp only [Ctx.getLoc, this, initCtx, defaultGetLoc]
    let z : Repair τ γ :=
      { cost := x.cost + 1, prio := x.prio, ins := x.ins - 1,
        ops := x.ops ++ x.opsAfter (makeInsert x.ins c x.pos x.ctx (x.ctx.getLoc s x.pos) l [l]),
        value := merge x.value c, pos := x.pos, ctx := x.ctx,
        expected := [], consumed := true }
    refine ⟨z, (hmem z).2 ⟨x, hx, _, h1, ?_⟩, ?_, rfl, rfl⟩
    · refine List.mem_map.2 ⟨_, h2, ?_⟩
      simp [z, makeInsert]
    · simp [z, Repair.edits, Repair.opsAfter, makeInsert, OpItem.edit, hloc]

end

/-! ### Examples -/

section
private abbrev a : P Char Empty (fun _ => Unit) Char := .sym 'a' "'a'"
private abbrev b : P Char Empty (fun _ => Unit) Char := .sym 'b' "'b'"

/-- C52: on `"x"`, `a + a` can be repaired by inserting twice at 0; with `max_insertions = 2` nothing
more can be inserted there then. -/
example : ∃ rr, Returns Samples.noEnv (.seq a a) "x".toList (recovering 2 defaultGetLoc)
      (.recovered rr) ∧
    ∃ x ∈ rr.repairs, x.edits = [⟨0, .insert "'a'"⟩, ⟨0, .insert "'a'"⟩] ∧ x.ins = 0 ∧
      insertsAt x.pos x.edits = 2 :=
  ⟨_, ⟨0, rfl⟩, _, List.mem_cons_self, rfl, rfl, rfl⟩

/-- C52: on `"ba"`, an insertion at 0 does not use up the budget at 2. -/
example : ∃ rr, Returns Samples.noEnv (.seq (.seq (.seq a b) a) b) "ba".toList
      (recovering 1 defaultGetLoc) (.recovered rr) ∧
    ∃ x ∈ rr.repairs, x.edits = [⟨0, .insert "'a'"⟩, ⟨2, .insert "'b'"⟩] :=
  ⟨_, ⟨0, rfl⟩, _, List.mem_cons_self, rfl⟩

/-- C53: on `"xab"`, the first part of `a + b` is repaired in two ways, and `b` goes on from each: it
is missing after the insertion, and found after the skip. -/
example : ∃ ra rr, RunRec Samples.noEnv a "xab".toList 0 (initCtx defaultGetLoc) 5 (some 5)
      (.ret (.recovered ra)) ∧ ra.repairs.length = 2 ∧
    RunRec Samples.noEnv (.seq a b) "xab".toList 0 (initCtx defaultGetLoc) 5 (some 5)
      (.ret (.recovered rr)) ∧
    rr.repairs.map Repair.edits =
      [[⟨0, .insert "'a'"⟩, ⟨0, .insert "'b'"⟩], [⟨0, .insert "'a'"⟩, ⟨0, .skip 2⟩],
       [⟨0, .skip 1⟩]] :=
  ⟨_, _, ⟨0, rfl⟩, rfl, ⟨0, rfl⟩, rfl⟩

/-- C54: `(a + b).many()` on `"abaxab"`: after the first item, the second one has begun and is
repaired; `many` goes on from each candidate. -/
example : ∃ r rr, Items Samples.noEnv (.seq a b) "abaxab".toList 0 (initCtx defaultGetLoc)
      [('a', 'b')] 2 (initCtx defaultGetLoc) ∧
    RunRec Samples.noEnv (.seq a b) "abaxab".toList 2 (initCtx defaultGetLoc) 5 none
      (.ret (.recovered r)) ∧
    r.repairs.map Repair.edits = [[⟨3, .insert "'b'"⟩], [⟨3, .skip 2⟩]] ∧
    RunRec Samples.noEnv (.many (.seq a b)) "abaxab".toList 0 (initCtx defaultGetLoc) 5 none
      (.ret (.recovered rr)) ∧
    rr.repairs.map Repair.value = [[('a', 'b'), ('a', 'b')], [('a', 'b'), ('a', 'b')]] :=
  ⟨_, _, .cons ⟨_, _, 0, rfl⟩ (by decide) .nil, ⟨0, rfl⟩, rfl, ⟨10, rfl⟩, rfl⟩

end

end Reparsec
