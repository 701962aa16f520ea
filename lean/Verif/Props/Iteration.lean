import Verif.Spec.Items
import Verif.Props.Sequencing
import Verif.Props.Choice

/-!
# C10, C11, C12: `many`, `sep_by`
-/

namespace Reparsec

variable {τ ρ : Type} {Γ : ρ → Type} {α β : Type} [BEq τ]
  {env : Env τ ρ Γ} {p : P τ ρ Γ α} {s : List τ} {i j : Nat} {c d : Ctx τ} {vs : List α}

/-- What the loop of `many` does from some point on. -/
def LoopRun (env : Env τ ρ Γ) (p : P τ ρ Γ α) (s : List τ) (i : Nat) (c : Ctx τ) (b : Bool)
    (vs : List α) (o : Out (Simple τ (List α))) : Prop :=
  Yields (fun n => manyFastLoop (denote env n p).fast s n i c b vs) o

theorem loopRun_step {b : Bool} {o} :
    LoopRun env p s i c b vs o ↔
      Yields (fun n => ((denote env n p).fast s i c).bind fun
        | .ok r =>
          if r.consumed then manyFastLoop (denote env n p).fast s n r.pos r.ctx true (vs ++ [r.value])
          else .raise manyExn
        | .error e =>
          if e.consumed then .ret (.error e)
          else .ret (.ok { value := vs, pos := i, ctx := c, expected := e.expected,
                           consumed := b })) o := by
  unfold LoopRun
  rw [Yields.shift (F := fun n m => manyFastLoop (denote env m p).fast s n i c b vs)]
  · exact Iff.rfl
  · intro n n' m m' hn hm
    exact manyFastLoop_le (denote_le env hm p).1 s hn i c b vs

theorem mono_loop (env : Env τ ρ Γ) (p : P τ ρ Γ α) (s : List τ) (i : Nat) (c : Ctx τ) (b : Bool)
    (vs : List α) : Mono (fun n => manyFastLoop (denote env n p).fast s n i c b vs) :=
  fun _ _ h => manyFastLoop_le (denote_le env h p).1 s h i c b vs

theorem loopRun_cons {b : Bool} {o} {r : Ok τ α} (h : RunPlain env p s i c (.ret (.ok r)))
    (hr : r.consumed = true) (hl : LoopRun env p s r.pos r.ctx true (vs ++ [r.value]) o) :
    LoopRun env p s i c b vs o := by
  rw [loopRun_step]
  refine Yields.bind (mono_fast env p s i c) h ?_ ?_
  · simp only [hr, if_true]; exact mono_loop env p s r.pos r.ctx true _
  · simp only [hr, if_true]; exact hl

theorem Reads.run {v : α} {k : Nat} {e : Ctx τ} (hi : i ≤ s.length) (h : Reads env p s i c v k e) :
    ∃ ex, RunPlain env p s i c (.ret (.ok ⟨v, k, e, ex, decide (i < k)⟩)) ∧ i ≤ k ∧ k ≤ s.length := by
  obtain ⟨ex, b, n, h⟩ := h
  have hf := frame_fast env n p hi h
  have := hf.consumed
  simp only at this
  exact ⟨ex, ⟨n, by rw [← this]; exact h⟩, hf.lo, hf.hi⟩

theorem loopRun_items (hi : i ≤ s.length) (h : Items env p s i c vs j d) {b : Bool}
    {us : List α} {o}
    (hl : LoopRun env p s j d (b || decide (i < j)) (us ++ vs) o) :
    LoopRun env p s i c b us o := by
  induction h generalizing b us with
  | nil => simpa using hl
  | @cons i c v k e vs j d h1 h2 h3 ih =>
    obtain ⟨ex, h4, h5, h6⟩ := h1.run hi
    refine loopRun_cons h4 (by simp [h2]) (ih h6 ?_)
    have hkj : k ≤ j := by
      clear ih h1 h4 hl
      induction h3 with
      | nil => exact Nat.le_refl _
      | cons h1 h2 h3 ih =>
        obtain ⟨_, _, h7, h8⟩ := h1.run h6
        have := ih (by omega) (by omega) h8
        omega
    have : decide (i < j) = true := by simp; omega
    rw [this] at hl
    simpa using hl

theorem Items.le (hi : i ≤ s.length) (h : Items env p s i c vs j d) : i ≤ j ∧ j ≤ s.length := by
  induction h with
  | nil => exact ⟨Nat.le_refl _, hi⟩
  | cons h1 h2 h3 ih =>
    obtain ⟨_, _, h7, h8⟩ := h1.run hi
    have := ih h8
    omega

/-- What `many` gives when it has read the items `vs` from `i` to `j` and then running `p` at `j`
ended in `o`, not being another item. -/
def afterItems (i : Nat) (vs : List α) (j : Nat) (d : Ctx τ) :
    Out (Simple τ α) → Out (Simple τ (List α))
  | .ret (.error e) =>
    if e.consumed then .ret (.error e)
    else .ret (.ok { value := vs, pos := j, ctx := d, expected := e.expected,
                     consumed := decide (i < j) })
  | .ret (.ok _) => .raise (.runtimeError "parser shouldn't accept empty string")
  | .raise e => .raise e
  | .diverge => .diverge

/-- C10, C11. `p.many()` reads items as long as `p` succeeds and advances. What `p` does then decides:
if it fails without consuming input, the items are returned; if it fails after consuming, raises or
hangs, so does `many`; if it succeeds without advancing, `many` raises `RuntimeError`. -/
theorem C10_many (hi : i ≤ s.length) (h : Items env p s i c vs j d) {o : Out (Simple τ α)}
    (ho : RunPlain env p s j d o) (hend : ∀ r, o = .ret (.ok r) → r.pos = j) :
    RunPlain env (.many p) s i c (afterItems i vs j d o) := by
  show LoopRun env p s i c false [] _
  refine loopRun_items hi h ?_
  rw [loopRun_step]
  cases o with
  | diverge => exact Yields.bind_diverge ho
  | raise e => exact Yields.bind_raise ho
  | ret x =>
    cases x with
    | error e =>
      refine Yields.bind (mono_fast env p s j d) ho (.const _) ?_
      simp only [afterItems]
      by_cases he : e.consumed <;> simp only [he, if_true, if_false, Bool.false_eq_true] <;>
        exact ⟨0, by simp⟩
    | ok r =>
      have hr : r.consumed = false := by
        obtain ⟨n, ho⟩ := ho
        have := (frame_fast env n p (h.le hi).2 ho).consumed
        rw [this, hend r rfl]; simp
      refine Yields.bind (mono_fast env p s j d) ho ?_ ?_
      · simp only [hr, Bool.false_eq_true, if_false]; exact .const _
      · simp only [hr, Bool.false_eq_true, if_false]; exact ⟨0, rfl⟩

/-- There is always a longest run of items. -/
theorem items_total (env : Env τ ρ Γ) (p : P τ ρ Γ α) (hi : i ≤ s.length) :
    ∃ vs j d o, Items env p s i c vs j d ∧ RunPlain env p s j d o ∧
      ∀ r, o = .ret (.ok r) → r.pos = j := by
  induction hk : s.length - i using Nat.strongRecOn generalizing i c with
  | ind k ih =>
    subst hk
    obtain ⟨o, ho⟩ := RunPlain.total env p s i c
    by_cases hr : ∃ r, o = .ret (.ok r) ∧ i < r.pos
    · obtain ⟨r, rfl, hr⟩ := hr
      have hf : r.pos ≤ s.length := by
        obtain ⟨n, ho⟩ := ho
        exact (frame_fast env n p hi ho).hi
      obtain ⟨vs, j, d, o', h1, h2, h3⟩ := ih (s.length - r.pos) (by omega) (c := r.ctx) hf rfl
      exact ⟨r.value :: vs, j, d, o', .cons ⟨_, _, ho⟩ hr h1, h2, h3⟩
    · refine ⟨[], i, c, o, .nil, ho, ?_⟩
      rintro r rfl
      obtain ⟨n, ho⟩ := ho
      have := (frame_fast env n p hi ho).lo
      have : ¬ i < r.pos := fun hlt => hr ⟨r, rfl, hlt⟩
      omega

/-- C10. `p.many()` succeeds with `vs` iff `p` reads the items `vs` and then fails without consuming
input; it ends where the last item ended. -/
theorem C10_success_iff (hi : i ≤ s.length) :
    Reads env (.many p) s i c vs j d ↔
      Items env p s i c vs j d ∧ ∃ e, Fails env p s j d e ∧ e.consumed = false := by
  constructor
  · rintro ⟨ex, b, h⟩
    obtain ⟨vs', j', d', o, h1, h2, h3⟩ := items_total env p (c := c) hi
    have := h.unique (C10_many hi h1 h2 h3)
    cases o with
    | diverge => simp [afterItems] at this
    | raise e => simp [afterItems] at this
    | ret x =>
      cases x with
      | ok r => simp [afterItems] at this
      | error e =>
        cases he : e.consumed with
        | true => simp [afterItems, he] at this
        | false =>
          simp only [afterItems, he, Bool.false_eq_true, if_false, Out.ret.injEq,
            Simple.ok.injEq, Ok.mk.injEq] at this
          obtain ⟨rfl, rfl, rfl, -⟩ := this
          exact ⟨h1, e, h2, he⟩
  · rintro ⟨h, e, he, hc⟩
    have := C10_many hi h he (by simp)
    simp only [afterItems, hc, Bool.false_eq_true, if_false] at this
    exact ⟨_, _, this⟩

/-- C10. `p.many()` fails iff `p`, after some items, fails after consuming input; with that error. -/
theorem C10_failure_iff (hi : i ≤ s.length) {e : Err} :
    Fails env (.many p) s i c e ↔
      ∃ vs j d, Items env p s i c vs j d ∧ Fails env p s j d e ∧ e.consumed = true := by
  constructor
  · intro h
    obtain ⟨vs, j, d, o, h1, h2, h3⟩ := items_total env p (c := c) hi
    have := RunPlain.unique h (C10_many hi h1 h2 h3)
    cases o with
    | diverge => simp [afterItems] at this
    | raise e => simp [afterItems] at this
    | ret x =>
      cases x with
      | ok r => simp [afterItems] at this
      | error e' =>
        cases he : e'.consumed with
        | false => simp [afterItems, he] at this
        | true =>
          simp only [afterItems, he, if_true, Out.ret.injEq, Simple.error.injEq] at this
          subst this
          exact ⟨vs, j, d, h1, h2, he⟩
  · rintro ⟨vs, j, d, h, he, hc⟩
    have := C10_many hi h he (by simp)
    simpa only [Fails, afterItems, hc, if_true] using this

/-- C11. `p.many()` raises iff, after some items, `p` raises, or succeeds without advancing: then it
is a `RuntimeError`. -/
theorem C11_raises_iff (hi : i ≤ s.length) {x : Exn} :
    RunPlain env (.many p) s i c (.raise x) ↔
      ∃ vs j d, Items env p s i c vs j d ∧
        (RunPlain env p s j d (.raise x) ∨
          (∃ v d', Reads env p s j d v j d') ∧
            x = .runtimeError "parser shouldn't accept empty string") := by
  constructor
  · intro h
    obtain ⟨vs, j, d, o, h1, h2, h3⟩ := items_total env p (c := c) hi
    have := RunPlain.unique h (C10_many hi h1 h2 h3)
    refine ⟨vs, j, d, h1, ?_⟩
    cases o with
    | diverge => simp [afterItems] at this
    | raise e => simp only [afterItems, Out.raise.injEq] at this; subst this; exact .inl h2
    | ret y =>
      cases y with
      | error e =>
        simp only [afterItems] at this
        split at this <;> simp at this
      | ok r =>
        simp only [afterItems, Out.raise.injEq] at this
        have hr := h3 r rfl
        obtain ⟨v, k, e, ex, b⟩ := r
        simp only at hr
        subst hr
        exact .inr ⟨⟨v, e, ex, b, h2⟩, this⟩
  · rintro ⟨vs, j, d, h, h' | ⟨⟨v, d', ex, b, h'⟩, rfl⟩⟩
    · exact C10_many hi h h' (by simp)
    · exact C10_many hi h h' (by simp +contextual)

/-- C10. `p.many()` does not return iff, after some items, `p` does not return. -/
theorem C10_hangs_iff (hi : i ≤ s.length) :
    RunPlain env (.many p) s i c .diverge ↔
      ∃ vs j d, Items env p s i c vs j d ∧ RunPlain env p s j d .diverge := by
  constructor
  · intro h
    obtain ⟨vs, j, d, o, h1, h2, h3⟩ := items_total env p (c := c) hi
    have := RunPlain.unique h (C10_many hi h1 h2 h3)
    refine ⟨vs, j, d, h1, ?_⟩
    cases o with
    | diverge => exact h2
    | raise e => simp [afterItems] at this
    | ret y =>
      cases y with
      | error e =>
        simp only [afterItems] at this
        split at this <;> simp at this
      | ok r => simp [afterItems] at this
  · rintro ⟨vs, j, d, h, h'⟩
    exact C10_many hi h h' (by simp)

/-- C11 with recovery: if, after some items, `p` succeeds without advancing, `p.many()` raises
`RuntimeError` in the recovery mode too, whatever the budget. -/
theorem C11_recovering (hi : i ≤ s.length) (h : Items env p s i c vs j d) {v : α} {d' : Ctx τ}
    (h' : Reads env p s j d v j d') (ins : Int) (rem : Option Int) :
    RunRec env (.many p) s i c ins rem
      (.raise (.runtimeError "parser shouldn't accept empty string")) := by
  obtain ⟨n, hn⟩ := (C11_raises_iff hi).2 ⟨vs, j, d, h, .inr ⟨⟨v, d', h'⟩, rfl⟩⟩
  exact ⟨n, (sim_denote env n _).raise hn ins rem⟩

/-- C11 with recovery, after a repair: `many` goes on from where a repair of an item ended; if going
on from the first repair raises, so does the whole. In particular (`C11_recovering`) if `p` accepts
the empty string there. -/
theorem C11_after_repair {ins : Int} {rem : Option Int} {r : Recovered τ α} {rep : Repair τ α}
    {reps : List (Repair τ α)} {x : Exn}
    (h : RunRec env p s i c ins none (.ret (.recovered r))) (hr : r.repairs = rep :: reps)
    (hx : RunRec env (.many p) s rep.pos rep.ctx ins none (.raise x)) :
    RunRec env (.many p) s i c ins rem (.raise x) := by
  obtain ⟨n, h⟩ := (show Yields _ _ from h).eventually (mono_fn env p s i c ins none) (by simp)
  obtain ⟨m, hx⟩ := (show Yields _ _ from hx).eventually
    (mono_fn env (.many p) s rep.pos rep.ctx ins none) (by simp)
  refine Yields.of_eq (n := n + m + 1) (by simp) ?_
  show manyLoop (denote env (n + m + 1) p).fn s ins (n + m + 1) i c false [] = _
  have h1 := h (n + m + 1) (by omega)
  simp only [manyLoop, h1, Out.bind_def, Out.bind_ret, continueParse, hr, contReps]
  have h2 : manyLoop (denote env (n + m) p).fn s ins (n + m) rep.pos rep.ctx false [] = .raise x :=
    hx (n + m) (by omega)
  have h3 := (manyLoop_le (denote_le env (Nat.le_succ (n + m)) p).2 s ins
    (Nat.le_refl (n + m)) rep.pos rep.ctx false []).eq (by rw [h2]; simp)
  rw [h3, h2]
  rfl

/-- `many(a)` on `"aab"`, and its items. -/
example : Items Samples.noEnv (.sym 'a' "'a'") "aab".toList 0 (initCtx defaultGetLoc) ['a', 'a'] 2
      (initCtx defaultGetLoc) ∧
    Fails Samples.noEnv (.sym 'a' "'a'") "aab".toList 2 (initCtx defaultGetLoc)
      ⟨⟨2, 0, 0⟩, ["'a'"], false⟩ :=
  ⟨.cons ⟨_, _, 0, rfl⟩ (by decide) (.cons ⟨_, _, 0, rfl⟩ (by decide) .nil), ⟨0, rfl⟩⟩

/-- `many(a.maybe())` on `"ab"`: the second item is empty. -/
example : Items Samples.noEnv (.maybe (.sym 'a' "'a'")) "ab".toList 0 (initCtx defaultGetLoc)
      [some 'a'] 1 (initCtx defaultGetLoc) ∧
    Reads Samples.noEnv (.maybe (.sym 'a' "'a'")) "ab".toList 1 (initCtx defaultGetLoc)
      none 1 (initCtx defaultGetLoc) :=
  ⟨.cons ⟨_, _, 0, rfl⟩ (by decide) .nil, ⟨_, _, 0, rfl⟩⟩

/-! ### `fmap`, `maybe` -/

/-- `p.fmap(f)` succeeds iff `p` does and `f` returns. -/
theorem reads_fmap {f : α → Except Exn β} {v : β} :
    Reads env (.fmap p f) s i c v j d ↔ ∃ a, Reads env p s i c a j d ∧ f a = .ok v := by
  constructor
  · rintro ⟨ex, b, n, h⟩
    simp only [denote, denoteWith, fmapFns, fmapFast, Out.bind_def, Out.bind_eq_ret] at h
    obtain ⟨x, h1, h2⟩ := h
    cases x with
    | error e => simp [Simple.fmapM] at h2
    | ok r =>
      simp only [Simple.fmapM, Ok.fmapM, Out.bind_def, Out.bind_eq_ret, Out.pure_def,
        Out.ret.injEq, Out.ofExcept_eq_ret, Simple.ok.injEq] at h2
      obtain ⟨r', ⟨v', h3, rfl⟩, h4⟩ := h2
      simp only [Ok.mk.injEq] at h4
      obtain ⟨rfl, rfl, rfl, rfl, rfl⟩ := h4
      exact ⟨r.value, ⟨_, _, n, h1⟩, h3⟩
  · rintro ⟨a, ⟨ex, b, n, h⟩, hf⟩
    refine ⟨ex, b, n, ?_⟩
    simp only [denote, denoteWith, fmapFns, fmapFast] at h ⊢
    simp [h, Simple.fmapM, Ok.fmapM, hf]

theorem fails_fmap {f : α → Except Exn β} {e : Err} :
    Fails env (.fmap p f) s i c e ↔ Fails env p s i c e := by
  constructor
  · rintro ⟨n, h⟩
    simp only [denote, denoteWith, fmapFns, fmapFast, Out.bind_def, Out.bind_eq_ret] at h
    obtain ⟨x, h1, h2⟩ := h
    cases x with
    | error e' => simp [Simple.fmapM] at h2; subst h2; exact ⟨n, h1⟩
    | ok r =>
      simp only [Simple.fmapM, Ok.fmapM, Out.bind_def, Out.bind_eq_ret, Out.pure_def,
        Out.ret.injEq, Out.ofExcept_eq_ret] at h2
      obtain ⟨r', ⟨v', h3, rfl⟩, h4⟩ := h2
      simp at h4
  · rintro ⟨n, h⟩
    refine ⟨n, ?_⟩
    simp only [denote, denoteWith, fmapFns, fmapFast] at h ⊢
    simp [h, Simple.fmapM]

/-- `p.maybe()` succeeds iff `p` succeeds, or fails without consuming. -/
theorem reads_maybe {v : Option α} :
    Reads env (.maybe p) s i c v j d ↔ (∃ a, Reads env p s i c a j d ∧ v = some a) ∨
      ((∃ e, Fails env p s i c e ∧ e.consumed = false) ∧ v = none ∧ j = i ∧ d = c) := by
  constructor
  · rintro ⟨ex, b, n, h⟩
    simp only [denote, denoteWith, maybeFns, maybeFast, Out.bind_def, Out.bind_eq_ret] at h
    obtain ⟨x, h1, h2⟩ := h
    cases x with
    | error e =>
      cases he : e.consumed with
      | true => simp [he] at h2
      | false =>
        simp only [he, Bool.false_eq_true, if_false, Out.ret.injEq, Simple.ok.injEq,
          Ok.mk.injEq] at h2
        obtain ⟨rfl, rfl, rfl, -⟩ := h2
        exact .inr ⟨⟨e, ⟨n, h1⟩, he⟩, rfl, rfl, rfl⟩
    | ok r =>
      simp only [Ok.fmap, Out.ret.injEq, Simple.ok.injEq, Ok.mk.injEq] at h2
      obtain ⟨rfl, rfl, rfl, rfl, rfl⟩ := h2
      exact .inl ⟨r.value, ⟨_, _, n, h1⟩, rfl⟩
  · rintro (⟨a, ⟨ex, b, n, h⟩, rfl⟩ | ⟨⟨e, ⟨n, h⟩, hc⟩, rfl, rfl, rfl⟩)
    · refine ⟨ex, b, n, ?_⟩
      simp only [denote, denoteWith, maybeFns, maybeFast] at h ⊢
      simp [h, Ok.fmap]
    · refine ⟨e.expected, false, n, ?_⟩
      simp only [denote, denoteWith, maybeFns, maybeFast] at h ⊢
      simp [h, hc]

theorem fails_maybe {e : Err} :
    Fails env (.maybe p) s i c e ↔ Fails env p s i c e ∧ e.consumed = true := by
  constructor
  · rintro ⟨n, h⟩
    simp only [denote, denoteWith, maybeFns, maybeFast, Out.bind_def, Out.bind_eq_ret] at h
    obtain ⟨x, h1, h2⟩ := h
    cases x with
    | ok r => simp at h2
    | error e' =>
      cases he : e'.consumed with
      | false => simp [he] at h2
      | true =>
        simp only [he, if_true, Out.ret.injEq, Simple.error.injEq] at h2
        subst h2
        exact ⟨⟨n, h1⟩, he⟩
  · rintro ⟨⟨n, h⟩, hc⟩
    refine ⟨n, ?_⟩
    simp only [denote, denoteWith, maybeFns, maybeFast] at h ⊢
    simp [h, hc]

/-! ### `sep_by` -/

variable {sep : P τ ρ Γ β}

theorem items_seq (hi : i ≤ s.length) {ts : List (β × α)} :
    Items env (sep.seq p) s i c ts j d ↔ Tail env sep p s i c ts j d := by
  constructor
  · intro h
    induction h with
    | nil => exact .nil
    | cons h1 h2 h3 ih =>
      obtain ⟨k, e, h4, h5⟩ := (C15_seq hi).1 h1
      exact .cons h4 h5 h2 (ih (h1.le hi))
  · intro h
    induction h with
    | nil => exact .nil
    | cons h1 h2 h3 h4 ih =>
      have := (C15_seq hi (v := (_, _))).2 ⟨_, _, h1, h2⟩
      exact .cons this h3 (ih (this.le hi))

theorem items_seqr (hi : i ≤ s.length) :
    Items env (sep.seqr p) s i c vs j d ↔
      ∃ ts, Tail env sep p s i c ts j d ∧ vs = ts.map Prod.snd := by
  constructor
  · intro h
    induction h with
    | nil => exact ⟨[], .nil, rfl⟩
    | cons h1 h2 h3 ih =>
      obtain ⟨b, k, e, h4, h5⟩ := (C15_seqr hi).1 h1
      obtain ⟨ts, h6, rfl⟩ := ih (h1.le hi)
      exact ⟨_, .cons h4 h5 h2 h6, rfl⟩
  · rintro ⟨ts, h, rfl⟩
    induction h with
    | nil => exact .nil
    | cons h1 h2 h3 h4 ih =>
      have := (C15_seqr hi).2 ⟨_, _, _, h1, h2⟩
      exact .cons this h3 (ih (this.le hi))

/-- Nothing more follows at `j`: `sep` fails there without consuming input (or it accepts the empty
string and `p` fails without consuming input). -/
def NoMore (env : Env τ ρ Γ) (sep : P τ ρ Γ β) (p : P τ ρ Γ α) (s : List τ) (j : Nat)
    (d : Ctx τ) : Prop :=
  (∃ e, Fails env sep s j d e ∧ e.consumed = false) ∨
  ∃ b d', Reads env sep s j d b j d' ∧ ∃ e, Fails env p s j d' e ∧ e.consumed = false

theorem noMore_iff {γ : Type} {merge : β → α → γ} (hj : j ≤ s.length) :
    (∃ e, Fails env (.seqWith sep p merge) s j d e ∧ e.consumed = false) ↔
      NoMore env sep p s j d := by
  constructor
  · rintro ⟨e, h, hc⟩
    rcases (C15_failure_iff hj).1 h with h | ⟨ra, e', h1, h2, -, -, h3⟩
    · exact .inl ⟨e, h, hc⟩
    · rw [hc] at h3
      have ha : ra.consumed = false := by
        cases hx : ra.consumed <;> simp [hx] at h3 ⊢
      have hb : e'.consumed = false := by
        cases hx : e'.consumed <;> simp [hx] at h3 ⊢
      have hp : ra.pos = j := by
        obtain ⟨n, h1⟩ := h1
        have hf := frame_fast env n sep hj h1
        have h4 := hf.consumed
        have h5 := hf.lo
        rw [ha] at h4
        have : ¬ j < ra.pos := by intro hlt; simp [hlt] at h4
        omega
      obtain ⟨v, k, f, ex, b⟩ := ra
      simp only at hp
      subst hp
      exact .inr ⟨v, f, ⟨ex, b, h1⟩, e', h2, hb⟩
  · rintro (⟨e, h, hc⟩ | ⟨b, d', h, e, h', hc⟩)
    · exact ⟨e, C15_first_fails h, hc⟩
    · obtain ⟨ex, h1, -, -⟩ := h.run hj
      exact ⟨⟨e.loc, ex ++ e.expected, false⟩, (C15_failure_iff hj).2
        (.inr ⟨_, e, h1, h', rfl, by simp [hc], by simp [hc]⟩), rfl⟩

theorem many_tail_iff (hi : i ≤ s.length) {ts : List (β × α)} :
    Reads env (.many (sep.seq p)) s i c ts j d ↔
      Tail env sep p s i c ts j d ∧ NoMore env sep p s j d := by
  rw [C10_success_iff hi, items_seq hi]
  constructor
  · rintro ⟨h, h'⟩
    have hj := (((items_seq hi).2 h).le hi).2
    exact ⟨h, (noMore_iff hj).1 h'⟩
  · rintro ⟨h, h'⟩
    have hj := (((items_seq hi).2 h).le hi).2
    exact ⟨h, (noMore_iff hj).2 h'⟩

/-- C12. `p.sep_by(sep)` gives `[]` iff `p` fails without consuming input. -/
theorem C12_empty_iff (hi : i ≤ s.length) :
    Reads env (p.sepBy sep) s i c [] j d ↔
      (∃ e, Fails env p s i c e ∧ e.consumed = false) ∧ j = i ∧ d = c := by
  rw [P.sepBy, P.map, reads_fmap]
  constructor
  · rintro ⟨a, h0, ha⟩
    rcases reads_maybe.1 h0 with ⟨a', h, rfl⟩ | ⟨⟨e, h, hc⟩, rfl, rfl, rfl⟩
    · simp at ha
    · refine ⟨?_, rfl, rfl⟩
      rcases (C15_failure_iff hi).1 h with h | ⟨ra, e', h1, h2, -, -, h3⟩
      · exact ⟨e, h, hc⟩
      · have hpa : ra.pos ≤ s.length := by
          obtain ⟨n, h1⟩ := h1
          exact (frame_fast env n p hi h1).hi
        obtain ⟨_, _, _, -, -, h4⟩ := (C10_failure_iff hpa).1 h2
        rw [h4, hc] at h3
        simp at h3
  · rintro ⟨⟨e, h, hc⟩, rfl, rfl⟩
    exact ⟨none, reads_maybe.2 (.inr ⟨⟨e, C15_first_fails h, hc⟩, rfl, rfl, rfl⟩), rfl⟩

/-- C12. `p.sep_by(sep)` gives `[v, v1, .. vn]` iff `p`, then `n` times `sep` followed by `p`, succeed
with these values, and nothing more follows. -/
theorem C12_items_iff (hi : i ≤ s.length) {v : α} :
    Reads env (p.sepBy sep) s i c (v :: vs) j d ↔
      ∃ k e ts, Reads env p s i c v k e ∧ Tail env sep p s k e ts j d ∧ vs = ts.map Prod.snd ∧
        NoMore env sep p s j d := by
  rw [P.sepBy, P.map, reads_fmap]
  constructor
  · rintro ⟨a, h0, ha⟩
    rcases reads_maybe.1 h0 with ⟨a', h, rfl⟩ | ⟨-, rfl, rfl, rfl⟩
    · simp only [List.cons_append, List.nil_append, Except.ok.injEq, List.cons.injEq] at ha
      obtain ⟨rfl, rfl⟩ := ha
      obtain ⟨k, e, h1, h2⟩ := (C15_seq hi).1 h
      obtain ⟨h3, h4⟩ := (C10_success_iff (h1.le hi)).1 h2
      obtain ⟨ts, h5, h6⟩ := (items_seqr (h1.le hi)).1 h3
      exact ⟨k, e, ts, h1, h5, h6, (noMore_iff (h3.le (h1.le hi)).2).1 h4⟩
    · simp at ha
  · rintro ⟨k, e, ts, h1, h2, rfl, h3⟩
    have h4 := (items_seqr (h1.le hi)).2 ⟨ts, h2, rfl⟩
    refine ⟨some (v, ts.map Prod.snd), reads_maybe.2 (.inl ⟨_, ?_, rfl⟩), rfl⟩
    exact (C15_seq hi).2 ⟨k, e, h1, (C10_success_iff (h1.le hi)).2
      ⟨h4, (noMore_iff (h4.le (h1.le hi)).2).2 h3⟩⟩

/-- C12. A separator that is consumed and not followed by an item makes it fail, at the location where
the item is missing. -/
theorem C12_dangling (hi : i ≤ s.length) {v : α} {k : Nat} {e : Ctx τ} {ts : List (β × α)} {b : β}
    {l : Nat} {f : Ctx τ} {err : Err} (h : Reads env p s i c v k e)
    (ht : Tail env sep p s k e ts j d) (hs : Reads env sep s j d b l f) (hl : j < l)
    (he : Fails env p s l f err) :
    ∃ err', Fails env (p.sepBy sep) s i c err' ∧ err'.loc = err.loc ∧ err'.consumed = true := by
  have hk := h.le hi
  have hit := (items_seqr hk).2 ⟨ts, ht, rfl⟩
  have hj := (hit.le hk).2
  obtain ⟨ex, h1, -, -⟩ := h.run hi
  obtain ⟨ex', h2, -, -⟩ := hs.run hj
  have h3 : Fails env (sep.seqr p) s j d
      ⟨err.loc, if err.consumed then err.expected else ex' ++ err.expected, true⟩ :=
    (C15_failure_iff hj).2 (.inr ⟨_, err, h2, he, rfl, rfl, by simp [hl]⟩)
  have h4 := (C10_failure_iff hk).2 ⟨_, _, _, hit, h3, rfl⟩
  have h5 : Fails env (p.seq (.many (sep.seqr p))) s i c
      ⟨err.loc, if err.consumed then err.expected else ex' ++ err.expected, true⟩ :=
    (C15_failure_iff hi).2 (.inr ⟨_, _, h1, h4, rfl, by simp, by simp⟩)
  exact ⟨_, fails_fmap.2 (fails_maybe.2 ⟨h5, rfl⟩), rfl, rfl⟩

/-- `a.sep_by(",")` on `"a,a"`, on `"x"`, and on `"a,x"`. -/
example : Reads Samples.noEnv (.sepBy (.sym 'a' "'a'") (.sym ',' "','")) "a,a".toList 0
      (initCtx defaultGetLoc) ['a', 'a'] 3 (initCtx defaultGetLoc) ∧
    Reads Samples.noEnv (.sepBy (.sym 'a' "'a'") (.sym ',' "','")) "x".toList 0
      (initCtx defaultGetLoc) [] 0 (initCtx defaultGetLoc) ∧
    Fails Samples.noEnv (.sepBy (.sym 'a' "'a'") (.sym ',' "','")) "a,x".toList 0
      (initCtx defaultGetLoc) ⟨⟨2, 0, 0⟩, ["'a'"], true⟩ :=
  ⟨⟨_, _, 5, rfl⟩, ⟨_, _, 5, rfl⟩, ⟨5, rfl⟩⟩

/-! ### `chainl1`, `chainr1` -/

/-- The left fold: `(..((a f1 a1) f2 a2)..)`. -/
def leftFold (a : α) (ts : List ((α → α → Except Exn α) × α)) : Except Exn α :=
  ts.foldlM (fun x t => t.1 x t.2) a

/-- The right fold: `a f1 (a1 f2 (.. an))`. -/
def rightFold : α → List ((α → α → Except Exn α) × α) → Except Exn α
  | a, [] => .ok a
  | a, (f, b) :: ts => do
    let r ← rightFold b ts
    f a r

theorem chainlReduce_eq (a : α) (ts : List ((α → α → Except Exn α) × α)) :
    P.chainlReduce a ts = leftFold a ts := by
  induction ts generalizing a with
  | nil => rfl
  | cons t ts ih =>
    obtain ⟨f, b⟩ := t
    simp only [P.chainlReduce, leftFold, List.foldlM_cons]
    cases f a b with
    | error e => rfl
    | ok r => exact ih r

theorem chainrApply_append (a : α) (l l' : List (α × (α → α → Except Exn α))) :
    P.chainrApply a (l ++ l') = (P.chainrApply a l).bind fun r => P.chainrApply r l' := by
  induction l generalizing a with
  | nil => rfl
  | cons t l ih =>
    obtain ⟨b, f⟩ := t
    simp only [List.cons_append, P.chainrApply]
    cases f b a with
    | error e => rfl
    | ok r => exact ih r

theorem chainrSplit_eq (a : α) (ts : List ((α → α → Except Exn α) × α))
    (acc : List (α × (α → α → Except Exn α))) :
    P.chainrApply (P.chainrSplit a ts acc).1 (P.chainrSplit a ts acc).2.reverse
      = (rightFold a ts).bind fun r => P.chainrApply r acc.reverse := by
  induction ts generalizing a acc with
  | nil => rfl
  | cons t ts ih =>
    obtain ⟨f, b⟩ := t
    simp only [P.chainrSplit, ih, List.reverse_append, List.reverse_cons, List.reverse_nil,
      List.nil_append, List.singleton_append, rightFold, P.chainrApply]
    show _ = Except.bind (Except.bind (rightFold b ts) fun r => f a r) _
    cases rightFold b ts with
    | error e => rfl
    | ok r =>
      show (match f a r with | .error e => Except.error e | .ok res' => _) = Except.bind (f a r) _
      cases f a r <;> rfl

theorem chainrReduce_eq (a : α) (ts : List ((α → α → Except Exn α) × α)) :
    P.chainrReduce a ts = rightFold a ts := by
  rw [P.chainrReduce, chainrSplit_eq]
  cases rightFold a ts <;> rfl

section chain

variable {arg : P τ ρ Γ α} {op : P τ ρ Γ (α → α → Except Exn α)} {v : α}

/-- C13, both modes: `arg.chainl1(op)` parses `arg`, then any number of `op` followed by `arg`, and
folds to the left, also in each candidate repair. -/
theorem C13_same (env : Env τ ρ Γ) (arg : P τ ρ Γ α) (op : P τ ρ Γ (α → α → Except Exn α)) :
    Same env (arg.chainl1 op)
      (.fmap (arg.seq (.many (op.seq arg))) fun v => leftFold v.1 v.2) := by
  simp only [P.chainl1, chainlReduce_eq]
  exact .refl _

/-- C14, both modes. -/
theorem C14_same (env : Env τ ρ Γ) (arg : P τ ρ Γ α) (op : P τ ρ Γ (α → α → Except Exn α)) :
    Same env (arg.chainr1 op)
      (.fmap (arg.seq (.many (op.seq arg))) fun v => rightFold v.1 v.2) := by
  simp only [P.chainr1, chainrReduce_eq]
  exact .refl _

theorem chain_iff (hi : i ≤ s.length) {f : α → List ((α → α → Except Exn α) × α) → Except Exn α} :
    Reads env (.fmap (arg.seq (.many (op.seq arg))) fun v => f v.1 v.2) s i c v j d ↔
      ∃ a k e ts, Reads env arg s i c a k e ∧ Tail env op arg s k e ts j d ∧
        NoMore env op arg s j d ∧ f a ts = .ok v := by
  rw [reads_fmap]
  constructor
  · rintro ⟨a, h, hf⟩
    obtain ⟨k, e, h1, h2⟩ := (C15_seq hi).1 h
    obtain ⟨h3, h4⟩ := (many_tail_iff (h1.le hi)).1 h2
    exact ⟨_, k, e, _, h1, h3, h4, hf⟩
  · rintro ⟨a, k, e, ts, h1, h2, h3, hf⟩
    exact ⟨(a, ts), (C15_seq hi).2 ⟨k, e, h1, (many_tail_iff (h1.le hi)).2 ⟨h2, h3⟩⟩, hf⟩

/-- C13. Without recovery `arg.chainl1(op)` succeeds iff it reads an operand and then any number of
operator, operand pairs after which nothing more follows, and the left fold does not raise; its value
is the left fold. -/
theorem C13_chainl1_iff (hi : i ≤ s.length) :
    Reads env (arg.chainl1 op) s i c v j d ↔
      ∃ a k e ts, Reads env arg s i c a k e ∧ Tail env op arg s k e ts j d ∧
        NoMore env op arg s j d ∧ leftFold a ts = .ok v := by
  simp only [P.chainl1, chainlReduce_eq]
  exact chain_iff hi

/-- C14. Likewise `arg.chainr1(op)` and the right fold. -/
theorem C14_chainr1_iff (hi : i ≤ s.length) :
    Reads env (arg.chainr1 op) s i c v j d ↔
      ∃ a k e ts, Reads env arg s i c a k e ∧ Tail env op arg s k e ts j d ∧
        NoMore env op arg s j d ∧ rightFold a ts = .ok v := by
  simp only [P.chainr1, chainrReduce_eq]
  exact chain_iff hi

theorem chain_raises (hi : i ≤ s.length) {f : α → List ((α → α → Except Exn α) × α) → Except Exn α}
    {a k e ts x} (h1 : Reads env arg s i c a k e) (h2 : Tail env op arg s k e ts j d)
    (h3 : NoMore env op arg s j d) (hf : f a ts = .error x) :
    RunPlain env (.fmap (arg.seq (.many (op.seq arg))) fun v => f v.1 v.2) s i c (.raise x) := by
  obtain ⟨ex, b, n, h⟩ :=
    (C15_seq hi (v := (a, ts))).2 ⟨k, e, h1, (many_tail_iff (h1.le hi)).2 ⟨h2, h3⟩⟩
  refine ⟨n, ?_⟩
  have h : (denote env n (arg.seq (.many (op.seq arg)))).fast s i c = _ := h
  show fmapFast _ _ s i c = _
  simp only [fmapFast, Out.bind_def]
  erw [h]
  simp [Simple.fmapM, Ok.fmapM, hf]

/-- C13. If an operator raises during the left fold, `chainl1` raises that exception. -/
theorem C13_raises (hi : i ≤ s.length) {a k e ts x} (h1 : Reads env arg s i c a k e)
    (h2 : Tail env op arg s k e ts j d) (h3 : NoMore env op arg s j d)
    (hf : leftFold a ts = .error x) : RunPlain env (arg.chainl1 op) s i c (.raise x) := by
  simp only [P.chainl1, chainlReduce_eq]
  exact chain_raises hi h1 h2 h3 hf

/-- C14. If an operator raises during the right fold, `chainr1` raises that exception. -/
theorem C14_raises (hi : i ≤ s.length) {a k e ts x} (h1 : Reads env arg s i c a k e)
    (h2 : Tail env op arg s k e ts j d) (h3 : NoMore env op arg s j d)
    (hf : rightFold a ts = .error x) : RunPlain env (arg.chainr1 op) s i c (.raise x) := by
  simp only [P.chainr1, chainrReduce_eq]
  exact chain_raises hi h1 h2 h3 hf

end chain

namespace Samples

/-- A digit. -/
def digit : P Char Empty (fun _ => Unit) Int :=
  .map (.satisfy fun c => .ok c.isDigit) fun c => (c.toNat : Int) - 48

/-- The operator `-`. -/
def minus : P Char Empty (fun _ => Unit) (Int → Int → Except Exn Int) :=
  .map (.sym '-' "'-'") fun _ => fun a b => .ok (a - b)

/-- `7-2-1`: `(7-2)-1 = 4` and `7-(2-1) = 6`. -/
example : run noEnv (digit.chainl1 minus) "7-2-1" false false = .ret (.ok 4) := rfl
example : run noEnv (digit.chainr1 minus) "7-2-1" false false = .ret (.ok 6) := rfl

end Samples

end Reparsec
