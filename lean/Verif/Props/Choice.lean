import Verif.Lemmas.Yields
import Verif.Lemmas.Frame
import Verif.Props.Laws

/-!
# C07, C08, C29: choice and `attempt`
-/

namespace Reparsec

variable {τ ρ : Type} {Γ : ρ → Type} {α : Type} [BEq τ]
  {env : Env τ ρ Γ} {p q : P τ ρ Γ α} {s : List τ} {pos : Nat} {ctx : Ctx τ} {ins : Int}
  {rem : Option Int}

section plain

/-- C07. If `p` succeeds, `p | q` gives its outcome. -/
theorem C07_first_success {r : Ok τ α} (h : RunPlain env p s pos ctx (.ret (.ok r))) :
    RunPlain env (.alt p q) s pos ctx (.ret (.ok r)) := by
  obtain ⟨n, h⟩ := h
  exact ⟨n, by simp [denote, denoteWith, altFns, altFast] at h ⊢; simp [h]⟩

/-- C07. If `p` fails after consuming input, `p | q` gives its error. -/
theorem C07_first_committed {e : Err} (h : RunPlain env p s pos ctx (.ret (.error e)))
    (hc : e.consumed = true) : RunPlain env (.alt p q) s pos ctx (.ret (.error e)) := by
  obtain ⟨n, h⟩ := h
  exact ⟨n, by simp [denote, denoteWith, altFns, altFast] at h ⊢; simp [h, hc]⟩

/-- C07. If `p` raises, so does `p | q`. -/
theorem C07_first_raises {e : Exn} (h : RunPlain env p s pos ctx (.raise e)) :
    RunPlain env (.alt p q) s pos ctx (.raise e) := by
  obtain ⟨n, h⟩ := h
  exact ⟨n, by simp [denote, denoteWith, altFns, altFast] at h ⊢; simp [h]⟩

/-- C07. If `p` does not return, neither does `p | q`. -/
theorem C07_first_hangs (h : RunPlain env p s pos ctx .diverge) :
    RunPlain env (.alt p q) s pos ctx .diverge := by
  intro n
  have := h n
  simp [denote, denoteWith, altFns, altFast] at this ⊢
  simp [this]

/-- What `p | q` gives when `p` failed with `e` without consuming, and running `q` ended in `o`. -/
def afterFailure (e : Err) : Out (Simple τ α) → Out (Simple τ α)
  | .ret (.ok r) =>
    .ret (.ok (if r.consumed then r else { r with expected := e.expected ++ r.expected }))
  | .ret (.error e') =>
    .ret (.error (if e'.consumed then e'
      else { loc := e.loc, expected := e.expected ++ e'.expected, consumed := false }))
  | o => o

/-- C07. If `p` fails without consuming input, `q` is run from the same position; what it gives is
the outcome, except that if `q` consumed nothing, `p`'s expected descriptions come first, and if
both failed, the location is `p`'s. -/
theorem C07_second {e : Err} {o : Out (Simple τ α)}
    (h : RunPlain env p s pos ctx (.ret (.error e))) (hc : e.consumed = false)
    (hq : RunPlain env q s pos ctx o) :
    RunPlain env (.alt p q) s pos ctx (afterFailure e o) := by
  show Yields (fun n => altFast (denote env n p) (denote env n q) s pos ctx) _
  simp only [altFast, Out.bind_def]
  refine Yields.bind (mono_fast env p s pos ctx) h ?_ ?_
  · simp only [hc, Bool.false_eq_true, if_false]
    exact (mono_fast env q s pos ctx).bind fun _ => .const _
  · simp only [hc, Bool.false_eq_true, if_false]
    cases o with
    | diverge => exact Yields.bind_diverge hq
    | raise e => exact Yields.bind_raise hq
    | ret x =>
      refine Yields.bind (mono_fast env q s pos ctx) hq (.const _) ?_
      cases x with
      | ok r =>
        simp only [afterFailure]
        by_cases hr : r.consumed <;> simp only [hr, if_true, if_false, Bool.false_eq_true] <;>
          simp [Yields, Ok.setExpected, hr]
      | error e' =>
        simp only [afterFailure]
        by_cases hr : e'.consumed <;> simp only [hr, if_true, if_false, Bool.false_eq_true] <;>
          simp [Yields]

/-- A choice in which the first alternative fails without consuming, and the second too. -/
example : RunPlain Samples.noEnv (.sym 'a' "'a'") "c".toList 0 (initCtx defaultGetLoc)
      (.ret (.error ⟨⟨0, 0, 0⟩, ["'a'"], false⟩)) ∧
    RunPlain Samples.noEnv (.alt (.sym 'a' "'a'") (.sym 'b' "'b'")) "c".toList 0
      (initCtx defaultGetLoc) (.ret (.error ⟨⟨0, 0, 0⟩, ["'a'", "'b'"], false⟩)) :=
  ⟨⟨0, rfl⟩, ⟨0, rfl⟩⟩

/-- A choice in which the first alternative consumes and fails. -/
example : RunPlain Samples.noEnv Samples.ab "ac".toList 0 (initCtx defaultGetLoc)
      (.ret (.error ⟨⟨1, 0, 0⟩, ["'b'"], true⟩)) :=
  ⟨0, rfl⟩

end plain

section recovering

/-- C07 with recovery: a success of `p`, and a failure or repair of `p` after consuming input, is
the outcome of `p | q`; `q` plays no role. (`rem = none` is how alternatives are tried.) -/
theorem C07_recovering_first {x : Result τ α} (h : RunRec env p s pos ctx ins none (.ret x))
    (hc : (∃ r, x = .ok r) ∨ x.consumed = true) :
    RunRec env (.alt p q) s pos ctx ins rem (.ret x) := by
  obtain ⟨n, h⟩ := h
  refine ⟨n, altFn_none h ?_⟩
  rcases hc with ⟨r, rfl⟩ | hc
  · rfl
  · cases x <;> simp_all [Result.failed, Result.consumed]

/-- C07 with recovery: if `p` failed without consuming, a success of `q`, and a failure or repair of
`q` after consuming input, is the outcome, with `p`'s expected descriptions in front if `q` succeeded
without consuming. -/
theorem C07_recovering_second {x y : Result τ α} (h : RunRec env p s pos ctx ins none (.ret x))
    (hx : ∀ r, x ≠ .ok r) (hc : x.consumed = false)
    (hq : RunRec env q s pos ctx ins none (.ret y))
    (hy : (∃ r, y = .ok r) ∨ y.consumed = true) :
    RunRec env (.alt p q) s pos ctx ins rem (.ret (match y with
      | .ok r => .ok (if r.consumed then r else { r with expected := x.expected ++ r.expected })
      | y => y)) := by
  obtain ⟨n, h⟩ := (show Yields _ _ from h).eventually (mono_fn env p s pos ctx ins none) (by simp)
  obtain ⟨n', hq⟩ :=
    (show Yields _ _ from hq).eventually (mono_fn env q s pos ctx ins none) (by simp)
  have h := h (max n n') (by omega)
  have hq := hq (max n n') (by omega)
  refine ⟨max n n', ?_⟩
  have hxf : ∃ l, x.failed = some (l, x.expected) := by
    cases x with
    | ok r => exact absurd rfl (hx r)
    | error e =>
      have hc : e.consumed = false := hc
      exact ⟨e.loc, by simp [Result.failed, hc, Result.expected]⟩
    | recovered e =>
      have hc : e.consumed = false := hc
      exact ⟨e.loc, by simp [Result.failed, hc, Result.expected]⟩
  obtain ⟨l, hxf⟩ := hxf
  have hyf : y.failed = none := by
    rcases hy with ⟨r, rfl⟩ | hy
    · rfl
    · cases y <;> simp_all [Result.failed, Result.consumed]
  have := altFn_some (q := denote env (max n n') q) (rem := rem) h hxf
  rw [altSecond_none hq hyf] at this
  refine this.trans ?_
  cases y with
  | ok r => by_cases hr : r.consumed <;> simp [Result.joinEx, hr]
  | error e => rfl
  | recovered e => rfl

/-- What is observable of a candidate repair besides expected descriptions. -/
def Repair.core (r : Repair τ α) :=
  (r.cost, r.prio, r.ins, r.value, r.pos, r.ctx, r.ops.map fun i => (i.op, i.loc))

omit [BEq τ] in
theorem Repair.core_setExpected (e : List String) (r : Repair τ α) :
    (r.setExpected e).core = r.core := by
  simp only [Repair.core, Repair.setExpected, opsSetExpected, List.map_map]
  congr 6
  apply List.map_congr_left
  intro i _
  simp

omit [BEq τ] in
theorem core_setExpected (e : List String) (l : List (Repair τ α)) :
    (l.map (Repair.setExpected e)).map Repair.core = l.map Repair.core := by
  rw [List.map_map]
  exact List.map_congr_left fun x _ => Repair.core_setExpected e x

/-- The repairs that a result offers, if it offers repairs. -/
def Result.offers : Result τ α → Option (List (Repair τ α))
  | .recovered r => some r.repairs
  | _ => none

/-- What `p | q` offers, if `p` offers `a` and `q` offers `b`: all of `p`'s and then those of `q`'s
that do not start with an automatic insertion (`prio` is `None` for exactly those); if only one of
them offers repairs, those. -/
def choiceOffers (a b : Option (List (Repair τ α))) : Option (List (Repair τ α)) :=
  match a, b with
  | some a, some b => some (a ++ b.filter fun r => r.prio.isSome)
  | some a, none => some a
  | none, b => b

/-- C29. Both alternatives fail without consuming input: what `p | q` offers, in terms of what `p`
and `q` offer. -/
theorem C29_choice_repairs (hp : pos ≤ s.length) {k : Int} {x y x' y' : Result τ α}
    (hx : RunRec env p s pos ctx ins none (.ret x)) (hxo : ∀ r, x ≠ .ok r)
    (hxc : x.consumed = false)
    (hy : RunRec env q s pos ctx ins none (.ret y)) (hyo : ∀ r, y ≠ .ok r)
    (hyc : y.consumed = false)
    (hx' : RunRec env p s pos ctx ins (some k) (.ret x'))
    (hy' : RunRec env q s pos ctx ins (some k) (.ret y')) :
    ∃ r, RunRec env (.alt p q) s pos ctx ins (some k) (.ret r) ∧ (∀ o, r ≠ .ok o) ∧
      r.offers.map (List.map Repair.core) =
        (choiceOffers x'.offers y'.offers).map (List.map Repair.core) := by
  obtain ⟨n1, hx⟩ := (show Yields _ _ from hx).eventually (mono_fn env p s pos ctx ins none) (by simp)
  obtain ⟨n2, hy⟩ := (show Yields _ _ from hy).eventually (mono_fn env q s pos ctx ins none) (by simp)
  obtain ⟨n3, hx'⟩ :=
    (show Yields _ _ from hx').eventually (mono_fn env p s pos ctx ins (some k)) (by simp)
  obtain ⟨n4, hy'⟩ :=
    (show Yields _ _ from hy').eventually (mono_fn env q s pos ctx ins (some k)) (by simp)
  have hx := hx (n1 + n2 + n3 + n4) (by omega)
  have hy := hy (n1 + n2 + n3 + n4) (by omega)
  have hx' := hx' (n1 + n2 + n3 + n4) (by omega)
  have hy' := hy' (n1 + n2 + n3 + n4) (by omega)
  have failed : ∀ {x : Result τ α}, (∀ r, x ≠ .ok r) → x.consumed = false →
      ∃ l, x.failed = some l := by
    intro x hx hc
    cases x with
    | ok r => exact absurd rfl (hx r)
    | error e =>
      have hc : e.consumed = false := hc
      exact ⟨_, by simp [Result.failed, hc]; rfl⟩
    | recovered e =>
      have hc : e.consumed = false := hc
      exact ⟨_, by simp [Result.failed, hc]; rfl⟩
  obtain ⟨⟨l, ex⟩, h1⟩ := failed hxo hxc
  obtain ⟨⟨l', ex'⟩, h2⟩ := failed hyo hyc
  have hr := altFn_some (q := denote env (n1 + n2 + n3 + n4) q) (rem := some k) hx h1
  rw [altSecond_some hy h2] at hr
  simp only [altRecover, hx', hy', Out.bind_def, Out.bind_ret] at hr
  have hfilter : ∀ {a b : Recovered τ α}, RecFrame s pos ctx (some k) a →
      RecFrame s pos ctx (some k) b →
      b.repairs.filter (joinFilter a.minPrio) = b.repairs.filter fun r => r.prio.isSome := by
    intro a b ha hb
    apply List.filter_congr
    intro r hr
    unfold joinFilter prioBelow
    cases hm : a.minPrio with
    | none => rfl
    | some m =>
      have := ha.minPrio m hm
      rcases (hb.reps r hr).prio with h | h
      · simp [h]
      · simp [h]; omega
  cases x' with
  | ok r => 
    cases y' with
    | ok r' => exact ⟨_, ⟨_, hr⟩, by simp, rfl⟩
    | error e' => exact ⟨_, ⟨_, hr⟩, by simp, rfl⟩
    | recovered r' =>
      exact ⟨_, ⟨_, hr⟩, by simp, by
        simp only [Result.offers, choiceOffers, Recovered.setExpected, Option.map_some,
          core_setExpected]⟩
  | error e =>
    cases y' with
    | ok r' => exact ⟨_, ⟨_, hr⟩, by simp, rfl⟩
    | error e' => exact ⟨_, ⟨_, hr⟩, by simp, rfl⟩
    | recovered r' =>
      exact ⟨_, ⟨_, hr⟩, by simp, by
        simp only [Result.offers, choiceOffers, Recovered.setExpected, Option.map_some,
          core_setExpected]⟩
  | recovered r =>
    cases y' with
    | ok r' =>
      exact ⟨_, ⟨_, hr⟩, by simp, by
        simp only [Result.offers, choiceOffers, Recovered.setExpected, Option.map_some,
          core_setExpected]⟩
    | error e' =>
      exact ⟨_, ⟨_, hr⟩, by simp, by
        simp only [Result.offers, choiceOffers, Recovered.setExpected, Option.map_some,
          core_setExpected]⟩
    | recovered r' =>
      refine ⟨_, ⟨_, hr⟩, by simp, ?_⟩
      have f1 : RecFrame .. := frame_denote env _ p s pos ctx ins (some k) _ hp hx'
      have f2 : RecFrame .. := frame_denote env _ q s pos ctx ins (some k) _ hp hy'
      simp only [Result.offers, choiceOffers, Option.map_some, joinRepairs_setExpected,
        core_setExpected, hfilter f1 f2]

end recovering

/-! ### `attempt` -/

/-- C08. `p.attempt()` succeeds as `p` does. -/
theorem C08_success {r : Ok τ α} (h : RunPlain env p s pos ctx (.ret (.ok r))) :
    RunPlain env (.attempt p) s pos ctx (.ret (.ok r)) := by
  obtain ⟨n, h⟩ := h
  exact ⟨n, by simp [denote, denoteWith, attemptFns, attemptFast] at h ⊢; simp [h]⟩

/-- C08. `p.attempt()` fails as `p` does, but never counts as having consumed input. -/
theorem C08_failure {e : Err} (h : RunPlain env p s pos ctx (.ret (.error e))) :
    RunPlain env (.attempt p) s pos ctx
      (.ret (.error { loc := e.loc, expected := e.expected, consumed := false })) := by
  obtain ⟨n, h⟩ := h
  exact ⟨n, by simp [denote, denoteWith, attemptFns, attemptFast] at h ⊢; simp [h]⟩

/-- C08. `p.attempt()` raises as `p` does. -/
theorem C08_raises {e : Exn} (h : RunPlain env p s pos ctx (.raise e)) :
    RunPlain env (.attempt p) s pos ctx (.raise e) := by
  obtain ⟨n, h⟩ := h
  exact ⟨n, by simp [denote, denoteWith, attemptFns, attemptFast] at h ⊢; simp [h]⟩

/-- C08. `p.attempt()` does not return if `p` does not. -/
theorem C08_hangs (h : RunPlain env p s pos ctx .diverge) :
    RunPlain env (.attempt p) s pos ctx .diverge := by
  intro n
  have := h n
  simp [denote, denoteWith, attemptFns, attemptFast] at this ⊢
  simp [this]

/-- C08. If `p` fails, wherever that was, `p.attempt() | q` runs `q` from the original position:
same value, same end. -/
theorem C08_backtracks {e : Err} {r : Ok τ α} (h : RunPlain env p s pos ctx (.ret (.error e)))
    (hq : RunPlain env q s pos ctx (.ret (.ok r))) :
    ∃ r', RunPlain env (.alt (.attempt p) q) s pos ctx (.ret (.ok r')) ∧
      r'.value = r.value ∧ r'.pos = r.pos ∧ r'.ctx = r.ctx := by
  have := C07_second (C08_failure h) rfl hq
  refine ⟨_, this, ?_⟩
  split <;> simp

/-- C08. `p.attempt().maybe()` never fails. -/
theorem C08_maybe_never_fails (e : Err) :
    ¬ RunPlain env (.maybe (.attempt p)) s pos ctx (.ret (.error e)) := by
  rintro ⟨n, h⟩
  simp only [denote, denoteWith, maybeFns, maybeFast, attemptFns, attemptFast, Out.bind_def,
    Out.bind_eq_ret] at h
  obtain ⟨x, ⟨y, h1, h2⟩, h3⟩ := h
  cases y with
  | ok r => simp at h2; subst h2; simp at h3
  | error e' => simp at h2; subst h2; simp at h3

/-- C08 during recovery: where insertions are allowed `p.attempt()` is `p`, so what follows the
attempt can be repaired; while alternatives are tried it is as without recovery. -/
theorem C08_recovering {k : Int} {o : Out (Result τ α)} :
    RunRec env (.attempt p) s pos ctx ins (some k) o ↔ RunRec env p s pos ctx ins (some k) o :=
  Iff.rfl

theorem C08_trying {x : Simple τ α} (h : RunPlain env (.attempt p) s pos ctx (.ret x)) :
    RunRec env (.attempt p) s pos ctx ins none (.ret x.toResult) := by
  obtain ⟨n, h⟩ := h
  refine ⟨n, ?_⟩
  simp only [denote, denoteWith, attemptFns, attemptFast, attemptFn, Out.bind_def,
    Out.bind_eq_ret] at h ⊢
  obtain ⟨y, h1, h2⟩ := h
  refine ⟨y, h1, ?_⟩
  cases y <;> simp at h2 ⊢ <;> subst h2 <;> rfl

/-- `(a + b).attempt() | a` on `"ac"`. -/
example : ∃ e : Err, RunPlain Samples.noEnv Samples.ab "ac".toList 0 (initCtx defaultGetLoc)
      (.ret (.error e)) ∧ e.consumed = true ∧
    RunPlain Samples.noEnv (.map (.sym 'a' "'a'") fun c => (c, 'z')) "ac".toList 0
      (initCtx defaultGetLoc) (.ret (.ok ⟨('a', 'z'), 1, initCtx defaultGetLoc, [], true⟩)) :=
  ⟨_, ⟨0, rfl⟩, rfl, ⟨0, rfl⟩⟩

/-- Hypotheses of C29: `a | b` on `"cab"`: `a` offers an insertion and a skip, `b` too; the insertion
of `b` is dropped. -/
example : ∃ r, RunRec Samples.noEnv (.alt (.sym 'a' "'a'") (.sym 'b' "'b'")) "cab".toList 0
      (initCtx defaultGetLoc) 5 (some 5) (.ret (.recovered r)) ∧
    r.repairs.map (fun x => (x.value, x.pos, x.ops.map OpItem.op)) =
      [('a', 0, [.insert "'a'"]), ('a', 2, [.skip 1]), ('b', 3, [.skip 2])] :=
  ⟨_, ⟨0, rfl⟩, rfl⟩

end Reparsec
