import Verif.Props.Choice

/-!
# C20, C50: `label`, `recover`
-/

namespace Reparsec

variable {τ ρ : Type} {Γ : ρ → Type} {α : Type} [BEq τ]
  {env : Env τ ρ Γ} {p q : P τ ρ Γ α} {s : List τ} {pos : Nat} {ctx : Ctx τ} {ins : Int}
  {rem : Option Int}

/-! ### `label` -/

/-- What `p.label(x)`, run from `pos`, gives when `p` gives `r`: a success that did not advance, and
an error without consumption, get the expected list `[x]`; nothing else changes. -/
def relabelled (x : String) (pos : Nat) : Simple τ α → Simple τ α
  | .ok r => .ok (if r.pos = pos then { r with expected := [x] } else r)
  | .error e => .error (if e.consumed then e else { e with expected := [x] })

/-- C20, without recovery. -/
theorem C20_plain {o : Out (Simple τ α)} (x : String) (hp : pos ≤ s.length)
    (h : RunPlain env p s pos ctx o) :
    RunPlain env (.label p x) s pos ctx (o.map (relabelled x pos)) := by
  have key : Yields (fun n => (labelFns (denote env n p) x).fast s pos ctx)
      (o.map (Simple.setExpected [x])) := Yields.map h _
  have : o.map (relabelled x pos) = o.map (Simple.setExpected [x]) := by
    cases o with
    | diverge => rfl
    | raise e => rfl
    | ret y =>
      cases y with
      | error e => rfl
      | ok r =>
        obtain ⟨n, h⟩ := h
        have hf := frame_fast env n p hp h
        have hc := hf.consumed
        have hl := hf.lo
        simp only [Out.map, relabelled, Simple.setExpected, Ok.setExpected, hc]
        by_cases h1 : r.pos = pos
        · rw [if_pos h1, if_neg (by simp; omega)]
        · rw [if_neg h1, if_pos (by simp; omega)]
  rw [this]; exact key

/-- What `label` makes of a reported operation: nothing, if input was consumed before it. -/
def OpItem.relabelled (x : String) (i : OpItem) : OpItem :=
  if i.consumed then i else { i with expected := [x] }

/-- C20, with recovery: the same repairs at the same costs with the same values and operations; the
expected lists of the whole and of the operations become `[x]` unless input was consumed before. -/
theorem C20_recovering {y : Result τ α} (x : String)
    (h : RunRec env p s pos ctx ins rem (.ret y)) :
    ∃ y', RunRec env (.label p x) s pos ctx ins rem (.ret y') ∧
      y'.consumed = y.consumed ∧
      y'.expected = (if y.consumed then y.expected else [x]) ∧
      (match y, y' with
        | .ok r, .ok r' => r'.value = r.value ∧ r'.pos = r.pos ∧ r'.ctx = r.ctx
        | .error e, .error e' => e'.loc = e.loc
        | .recovered r, .recovered r' => r'.loc = r.loc ∧
            r'.repairs.map Repair.core = r.repairs.map Repair.core ∧
            r'.repairs.map Repair.ops =
              r.repairs.map fun z => z.ops.map (OpItem.relabelled x)
        | _, _ => False) := by
  refine ⟨y.setExpected [x], Yields.map h _, ?_⟩
  cases y with
  | ok r => by_cases hc : r.consumed <;>
      simp [Result.setExpected, Result.consumed, Result.expected, Ok.setExpected, hc]
  | error r => by_cases hc : r.consumed <;>
      simp [Result.setExpected, Result.consumed, Result.expected, Err.setExpected, hc]
  | recovered r =>
    refine ⟨rfl, rfl, rfl, core_setExpected _ _, ?_⟩
    simp only [Recovered.setExpected, List.map_map]
    rfl

/-- C20. The outer label wins: `p.label(x).label(y)` is `p.label(y)`. -/
theorem C20_label_label (env : Env τ ρ Γ) (p : P τ ρ Γ α) (x y : String) :
    Same env (.label (.label p x) y) (.label p y) := by
  refine .of_denote fun n => ?_
  show labelFns (labelFns (denote env n p) x) y = labelFns (denote env n p) y
  simp only [labelFns]
  congr 1
  · funext s pos ctx
    simp only [Out.bind_def, Out.pure_def, Out.bind_assoc, Out.bind_ret]
    apply Out.bind_congr
    intro r
    cases r with
    | ok r => by_cases h : r.consumed <;> simp [Simple.setExpected, Ok.setExpected, h]
    | error r => by_cases h : r.consumed <;> simp [Simple.setExpected, Err.setExpected, h]
  · funext s pos ctx ins rem
    simp only [Out.bind_def, Out.pure_def, Out.bind_assoc, Out.bind_ret]
    apply Out.bind_congr
    intro r
    cases r with
    | ok r => by_cases h : r.consumed <;> simp [Result.setExpected, Ok.setExpected, h]
    | error r => by_cases h : r.consumed <;> simp [Result.setExpected, Err.setExpected, h]
    | recovered r => simp [Result.setExpected, Recovered.setExpected_twice]

/-- A failure that consumed nothing, and one that did. -/
example : RunPlain Samples.noEnv (.label Samples.ab "pair") "c".toList 0 (initCtx defaultGetLoc)
      (.ret (.error ⟨⟨0, 0, 0⟩, ["pair"], false⟩)) ∧
    RunPlain Samples.noEnv (.label Samples.ab "pair") "ac".toList 0 (initCtx defaultGetLoc)
      (.ret (.error ⟨⟨1, 0, 0⟩, ["'b'"], true⟩)) := ⟨⟨0, rfl⟩, ⟨0, rfl⟩⟩

/-! ### `recover`, `recover_with`, `recover_with_fn` without recovery -/

/-- C50. Without recovery `p.recover()` is `p`. -/
theorem C50_recover_plain (o : Out (Simple τ α)) :
    RunPlain env (.recover p) s pos ctx o ↔ RunPlain env p s pos ctx o := Iff.rfl

/-- C50. Without recovery `p.recover_with(x)` is `p`. -/
theorem C50_recover_with_plain (x : α) (l : String) (o : Out (Simple τ α)) :
    RunPlain env (.recoverWith p x l) s pos ctx o ↔ RunPlain env p s pos ctx o := Iff.rfl

/-- C50. Without recovery `p.recover_with_fn(f)` is `p`. -/
theorem C50_recover_with_fn_plain (f : List τ → Nat → Except Exn α) (l : α → String)
    (o : Out (Simple τ α)) :
    RunPlain env (.recoverWithFn p f l) s pos ctx o ↔ RunPlain env p s pos ctx o := Iff.rfl

/-- A repair that no longer counts as starting with an automatic insertion (`prio` is `None` for
exactly those). -/
def promoted (r : Repair τ α) : Repair τ α := { r with prio := some 0 }

/-- The result with all its repairs promoted. -/
def Result.promoted : Result τ α → Result τ α
  | .recovered r => .recovered { r with repairs := r.repairs.map Reparsec.promoted }
  | x => x

/-- C50. With recovery `p.recover()` is `p` up to the promotion of its repairs. -/
theorem C50_recover (hp : pos ≤ s.length) {o : Out (Result τ α)}
    (h : RunRec env p s pos ctx ins rem o) :
    RunRec env (.recover p) s pos ctx ins rem (o.map Result.promoted) := by
  cases o with
  | diverge =>
    intro n
    have := h n
    simp only [denote, denoteWith, recoverFns, recoverFn] at this ⊢
    simp [this]
  | raise e =>
    obtain ⟨n, h⟩ := h
    refine ⟨n, ?_⟩
    simp only [denote, denoteWith, recoverFns, recoverFn] at h ⊢
    simp [h]
  | ret x =>
    obtain ⟨n, h⟩ := h
    refine ⟨n, ?_⟩
    have hf := frame_denote env n p s pos ctx ins rem _ hp h
    simp only [denote, denoteWith, recoverFns, recoverFn] at h ⊢
    simp only [h, Out.bind_def, Out.bind_ret]
    cases x with
    | ok r => rfl
    | error e => rfl
    | recovered r =>
      have hf : RecFrame .. := hf
      simp only [Result.promoted]
      congr 3
      apply List.map_congr_left
      intro z hz
      have := (hf.reps z hz).prio
      unfold Repair.promote promoted
      rcases this with h | h <;> simp [h]

/-- C50. `p.recover().recover()` is `p.recover()`. -/
theorem C50_recover_recover (env : Env τ ρ Γ) (p : P τ ρ Γ α) :
    Same env (.recover (.recover p)) (.recover p) := by
  refine .of_denote fun n => ?_
  show recoverFns (recoverFns (denote env n p)) = recoverFns (denote env n p)
  simp only [recoverFns]
  congr 1
  funext s pos ctx ins rem
  simp only [recoverFn, Out.bind_def, Out.bind_assoc]
  apply Out.bind_congr
  intro r
  cases r with
  | ok r => rfl
  | error e => rfl
  | recovered r =>
    simp only [Out.bind_ret, List.map_map]
    congr 3
    apply List.map_congr_left
    intro z _
    simp only [Function.comp_def, Repair.promote]
    cases z.prio <;> rfl

/-- C50. A second alternative inside `recover()` keeps all its repairs: compare
`C29_choice_repairs`. -/
theorem C50_second_alternative (hp : pos ≤ s.length) {k : Int} {x y : Result τ α}
    {x' y' : Recovered τ α}
    (hx : RunRec env p s pos ctx ins none (.ret x)) (hxo : ∀ r, x ≠ .ok r)
    (hxc : x.consumed = false)
    (hy : RunRec env q s pos ctx ins none (.ret y)) (hyo : ∀ r, y ≠ .ok r)
    (hyc : y.consumed = false)
    (hx' : RunRec env p s pos ctx ins (some k) (.ret (.recovered x')))
    (hy' : RunRec env q s pos ctx ins (some k) (.ret (.recovered y'))) :
    ∃ r, RunRec env (.alt p (.recover q)) s pos ctx ins (some k) (.ret (.recovered r)) ∧
      r.repairs.map Repair.core =
        x'.repairs.map Repair.core ++ (y'.repairs.map promoted).map Repair.core := by
  have h1 := C50_recover hp hy
  have h2 := C50_recover hp hy'
  have h3 : ∀ r, y.promoted ≠ .ok r := by
    cases y with
    | ok r => exact absurd rfl (hyo r)
    | error e => simp [Result.promoted]
    | recovered e => simp [Result.promoted]
  have h4 : y.promoted.consumed = false := by cases y <;> exact hyc
  obtain ⟨r, hr, -, ho⟩ := C29_choice_repairs hp hx hxo hxc h1 h3 h4 hx' h2
  have hfil : (y'.repairs.map promoted).filter (fun r => r.prio.isSome)
      = y'.repairs.map promoted := by
    apply List.filter_eq_self.2
    intro a ha
    obtain ⟨b, -, rfl⟩ := List.mem_map.1 ha
    rfl
  cases r with
  | ok r => simp [Result.offers, choiceOffers, Result.promoted] at ho
  | error r => simp [Result.offers, choiceOffers, Result.promoted] at ho
  | recovered r =>
    refine ⟨r, hr, ?_⟩
    simp only [Result.offers, choiceOffers, Result.promoted, Option.map_some, Option.some.injEq,
      hfil, List.map_append] at ho
    exact ho

/-- `a | b.recover()` on `"c"`: the insertion of `b` is offered too. -/
example : ∃ r, RunRec Samples.noEnv (.alt (.sym 'a' "'a'") (.recover (.sym 'b' "'b'")))
      "c".toList 0 (initCtx defaultGetLoc) 5 (some 5) (.ret (.recovered r)) ∧
    r.repairs.map (fun x => (x.value, x.pos, x.ops.map OpItem.op)) =
      [('a', 0, [.insert "'a'"]), ('b', 0, [.insert "'b'"])] :=
  ⟨_, ⟨0, rfl⟩, rfl⟩

end Reparsec
